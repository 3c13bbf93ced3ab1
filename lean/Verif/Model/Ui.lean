import Verif.Model.Utils
/-
Model of ui.c, of the percentages computed in main.c and patchdd.c, and of log.c's level handling.
-/
namespace Csn

/-- ui.c:11 PROGRESS_BAR_LEN. -/
def barLen : Nat := 60

/-- ui.c:18-22: one store per loop iteration into `char bar[PROGRESS_BAR_LEN + 1]`; a store outside the array is `none`
(undefined behaviour). -/
def drawBar (tip : Nat) : Nat → Bytes → Option Bytes
  | 0, bar => if barLen < bar.length then some (bar.set barLen 0) else none
  | n + 1, bar =>
    let i := barLen - (n + 1)
    if i < bar.length then drawBar tip n (bar.set i (if i < tip then 0x3d else 0x20)) else none

/-- Decimal digits of a number below 1000, right-aligned in three columns (`%3d`). -/
def fmt3d (n : Nat) : Bytes :=
  let dig (k : Nat) : UInt8 := UInt8.ofNat (0x30 + k)
  if n < 10 then [0x20, 0x20, dig n] else if n < 100 then [0x20, dig (n / 10), dig (n % 10)] else [dig (n / 100), dig (n / 10 % 10), dig (n % 10)]

/-- ui.c:15 `spinner`. -/
def spinner : Bytes := str "-\\|//"

/-- ui.c:11-30 `show_progress`: the bytes printed and the new status; `none` is undefined behaviour.  `percent` is a
`uint8_t`, `percent * PROGRESS_BAR_LEN / 100` is computed in `int`.  The array `bar` starts with indeterminate contents,
here zeros, and is printed as a C string. -/
def showProgress (percent : UInt8) (status : BitVec 32) : Option (Bytes × BitVec 32) := do
  let tip := percent.toNat * barLen / 100
  let bar ← drawBar tip barLen (List.replicate (barLen + 1) 0)
  let c ← spinner[status.toNat % spinner.length]?
  some (0x1b :: str "[0G[" ++ [c] ++ str "] |" ++ cstr bar ++ str "| " ++ fmt3d percent.toNat ++ str "%" ++ (if percent = 100 then [0x0a] else []), status + 1)

/-- main.c:77-80: `100 * ++handled_entries / n_entries`, with a `uint32_t` product and a `size_t` division, converted to
`uint8_t`.  `handled` is the value after the increment; `n_entries` is positive there. -/
def percentMain (handled : BitVec 32) (n : Nat) : UInt8 :=
  UInt8.ofNat ((100#32 * handled).toNat / n)

/-- patchdd.c:93: `(100ull * offset) / src_size`, converted to `uint8_t`. -/
def percentPatch (offset size : Nat) : UInt8 :=
  UInt8.ofNat ((100 * offset % 2 ^ 64) / size)

/-- log.h:6-11. -/
inductive Level where
  | err | warn | info | debug
  deriving DecidableEq, Repr

/-- The values of the enumeration (log.h:6-11). -/
def Level.val : Level → Nat
  | .err => 0 | .warn => 1 | .info => 2 | .debug => 3

/-- log.c:14-34 `u_log_init`: the level set from the environment variable LOGLEVEL (`none`: unset), starting with the static
initial value of log.c:11. -/
def logInit (env : Option Bytes) : Level :=
  match env with
  | none => .info
  | some s =>
    if streq s (str "debug") then .debug
    else if streq s (str "info") then .info
    else if streq s (str "warn") || streq s (str "warning") then .warn
    else if streq s (str "err") || streq s (str "error") then .err
    else .info

/-- log.c:44-50 `check_loglevel`. -/
def checkLevel (threshold level : Level) : Bool :=
  if level.val > threshold.val then false else true

/-- log.c:52-57 `_u_log`: whether a message is printed. -/
def logPrints (env : Option Bytes) (level : Level) : Bool :=
  if checkLevel (logInit env) level == false then false else true

/-- main.c:76: whether entry_cb shows progress. -/
def progressShown (interactive : Bool) (env : Option Bytes) : Bool := interactive && !(checkLevel (logInit env) .debug)

end Csn
