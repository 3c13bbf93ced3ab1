import Verif.Model.Utils
/-
Model of sha.c.
-/
namespace Csn

/-- sha.c:22 `kcapi_fd` (`on`: not -1) together with the bytes the kernel has collected for the current digest. -/
structure Kcapi where
  on : Bool
  acc : Bytes
  deriving DecidableEq, Repr

/-- The descriptors the process has open, and sha.c:22 `kcapi_fd` (`none`: -1). -/
structure KFds where
  opened : List Nat
  kcapi : Option Nat
  deriving DecidableEq, Repr

/-- What the kernel decides in sha.c:24-71: whether `socket`, `bind` with the given type and name and `accept` succeed, and
which number a new descriptor gets. -/
structure KEnv where
  socket : Bool
  bind : Bytes → Bytes → Bool
  accept : Bool
  fresh : List Nat → Nat

/-- strncpy (sha.c:49) and the initialiser in sha.c:37-40: a character array of size `n` holding a string that is copied up to
its size and padded with NUL bytes. -/
def charArray (n : Nat) (s : Bytes) : Bytes := s.take n ++ List.replicate (n - s.length) 0

/-- sha.c:24-71 `sha_kcapi_init`: the return value (`true`: 0), the address passed to `bind` (`salg_type` and `salg_name` of
linux/if_alg.h), the descriptors afterwards.  `driver` is a C string or a null pointer.  `close` does not fail. -/
def shaKcapiInit (e : KEnv) (driver : Option Bytes) (st : KFds) : Bool × Option (Bytes × Bytes) × KFds :=
  if e.socket = false then (false, none, st)
  else
    let algFd := e.fresh st.opened
    let st1 : KFds := { st with opened := algFd :: st.opened }
    let closed (st : KFds) : KFds := { st with opened := st.opened.erase algFd }
    let driver := match driver with | some d => d | none => str "sha256"
    if driver.length ≥ 64 then (false, none, closed st1)
    else
      let ty := charArray 14 (str "hash")
      let name := charArray 64 driver
      if e.bind ty name = false then (false, some (ty, name), closed st1)
      else if e.accept = false then (false, some (ty, name), closed st1)
      else
        let fd := e.fresh st1.opened
        (true, some (ty, name), closed { opened := fd :: st1.opened, kcapi := some fd })

/-- sha.c:73-80 `sha_kcapi_deinit`. -/
def shaKcapiDeinit (st : KFds) : KFds :=
  match st.kcapi with
  | none => st
  | some fd => { opened := st.opened.erase fd, kcapi := none }

/-- sha.c:87-101: the send loop, one schedule item per iteration.  Results: `true` everything sent, `false` jump to `disable`
with the rest that is left; `none` the process is killed.  A `send` that accepts nothing (0) leads to another iteration. -/
def sendLoop (rest : Bytes) (acc : Bytes) : List Sys → Option (Bool × Bytes × Bytes) × List Sys
  | [] => (if rest.isEmpty then some (true, rest, acc) else none, [])
  | s :: r =>
    if rest.isEmpty then (some (true, rest, acc), s :: r)
    else
      match s with
      | .eintr => sendLoop rest acc r
      | .err => (some (false, rest, acc), r)
      | .zero => sendLoop rest acc r
      | .some k => sendLoop (rest.drop (k + 1)) (acc ++ rest.take (k + 1)) r

/-- sha.h:5 `SHA_LEN` -/
def shaLen : Nat := 32

/-- sha.c:103-115: receive the digest `d` into `out`, retrying on EINTR.  At most `SHA_LEN` bytes arrive.  Results: whether the
function returns success (`none`: killed) and the buffer afterwards. -/
def recvLoop (d out : Bytes) : List Sys → Option Bool × Bytes × List Sys
  | [] => (none, out, [])
  | .eintr :: r => recvLoop d out r
  | .err :: r => (some false, out, r)
  | .zero :: r => (some false, out, r)
  | .some k :: r =>
    let n := min (k + 1) shaLen
    (some (decide (n = shaLen)), bufWrite out 0 (d.take n), r)

/-- sha.c:82-125 `sha_once`.  `H` is OpenSSL's SHA-256 (which does not fail), `K` the digest the kernel computes with the
chosen driver.  The result is the buffer `out` afterwards (`none`: killed), the new state and the rest of the schedule.  After
`disable` the socket is closed and `data`/`len` have the values they had at the jump. -/
def shaOnce (H K : Bytes → Bytes) (st : Kcapi) (data out : Bytes) (sys : List Sys) : Option Bytes × Kcapi × List Sys :=
  if st.on = false then (some (bufWrite out 0 (H data)), st, sys)
  else
    match sendLoop data st.acc sys with
    | (none, r) => (none, st, r)
    | (some (false, rest, _), r) => (some (bufWrite out 0 (H rest)), ⟨false, []⟩, r)
    | (some (true, rest, acc), r) =>
      match recvLoop (K acc) out r with
      | (none, _, r') => (none, ⟨true, acc⟩, r')
      | (some true, out, r') => (some out, ⟨true, []⟩, r')
      | (some false, out, r') => (some (bufWrite out 0 (H rest)), ⟨false, []⟩, r')

end Csn
