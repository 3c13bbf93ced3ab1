import Verif.Model.Log
import Verif.Model.Tool
/-
The messages of the code that handles keys: encrypt.c, the construction of stores on the network and the statistics about them, and
csn-tool.  What calls outside of this code do (allocation, files, OpenSSL, curl, zstd) are arbitrary answers.
-/
namespace Csn.Msg

/-- One call of `_u_log`: the place (an entry of `logSites`: file and first line) and the arguments. -/
structure Note where
  file : String
  line : Nat
  args : List LogArg
  deriving DecidableEq

/-- What slurp_file (utils.c:178-217) meets with a path.  Texts are those of strerror. -/
inductive Slurped where
  | noFile (err : Bytes)
  | noStat (err : Bytes)
  | oddType (mode : BitVec 32)
  | noDevSize (err : Bytes)
  | noMem (size : BitVec 64) (err : Bytes)
  | readFails (err : Bytes)
  | short (want got : BitVec 64)
  | data (d : Bytes)
  deriving DecidableEq

/-- The surroundings: environment variables and files. -/
structure Ext where
  getenv : Bytes → Option Bytes
  file : Bytes → Slurped

/-- Programs that write messages.  The first list of the state has the answers of the calls to come: `none` for success, otherwise
the text of the error, where there is one. -/
abbrev X := StateM (List (Option Bytes) × List Note)

/-- A call of `_u_log` (log.c:52); whether the message is printed depends on its level (`uLog`). -/
def say (file : String) (line : Nat) (args : List LogArg) : X Unit := fun s => ((), s.1, s.2 ++ [⟨file, line, args⟩])

/-- The answer of the next call outside of this code (no code of its own); `none` is success, also when there are no more answers. -/
def ask : X (Option Bytes) := fun s =>
  match s.1 with
  | [] => (none, s)
  | a :: r => (a, r, s.2)

/-- utils.c:155-217 `slurp_file` with `fd_size`, `blockdevice_size` (Linux) and `readall`. -/
def slurp (path : Bytes) : Slurped → X (Option Bytes)
  | .noFile err => do
    say "utils.c" 186 [.str path, .str err]
    return none
  | .noStat err => do
    say "utils.c" 163 [.str err]
    say "utils.c" 192 [.str path]
    return none
  | .oddType mode => do
    say "utils.c" 172 [.w4 mode]
    say "utils.c" 192 [.str path]
    return none
  | .noDevSize err => do
    say "utils.c" 44 [.str err]
    say "utils.c" 192 [.str path]
    return none
  | .noMem size err => do
    say "utils.c" 199 [.w8 size, .str err]
    return none
  | .readFails err => do
    say "utils.c" 67 [.str err]
    say "utils.c" 204 [.str path]
    return none
  | .short want got => do
    say "utils.c" 70 [.w8 want, .w8 got]
    say "utils.c" 204 [.str path]
    return none
  | .data d => return some d

/-- utils.c:248-266 `parse_hex`: `%c` gets the first character that is no digit (a signed `char` turned into an `int`). -/
def hex (s : Bytes) : X (Option Bytes) := do
  match parseHex s with
  | (true, k) => return some k
  | (false, _) => do
    match s.find? (fun c => (nibble c).isNone) with
    | some c => say "utils.c" 253 [.w4 (c.toBitVec.signExtend 32)]
    | none => pure ()
    return none

/-- encrypt.c:174-186: the checks of a key. -/
def check (s : Bytes) : X (Option Bytes) := do
  if s.length ≠ 64 then do
    say "encrypt.c" 175 [.w8 (BitVec.ofNat 64 s.length)]
    return none
  else
    match ← hex s with
    | some k => return some k
    | none => do
      say "encrypt.c" 180 []
      return none

/-- encrypt.c:145-195 `encrypt_parse_keyspec`. -/
def keyspec (e : Ext) (spec : Bytes) : X (Option Bytes) := do
  if startswith spec (str "key:") then check (spec.drop 4)
  else if startswith spec (str "env:") then
    match e.getenv (spec.drop 4) with
    | none => do
      say "encrypt.c" 157 [.str (spec.drop 4)]
      return none
    | some s => check s
  else if startswith spec (str "file:") then
    match ← slurp (spec.drop 5) (e.file (spec.drop 5)) with
    | none => return none
    | some d => check (chomp (cstr d))
  else do
    say "encrypt.c" 170 [.str spec]
    return none

/-- encrypt.c:87-98 `encrypt_init`: the key in the context. -/
def init (key : Bytes) : X (Option Bytes) := do
  match ← ask with
  | some _ => do
    say "encrypt.c" 91 []
    return none
  | none => return some key

/-- encrypt.c:100-128 `encrypt_restart`.  What hchacha20 and the cipher compute is not needed here; they print nothing. -/
def restart (_key : Bytes) (_nonce : Id) : X Bool := do
  match ← ask with
  | some _ => do
    say "encrypt.c" 112 []
    return false
  | none =>
    match ← ask with
    | some _ => do
      say "encrypt.c" 117 []
      return false
    | none => return true

/-- store-http.c:396-432 `store_handle_params`; see `handleParams`. -/
def params (e : Ext) : Nat → Bytes → Option Bytes → X (Bool × Option Bytes)
  | 0, _, key => return (true, key)
  | fuel + 1, p, key =>
    if p = [] then return (true, key)
    else do
      let word := p.takeWhile (· != 0x2c)
      if startswith word (str "encrypt=") then
        match ← keyspec e (word.drop 8) with
        | none => do
          say "store-http.c" 410 []
          return (false, key)
        | some k =>
          match ← init k with
          | none => do
            say "store-http.c" 415 []
            return (false, key)
          | some k => if word.length < p.length then params e fuel (p.drop (word.length + 1)) (some k) else return (true, some k)
      else do
        say "store-http.c" 421 [.str word]
        return (false, key)

/-- A store on the network (store-http.c:18-35), as far as messages are concerned: store.h:11 `name`, store-http.c:21 `baseurl`, the
key. -/
structure Net where
  name : Bytes
  base : Bytes
  key : Option Bytes
  deriving DecidableEq

/-- store-http.c:480-493: the options of curl, with their numbers in curl.h. -/
def options : List (Nat × Nat) := [(480, 20011), (483, 10010), (486, 52), (489, 20), (492, 19)]

/-- store-http.c:37-45 for each of them. -/
def setOptions : List (Nat × Nat) → X Bool
  | [] => return true
  | (line, opt) :: r => do
    match ← ask with
    | some err => do
      say "store-http.c" line [.w4 (BitVec.ofNat 32 opt), .str err]
      return false
    | none => setOptions r

/-- utils.h:40-45 `u_notnull` around an allocation. -/
def notNull (file : String) (line : Nat) (expr : Bytes) : X Bool := do
  match ← ask with
  | some _ => do
    say file line [.str expr]
    return false
  | none => return true

/-- store-http.c:453-460: the parameters after the last `#`, and what is before it. -/
def fragment (e : Ext) (url : Bytes) : X (Bool × Option Bytes × Bytes) :=
  match lastIdx 0x23 url with
  | some i => do
    let (ok, key) ← params e (url.length + 1) (url.drop (i + 1)) none
    return (ok, key, url.take i)
  | none => return (true, none, url)

/-- store-http.c:436-513 `store_http_new`.  `name` is cut off by snprintf (473): STORE_NAME_MAX is 128 (store.h:8). -/
def httpNew (e : Ext) (url : Bytes) : X (Option Net) := do
  match ← ask with
  | some _ => do
    say "store-http.c" 441 []
    return none
  | none =>
    if !(← notNull "store-http.c" 447 (str "hs")) then return none
    if !(← notNull "store-http.c" 450 (str "tmp")) then return none
    let (ok, key, tmp) ← fragment e url
    if !ok then
      say "store-http.c" 456 []
      return none
    let base := stripSlash tmp
    if !(← notNull "store-http.c" 471 (str "hs->url_buf")) then return none
    if !(← notNull "store-http.c" 478 (str "hs->curl")) then return none
    if !(← setOptions options) then return none
    if !(← notNull "store-http.c" 496 (str "hs->zstd")) then return none
    return some ⟨url.take 127, base, key⟩

/-- main.c:96-101 and 115-118: a store on the network given on the command line.  `full`: the array of stores has to grow
(store.c:115-121). -/
def appendHttp (e : Ext) (full : Bool) (arg : Bytes) : X (Option Net) := do
  match ← httpNew e arg with
  | none => do
    say "main.c" 99 [.str arg]
    return none
  | some n =>
    if full then
      if !(← notNull "store.c" 121 (str "new_stores")) then
        say "main.c" 117 [.str arg]
        return none
      return some n
    else return some n

/-- All such stores of a command line (main.c:166-169). -/
def appendAll (e : Ext) : List (Bool × Bytes) → X (Option (List Net))
  | [] => return some []
  | (full, arg) :: r => do
    match ← appendHttp e full arg with
    | none => return none
    | some n =>
      match ← appendAll e r with
      | none => return none
      | some ns => return some (n :: ns)

/-- store.c:70-73: the statistics about stores, with their counters. -/
def served : List Net → List (BitVec 32) → X Unit
  | n :: ns, h :: hs => do
    say "store.c" 71 [.w4 h, .str n.name]
    served ns hs
  | _, _ => pure ()

/-- Setting up the stores and, at the end, the statistics. -/
def storesLife (e : Ext) (args : List (Bool × Bytes)) (queries : BitVec 32) (hits : List (BitVec 32)) : X Bool := do
  match ← appendAll e args with
  | none => return false
  | some ns => do
    say "store.c" 68 [.w4 queries, .str (str "chain0")]
    served ns hits
    return true

/-- csn-tool.c:12-36 `chunk_id_from_path`. -/
def chunkId (path : Bytes) : X (Option Id) := do
  let b := baseName path
  if b.length ≠ 70 ∧ b.length ≠ 74 then do
    say "csn-tool.c" 22 [.str b, .w8 (BitVec.ofNat 64 b.length)]
    return none
  else if !streq (b.drop (b.length - 6)) (str ".cacnk") && !streq (b.drop (b.length - 10)) (str ".cacnk.enc") then do
    say "csn-tool.c" 27 [.str b]
    return none
  else hex (b.take 64)

/-- csn-tool.c:49-73: the name of the output. -/
def outName (input : Bytes) : X (Option Bytes) := do
  let len := input.length
  if 6 ≤ len ∧ streq (input.drop (len - 6)) (str ".cacnk") = true then
    if len > pathMax - 5 then
      say "csn-tool.c" 53 []
      return none
    else return some (input ++ str ".enc")
  else if 10 ≤ len ∧ streq (input.drop (len - 10)) (str ".cacnk.enc") = true then
    if len > pathMax - 1 then
      say "csn-tool.c" 62 []
      return none
    else return some (input.take (len - 4))
  else
    say "csn-tool.c" 70 []
    return none

/-- csn-tool.c:75-119, the rest of `encrypt_one`. -/
def convert (e : Ext) (key : Bytes) (id : Id) (input out : Bytes) : X Bool := do
  match ← ask with
  | none => return true -- access
  | some _ =>
    if !(← restart key id) then
      say "csn-tool.c" 80 []
      return false
    match ← slurp input (e.file input) with
    | none => do
      say "csn-tool.c" 87 []
      return false
    | some _ =>
      match ← ask with
      | some _ => do -- encrypt_do
        say "csn-tool.c" 92 []
        return false
      | none =>
        let opened ← if streq out (str "-") then pure none else ask
        match opened with
        | some err => do
          say "csn-tool.c" 103 [.str err]
          return false
        | none =>
          match ← ask with
          | some err => do -- writeall
            say "utils.c" 118 [.str err]
            say "csn-tool.c" 109 []
            return false
          | none => return true

/-- csn-tool.c:38-122 `encrypt_one`. -/
def one (e : Ext) (key : Bytes) (input : Bytes) (output : Option Bytes) : X Bool := do
  match ← chunkId input with
  | none => do
    say "csn-tool.c" 44 []
    return false
  | some id =>
    match output with
    | some out => convert e key id input out
    | none =>
      match ← outName input with
      | none => return false
      | some out => convert e key id input out

/-- csn-tool.c:148-152: the lines of standard input. -/
def lines (e : Ext) (key : Bytes) : List Bytes → X Bool
  | [] => return true
  | l :: r => do
    if !(← one e key (chomp (cstr l)) none) then return false
    lines e key r

/-- csn-tool.c:134-168, `do_crypt` with arguments that it accepts: the names given, or the lines read. -/
def crypt (e : Ext) (spec : Bytes) (names : Option (Bytes × Option Bytes)) (stdin : List Bytes) : X Bool := do
  match ← keyspec e spec with
  | none => do
    say "csn-tool.c" 136 []
    return false
  | some key =>
    match ← init key with
    | none => do
      say "csn-tool.c" 142 []
      return false
    | some key =>
      match names with
      | some (i, o) => one e key i o
      | none => lines e key stdin

end Csn.Msg
