import Verif.Model.Encrypt
/-
Model of csn-tool.c.
-/
namespace Csn

/-- Surroundings of csn-tool: the environment variables, everything that can be read from standard input, the inode
behind standard output and the position in it, and OpenSSL's habit (see `encryptDo`). -/
structure Tool where
  getenv : Bytes → Option Bytes
  stdin : Bytes
  out : Nat
  pos : Nat
  evp0 : Bool

/-- limits.h PATH_MAX on Linux. -/
def pathMax : Nat := 4096

/-- csn-tool.c:14-18: what follows the last '/', or all of `path`. -/
def baseName (path : Bytes) : Bytes := (path.reverse.takeWhile (· != 0x2f)).reverse

/-- csn-tool.c:12-36 `chunk_id_from_path`; `none` is -1. -/
def chunkIdFromPath (path : Bytes) : Option Id :=
  let b := baseName path
  if b.length ≠ 70 ∧ b.length ≠ 74 then none
  else if !streq (b.drop (b.length - 6)) (str ".cacnk") && !streq (b.drop (b.length - 10)) (str ".cacnk.enc") then none
  else
    match parseHex (b.take 64) with
    | (true, id) => some id
    | (false, _) => none

/-- csn-tool.c:49-73: the output name if none is given; `none`: the path is too long (or has no such name). -/
def derivedOutput (input : Bytes) : Option Bytes :=
  let len := input.length
  if 6 ≤ len ∧ streq (input.drop (len - 6)) (str ".cacnk") = true then
    if len > pathMax - 5 then none else some (input ++ str ".enc")
  else if 10 ≤ len ∧ streq (input.drop (len - 10)) (str ".cacnk.enc") = true then
    if len > pathMax - 1 then none else some (input.take (len - 4))
  else none

/-- `access(path, F_OK) == 0`.  Like every call it may fail although the file exists.  There are no symbolic links in
the model. -/
def accessOk (path : Bytes) : M Bool := do
  if !(← M.sysOk) then return false
  (fun w => (.ok (w.dir path).isSome, w) : M Bool)

/-- The world with a new empty file. -/
def World.create (w : World) (path : Bytes) : World :=
  { w with
    dir := fun p => if p = path then some w.next else w.dir p
    kind := fun i => if i = w.next then .reg else w.kind i
    data := fun i => if i = w.next then [] else w.data i
    next := w.next + 1
    log := w.log ++ [.create w.next] }

/-- Effect of a successful `open(path, O_WRONLY | O_TRUNC | O_CREAT, 0444)`: an existing regular file is emptied, a
missing one is created. -/
def creat (path : Bytes) : M Nat := fun w =>
  match w.dir path with
  | some ino => (.ok ino, { w with data := fun i => if i = ino ∧ w.kind ino = .reg then [] else w.data i })
  | none => (.ok w.next, w.create path)

/-- csn-tool.c:100.  Permissions are not modelled: a call refused for lack of them is a call that fails. -/
def openCreat (path : Bytes) : M (Option Nat) := do
  if !(← M.sysOk) then return none
  let ino ← creat path
  return some ino

/-- csn-tool.c:38-122 `encrypt_one`; `false` is -1.  The buffer is encrypted in place. -/
def encryptOne (T : Tool) (ec : EncCtx) (input : Bytes) (output : Option Bytes) : M (Bool × EncCtx) :=
  match chunkIdFromPath input with
  | none => return (false, ec)
  | some id =>
    match output.or (derivedOutput input) with
    | none => return (false, ec)
    | some out => do
      if ← accessOk out then return (true, ec)
      let ec := encryptRestart ec id
      match ← slurpFile input false with
      | none => return (false, ec)
      | some buf =>
        match encryptDoCtx ec T.evp0 buf with
        | (none, ec) => return (false, ec)
        | (some o, ec) =>
          let buf := o ++ buf.drop o.length
          if streq out (str "-") then
            return (← pwriteall T.out buf T.pos, ec)
          else
            match ← openCreat out with
            | none => return (false, ec)
            | some ino => return (← pwriteall ino buf 0, ec)

/-- csn-tool.c:148: the lines that successive calls of `fgets(line, PATH_MAX, stdin)` return; `cur` is what the current
call has read.  A read error ends the input like an end of file. -/
def fgetsLines (cur : Bytes) : Bytes → List Bytes
  | [] => if cur = [] then [] else [cur]
  | c :: r =>
    if c = 0x0a ∨ (cur ++ [c]).length = pathMax - 1 then (cur ++ [c]) :: fgetsLines [] r
    else fgetsLines (cur ++ [c]) r

/-- csn-tool.c:148-154: the loop over the input lines.  `chomp` sees a line up to its first NUL. -/
def cryptLines (T : Tool) (ec : EncCtx) : List Bytes → M Bool
  | [] => return true
  | l :: r => do
    let (ok, ec) ← encryptOne T ec (chomp (cstr l)) none
    if !ok then return false
    cryptLines T ec r

/-- csn-tool.c:124-169 `do_crypt`, without `argv[0]`; `true` is EXIT_SUCCESS. -/
def doCrypt (T : Tool) (args : List Bytes) : M Bool :=
  match args with
  | [] => return false
  | spec :: rest => do
    if rest.length > 2 ∨ streq spec (str "-h") = true ∨ streq spec (str "--help") = true then return false
    match ← parseKeyspec T.getenv spec with
    | none => return false
    | some key =>
      let ec := encryptInit key
      match rest with
      | [] => cryptLines T ec (fgetsLines [] T.stdin)
      | input :: output => do
        let (ok, _) ← encryptOne T ec input output.head?
        return ok

/-- csn-tool.c:192-207 `main`, without `argv[0]`: the exit status.  The texts of `usage` are not modelled. -/
def toolMain (T : Tool) (args : List Bytes) : M Bool :=
  match args with
  | [] => return false
  | cmd :: rest =>
    if streq cmd (str "-h") || streq cmd (str "--help") then return true
    else if streq cmd (str "crypt") then doCrypt T rest
    else return true

end Csn
