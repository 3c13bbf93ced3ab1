import Verif.Model.Store
/-
Model of main.c.
-/
namespace Csn

/-- State of `entry_cb` (main.c:34-37 and the globals 22-27 it uses). -/
structure Cb where
  resuming : Bool
  haveLast : Bool
  lastId : Id
  buf : Bytes
  skipped : Nat
  tgt : Tgt
  chain : Chain Store
  deriving DecidableEq, Repr

/-- main.c:32-84 `entry_cb`; the progress display (73-81) is modelled separately (Model/Ui). -/
def entryCb (env : Env) (c : Cb) (e : Seg) : M (Bool × Cb) := do
  -- 57-71, 83
  let store (c : Cb) : M (Bool × Cb) := do
    let fetched : Bool × Cb ←
      if !c.haveLast || c.lastId != e.id then do
        let (r, tgt, chain, buf) ← chainGet (storeGet env) c.tgt c.chain e.id c.buf
        let c := { c with tgt := tgt, chain := chain, buf := buf }
        if r = some e.len then pure (true, { c with lastId := e.id, haveLast := true })
        else pure (false, c)
      else pure (true, c)
    match fetched with
    | (false, c) => return (false, c)
    | (true, c) => do
      let (ok, tgt) ← targetWrite env.lib c.tgt c.buf e.len e.off e.id
      return (ok, { c with tgt := tgt })
  if c.resuming then
    if e.len > c.buf.length then return (false, c)
    else do
      let (r, tgt, buf) ← targetCheck env c.tgt c.buf e.len e.off e.id
      let c := { c with tgt := tgt, buf := buf }
      if r = some true then return (true, { c with skipped := c.skipped + 1 })
      else store { c with resuming := false }
  else store c

/-- main.c:88-115: the store an argument of `append_store_from_arg` denotes; the index estimate is
`n_entries`.  With a target store the target's state changes. -/
def makeStore (env : Env) (tpath : Bytes) (n : Nat) (p : Params) (t : Tgt) (arg : Bytes) : M (Option (Store × Tgt)) :=
  if streq arg tpath then do
    match ← targetAsStore t n with
    | (false, _) => pure none
    | (true, t) => pure (some (.target, t))
  else if startswith arg (str "http") then do
    match ← httpNew env arg with
    | none => pure none
    | some h => pure (some (.http h, t))
  else do
    let path := arg.takeWhile (· != 0x3a)
    let index := if path.length < arg.length then some (arg.drop (path.length + 1)) else none
    match ← localNew env.toLEnv path index p with
    | none => pure none
    | some l => pure (some (.loc l, t))

/-- main.c:86-122 `append_store_from_arg`. -/
def appendStore (env : Env) (tpath : Bytes) (n : Nat) (p : Params) (t : Tgt) (c : Chain Store) (arg : Bytes) :
    M (Bool × Tgt × Chain Store) := do
  match ← makeStore env tpath n p t arg with
  | none => return (false, t, c)
  | some (s, t) => do
    let (ok, c) ← chainAppend c s
    return (ok, t, c)

/-- main.c:166-169 (and 243): append all store arguments. -/
def appendAll (env : Env) (tpath : Bytes) (n : Nat) (p : Params) : Tgt → Chain Store → List Bytes →
    M (Bool × Tgt × Chain Store)
  | t, c, [] => return (true, t, c)
  | t, c, a :: as => do
    match ← appendStore env tpath n p t c a with
    | (false, t, c) => return (false, t, c)
    | (true, t, c) => appendAll env tpath n p t c as

/-- What a front end leaves behind: index file, parameters, entry count, target, store chain. -/
structure Setup where
  iino : Nat
  p : Params
  n : Nat
  tgt : Tgt
  chain : Chain Store
  deriving DecidableEq, Repr

/-- main.c:142-158 / 210-226: index and target. -/
def openBoth (ipath tpath : Bytes) : M (Option (Nat × Params × Nat × Tgt)) := do
  match ← openPath ipath with
  | none => return none
  | some iino =>
    match ← caibxLoadHeader iino with
    | none => return none
    | some (p, n) =>
      match ← targetNew tpath with
      | none => return none
      | some t => return some (iino, p, n, t)

/-- main.c:124-174 `csn` with arguments `argv[1..]`: `none` is -1. -/
def csn (env : Env) (args : List Bytes) : M (Option Setup) := do
  match args with
  | ipath :: tpath :: s :: ss => do
    if env.kcapi = some false then return none
    match ← openBoth ipath tpath with
    | none => return none
    | some (iino, p, n, t) =>
      match ← chainNew Store (args.length + 1 - 3 + 1) with
      | none => return none
      | some c =>
        match ← appendAll env tpath n p t c (s :: ss) with
        | (false, _, _) => return none
        | (true, t, c) => return some ⟨iino, p, n, t, c⟩
  | _ => return none

/-- main.c:312-313. -/
def reportSkipped (n : Nat) : M Unit := if n = 0 then pure () else M.emit (.skipped n)

/-- main.c:312-317: the end of a synchronisation that succeeded.  The statistics (store.c:65-73) are printed before anything
is freed. -/
def finish (c : Cb) : M Bool := do
  reportSkipped c.skipped
  M.emit (.stats c.chain.queries (c.chain.subs.map (·.hits)))
  freeAll c.chain.subs
  return true

/-- main.c:305-317: the synchronisation and clean-up after a front end succeeded.  `true` is
EXIT_SUCCESS.  `buf` is static, hence zero initially. -/
def sync (env : Env) (s : Setup) : M Bool := do
  let cb : Cb := ⟨true, false, List.replicate 32 0, List.replicate env.bufMax 0, 0, s.tgt, s.chain⟩
  match ← caibxIterate s.iino s.p s.n (entryCb env) cb with
  | (false, _) => return false
  | (true, cb) => finish cb

/-- main.c:270-318 `main` for the application name "csn". -/
def csnMain (env : Env) (args : List Bytes) : M Bool := do
  match ← csn env args with
  | none => return false
  | some s => sync env s

end Csn
