import Verif.Model.Http
/-
Model of store.c and target.c.
-/
namespace Csn

/-- store.c:11-15 `struct substore`; `hits` is none if that memory was never written. -/
structure Sub (σ : Type) where
  s : σ
  active : Bool
  hits : Option Nat
  deriving DecidableEq, Repr

/-- store.c:35-57: the loop of `store_chain_get_chunk` over the sub-stores from number `i` on.  `get`
is `store_get_chunk`; `τ` is state shared by the stores (the target).  Returns the result, the shared
state, the sub-stores and the output buffer. -/
def chainLoop {τ σ : Type} (get : τ → σ → Id → Bytes → M (Option Nat × τ × σ × Bytes)) (id : Id) :
    Nat → τ → List (Sub σ) → Bytes → M (Option Nat × τ × List (Sub σ) × Bytes)
  | _, t, [], out => return (some 0, t, [], out)
  | i, t, sub :: subs, out =>
    if !sub.active then do
      let (r, t, subs, out) ← chainLoop get id (i + 1) t subs out
      return (r, t, sub :: subs, out)
    else do
      M.emit (.ask i id)
      let (r, t, s, out) ← get t sub.s id out
      match r with
      | none => do
        M.emit (.failed i)
        let (r, t, subs, out) ← chainLoop get id (i + 1) t subs out
        return (r, t, { sub with s := s, active := false } :: subs, out)
      | some (n + 1) => return (some (n + 1), t, { sub with s := s, hits := sub.hits.map (fun h => (h + 1) % 2 ^ 32) } :: subs, out)
      | some 0 => do
        let (r, t, subs, out) ← chainLoop get id (i + 1) t subs out
        return (r, t, { sub with s := s } :: subs, out)

/-- store.c:17-24 `struct store_chain`; `space` is stores_space, `zeroed` the number of slots that come from calloc. -/
structure Chain (σ : Type) where
  subs : List (Sub σ)
  space : Nat
  zeroed : Nat
  queries : Nat
  deriving DecidableEq, Repr

/-- store.c:26-62 `store_chain_get_chunk`. -/
def chainGet {τ σ : Type} (get : τ → σ → Id → Bytes → M (Option Nat × τ × σ × Bytes)) (t : τ) (c : Chain σ)
    (id : Id) (out : Bytes) : M (Option Nat × τ × Chain σ × Bytes) := do
  M.emit (.query id)
  let (r, t, subs, out) ← chainLoop get id 0 t c.subs out
  M.emit (.answer id r)
  return (r, t, { c with subs := subs, queries := (c.queries + 1) % 2 ^ 32 }, out)

/-- store.c:83-111 `store_chain_new`; `sizeof(struct substore)` is 16. -/
def chainNew (σ : Type) (hint : Nat) : M (Option (Chain σ)) := do
  if !(← M.alloc 256) then return none
  let space := if hint ≠ 0 then hint else 1
  if !(← M.alloc (space * 16)) then return none
  return some ⟨[], space, space, 0⟩

/-- store.c:113-134 `store_chain_append`.  Writing behind the allocated space is undefined.  The new
sub-store's `hits` is whatever calloc / realloc left there. -/
def chainAppend {σ : Type} (c : Chain σ) (s : σ) : M (Bool × Chain σ) := do
  let grown : Option (Chain σ) ←
    if c.subs.length ≥ c.space then do
      let newSpace := (c.space * 2) % 2 ^ 64
      if !(← M.alloc ((newSpace * 16) % 2 ^ 64)) then pure none
      else pure (some { c with space := newSpace })
    else pure (some c)
  match grown with
  | none => return (false, c)
  | some c =>
    if c.subs.length ≥ c.space then M.stop .ub
    else return (true, { c with subs := c.subs ++ [⟨s, true, if c.subs.length < c.zeroed then some 0 else none⟩] })

/-- target.h:9-15 `struct target`; `ino` is the file behind `fd`. -/
structure Tgt where
  ino : Nat
  idx : Index
  queryable : Bool
  deriving DecidableEq, Repr

/-- target.c:14-26 `target_add_chunk`; a failed insertion only warns. -/
def targetAdd (lib : Lib) (t : Tgt) (len off : Nat) (id : Id) : M Tgt := do
  if !t.queryable then return t
  match indexQuery lib t.idx id with
  | (some _, idx) => return { t with idx := idx }
  | (none, idx) => do
    let (_, idx) ← indexInsert idx off len id
    return { t with idx := idx }

/-- target.c:28-44 `target_check_chunk`: `none` is -1, otherwise whether the region matches; the
buffer afterwards.  Reading more than the buffer holds is undefined. -/
def targetCheck (env : Env) (t : Tgt) (buf : Bytes) (len off : Nat) (id : Id) : M (Option Bool × Tgt × Bytes) := do
  if len > buf.length then M.stop .ub
  let (ok, d) ← preadall t.ino off len
  let buf := bufWrite buf 0 d
  if !ok then return (none, t, buf)
  if env.H (buf.take len) ≠ id then return (some false, t, buf)
  let t ← targetAdd env.lib t len off id
  return (some true, t, buf)

/-- target.c:46-71 `target_get_chunk`. -/
def targetGet (lib : Lib) (t : Tgt) (id : Id) (out : Bytes) : M (Option Nat × Tgt × Bytes) := do
  if !t.queryable then return (some 0, t, out)
  match indexQuery lib t.idx id with
  | (none, idx) => return (some 0, { t with idx := idx }, out)
  | (some i, idx) =>
    let t := { t with idx := idx }
    match idx.entries[i]? with
    | none => M.stop .ub
    | some e =>
      if e.len > out.length then return (none, t, out)
      let (ok, d) ← preadall t.ino e.start e.len
      let out := bufWrite out 0 d
      if !ok then return (none, t, out)
      return (some e.len, t, out)

/-- target.c:73-88 `target_write` of the first `len` bytes of `buf`; reading behind the buffer is
undefined. -/
def targetWrite (lib : Lib) (t : Tgt) (buf : Bytes) (len off : Nat) (id : Id) : M (Bool × Tgt) := do
  if len > buf.length then M.stop .ub
  if !(← pwriteall t.ino (buf.take len) off) then return (false, t)
  let t ← targetAdd lib t len off id
  return (true, t)

/-- target.c:90-121 `target_new`: the file is opened, never created (O_RDWR). -/
def targetNew (path : Bytes) : M (Option Tgt) := do
  if !(← M.alloc 256) then return none
  match ← openPath path with
  | none => return none
  | some ino => return some ⟨ino, ⟨false, 0, 0, []⟩, false⟩

/-- target.c:123-136 `target_as_store`. -/
def targetAsStore (t : Tgt) (estimate : Nat) : M (Bool × Tgt) := do
  if t.queryable then return (true, t)
  match ← indexInit estimate with
  | none => return (false, t)
  | some idx => return (true, { t with idx := idx, queryable := true })

/-- The stores csn can have in its chain. -/
inductive Store where
  | loc (l : Loc)
  | http (h : Http)
  | target
  deriving DecidableEq, Repr

/-- store.h:18-21 `store_get_chunk`.  Two passes suffice for local stores (C18). -/
def storeGet (env : Env) (t : Tgt) (s : Store) (id : Id) (out : Bytes) : M (Option Nat × Tgt × Store × Bytes) := do
  match s with
  | .loc l => do
    let (r, l, out) ← localGet env.toLEnv 2 l id out
    return (r, t, .loc l, out)
  | .http h => do
    let (r, h, out) ← httpGet env h id out
    return (r, t, .http h, out)
  | .target => do
    let (r, t, out) ← targetGet env.lib t id out
    return (r, t, .target, out)

/-- store.c:76-77 with store.h:24-28: free all stores; the target has no free function. -/
def freeAll : List (Sub Store) → M Unit
  | [] => return ()
  | s :: r => do
    match s.s with
    | .loc l => localFree l
    | _ => pure ()
    freeAll r

end Csn
