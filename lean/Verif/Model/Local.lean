import Verif.Model.Caibx
import Verif.Model.Index
/-
Model of store-local.c.
-/
namespace Csn

/-- Parameters of the environment used by local stores: SHA-256 (chunk.c, sha.c), the
discriminator formula (chunker.c:110), BUFSIZ, and the C library's qsort and bsearch. -/
structure LEnv where
  H : Bytes → Id
  disc : Nat → Option Nat
  bufsiz : Nat
  lib : Lib

/-- State of `ls->idx`: usable; `entries` freed but not replaced (store-local.c:91, 176); or
`entries` NULL (zeroed by calloc at 199, or a failed calloc in index_init). -/
inductive Idx where
  | live (i : Index)
  | freed
  | null
  deriving DecidableEq, Repr

/-- store-local.c:17-24 `struct store_local`; `ino` is the file behind `fd`. -/
structure Loc where
  ino : Nat
  idx : Idx
  p : Params
  deriving DecidableEq, Repr

/-- store-local.c:44 `e->flags |= ctx->flags` for the entry at position `i`. -/
def orFlags (idx : Index) (i : Nat) (valid : Bool) : Index :=
  { idx with entries := idx.entries.modify i (fun e => { e with valid := e.valid || valid }) }

/-- store-local.c:33-47 `store_insert_index` as callback of the scanner; the state is the index
and the allocation schedule. -/
def storeInsertScan (valid : Bool) (s : Index × List Bool) (seg : Seg) : CbRes (Index × List Bool) :=
  match indexInsertPure s.1 seg.off seg.len seg.id s.2 with
  | (.stop x, idx, mem) => .stop x (idx, mem)
  | (.ok none, idx, mem) => .fail (idx, mem)
  | (.ok (some i), idx, mem) => .ok (orFlags idx i valid, mem)

/-- store-local.c:33-47 `store_insert_index` as callback of the index iteration. -/
def storeInsertM (valid : Bool) (idx : Index) (seg : Seg) : M (Bool × Index) := do
  match ← indexInsert idx seg.off seg.len seg.id with
  | (none, idx) => return (false, idx)
  | (some i, idx) => return (true, orFlags idx i valid)

/-- Run a scan in the execution monad: the callback state holds the allocation schedule. -/
def scanInto (env : LEnv) (l : Loc) (idx : Index) : M (Bool × Index) := fun w =>
  match scanFd env.H env.disc env.bufsiz l.p (storeInsertScan true) (w.data l.ino) (idx, w.mem) w.sys with
  | (.ok, (idx, mem), r) => (.ok (true, idx), { w with sys := r, mem := mem })
  | (.fail, (idx, mem), r) => (.ok (false, idx), { w with sys := r, mem := mem })
  | (.stop x, (_, mem), r) => (.stop x, { w with sys := r, mem := mem })

/-- store-local.c:108 the number of chunks expected in `size` bytes; `12ull * size` is modulo
2^64. -/
def chunkEstimate (p : Params) (size : Nat) : Nat := ((12 * size) % 2 ^ 64 / p.avg) / 10

/-- store-local.c:103-128 `store_scan`: whether it succeeded, and the new state of the store. -/
def storeScan (env : LEnv) (l : Loc) : M (Bool × Loc) := do
  M.emit (.scan l.ino)
  match ← fdSize l.ino with
  | none => return (false, l)
  | some size =>
    match ← indexInit (chunkEstimate l.p size) with
    | none => return (false, { l with idx := .null })
    | some idx =>
      let (ok, idx) ← scanInto env l idx
      return (ok, { l with idx := .live idx })

/-- store-local.c:49-101 `store_sideload_index`. -/
def storeSideload (l : Loc) (path : Bytes) : M (Bool × Loc) := do
  match ← openPath path with
  | none => return (false, l)
  | some ino =>
    match ← caibxLoadHeader ino with
    | none => return (false, l)
    | some (p, n) =>
      if p.min ≠ l.p.min ∨ p.avg ≠ l.p.avg ∨ p.max ≠ l.p.max then return (false, l)
      else
        match ← indexInit n with
        | none => return (false, { l with idx := .null })
        | some idx =>
          match ← caibxIterate ino p n (storeInsertM false) idx with
          | (false, _) => return (false, { l with idx := .freed })
          | (true, idx) => return (true, { l with idx := .live idx })

/-- store-local.c:130-183 `store_local_get_chunk`.  `out` is the caller's whole buffer, its length
is `out_max` (the only caller passes `buf, sizeof(buf)`, main.c:58, through store.c:42).  The
result is the return value (`none`: -1), the store and the buffer afterwards.  `fuel` bounds the
number of passes through `restart`; two suffice (C18). -/
def localGet (env : LEnv) : Nat → Loc → Id → Bytes → M (Option Nat × Loc × Bytes)
  | 0, _, _, _ => M.stop .diverge
  | fuel + 1, l, id, out =>
    match l.idx with
    | .freed => M.stop .ub
    | .null => M.stop .ub
    | .live idx =>
      match indexQuery env.lib idx id with
      | (none, idx) => return (some 0, { l with idx := .live idx }, out)
      | (some i, idx) =>
        match idx.entries[i]? with
        | none => M.stop .ub
        | some e => do
          if e.len > out.length then return (none, { l with idx := .live idx }, out)
          let (ok, d) ← preadall l.ino e.start e.len
          let out := bufWrite out 0 d
          if !ok then return (none, { l with idx := .live idx }, out)
          if e.valid then return (some e.len, { l with idx := .live idx }, out)
          if env.H (out.take e.len) = id then
            return (some e.len, { l with idx := .live (orFlags idx i true) }, out)
          match ← storeScan env { l with idx := .freed } with
          | (false, l) => return (none, l, out)
          | (true, l) => localGet env fuel l id out

/-- store-local.c:185-191 `store_local_free`: freeing a dangling pointer is undefined. -/
def localFree (l : Loc) : M Unit :=
  match l.idx with
  | .freed => M.stop .ub
  | _ => M.pure ()

/-- store-local.c:193-237 `store_local_new`; the size of `struct store_local` only matters for
being far below 2^63. -/
def localNew (env : LEnv) (path : Bytes) (index : Option Bytes) (p : Params) : M (Option Loc) := do
  if !(← M.alloc 256) then return none
  match ← openPath path with
  | none => return none
  | some ino =>
    let l : Loc := ⟨ino, .null, p⟩
    let scan (l : Loc) : M (Option Loc) := do
      match ← storeScan env l with
      | (false, _) => return none
      | (true, l) => return some l
    match index with
    | none => scan l
    | some ipath =>
      match ← storeSideload l ipath with
      | (true, l) => return some l
      | (false, l) => scan l

end Csn
