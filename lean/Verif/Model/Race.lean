import Verif.Model.Local
/-
Model of the synchronisation loop (main.c:32-71 with target.c, store.c, store-local.c and the verdict of store-http.c) on a
machine where other processes change the files csn reads while it runs.  Model/Main assumes that only csn writes to files;
here every read of a file delivers arbitrary bytes, the same place may read differently every time, and whatever csn writes
need not be there any more when it is read again.

Not modelled here: index memory (C12), freeing (C60), progress and messages, how an HTTP response becomes the bytes in
the output buffer (Model/Http).  The loop gets the regions of the index as `caibx_iterate_entries` delivers them
(caibx.c:182-242), so changes to the index file need no extra treatment.
-/
namespace Csn.Race

/-- How a request to an HTTP store ends, once the bytes are in the output buffer: store-http.c:281-301, 308-333, 335-338 with
-1; 308-311, 330-333, 335-338, 346-351 with 0; or with the comparison of 361-377. -/
inductive Ended where
  | failed
  | nothing
  | judged
  deriving DecidableEq, Repr

/-- What the rest of the machine decides. -/
inductive Ans where
  /-- `preadall`: the bytes that arrive in the buffer, and whether the call succeeds -/
  | read (d : Bytes) (ok : Bool)
  /-- the entry `index_query` finds -/
  | pick (i : Option Nat)
  /-- `index_insert` succeeds -/
  | room (ok : Bool)
  /-- `store_scan`: fails (`none`), or the regions it inserts (offset, length, ID) -/
  | scan (r : Option (List Seg))
  /-- a request: the bytes that arrive in the output buffer, and how it ends -/
  | http (d : Bytes) (r : Ended)
  /-- `pwriteall` succeeds; if not, the number of bytes written -/
  | write (ok : Bool) (k : Nat)
  /-- the process ends in `pwriteall`, after `k` bytes were written -/
  | cut (k : Nat)
  /-- `sha_once` with the kernel's interface: the digest is that of the data without its first `k` bytes -/
  | hash (k : Nat)
  deriving DecidableEq, Repr

/-- What csn does. -/
inductive Ev where
  /-- `data` (or, if the write failed, part of it) is written for the region of `s` -/
  | wrote (s : Seg) (data : Bytes) (ok : Bool)
  /-- the region of `s` was read, gave `data`, and is left as it is -/
  | kept (s : Seg) (data : Bytes)
  /-- local store number `k` (`none`: the target) handed out `data`, read at `off`, for the chunk without comparing its hash -/
  | trusted (k : Option Nat) (id : Id) (off : Nat) (data : Bytes)
  /-- local store number `k` read `data` for the chunk and found it right -/
  | right (k : Nat) (id : Id) (data : Bytes)
  /-- local store number `k` is scanned again -/
  | rescan (k : Nat)
  deriving DecidableEq, Repr

/-- Answers to come and events so far. -/
structure RS where
  ans : List Ans
  log : List Ev
  deriving DecidableEq, Repr

/-- The execution monad of this model. -/
def R (α : Type) : Type := RS → Res α × RS

namespace R

def pure {α : Type} (a : α) : R α := fun w => (.ok a, w)

def bind {α β : Type} (x : R α) (f : α → R β) : R β := fun w =>
  match x w with
  | (.ok a, w) => f a w
  | (.stop s, w) => (.stop s, w)

instance : Monad R where
  pure := R.pure
  bind := R.bind

/-- Undefined behaviour, or an execution that does not exist. -/
def stop {α : Type} (s : Stop) : R α := fun w => (.stop s, w)

def emit (e : Ev) : R Unit := fun w => (.ok (), { w with log := w.log ++ [e] })

/-- The next answer; there is no execution without one. -/
def next : R Ans := fun w =>
  match w.ans with
  | [] => (.stop .killed, w)
  | a :: as => (.ok a, { w with ans := as })

end R

/-- utils.c:80-104 `preadall` of `n` bytes into the start of `buf`.  A read that fails may have changed part of the buffer. -/
def readInto (n : Nat) (buf : Bytes) : R (Bool × Bytes) := do
  match ← R.next with
  | .read d true => if d.length = n then return (true, bufWrite buf 0 d) else R.stop .killed
  | .read d false => return (false, bufWrite buf 0 (d.take n))
  | _ => R.stop .killed

/-- index.c:87-100 `index_query`: any entry with the ID, or NULL if there is none (C11). -/
def query (es : List Entry) (id : Id) : R (Option (Nat × Entry)) := do
  match ← R.next with
  | .pick none => if es.any (fun e => e.id == id) then R.stop .killed else return none
  | .pick (some i) =>
    match es[i]? with
    | some e => if e.id = id then return some (i, e) else R.stop .killed
    | none => R.stop .killed
  | _ => R.stop .killed

/-- How chunks are hashed: SHA-256, and whether the kernel's interface is in use (main.c:265-269, sha.c:22 `kcapi_fd`). -/
structure Hasher where
  sha : Bytes → Id
  kernel : Bool

/-- Without the kernel's interface. -/
def Hasher.user (H : Bytes → Id) : Hasher := ⟨H, false⟩

/-- chunk.h:14-16 `chunk_calculate_id` with sha.c:82-125 `sha_once`.  If the kernel's interface fails, the rest of the data that
was not sent is hashed instead (`C88_digest`).  Simplified: here this may happen any number of times; in the code the interface
is not used again afterwards (`C88_once`). -/
def digest (H : Hasher) (d : Bytes) : R Id := do
  if H.kernel then
    match ← R.next with
    | .hash k => return H.sha (d.drop k)
    | _ => R.stop .killed
  else return H.sha d

/-- target.h:9-15 `struct target`: its index and `queryable`. -/
structure RTgt where
  idx : List Entry
  queryable : Bool
  deriving DecidableEq, Repr

/-- target.c:14-26 `target_add_chunk`; index.c:32 asserts that the length is not 0. -/
def tAdd (t : RTgt) (s : Seg) : R RTgt := do
  if !t.queryable then return t
  match ← query t.idx s.id with
  | some _ => return t
  | none =>
    if s.len = 0 then R.stop .abort
    else
      match ← R.next with
      | .room true => return { t with idx := t.idx ++ [⟨s.off, s.len, false, s.id⟩] }
      | .room false => return t
      | _ => R.stop .killed

/-- target.c:28-44 `target_check_chunk`; `none` is -1. -/
def tCheck (H : Hasher) (t : RTgt) (buf : Bytes) (s : Seg) : R (Option Bool × RTgt × Bytes) := do
  if s.len > buf.length then R.stop .ub
  else
    match ← readInto s.len buf with
    | (false, buf) => return (none, t, buf)
    | (true, buf) => do
      let h ← digest H (buf.take s.len)
      if h = s.id then do
        let t ← tAdd t s
        return (some true, t, buf)
      else return (some false, t, buf)

/-- target.c:46-71 `target_get_chunk`. -/
def tGet (t : RTgt) (id : Id) (out : Bytes) : R (Option Nat × Bytes) := do
  if !t.queryable then return (some 0, out)
  match ← query t.idx id with
  | none => return (some 0, out)
  | some (_, e) =>
    if e.len > out.length then return (none, out)
    match ← readInto e.len out with
    | (false, out) => return (none, out)
    | (true, out) => do
      R.emit (.trusted none id e.start (out.take e.len))
      return (some e.len, out)

/-- target.c:73-88 `target_write` of the first `len` bytes of `buf`. -/
def tWrite (t : RTgt) (buf : Bytes) (s : Seg) : R (Bool × RTgt) := do
  if s.len > buf.length then R.stop .ub
  else
    match ← R.next with
    | .write true _ => do
      R.emit (.wrote s (buf.take s.len) true)
      let t ← tAdd t s
      return (true, t)
    | .write false k => do
      R.emit (.wrote s ((buf.take s.len).take k) false)
      return (false, t)
    | .cut k => do
      R.emit (.wrote s ((buf.take s.len).take k) false)
      R.stop .killed
    | _ => R.stop .killed

/-- store-local.c:17-24 `struct store_local`; `idx` is `none` if `entries` is NULL or dangling. -/
structure RLoc where
  num : Nat
  idx : Option (List Entry)
  deriving DecidableEq, Repr

/-- store-local.c:103-128 `store_scan` on a store whose index was cleaned up: the entries it inserts are validated (121). -/
def rescan (l : RLoc) : R (Bool × RLoc) := do
  R.emit (.rescan l.num)
  match ← R.next with
  | .scan none => return (false, { l with idx := none })
  | .scan (some ss) => return (true, { l with idx := some (ss.map fun s => ⟨s.off, s.len, true, s.id⟩) })
  | _ => R.stop .killed

/-- store-local.c:141-161: read the entry and compare, unless it is validated.  The result is what happens next: return
a value, or scan the store again (164-180). -/
def tryEntry (H : Hasher) (l : RLoc) (es : List Entry) (i : Nat) (e : Entry) (id : Id) (out : Bytes) :
    R (Option (Option Nat) × RLoc × Bytes) := do
  if e.len > out.length then return (some none, l, out)
  match ← readInto e.len out with
  | (false, out) => return (some none, l, out)
  | (true, out) =>
    if e.valid then do
      R.emit (.trusted (some l.num) id e.start (out.take e.len))
      return (some (some e.len), l, out)
    else do
      let h ← digest H (out.take e.len)
      if h = id then do
        R.emit (.right l.num id (out.take e.len))
        return (some (some e.len), { l with idx := some (es.modify i fun e => { e with valid := true }) }, out)
      else return (none, l, out)

/-- store-local.c:130-183 `store_local_get_chunk`; `fuel` bounds the passes through `restart`. -/
def lGet (H : Hasher) : Nat → RLoc → Id → Bytes → R (Option Nat × RLoc × Bytes)
  | 0, _, _, _ => R.stop .diverge
  | fuel + 1, l, id, out =>
    match l.idx with
    | none => R.stop .ub
    | some es => do
      match ← query es id with
      | none => return (some 0, l, out)
      | some (i, e) =>
        match ← tryEntry H l es i e id out with
        | (some r, l, out) => return (r, l, out)
        | (none, l, out) =>
          match ← rescan l with
          | (false, l) => return (none, l, out)
          | (true, l) => lGet H fuel l id out

/-- store-http.c:273-380 `store_http_get_chunk`: the write callback never writes behind `out_max` (C20). -/
def hGet (H : Hasher) (id : Id) (out : Bytes) : R (Option Nat × Bytes) := do
  match ← R.next with
  | .http d r =>
    if d.length > out.length then R.stop .killed
    else
      match r with
      | .failed => return (none, bufWrite out 0 d)
      | .nothing => return (some 0, bufWrite out 0 d)
      | .judged => do
        let h ← digest H ((bufWrite out 0 d).take d.length)
        if h = id then return (some d.length, bufWrite out 0 d) else return (some 0, bufWrite out 0 d)
  | _ => R.stop .killed

/-- The stores of a chain. -/
inductive RStore where
  | loc (l : RLoc)
  | http
  | target
  deriving DecidableEq, Repr

/-- store.h:18-21 `store_get_chunk`.  Two passes suffice for local stores (`C82_no_ub`). -/
def sGet (H : Hasher) (t : RTgt) (s : RStore) (id : Id) (out : Bytes) : R (Option Nat × RStore × Bytes) := do
  match s with
  | .loc l => do
    let (r, l, out) ← lGet H 2 l id out
    return (r, .loc l, out)
  | .http => do
    let (r, out) ← hGet H id out
    return (r, .http, out)
  | .target => do
    let (r, out) ← tGet t id out
    return (r, .target, out)

/-- store.c:11-15 `struct substore` without `hits`. -/
structure RSub where
  s : RStore
  active : Bool
  deriving DecidableEq, Repr

/-- store.c:35-61: the loop of `store_chain_get_chunk`. -/
def cGet (H : Hasher) (t : RTgt) (id : Id) : List RSub → Bytes → R (Option Nat × List RSub × Bytes)
  | [], out => return (some 0, [], out)
  | sub :: subs, out =>
    if !sub.active then do
      let (r, subs, out) ← cGet H t id subs out
      return (r, sub :: subs, out)
    else do
      match ← sGet H t sub.s id out with
      | (none, s, out) => do
        let (r, subs, out) ← cGet H t id subs out
        return (r, ⟨s, false⟩ :: subs, out)
      | (some (n + 1), s, out) => return (some (n + 1), ⟨s, true⟩ :: subs, out)
      | (some 0, s, out) => do
        let (r, subs, out) ← cGet H t id subs out
        return (r, ⟨s, true⟩ :: subs, out)

/-- main.c:34-37 and the globals `entry_cb` uses. -/
structure RCb where
  resuming : Bool
  last : Option Id
  buf : Bytes
  tgt : RTgt
  subs : List RSub
  deriving DecidableEq, Repr

/-- main.c:57-66: get the chunk into the buffer, unless it is there. -/
def fetch (H : Hasher) (c : RCb) (s : Seg) : R (Bool × RCb) := do
  if c.last = some s.id then return (true, c)
  else do
    let (r, subs, buf) ← cGet H c.tgt s.id c.subs c.buf
    if r = some s.len then return (true, { c with subs := subs, buf := buf, last := some s.id })
    else return (false, { c with subs := subs, buf := buf })

/-- main.c:57-71, 83. -/
def store (H : Hasher) (c : RCb) (s : Seg) : R (Bool × RCb) := do
  match ← fetch H c s with
  | (false, c) => return (false, c)
  | (true, c) => do
    let (ok, tgt) ← tWrite c.tgt c.buf s
    return (ok, { c with tgt := tgt })

/-- main.c:32-84 `entry_cb` without the progress display. -/
def cb (H : Hasher) (c : RCb) (s : Seg) : R (Bool × RCb) := do
  if c.resuming then
    if s.len > c.buf.length then return (false, c)
    else
      match ← tCheck H c.tgt c.buf s with
      | (some true, tgt, buf) => do
        R.emit (.kept s (buf.take s.len))
        return (true, { c with tgt := tgt, buf := buf })
      | (_, tgt, buf) => store H { c with tgt := tgt, buf := buf, resuming := false } s
  else store H c s

/-- caibx.c:193-242 with main.c:305: all regions, up to the first that fails. -/
def loop (H : Hasher) : RCb → List Seg → R Bool
  | _, [] => return true
  | c, s :: ss => do
    match ← cb H c s with
    | (false, _) => return false
    | (true, c) => loop H c ss

/-- The stores as given on the command line, after they were created (main.c:86-122): a local store has the entries of its
side index, not validated (store-local.c:85), or of a scan, validated (121). -/
inductive Source where
  | side (entries : List Seg)
  | scanned (entries : List Seg)
  | http
  | target
  deriving DecidableEq, Repr

/-- The store number `k` of the chain. -/
def Source.store (k : Nat) : Source → RStore
  | .side es => .loc ⟨k, some (es.map fun s => ⟨s.off, s.len, false, s.id⟩)⟩
  | .scanned es => .loc ⟨k, some (es.map fun s => ⟨s.off, s.len, true, s.id⟩)⟩
  | .http => .http
  | .target => .target

/-- store.c:113-134: the chain, numbered from `k` on. -/
def chainFrom : Nat → List Source → List RSub
  | _, [] => []
  | k, s :: ss => ⟨s.store k, true⟩ :: chainFrom (k + 1) ss

/-- main.c:34-37, 91, 305: the loop from its start, with the given stores and the static buffer (zeroed). -/
def sync (H : Hasher) (bufMax : Nat) (srcs : List Source) (segs : List Seg) : R Bool :=
  loop H ⟨true, none, List.replicate bufMax 0, ⟨[], srcs.contains .target⟩, chainFrom 0 srcs⟩ segs

end Csn.Race
