import Verif.Model.Patchdd
/-
Model of patchdd (patchdd.c:26-107) when other processes change its files.  Model/Patchdd assumes that only patchdd changes
them; here everything that depends on files is an answer, and the run is described by what it does to them.

Not modelled here: the arguments, the number of skipped bytes and the progress display (Model/Patchdd, Model/Ui).
-/
namespace Csn.PatchRace

/-- What the rest of the machine decides. -/
inductive Ans where
  /-- `open` succeeds -/
  | opened (ok : Bool)
  /-- what `fd_size` reports, or `none` if it fails -/
  | size (n : Option Nat)
  /-- what `preadall` delivers, or `none` if it fails -/
  | data (d : Option Bytes)
  /-- `pwriteall` succeeds; if not, the number of bytes written -/
  | wrote (ok : Bool) (k : Nat)
  /-- the process ends in `pwriteall`, after `k` bytes were written -/
  | cut (k : Nat)
  /-- `fsync` succeeds -/
  | synced (ok : Bool)
  deriving DecidableEq, Repr

/-- What patchdd does to files. -/
inductive Ev where
  /-- the size of the source is `n` (patchdd.c:51) -/
  | sized (n : Nat)
  /-- a block of the source was read (76) -/
  | src (off : Nat) (d : Bytes)
  /-- the block of the destination was read (79) -/
  | dst (off : Nat) (d : Bytes)
  /-- the data, or if writing failed a part of it, was written to the destination (85) -/
  | put (off : Nat) (d : Bytes) (ok : Bool)
  /-- the destination was flushed (94) -/
  | flushed
  deriving DecidableEq, Repr

/-- The `n` bytes that are in the buffer after a successful `preadall`. -/
def fit (n : Nat) (d : Bytes) : Bytes := (d ++ List.replicate n 0).take n

/-- patchdd.c:73-92: the copy loop from `offset` on, without the count of skipped bytes; `T` is TRANSFER_SIZE and the first
number bounds the iterations, as in Model/Patchdd.  (`pwriteall` of nothing cannot fail; here it may.) -/
def loop (T size : Nat) : Nat → Nat → List Ans → Res Bool × List Ev × List Ans
  | 0, off, ans => if off < size then (.stop .diverge, [], ans) else (.ok true, [], ans)
  | fuel + 1, off, ans =>
    if off < size then
      match ans with
      | .data none :: r => (.ok false, [], r)
      | .data (some s) :: .data none :: r => (.ok false, [.src off (fit (min (size - off) T) s)], r)
      | .data (some s) :: .data (some d) :: r =>
        let n := min (size - off) T
        let a := fit n s
        let b := fit n d
        let m := memcmpOffset a b
        let w := (a.drop m).take (n - m)
        match r with
        | .wrote true _ :: r =>
          match loop T size fuel (off + n) r with
          | (x, evs, r) => (x, .src off a :: .dst off b :: .put (off + m) w true :: evs, r)
        | .wrote false k :: r => (.ok false, [.src off a, .dst off b, .put (off + m) (w.take k) false], r)
        | .cut k :: r => (.stop .killed, [.src off a, .dst off b, .put (off + m) (w.take k) false], r)
        | r => (.stop .killed, [.src off a, .dst off b], r)
      | .data (some s) :: r => (.stop .killed, [.src off (fit (min (size - off) T) s)], r)
      | r => (.stop .killed, [], r)
    else (.ok true, [], ans)

/-- patchdd.c:92-107: the end. -/
def finish (ans : List Ans) : Res Bool × List Ev :=
  match ans with
  | .synced true :: _ => (.ok true, [.flushed])
  | .synced false :: _ => (.ok false, [])
  | _ => (.stop .killed, [])

/-- patchdd.c:36-107 `main`, after the check of the arguments. -/
def main (T : Nat) (ans : List Ans) : Res Bool × List Ev :=
  match ans with
  | .opened true :: .opened true :: .size (some n) :: .size (some k) :: r =>
    if k < n then (.ok false, [.sized n])
    else
      match loop T n (n + 1) 0 r with
      | (.ok true, evs, r) =>
        match finish r with
        | (x, evs') => (x, .sized n :: evs ++ evs')
      | (x, evs, _) => (x, .sized n :: evs)
  | .opened true :: .opened true :: .size (some n) :: .size none :: _ => (.ok false, [.sized n])
  | .opened true :: .opened true :: .size (some n) :: _ => (.stop .killed, [.sized n])
  | .opened false :: _ => (.ok false, [])
  | .opened true :: .opened false :: _ => (.ok false, [])
  | .opened true :: .opened true :: .size none :: _ => (.ok false, [])
  | _ => (.stop .killed, [])

end Csn.PatchRace
