import Verif.Model.PatchRace
import Verif.Spec.Shared
/-
patchdd when other processes change its files, and runs of csn and patchdd on the same destination (C90).
-/
namespace Csn.Props
open Csn
open Csn.Spec (slice)

/-- One round: the blocks that were read, both from `off` on, and what was written from `o` on (all there is to write, if `ok`):
the source's bytes from the first difference on. -/
structure Round (off : Nat) (s t : Bytes) (o : Nat) (d : Bytes) (ok : Bool) : Prop where
  len : s.length = t.length
  from_ : off ≤ o
  to : o ≤ off + s.length
  same : ∀ i, off + i < o → s[i]? = t[i]?
  diff : o < off + s.length → s[o - off]? ≠ t[o - off]?
  data : ∃ k, d = (s.drop (o - off)).take k
  all : ok = true → d = s.drop (o - off)

/-- The rounds of a run for a source of `n` bytes, in order, each from the end of the one before on, and `T` bytes long unless it is the
last one; `pos` is where the next round starts, `going` tells whether all went well so far.  The last round may be cut short. -/
inductive Rounds (T n : Nat) : Nat → Bool → List PatchRace.Ev → Prop where
  | start : Rounds T n 0 true []
  | round {pos : Nat} {log : List PatchRace.Ev} {s t d : Bytes} {o : Nat} : Rounds T n pos true log → pos < n → s.length = min (n - pos) T → Round pos s t o d true →
      Rounds T n (pos + s.length) true (log ++ [.src pos s, .dst pos t, .put o d true])
  | cutPut {pos : Nat} {log : List PatchRace.Ev} {s t d : Bytes} {o : Nat} : Rounds T n pos true log → pos < n → s.length = min (n - pos) T → Round pos s t o d false →
      Rounds T n pos false (log ++ [.src pos s, .dst pos t, .put o d false])
  | cutDst {pos : Nat} {log : List PatchRace.Ev} {s t : Bytes} : Rounds T n pos true log → pos < n → s.length = min (n - pos) T → s.length = t.length →
      Rounds T n pos false (log ++ [.src pos s, .dst pos t])
  | cutSrc {pos : Nat} {log : List PatchRace.Ev} {s : Bytes} : Rounds T n pos true log → pos < n → s.length = min (n - pos) T → Rounds T n pos false (log ++ [.src pos s])
  | cut {pos : Nat} {log : List PatchRace.Ev} : Rounds T n pos true log → Rounds T n pos false log

/-- The steps of a whole run: those of the rounds, preceded by the size and, if all went well, followed by the flush. -/
inductive PatchSteps (T : Nat) : Res Bool → List PatchRace.Ev → Prop where
  | done {n : Nat} {log : List PatchRace.Ev} : Rounds T n n true log → PatchSteps T (.ok true) (.sized n :: log ++ [.flushed])
  | part {n pos : Nat} {log : List PatchRace.Ev} {x : Res Bool} : Rounds T n pos false log → x = .ok false ∨ x = .stop .killed → PatchSteps T x (.sized n :: log)
  | none {x : Res Bool} : x = .ok false ∨ x = .stop .killed → PatchSteps T x []

/-- The bytes of the destination that a step of patchdd reads or writes. -/
def patchAccesses : PatchRace.Ev → List Acc
  | .dst off d => byBytes .get off d
  | .put off d _ => byBytes .put off d
  | _ => []

/-- What a process does: a run of csn, or of patchdd with a transfer size (1 MiB in the code) and what the machine decides. -/
inductive Work where
  | csn (j : Job)
  | patch (T : Nat) (ans : List PatchRace.Ans)

/-- The process performs these accesses to the target. -/
def Work.Does (H : Bytes → Id) (as : List Acc) : Work → Prop
  | .csn j => Performs accesses (j.run H).2 as
  | .patch T ans => Performs patchAccesses (PatchRace.main T ans).2 as

/-- The history is one of these processes, in any order. -/
structure AllTogether (H : Bytes → Id) (works : Nat → Work) (f : Bytes) (h : Trace) : Prop where
  does : ∀ p, (works p).Does H (doneBy p h)
  coherent : Coherent f h

/-- The process works for the image: csn as in C87, patchdd with a source that is (a part of) the image. -/
def Work.For (H : Bytes → Id) (img : Bytes) : Work → Prop
  | .csn j => Csn.Spec.Regular j.segs ∧ HasRegions H j.kernel img j.segs ∧ SeedsRight H (j.run H).2
  | .patch T ans => 0 < T ∧ ∀ off d, .src off d ∈ (PatchRace.main T ans).2 → ∀ (i : Nat) (x : UInt8), d[i]? = some x → img[off + i]? = some x

end Csn.Props
