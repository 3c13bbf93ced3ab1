import Verif.Model.Base
/-
Vocabulary for the question which files a program depends on.
-/
namespace Csn.Spec
open Csn

/-- `path` is a part of one of the arguments. -/
def Mentioned (args : List Bytes) (path : Bytes) : Prop := ∃ a ∈ args, path <:+: a

/-- The file number `i` can be reached under a mentioned path. -/
def Reachable (args : List Bytes) (w : World) (i : Nat) : Prop := ∃ p, Mentioned args p ∧ w.dir p = some i

/-- Two worlds that agree in everything but files under other paths (and in what happened before). -/
structure Alike (args : List Bytes) (w w' : World) : Prop where
  dir : ∀ p, Mentioned args p → w.dir p = w'.dir p
  data : ∀ i, Reachable args w i → w.data i = w'.data i
  kind : ∀ i, Reachable args w i → w.kind i = w'.kind i
  sys : w.sys = w'.sys
  mem : w.mem = w'.mem
  net : w.net = w'.net

/-- What two runs from similar worlds have in common. -/
structure SameCourse {α : Type} (args : List Bytes) (w w' : World) (r r' : Res α × World) : Prop where
  /-- the same result -/
  result : r'.1 = r.1
  /-- the same events: the same bytes written to the same places, the same requests in the same order -/
  events : ∃ evs, r.2.log = w.log ++ evs ∧ r'.2.log = w'.log ++ evs
  /-- the files that can be reached are the same afterwards -/
  alike : Alike args r.2 r'.2
  /-- all others are what they were -/
  others : ∀ i, ¬ Reachable args w i → r.2.data i = w.data i ∧ r'.2.data i = w'.data i

end Csn.Spec
