import Verif.Model.Base
/-
What the statistics printed at the end of a run should say, in terms of what happened before.
-/
namespace Csn.Spec
open Csn

/-- The number of queries. -/
def queryCount (evs : List Event) : Nat := evs.countP (fun e => match e with | .query _ => true | _ => false)

/-- The number of queries that store `k` answered with data; `last` is the store asked last. -/
def hitCount (k : Nat) : Option Nat → List Event → Nat
  | _, [] => 0
  | _, .query _ :: l => hitCount k none l
  | _, .ask j _ :: l => hitCount k (some j) l
  | last, .answer _ (some (_ + 1)) :: l => (if last = some k then 1 else 0) + hitCount k last l
  | last, _ :: l => hitCount k last l

/-- Nothing is reported. -/
def Unreported (evs : List Event) : Prop := ∀ e ∈ evs, (∀ n, e ≠ .skipped n) ∧ ∀ q hs, e ≠ .stats q hs

/-- `evs` ends with the report of a successful run with `n` stores, and has no other.  Counters have 32 bits.  `m` stores
have a counter that starts at 0. -/
def Reported (n m : Nat) (evs : List Event) : Prop :=
  ∃ l s hs, evs = l ++ (if s = 0 then [] else [.skipped s]) ++ [.stats (queryCount l % 2 ^ 32) hs] ∧ Unreported l ∧
    hs.length = n ∧ ∀ k < n, hs[k]? = some (if k < m then some (hitCount k none l % 2 ^ 32) else none)

end Csn.Spec
