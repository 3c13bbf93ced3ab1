import Verif.Model.Base
/-
What the log of a run says about the store chain.
-/
namespace Csn.Spec
open Csn

/-- A store that has failed is not asked. -/
def AliveAsked (evs : List Event) : Prop := ∀ a k id b, evs = a ++ .ask k id :: b → .failed k ∉ a

/-- Stores are asked for the chunk of the latest query, each only after all earlier ones that have not failed before. -/
def InTurn (evs : List Event) : Prop :=
  ∀ a k id b, evs = a ++ .ask k id :: b → ∃ a1 a2, a = a1 ++ .query id :: a2 ∧ (∀ id', .query id' ∉ a2) ∧ .ask k id ∉ a2 ∧
    ∀ j < k, .failed j ∈ a1 ∨ .ask j id ∈ a2

/-- A store only fails when asked. -/
def FailedWhenAsked (evs : List Event) : Prop :=
  ∀ a k b, evs = a ++ .failed k :: b → ∃ a1 id a2, a = a1 ++ .ask k id :: a2 ∧ ∀ k' id', .ask k' id' ∉ a2

/-- Queries are answered: with data, if the store asked last has not failed; or with "not there", after each of the `n`
stores has failed before or was asked. -/
def Answered (n : Nat) (evs : List Event) : Prop :=
  ∀ a id r b, evs = a ++ .answer id r :: b → ∃ a1 a2, a = a1 ++ .query id :: a2 ∧ (∀ id', .query id' ∉ a2) ∧ (∀ id' r', .answer id' r' ∉ a2) ∧
    ((∃ m k x y, r = some (m + 1) ∧ a2 = x ++ .ask k id :: y ∧ (∀ k' id', .ask k' id' ∉ y) ∧ .failed k ∉ y) ∨
     (r = some 0 ∧ ∀ j < n, .failed j ∈ a1 ∨ .ask j id ∈ a2))

/-- A query is answered before the next one, or the last. -/
def Paired (evs : List Event) : Prop :=
  ∀ a id b, evs = a ++ .query id :: b → (∃ b1 r b2, b = b1 ++ .answer id r :: b2 ∧ ∀ id', .query id' ∉ b1) ∨ ∀ id', .query id' ∉ b

end Csn.Spec
