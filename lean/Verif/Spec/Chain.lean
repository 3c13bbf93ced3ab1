import Verif.Model.Store
/-
What querying a chain of stores means (C13, C14), in terms of the calls of the single stores.
-/
namespace Csn.Spec
open Csn

/-- State around a store: shared state, output buffer, world. -/
structure Around (τ : Type) where
  t : τ
  out : Bytes
  w : World

/-- One finished call of store number `k`. -/
structure Call (τ σ : Type) where
  k : Nat
  pre : Around τ
  store : σ
  ans : Option Nat
  store' : σ
  post : Around τ

/-- A store's behaviour: an arbitrary computation. -/
abbrev Behaviour (τ σ : Type) := τ → σ → Id → Bytes → M (Option Nat × τ × σ × Bytes)

/-- The world when store `k` starts working: being asked is recorded in the log. -/
def asked (w : World) (k : Nat) (id : Id) : World := { w with log := w.log ++ [.ask k id] }

/-- The call really happened like this. -/
def Call.Real {τ σ : Type} (get : Behaviour τ σ) (id : Id) (c : Call τ σ) : Prop :=
  get c.pre.t c.store id c.pre.out (asked c.pre.w c.k id) = (.ok (c.ans, c.post.t, c.store', c.post.out), c.post.w)

/-- What the next store finds: a failure is recorded in the log. -/
def Call.after {τ σ : Type} (c : Call τ σ) : Around τ :=
  match c.ans with
  | none => { c.post with w := { c.post.w with log := c.post.w.log ++ [.failed c.k] } }
  | some _ => c.post

/-- The calls follow each other directly, from `a` to `b`. -/
def Linked {τ σ : Type} : Around τ → List (Call τ σ) → Around τ → Prop
  | a, [], b => a = b
  | a, c :: cs, b => c.pre = a ∧ Linked c.after cs b

/-- Numbers of the active stores, in order, counting from `i`. -/
def activeFrom {σ : Type} : Nat → List (Sub σ) → List Nat
  | _, [] => []
  | i, s :: r => if s.active then i :: activeFrom (i + 1) r else activeFrom (i + 1) r

/-- The answer of a store that does not have the chunk. -/
def Miss (a : Option Nat) : Prop := a = none ∨ a = some 0

/-- What `calls` make of the stores `subs` (numbered from `i`). -/
structure Updated {τ σ : Type} (i : Nat) (subs : List (Sub σ)) (calls : List (Call τ σ)) (subs' : List (Sub σ)) : Prop where
  length : subs'.length = subs.length
  /-- each call starts with the store's current state -/
  started : ∀ c ∈ calls, ∃ sub, i ≤ c.k ∧ subs[c.k - i]? = some sub ∧ c.store = sub.s
  /-- stores that were called are as the call left them; they stay active unless they failed -/
  called : ∀ c ∈ calls, ∃ sub', subs'[c.k - i]? = some sub' ∧ sub'.s = c.store' ∧ (sub'.active = true ↔ c.ans ≠ none)
  /-- other stores are untouched -/
  others : ∀ j : Nat, (∀ c ∈ calls, c.k ≠ i + j) → subs'[j]? = subs[j]?

/-- A finished query: the active stores are called in order until one has data. -/
structure Consulted {τ σ : Type} (get : Behaviour τ σ) (id : Id) (i : Nat) (subs : List (Sub σ)) (a : Around τ)
    (calls : List (Call τ σ)) (r : Option Nat) (subs' : List (Sub σ)) (b : Around τ) : Prop where
  real : ∀ c ∈ calls, c.Real get id
  linked : Linked a calls b
  updated : Updated i subs calls subs'
  result : (∃ cs c n, calls = cs ++ [c] ∧ (∀ c ∈ cs, Miss c.ans) ∧ c.ans = some (n + 1) ∧ r = some (n + 1) ∧
      calls.map (·.k) <+: activeFrom i subs) ∨
    ((∀ c ∈ calls, Miss c.ans) ∧ r = some 0 ∧ calls.map (·.k) = activeFrom i subs)

/-- A query during which the process stops, while store `k` is working. -/
structure Interrupted {τ σ : Type} (get : Behaviour τ σ) (id : Id) (i : Nat) (subs : List (Sub σ)) (a : Around τ)
    (calls : List (Call τ σ)) (k : Nat) (s : Stop) (w : World) : Prop where
  real : ∀ c ∈ calls, c.Real get id
  misses : ∀ c ∈ calls, Miss c.ans
  order : calls.map (·.k) ++ [k] <+: activeFrom i subs
  stop : ∃ b sub, Linked a calls b ∧ i ≤ k ∧ subs[k - i]? = some sub ∧ get b.t sub.s id b.out (asked b.w k id) = (.stop s, w)

end Csn.Spec
