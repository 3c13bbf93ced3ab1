import Verif.Spec.Http
/-
Servers that are out of order.
-/
namespace Csn.Spec
open Csn

/-- A download attempt that shows nothing but that the server is out of order: the transfer fails with nothing of a body received,
or the server answers with an error other than "there is no such chunk".  (Error 23 is the receiver refusing the body.) -/
def Broken (r : CurlRun) : Prop :=
  (r.frags = [] ∧ r.code ≠ 0 ∧ r.code ≠ 23) ∨ ∃ c, r.http = some c ∧ 400 ≤ c ∧ c ≠ 404 ∧ c ≠ 410

/-- Whatever chunk below `base` is asked for, and whenever, the attempt is like this. -/
def Dead (net : List (Bytes → CurlRun)) (base : Bytes) (enc : Bool) : Prop :=
  ∀ g ∈ net, ∀ id : Id, id.length = 32 → Broken (g (chunkUrl base enc id))

/-- A download attempt after which the server may still be asked: a transient failure, or a complete or refused answer with a
status. -/
def Bearable (r : CurlRun) : Prop :=
  (TransientCode r.code ∨ r.code = 0 ∨ r.code = 23) ∧ (r.http ≠ none ∨ TransientCode r.code ∧ r.frags = [])

/-- Whatever chunk below `base` is asked for, and whenever, the attempt is like this. -/
def Bears (net : List (Bytes → CurlRun)) (base : Bytes) (enc : Bool) : Prop :=
  ∀ g ∈ net, ∀ id : Id, id.length = 32 → Bearable (g (chunkUrl base enc id))

/-- How often store number `k` is asked. -/
def timesAsked (k : Nat) : List Event → Nat
  | [] => 0
  | .ask j _ :: l => (if j = k then 1 else 0) + timesAsked k l
  | _ :: l => timesAsked k l

/-- The store asked last, after an event. -/
def lastAsked (cur : Option Nat) : Event → Option Nat
  | .ask j _ => some j
  | _ => cur

/-- Total of `f` over the events after store number `k` was asked and before the next store is; `cur` was asked last before. -/
def spentOn (f : Event → Nat) (k : Nat) : Option Nat → List Event → Nat
  | _, [] => 0
  | cur, e :: l => (if cur = some k then f e else 0) + spentOn f k (lastAsked cur e) l

/-- Requests made because store number `k` was asked. -/
def requestsFor (k : Nat) (l : List Event) : Nat := spentOn (fun e => match e with | .http _ => 1 | _ => 0) k none l

/-- Microseconds waited because store number `k` was asked. -/
def waitedFor (k : Nat) (l : List Event) : Nat := spentOn (fun e => match e with | .sleep t => t | _ => 0) k none l

end Csn.Spec
