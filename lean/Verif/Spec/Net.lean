import Verif.Spec.Http
import Verif.Spec.Args
import Verif.Spec.Text
/-
How a run may use the network.
-/
namespace Csn.Spec
open Csn

/-- Requests and the waiting times after them. -/
def isNet : Event → Bool
  | .http _ => true
  | .sleep _ => true
  | _ => false

/-- Questions to stores and their outcome, and what is reported at the end. -/
def isChain : Event → Bool
  | .query _ => true
  | .ask _ _ => true
  | .failed _ => true
  | .answer _ _ => true
  | .skipped _ => true
  | .stats _ _ => true
  | _ => false

/-- Ten attempts, each with the waiting time after it. -/
def retrySchedule (url : Bytes) : List Event := (List.range 10).flatMap (fun i => [.http url, .sleep (backoff i)])

/-- The network is used only while a store is asked for a chunk: what happens on it since then is the beginning of the schedule
for a URL that `U` allows for this store and this chunk. -/
def OnSchedule (U : Nat → Id → Bytes → Prop) (evs : List Event) : Prop :=
  ∀ a e b, evs = a ++ e :: b → isNet e = true → ∃ a1 k id a2 url, a = a1 ++ .ask k id :: a2 ∧ (∀ x ∈ a2, isChain x = false) ∧
    U k id url ∧ (a2 ++ [e]).filter isNet <+: retrySchedule url

/-- URL of a chunk at store number `k`, which must be an HTTP store: the chunk's place below the URL given on the command line,
for encrypted chunks if that configures a key. -/
def StoreUrl (getenv : Bytes → Option Bytes) (w : World) (tpath : Bytes) (stores : List Bytes) (k : Nat) (id : Id) (url : Bytes) : Prop :=
  ∃ arg base frag key, stores[k]? = some arg ∧ HttpArg tpath arg ∧ BaseOf arg base frag ∧
    ParamsKey (KeyOf getenv w) (frag.getD []) key ∧ id.length = 32 ∧ url = chunkUrl base key.isSome id

end Csn.Spec
