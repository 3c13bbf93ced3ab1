import Verif.Model.Base
/-
Runs up to the splitting of transfers.
-/
namespace Csn.Spec
open Csn

/-- A write, byte by byte. -/
def bytewise (i : Nat) : Nat → Bytes → List Event
  | _, [] => []
  | o, b :: r => .write i o [b] :: bytewise i (o + 1) r

/-- A log with every write split into single bytes: logs that differ only in how writes were split agree. -/
def atoms : List Event → List Event
  | [] => []
  | .write i o d :: r => bytewise i o d ++ atoms r
  | e :: r => e :: atoms r

/-- The same files, memory and network to come, and the same events up to the splitting of writes; the system calls to come
may differ. -/
structure Same (w w' : World) : Prop where
  data : w'.data = w.data
  kind : w'.kind = w.kind
  dir : w'.dir = w.dir
  next : w'.next = w.next
  mem : w'.mem = w.mem
  net : w'.net = w.net
  log : atoms w'.log = atoms w.log

/-- No system call fails, and none transfers nothing (other than at an end of file).  Calls may be interrupted, transfers may
be short, and the process may be killed at any time (when the schedule ends). -/
def Undisturbed (sys : List Sys) : Prop := Sys.err ∉ sys ∧ Sys.zero ∉ sys

/-- How many system calls are not merely interrupted.  Interrupted calls are not counted since any number of them may occur. -/
def calls : List Sys → Nat
  | [] => 0
  | .eintr :: r => calls r
  | _ :: r => calls r + 1

/-- `r` is the end of a run that was to end in `R`: it has got there, or was killed on the way. -/
def Towards {α : Type} (R r : Res α × World) : Prop :=
  (r.1 ≠ .stop .killed ∧ r.1 = R.1 ∧ Same R.2 r.2) ∨ (r.1 = .stop .killed ∧ atoms r.2.log <+: atoms R.2.log)

end Csn.Spec
