import Verif.Proof.Slurp
import Verif.Model.Store
import Verif.Proof.Wp
import Verif.Proof.Index
/-
Allocation schedules are only consumed: after any computation of the HTTP store the schedule is a suffix
of the one before.
-/
namespace Csn.Proof
open Csn Spec

/-- `m` only consumes the allocation schedule. -/
def MemSuf {α : Type} (m : M α) : Prop := ∀ w, (m w).2.mem <:+ w.mem

theorem MemSuf.wp {α : Type} {m : M α} (h : MemSuf m) {Q : α → World → Prop} {S : Stop → World → Prop} {w : World}
    (hq : Proof.wp m Q S w) : Proof.wp m (fun a w' => Q a w' ∧ w'.mem <:+ w.mem) (fun s w' => S s w' ∧ w'.mem <:+ w.mem) w := by
  unfold Proof.wp at hq ⊢
  have := h w
  split at hq <;> (next e => rw [e] at this; exact ⟨hq, this⟩)

theorem MemSuf.pure {α : Type} (a : α) : MemSuf (Pure.pure a : M α) := fun _ => List.suffix_refl _
theorem MemSuf.stop {α : Type} (s : Stop) : MemSuf (M.stop s : M α) := fun _ => List.suffix_refl _
theorem MemSuf.emit (e : Event) : MemSuf (M.emit e) := fun _ => List.suffix_refl _
theorem MemSuf.alloc (n : Nat) : MemSuf (M.alloc n) := fun w => allocPure_suffix n w.mem

theorem MemSuf.bind {α β : Type} {m : M α} {f : α → M β} (h : MemSuf m) (h' : ∀ a, MemSuf (f a)) : MemSuf (m >>= f) := by
  intro w
  show (M.bind m f w).2.mem <:+ w.mem
  unfold M.bind
  have h1 := h w
  generalize m w = r at h1
  obtain ⟨r, w'⟩ := r
  cases r with
  | ok a => exact (h' a w').trans h1
  | stop s => exact h1

theorem MemSuf.ite {α : Type} {c : Prop} [Decidable c] {a b : M α} (ha : MemSuf a) (hb : MemSuf b) : MemSuf (if c then a else b) := by
  split
  · exact ha
  · exact hb

/-- Closes the goal for computations made of pure results, stops, events and allocations. -/
macro "memsuf" : tactic => `(tactic| repeat' (first
  | exact MemSuf.pure _
  | exact MemSuf.stop _
  | exact MemSuf.emit _
  | exact MemSuf.alloc _
  | refine MemSuf.bind ?_ (fun _ => ?_)
  | split
  | dsimp only))

theorem MemSuf.sysOk : MemSuf M.sysOk := by
  unfold M.sysOk
  refine MemSuf.bind ?_ (fun a => ?_)
  · intro w; unfold M.sysNext; split <;> exact List.suffix_refl _
  · split <;> exact MemSuf.pure _

theorem MemSuf.openPath (p : Bytes) : MemSuf (openPath p) := by
  unfold Csn.openPath
  refine MemSuf.bind MemSuf.sysOk (fun a => ?_)
  intro w
  cases a <;> exact List.suffix_refl _

theorem MemSuf.fdSize (i : Nat) : MemSuf (fdSize i) := by
  unfold Csn.fdSize
  refine MemSuf.bind MemSuf.sysOk (fun a => ?_)
  intro w
  cases a
  · exact List.suffix_refl _
  · simp only [Bool.not_true, Bool.false_eq_true, if_false]
    show (M.bind _ _ w).2.mem <:+ w.mem
    simp only [M.bind]
    cases w.kind i <;> exact List.suffix_refl _

theorem MemSuf.readall (i o n : Nat) : MemSuf (readall i o n) := by
  unfold Csn.readall Csn.preadall
  intro w
  simp only
  split <;> exact List.suffix_refl _

theorem MemSuf.slurpFile (p : Bytes) (t : Bool) : MemSuf (slurpFile p t) := by
  rw [slurpFile_eq]
  unfold slurpPlain
  refine MemSuf.bind (MemSuf.openPath _) (fun a => ?_)
  cases a with
  | none => exact MemSuf.pure _
  | some ino =>
    refine MemSuf.bind (MemSuf.fdSize _) (fun a => ?_)
    cases a with
    | none => exact MemSuf.pure _
    | some n =>
      refine MemSuf.bind (MemSuf.alloc _) (fun a => MemSuf.ite (MemSuf.pure _) ?_)
      refine MemSuf.bind (MemSuf.readall _ _ _) (fun a => ?_)
      split <;> exact MemSuf.pure _

theorem MemSuf.parseKeyspec (g : Bytes → Option Bytes) (s : Bytes) : MemSuf (parseKeyspec g s) := by
  rw [parseKeyspec_eq]
  refine MemSuf.ite (MemSuf.pure _) (MemSuf.ite ?_ (MemSuf.ite ?_ (MemSuf.pure _)))
  · split <;> exact MemSuf.pure _
  · refine MemSuf.bind (MemSuf.slurpFile _ _) (fun a => ?_)
    split <;> exact MemSuf.pure _

theorem MemSuf.handleParams (env : Env) : ∀ (n : Nat) (p : Bytes) (k : Option Bytes), MemSuf (handleParams env n p k)
  | 0, _, _ => MemSuf.pure _
  | n + 1, p, k => by
    unfold Csn.handleParams
    refine MemSuf.ite (MemSuf.pure _) (MemSuf.ite ?_ (MemSuf.pure _))
    refine MemSuf.bind (MemSuf.parseKeyspec _ _) (fun a => ?_)
    cases a with
    | none => exact MemSuf.pure _
    | some k =>
      refine MemSuf.bind (MemSuf.alloc _) (fun a => MemSuf.ite (MemSuf.pure _) (MemSuf.ite ?_ (MemSuf.pure _)))
      exact MemSuf.handleParams env n _ _

theorem MemSuf.httpNew (env : Env) (u : Bytes) : MemSuf (httpNew env u) := by
  unfold Csn.httpNew
  dsimp only
  refine MemSuf.bind (MemSuf.alloc _) (fun a => MemSuf.ite (MemSuf.pure _) ?_)
  refine MemSuf.bind (MemSuf.alloc _) (fun a => MemSuf.ite (MemSuf.pure _) ?_)
  split
  · refine MemSuf.bind (MemSuf.handleParams _ _ _ _) (fun a => ?_)
    memsuf
  · memsuf

theorem MemSuf.absorb (env : Env) (ks : Option (Nat → UInt8)) (r : Req) (d : Bytes) : MemSuf (absorb env ks r d) := by
  unfold Csn.absorb
  dsimp only
  memsuf

theorem MemSuf.handleData (env : Env) (r : Req) (d : Bytes) : MemSuf (handleData env r d) := by
  have run : ∀ r : Req, MemSuf (do
    if r.st ≠ .streaming then M.stop .abort
    let room := r.out.length - r.written
    match env.zstd r.hist room d with
    | none => return (none, { r with hist := r.hist ++ [(room, d)] })
    | some (k, o) =>
      if o.length > room ∨ k > d.length then M.stop .ub
      else return (some k, { r with
        hist := r.hist ++ [(room, d)]
        written := r.written + o.length
        out := bufWrite r.out r.written o }) : M (Option Nat × Req)) := by
    intro r
    have rest : MemSuf (match env.zstd r.hist (r.out.length - r.written) d with
      | none => (return (none, { r with hist := r.hist ++ [(r.out.length - r.written, d)] }) : M (Option Nat × Req))
      | some (k, o) =>
        if o.length > (r.out.length - r.written) ∨ k > d.length then M.stop .ub
        else return (some k, { r with
          hist := r.hist ++ [(r.out.length - r.written, d)]
          written := r.written + o.length
          out := bufWrite r.out r.written o })) := by
      split
      · exact MemSuf.pure _
      · exact MemSuf.ite (MemSuf.stop _) (MemSuf.pure _)
    exact MemSuf.ite (MemSuf.bind (MemSuf.stop _) (fun _ => rest)) rest
  unfold Csn.handleData
  refine MemSuf.ite (MemSuf.ite (MemSuf.pure _) (MemSuf.ite (run _) (MemSuf.pure _))) (run _)

theorem MemSuf.dataCb (env : Env) (ks : Option (Nat → UInt8)) (http : Option Nat) (r : Req) (d : Bytes) : MemSuf (dataCb env ks http r d) := by
  unfold Csn.dataCb
  refine MemSuf.ite (MemSuf.pure _) (MemSuf.ite (MemSuf.pure _) (MemSuf.ite ?_ ?_))
  · refine MemSuf.bind (MemSuf.absorb _ _ _ _) (fun a => ?_)
    split
    · exact MemSuf.pure _
    · refine MemSuf.bind (MemSuf.handleData _ _ _) (fun a => ?_)
      split <;> exact MemSuf.pure _
  · refine MemSuf.bind (MemSuf.handleData _ _ _) (fun a => ?_)
    split
    · exact MemSuf.pure _
    · refine MemSuf.ite ?_ (MemSuf.pure _)
      refine MemSuf.bind (MemSuf.absorb _ _ _ _) (fun a => ?_)
      split <;> exact MemSuf.pure _

theorem MemSuf.deliver (env : Env) (ks : Option (Nat → UInt8)) (http : Option Nat) : ∀ (fs : List Bytes) (r : Req), MemSuf (deliver env ks http r fs)
  | [], r => MemSuf.pure _
  | f :: fs, r => by
    unfold Csn.deliver
    exact MemSuf.bind (MemSuf.dataCb _ _ _ _ _) (fun a => MemSuf.ite (MemSuf.pure _) (MemSuf.deliver env ks http fs _))

theorem MemSuf.perform (env : Env) (ks : Option (Nat → UInt8)) (u : Bytes) (r : Req) : MemSuf (perform env ks u r) := by
  unfold Csn.perform
  refine MemSuf.bind (MemSuf.emit _) (fun _ => MemSuf.bind ?_ (fun run => MemSuf.bind (MemSuf.deliver _ _ _ _ _) (fun _ => MemSuf.pure _)))
  intro w
  simp only
  split <;> exact List.suffix_refl _

theorem MemSuf.retried (env : Env) (ks : Option (Nat → UInt8)) (u : Bytes) : ∀ (n wait : Nat) (r : Req), MemSuf (retried env ks u n wait r)
  | 0, wait, r => by
    unfold Csn.retried
    exact MemSuf.bind (MemSuf.perform _ _ _ _) (fun a => MemSuf.ite (MemSuf.pure _) (MemSuf.bind (MemSuf.emit _) (fun _ => MemSuf.pure _)))
  | n + 1, wait, r => by
    unfold Csn.retried
    exact MemSuf.bind (MemSuf.perform _ _ _ _) (fun a => MemSuf.ite (MemSuf.pure _) (MemSuf.bind (MemSuf.emit _) (fun _ => MemSuf.retried env ks u n _ _)))

theorem MemSuf.httpGet (env : Env) (h : Http) (id : Id) (out : Bytes) : MemSuf (httpGet env h id out) := by
  unfold Csn.httpGet
  refine MemSuf.ite (MemSuf.bind (MemSuf.stop _) (fun _ => ?_)) ?_ <;>
  exact MemSuf.bind (MemSuf.alloc _) (fun a => MemSuf.ite (MemSuf.pure _)
    (MemSuf.bind (MemSuf.retried _ _ _ _ _ _) (fun _ => MemSuf.pure _)))

end Csn.Proof
