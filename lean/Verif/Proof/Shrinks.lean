import Verif.Proof.Turns
import Verif.Proof.MemSufLocal
/-
What the network does, and which allocations succeed, is used up, not added to.
-/
namespace Csn.Proof
open Csn Spec

/-- What is left of the schedules of network and allocations is their end. -/
structure Later (w w' : World) : Prop where
  net : w'.net <:+ w.net
  mem : w'.mem <:+ w.mem

theorem Later.refl (w : World) : Later w w := ⟨List.suffix_refl _, List.suffix_refl _⟩

theorem Later.trans {a b c : World} (h : Later a b) (h' : Later b c) : Later a c := ⟨h'.net.trans h.net, h'.mem.trans h.mem⟩

def Shrinks {α : Type} (m : M α) : Prop := ∀ w, Later w (m w).2

theorem Shrinks.mk {α : Type} {m : M α} (hm : MemSuf m) (h : ∀ w, (m w).2.net <:+ w.net) : Shrinks m := fun w => ⟨h w, hm w⟩

theorem Shrinks.still {α : Type} {m : M α} (hm : MemSuf m) (h : ∀ w, (m w).2.net = w.net) : Shrinks m :=
  Shrinks.mk hm (fun w => by rw [h]; exact List.suffix_refl _)

theorem Shrinks.pure {α : Type} (a : α) : Shrinks (Pure.pure a : M α) := Shrinks.still (MemSuf.pure a) (fun _ => rfl)

theorem Shrinks.bind {α β : Type} (m : M α) (f : α → M β) (hm : Shrinks m) (hf : ∀ a, Shrinks (f a)) : Shrinks (m >>= f) := by
  intro w
  have h := hm w
  have hb : (m >>= f) w = (match m w with
      | (.ok a, w2) => f a w2
      | (.stop s, w2) => (.stop s, w2)) := rfl
  rw [hb]
  generalize m w = r at h
  obtain ⟨res, w1⟩ := r
  cases res with
  | ok a => exact h.trans (hf a w1)
  | stop s => exact h

theorem Shrinks.sysOk : Shrinks M.sysOk := Shrinks.still MemSuf.sysOk (fun w => by
  rw [sysOk_eq]
  cases w.sys with
  | nil => rfl
  | cons x r => cases x <;> rfl)

theorem shrinks_closed0 (env : LEnv) : Closed0 True env @Shrinks where
  pure := Shrinks.pure
  stop := fun _ _ _ => Shrinks.still (MemSuf.stop _) (fun _ => rfl)
  bind := Shrinks.bind
  emit := fun _ _ _ _ => Shrinks.still (MemSuf.emit _) (fun _ => rfl)
  alloc := fun _ => Shrinks.still (MemSuf.alloc _) (fun _ => rfl)
  insert := fun _ _ _ _ => Shrinks.still (MemSuf.indexInsert _ _ _ _) (fun _ => by rw [indexInsert_shape])
  sysOk := Shrinks.sysOk
  openPath := fun p => by
    unfold Csn.openPath
    refine Shrinks.bind _ _ Shrinks.sysOk (fun a => ?_)
    cases a
    · exact Shrinks.pure _
    · exact Shrinks.still (fun _ => List.suffix_refl _) (fun _ => rfl)
  fdSize := fun i => by
    rw [fdSize_eq]
    refine Shrinks.bind _ _ Shrinks.sysOk (fun a => ?_)
    cases a
    · exact Shrinks.pure _
    · exact Shrinks.still (fun _ => List.suffix_refl _) (fun _ => rfl)
  preadall := fun i o n => Shrinks.still (fun w => by
    unfold Csn.preadall
    generalize readLoop (w.data i) o n [] w.sys = r
    obtain ⟨r1, r2, r3⟩ := r
    cases r1 <;> exact List.suffix_refl _) (fun w => by
    unfold Csn.preadall
    generalize readLoop (w.data i) o n [] w.sys = r
    obtain ⟨r1, r2, r3⟩ := r
    cases r1 <;> rfl)
  pwriteall := fun _ i d o => Shrinks.still (fun w => by
    unfold Csn.pwriteall
    generalize writeLoop (decide (w.kind i = .blk)) o d 0 (w.data i) [] w.sys = r
    obtain ⟨r1, r2, r3, r4⟩ := r
    cases r1 <;> exact List.suffix_refl _) (fun w => by
    unfold Csn.pwriteall
    generalize writeLoop (decide (w.kind i = .blk)) o d 0 (w.data i) [] w.sys = r
    obtain ⟨r1, r2, r3, r4⟩ := r
    cases r1 <;> rfl)
  scanInto := fun l idx => Shrinks.still (MemSuf.scanInto env l idx) (fun w => by
    unfold Csn.scanInto
    generalize scanFd env.H env.disc env.bufsiz l.p (storeInsertScan true) (w.data l.ino) (idx, w.mem) w.sys = r
    obtain ⟨r1, ⟨r2, r2'⟩, r3⟩ := r
    cases r1 <;> rfl)
  net := fun url w => by
    unfold netNext
    split
    · exact Later.refl w
    · next f n e => exact ⟨by rw [e]; exact List.suffix_cons _ _, List.suffix_refl _⟩

theorem shrinks_closed (env : LEnv) : Closed True env @Shrinks where
  toClosed0 := shrinks_closed0 env
  localGet := (shrinks_closed0 env).localGet (Shrinks.still (fun _ => List.suffix_refl _) (fun _ => rfl)) 2

theorem shrinks_netOps : NetOps @Shrinks := fun _ _ => Shrinks.still (fun _ => List.suffix_refl _) (fun _ => rfl)

theorem wp_still {T : Event → Prop} {α : Type} {m : M α} (h : Mute T m) (hn : Shrinks m) {Q : α → World → Prop} {S : Stop → World → Prop} {w : World}
    (hq : ∀ a w' evs, w'.log = w.log ++ evs → (∀ e ∈ evs, ¬ T e) → Later w w' → Q a w')
    (hs : ∀ s w' evs, w'.log = w.log ++ evs → (∀ e ∈ evs, ¬ T e) → Later w w' → S s w') : wp m Q S w := by
  unfold wp
  obtain ⟨evs, h1, h2⟩ := h w
  have h3 := hn w
  split
  · next e => rw [e] at h1 h3; exact hq _ _ evs h1 h2 h3
  · next e => rw [e] at h1 h3; exact hs _ _ evs h1 h2 h3

end Csn.Proof
