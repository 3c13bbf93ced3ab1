import Verif.Proof.Logged
import Verif.Proof.Ends
/-
Setting up a run changes no files.
-/
namespace Csn.Proof
open Csn

/-- No file is changed, created or removed. -/
def ReadOnly {α : Type} (m : M α) : Prop := ∀ w, (m w).2.data = w.data ∧ (m w).2.kind = w.kind ∧ (m w).2.dir = w.dir ∧ (m w).2.next = w.next

theorem ReadOnly.pure {α : Type} (a : α) : ReadOnly (Pure.pure a : M α) := fun _ => ⟨rfl, rfl, rfl, rfl⟩

theorem ReadOnly.bind {α β : Type} (m : M α) (f : α → M β) (hm : ReadOnly m) (hf : ∀ a, ReadOnly (f a)) : ReadOnly (m >>= f) := by
  intro w
  have hb : (m >>= f) w = (match m w with
      | (.ok a, w2) => f a w2
      | (.stop s, w2) => (.stop s, w2)) := rfl
  rw [hb]
  have h := hm w
  generalize m w = r at h
  obtain ⟨res, w1⟩ := r
  cases res with
  | ok a =>
    obtain ⟨h1, h2, h3, h4⟩ := h
    obtain ⟨g1, g2, g3, g4⟩ := hf a w1
    exact ⟨g1.trans h1, g2.trans h2, g3.trans h3, g4.trans h4⟩
  | stop s => exact h

theorem ReadOnly.sysOk : ReadOnly M.sysOk := fun w => by
  rw [sysOk_eq]
  cases w.sys with
  | nil => exact ⟨rfl, rfl, rfl, rfl⟩
  | cons x r => cases x <;> exact ⟨rfl, rfl, rfl, rfl⟩

theorem readOnly_closed0 (env : LEnv) : Closed0 False env @ReadOnly where
  pure := ReadOnly.pure
  stop := fun _ _ _ _ => ⟨rfl, rfl, rfl, rfl⟩
  bind := ReadOnly.bind
  emit := fun _ _ _ _ _ => ⟨rfl, rfl, rfl, rfl⟩
  alloc := fun _ _ => ⟨rfl, rfl, rfl, rfl⟩
  insert := fun _ _ _ _ _ => by rw [indexInsert_shape]; exact ⟨rfl, rfl, rfl, rfl⟩
  sysOk := ReadOnly.sysOk
  openPath := fun p => by
    unfold Csn.openPath
    refine ReadOnly.bind _ _ ReadOnly.sysOk (fun a => ?_)
    cases a
    · exact ReadOnly.pure _
    · exact fun _ => ⟨rfl, rfl, rfl, rfl⟩
  fdSize := fun i => by
    rw [fdSize_eq]
    refine ReadOnly.bind _ _ ReadOnly.sysOk (fun a => ?_)
    cases a
    · exact ReadOnly.pure _
    · exact fun _ => ⟨rfl, rfl, rfl, rfl⟩
  preadall := fun i o n w => by
    unfold Csn.preadall
    generalize readLoop (w.data i) o n [] w.sys = r
    obtain ⟨r1, r2, r3⟩ := r
    cases r1 <;> exact ⟨rfl, rfl, rfl, rfl⟩
  pwriteall := fun h => h.elim
  scanInto := fun l idx w => by
    unfold Csn.scanInto
    generalize scanFd env.H env.disc env.bufsiz l.p (storeInsertScan true) (w.data l.ino) (idx, w.mem) w.sys = r
    obtain ⟨r1, ⟨r2, r2'⟩, r3⟩ := r
    cases r1 <;> exact ⟨rfl, rfl, rfl, rfl⟩
  net := fun url w => by
    unfold netNext
    split <;> exact ⟨rfl, rfl, rfl, rfl⟩

theorem readOnly_netOps : NetOps @ReadOnly := fun _ _ _ => ⟨rfl, rfl, rfl, rfl⟩

/-- Everything but `targetWrite` changes no files. -/
theorem readOnly_closed (env : LEnv) : Closed False env @ReadOnly where
  toClosed0 := readOnly_closed0 env
  localGet := (readOnly_closed0 env).localGet (fun _ => ⟨rfl, rfl, rfl, rfl⟩) 2

end Csn.Proof
