import Verif.Proof.ChainGet
import Verif.Proof.ReadOnly
/-
Queries do not change which file a local store refers to, and do not spoil an index without wrong entries.
-/
namespace Csn.Proof
open Csn Spec Props

theorem wp_any {α : Type} (m : M α) (w : World) : wp m (fun _ _ => True) (fun _ _ => True) w := by
  unfold wp
  split <;> trivial

/-- The file behind a local store. -/
def inoOf : Store → Option Nat
  | .loc l => some l.ino
  | _ => none

theorem wp_storeScan_ino (env : LEnv) (l : Loc) (w : World) : wp (storeScan env l) (fun a _ => a.2.ino = l.ino) (fun _ _ => True) w := by
  unfold storeScan
  refine wp_bind (wp_mono (wp_any _ _) (fun _ w1 _ => ?_) (fun _ _ _ => trivial))
  refine wp_bind (wp_mono (wp_any _ _) (fun a w1 _ => ?_) (fun _ _ _ => trivial))
  cases a with
  | none => exact wp_pure rfl
  | some size =>
    refine wp_bind (wp_mono (wp_any _ _) (fun a w1 _ => ?_) (fun _ _ _ => trivial))
    cases a with
    | none => exact wp_pure rfl
    | some idx =>
      refine wp_bind (wp_mono (wp_any _ _) (fun a w1 _ => ?_) (fun _ _ _ => trivial))
      exact wp_pure rfl

theorem wp_localGet_ino (env : LEnv) : ∀ (fuel : Nat) (l : Loc) (id : Id) (out : Bytes) (w : World),
    wp (localGet env fuel l id out) (fun a _ => a.2.1.ino = l.ino) (fun _ _ => True) w
  | 0, l, id, out, w => by unfold localGet; exact wp_stop trivial
  | fuel + 1, l, id, out, w => by
    unfold localGet
    cases l.idx with
    | freed => exact wp_stop trivial
    | null => exact wp_stop trivial
    | live idx =>
      simp only
      obtain ⟨r, idx'⟩ := indexQuery env.lib idx id
      cases r with
      | none => exact wp_pure rfl
      | some i =>
        simp only
        cases idx'.entries[i]? with
        | none => exact wp_stop trivial
        | some e =>
          simp only
          split
          · exact wp_pure rfl
          · refine wp_bind (wp_mono (wp_any _ _) (fun a w1 _ => ?_) (fun _ _ _ => trivial))
            obtain ⟨ok, d⟩ := a
            simp only
            split
            · exact wp_pure rfl
            · split
              · exact wp_pure rfl
              · split
                · exact wp_pure rfl
                · refine wp_bind (wp_mono (wp_storeScan_ino env _ _) (fun a w1 h => ?_) (fun _ _ _ => trivial))
                  obtain ⟨ok, l'⟩ := a
                  simp only at h
                  cases ok with
                  | false => exact wp_pure h
                  | true => exact wp_mono (wp_localGet_ino env fuel l' id _ _) (fun a w2 h' => h'.trans h) (fun _ _ _ => trivial)

theorem wp_storeGet_ino (env : Env) (t : Tgt) (s : Store) (id : Id) (out : Bytes) (w : World) :
    wp (storeGet env t s id out) (fun a _ => inoOf a.2.2.1 = inoOf s) (fun _ _ => True) w := by
  unfold storeGet
  cases s with
  | loc l =>
    refine wp_bind (wp_mono (wp_localGet_ino _ _ _ _ _ _) (fun a w1 h => ?_) (fun _ _ _ => trivial))
    exact wp_pure (by simp [inoOf, h])
  | http h =>
    refine wp_bind (wp_mono (wp_any _ _) (fun a w1 _ => ?_) (fun _ _ _ => trivial))
    exact wp_pure rfl
  | target =>
    refine wp_bind (wp_mono (wp_any _ _) (fun a w1 _ => ?_) (fun _ _ _ => trivial))
    exact wp_pure rfl

theorem wp_chainLoop_ino (env : Env) (id : Id) : ∀ (subs : List (Sub Store)) (i : Nat) (t : Tgt) (out : Bytes) (w : World),
    wp (chainLoop (storeGet env) id i t subs out) (fun a _ => a.2.2.1.map (fun s => inoOf s.s) = subs.map (fun s => inoOf s.s)) (fun _ _ => True) w
  | [], i, t, out, w => by unfold chainLoop; exact wp_pure rfl
  | sub :: subs, i, t, out, w => by
    unfold chainLoop
    have rest : ∀ (sub' : Sub Store) (t : Tgt) (out : Bytes) (w : World), inoOf sub'.s = inoOf sub.s →
        wp (chainLoop (storeGet env) id (i + 1) t subs out >>= fun x => match x with
          | (r, t, subs, out) => (pure (r, t, sub' :: subs, out) : M (Option Nat × Tgt × List (Sub Store) × Bytes)))
        (fun a _ => a.2.2.1.map (fun s => inoOf s.s) = (sub :: subs).map (fun s => inoOf s.s)) (fun _ _ => True) w := by
      intro sub' t out w he
      refine wp_bind (wp_mono (wp_chainLoop_ino env id subs (i + 1) t out w) (fun a w1 h => ?_) (fun _ _ _ => trivial))
      exact wp_pure (by simp [h, he])
    cases sub.active with
    | false => exact rest sub t out w rfl
    | true =>
      simp only [Bool.not_true, Bool.false_eq_true, if_false]
      refine wp_bind (wp_emit ?_)
      refine wp_bind (wp_mono (wp_storeGet_ino env t sub.s id out _) (fun a w1 h => ?_) (fun _ _ _ => trivial))
      obtain ⟨r, t', s', out'⟩ := a
      simp only at h
      cases r with
      | none => exact wp_bind (wp_emit (rest _ _ _ _ h))
      | some n =>
        cases n with
        | zero => exact rest _ _ _ _ h
        | succ n => exact wp_pure (by simp [h])

/-- No entry of the store's index that can be read is wrong about the file `f`. -/
def Right (H : Bytes → Id) (f : Bytes) (l : Loc) : Prop :=
  ∃ idx, l.idx = .live idx ∧ IndexInv idx ∧
    ∀ e ∈ idx.entries, (slice f e.start e.len).length = e.len → H (slice f e.start e.len) = e.id

/-- A store without wrong entries stays so: it is never scanned again. -/
theorem wp_localGet_right {env : LEnv} (hlib : env.lib.Conforms) (fuel : Nat) {l : Loc} {f : Bytes} (hl : Right env.H f l) (id : Id) (out : Bytes)
    {w : World} (hf : w.data l.ino = f) :
    wp (localGet env fuel l id out) (fun a _ => Right env.H f a.2.1) (fun _ _ => True) w := by
  cases fuel with
  | zero => unfold localGet; exact wp_stop trivial
  | succ fuel =>
    obtain ⟨idx, h1, hi, h2⟩ := hl
    have lift : ∀ idx' : Index, idx'.entries.Perm idx.entries →
        ∀ e ∈ idx'.entries, (slice f e.start e.len).length = e.len → env.H (slice f e.start e.len) = e.id :=
      fun idx' hp e he => h2 e (hp.mem_iff.1 he)
    apply wp_localPass hlib h1 hi
    · exact fun idx' k1 k2 _ => ⟨idx', rfl, k1, lift idx' k2⟩
    · exact fun idx' e k1 k2 _ _ _ => ⟨idx', rfl, k1, lift idx' k2⟩
    · exact fun idx' e r k k1 k2 _ _ _ _ _ _ => ⟨idx', rfl, k1, lift idx' k2⟩
    · exact fun idx' e r k1 k2 _ _ _ _ _ _ => ⟨idx', rfl, k1, lift idx' k2⟩
    · intro idx' e r i k0 k1 k2 k3 k4 k5 k6 k7 k8 k9 k10
      refine ⟨_, rfl, k0, fun x hx hlen => ?_⟩
      rcases modify_mem k5 hx with hx | hx
      · subst hx
        simp only at hlen ⊢
        exact h2 e k3 hlen
      · exact lift idx' k2 x hx hlen
    · intro e r k1 k2 k3 k4 k5 k6 k7
      rw [hf] at k6 k7
      exact absurd ((h2 e k1 k6).trans k2) k7
    · intros; trivial

/-- Whatever `P` says about a local store's file; or else its index is not wrong. -/
def Marked (H : Bytes → Id) (tino : Nat) (w0 : World) (P : Nat → Prop) (s : Store) : Prop :=
  ∀ l, s = .loc l → P l.ino ∨ l.ino ≠ tino ∧ Right H (w0.data l.ino) l

theorem wp_storeGet_data (env : Env) (t : Tgt) (s : Store) (id : Id) (out : Bytes) (w : World) :
    wp (storeGet env t s id out) (fun _ w' => w'.data = w.data) (fun _ _ => True) w := by
  have h := ((readOnly_closed env.toLEnv).storeGet readOnly_netOps env rfl t s id out w).1
  unfold wp
  generalize storeGet env t s id out w = r at h
  obtain ⟨a, w'⟩ := r
  cases a with
  | ok a => exact h
  | stop a => trivial

theorem wp_storeGet_marked {env : Env} (hlib : env.lib.Conforms) {tino : Nat} {w0 : World} {P : Nat → Prop} (t : Tgt) {s : Store}
    (hs : Marked env.H tino w0 P s) (id : Id) (out : Bytes) {w : World} (hw : ∀ i, i ≠ tino → w.data i = w0.data i) :
    wp (storeGet env t s id out) (fun a _ => Marked env.H tino w0 P a.2.2.1) (fun _ _ => True) w := by
  unfold storeGet
  cases s with
  | loc l =>
    rcases hs l rfl with h | ⟨h0, h⟩
    · refine wp_bind (wp_mono (wp_localGet_ino _ _ _ _ _ _) (fun a w1 h' => ?_) (fun _ _ _ => trivial))
      exact wp_pure (fun l' hl' => by cases hl'; exact Or.inl (h'.symm ▸ h))
    · refine wp_bind (wp_mono (wp_and (wp_localGet_ino _ _ _ _ _ _) (wp_localGet_right (env := env.toLEnv) hlib _ h _ _ (hw _ h0))) (fun a w1 h' => ?_) (fun _ _ _ => trivial))
      refine wp_pure (fun l' hl' => ?_)
      cases hl'
      refine Or.inr ⟨h'.1 ▸ h0, ?_⟩
      rw [h'.1]
      exact h'.2
  | http h =>
    refine wp_bind (wp_mono (wp_any _ _) (fun a w1 _ => ?_) (fun _ _ _ => trivial))
    exact wp_pure (fun l hl => by cases hl)
  | target =>
    refine wp_bind (wp_mono (wp_any _ _) (fun a w1 _ => ?_) (fun _ _ _ => trivial))
    exact wp_pure (fun l hl => by cases hl)

theorem wp_chainLoop_marked {env : Env} (hlib : env.lib.Conforms) {tino : Nat} {w0 : World} {P : Nat → Prop} (id : Id) :
    ∀ (subs : List (Sub Store)) (i : Nat) (t : Tgt) (out : Bytes) (w : World),
    (∀ sub ∈ subs, Marked env.H tino w0 P sub.s) → (∀ i, i ≠ tino → w.data i = w0.data i) →
    wp (chainLoop (storeGet env) id i t subs out) (fun a _ => ∀ sub ∈ a.2.2.1, Marked env.H tino w0 P sub.s) (fun _ _ => True) w
  | [], i, t, out, w, _, _ => by unfold chainLoop; exact wp_pure (by simp)
  | sub :: subs, i, t, out, w, hm, hw => by
    unfold chainLoop
    have hm' : ∀ s ∈ subs, Marked env.H tino w0 P s.s := fun s hs => hm s (List.mem_cons_of_mem _ hs)
    have h0 : Marked env.H tino w0 P sub.s := hm sub (by simp)
    have rest : ∀ (sub' : Sub Store) (t : Tgt) (out : Bytes) (w : World), Marked env.H tino w0 P sub'.s → (∀ i, i ≠ tino → w.data i = w0.data i) →
        wp (chainLoop (storeGet env) id (i + 1) t subs out >>= fun x => match x with
          | (r, t, subs, out) => (pure (r, t, sub' :: subs, out) : M (Option Nat × Tgt × List (Sub Store) × Bytes)))
        (fun a _ => ∀ sub ∈ a.2.2.1, Marked env.H tino w0 P sub.s) (fun _ _ => True) w := by
      intro sub' t out w he hw
      refine wp_bind (wp_mono (wp_chainLoop_marked hlib id subs (i + 1) t out w hm' hw) (fun a w1 h => ?_) (fun _ _ _ => trivial))
      exact wp_pure (fun s hs => by
        rcases List.mem_cons.1 hs with hs | hs
        · rw [hs]; exact he
        · exact h s hs)
    cases sub.active with
    | false => exact rest sub t out w h0 hw
    | true =>
      simp only [Bool.not_true, Bool.false_eq_true, if_false]
      refine wp_bind (wp_emit ?_)
      refine wp_bind (wp_mono (wp_and (wp_storeGet_marked hlib t h0 id out (w := { w with log := w.log ++ [.ask i id] }) hw)
        (wp_storeGet_data env t sub.s id out { w with log := w.log ++ [.ask i id] })) (fun a w1 h => ?_) (fun _ _ _ => trivial))
      obtain ⟨r, t', s', out'⟩ := a
      obtain ⟨h, hd⟩ := h
      simp only at h hd
      rw [← hd] at hw
      cases r with
      | none => exact wp_bind (wp_emit (rest _ _ _ _ h hw))
      | some n =>
        cases n with
        | zero => exact rest _ _ _ _ h hw
        | succ n =>
          exact wp_pure (fun s hs => by
            rcases List.mem_cons.1 hs with hs | hs
            · rw [hs]; exact h
            · exact hm' s hs)

end Csn.Proof
