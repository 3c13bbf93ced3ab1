import Verif.Proof.More
import Verif.Proof.Setup
import Verif.Proof.Caibx
import Verif.Proof.RunAny
/-
In a successful run with an index without empty regions, no chunk is looked for in vain.
-/
namespace Csn.Proof
open Csn Spec

/-- Files are unchanged, and no chunk was looked for in vain. -/
structure Fr (w w' : World) : Prop where
  data : w'.data = w.data
  none : NoneMissing w → NoneMissing w'

theorem Fr.trans {a b c : World} (h : Fr a b) (h' : Fr b c) : Fr a c := ⟨h'.data.trans h.data, fun hn => h'.none (h.none hn)⟩

theorem Fr.emit (w : World) {e : Event} (he : ∀ id, e ≠ .answer id (some 0)) : Fr w { w with log := w.log ++ [e] } := by
  refine ⟨rfl, fun hn id h => ?_⟩
  rcases List.mem_append.1 h with h | h
  · exact hn id h
  · exact he id (List.mem_singleton.1 h).symm

theorem noneMissing_append {w w' : World} {evs : List Event} (h : w'.log = w.log ++ evs) (he : ∀ e ∈ evs, ¬ ChainEv e) (hn : NoneMissing w) : NoneMissing w' := by
  intro id hi
  rw [h] at hi
  rcases List.mem_append.1 hi with hi | hi
  · exact hn id hi
  · exact he _ hi trivial

theorem wp_fr {α : Type} {m : M α} (h1 : ReadOnly m) (h2 : NoAsk m) (w : World) : wp m (fun _ w' => Fr w w') (fun _ _ => True) w := by
  refine wp_mono (wp_and (wp_readOnly h1 w) (wp_noAsk (Q := fun _ w' => NoneMissing w → NoneMissing w') (S := fun _ _ => True) h2
    (fun a w' evs h he => noneMissing_append h he) (fun _ _ _ _ _ => trivial))) (fun a w' h => ⟨h.1.1, h.2⟩) (fun _ _ _ => trivial)

section
variable {env : Env}

theorem wp_storeGet_fr (t : Tgt) (s : Store) (id : Id) (out : Bytes) (w : World) :
    wp (storeGet env t s id out) (fun a w' => a.2.1.ino = t.ino ∧ Fr w w') (fun _ _ => True) w := by
  refine wp_mono (wp_and ?_ (wp_fr ((readOnly_closed env.toLEnv).storeGet readOnly_netOps env rfl t s id out)
    ((noAsk_closed env.toLEnv).storeGet noAsk_netOps env rfl t s id out) w)) (fun a w' h => h) (fun _ _ _ => trivial) (S := fun _ _ => True ∧ True)
  unfold storeGet
  cases s with
  | loc l => exact wp_bind (wp_mono (wp_any _ _) (fun a w1 _ => wp_pure rfl) (fun _ _ _ => trivial))
  | http h => exact wp_bind (wp_mono (wp_any _ _) (fun a w1 _ => wp_pure rfl) (fun _ _ _ => trivial))
  | target =>
    refine wp_bind ?_
    unfold targetGet
    split
    · exact wp_pure (wp_pure rfl)
    · split
      · exact wp_pure (wp_pure rfl)
      · split
        · exact wp_stop trivial
        · split
          · exact wp_pure (wp_pure rfl)
          · refine wp_bind (wp_mono (wp_any _ _) (fun a w1 _ => ?_) (fun _ _ _ => trivial))
            dsimp only
            split
            · exact wp_pure (wp_pure rfl)
            · exact wp_pure (wp_pure rfl)

theorem wp_chainLoop_fr (id : Id) : ∀ (subs : List (Sub Store)) (i : Nat) (t : Tgt) (out : Bytes) (w : World),
    wp (chainLoop (storeGet env) id i t subs out) (fun a w' => a.2.1.ino = t.ino ∧ Fr w w') (fun _ _ => True) w
  | [], i, t, out, w => ⟨rfl, rfl, fun h => h⟩
  | s :: subs, i, t, out, w => by
    rw [chainLoop]
    by_cases ha : (!s.active) = true
    · simp only [ha, if_true]
      exact wp_bind (wp_mono (wp_chainLoop_fr id subs (i + 1) t out w) (fun a w' h => wp_pure h) (fun _ _ _ => trivial))
    · simp only [ha]
      refine wp_bind (wp_emit (wp_bind (wp_mono (wp_storeGet_fr _ _ _ _ _) ?_ (fun _ _ _ => trivial))))
      rintro ⟨r, t', s', out'⟩ w1 ⟨h1, h2⟩
      have h2 := (Fr.emit w (e := .ask i id) (fun _ h => by cases h)).trans h2
      cases r with
      | none =>
        refine wp_bind (wp_emit (wp_bind (wp_mono (wp_chainLoop_fr id subs (i + 1) t' out' _) ?_ (fun _ _ _ => trivial))))
        intro a w' h
        exact wp_pure ⟨h.1.trans h1, (h2.trans (Fr.emit w1 (e := .failed i) (fun _ h => by cases h))).trans h.2⟩
      | some n =>
        cases n with
        | zero =>
          refine wp_bind (wp_mono (wp_chainLoop_fr id subs (i + 1) t' out' _) ?_ (fun _ _ _ => trivial))
          intro a w' h
          exact wp_pure ⟨h.1.trans h1, h2.trans h.2⟩
        | succ n => exact wp_pure ⟨h1, h2⟩

theorem wp_targetAdd_ino (lib : Lib) (t : Tgt) (len off : Nat) (id : Id) (w : World) : wp (targetAdd lib t len off id) (fun a _ => a.ino = t.ino) (fun _ _ => True) w := by
  unfold targetAdd
  split
  · exact wp_pure rfl
  · split
    · exact wp_pure rfl
    · exact wp_bind (wp_mono (wp_any _ _) (fun a w1 _ => wp_pure rfl) (fun _ _ _ => trivial))

theorem wp_targetCheck_fr (t : Tgt) (buf : Bytes) (len off : Nat) (id : Id) (w : World) :
    wp (targetCheck env t buf len off id) (fun a w' => a.2.1.ino = t.ino ∧ Fr w w') (fun _ _ => True) w := by
  refine wp_mono (wp_and ?_ (wp_fr ((readOnly_closed env.toLEnv).targetCheck env t buf len off id)
    ((noAsk_closed env.toLEnv).targetCheck env t buf len off id) w)) (fun a w' h => h) (fun _ _ _ => trivial) (S := fun _ _ => True ∧ True)
  unfold targetCheck
  by_cases hl : len > buf.length
  · simp only [hl, if_true]
    exact wp_bind (wp_stop trivial)
  · simp only [hl, if_false]
    refine wp_bind (wp_mono (wp_any _ _) (fun a w1 _ => ?_) (fun _ _ _ => trivial))
    split
    · exact wp_pure rfl
    · split
      · exact wp_pure rfl
      · exact wp_bind (wp_mono (wp_targetAdd_ino _ _ _ _ _ _) (fun a w1 h => wp_pure h) (fun _ _ _ => trivial))

/-- The index file `ino` with contents `f` is left alone by a run that writes to `ti`. -/
structure Fine' (ino : Nat) (f : Bytes) (ti : Nat) (c : Cb) (w : World) : Prop where
  data : w.data ino = f
  tgt : c.tgt.ino = ti
  none : NoneMissing w

theorem wp_targetWrite_fr (env : Env) {ino ti : Nat} {f : Bytes} (hne : ino ≠ ti) (lib : Lib) (t : Tgt) (ht : t.ino = ti) (buf : Bytes) (len off : Nat) (id : Id) (w : World)
    (hd : w.data ino = f) (hn : NoneMissing w) :
    wp (targetWrite lib t buf len off id) (fun a w' => a.2.ino = ti ∧ w'.data ino = f ∧ NoneMissing w') (fun _ _ => True) w := by
  have hm : wp (targetWrite lib t buf len off id) (fun _ w' => NoneMissing w') (fun _ _ => True) w :=
    wp_noAsk (Mute.targetWrite (fun _ h => Or.inl h.top) _ _ _ _ _ _) (fun a w' evs h he => noneMissing_append h he hn) (fun _ _ _ _ _ => trivial)
  refine wp_mono (wp_and ?_ hm) (fun a w' h => ⟨h.1.1, h.1.2, h.2⟩) (fun _ _ _ => trivial) (Q := fun a w' => (a.2.ino = ti ∧ w'.data ino = f) ∧ NoneMissing w') (S := fun _ _ => True ∧ True)
  have hwr : ∀ (d : Bytes) evs r, (wrote w t.ino off d evs r).data ino = f := by
    intro d evs r
    unfold wrote
    simp only
    rw [if_neg (by rw [ht]; exact hne)]
    exact hd
  unfold targetWrite
  by_cases hl : len > buf.length
  · simp only [hl, if_true]
    exact wp_bind (wp_stop trivial)
  · simp only [hl, if_false]
    refine wp_bind (wp_pwriteall ?_ ?_ (fun _ _ _ _ _ _ _ _ _ _ => trivial))
    · intro r evs _ _ _ _
      simp only [Bool.not_true, Bool.false_eq_true, if_false]
      have hro := wp_readOnly ((readOnly_closed env.toLEnv).targetAdd lib t len off id) (wrote w t.ino off (buf.take len) evs r)
      refine wp_bind (wp_mono (wp_and (wp_targetAdd_ino _ _ _ _ _ _) hro) (fun a w1 h => wp_pure ⟨h.1.trans ht, ?_⟩) (fun _ _ _ => trivial))
      rw [h.2.1]
      exact hwr _ _ _
    · intro r evs k _ _ _ _ _ _
      exact wp_pure ⟨ht, hwr _ _ _⟩

theorem wp_entryCb_found {ino ti : Nat} {f : Bytes} (hne : ino ≠ ti) (e : Seg) (he : e.len ≠ 0) (c : Cb) (w : World) (h : Fine' ino f ti c w) :
    wp (entryCb env c e) (fun b w' => b.1 = true → Fine' ino f ti b.2 w') (fun _ _ => True) w := by
  have hstore : ∀ (c : Cb) (w : World), Fine' ino f ti c w → wp (storePart env e c) (fun b w' => b.1 = true → Fine' ino f ti b.2 w') (fun _ _ => True) w := by
    intro c w h
    rw [storePart_eq]
    have hwrite : ∀ (c : Cb) (w : World), Fine' ino f ti c w → wp (writePart' env e (true, c)) (fun b w' => b.1 = true → Fine' ino f ti b.2 w') (fun _ _ => True) w := by
      intro c w h
      refine wp_bind (wp_mono (wp_targetWrite_fr env hne _ _ h.tgt _ _ _ _ _ h.data h.none) (fun a w1 k => wp_pure (fun _ => ?_)) (fun _ _ _ => trivial))
      exact ⟨k.2.1, k.1, k.2.2⟩
    refine wp_bind ?_
    unfold fetchPart
    split
    · refine wp_bind ?_
      unfold chainGet
      refine wp_bind (wp_emit (wp_bind (wp_mono (wp_chainLoop_fr _ _ _ _ _ _) ?_ (fun _ _ _ => trivial))))
      rintro ⟨r, t, subs, out⟩ w1 ⟨k1, k2⟩
      have k2 := (Fr.emit w (e := .query e.id) (fun _ h => by cases h)).trans k2
      refine wp_bind (wp_emit (wp_pure ?_))
      dsimp only
      by_cases hr : r = some e.len
      · rw [if_pos hr]
        refine wp_pure (hwrite _ _ ⟨?_, k1.trans h.tgt, ?_⟩)
        · exact (congrFun k2.data ino).trans h.data
        · refine (Fr.emit w1 ?_).none (k2.none h.none)
          intro id hid
          rw [hr] at hid
          injection hid with _ hid
          injection hid with hid
          exact he hid
      · rw [if_neg hr]
        exact wp_pure (wp_pure (fun h => by cases h))
    · exact wp_pure (hwrite c w h)
  rw [entryCb_eq]
  split
  · split
    · exact wp_pure (fun h => by cases h)
    · refine wp_bind (wp_mono (wp_targetCheck_fr _ _ _ _ _ _) ?_ (fun _ _ _ => trivial))
      rintro ⟨r, t, buf⟩ w1 ⟨k1, k2⟩
      have hf : ∀ c' : Cb, c'.tgt = t → Fine' ino f ti c' w1 := fun c' hc => ⟨(congrFun k2.data ino).trans h.data, by rw [hc]; exact k1.trans h.tgt, k2.none h.none⟩
      dsimp only
      split
      · exact wp_pure (fun _ => hf _ rfl)
      · exact hstore _ _ (hf _ rfl)
  · exact hstore c w h

theorem wp_csnMain_found {w : World} {ipath tpath : Bytes} {stores : List Bytes} {segs : List Seg} (hsc : Stage env w ipath tpath stores)
    (hd : Describes w ipath segs) (hne : ∀ s ∈ segs, s.len ≠ 0) (hw : NoneMissing w) :
    wp (csnMain env (ipath :: tpath :: stores)) (fun b w' => b = true → NoneMissing w') (fun _ _ => True) w := by
  unfold csnMain
  refine wp_bind (wp_mono (wp_csn_stage hsc) ?_ (fun _ _ _ => trivial))
  rintro r w1 ⟨_, h⟩
  cases r with
  | none => exact wp_pure (fun h => by cases h)
  | some s =>
    obtain ⟨⟨evs, hc1, hc2⟩, h2, h3, h4, _⟩ := h
    obtain ⟨i, mi, av, ma, n, e1, e2, e3⟩ := hd
    have hi : i = s.iino := by rw [h2] at e1; cases e1; rfl
    subst hi
    obtain ⟨_, _, _, en⟩ := wellFormed_unique h3 e2
    subst en
    have hn1 : NoneMissing w1 := by
      intro id hid
      rw [hc1.log] at hid
      rcases List.mem_append.1 hid with hid | hid
      · exact hw id hid
      · rcases hc2 _ hid with ⟨_, h⟩ | ⟨_, h⟩ | ⟨_, h⟩ <;> cases h
    have hino : s.iino ≠ s.tgt.ino := by
      intro e
      rw [← e] at h4
      exact hsc.apart _ h2 h4
    have hmono := h3.mono
    show wp (sync env s) _ _ w1
    unfold sync
    refine wp_bind (wp_caibxIterate (w.data s.iino) s.n h3.size (by omega) (by omega)
      (fun _ _ c w' => Fine' s.iino (w.data s.iino) s.tgt.ino c w') (fun _ _ c w' => Fine' s.iino (w.data s.iino) s.tgt.ino c w') _ (fun _ _ => True)
      (fun _ _ _ _ h => h.data) (fun _ _ _ _ _ _ h _ => ⟨h.data, h.tgt, h.none⟩) (fun _ _ _ _ h => h)
      (fun _ _ _ _ _ _ _ _ _ => (show wp (pure false : M Bool) _ _ _ from wp_pure (fun h => by cases h))) (fun _ _ _ _ _ _ _ => trivial) ?_ ?_ _ _
      (fun _ _ _ => (show wp (pure false : M Bool) _ _ _ from wp_pure (fun h => by cases h))) (fun _ => trivial) (fun r _ => ⟨congrFun hc1.data _, rfl, hn1⟩))
    · intro k done seg rest c w' _ hdone hf
      refine wp_mono (wp_entryCb_found hino seg (hne seg (by rw [e3, hdone]; simp)) c w' hf) (fun b w2 h => ?_) (fun _ _ _ => trivial)
      obtain ⟨b, c2⟩ := b
      cases b with
      | true => rw [if_pos rfl]; exact h rfl
      | false => rw [if_neg (by simp)]; exact (show wp (pure false : M Bool) _ _ _ from wp_pure (fun h => by cases h))
    · intro c w' hf
      exact wp_noAsk (NoAsk.finish env.toLEnv c) (fun a w2 evs h he _ => noneMissing_append h he hf.none) (fun _ _ _ _ _ => trivial)

end
end Csn.Proof
