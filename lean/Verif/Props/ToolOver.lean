import Verif.Props.Tool
/-
C48 for outputs that exist.
-/
namespace Csn.Props
open Csn Spec Proof

/-- The output exists: either nothing happens or it is emptied and gets everything. -/
theorem wp_encryptOne_there {T : Tool} {ec : EncCtx} {input : Bytes} {output : Option Bytes} {w : World} {out : Bytes} {o : Nat}
    (ho : output.or (derivedOutput input) = some out) (hdash : out ≠ str "-") (hd : w.dir out = some o) (hk : w.kind o = .reg) :
    wp (encryptOne T ec input output)
      (fun a w' => a.1 = true → ∃ id, chunkIdFromPath input = some id ∧ w'.dir = w.dir ∧ (∀ j, j ≠ o → w'.data j = w.data j) ∧
        (w'.data o = w.data o ∨ ∃ i, w.dir input = some i ∧ w'.data o = convBuf ec.key id (w.data i)))
      (fun _ _ => True) w := by
  unfold encryptOne
  cases hid : chunkIdFromPath input with
  | none => exact wp_pure (by simp)
  | some id =>
    simp only
    rw [ho]
    simp only
    refine wp_bind (wp_accessOk (fun r hr _ => ?_) (fun r hr _ => ?_) trivial)
    · simp only [if_true]
      exact wp_pure (fun _ => ⟨id, rfl, rfl, fun _ _ => rfl, Or.inl rfl⟩)
    · simp only [Bool.false_eq_true, if_false]
      refine wp_bind (wp_mono wp_slurpFile (fun a w1 h => ?_) (fun s w1 h => trivial))
      obtain ⟨h1, h2, h3⟩ := h
      have h1' : SysMem w w1 := (SysMem.mk' w w.mem hr).trans h1
      cases a with
      | none => exact wp_pure (by simp)
      | some d =>
        obtain ⟨i, g1, g2, g3⟩ := h2 d rfl
        simp only [Bool.false_eq_true, if_false] at g1 g2 g3 ⊢
        obtain ⟨k1, k2⟩ := encryptDoCtx_restart ec T.evp0 id d
        generalize encryptDoCtx (encryptRestart ec id) T.evp0 d = x at k1 k2 ⊢
        obtain ⟨oo, ec'⟩ := x
        simp only at k1 k2
        rcases k2 with ⟨k2, _, _⟩ | ⟨k2, _⟩
        · subst k2
          exact wp_pure (by simp)
        · subst k2
          simp only
          have hbuf : xorFrom (encryptStream ec.key id) 0 (List.take (d.length % 2 ^ 32) d) ++
              d.drop (xorFrom (encryptStream ec.key id) 0 (List.take (d.length % 2 ^ 32) d)).length = convBuf ec.key id (w.data i) := by
            rw [xorFrom_len, List.length_take, Nat.min_eq_left (Nat.mod_le _ _), g2]
            rfl
          rw [hbuf]
          have hst : ¬ streq out (str "-") = true := by simpa [streq] using hdash
          rw [if_neg hst]
          have hd1 : w1.dir out = some o := by rw [h1'.same]; exact hd
          have hk1 : w1.kind o = .reg := by rw [h1'.same]; exact hk
          unfold openCreat
          refine wp_bind (wp_bind (wp_sysOk (fun r2 hr2 => ?_) (fun r2 hr2 hc => ?_) (fun _ => trivial)))
          · simp only [Bool.not_true, Bool.false_eq_true, if_false]
            refine wp_bind ?_
            simp only [wp, creat, hd1]
            refine wp_bind (wp_pwriteall (fun r3 evs hr3 hp _ _ => ?_) (fun r3 evs k hr3 hk' hp _ _ _ => ?_) (fun r3 evs k s hk' hp _ _ hr3 _ => trivial))
            · refine wp_pure (fun _ => ⟨id, rfl, ?_, ?_, Or.inr ⟨i, g1, ?_⟩⟩)
              · show w1.dir = w.dir
                rw [h1'.same]
              · intro j hj
                show (if j = o then _ else if j = o ∧ _ then _ else w1.data j) = w.data j
                rw [if_neg hj, if_neg (fun h => hj h.1), h1'.same]
              · show (if o = o then writeAt (if o = o ∧ w1.kind o = .reg then [] else w1.data o) 0 (convBuf ec.key id (w.data i)) else _) = _
                rw [if_pos rfl, if_pos ⟨rfl, hk1⟩]
                by_cases he : convBuf ec.key id (w.data i) = []
                · rw [he]; rfl
                · rw [writeAt_ne _ _ he]; simp
            · exact wp_pure (by simp)
          · simp only [Bool.not_false, if_true]
            exact wp_pure (wp_pure (by simp))

theorem twins_clash {p q r : Bytes} (h : Twins p q) (h' : Twins q r) : False := by
  obtain ⟨x, rfl, rfl⟩ := h
  obtain ⟨y, e, rfl⟩ := h'
  have := ends_cacnk_enc x
  rw [e] at this
  exact this (drop_suffix y (str ".cacnk") 6 rfl)

theorem twin_unique {p q r : Bytes} (h : Twins p q ∨ Twins q p) (h' : Twins p r ∨ Twins r p) : q = r := by
  rcases h with h | h <;> rcases h' with h' | h'
  · obtain ⟨x, rfl, rfl⟩ := h
    obtain ⟨y, e, rfl⟩ := h'
    rw [List.append_cancel_right e]
  · exact (twins_clash h' h).elim
  · exact (twins_clash h h').elim
  · obtain ⟨x, rfl, rfl⟩ := h
    obtain ⟨y, rfl, e⟩ := h'
    rw [List.append_cancel_right e]

/-- C48 for an output that is a regular file and exists: after a conversion that is reported as successful it is as
before, or (if the check whether it exists failed) it holds the conversion of the whole input and nothing else, even if it
was longer before; no other file has changed.  Missing from the full claim: that it is not as before (`C48_refuted`). -/
theorem C48_existing_partial (T : Tool) (spec input : Bytes) (output : Option Bytes) (w w' : World) (out : Bytes) (o : Nat)
    (hout : output = some out ∨ output = none ∧ (Twins input out ∨ Twins out input)) (hdash : out ≠ str "-")
    (hd : w.dir out = some o) (hk : w.kind o = .reg)
    (h : toolMain T (str "crypt" :: spec :: input :: output.toList) w = (.ok true, w')) :
    w'.dir = w.dir ∧ (∀ j, j ≠ o → w'.data j = w.data j) ∧
    (w'.data o = w.data o ∨ ∃ key id i, KeyOf T.getenv w spec key ∧ (∃ name, LastPart input name ∧ (ChunkName name id ∨ OddName name id)) ∧
      w.dir input = some i ∧ (w'.data o).length = (w.data i).length ∧
      ((w.data i).length < 2 ^ 32 → Converted key id (w.data i) (w'.data o))) := by
  have hor : ∀ q, output.or (derivedOutput input) = some q → q = out := by
    intro q hq
    rcases hout with rfl | ⟨rfl, ht⟩
    · cases hq; rfl
    · exact twin_unique ((C46_derived_name input).1 q hq).1 ht
  have hrule : wp (toolMain T (str "crypt" :: spec :: input :: output.toList)) (fun ok w' => ok = true →
      ∃ key id, KeyOf T.getenv w spec key ∧ chunkIdFromPath input = some id ∧ w'.dir = w.dir ∧ (∀ j, j ≠ o → w'.data j = w.data j) ∧
        (w'.data o = w.data o ∨ ∃ i, w.dir input = some i ∧ w'.data o = convBuf key id (w.data i))) (fun _ _ => True) w := by
    rw [toolMain_crypt]
    unfold doCrypt
    simp only
    split
    · exact wp_pure (by simp)
    · refine wp_bind (wp_mono wp_parseKeyspec (fun a w1 h => ?_) (fun s w1 h => trivial))
      obtain ⟨h1, h2, _⟩ := h
      cases a with
      | none => exact wp_pure (by simp)
      | some key =>
        have hhead : output.toList.head? = output := by cases output <;> rfl
        simp only [hhead]
        have hd1 : w1.dir = w.dir := by rw [h1.same]
        have hd2 : w1.data = w.data := by rw [h1.same]
        have hd3 : w1.kind = w.kind := by rw [h1.same]
        cases ho : output.or (derivedOutput input) with
        | none =>
          unfold encryptOne
          rw [ho]
          simp only
          split
          · exact wp_bind (wp_pure (wp_pure (by simp)))
          · exact wp_bind (wp_pure (wp_pure (by simp)))
        | some q =>
          obtain rfl := hor q ho
          refine wp_bind (wp_mono (wp_encryptOne_there ho hdash (by rw [hd1]; exact hd) (by rw [hd3]; exact hk)) (fun a w2 h => ?_) (fun s w2 h => trivial))
          obtain ⟨ok, ec'⟩ := a
          refine wp_pure (fun hok => ?_)
          obtain ⟨id, g1, g2, g3, g4⟩ := h hok
          rw [hd1, hd2] at *
          exact ⟨key, id, (specKey_iff _ _ _ _).mp (h2 key rfl), g1, g2, g3, g4⟩
  unfold wp at hrule
  rw [h] at hrule
  obtain ⟨key, id, h1, h2, h3, h4, h5⟩ := hrule rfl
  refine ⟨h3, h4, ?_⟩
  rcases h5 with h5 | ⟨i, g1, g2⟩
  · exact Or.inl h5
  · exact Or.inr ⟨key, id, i, h1, (chunkIdFromPath_iff input id).1 h2, g1, by rw [g2, convBuf_length], fun hl => by rw [g2]; exact convBuf_small hl⟩

/-- The file "there" has nine bytes, the chunk five.  The check fails, so "there" is replaced; otherwise it is kept. -/
example : (toolMain (tTool []) [str "crypt", tSpec, str "d/" ++ tName, str "there"]
      { tWorld (.err :: List.replicate 9 (.some 99)) with data := fun i => if i = 1 then [1, 2, 3, 4, 5] else List.replicate 9 7 }).1 = .ok true ∧
    ((toolMain (tTool []) [str "crypt", tSpec, str "d/" ++ tName, str "there"]
      { tWorld (.err :: List.replicate 9 (.some 99)) with data := fun i => if i = 1 then [1, 2, 3, 4, 5] else List.replicate 9 7 }).2.data 2).length = 5 ∧
    (toolMain (tTool []) [str "crypt", tSpec, str "d/" ++ tName, str "there"]
      { tWorld (List.replicate 9 (.some 99)) with data := fun i => if i = 1 then [1, 2, 3, 4, 5] else List.replicate 9 7 }).1 = .ok true ∧
    (toolMain (tTool []) [str "crypt", tSpec, str "d/" ++ tName, str "there"]
      { tWorld (List.replicate 9 (.some 99)) with data := fun i => if i = 1 then [1, 2, 3, 4, 5] else List.replicate 9 7 }).2.data 2 = List.replicate 9 7 := by
  decide +kernel

end Csn.Props
