import Verif.Proof.ToolOut
import Verif.Props.ToolOver
/-
C94: what csn-tool can do to the files, also in runs that fail.
-/
namespace Csn.Props
open Csn Spec Proof

/-- C94: whatever the arguments, whichever calls fail and wherever the run ends: every name keeps its file, and if a file that has a name is
modified then it is an output, or standard output and that is where the output goes. -/
theorem C94_modified (T : Tool) (args : List Bytes) (w : World) (hf : Fresh w) (path : Bytes) (ino : Nat) (hp : w.dir path = some ino) :
    (toolMain T args w).2.dir path = some ino ∧ (toolMain T args w).2.kind ino = w.kind ino ∧
    ((toolMain T args w).2.data ino ≠ w.data ino →
      (args[3]? = some (str "-") ∧ ino = T.out) ∨ ∃ out, OutputOf T.stdin args out ∧ out ≠ str "-" ∧ w.dir out = some ino) := by
  have h := toolMain_only T args w
  refine ⟨h.dir _ _ hp, h.kind _ (hf _ _ hp), fun hd => ?_⟩
  rcases h.data ino (hf _ _ hp) hd with h1 | ⟨o, ⟨h1, h2⟩, h3⟩
  · exact Or.inl h1
  · exact Or.inr ⟨o, h1, h2, h3⟩

/-- The check whether "there" exists fails, and the process is killed when it has written three bytes: "there" is modified and is an output, the input is as
before. -/
example : (toolMain (tTool []) [str "crypt", tSpec, str "d/" ++ tName, str "there"] (tWorld (.err :: List.replicate 6 (.some 2)))).1 = .stop .killed ∧
    (toolMain (tTool []) [str "crypt", tSpec, str "d/" ++ tName, str "there"] (tWorld (.err :: List.replicate 6 (.some 2)))).2.data 2 = [149, 247, 43] ∧
    (toolMain (tTool []) [str "crypt", tSpec, str "d/" ++ tName, str "there"] (tWorld (.err :: List.replicate 6 (.some 2)))).2.data 1 = [1, 2, 3, 4, 5] ∧
    OutputOf [] [str "crypt", tSpec, str "d/" ++ tName, str "there"] (str "there") ∧ Fresh (tWorld (.err :: List.replicate 6 (.some 2))) := by
  have hc : chunkIdFromPath (str "d/" ++ tName) = some tId := by decide +kernel
  obtain ⟨name, h1, h2⟩ := (chunkIdFromPath_iff _ _).1 hc
  exact ⟨by decide +kernel, by decide +kernel, by decide +kernel, .given _ _ _ name tId h1 h2, tWorld_fresh _⟩

/-- C94: and every file that is made is an output; no new name is given to a file that had one. -/
theorem C94_made (T : Tool) (args : List Bytes) (w : World) (hf : Fresh w) (path : Bytes) (ino : Nat) (hp : w.dir path = none)
    (hn : (toolMain T args w).2.dir path = some ino) :
    OutputOf T.stdin args path ∧ path ≠ str "-" ∧ ∀ q, w.dir q ≠ some ino := by
  obtain ⟨⟨h1, h2⟩, h3⟩ := (toolMain_only T args w).made path ino hp hn
  exact ⟨h1, h2, fun q hq => by have := hf q ino hq; omega⟩

/-- A list with the same line twice: the file made for the first line is emptied for the second one, since the check fails, and then the process is killed. -/
example : (toolMain (tTool (str "d/" ++ tName ++ [10] ++ str "d/" ++ tName ++ [10])) [str "crypt", tSpec] (tWorld (List.replicate 8 (.some 2) ++ .err :: List.replicate 5 (.some 2)))).1 = .stop .killed ∧
    (toolMain (tTool (str "d/" ++ tName ++ [10] ++ str "d/" ++ tName ++ [10])) [str "crypt", tSpec]
      (tWorld (List.replicate 8 (.some 2) ++ .err :: List.replicate 5 (.some 2)))).2.dir (str "d/" ++ tName ++ str ".enc") = some 6 ∧
    (toolMain (tTool (str "d/" ++ tName ++ [10] ++ str "d/" ++ tName ++ [10])) [str "crypt", tSpec] (tWorld (List.replicate 8 (.some 2) ++ .err :: List.replicate 5 (.some 2)))).2.data 6 = [] := by
  decide +kernel

/-- One conversion into a file: what is in it in the end. -/
theorem wp_encryptOne_left {T : Tool} {ec : EncCtx} {input : Bytes} {output : Option Bytes} {w : World} {out : Bytes}
    (ho : output.or (derivedOutput input) = some out) (hdash : out ≠ str "-") (hk : ∀ o, w.dir out = some o → w.kind o = .reg) (R : World → Prop)
    (hR : ∀ w', SysMem w w' → R w')
    (hR' : ∀ w' o id i k, w'.dir out = some o → chunkIdFromPath input = some id → w.dir input = some i → w'.data o = (convBuf ec.key id (w.data i)).take k → R w') :
    wp (encryptOne T ec input output) (fun _ w' => R w') (fun _ w' => R w') w := by
  unfold encryptOne
  cases hid : chunkIdFromPath input with
  | none => exact wp_pure (hR _ (SysMem.refl w))
  | some id =>
    simp only
    rw [ho]
    simp only
    refine wp_bind (wp_accessOk (fun r hr _ => ?_) (fun r hr _ => ?_) (hR _ (SysMem.refl w)))
    · simp only [if_true]
      exact wp_pure (hR _ (SysMem.mk' w w.mem hr))
    · simp only [Bool.false_eq_true, if_false]
      have h0 : SysMem w { w with sys := r } := SysMem.mk' w w.mem hr
      refine wp_bind (wp_mono wp_slurpFile (fun a w1 h => ?_) (fun s w1 h => hR _ (h0.trans h.2)))
      obtain ⟨h1, h2, h3⟩ := h
      have h1' : SysMem w w1 := h0.trans h1
      cases a with
      | none => exact wp_pure (hR _ h1')
      | some d =>
        obtain ⟨i, g1, g2, g3⟩ := h2 d rfl
        simp only [Bool.false_eq_true, if_false] at g1 g2 g3 ⊢
        obtain ⟨k1, k2⟩ := encryptDoCtx_restart ec T.evp0 id d
        generalize encryptDoCtx (encryptRestart ec id) T.evp0 d = x at k1 k2 ⊢
        obtain ⟨oo, ec'⟩ := x
        simp only at k1 k2
        rcases k2 with ⟨k2, _, _⟩ | ⟨k2, _⟩
        · subst k2
          exact wp_pure (hR _ h1')
        · subst k2
          simp only
          have hbuf : xorFrom (encryptStream ec.key id) 0 (List.take (d.length % 2 ^ 32) d) ++
              d.drop (xorFrom (encryptStream ec.key id) 0 (List.take (d.length % 2 ^ 32) d)).length = convBuf ec.key id (w.data i) := by
            rw [xorFrom_len, List.length_take, Nat.min_eq_left (Nat.mod_le _ _), g2]
            rfl
          rw [hbuf]
          have hst : ¬ streq out (str "-") = true := by simpa [streq] using hdash
          rw [if_neg hst]
          unfold openCreat
          refine wp_bind (wp_bind (wp_sysOk (fun r2 hr2 => ?_) (fun r2 hr2 hc => ?_) (fun _ => hR _ (h1'.trans (SysMem.mk' w1 w1.mem List.nil_suffix)))))
          · simp only [Bool.not_true, Bool.false_eq_true, if_false]
            refine wp_bind ?_
            have hgo : ∀ (w2 : World) (o : Nat), w2.dir out = some o → w2.data o = [] →
                wp (do let a ← pwriteall o (convBuf ec.key id (w.data i)) 0
                       pure (a, ec')) (fun _ w' => R w') (fun _ w' => R w') w2 := by
              intro w2 o hd2 he2
              have hput : ∀ (e : Bytes) evs r3, (wrote w2 o 0 e evs r3).data o = e := by
                intro e evs r3
                show (if o = o then writeAt (w2.data o) 0 e else _) = e
                rw [if_pos rfl, he2]
                by_cases he : e = []
                · rw [he]; rfl
                · rw [writeAt_ne _ _ he]; simp
              refine wp_bind (wp_pwriteall (fun r3 evs hr3 hp _ _ => ?_) (fun r3 evs k hr3 hk' hp _ _ _ => ?_) (fun r3 evs k s hk' hp _ _ hr3 _ => ?_))
              · exact wp_pure (hR' _ o id i _ hd2 hid g1 (by rw [hput]; exact (List.take_length).symm))
              · exact wp_pure (hR' _ o id i k hd2 hid g1 (hput _ _ _))
              · exact hR' _ o id i k hd2 hid g1 (hput _ _ _)
            cases hd : w1.dir out with
            | some o =>
              simp only [wp, creat, hd]
              refine hgo _ o hd ?_
              have hk1 : w1.kind o = .reg := by
                rw [h1'.same]
                exact hk o (by rw [h1'.same] at hd; exact hd)
              show (if o = o ∧ w1.kind o = .reg then [] else _) = _
              rw [if_pos ⟨rfl, hk1⟩]
            | none =>
              simp only [wp, creat, hd]
              refine hgo _ w1.next ?_ ?_
              · show (if out = out then some w1.next else _) = _
                rw [if_pos rfl]
              · show (if w1.next = w1.next then [] else _) = _
                rw [if_pos rfl]
          · simp only [Bool.not_false, if_true]
            exact wp_pure (wp_pure (hR _ (h1'.trans (SysMem.mk' w1 w1.mem hr2.1))))

/-- C94: what a conversion leaves in an output that is a regular file or was missing, however it ends: it is missing as before, has the old contents, or
holds the beginning of the conversion of the input and nothing else. -/
theorem C94_left (T : Tool) (spec input : Bytes) (output : Option Bytes) (w w' : World) (r : Res Bool) (out : Bytes)
    (hout : output = some out ∨ output = none ∧ (Twins input out ∨ Twins out input)) (hdash : out ≠ str "-")
    (hk : ∀ o, w.dir out = some o → w.kind o = .reg)
    (h : toolMain T (str "crypt" :: spec :: input :: output.toList) w = (r, w')) :
    (w'.dir out = w.dir out ∧ ∀ o, w.dir out = some o → w'.data o = w.data o) ∨
    ∃ o key id i e n, w'.dir out = some o ∧ KeyOf T.getenv w spec key ∧ (∃ name, LastPart input name ∧ (ChunkName name id ∨ OddName name id)) ∧
      w.dir input = some i ∧ e.length = (w.data i).length ∧ ((w.data i).length < 2 ^ 32 → Converted key id (w.data i) e) ∧ w'.data o = e.take n := by
  have hor : ∀ q, output.or (derivedOutput input) = some q → q = out := by
    intro q hq
    rcases hout with rfl | ⟨rfl, ht⟩
    · cases hq; rfl
    · exact twin_unique ((C46_derived_name input).1 q hq).1 ht
  let R : World → Prop := fun w' => (w'.dir out = w.dir out ∧ ∀ o, w.dir out = some o → w'.data o = w.data o) ∨
    ∃ o key id i e n, w'.dir out = some o ∧ KeyOf T.getenv w spec key ∧ (∃ name, LastPart input name ∧ (ChunkName name id ∨ OddName name id)) ∧
      w.dir input = some i ∧ e.length = (w.data i).length ∧ ((w.data i).length < 2 ^ 32 → Converted key id (w.data i) e) ∧ w'.data o = e.take n
  have hsame : ∀ w', SysMem w w' → R w' := fun w' hs => Or.inl (by rw [hs.same]; exact ⟨rfl, fun _ _ => rfl⟩)
  have hrule : wp (toolMain T (str "crypt" :: spec :: input :: output.toList)) (fun _ w' => R w') (fun _ w' => R w') w := by
    rw [toolMain_crypt]
    unfold doCrypt
    simp only
    split
    · exact wp_pure (hsame _ (SysMem.refl w))
    · refine wp_bind (wp_mono wp_parseKeyspec (fun a w1 h => ?_) (fun s w1 h => hsame _ h.2))
      obtain ⟨h1, h2, _⟩ := h
      cases a with
      | none => exact wp_pure (hsame _ h1)
      | some key =>
        have hhead : output.toList.head? = output := by cases output <;> rfl
        simp only [hhead]
        have hd1 : w1.dir = w.dir := by rw [h1.same]
        have hd2 : w1.data = w.data := by rw [h1.same]
        have hd3 : w1.kind = w.kind := by rw [h1.same]
        cases ho : output.or (derivedOutput input) with
        | none =>
          unfold encryptOne
          rw [ho]
          simp only
          split
          · exact wp_bind (wp_pure (wp_pure (hsame _ h1)))
          · exact wp_bind (wp_pure (wp_pure (hsame _ h1)))
        | some q =>
          obtain rfl := hor q ho
          refine wp_bind (wp_mono (wp_encryptOne_left ho hdash (by rw [hd1, hd3]; exact hk) R (fun w2 h => hsame _ (h1.trans h)) ?_) (fun a w2 h => wp_pure h) (fun s w2 h => h))
          intro w2 o id i n g1 g2 g3 g4
          rw [hd1] at g3
          rw [hd2] at g4
          exact Or.inr ⟨o, key, id, i, _, n, g1, (specKey_iff _ _ _ _).mp (h2 key rfl), (chunkIdFromPath_iff input id).1 g2, g3, convBuf_length _ _ _, convBuf_small, g4⟩
  unfold wp at hrule
  rw [h] at hrule
  cases r <;> exact hrule

/-- All three ends are possible for the file "there" (one byte, 9): kept, part of the conversion, all of it. -/
example : ((toolMain (tTool []) [str "crypt", tSpec, str "d/" ++ tName, str "there"] (tWorld (.err :: List.replicate 4 (.some 2)))).2.data 2 = [9]) ∧
    ((toolMain (tTool []) [str "crypt", tSpec, str "d/" ++ tName, str "there"] (tWorld (.err :: List.replicate 6 (.some 2)))).2.data 2).length = 3 ∧
    ((toolMain (tTool []) [str "crypt", tSpec, str "d/" ++ tName, str "there"] (tWorld (.err :: List.replicate 7 (.some 2)))).2.data 2).length = 5 := by
  decide +kernel

end Csn.Props
