import Verif.Model.Evp
import Verif.Props.Tool
import Verif.Proof.NoDiverge
/-
C84: csn-tool when OpenSSL fails.
-/
namespace Csn.Props
open Csn Spec Proof

/-- Everything asked of OpenSSL in this conversion is done. -/
def Evp.Good (E : Evp) : Prop := E.reset = true ∧ E.init = true ∧ E.works = true

/-- No file, no name and nothing in the record of effects is different. -/
def Untouched (w w' : World) : Prop := w'.data = w.data ∧ w'.dir = w.dir ∧ w'.kind = w.kind ∧ w'.next = w.next ∧ w'.log = w.log

theorem SysMem.untouched {w w' : World} (h : SysMem w w') : Untouched w w' := by
  rw [h.same]; exact ⟨rfl, rfl, rfl, rfl, rfl⟩

/-! ### When OpenSSL works -/

theorem one_good {T : Tool} {E : Evp} (h : Evp.Good E) (ec : EncCtx) (input : Bytes) (output : Option Bytes) :
    Evp.one T E ec input output = encryptOne T ec input output := by
  obtain ⟨h1, h2, h3⟩ := h
  unfold Evp.one encryptOne
  cases chunkIdFromPath input with
  | none => rfl
  | some id =>
    cases output.or (derivedOutput input) with
    | none => rfl
    | some out =>
      simp only [Evp.restart, Evp.crypt, h1, h2, h3, Bool.not_true, Bool.false_eq_true, if_false, if_true]
      congr 1
      funext b
      cases b with
      | true => rfl
      | false =>
        simp only [Bool.false_eq_true, if_false]
        congr 1
        funext a
        cases a with
        | none => rfl
        | some buf =>
          simp only
          rcases encryptDoCtx (encryptRestart ec id) T.evp0 buf with ⟨_ | o, ec'⟩ <;> rfl

theorem lines_good {T : Tool} {E : Nat → Evp} (h : ∀ k, Evp.Good (E k)) : ∀ (ls : List Bytes) (k : Nat) (ec : EncCtx),
    Evp.lines T E k ec ls = cryptLines T ec ls
  | [], _, _ => rfl
  | l :: ls, k, ec => by
    unfold Evp.lines cryptLines
    rw [one_good (h k)]
    congr 1
    funext a
    obtain ⟨ok, ec'⟩ := a
    simp only [lines_good h ls]

/-- **C84**: if OpenSSL does what it is asked to, this is csn-tool as in the other properties. -/
theorem C84_same (T : Tool) (E : Nat → Evp) (h : ∀ k, Evp.Good (E k)) (args : List Bytes) : Evp.doCrypt T true E args = doCrypt T args := by
  unfold Evp.doCrypt doCrypt
  cases args with
  | nil => rfl
  | cons spec rest =>
    simp only
    split
    · rfl
    congr 1
    funext a
    cases a with
    | none => rfl
    | some key =>
      simp only [Evp.initialise, Bool.not_true, Bool.false_eq_true, if_false]
      cases rest with
      | nil => exact lines_good h _ _ _
      | cons input output =>
        simp only [one_good (h 0)]

/-! ### When it does not -/

/-- A conversion in which OpenSSL fails (with a result that is noticed). -/
theorem wp_one_bad {T : Tool} {E : Evp} (hb : ¬ Evp.Good E) (hc : E.code = 0) {ec : EncCtx} {input : Bytes} {output : Option Bytes} {w : World} :
    wp (Evp.one T E ec input output)
      (fun a w' => SysMem w w' ∧ (a.1 = true → ∃ out, output.or (derivedOutput input) = some out ∧ (w.dir out).isSome = true))
      (fun _ w' => SysMem w w') w := by
  unfold Evp.one
  cases hid : chunkIdFromPath input with
  | none => exact wp_pure ⟨SysMem.refl _, by simp⟩
  | some id =>
    simp only
    cases ho : output.or (derivedOutput input) with
    | none => exact wp_pure ⟨SysMem.refl _, by simp⟩
    | some out =>
      simp only
      refine wp_bind (wp_accessOk (fun r hr hd => ?_) (fun r hr hd => ?_) (SysMem.refl _))
      · simp only [if_true]
        exact wp_pure ⟨SysMem.mk' w w.mem hr, fun _ => ⟨out, rfl, hd⟩⟩
      · simp only [Bool.false_eq_true, if_false]
        have hw := SysMem.mk' w w.mem hr
        cases h1 : E.reset with
        | false =>
          simp only [Evp.restart, h1, Bool.not_false, if_true]
          exact wp_pure ⟨hw, by simp⟩
        | true =>
          cases h2 : E.init with
          | false =>
            simp only [Evp.restart, h1, h2, Bool.not_true, Bool.not_false, Bool.false_eq_true, if_false, if_true]
            exact wp_pure ⟨hw, by simp⟩
          | true =>
            have h3 : E.works = false := by
              cases h3 : E.works with
              | false => rfl
              | true => exact absurd ⟨h1, h2, h3⟩ hb
            simp only [Evp.restart, Evp.crypt, h1, h2, h3, hc, Bool.not_true, Bool.false_eq_true, if_false, if_true]
            refine wp_bind (wp_mono wp_slurpFile (fun a w1 h => ?_) (fun s w1 h => hw.trans h.2))
            have h' := hw.trans h.1
            cases a with
            | none => exact wp_pure ⟨h', by simp⟩
            | some buf => exact wp_pure ⟨h', by simp⟩

/-- **C84**, one conversion (partial: EVP_Cipher reports its failure with 0, see `C84_refuted`): if one of the three calls fails, nothing is
written, no file is created, and the conversion does not succeed unless there was nothing to do because the output exists. -/
theorem C84_one_partial (T : Tool) (E : Evp) (hb : ¬ Evp.Good E) (hc : E.code = 0) (ec : EncCtx) (input : Bytes) (output : Option Bytes) (w w' : World)
    (o : Res (Bool × EncCtx)) (hrun : Evp.one T E ec input output w = (o, w')) :
    Untouched w w' ∧ (∀ ec', o = .ok (true, ec') → ∃ out, output.or (derivedOutput input) = some out ∧ (w.dir out).isSome = true) := by
  have h := wp_one_bad (T := T) hb hc (ec := ec) (input := input) (output := output) (w := w)
  unfold wp at h
  rw [hrun] at h
  cases o with
  | ok a => exact ⟨SysMem.untouched h.1, fun ec' ho => h.2 (by cases ho; rfl)⟩
  | stop s => exact ⟨SysMem.untouched h, fun ec' ho => (nomatch ho)⟩

/-- The conversions of a list: each is one that succeeded, and was either done with a working OpenSSL or had nothing to do. -/
inductive Passed (T : Tool) (E : Nat → Evp) : Nat → List Bytes → World → World → Prop
  | nil (k : Nat) (w : World) : Passed T E k [] w w
  | cons {k : Nat} {l : Bytes} {ls : List Bytes} {w w1 w' : World} (ec ec' : EncCtx) (run : Evp.one T (E k) ec (chomp (cstr l)) none w = (.ok (true, ec'), w1))
      (good : Evp.Good (E k) ∨ (Untouched w w1 ∧ ∃ out, derivedOutput (chomp (cstr l)) = some out ∧ (w.dir out).isSome = true))
      (rest : Passed T E (k + 1) ls w1 w') : Passed T E k (l :: ls) w w'

theorem lines_passed {T : Tool} {E : Nat → Evp} (hc : ∀ k, (E k).code = 0) : ∀ (ls : List Bytes) (k : Nat) (ec : EncCtx) (w w' : World),
    Evp.lines T E k ec ls w = (.ok true, w') → Passed T E k ls w w'
  | [], k, ec, w, w', h => by
    cases h
    exact .nil k w
  | l :: ls, k, ec, w, w', h => by
    unfold Evp.lines at h
    obtain ⟨a, w1, h1, h2⟩ := bind_ok_cases h
    obtain ⟨ok, ec'⟩ := a
    cases ok with
    | false => cases h2
    | true =>
      simp only [Bool.not_true, Bool.false_eq_true, if_false] at h2
      refine .cons ec ec' h1 ?_ (lines_passed hc ls (k + 1) ec' w1 w' h2)
      by_cases hg : Evp.Good (E k)
      · exact .inl hg
      · obtain ⟨g1, g2⟩ := C84_one_partial T (E k) hg (hc k) ec _ none w w1 _ h1
        obtain ⟨out, g3, g4⟩ := g2 ec' rfl
        exact .inr ⟨g1, out, by simpa using g3, g4⟩

/-- **C84**, lists of names (partial as above): in a run that succeeds each conversion was done with a working OpenSSL or found its output. -/
theorem C84_list_partial (T : Tool) (new : Bool) (E : Nat → Evp) (hc : ∀ k, (E k).code = 0) (spec : Bytes) (w w' : World)
    (hrun : Evp.doCrypt T new E [spec] w = (.ok true, w')) :
    new = true ∧ ∃ w1, Untouched w w1 ∧ Passed T E 0 (fgetsLines [] T.stdin) w1 w' := by
  unfold Evp.doCrypt at hrun
  simp only at hrun
  split at hrun
  · cases hrun
  obtain ⟨a, w1, h1, h2⟩ := bind_ok_cases hrun
  have hk := wp_parseKeyspec (getenv := T.getenv) (spec := spec) (w := w)
  unfold wp at hk
  rw [h1] at hk
  cases a with
  | none => cases h2
  | some key =>
    cases new with
    | false => cases h2
    | true => exact ⟨rfl, w1, SysMem.untouched hk.1, lines_passed hc _ _ _ _ _ h2⟩

/-- **C84** (partial as above): with an OpenSSL that never works csn-tool changes nothing at all, whatever its arguments. -/
theorem C84_broken_partial (T : Tool) (new : Bool) (E : Nat → Evp) (hb : new = false ∨ ∀ k, ¬ Evp.Good (E k)) (hc : ∀ k, (E k).code = 0) (args : List Bytes)
    (w w' : World) (o : Res Bool) (hrun : Evp.doCrypt T new E args w = (o, w')) : Untouched w w' := by
  have key : wp (Evp.doCrypt T new E args) (fun _ w' => SysMem w w') (fun _ w' => SysMem w w') w := by
    unfold Evp.doCrypt
    cases args with
    | nil => exact wp_pure (SysMem.refl _)
    | cons spec rest =>
      simp only
      split
      · exact wp_pure (SysMem.refl _)
      refine wp_bind (wp_mono wp_parseKeyspec (fun a w1 h => ?_) (fun s w1 h => h.2))
      have h1 := h.1
      cases a with
      | none => exact wp_pure h1
      | some key =>
        cases hn : new with
        | false => exact wp_pure h1
        | true =>
          have hb : ∀ k, ¬ Evp.Good (E k) := by
            rcases hb with hb | hb
            · rw [hn] at hb; cases hb
            · exact hb
          simp only [Evp.initialise, Bool.not_true, Bool.false_eq_true, if_false]
          have hl : ∀ (ls : List Bytes) (k : Nat) (ec : EncCtx) (w1 : World), SysMem w w1 →
              wp (Evp.lines T E k ec ls) (fun _ w' => SysMem w w') (fun _ w' => SysMem w w') w1 := by
            intro ls
            induction ls with
            | nil => intro k ec w1 h1; exact wp_pure h1
            | cons l ls ih =>
              intro k ec w1 h1
              unfold Evp.lines
              refine wp_bind (wp_mono (wp_one_bad (hb k) (hc k)) (fun a w2 h => ?_) (fun s w2 h => h1.trans h))
              obtain ⟨ok, ec'⟩ := a
              cases ok with
              | false => exact wp_pure (h1.trans h.1)
              | true => exact ih (k + 1) ec' w2 (h1.trans h.1)
          cases rest with
          | nil => exact hl _ 0 _ w1 h1
          | cons input output =>
            refine wp_bind (wp_mono (wp_one_bad (hb 0) (hc 0)) (fun a w2 h => ?_) (fun s w2 h => h1.trans h))
            obtain ⟨ok, ec'⟩ := a
            exact wp_pure (h1.trans h.1)
  unfold wp at key
  rw [hrun] at key
  cases o with
  | ok a => exact SysMem.untouched key
  | stop s => exact SysMem.untouched key

/-- **C84** is false as it stands: EVP_Cipher may report a failure with a negative number, which is not noticed.  csn-tool then writes the chunk
as it is to the file that should be the encrypted one, and reports success. -/
theorem C84_refuted : ∃ (T : Tool) (E : Nat → Evp) (args : List Bytes) (w : World) (q : Bytes) (o i : Nat), w.dir q = none ∧ (E 0).works = false ∧ (E 0).code = -1 ∧
    (Evp.doCrypt T true E args w).1 = .ok true ∧ (Evp.doCrypt T true E args w).2.dir q = some o ∧ w.dir (str "d/" ++ tName) = some i ∧
    args = [tSpec, str "d/" ++ tName, q] ∧ (Evp.doCrypt T true E args w).2.data o = w.data i ∧ w.data i = [1, 2, 3, 4, 5] :=
  ⟨tTool [], fun _ => ⟨true, true, false, -1, id⟩, [tSpec, str "d/" ++ tName, str "new"], tWorld (List.replicate 12 (.some 99)), str "new", 6, 1,
    by decide +kernel, rfl, rfl, by decide +kernel, by decide +kernel, by decide +kernel, rfl, by decide +kernel, by decide +kernel⟩

/-! ### Cases -/

/-- A failure that is reported with 0, in the second of two conversions: the first output is there, the second is not. -/
example :
    let T := tTool (str "d/" ++ tName ++ [0x0a] ++ tOdd ++ [0x0a])
    let E : Nat → Evp := fun k => if k = 0 then ⟨true, true, true, 0, id⟩ else ⟨true, true, false, 0, id⟩
    let r := Evp.doCrypt T true E [tSpec] (tWorld (List.replicate 40 (.some 99)))
    r.1 = .ok false ∧ (r.2.dir (str "d/" ++ tName ++ str ".enc")).isSome = true ∧ r.2.dir (tOdd ++ str ".enc") = none := by
  decide +kernel

/-- Two conversions with a working OpenSSL. -/
example :
    let T := tTool (str "d/" ++ tName ++ [0x0a] ++ tOdd ++ [0x0a])
    let r := Evp.doCrypt T true (fun _ => ⟨true, true, true, 0, id⟩) [tSpec] (tWorld (List.replicate 40 (.some 99)))
    r.1 = .ok true ∧ (r.2.dir (str "d/" ++ tName ++ str ".enc")).isSome = true ∧ (r.2.dir (tOdd ++ str ".enc")).isSome = true := by
  decide +kernel

/-- EVP_CIPHER_CTX_reset fails: nothing happens. -/
example : (Evp.doCrypt (tTool []) true (fun _ => ⟨false, true, true, 0, id⟩) [tSpec, str "d/" ++ tName] (tWorld (List.replicate 40 (.some 99)))).1 = .ok false ∧
    (Evp.doCrypt (tTool []) true (fun _ => ⟨false, true, true, 0, id⟩) [tSpec, str "d/" ++ tName] (tWorld (List.replicate 40 (.some 99)))).2.log = [] := by
  decide +kernel

end Csn.Props
