import Verif.Props.Tool
import Verif.Spec.ToolOut
/-
What csn-tool does to the files, also if calls fail (C94).
-/
namespace Csn.Proof
open Csn Spec Props

/-- From `w` to `w'` nothing but files with names in `N` has been made or modified, and possibly inode `j`. -/
structure Only (N : Bytes → Prop) (j : Nat → Prop) (w w' : World) : Prop where
  dir : ∀ p i, w.dir p = some i → w'.dir p = some i
  next : w.next ≤ w'.next
  kind : ∀ i, i < w.next → w'.kind i = w.kind i
  data : ∀ i, i < w.next → w'.data i ≠ w.data i → j i ∨ ∃ o, N o ∧ w.dir o = some i
  made : ∀ p i, w.dir p = none → w'.dir p = some i → N p ∧ w.next ≤ i
  fresh : Fresh w → Fresh w'

theorem SysMem.only {N : Bytes → Prop} {j : Nat → Prop} {w w' : World} (h : SysMem w w') : Only N j w w' := by
  rw [h.same]
  refine ⟨fun _ _ h => h, Nat.le_refl _, fun _ _ => rfl, fun _ _ h => absurd rfl h, fun p i h h' => ?_, fun h => h⟩
  rw [show w.dir p = some i from h'] at h
  cases h

theorem Only.refl {N : Bytes → Prop} {j : Nat → Prop} (w : World) : Only N j w w := (SysMem.refl w).only

theorem Only.trans {N : Bytes → Prop} {j : Nat → Prop} {a b c : World} (h : Only N j a b) (h' : Only N j b c) : Only N j a c where
  dir := fun p i e => h'.dir p i (h.dir p i e)
  next := Nat.le_trans h.next h'.next
  kind := fun i hi => by rw [h'.kind i (Nat.lt_of_lt_of_le hi h.next), h.kind i hi]
  data := fun i hi hd => by
    by_cases hb : b.data i = a.data i
    · rcases h'.data i (Nat.lt_of_lt_of_le hi h.next) (by rw [hb]; exact hd) with hj | ⟨o, ho, hbo⟩
      · exact Or.inl hj
      · cases ha : a.dir o with
        | none => exact absurd (h.made o i ha hbo).2 (by omega)
        | some k =>
          rw [h.dir o k ha] at hbo
          cases hbo
          exact Or.inr ⟨o, ho, ha⟩
    · exact h.data i hi hb
  made := fun p i hp hc => by
    cases hb : b.dir p with
    | none =>
      obtain ⟨h1, h2⟩ := h'.made p i hb hc
      exact ⟨h1, Nat.le_trans h.next h2⟩
    | some k =>
      rw [h'.dir p k hb] at hc
      cases hc
      exact h.made p i hp hb
  fresh := fun hf => h'.fresh (h.fresh hf)

theorem Only.mono {N N' : Bytes → Prop} {j j' : Nat → Prop} {w w' : World} (h : Only N j w w') (hn : ∀ o, N o → N' o) (hj : ∀ i, j i → j' i) : Only N' j' w w' :=
  ⟨h.dir, h.next, h.kind, fun i hi hd => (h.data i hi hd).elim (fun x => Or.inl (hj i x)) (fun ⟨o, a, b⟩ => Or.inr ⟨o, hn o a, b⟩),
    fun p i a b => ⟨hn p (h.made p i a b).1, (h.made p i a b).2⟩, h.fresh⟩

/-- Writing to an inode that may be written. -/
theorem Only.wrote {N : Bytes → Prop} {j : Nat → Prop} {w w1 : World} (h : Only N j w w1) {ino off : Nat} {d : Bytes} {evs : List (Nat × Bytes)} {r : List Sys}
    (hi : ino < w.next → j ino ∨ ∃ o, N o ∧ w.dir o = some ino) : Only N j w (wrote w1 ino off d evs r) where
  dir := h.dir
  next := h.next
  kind := h.kind
  data := fun i hin hd => by
    by_cases he : i = ino
    · subst he; exact hi hin
    · refine h.data i hin ?_
      have hd' : (if i = ino then writeAt (w1.data ino) off d else w1.data i) ≠ w.data i := hd
      rw [if_neg he] at hd'
      exact hd'
  made := h.made
  fresh := h.fresh

theorem wp_openCreat_only {N : Bytes → Prop} {j : Nat → Prop} {out : Bytes} {w : World} (hN : N out) :
    wp (openCreat out)
      (fun a w' => Only N j w w' ∧ ∀ ino, a = some ino → (ino < w.next → w.dir out = some ino) ∧ w'.dir out = some ino ∧
        (w'.kind ino = .reg → w'.data ino = []))
      (fun _ w' => Only N j w w') w := by
  unfold openCreat
  refine wp_bind (wp_sysOk (fun r hr => ?_) (fun r hr _ => ?_) (fun _ => ?_))
  · simp only [Bool.not_true, Bool.false_eq_true, if_false]
    refine wp_bind ?_
    cases hd : w.dir out with
    | some ino =>
      simp only [wp, creat, hd]
      refine ⟨⟨fun _ _ h => h, Nat.le_refl _, fun _ _ => rfl, fun i hi hne => ?_, fun p i h h' => ?_, fun h => h⟩, fun _ h => ?_⟩
      · have hne' : (if i = ino ∧ w.kind ino = .reg then [] else w.data i) ≠ w.data i := hne
        by_cases he : i = ino
        · exact Or.inr ⟨out, hN, by rw [he]; exact hd⟩
        · rw [if_neg (fun h => he h.1)] at hne'
          exact absurd rfl hne'
      · rw [show w.dir p = some i from h'] at h; cases h
      · cases h
        refine ⟨fun _ => rfl, hd, fun hk => ?_⟩
        show (if ino = ino ∧ w.kind ino = .reg then [] else w.data ino) = []
        rw [if_pos ⟨rfl, hk⟩]
    | none =>
      simp only [wp, creat, hd]
      refine ⟨⟨fun p i hp => ?_, Nat.le_succ _, fun i hi => ?_, fun i hi hne => ?_, fun p i h h' => ?_, fun hf p i hp => ?_⟩, fun _ h => ?_⟩
      · show (if p = out then some w.next else w.dir p) = some i
        rw [if_neg (by rintro rfl; rw [hd] at hp; cases hp)]
        exact hp
      · show (if i = w.next then _ else w.kind i) = _
        rw [if_neg (by omega)]
      · have hne' : (if i = w.next then [] else w.data i) ≠ w.data i := hne
        rw [if_neg (by omega)] at hne'
        exact absurd rfl hne'
      · have h'' : (if p = out then some w.next else w.dir p) = some i := h'
        by_cases he : p = out
        · rw [if_pos he] at h''
          cases h''
          exact ⟨by rw [he]; exact hN, Nat.le_refl _⟩
        · rw [if_neg he, h] at h''; cases h''
      · have hp' : (if p = out then some w.next else w.dir p) = some i := hp
        show i < w.next + 1
        by_cases he : p = out
        · rw [if_pos he] at hp'; cases hp'; omega
        · rw [if_neg he] at hp'; have := hf p i hp'; omega
      · cases h
        refine ⟨fun h => absurd h (Nat.lt_irrefl _), ?_, fun _ => ?_⟩
        · show (if out = out then some w.next else w.dir out) = _
          rw [if_pos rfl]
        · show (if w.next = w.next then [] else w.data w.next) = []
          rw [if_pos rfl]
  · simp only [Bool.not_false, if_true]
    exact wp_pure ⟨(SysMem.mk' w w.mem hr.1).only, by simp⟩
  · exact (SysMem.mk' w w.mem (List.nil_suffix)).only

/-- One conversion. -/
theorem wp_encryptOne_only {T : Tool} {ec : EncCtx} {input : Bytes} {output : Option Bytes} {w : World} :
    wp (encryptOne T ec input output)
      (fun a w' => a.2.key = ec.key ∧ Only (fun o => output.or (derivedOutput input) = some o ∧ o ≠ str "-" ∧ (chunkIdFromPath input).isSome = true)
        (fun i => output = some (str "-") ∧ i = T.out) w w')
      (fun _ w' => Only (fun o => output.or (derivedOutput input) = some o ∧ o ≠ str "-" ∧ (chunkIdFromPath input).isSome = true)
        (fun i => output = some (str "-") ∧ i = T.out) w w') w := by
  unfold encryptOne
  cases hid : chunkIdFromPath input with
  | none => exact wp_pure ⟨rfl, Only.refl w⟩
  | some id =>
    simp only
    cases ho : output.or (derivedOutput input) with
    | none => exact wp_pure ⟨rfl, Only.refl w⟩
    | some out =>
      simp only
      refine wp_bind (wp_accessOk (fun r hr _ => ?_) (fun r hr _ => ?_) (Only.refl w))
      · simp only [if_true]
        exact wp_pure ⟨rfl, (SysMem.mk' w w.mem hr).only⟩
      · simp only [Bool.false_eq_true, if_false]
        have h0 : SysMem w { w with sys := r } := SysMem.mk' w w.mem hr
        refine wp_bind (wp_mono wp_slurpFile (fun a w1 h => ?_) (fun s w1 h => (h0.trans h.2).only))
        have h1 := h0.trans h.1
        cases a with
        | none => exact wp_pure ⟨rfl, h1.only⟩
        | some d =>
          obtain ⟨k1, k2⟩ := encryptDoCtx_restart ec T.evp0 id d
          simp only
          generalize encryptDoCtx (encryptRestart ec id) T.evp0 d = x at k1 k2 ⊢
          obtain ⟨oo, ec'⟩ := x
          simp only at k1
          cases oo with
          | none => exact wp_pure ⟨k1, h1.only⟩
          | some o =>
            simp only
            split
            · rename_i hst
              have hout : out = str "-" := by simpa [streq] using hst
              have hout' : output = some (str "-") := by
                cases output with
                | none => exact absurd hout (derived_not_dash ho)
                | some q => rw [← hout]; exact ho
              refine wp_bind (wp_pwriteall (fun r3 evs _ _ _ _ => ?_) (fun r3 evs k _ _ _ _ _ _ => ?_) (fun r3 evs k s _ _ _ _ _ _ => ?_))
              · exact wp_pure ⟨k1, h1.only.wrote (fun _ => Or.inl ⟨hout', rfl⟩)⟩
              · exact wp_pure ⟨k1, h1.only.wrote (fun _ => Or.inl ⟨hout', rfl⟩)⟩
              · exact h1.only.wrote (fun _ => Or.inl ⟨hout', rfl⟩)
            · rename_i hst
              have hout : out ≠ str "-" := by simpa [streq] using hst
              refine wp_bind (wp_mono (wp_openCreat_only (N := fun o => some out = some o ∧ o ≠ str "-" ∧ (some id).isSome = true) ⟨rfl, hout, rfl⟩) (fun a w2 h => ?_) (fun s w2 h => h1.only.trans h))
              have h2 := h1.only.trans h.1
              cases a with
              | none => exact wp_pure ⟨k1, h2⟩
              | some ino =>
                have hn : w1.next = w.next := by rw [h1.same]
                have hd : w1.dir = w.dir := by rw [h1.same]
                have hw : ino < w.next → (output = some (str "-") ∧ ino = T.out) ∨ ∃ q, (some out = some q ∧ q ≠ str "-" ∧ (some id).isSome = true) ∧ w.dir q = some ino := by
                  intro hl
                  obtain ⟨g, _⟩ := h.2 ino rfl
                  rw [hn, hd] at g
                  exact Or.inr ⟨out, ⟨rfl, hout, rfl⟩, g hl⟩
                simp only
                refine wp_bind (wp_pwriteall (fun r3 evs _ _ _ _ => ?_) (fun r3 evs k _ _ _ _ _ _ => ?_) (fun r3 evs k s _ _ _ _ _ _ => ?_))
                · exact wp_pure ⟨k1, h2.wrote hw⟩
                · exact wp_pure ⟨k1, h2.wrote hw⟩
                · exact h2.wrote hw

theorem wp_cryptLines_only {T : Tool} : ∀ (ls : List Bytes) (ec : EncCtx) (w : World),
    wp (cryptLines T ec ls)
      (fun _ w' => Only (fun o => ∃ l ∈ ls, derivedOutput (chomp (cstr l)) = some o ∧ (chunkIdFromPath (chomp (cstr l))).isSome = true) (fun _ => False) w w')
      (fun _ w' => Only (fun o => ∃ l ∈ ls, derivedOutput (chomp (cstr l)) = some o ∧ (chunkIdFromPath (chomp (cstr l))).isSome = true) (fun _ => False) w w') w
  | [], ec, w => by
    unfold cryptLines
    exact wp_pure (Only.refl w)
  | l :: ls, ec, w => by
    unfold cryptLines
    have hh : ∀ {w' : World}, Only (fun o => Option.or none (derivedOutput (chomp (cstr l))) = some o ∧ o ≠ str "-" ∧ (chunkIdFromPath (chomp (cstr l))).isSome = true)
        (fun i => none = some (str "-") ∧ i = T.out) w w' →
        Only (fun o => ∃ l' ∈ l :: ls, derivedOutput (chomp (cstr l')) = some o ∧ (chunkIdFromPath (chomp (cstr l'))).isSome = true) (fun _ => False) w w' :=
      fun h => h.mono (fun o ho => ⟨l, List.mem_cons_self, by simpa using ho.1, ho.2.2⟩) (fun i hi => by cases hi.1)
    have ht : ∀ {w1 w' : World}, Only (fun o => ∃ l' ∈ ls, derivedOutput (chomp (cstr l')) = some o ∧ (chunkIdFromPath (chomp (cstr l'))).isSome = true) (fun _ => False) w1 w' →
        Only (fun o => ∃ l' ∈ l :: ls, derivedOutput (chomp (cstr l')) = some o ∧ (chunkIdFromPath (chomp (cstr l'))).isSome = true) (fun _ => False) w1 w' :=
      fun h => h.mono (fun o ⟨l', hl, ho⟩ => ⟨l', List.mem_cons_of_mem _ hl, ho⟩) (fun i hi => hi)
    refine wp_bind (wp_mono wp_encryptOne_only (fun a w1 h => ?_) (fun s w1 h => hh h))
    obtain ⟨ok, ec'⟩ := a
    cases ok with
    | false => exact wp_pure (hh h.2)
    | true =>
      simp only [Bool.not_true, Bool.false_eq_true, if_false]
      exact wp_mono (wp_cryptLines_only ls ec' w1) (fun a w2 h2 => (hh h.2).trans (ht h2)) (fun s w2 h2 => (hh h.2).trans (ht h2))

theorem madeFrom {p o : Bytes} (h : derivedOutput p = some o) (hc : (chunkIdFromPath p).isSome = true) : MadeFrom p o := by
  obtain ⟨id, hid⟩ := Option.isSome_iff_exists.1 hc
  obtain ⟨name, h1, h2⟩ := (chunkIdFromPath_iff p id).1 hid
  exact ⟨⟨name, id, h1, h2⟩, ((C46_derived_name p).1 o h).1⟩

theorem wp_doCrypt_only (T : Tool) (args : List Bytes) (w : World) :
    wp (doCrypt T args) (fun _ w' => Only (fun o => OutputOf T.stdin (str "crypt" :: args) o ∧ o ≠ str "-") (fun i => args[2]? = some (str "-") ∧ i = T.out) w w')
      (fun _ w' => Only (fun o => OutputOf T.stdin (str "crypt" :: args) o ∧ o ≠ str "-") (fun i => args[2]? = some (str "-") ∧ i = T.out) w w') w := by
  unfold doCrypt
  cases args with
  | nil => exact wp_pure (Only.refl _)
  | cons spec rest =>
    simp only
    split
    · exact wp_pure (Only.refl _)
    · rename_i hlen
      refine wp_bind (wp_mono wp_parseKeyspec (fun a w1 h => ?_) (fun s w1 h => h.2.only))
      obtain ⟨h1, _, _⟩ := h
      cases a with
      | none => exact wp_pure h1.only
      | some key =>
        cases rest with
        | nil =>
          have hm : ∀ {w2 : World}, Only (fun o => ∃ l ∈ fgetsLines [] T.stdin, derivedOutput (chomp (cstr l)) = some o ∧ (chunkIdFromPath (chomp (cstr l))).isSome = true) (fun _ => False) w1 w2 →
              Only (fun o => OutputOf T.stdin [str "crypt", spec] o ∧ o ≠ str "-") (fun i => [spec][2]? = some (str "-") ∧ i = T.out) w w2 := fun h =>
            h1.only.trans (h.mono (fun o ⟨l, hl, ho, hc⟩ =>
              ⟨.line spec _ l (cstr l) (chomp (cstr l)) o (fgetsLines_spec T.stdin [] (by simp) (by simp)) hl (cstr_text l) (chomp_cut _) (madeFrom ho hc), derived_not_dash ho⟩)
              (fun _ h => h.elim))
          exact wp_mono (wp_cryptLines_only _ _ w1) (fun a w2 h => hm h) (fun s w2 h => hm h)
        | cons input output =>
          simp only
          have hP : ∀ i, (output.head? = some (str "-") ∧ i = T.out) → ((spec :: input :: output)[2]? = some (str "-") ∧ i = T.out) := by
            intro i h
            refine ⟨?_, h.2⟩
            rw [← h.1]
            simp [List.head?_eq_getElem?]
          have hN : ∀ o, (output.head?.or (derivedOutput input) = some o ∧ o ≠ str "-" ∧ (chunkIdFromPath input).isSome = true) →
              OutputOf T.stdin (str "crypt" :: spec :: input :: output) o ∧ o ≠ str "-" := by
            rintro o ⟨ho, hne, hc⟩
            refine ⟨?_, hne⟩
            match output, ho, hlen with
            | [], ho, _ => exact .derived spec input o (madeFrom (by simpa using ho) hc)
            | [q], ho, _ =>
              have : q = o := by simpa using ho
              subst this
              obtain ⟨id, hid⟩ := Option.isSome_iff_exists.1 hc
              obtain ⟨name, h1, h2⟩ := (chunkIdFromPath_iff input id).1 hid
              exact .given spec input q name id h1 h2
            | _ :: _ :: _, _, hlen => exact absurd (Or.inl (by simp)) hlen
          refine wp_bind (wp_mono wp_encryptOne_only (fun a w2 h => ?_) (fun s w2 h => ?_))
          · obtain ⟨ok, ec'⟩ := a
            exact wp_pure (h1.only.trans (h.2.mono hN hP))
          · exact h1.only.trans (h.mono hN hP)

theorem toolMain_only (T : Tool) (args : List Bytes) (w : World) :
    Only (fun o => OutputOf T.stdin args o ∧ o ≠ str "-") (fun i => args[3]? = some (str "-") ∧ i = T.out) w (toolMain T args w).2 := by
  have h : wp (toolMain T args) (fun _ w' => Only (fun o => OutputOf T.stdin args o ∧ o ≠ str "-") (fun i => args[3]? = some (str "-") ∧ i = T.out) w w')
      (fun _ w' => Only (fun o => OutputOf T.stdin args o ∧ o ≠ str "-") (fun i => args[3]? = some (str "-") ∧ i = T.out) w w') w := by
    unfold toolMain
    cases args with
    | nil => exact wp_pure (Only.refl _)
    | cons cmd rest =>
      simp only
      split
      · exact wp_pure (Only.refl _)
      · split
        · rename_i hs
          have : cmd = str "crypt" := by simpa [streq] using hs
          subst this
          exact wp_doCrypt_only T rest w
        · exact wp_pure (Only.refl _)
  unfold wp at h
  generalize toolMain T args w = x at h ⊢
  obtain ⟨r, w'⟩ := x
  cases r <;> exact h

end Csn.Proof
