import Verif.Proof.Tool
/-
Rules for whole runs of csn-tool.
-/
namespace Csn.Proof
open Csn Spec Props

/-- Names are kept, and the inodes in use except those for which `P` holds keep their contents. -/
structure Keeps (P : Nat → Prop) (w w' : World) : Prop where
  dir : ∀ p i, w.dir p = some i → w'.dir p = some i
  next : w.next ≤ w'.next
  data : ∀ i, i < w.next → ¬ P i → w'.data i = w.data i
  kind : ∀ i, i < w.next → w'.kind i = w.kind i

theorem Keeps.refl (P : Nat → Prop) (w : World) : Keeps P w w := ⟨fun _ _ h => h, Nat.le_refl _, fun _ _ _ => rfl, fun _ _ => rfl⟩

theorem Keeps.trans {P : Nat → Prop} {a b c : World} (h : Keeps P a b) (h' : Keeps P b c) : Keeps P a c :=
  ⟨fun p i e => h'.dir p i (h.dir p i e), Nat.le_trans h.next h'.next,
    fun i hi hp => by rw [h'.data i (Nat.lt_of_lt_of_le hi h.next) hp, h.data i hi hp],
    fun i hi => by rw [h'.kind i (Nat.lt_of_lt_of_le hi h.next), h.kind i hi]⟩

theorem SysMem.keeps {P : Nat → Prop} {w w' : World} (h : SysMem w w') : Keeps P w w' := by
  rw [h.same]; exact ⟨fun _ _ h => h, Nat.le_refl _, fun _ _ _ => rfl, fun _ _ => rfl⟩

/-- Inode numbers in use are below `next`. -/
def Fresh (w : World) : Prop := ∀ p i, w.dir p = some i → i < w.next

theorem SysMem.fresh {w w' : World} (h : SysMem w w') (hf : Fresh w) : Fresh w' := by
  rw [h.same]; exact hf

theorem Made.keeps {T : Tool} {out e : Bytes} {w w' : World} {k : Nat} (h : Made T out e w w' k) (hn : w.dir out = none) :
    Keeps (fun i => out = str "-" ∧ i = T.out) w w' := by
  rcases h with ⟨h1, evs, m, _, h⟩ | ⟨h1, evs, m, _, h⟩
  · rw [h]
    refine ⟨fun _ _ h => h, Nat.le_refl _, fun i hi hp => ?_, fun _ _ => rfl⟩
    show (if i = T.out then _ else w.data i) = _
    rw [if_neg (fun e => hp ⟨h1, e⟩)]
  · rw [h]
    refine ⟨fun p i hp => ?_, Nat.le_succ _, fun i hi _ => ?_, fun i hi => ?_⟩
    · show (if p = out then _ else w.dir p) = _
      rw [if_neg (by rintro rfl; rw [hn] at hp; cases hp)]
      exact hp
    · show (if i = w.next then _ else if i = w.next then _ else w.data i) = _
      rw [if_neg (by omega), if_neg (by omega)]
    · show (if i = w.next then _ else w.kind i) = _
      rw [if_neg (by omega)]

theorem Made.fresh {T : Tool} {out e : Bytes} {w w' : World} {k : Nat} (h : Made T out e w w' k) (hf : Fresh w) : Fresh w' := by
  rcases h with ⟨h1, evs, m, _, h⟩ | ⟨h1, evs, m, _, h⟩
  · rw [h]; exact hf
  · rw [h]
    intro p i hp
    have hp' : (if p = out then some w.next else w.dir p) = some i := hp
    show i < w.next + 1
    by_cases he : p = out
    · rw [if_pos he] at hp'; cases hp'; omega
    · rw [if_neg he] at hp'; have := hf p i hp'; omega

theorem Made.file {T : Tool} {out e : Bytes} {w w' : World} {k : Nat} (h : Made T out e w w' k) (hd : out ≠ str "-") :
    w'.dir out = some w.next ∧ w'.data w.next = e.take k ∧ (∀ q, q ≠ out → w'.dir q = w.dir q) ∧ w'.kind w.next = .reg := by
  rcases h with ⟨h1, _⟩ | ⟨h1, evs, m, _, h⟩
  · exact absurd h1 hd
  · rw [h]
    refine ⟨?_, ?_, fun q hq => ?_, ?_⟩
    · show (if out = out then _ else _) = _; rw [if_pos rfl]
    · show (if w.next = w.next then writeAt (if w.next = w.next then [] else _) 0 (e.take k) else _) = _
      rw [if_pos rfl, if_pos rfl]
      unfold writeAt
      by_cases he : (e.take k).isEmpty
      · rw [if_pos he]; exact (List.isEmpty_iff.1 he).symm
      · rw [if_neg he]; simp
    · show (if q = out then _ else _) = _; rw [if_neg hq]
    · show (if w.next = w.next then _ else _) = _; rw [if_pos rfl]

theorem derived_not_dash {p q : Bytes} (h : derivedOutput p = some q) : q ≠ str "-" := by
  intro e
  have hlen : q.length = 1 := by rw [e]; decide
  rcases (derivedOutput_iff p q).1 h with ⟨⟨x, _, h2⟩, _⟩ | ⟨⟨x, h2, _⟩, _⟩
  · rw [h2, List.length_append, cacnkEnc_len] at hlen; omega
  · rw [h2, List.length_append, cacnk_len] at hlen; omega

theorem derived_back {p q : Bytes} (h : derivedOutput p = some q) : derivedOutput q = some p := by
  rw [derivedOutput_iff] at h ⊢
  have hl : ∀ {a b : Bytes}, Twins a b → b.length = a.length + 4 := by
    rintro a b ⟨x, rfl, rfl⟩
    rw [List.length_append, List.length_append, cacnk_len, cacnkEnc_len]
  rcases h with ⟨h1, h2⟩ | ⟨h1, h2⟩
  · right; exact ⟨h1, by rw [hl h1]; omega⟩
  · left; exact ⟨h1, by have := hl h1; omega⟩

theorem derived_ne {p q : Bytes} (h : derivedOutput p = some q) : p ≠ q := by
  rcases (derivedOutput_iff p q).1 h with ⟨h1, _⟩ | ⟨h1, _⟩
  · exact twins_ne h1
  · exact fun e => twins_ne h1 e.symm

/-- One conversion keeps all files, wherever it stops. -/
theorem wp_encryptOne_keeps {T : Tool} {ec : EncCtx} {input : Bytes} {output : Option Bytes} {w : World} (hf : Fresh w)
    (he : w.sys.head? ≠ some .err) :
    wp (encryptOne T ec input output)
      (fun a w' => a.2.key = ec.key ∧ w'.sys <:+ w.sys ∧ Fresh w' ∧ Keeps (fun i => output = some (str "-") ∧ i = T.out) w w')
      (fun _ w' => Keeps (fun i => output = some (str "-") ∧ i = T.out) w w') w := by
  have hk : ∀ {out e w' k}, output.or (derivedOutput input) = some out → w.dir out = none → Made T out e w w' k →
      Keeps (fun i => output = some (str "-") ∧ i = T.out) w w' := by
    intro out e w' k ho hn hm
    have := hm.keeps hn
    refine ⟨this.dir, this.next, fun i hi hp => this.data i hi (fun h => hp ⟨?_, h.2⟩), this.kind⟩
    cases output with
    | none => exact absurd h.1 (derived_not_dash ho)
    | some o => rw [← h.1]; exact ho
  refine wp_mono wp_encryptOne (fun a w' h => ?_) (fun s w' h => ?_)
  · obtain ⟨h1, h2, ⟨h3, _⟩ | ⟨id, out, i, _, h4, h5, _, _, h7⟩⟩ := h
    · exact ⟨h1, h2, h3.fresh hf, h3.keeps⟩
    · have hn := h5.resolve_right he
      obtain ⟨k, _, _, hm⟩ := h7 hn
      exact ⟨h1, h2, hm.fresh hf, hk h4 hn hm⟩
  · obtain ⟨h2, h3 | ⟨id, out, i, _, h4, h5, _, _, h7⟩⟩ := h
    · exact h3.keeps
    · have hn := h5.resolve_right he
      obtain ⟨k, _, hm⟩ := h7 hn
      exact hk h4 hn hm

theorem head_not_err {a : List Sys} (h : Sys.err ∉ a) : a.head? ≠ some .err := fun e => h (List.mem_of_mem_head? e)

theorem Keeps.mono {P Q : Nat → Prop} {w w' : World} (h : Keeps P w w') (hp : ∀ i, P i → Q i) : Keeps Q w w' :=
  ⟨h.dir, h.next, fun i hi hq => h.data i hi (fun x => hq (hp i x)), h.kind⟩

/-- Files made by a run: they hold the conversion of the file they belong to. -/
def Outs (key : Bytes) (w w' : World) : Prop :=
  ∀ q o, w.dir q = none → w'.dir q = some o → ∃ p id i, derivedOutput p = some q ∧ chunkIdFromPath p = some id ∧ w'.dir p = some i ∧
    w'.data o = convBuf key id (w'.data i) ∧ w'.kind o = .reg

theorem wp_cryptLines {T : Tool} {w0 : World} {key : Bytes} : ∀ (ls : List Bytes) (ec : EncCtx) (w : World), ec.key = key → Fresh w → Sys.err ∉ w.sys →
    Keeps (fun _ => False) w0 w → Outs key w0 w →
    wp (cryptLines T ec ls)
      (fun ok w' => Keeps (fun _ => False) w0 w' ∧ (ok = true → Outs key w0 w' ∧ (∀ p i, w.dir p = some i → w'.dir p = some i) ∧
        ∀ l ∈ ls, ∃ id q, chunkIdFromPath (chomp (cstr l)) = some id ∧ derivedOutput (chomp (cstr l)) = some q ∧ (w'.dir q).isSome = true))
      (fun _ w' => Keeps (fun _ => False) w0 w') w
  | [], ec, w, hkey, hf, he, hk, ho => by
    unfold cryptLines
    exact wp_pure ⟨hk, fun _ => ⟨ho, fun _ _ h => h, by simp⟩⟩
  | l :: ls, ec, w, hkey, hf, he, hk, ho => by
    unfold cryptLines
    have hP : ∀ i, ((none : Option Bytes) = some (str "-") ∧ i = T.out) → False := fun i h => by cases h.1
    refine wp_bind (wp_mono (wp_and wp_encryptOne (wp_encryptOne_keeps hf (head_not_err he))) (fun a w' h => ?_) (fun s w' h => hk.trans (h.2.mono hP)))
    obtain ⟨⟨h1, h2, h3⟩, _, _, hf', hk'⟩ := h
    obtain ⟨ok, ec'⟩ := a
    have hk'' := hk'.mono hP
    have hkw := hk.trans hk''
    cases ok with
    | false => exact wp_pure ⟨hkw, by simp⟩
    | true =>
      simp only [Bool.not_true, Bool.false_eq_true, if_false]
      have hlast : Outs key w0 w' ∧ ∃ id q, chunkIdFromPath (chomp (cstr l)) = some id ∧ derivedOutput (chomp (cstr l)) = some q ∧ (w'.dir q).isSome = true := by
        rcases h3 with ⟨h3, h4⟩ | ⟨id, q, i, a1, a2, a3, a4, a5, a6⟩
        · obtain ⟨id, q, a1, a2, a3⟩ := h4 rfl
          rw [Option.none_or] at a2
          refine ⟨?_, id, q, a1, a2, by rw [h3.same]; exact a3⟩
          rw [h3.same]; exact ho
        · rw [Option.none_or] at a2
          have hn := a3.resolve_right (head_not_err he)
          obtain ⟨k, _, b2, b3⟩ := a6 hn
          have hk2 := b2 rfl
          obtain ⟨c1, c2, c3, c4⟩ := b3.file (derived_not_dash a2)
          refine ⟨?_, id, q, a1, a2, by rw [c1]; rfl⟩
          intro q' o hq' hq2
          by_cases e : q' = q
          · subst e
            rw [c1] at hq2
            cases hq2
            refine ⟨_, id, i, a2, a1, hk''.dir _ _ a4, ?_, c4⟩
            rw [c2, hk''.data i (hf _ _ a4) (fun h => h), hk2, ← convBuf_length key id (w.data i), ← hkey]
            exact List.take_length
          · rw [c3 q' e] at hq2
            obtain ⟨p, id', i', d1, d2, d3, d4, d5⟩ := ho q' o hq' hq2
            refine ⟨p, id', i', d1, d2, hk''.dir _ _ d3, ?_, ?_⟩
            · rw [hk''.data o (hf _ _ hq2) (fun h => h), hk''.data i' (hf _ _ d3) (fun h => h)]; exact d4
            · rw [hk''.kind o (hf _ _ hq2)]; exact d5
      refine wp_mono (wp_cryptLines ls ec' w' (by rw [← hkey]; exact h1) hf' (fun h => he (h2.subset h)) hkw hlast.1) (fun ok2 w2 h => ?_) (fun s w2 h => h)
      refine ⟨h.1, fun hok => ?_⟩
      obtain ⟨g1, g2, g3⟩ := h.2 hok
      refine ⟨g1, fun p i hp => g2 p i (hk''.dir p i hp), ?_⟩
      intro l' hl'
      rcases List.mem_cons.1 hl' with rfl | hl'
      · obtain ⟨id, q, a1, a2, a3⟩ := hlast.2
        obtain ⟨o, ho⟩ := Option.isSome_iff_exists.1 a3
        exact ⟨id, q, a1, a2, by rw [g2 q o ho]; rfl⟩
      · exact g3 l' hl'

end Csn.Proof
