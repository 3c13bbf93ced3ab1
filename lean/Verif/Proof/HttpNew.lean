import Verif.Proof.Slurp
import Verif.Proof.HttpGet
/-
Creation of HTTP stores: key specifications, parameters, base URL.
-/
namespace Csn.Proof
open Csn Spec

/-- Only the system call and allocation schedules moved on. -/
structure SysMem (w w' : World) : Prop where
  same : w' = { w with sys := w'.sys, mem := w'.mem }
  sys : w'.sys <:+ w.sys

theorem SysMem.refl (w : World) : SysMem w w := ⟨rfl, List.suffix_refl _⟩

theorem SysMem.trans {a b c : World} (h : SysMem a b) (h' : SysMem b c) : SysMem a c :=
  ⟨by rw [h'.same, h.same], h'.sys.trans h.sys⟩

theorem SysMem.mk' (w : World) {r : List Sys} (m : List Bool) (h : r <:+ w.sys) : SysMem w { w with sys := r, mem := m } :=
  ⟨rfl, h⟩

theorem cstr_snoc (d : Bytes) : cstr (d ++ [0]) = cstr d := by
  unfold cstr
  induction d with
  | nil => rfl
  | cons x d ih =>
    rw [List.cons_append, List.takeWhile_cons, List.takeWhile_cons, ih]

/-- `slurp_file` returns the whole file or fails. -/
theorem wp_slurpFile {path : Bytes} {text : Bool} {w : World} :
    wp (slurpFile path text)
      (fun a w' => SysMem w w' ∧ (∀ d, a = some d → ∃ ino, w.dir path = some ino ∧ d = (if text then w.data ino ++ [0] else w.data ino) ∧ w.kind ino ≠ .other) ∧
        (a = none → Clean w.sys → AllMem w.mem → ∀ ino, w.dir path = some ino → w.kind ino ≠ .other → (w.data ino).length < 2 ^ 62 → False))
      (fun s w' => s = .killed ∧ SysMem w w') w := by
  rw [slurpFile_eq]
  unfold slurpPlain
  refine wp_bind (wp_openPath (fun r1 hr1 => ?_) (fun r1 hr1 hc => ?_) (fun _ => ?_))
  · cases hd : w.dir path with
    | none =>
      exact wp_pure ⟨SysMem.mk' w w.mem hr1.1, by simp, by simp⟩
    | some ino =>
      simp only
      refine wp_bind (wp_fdSize (fun r2 hr2 hk => ?_) (fun r2 hr2 hk => ?_) (fun _ => ?_))
      · simp only
        refine wp_bind (wp_alloc ?_)
        have hr2' : r2 <:+ w.sys := hr2.1.trans hr1.1
        cases hb : (allocPure (if text then (w.data ino).length + 1 else (w.data ino).length) w.mem).1
        · refine wp_pure ⟨SysMem.mk' w _ hr2', by simp, ?_⟩
          intro _ _ hm ino' e _ hl
          simp only [Option.some.injEq] at e
          subst e
          rw [(hm.alloc (by split <;> omega)).1] at hb; cases hb
        · simp only [Bool.not_true, Bool.false_eq_true, if_false]
          refine wp_bind (wp_readall (fun r3 hr3 hl _ => ?_) (fun r3 n hr3 hn hc => ?_) (fun _ => ?_))
          · refine wp_pure ⟨SysMem.mk' w _ (hr3.1.trans hr2'), ?_, by simp⟩
            intro d hdd
            simp only [Option.some.injEq] at hdd
            refine ⟨ino, rfl, ?_, hk⟩
            rw [← hdd]
            simp [slice]
          · refine wp_pure ⟨SysMem.mk' w _ (hr3.1.trans hr2'), by simp, ?_⟩
            intro _ hcl _ ino' e _ hlen
            simp only [Option.some.injEq] at e
            subst e
            rcases hc with hc | hc | hc
            · exact hc (hcl.suffix hr2')
            · simp at hc
            · omega
          · exact ⟨rfl, SysMem.mk' w _ (List.nil_suffix)⟩
      · refine wp_pure ⟨SysMem.mk' w w.mem (hr2.1.trans hr1.1), by simp, ?_⟩
        intro _ hcl _ ino' e hk' _
        simp only [Option.some.injEq] at e
        subst e
        rcases hk with hk | hk
        · exact hk (hcl.suffix hr1.1)
        · exact hk' hk
      · exact ⟨rfl, SysMem.mk' w _ (List.nil_suffix)⟩
  · exact wp_pure ⟨SysMem.mk' w w.mem hr1.1, by simp, fun _ h => absurd h hc⟩
  · exact ⟨rfl, SysMem.mk' w _ (List.nil_suffix)⟩

/-- The string a key specification's digits come from.  File contents are C strings: they end at the
first NUL; the line break is removed. -/
inductive KeyText (getenv : Bytes → Option Bytes) (w : World) : Bytes → Bytes → Prop
  | key (s) : KeyText getenv w (str "key:" ++ s) s
  | env (v s) : getenv v = some s → KeyText getenv w (str "env:" ++ v) s
  | file (path ino) : w.dir path = some ino → w.kind ino ≠ .other →
      KeyText getenv w (str "file:" ++ path) (chomp (cstr (w.data ino)))

theorem startswith_iff (a b : Bytes) : startswith a b = true ↔ a = b ++ a.drop b.length := by
  unfold startswith
  constructor
  · intro h
    have := eq_of_beq h
    conv => lhs; rw [← List.take_append_drop b.length a, this]
  · intro h
    rw [h]
    simp

theorem wp_parseKeyspec {getenv : Bytes → Option Bytes} {spec : Bytes} {w : World} :
    wp (parseKeyspec getenv spec)
      (fun a w' => SysMem w w' ∧
        (∀ k, a = some k → ∃ s, KeyText getenv w spec s ∧ s.length = 64 ∧ parseHex s = (true, k)) ∧
        (a = none → Clean w.sys → AllMem w.mem → (∀ path ino, w.dir path = some ino → (w.data ino).length < 2 ^ 62) →
          ∀ s, KeyText getenv w spec s → s.length = 64 → ∀ k, parseHex s ≠ (true, k)))
      (fun s w' => s = .killed ∧ SysMem w w') w := by
  have h1k : ∀ x, startswith (str "key:" ++ x) (str "key:") = true := fun x => (startswith_iff _ _).mpr (by simp)
  have h1e : ∀ x, startswith (str "env:" ++ x) (str "key:") = false := fun x => rfl
  have h1f : ∀ x, startswith (str "file:" ++ x) (str "key:") = false := fun x => rfl
  have h2e : ∀ x, startswith (str "env:" ++ x) (str "env:") = true := fun x => (startswith_iff _ _).mpr (by simp)
  have h2f : ∀ x, startswith (str "file:" ++ x) (str "env:") = false := fun x => rfl
  have h3f : ∀ x, startswith (str "file:" ++ x) (str "file:") = true := fun x => (startswith_iff _ _).mpr (by simp)
  have hchk : ∀ (s : Bytes) (w' : World), SysMem w w' → KeyText getenv w spec s → (∀ s', KeyText getenv w spec s' → s' = s) →
      wp (pure (if s.length ≠ 64 then none
        else match parseHex s with
          | (true, k) => some k
          | (false, _) => none) : M (Option Bytes))
      (fun a w' => SysMem w w' ∧
        (∀ k, a = some k → ∃ s, KeyText getenv w spec s ∧ s.length = 64 ∧ parseHex s = (true, k)) ∧
        (a = none → Clean w.sys → AllMem w.mem → (∀ path ino, w.dir path = some ino → (w.data ino).length < 2 ^ 62) →
          ∀ s, KeyText getenv w spec s → s.length = 64 → ∀ k, parseHex s ≠ (true, k)))
      (fun s w' => s = .killed ∧ SysMem w w') w' := by
    intro s w' hw hk hu
    refine wp_pure ⟨hw, ?_, ?_⟩
    · intro k hk'
      by_cases hl : s.length = 64
      · rw [if_neg (by simp [hl])] at hk'
        refine ⟨s, hk, hl, ?_⟩
        cases hp : parseHex s with
        | mk b o =>
          rw [hp] at hk'
          cases b with
          | false => simp at hk'
          | true => simp at hk'; rw [hk']
      · rw [if_pos hl] at hk'; cases hk'
    · intro hn _ _ _ s' hs' hl k hp
      rw [hu s' hs'] at hl hp
      rw [if_neg (by simp [hl]), hp] at hn
      cases hn
  rw [parseKeyspec_eq]
  simp only
  by_cases h1 : startswith spec (str "key:") = true
  · rw [if_pos h1]
    have e := (startswith_iff _ _).mp h1
    refine hchk _ w (SysMem.refl _) ?_ ?_
    · have := KeyText.key (getenv := getenv) (w := w) (spec.drop 4)
      rw [show (str "key:") ++ spec.drop 4 = spec from e.symm] at this
      exact this
    · intro s' hs'
      cases hs' with
      | key => simp [str]
      | env v _ _ => rw [h1e] at h1; cases h1
      | file p _ _ _ => rw [h1f] at h1; cases h1
  · rw [if_neg h1]
    by_cases h2 : startswith spec (str "env:") = true
    · rw [if_pos h2]
      have e := (startswith_iff _ _).mp h2
      cases hg : getenv (spec.drop 4) with
      | none =>
        refine wp_pure ⟨SysMem.refl _, by simp, ?_⟩
        intro _ _ _ _ s' hs'
        cases hs' with
        | key => rw [h1k] at h1; exact absurd rfl h1
        | env v _ hv =>
          have : (str "env:" ++ v).drop 4 = v := by simp [str]
          rw [this, hv] at hg; cases hg
        | file p _ _ _ => rw [h2f] at h2; cases h2
      | some s =>
        refine hchk s w (SysMem.refl _) ?_ ?_
        · have := KeyText.env (w := w) (spec.drop 4) s hg
          rw [show (str "env:") ++ spec.drop 4 = spec from e.symm] at this
          exact this
        · intro s' hs'
          cases hs' with
          | key => rw [h1k] at h1; exact absurd rfl h1
          | env v _ hv =>
            have : (str "env:" ++ v).drop 4 = v := by simp [str]
            rw [this, hv] at hg; cases hg; rfl
          | file p _ _ _ => rw [h2f] at h2; cases h2
    · rw [if_neg h2]
      by_cases h3 : startswith spec (str "file:") = true
      · rw [if_pos h3]
        have e := (startswith_iff _ _).mp h3
        have huniq : ∀ s', KeyText getenv w spec s' → ∃ ino, w.dir (spec.drop 5) = some ino ∧ w.kind ino ≠ .other ∧ s' = chomp (cstr (w.data ino)) := by
          intro s' hs'
          cases hs' with
          | key => rw [h1k] at h1; exact absurd rfl h1
          | env v _ _ => rw [h2e] at h2; exact absurd rfl h2
          | file p ino hp hk =>
            have : (str "file:" ++ p).drop 5 = p := by simp [str]
            rw [this]
            exact ⟨ino, hp, hk, rfl⟩
        refine wp_bind (wp_mono wp_slurpFile (fun a w' h => ?_) (fun s w' h => h))
        obtain ⟨g1, g2, g3⟩ := h
        cases a with
        | none =>
          refine wp_pure ⟨g1, by simp, ?_⟩
          intro _ hc hm hl s' hs'
          obtain ⟨ino, p1, p2, p3⟩ := huniq s' hs'
          exact (g3 rfl hc hm ino p1 p2 (hl _ _ p1)).elim
        | some d =>
          obtain ⟨ino, d1, d2, d3⟩ := g2 d rfl
          rw [if_pos rfl] at d2
          refine hchk _ w' g1 ?_ ?_
          · have := KeyText.file (getenv := getenv) (w := w) (spec.drop 5) ino d1 d3
            rw [show (str "file:") ++ spec.drop 5 = spec from e.symm, ← cstr_snoc, ← d2] at this
            exact this
          · intro s' hs'
            obtain ⟨ino', p1, p2, p3⟩ := huniq s' hs'
            rw [d1] at p1; cases p1
            rw [p3, d2, cstr_snoc]
      · rw [if_neg h3]
        refine wp_pure ⟨SysMem.refl _, by simp, ?_⟩
        intro _ _ _ _ s' hs'
        cases hs' with
        | key => rw [h1k] at h1; exact absurd rfl h1
        | env v _ _ => rw [h2e] at h2; exact absurd rfl h2
        | file p _ _ _ => rw [h3f] at h3; exact absurd rfl h3

/-- Key specification `spec` is accepted with key `k`. -/
def SpecKey (getenv : Bytes → Option Bytes) (w : World) (spec k : Bytes) : Prop :=
  ∃ s, KeyText getenv w spec s ∧ s.length = 64 ∧ parseHex s = (true, k)

theorem SpecKey.sysMem {getenv : Bytes → Option Bytes} {w w' : World} {spec k : Bytes} (h : SysMem w w')
    (hk : SpecKey getenv w' spec k) : SpecKey getenv w spec k := by
  obtain ⟨s, h1, h2⟩ := hk
  refine ⟨s, ?_, h2⟩
  have e1 : w'.dir = w.dir := by rw [h.same]
  have e2 : w'.data = w.data := by rw [h.same]
  have e3 : w'.kind = w.kind := by rw [h.same]
  cases h1 with
  | key => exact .key _
  | env v _ hv => exact .env v _ hv
  | file p ino hp hk =>
    rw [e2]
    exact .file p ino (by rw [← e1]; exact hp) (by rw [← e3]; exact hk)

theorem ParamsKey.imp {P Q : Bytes → Bytes → Prop} (h : ∀ s k, P s k → Q s k) {p : Bytes} {key : Option Bytes}
    (hp : ParamsKey P p key) : ParamsKey Q p key := by
  induction hp with
  | empty => exact .empty
  | last s k h1 h2 => exact .last s k h1 (h _ _ h2)
  | more s k r key h1 h2 _ ih => exact .more s k r key h1 (h _ _ h2) ih

theorem takeWhile_comma (p : Bytes) : 0x2c ∉ p.takeWhile (· != 0x2c) ∧
    (p = p.takeWhile (· != 0x2c) ∨ p = p.takeWhile (· != 0x2c) ++ 0x2c :: p.drop ((p.takeWhile (· != 0x2c)).length + 1)) := by
  induction p with
  | nil => simp
  | cons x p ih =>
    by_cases hx : x = 0x2c
    · subst hx; simp
    · have : (x != 0x2c) = true := by simp [hx]
      rw [List.takeWhile_cons, if_pos this]
      refine ⟨?_, ?_⟩
      · simp only [List.mem_cons, not_or]; exact ⟨fun h => hx h.symm, ih.1⟩
      · rcases ih.2 with h | h
        · left; rw [← h]
        · right
          simp only [List.cons_append, List.length_cons, List.drop_succ_cons]
          rw [← h]

/-- Parameters only ever yield a key or a failure. -/
theorem wp_handleParams {env : Env} (fuel : Nat) : ∀ (p : Bytes) (key : Option Bytes) (w : World), p.length < fuel →
    wp (handleParams env fuel p key)
      (fun a w' => SysMem w w' ∧ (a.1 = true → ∃ k, ParamsKey (SpecKey env.getenv w) p k ∧ a.2 = (match k with | some k => some k | none => key)))
      (fun s w' => s = .killed ∧ SysMem w w') w := by
  induction fuel with
  | zero => intro p key w h; omega
  | succ fuel ih =>
    intro p key w hlen
    unfold handleParams
    by_cases hp : p = []
    · rw [if_pos hp]; exact wp_pure ⟨SysMem.refl _, fun _ => ⟨none, by rw [hp]; exact .empty, rfl⟩⟩
    · rw [if_neg hp]
      simp only
      have htw := takeWhile_comma p
      generalize hword : p.takeWhile (· != 0x2c) = word at htw
      by_cases hs : startswith word (str "encrypt=") = true
      · rw [if_pos hs]
        have hs' := (startswith_iff _ _).mp hs
        have hd8 : word.drop (str "encrypt=").length = word.drop 8 := rfl
        rw [hd8] at hs'
        have hnc : 0x2c ∉ word.drop 8 := fun h => htw.1 (List.mem_of_mem_drop h)
        refine wp_bind (wp_mono wp_parseKeyspec (fun a w1 h => ?_) (fun s w' h => h))
        cases a with
        | none => exact wp_pure ⟨h.1, by simp⟩
        | some k =>
          have hk : SpecKey env.getenv w (word.drop 8) k := h.2.1 k rfl
          refine wp_bind (wp_alloc ?_)
          have hw : SysMem w1 { w1 with mem := (allocPure 256 w1.mem).2 } := ⟨rfl, List.suffix_refl _⟩
          cases (allocPure 256 w1.mem).1
          · exact wp_pure ⟨h.1.trans hw, by simp⟩
          · simp only [Bool.not_true, Bool.false_eq_true, if_false]
            split
            · next hlt =>
              have e : p = word ++ 0x2c :: p.drop (word.length + 1) := by
                rcases htw.2 with e | e
                · rw [e] at hlt; simp at hlt
                · exact e
              have hlen' : (p.drop (word.length + 1)).length < fuel := by simp; omega
              refine wp_mono (ih _ _ _ hlen') (fun a w2 h2 => ⟨(h.1.trans hw).trans h2.1, fun ha => ?_⟩) (fun _ w2 h2 => ⟨h2.1, (h.1.trans hw).trans h2.2⟩)
              obtain ⟨k', k1, k2⟩ := h2.2 ha
              refine ⟨some (k'.getD k), ?_, ?_⟩
              · have := ParamsKey.more (P := SpecKey env.getenv w) _ _ _ _ hnc hk (ParamsKey.imp (fun s k hh => hh.sysMem (h.1.trans hw)) k1)
                rw [← hs', ← e] at this
                exact this
              · rw [k2]; cases k' <;> rfl
            · next hlt =>
              have e : p = word := by
                rcases htw.2 with e | e
                · exact e
                · exact absurd (by have := congrArg List.length e; simp only [List.length_append, List.length_cons] at this; omega) hlt
              refine wp_pure ⟨h.1.trans hw, fun _ => ⟨some k, ?_, rfl⟩⟩
              have := ParamsKey.last (P := SpecKey env.getenv w) _ _ hnc hk
              rw [← hs', ← e] at this
              exact this
      · rw [if_neg hs]; exact wp_pure ⟨SysMem.refl _, by simp⟩

theorem lastIdx_some {c : UInt8} {s : Bytes} {i : Nat} (h : lastIdx c s = some i) :
    s = s.take i ++ c :: s.drop (i + 1) ∧ c ∉ s.drop (i + 1) ∧ i < s.length := by
  unfold lastIdx at h
  cases hf : s.reverse.findIdx? (· == c) with
  | none => rw [hf] at h; cases h
  | some j =>
    rw [hf] at h
    simp only [Option.some.injEq] at h
    rw [List.findIdx?_eq_some_iff_getElem] at hf
    obtain ⟨hj, h1, h2⟩ := hf
    simp only [List.length_reverse] at hj
    have hi : i < s.length := by omega
    have hrev : ∀ k (hk : k < s.length), s[k] = s.reverse[s.length - 1 - k]'(by simp; omega) := by
      intro k hk
      rw [List.getElem_reverse]
      congr 1
      omega
    have hc : s[i] = c := by
      rw [hrev i hi]
      have : s.length - 1 - i = j := by omega
      simp only [this]
      exact eq_of_beq h1
    refine ⟨?_, ?_, hi⟩
    · rw [← hc]
      simp
    · intro hm
      obtain ⟨k, hk, e⟩ := List.getElem_of_mem hm
      simp only [List.length_drop] at hk
      rw [List.getElem_drop] at e
      have := h2 (s.length - 1 - (i + 1 + k)) (by omega)
      rw [← hrev (i + 1 + k) (by omega), e] at this
      simp at this

theorem lastIdx_none {c : UInt8} {s : Bytes} (h : lastIdx c s = none) : c ∉ s := by
  unfold lastIdx at h
  cases hf : s.reverse.findIdx? (· == c) with
  | some j => rw [hf] at h; cases h
  | none =>
    rw [List.findIdx?_eq_none_iff] at hf
    intro hc
    have := hf c (by simpa using hc)
    simp at this

theorem stripSlash_spec (s : Bytes) : s = stripSlash s ++ [0x2f] ∨ s = stripSlash s ∧ ∀ b, s ≠ b ++ [0x2f] := by
  unfold stripSlash
  cases h : lastIdx 0x2f s with
  | none =>
    right
    refine ⟨rfl, ?_⟩
    intro b hb
    exact lastIdx_none h (by rw [hb]; simp)
  | some i =>
    obtain ⟨h1, h2, h3⟩ := lastIdx_some h
    simp only
    by_cases hl : i + 1 = s.length
    · rw [if_pos hl]
      left
      conv => lhs; rw [h1]
      rw [hl, List.drop_length]
    · rw [if_neg hl]
      right
      refine ⟨rfl, ?_⟩
      intro b hb
      apply h2
      have : s.drop (i + 1) ≠ [] := by simp; omega
      have hlast : (s.drop (i + 1)).getLast this = 0x2f := by
        rw [List.getLast_drop]
        simp [hb]
      rw [← hlast]
      exact List.getLast_mem this

theorem wp_httpNew {env : Env} {arg : Bytes} {w : World} :
    wp (httpNew env arg)
      (fun a w' => SysMem w w' ∧ ∀ h, a = some h → h.err = 0 ∧ h.size = 0 ∧ ∃ frag, BaseOf arg h.base frag ∧ ParamsKey (SpecKey env.getenv w) (frag.getD []) h.key)
      (fun s w' => s = .killed ∧ SysMem w w') w := by
  unfold httpNew
  refine wp_bind (wp_alloc ?_)
  cases (allocPure 1024 w.mem).1
  · exact wp_pure ⟨⟨rfl, List.suffix_refl _⟩, by simp⟩
  simp only [Bool.not_true, Bool.false_eq_true, if_false]
  refine wp_bind (wp_alloc ?_)
  have hw0 : SysMem w { w with mem := (allocPure (arg.length + 1) (allocPure 1024 w.mem).2).2 } := ⟨rfl, List.suffix_refl _⟩
  simp only
  cases (allocPure (arg.length + 1) (allocPure 1024 w.mem).2).1
  · exact wp_pure ⟨hw0, by simp⟩
  simp only [Bool.not_true, Bool.false_eq_true, if_false]
  generalize hw1 : ({ w with mem := (allocPure (arg.length + 1) (allocPure 1024 w.mem).2).2 } : World) = w1 at hw0
  have tail : ∀ (tmp : Bytes) (key : Option Bytes) (frag : Option Bytes) (w2 : World), SysMem w w2 →
      FragOf arg tmp frag → ParamsKey (SpecKey env.getenv w) (frag.getD []) key →
      wp (do
        if !(← M.alloc ((stripSlash tmp).length + 80 + 1)) then return none
        if !(← M.alloc 1) then return none
        if !(← M.alloc 1) then return none
        return some ⟨stripSlash tmp, key, 0, 0⟩ : M (Option Http))
      (fun a w' => SysMem w w' ∧ ∀ h, a = some h → h.err = 0 ∧ h.size = 0 ∧ ∃ frag, BaseOf arg h.base frag ∧ ParamsKey (SpecKey env.getenv w) (frag.getD []) h.key)
      (fun s w' => s = .killed ∧ SysMem w w') w2 := by
    intro tmp key frag w2 h2 hfr hkey
    have hm : ∀ m, SysMem w { w2 with mem := m } := fun m => h2.trans ⟨rfl, List.suffix_refl _⟩
    refine wp_bind (wp_alloc ?_)
    split
    · exact wp_pure ⟨hm _, by simp⟩
    · refine wp_bind (wp_alloc ?_)
      split
      · exact wp_pure ⟨hm _, by simp⟩
      · refine wp_bind (wp_alloc ?_)
        split
        · exact wp_pure ⟨hm _, by simp⟩
        · refine wp_pure ⟨hm _, ?_⟩
          intro h hh
          simp only [Option.some.injEq] at hh
          subst hh
          exact ⟨rfl, rfl, frag, ⟨tmp, hfr, stripSlash_spec tmp⟩, hkey⟩
  cases hl : lastIdx 0x23 arg with
  | none =>
    refine wp_bind (wp_pure ?_)
    simp only [Bool.not_true, Bool.false_eq_true, if_false]
    exact tail arg none none w1 hw0 ⟨rfl, lastIdx_none hl⟩ .empty
  | some i =>
    obtain ⟨h1, h2, h3⟩ := lastIdx_some hl
    refine wp_bind (wp_mono (wp_handleParams _ _ _ _ (by simp; omega)) (fun a w2 h => ?_) (fun s w' h => ⟨h.1, hw0.trans h.2⟩))
    obtain ⟨ok, key⟩ := a
    refine wp_bind (wp_pure ?_)
    cases ok with
    | false => exact wp_pure ⟨hw0.trans h.1, by simp⟩
    | true =>
      refine tail (arg.take i) key (some (arg.drop (i + 1))) w2 (hw0.trans h.1) ⟨h1, h2⟩ ?_
      obtain ⟨k, k1, k2⟩ := h.2 rfl
      have : key = k := by rw [show key = _ from k2]; cases k <;> rfl
      rw [this]
      exact ParamsKey.imp (fun s k hh => hh.sysMem hw0) k1

end Csn.Proof
