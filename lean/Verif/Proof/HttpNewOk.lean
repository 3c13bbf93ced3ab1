import Verif.Proof.HttpNew
import Verif.Proof.MemSuf
/-
When the creation of an HTTP store fails.
-/
namespace Csn.Proof
open Csn Spec

/-- The calls can all succeed: no system call fails, memory suffices, files are small. -/
def Fine (w : World) : Prop :=
  Clean w.sys ∧ AllMem w.mem ∧ ∀ path ino, w.dir path = some ino → (w.data ino).length < 2 ^ 62

theorem AllMem.suffix {a b : List Bool} (h : AllMem a) (hs : b <:+ a) : AllMem b := fun x hx => h x (hs.subset hx)

theorem Fine.sysMem {w w' : World} (h : Fine w) (hs : SysMem w w') (hm : w'.mem <:+ w.mem) : Fine w' := by
  refine ⟨h.1.suffix hs.sys, h.2.1.suffix hm, ?_⟩
  have e1 : w'.dir = w.dir := by rw [hs.same]
  have e2 : w'.data = w.data := by rw [hs.same]
  rw [e1, e2]
  exact h.2.2

theorem SpecKey.sysMem' {getenv : Bytes → Option Bytes} {w w' : World} {spec k : Bytes} (h : SysMem w w')
    (hk : SpecKey getenv w spec k) : SpecKey getenv w' spec k := by
  obtain ⟨s, h1, h2⟩ := hk
  refine ⟨s, ?_, h2⟩
  have e1 : w'.dir = w.dir := by rw [h.same]
  have e2 : w'.data = w.data := by rw [h.same]
  have e3 : w'.kind = w.kind := by rw [h.same]
  cases h1 with
  | key => exact .key _
  | env v _ hv => exact .env v _ hv
  | file p ino hp hk =>
    rw [← e2]
    exact .file p ino (by rw [e1]; exact hp) (by rw [e3]; exact hk)

theorem takeWhile_end {s rest : Bytes} (h : 0x2c ∉ s) : (s ++ 0x2c :: rest).takeWhile (· != 0x2c) = s := by
  rw [List.takeWhile_append_of_pos (fun x hx => by simp; rintro rfl; exact h hx)]
  simp

theorem takeWhile_whole {s : Bytes} (h : 0x2c ∉ s) : s.takeWhile (· != 0x2c) = s := by
  induction s with
  | nil => rfl
  | cons x s ih =>
    simp only [List.mem_cons, not_or] at h
    rw [List.takeWhile_cons, if_pos (by simp; exact fun e => h.1 e.symm), ih h.2]

theorem enc_comma {s : Bytes} (h : 0x2c ∉ s) : 0x2c ∉ str "encrypt=" ++ s := by
  intro hm
  rcases List.mem_append.1 hm with hm | hm
  · revert hm; decide
  · exact h hm

/-- The first parameter of a list and the rest. -/
theorem ParamsKey.cases' {P : Bytes → Bytes → Prop} {p : Bytes} {k : Option Bytes} (h : ParamsKey P p k) (hp : p ≠ []) :
    ∃ spec k1, p.takeWhile (· != 0x2c) = str "encrypt=" ++ spec ∧ P spec k1 ∧
      ((p.takeWhile (· != 0x2c)).length < p.length → ∃ k2, ParamsKey P (p.drop ((p.takeWhile (· != 0x2c)).length + 1)) k2) := by
  cases h with
  | empty => exact absurd rfl hp
  | last spec k h1 h2 =>
    have e := takeWhile_whole (enc_comma h1)
    exact ⟨spec, k, e, h2, fun h => by rw [e] at h; exact absurd h (Nat.lt_irrefl _)⟩
  | more spec k rest key h1 h2 h3 =>
    have e := takeWhile_end (rest := rest) (enc_comma h1)
    refine ⟨spec, k, e, h2, fun _ => ⟨key, ?_⟩⟩
    rw [e]
    have : (str "encrypt=" ++ spec ++ 0x2c :: rest).drop ((str "encrypt=" ++ spec).length + 1) = rest := by
      rw [← List.drop_drop, List.drop_left]; rfl
    rw [this]
    exact h3

theorem wp_handleParams_fail {env : Env} (fuel : Nat) : ∀ (p : Bytes) (key : Option Bytes) (w : World), p.length < fuel →
    wp (handleParams env fuel p key)
      (fun a _ => a.1 = false → Fine w → ∀ k, ¬ ParamsKey (SpecKey env.getenv w) p k) (fun _ _ => True) w := by
  induction fuel with
  | zero => intro p key w h; omega
  | succ fuel ih =>
    intro p key w hlen
    unfold handleParams
    by_cases hp : p = []
    · rw [if_pos hp]; exact wp_pure (by simp)
    · rw [if_neg hp]
      simp only
      by_cases hs : startswith (p.takeWhile (· != 0x2c)) (str "encrypt=") = true
      · rw [if_pos hs]
        refine wp_bind (wp_mono (MemSuf.wp (MemSuf.parseKeyspec _ _) wp_parseKeyspec) (fun a w1 h => ?_) (fun s w' h => trivial))
        obtain ⟨⟨hsm, _, hno⟩, hmem⟩ := h
        cases a with
        | none =>
          refine wp_pure (fun _ hf k hk => ?_)
          obtain ⟨spec, k1, e1, ⟨s, s1, s2, s3⟩, _⟩ := ParamsKey.cases' hk hp
          rw [e1] at hno
          have : (str "encrypt=" ++ spec).drop 8 = spec := by
            have := List.drop_left (l₁ := str "encrypt=") (l₂ := spec); exact this
          rw [this] at hno
          exact hno rfl hf.1 hf.2.1 hf.2.2 s s1 s2 _ s3
        | some k =>
          refine wp_bind (wp_alloc ?_)
          have hw : SysMem w1 { w1 with mem := (allocPure 256 w1.mem).2 } := ⟨rfl, List.suffix_refl _⟩
          cases hb : (allocPure 256 w1.mem).1
          · refine wp_pure (fun _ hf => ?_)
            have := ((hf.2.1.suffix hmem).alloc (n := 256) (by omega)).1
            rw [hb] at this; cases this
          · simp only [Bool.not_true, Bool.false_eq_true, if_false]
            split
            · next hlt =>
              refine wp_mono (ih _ _ _ (by simp; omega)) (fun a w2 h2 ha hf k' hk => ?_) (fun _ _ _ => trivial)
              obtain ⟨spec, k1, e1, e2, e3⟩ := ParamsKey.cases' hk hp
              obtain ⟨k2, e3⟩ := e3 hlt
              refine h2 ha (hf.sysMem (hsm.trans hw) ((allocPure_suffix 256 _).trans hmem)) k2 ?_
              exact ParamsKey.imp (fun s k hh => hh.sysMem' (hsm.trans hw)) e3
            · exact wp_pure (by simp)
      · rw [if_neg hs]
        refine wp_pure (fun _ _ k hk => hs ?_)
        obtain ⟨spec, k1, e1, _⟩ := ParamsKey.cases' hk hp
        rw [e1]
        exact (startswith_iff _ _).mpr (by simp)

theorem FragOf.whole_le {arg whole : Bytes} {frag : Option Bytes} (h : FragOf arg whole frag) : whole.length ≤ arg.length := by
  cases frag with
  | none => rw [h.1]; exact Nat.le_refl _
  | some f => rw [h.1]; simp

theorem split_last {c : UInt8} {a b x y : Bytes} (h : a ++ c :: x = b ++ c :: y) (hx : c ∉ x) (hy : c ∉ y) : x = y := by
  induction a generalizing b with
  | nil =>
    cases b with
    | nil => simpa using h
    | cons z b =>
      simp only [List.nil_append, List.cons_append, List.cons.injEq] at h
      exact absurd (by rw [h.2]; simp) hx
  | cons z a ih =>
    cases b with
    | nil =>
      simp only [List.nil_append, List.cons_append, List.cons.injEq] at h
      exact absurd (by rw [← h.2]; simp) hy
    | cons v b =>
      simp only [List.cons_append, List.cons.injEq] at h
      exact ih h.2

/-- The fragment is unique. -/
theorem FragOf.unique {arg w1 w2 : Bytes} {f1 f2 : Option Bytes} (h1 : FragOf arg w1 f1) (h2 : FragOf arg w2 f2) : f1 = f2 := by
  cases f1 with
  | none =>
    cases f2 with
    | none => rfl
    | some g => exact absurd (by rw [h2.1]; simp) h1.2
  | some f =>
    cases f2 with
    | none => exact absurd (by rw [h1.1]; simp) h2.2
    | some g => rw [split_last (h1.1.symm.trans h2.1) h1.2 h2.2]

theorem stripSlash_le (s : Bytes) : (stripSlash s).length ≤ s.length := by
  rcases stripSlash_spec s with h | h
  · conv => rhs; rw [h]
    simp
  · rw [← h.1]; exact Nat.le_refl _

/-- `store_http_new` only fails if the URL's parameters are not acceptable or resources are missing. -/
theorem wp_httpNew_fail {env : Env} {arg : Bytes} {w : World} :
    wp (httpNew env arg)
      (fun a _ => a = none → Fine w → arg.length < 2 ^ 62 → ∀ whole frag, FragOf arg whole frag → ∀ k, ¬ ParamsKey (SpecKey env.getenv w) (frag.getD []) k)
      (fun _ _ => True) w := by
  have no : ∀ {n : Nat} {m : List Bool}, (allocPure n m).1 = false → n < 2 ^ 63 → AllMem m → False := by
    intro n m h hn hm
    rw [(hm.alloc hn).1] at h; cases h
  unfold httpNew
  refine wp_bind (wp_alloc ?_)
  cases hb : (allocPure 1024 w.mem).1
  · exact wp_pure (fun _ hf => (no hb (by omega) hf.2.1).elim)
  simp only [Bool.not_true, Bool.false_eq_true, if_false]
  refine wp_bind (wp_alloc ?_)
  simp only
  have hs1 := allocPure_suffix 1024 w.mem
  cases hb2 : (allocPure (arg.length + 1) (allocPure 1024 w.mem).2).1
  · exact wp_pure (fun _ hf hl => (no hb2 (by omega) (hf.2.1.suffix hs1)).elim)
  simp only [Bool.not_true, Bool.false_eq_true, if_false]
  have hs2 := (allocPure_suffix (arg.length + 1) (allocPure 1024 w.mem).2).trans hs1
  have hw0 : SysMem w { w with mem := (allocPure (arg.length + 1) (allocPure 1024 w.mem).2).2 } := ⟨rfl, List.suffix_refl _⟩
  generalize hw1 : ({ w with mem := (allocPure (arg.length + 1) (allocPure 1024 w.mem).2).2 } : World) = w1 at hw0
  have hm1 : w1.mem <:+ w.mem := by rw [← hw1]; exact hs2
  have tail : ∀ (tmp : Bytes) (key : Option Bytes) (w2 : World), w2.mem <:+ w.mem → tmp.length ≤ arg.length →
      wp (do
        if !(← M.alloc ((stripSlash tmp).length + 80 + 1)) then return none
        if !(← M.alloc 1) then return none
        if !(← M.alloc 1) then return none
        return some ⟨stripSlash tmp, key, 0, 0⟩ : M (Option Http))
      (fun a _ => a = none → Fine w → arg.length < 2 ^ 62 → ∀ whole frag, FragOf arg whole frag → ∀ k, ¬ ParamsKey (SpecKey env.getenv w) (frag.getD []) k)
      (fun _ _ => True) w2 := by
    intro tmp key w2 h2 hl
    have := stripSlash_le tmp
    refine wp_bind (wp_alloc ?_)
    cases hc1 : (allocPure ((stripSlash tmp).length + 80 + 1) w2.mem).1
    · exact wp_pure (fun _ hf hl => (no hc1 (by omega) (hf.2.1.suffix h2)).elim)
    simp only [Bool.not_true, Bool.false_eq_true, if_false]
    have h3 := (allocPure_suffix ((stripSlash tmp).length + 80 + 1) w2.mem).trans h2
    refine wp_bind (wp_alloc ?_)
    simp only
    cases hc2 : (allocPure 1 (allocPure ((stripSlash tmp).length + 80 + 1) w2.mem).2).1
    · exact wp_pure (fun _ hf hl => (no hc2 (by omega) (hf.2.1.suffix h3)).elim)
    simp only [Bool.not_true, Bool.false_eq_true, if_false]
    have h4 := (allocPure_suffix 1 (allocPure ((stripSlash tmp).length + 80 + 1) w2.mem).2).trans h3
    refine wp_bind (wp_alloc ?_)
    simp only
    cases hc3 : (allocPure 1 (allocPure 1 (allocPure ((stripSlash tmp).length + 80 + 1) w2.mem).2).2).1
    · exact wp_pure (fun _ hf hl => (no hc3 (by omega) (hf.2.1.suffix h4)).elim)
    · exact wp_pure (by simp)
  cases hl : lastIdx 0x23 arg with
  | none =>
    refine wp_bind (wp_pure ?_)
    simp only [Bool.not_true, Bool.false_eq_true, if_false]
    exact tail arg none w1 hm1 (Nat.le_refl _)
  | some i =>
    obtain ⟨h1, h2, h3⟩ := lastIdx_some hl
    refine wp_bind (wp_mono (MemSuf.wp (MemSuf.handleParams _ _ _ _) (wp_and (wp_handleParams _ _ _ _ (by simp; omega)) (wp_handleParams_fail _ _ _ _ (by simp; omega)))) (fun a w2 h => ?_) (fun s w' h => trivial))
    obtain ⟨⟨g1, g2⟩, g3⟩ := h
    obtain ⟨ok, key⟩ := a
    refine wp_bind (wp_pure ?_)
    cases ok with
    | false =>
      refine wp_pure (fun _ hf _ whole frag hfr k hk => ?_)
      have : frag = some (arg.drop (i + 1)) := Proof.FragOf.unique (w1 := whole) (w2 := arg.take i) (f2 := some (arg.drop (i + 1))) hfr ⟨h1, h2⟩
      rw [this] at hk
      exact g2 rfl (hf.sysMem hw0 hm1) k (ParamsKey.imp (fun s k hh => hh.sysMem' hw0) hk)
    | true => exact tail (arg.take i) key w2 (g3.trans hm1) (by simp; omega)

end Csn.Proof
