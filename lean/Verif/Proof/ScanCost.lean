import Verif.Proof.Scan
import Verif.Proof.Wp
/-
How much of the system call schedule a scan uses.
-/
namespace Csn.Proof
open Csn Spec

theorem shallBreak_not_killed (p : Params) (d : Nat) (c : Chunker) : shallBreak p d c ≠ .stop .killed := by
  unfold shallBreak
  simp only
  repeat' split
  all_goals simp

theorem rollLoop_not_killed (p : Params) (d : Nat) (buf : Bytes) :
    ∀ (c : Chunker) (i n : Nat) (seen : Bytes), rollLoop p d c i n seen buf ≠ .stop .killed := by
  induction buf with
  | nil => intro c i n seen; simp [rollLoop]
  | cons b r ih =>
    intro c i n seen
    simp only [rollLoop]
    have := shallBreak_not_killed p d (rollStep c i b)
    split
    · next s h => intro e; injection e with e; exact this (by rw [h, e])
    · simp
    · exact ih _ _ _ _

theorem scanTail_not_killed (p : Params) (d : Nat) (c : Chunker) (n : Nat) (buf : Bytes) :
    scanTail p d c n buf ≠ .stop .killed := by
  unfold scanTail
  have := shallBreak_not_killed p d c
  split
  · next s h => intro e; injection e with e; exact this (by rw [h, e])
  · simp
  · exact rollLoop_not_killed _ _ _ _ _ _ _

theorem chunkerScan_not_killed (p : Params) (d : Nat) (c : Chunker) (buf : Bytes) :
    chunkerScan p d c buf ≠ .stop .killed := by
  unfold chunkerScan
  simp only
  split
  · split
    · simp
    · exact scanTail_not_killed _ _ _ _ _
  · exact scanTail_not_killed _ _ _ _ _

theorem scanBuf_not_killed {σ : Type} (H : Bytes → Id) (p : Params) (d : Nat) (cb : σ → Seg → CbRes σ)
    (hcb : ∀ s x s', cb s x ≠ .stop .killed s') :
    ∀ (fuel : Nat) (c : Chunker) (off last : Nat) (s : σ) (buf : Bytes),
      (scanBuf H p d cb fuel c off last s buf).1 ≠ .stop .killed := by
  intro fuel
  induction fuel with
  | zero =>
    intro c off last s buf
    unfold scanBuf
    split <;> simp
  | succ fuel ih =>
    intro c off last s buf
    unfold scanBuf
    have := chunkerScan_not_killed p d c buf
    split
    · simp
    · simp only
      split
      · next s h => intro e; injection e with e; exact this (by rw [h, e])
      · simp
      · next n c' h =>
        split
        · next x s' h => intro e; injection e with e; subst e; exact hcb _ _ _ h
        · simp
        · exact ih _ _ _ _ _

theorem scanLoop_cost {σ : Type} (H : Bytes → Id) (p : Params) (d bufsiz : Nat)
    (cb : σ → Seg → CbRes σ) (hcb : ∀ s x s', cb s x ≠ .stop .killed s') (f : Bytes) :
    ∀ (sys : List Sys) (c : Chunker) (pos off last : Nat) (s : σ) (res : ScanRes) (s' : σ) (r : List Sys),
      scanLoop H p d bufsiz cb f c pos off last s sys = (res, s', r) →
      r <:+ sys ∧ okCalls sys ≤ okCalls r + (f.length - pos) + 1 ∧
      (res = .stop .killed → r = [] ∧ okCalls sys ≤ f.length - pos) := by
  intro sys
  induction sys with
  | nil =>
    intro c pos off last s res s' r h
    simp only [scanLoop, Prod.mk.injEq] at h
    obtain ⟨h1, h2, h3⟩ := h
    subst h1 h2 h3
    simp [okCalls]
  | cons y ys ih =>
    intro c pos off last s res s' r h
    have hsuf : ys <:+ y :: ys := List.suffix_cons _ _
    have heof : (if off ≠ last then
          match cb s ⟨last, (off - last) % 2 ^ 32, H c.sha⟩ with
          | .stop y s' => (ScanRes.stop y, s', ys)
          | .fail s' => (.fail, s', ys)
          | .ok s' => (.ok, s', ys)
        else (.ok, s, ys)) = (res, s', r) →
        r <:+ y :: ys ∧ okCalls (y :: ys) ≤ okCalls r + (f.length - pos) + 1 ∧
        (res = .stop .killed → r = [] ∧ okCalls (y :: ys) ≤ f.length - pos) := by
      intro h
      have hle := okCalls_cons_le y ys
      split at h
      · split at h
        · next x s1 hx =>
          simp only [Prod.mk.injEq] at h
          obtain ⟨h1, h2, h3⟩ := h
          subst h1 h3
          refine ⟨hsuf, by omega, ?_⟩
          intro e; injection e with e; subst e
          exact absurd hx (hcb _ _ _)
        · simp only [Prod.mk.injEq] at h
          obtain ⟨h1, h2, h3⟩ := h
          subst h1 h3
          exact ⟨hsuf, by omega, by simp⟩
        · simp only [Prod.mk.injEq] at h
          obtain ⟨h1, h2, h3⟩ := h
          subst h1 h3
          exact ⟨hsuf, by omega, by simp⟩
      · simp only [Prod.mk.injEq] at h
        obtain ⟨h1, h2, h3⟩ := h
        subst h1 h3
        exact ⟨hsuf, by omega, by simp⟩
    cases y with
    | eintr =>
      simp only [scanLoop] at h
      obtain ⟨h1, h2, h3⟩ := ih _ _ _ _ _ _ _ _ h
      rw [okCalls_cons_other _ _ (by simp)]
      exact ⟨h1.trans hsuf, h2, h3⟩
    | err =>
      simp only [scanLoop, Prod.mk.injEq] at h
      obtain ⟨h1, h2, h3⟩ := h
      subst h1 h3
      rw [okCalls_cons_other _ _ (by simp)]
      exact ⟨hsuf, by omega, by simp⟩
    | zero =>
      simp only [scanLoop, List.isEmpty_nil, if_true] at h
      exact heof h
    | some n =>
      simp only [scanLoop] at h
      split at h
      · exact heof h
      · next hg =>
        generalize hgot : (f.drop pos).take (min (n + 1) bufsiz) = got at hg h
        have hl := congrArg List.length hgot
        simp only [List.length_take, List.length_drop] at hl
        have hgl : got.length ≠ 0 := fun e => hg (by rw [List.length_eq_zero_iff.1 e]; rfl)
        have hk := scanBuf_not_killed H p d cb hcb got.length c off last s got
        rw [okCalls_cons_some]
        split at h
        · next x1 y1 c1 o1 l1 s1 hx =>
          simp only [Prod.mk.injEq] at h
          obtain ⟨h1, h2, h3⟩ := h
          subst h1 h3
          refine ⟨hsuf, by omega, ?_⟩
          intro e; injection e with e; subst e
          exact absurd (by rw [hx]) hk
        · simp only [Prod.mk.injEq] at h
          obtain ⟨h1, h2, h3⟩ := h
          subst h1 h3
          exact ⟨hsuf, by omega, by simp⟩
        · obtain ⟨h1, h2, h3⟩ := ih _ _ _ _ _ _ _ _ h
          refine ⟨h1.trans hsuf, by omega, ?_⟩
          intro e
          obtain ⟨a, b⟩ := h3 e
          exact ⟨a, by omega⟩

end Csn.Proof
