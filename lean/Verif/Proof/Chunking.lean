import Verif.Proof.Scan
import Verif.Proof.Io
/-
Facts about the chunking specification and about collecting scans.
-/
namespace Csn.Proof
open Csn Spec

theorem firstCut_unique {mi ma d n m : Nat} {q : Bytes} (h1 : FirstCut mi ma d q n)
    (h2 : FirstCut mi ma d q m) : n = m := by
  rcases Nat.lt_trichotomy n m with h | h | h
  · exact absurd h1.1 (h2.2 n h)
  · exact h
  · exact absurd h2.1 (h1.2 m h)

theorem firstCut_nil {mi ma d n : Nat} (h : FirstCut mi ma d [] n) : False := by
  have h1 := h.1.1
  have h2 := h.1.2.1
  simp at h2; omega

theorem chunking_unique {mi ma d : Nat} {q : Bytes} {a b : List Bytes}
    (h1 : Chunking mi ma d q a) (h2 : Chunking mi ma d q b) : a = b := by
  induction h1 generalizing b with
  | empty =>
    cases h2 with
    | empty => rfl
    | last h _ => exact absurd rfl h
    | cut hf _ => exact absurd hf (fun h => firstCut_nil h)
  | last h0 hn =>
    cases h2 with
    | empty => exact absurd rfl h0
    | last _ _ => rfl
    | cut hf _ => exact absurd hf.1 (hn _)
  | @cut data n cs hf hc ih =>
    cases h2 with
    | empty => exact absurd hf (fun h => firstCut_nil h)
    | last _ hn => exact absurd hf.1 (hn _)
    | @cut _ m cs2 hf2 hc2 =>
      have := firstCut_unique hf hf2
      subst this
      rw [ih hc2]

theorem chunking_flatten {mi ma d : Nat} {q : Bytes} {a : List Bytes}
    (h : Chunking mi ma d q a) : a.flatten = q := by
  induction h with
  | empty => rfl
  | last _ _ => simp
  | cut hf hc ih => simp [ih]

theorem chunking_nonempty {mi ma d : Nat} {q : Bytes} {a : List Bytes}
    (h : Chunking mi ma d q a) : ∀ c ∈ a, c ≠ [] := by
  induction h with
  | empty => simp
  | last h0 _ => simpa using h0
  | @cut data n cs hf hc ih =>
    intro c hcm
    rcases List.mem_cons.1 hcm with h | h
    · subst h
      intro hn
      have := congrArg List.length hn
      have h1 := hf.1.1
      have h2 := hf.1.2.1
      rw [List.length_take, List.length_nil] at this; omega
    · exact ih c h

theorem chunking_le {mi ma d : Nat} {q : Bytes} {a : List Bytes}
    (h : Chunking mi ma d q a) : ∀ c ∈ a, c.length ≤ Nat.max ma 48 := by
  induction h with
  | empty => simp
  | @last data h0 hn =>
    intro c hc
    simp at hc; subst hc
    exact noCut_le (p := ⟨mi, 0, ma⟩) (d := d) (by simpa [NoCut, deff] using hn)
  | @cut data n cs hf hc ih =>
    intro c hcm
    rcases List.mem_cons.1 hcm with h | h
    · subst h
      have := firstCut_le (p := ⟨mi, 0, ma⟩) hf
      rw [List.length_take]
      exact Nat.le_trans (Nat.min_le_left _ _) this
    · exact ih c h

theorem chunking_ge {mi ma d : Nat} (hmm : mi ≤ ma) {q : Bytes} {a : List Bytes}
    (h : Chunking mi ma d q a) : ∀ c ∈ a.dropLast, Nat.max mi 48 ≤ c.length := by
  induction h with
  | empty => simp
  | last _ _ => simp
  | @cut data n cs hf hc ih =>
    intro c hcm
    cases cs with
    | nil => simp at hcm
    | cons x xs =>
      rw [List.dropLast_cons_cons] at hcm
      rcases List.mem_cons.1 hcm with h | h
      · subst h
        obtain ⟨⟨h1, h2, h3⟩, _⟩ := hf
        rw [List.length_take, Nat.min_eq_left h2]
        refine Nat.max_le.2 ⟨?_, h1⟩
        rcases h3 with h3 | h3 <;> omega
      · exact ih c h

theorem chunking_split {mi ma d : Nat} {q : Bytes} {a b : List Bytes}
    (h : Chunking mi ma d q (a ++ b)) : Chunking mi ma d (q.drop a.flatten.length) b := by
  induction a generalizing q with
  | nil => simpa using h
  | cons x xs ih =>
    generalize hl : x :: xs ++ b = l at h
    cases h with
    | empty => simp at hl
    | last h0 hn =>
      simp only [List.cons_append, List.cons.injEq, List.append_eq_nil_iff] at hl
      obtain ⟨hx, hxs, hb⟩ := hl
      subst hx hxs hb
      simp only [List.flatten_cons, List.flatten_nil, List.append_nil, List.drop_length]
      exact .empty
    | @cut _ n cs hf hc =>
      simp only [List.cons_append, List.cons.injEq] at hl
      obtain ⟨hx, hcs⟩ := hl
      subst hx hcs
      have h2 := hf.1.2.1
      have := ih hc
      simp only [List.flatten_cons, List.length_append, List.length_take, Nat.min_eq_left h2]
      rwa [List.drop_drop] at this

/-- Callback that collects the reported segments. -/
def collect (l : List Seg) (x : Seg) : CbRes (List Seg) := .ok (l ++ [x])

theorem runCb_collect (l : List Seg) (xs : List Seg) : runCb collect l xs = (.ok, l ++ xs) := by
  induction xs generalizing l with
  | nil => simp [runCb]
  | cons x xs ih => simp [runCb, collect, ih]

theorem scanBuf_not_killed {σ : Type} (H : Bytes → Id) (p : Params) (d : Nat)
    (cb : σ → Seg → CbRes σ) (hcb : ∀ s x s', cb s x ≠ .stop .killed s') :
    ∀ (fuel : Nat) (c : Chunker) (o l : Nat) (s : σ) (buf : Bytes),
      (scanBuf H p d cb fuel c o l s buf).1 ≠ .stop .killed := by
  have hsb : ∀ c x, shallBreak p d c = .stop x → x ≠ .killed := by
    intro c x h
    unfold shallBreak at h
    by_cases h1 : c.chunkSize ≥ p.max
    · simp [h1] at h
    · by_cases h2 : c.chunkSize < p.min
      · simp [h1, h2] at h
      · by_cases h3 : (if p.avg = 65536 then 0xc17f else d) = 0
        · simp only [h1, h2, h3, if_false, if_true] at h
          injection h with h; subst h; simp
        · simp only [h1, h2, h3, if_false] at h
          cases h
  have hroll : ∀ (buf : Bytes) c i n seen x, rollLoop p d c i n seen buf = .stop x → x ≠ .killed := by
    intro buf
    induction buf with
    | nil => intro c i n seen x h; simp [rollLoop] at h
    | cons b r ih =>
      intro c i n seen x h
      simp only [rollLoop] at h
      split at h
      · next h' => injection h with h; subst h; exact hsb _ _ h'
      · cases h
      · exact ih _ _ _ _ _ h
  have htail : ∀ c n buf x, scanTail p d c n buf = .stop x → x ≠ .killed := by
    intro c n buf x h
    unfold scanTail at h
    split at h
    · next h' => injection h with h; subst h; exact hsb _ _ h'
    · cases h
    · exact hroll _ _ _ _ _ _ h
  have hscan : ∀ c buf x, chunkerScan p d c buf = .stop x → x ≠ .killed := by
    intro c buf x h
    unfold chunkerScan at h
    split at h
    · simp only at h
      split at h
      · cases h
      · exact htail _ _ _ _ h
    · exact htail _ _ _ _ h
  intro fuel
  induction fuel with
  | zero => intro c o l s buf; unfold scanBuf; split <;> simp
  | succ fuel ih =>
    intro c o l s buf
    unfold scanBuf
    split
    · simp
    · simp only
      split
      · next h => simp; exact hscan _ _ _ h
      · simp
      · split
        · next h =>
          intro h2
          simp at h2
          subst h2
          exact hcb _ _ _ h
        · simp
        · exact ih _ _ _ _ _

theorem scanLoop_killed {σ : Type} (H : Bytes → Id) (p : Params) (d bufsiz : Nat) (hb : 0 < bufsiz)
    (cb : σ → Seg → CbRes σ) (hcb : ∀ s x s', cb s x ≠ .stop .killed s') (f : Bytes) :
    ∀ (sys : List Sys) (c : Chunker) (pos o l : Nat) (s : σ),
      (scanLoop H p d bufsiz cb f c pos o l s sys).1 = .stop .killed →
      okCalls sys + pos ≤ f.length ∨ okCalls sys = 0 := by
  intro sys
  induction sys with
  | nil => intro c pos o l s _; right; rfl
  | cons y ys ih =>
    intro c pos o l s h
    cases y with
    | eintr => exact ih c pos o l s h
    | err => simp [scanLoop] at h
    | zero =>
      simp only [scanLoop, List.isEmpty_nil, if_true] at h
      split at h
      · split at h
        · next h' => simp at h; subst h; exact absurd h' (hcb _ _ _)
        · simp at h
        · simp at h
      · simp at h
    | some n =>
      simp only [scanLoop] at h
      split at h
      · split at h
        · split at h
          · next h' => simp at h; subst h; exact absurd h' (hcb _ _ _)
          · simp at h
          · simp at h
        · simp at h
      · next hg =>
        have hgl : 0 < ((f.drop pos).take (min (n + 1) bufsiz)).length := by
          refine Nat.pos_of_ne_zero (fun h => hg ?_)
          rw [List.isEmpty_iff]; exact List.length_eq_zero_iff.1 h
        generalize hgot : (f.drop pos).take (min (n + 1) bufsiz) = got at h hgl
        have hle : pos + got.length ≤ f.length := by
          have := congrArg List.length hgot
          simp only [List.length_take, List.length_drop] at this
          omega
        have hok : okCalls (.some n :: ys) = okCalls ys + 1 := by simp [okCalls]
        split at h
        · next h' =>
          simp at h; subst h
          exact absurd (by rw [h']) (scanBuf_not_killed H p d cb hcb got.length c o l s got)
        · simp at h
        · rcases ih _ _ _ _ _ h with h | h
          · left; omega
          · left; omega

end Csn.Proof
