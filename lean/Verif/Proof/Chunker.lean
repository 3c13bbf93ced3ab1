import Verif.Proof.Buz
/-
The scanner of chunker.c finds exactly the first cut of the specification.
-/
namespace Csn.Proof
open Csn Spec

/-- The discriminator that `chunker_shall_break` really uses. -/
def deff (p : Params) (d : Nat) : Nat := if p.avg = 65536 then 0xc17f else d

def NoCut (p : Params) (d : Nat) (q : Bytes) : Prop := ∀ m, ¬ Cut p.min p.max (deff p d) q m

/-- Window and hash of a chunker that has seen `q` since the last reset, `48 ≤ |q|`. -/
structure RepW (c : Chunker) (q : Bytes) : Prop where
  len : 48 ≤ q.length
  size : c.chunkSize = q.length
  fill : c.windowFill = 48
  wlen : c.window.length = 48
  win : ∀ k, q.length - 48 ≤ k → k < q.length → c.window[k % 48]? = q[k]?
  hash : c.h = buzhash (q.drop (q.length - 48))

/-- A chunker that has seen `q` since the last reset. -/
structure Rep (c : Chunker) (q : Bytes) : Prop where
  sha : c.sha = q
  wlen : c.window.length = 48
  st : (q.length < 48 ∧ c.chunkSize = q.length ∧ c.windowFill = q.length ∧
          c.window.take q.length = q ∧ c.h = 0) ∨ RepW c q

theorem rep_init : Rep Chunker.init [] := by
  refine ⟨rfl, by simp [Chunker.init], Or.inl ?_⟩
  simp [Chunker.init]

theorem rep_reset (c : Chunker) (h : c.window.length = 48) : Rep c.reset [] := by
  refine ⟨rfl, by simpa [Chunker.reset] using h, Or.inl ?_⟩
  simp [Chunker.reset]

theorem cut_append {min max d : Nat} {q x : Bytes} {n : Nat} (h : n ≤ q.length) :
    Cut min max d (q ++ x) n ↔ Cut min max d q n := by
  unfold Cut hashAt
  rw [List.take_append_of_le_length h]
  simp only [List.length_append]
  constructor
  · rintro ⟨a, _, c⟩; exact ⟨a, h, c⟩
  · rintro ⟨a, b, c⟩; exact ⟨a, by omega, c⟩

theorem noCut_nil (p : Params) (d : Nat) : NoCut p d [] := by
  rintro m ⟨a, b, _⟩
  simp at b; omega

theorem noCut_short {p : Params} {d : Nat} {q : Bytes} (h : q.length < 48) : NoCut p d q := by
  rintro m ⟨a, b, _⟩
  omega

theorem noCut_snoc {p : Params} {d : Nat} {q : Bytes} {b : UInt8} (h : NoCut p d q)
    (h2 : ¬ Cut p.min p.max (deff p d) (q ++ [b]) (q ++ [b]).length) : NoCut p d (q ++ [b]) := by
  intro m hm
  by_cases e : m ≤ q.length
  · exact h m ((cut_append e).1 hm)
  · have := hm.2.1
    have e2 : m = (q ++ [b]).length := by simp at this ⊢; omega
    rw [e2] at hm
    exact h2 hm

theorem shallBreak_spec {p : Params} {d : Nat} {c : Chunker} {q : Bytes} (hd : 0 < deff p d)
    (r : RepW c q) :
    ∃ b, shallBreak p d c = .ok b ∧ (b = true ↔ Cut p.min p.max (deff p d) q q.length) := by
  unfold shallBreak
  have hl := r.len
  have hh : hashAt q q.length = c.h.toNat := by
    unfold hashAt; rw [List.take_length, r.hash]
  by_cases h1 : c.chunkSize ≥ p.max
  · refine ⟨true, by simp [h1], ?_⟩
    rw [r.size] at h1
    simp only [true_iff]
    exact ⟨r.len, Nat.le_refl _, Or.inl h1⟩
  · by_cases h2 : c.chunkSize < p.min
    · refine ⟨false, by simp [h1, h2], ?_⟩
      rw [r.size] at h1 h2
      simp only [Bool.false_eq_true, false_iff]
      rintro ⟨_, _, h | ⟨h, _⟩⟩ <;> omega
    · have hd' : (if p.avg = 65536 then 0xc17f else d) ≠ 0 := by
        have := hd; unfold deff at this; omega
      simp only [h1, h2, if_false, if_neg hd']
      refine ⟨_, rfl, ?_⟩
      rw [r.size] at h1 h2
      simp only [decide_eq_true_eq]
      constructor
      · intro h
        refine ⟨r.len, Nat.le_refl _, Or.inr ⟨by omega, ?_⟩⟩
        rw [hh]; exact h
      · rintro ⟨_, _, h | ⟨_, h⟩⟩
        · omega
        · rw [hh] at h; exact h

theorem nextIdx_mod (n : Nat) : nextIdx (n % 48) = (n + 1) % 48 := by
  unfold nextIdx
  split <;> omega

theorem rollStep_rep {c : Chunker} {q : Bytes} (b : UInt8) (r : RepW c q) :
    RepW (rollStep c (q.length % 48) b) (q ++ [b]) := by
  have hl := r.len
  have hk : q.length - 48 < q.length := by omega
  have hx : c.window.getD (q.length % 48) 0 = q[q.length - 48] := by
    have := r.win (q.length - 48) (Nat.le_refl _) hk
    have e : (q.length - 48) % 48 = q.length % 48 := by omega
    rw [e, List.getElem?_eq_getElem hk] at this
    simp [List.getD_eq_getElem?_getD, this]
  refine ⟨by simp; omega, by simp [rollStep, r.size], r.fill, by simp [rollStep, r.wlen], ?_, ?_⟩
  · intro k h1 h2
    simp only [List.length_append, List.length_cons, List.length_nil] at h1 h2
    simp only [rollStep]
    by_cases e : k = q.length
    · subst e
      rw [List.getElem?_set_self (by rw [r.wlen]; omega)]
      simp
    · have hne : q.length % 48 ≠ k % 48 := by omega
      rw [List.getElem?_set_ne hne, r.win k (by omega) (by omega),
        List.getElem?_append_left (by omega)]
  · simp only [rollStep]
    rw [hx, r.hash]
    have e1 : q.drop (q.length - 48) = q[q.length - 48] :: q.drop (q.length - 47) := by
      rw [List.drop_eq_getElem_cons hk]
      congr 2; omega
    rw [e1, buzhash_roll _ _ _ (by simp; omega)]
    congr 1
    simp only [List.length_append, List.length_cons, List.length_nil]
    rw [List.drop_append_of_le_length (by omega)]
    congr 2

/-- What one scanner call has to return. -/
def ScanSpec (p : Params) (d : Nat) (q buf : Bytes) (consumed : Nat) (r : Option Nat × Chunker) : Prop :=
  match r with
  | (none, c') => Rep c' (q ++ buf) ∧ NoCut p d (q ++ buf)
  | (some n, c') => ∃ j, n = consumed + j ∧ j ≤ buf.length ∧
      FirstCut p.min p.max (deff p d) (q ++ buf) (q.length + j) ∧
      c'.sha = q ++ buf.take j ∧ c'.window.length = 48

theorem rollLoop_spec {p : Params} {d : Nat} (hd : 0 < deff p d) (buf : Bytes) :
    ∀ (c : Chunker) (q seen : Bytes) (consumed : Nat), RepW c q → c.sha ++ seen = q → NoCut p d q →
      ∃ r, rollLoop p d c (q.length % 48) consumed seen buf = .ok r ∧ ScanSpec p d q buf consumed r := by
  induction buf with
  | nil =>
    intro c q seen consumed hr hs hn
    refine ⟨_, rfl, ?_⟩
    simp only [ScanSpec, List.append_nil]
    exact ⟨⟨hs, hr.wlen, Or.inr ⟨hr.len, hr.size, hr.fill, hr.wlen, hr.win, hr.hash⟩⟩, hn⟩
  | cons b rest ih =>
    intro c q seen consumed hr hs hn
    have hr' := rollStep_rep b hr
    obtain ⟨t, ht, hcut⟩ := shallBreak_spec hd hr'
    have hsha : (rollStep c (q.length % 48) b).sha = c.sha := rfl
    simp only [rollLoop, ht]
    cases t with
    | true =>
      refine ⟨_, rfl, ?_⟩
      simp only [ScanSpec]
      refine ⟨1, rfl, by simp, ⟨?_, ?_⟩, ?_, hr'.wlen⟩
      · have h1 := hcut.1 rfl
        have e : q ++ b :: rest = (q ++ [b]) ++ rest := by simp
        rw [e]
        have h2 : q.length + 1 = (q ++ [b]).length := by simp
        rw [h2]
        exact (cut_append (Nat.le_refl _)).2 h1
      · intro m hm hc
        exact hn m ((cut_append (by omega)).1 hc)
      · rw [hsha, ← List.append_assoc, hs]; simp
    | false =>
      have hnc : NoCut p d (q ++ [b]) := noCut_snoc hn (fun h => by simpa using hcut.2 h)
      have hs' : (rollStep c (q.length % 48) b).sha ++ (seen ++ [b]) = q ++ [b] := by
        rw [hsha, ← List.append_assoc, hs]
      have hi : nextIdx (q.length % 48) = (q ++ [b]).length % 48 := by
        rw [nextIdx_mod]; simp
      obtain ⟨r, hr1, hr2⟩ := ih _ (q ++ [b]) (seen ++ [b]) (consumed + 1) hr' hs' hnc
      rw [hi]
      refine ⟨r, hr1, ?_⟩
      obtain ⟨o, c'⟩ := r
      cases o with
      | none => simpa [ScanSpec] using hr2
      | some n =>
        simp only [ScanSpec] at hr2 ⊢
        obtain ⟨j, h1, h2, h3, h4, h5⟩ := hr2
        refine ⟨j + 1, by omega, by simp; omega, ?_, ?_, h5⟩
        · have e : q ++ b :: rest = (q ++ [b]) ++ rest := by simp
          rw [e]
          have h6 : q.length + (j + 1) = (q ++ [b]).length + j := by simp; omega
          rw [h6]; exact h3
        · rw [h4]; simp

theorem scanTail_spec {p : Params} {d : Nat} (hd : 0 < deff p d) (c : Chunker) (q buf : Bytes)
    (consumed : Nat) (hr : RepW c q) (hs : c.sha = q)
    (hn : ∀ m, m < q.length → ¬ Cut p.min p.max (deff p d) q m) :
    ∃ r, scanTail p d c consumed buf = .ok r ∧ ScanSpec p d q buf consumed r := by
  unfold scanTail
  obtain ⟨t, ht, hcut⟩ := shallBreak_spec hd hr
  rw [ht]
  cases t with
  | true =>
    refine ⟨_, rfl, 0, rfl, by simp, ⟨?_, ?_⟩, by simp [hs], hr.wlen⟩
    · exact (cut_append (by omega)).2 (hcut.1 rfl)
    · intro m hm hc
      exact hn m (by omega) ((cut_append (by omega)).1 hc)
  | false =>
    have hnc : NoCut p d q := by
      intro m hm
      by_cases e : m < q.length
      · exact hn m e hm
      · have := hm.2.1
        have e2 : m = q.length := by omega
        rw [e2] at hm
        simpa using hcut.2 hm
    have := rollLoop_spec hd buf c q [] consumed hr (by simp [hs]) hnc
    simp only [hr.size]
    exact this

theorem bufWrite_length (b : Bytes) (k : Nat) (d : Bytes) (h : k + d.length ≤ b.length) :
    (bufWrite b k d).length = b.length := by
  unfold bufWrite
  simp only [List.length_append, List.length_take, List.length_drop]
  omega

/-- chunker.c:145-205: one scanner call on a chunker that has seen `q`. -/
theorem chunkerScan_spec {p : Params} {d : Nat} (hd : 0 < deff p d) (c : Chunker) (q buf : Bytes)
    (hr : Rep c q) (hn : NoCut p d q) :
    ∃ r, chunkerScan p d c buf = .ok r ∧ ScanSpec p d q buf 0 r := by
  unfold chunkerScan
  rcases hr.st with ⟨h1, h2, h3, h4, h5⟩ | hw
  · rw [if_pos (by omega)]
    have hq : q.length ≤ 48 := by omega
    by_cases hlt : buf.length < 48 - q.length
    · -- window not filled
      have hmin : min buf.length (48 - c.windowFill) = buf.length := by omega
      rw [hmin]
      simp only [h3]
      rw [if_pos (by omega)]
      refine ⟨_, rfl, ⟨?_, ?_, Or.inl ?_⟩, noCut_short (by simp; omega)⟩
      · simp [hr.sha]
      · simp only
        rw [bufWrite_length]
        · exact hr.wlen
        · rw [List.take_length, hr.wlen]; omega
      · refine ⟨by simp; omega, by simp [h2], by simp, ?_, h5⟩
        unfold bufWrite
        simp only [List.take_length, List.length_append, h4]
        rw [List.take_append_of_le_length (by simp), List.take_of_length_le (by simp)]
    · -- window gets full
      have hmin : min buf.length (48 - c.windowFill) = 48 - q.length := by omega
      rw [hmin]
      simp only [h3]
      rw [if_neg (by omega)]
      have hpl : (buf.take (48 - q.length)).length = 48 - q.length := by simp; omega
      have hwin : bufWrite c.window q.length (buf.take (48 - q.length)) = q ++ buf.take (48 - q.length) := by
        unfold bufWrite
        rw [h4, hpl, List.drop_of_length_le (by rw [hr.wlen]; omega), List.append_nil]
      have hlen : (q ++ buf.take (48 - q.length)).length = 48 := by simp; omega
      have hrep : RepW
          { h := c.h ^^^ initHash (bufWrite c.window q.length (buf.take (48 - q.length))),
            chunkSize := c.chunkSize + (48 - q.length),
            windowFill := q.length + (48 - q.length),
            window := bufWrite c.window q.length (buf.take (48 - q.length)),
            sha := c.sha ++ buf.take (48 - q.length) } (q ++ buf.take (48 - q.length)) := by
        refine ⟨by omega, ?_, ?_, ?_, ?_, ?_⟩
        · simp only; rw [hlen, h2]; omega
        · simp only; omega
        · simp only; rw [hwin]; exact hlen
        · intro k hk1 hk2
          rw [hlen] at hk2
          simp only [hwin]
          rw [Nat.mod_eq_of_lt hk2]
        · simp only
          rw [hwin, initHash_eq _ hlen, h5, hlen]
          simp
      have hn' : ∀ m, m < (q ++ buf.take (48 - q.length)).length →
          ¬ Cut p.min p.max (deff p d) (q ++ buf.take (48 - q.length)) m := by
        intro m hm hc
        have := hc.1
        omega
      obtain ⟨r, e1, e2⟩ := scanTail_spec hd _ (q ++ buf.take (48 - q.length))
        (buf.drop (48 - q.length)) (48 - q.length) hrep (by simp [hr.sha]) hn'
      refine ⟨r, e1, ?_⟩
      have hsplit : q ++ buf.take (48 - q.length) ++ buf.drop (48 - q.length) = q ++ buf := by
        rw [List.append_assoc, List.take_append_drop]
      obtain ⟨o, c'⟩ := r
      cases o with
      | none => simpa [ScanSpec, hsplit] using e2
      | some n =>
        simp only [ScanSpec, hsplit] at e2 ⊢
        obtain ⟨j, g1, g2, g3, g4, g5⟩ := e2
        simp only [List.length_drop] at g2
        refine ⟨48 - q.length + j, by omega, by omega, ?_, ?_, g5⟩
        · have : q.length + (48 - q.length + j) = (q ++ buf.take (48 - q.length)).length + j := by
            rw [hlen]; omega
          rw [this]; exact g3
        · rw [g4, List.append_assoc]
          congr 1
          rw [List.take_add]
  · rw [if_neg (by rw [hw.fill]; omega)]
    exact scanTail_spec hd c q buf 0 hw hr.sha (fun m _ => hn m)

end Csn.Proof
