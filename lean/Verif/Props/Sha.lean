import Verif.Model.Sha
/-
C54: hashing through the kernel interface.
-/
namespace Csn.Props
open Csn

theorem sendLoop_spec : ∀ (sys : List Sys) (rest acc : Bytes), ∃ o r, sendLoop rest acc sys = (o, r) ∧ r <:+ sys ∧
    (∀ b rest' acc', o = some (b, rest', acc') → acc' ++ rest' = acc ++ rest ∧ (b = true → rest' = []) ∧ (b = false → Sys.err ∈ sys)) ∧
    (o = none → r = [])
  | [], rest, acc => by
    unfold sendLoop
    refine ⟨_, _, rfl, List.suffix_refl _, ?_, fun _ => rfl⟩
    intro b rest' acc' h
    split at h
    · cases h
      exact ⟨rfl, fun _ => by simpa using ‹rest.isEmpty = true›, by simp⟩
    · cases h
  | s :: r, rest, acc => by
    unfold sendLoop
    by_cases he : rest.isEmpty = true
    · rw [if_pos he]
      refine ⟨_, _, rfl, List.suffix_refl _, ?_, by simp⟩
      intro b rest' acc' h
      cases h
      exact ⟨rfl, fun _ => by simpa using he, by simp⟩
    · rw [if_neg he]
      have step : ∀ {rest2 acc2 : Bytes}, acc2 ++ rest2 = acc ++ rest → ∃ o r', sendLoop rest2 acc2 r = (o, r') ∧ r' <:+ s :: r ∧
          (∀ b rest' acc', o = some (b, rest', acc') → acc' ++ rest' = acc ++ rest ∧ (b = true → rest' = []) ∧ (b = false → Sys.err ∈ s :: r)) ∧ (o = none → r' = []) := by
        intro rest2 acc2 hh
        obtain ⟨o, r', h1, h2, h3, h4⟩ := sendLoop_spec r rest2 acc2
        refine ⟨o, r', h1, h2.trans (List.suffix_cons _ _), ?_, h4⟩
        intro b rest' acc' ho
        obtain ⟨g1, g2, g3⟩ := h3 b rest' acc' ho
        exact ⟨by rw [g1, hh], g2, fun hb => List.mem_cons_of_mem _ (g3 hb)⟩
      cases s with
      | eintr => exact step rfl
      | zero => exact step rfl
      | some k => exact step (by rw [List.append_assoc, List.take_append_drop])
      | err =>
        refine ⟨_, _, rfl, List.suffix_cons _ _, ?_, by simp⟩
        intro b rest' acc' h
        cases h
        exact ⟨rfl, by simp, by simp⟩

/-- What is needed of the hash functions: digests of 32 bytes. -/
def Digests (H : Bytes → Bytes) : Prop := ∀ b, (H b).length = 32

theorem bufWrite_all {H : Bytes → Bytes} (hH : Digests H) {out : Bytes} (ho : out.length = 32) (b : Bytes) : bufWrite out 0 (H b) = H b := by
  unfold bufWrite
  rw [List.take_zero, List.nil_append, hH b, Nat.zero_add, List.drop_eq_nil_of_le (by omega), List.append_nil]

theorem bufWrite_len32 {out d : Bytes} (ho : out.length = 32) (hd : d.length ≤ 32) : (bufWrite out 0 d).length = 32 := by
  unfold bufWrite
  simp
  omega

theorem recvLoop_spec {H : Bytes → Bytes} (hH : Digests H) (b : Bytes) {out : Bytes} (ho : out.length = 32) : ∀ sys : List Sys,
    (recvLoop (H b) out sys).2.1.length = 32 ∧ ((recvLoop (H b) out sys).1 = some true → (recvLoop (H b) out sys).2.1 = H b)
  | [] => ⟨ho, by simp [recvLoop]⟩
  | .eintr :: r => by
    unfold recvLoop
    exact recvLoop_spec hH b ho r
  | .err :: r => ⟨ho, by simp [recvLoop]⟩
  | .zero :: r => ⟨ho, by simp [recvLoop]⟩
  | .some k :: r => by
    unfold recvLoop
    dsimp only
    refine ⟨bufWrite_len32 ho (by simp [hH b]; omega), fun h => ?_⟩
    simp only [Option.some.injEq, decide_eq_true_eq] at h
    rw [h, List.take_of_length_le (by rw [hH b]; exact Nat.le_refl _)]
    exact bufWrite_all hH ho b

/-- **C54** (partial): hashing in user space is SHA-256.  Hashing in the kernel is, too, provided the driver computes SHA-256,
nothing is left over from an earlier call and the call does not end up disabling the kernel interface (which is what any
failing call or short digest leads to); interrupted calls and partially accepted data do not matter, and nothing is left
over afterwards.  Missing, since false: calls that fall back to user space after a transfer (`C54_refuted`). -/
theorem C54_digest_partial (H K : Bytes → Bytes) (hH : Digests H) (st : Kcapi) (data out : Bytes) (ho : out.length = 32) (sys : List Sys) (d : Bytes) (st' : Kcapi) (r : List Sys)
    (hrun : shaOnce H K st data out sys = (some d, st', r)) (hst : st.on = true → st.acc = [] ∧ K = H)
    (hkeep : st'.on = st.on) : d = H data ∧ st' = st := by
  unfold shaOnce at hrun
  by_cases hon : st.on = false
  · rw [if_pos hon, bufWrite_all hH ho] at hrun
    cases hrun
    exact ⟨rfl, rfl⟩
  · rw [if_neg hon] at hrun
    have hon' : st.on = true := by simpa using hon
    obtain ⟨hacc, rfl⟩ := hst hon'
    rw [hon'] at hkeep
    obtain ⟨o, r1, h1, h2, h3, h4⟩ := sendLoop_spec sys data st.acc
    rw [h1] at hrun
    match o, h1, h3, hrun with
    | none, _, _, hrun => simp at hrun
    | some (false, rest, acc), _, h3, hrun =>
      simp only [Prod.mk.injEq] at hrun
      rw [← hrun.2.1] at hkeep
      cases hkeep
    | some (true, rest, acc), _, h3, hrun =>
      simp only at hrun
      obtain ⟨g1, g2, _⟩ := h3 _ _ _ rfl
      have hr := recvLoop_spec hH acc ho r1
      generalize recvLoop (K acc) out r1 = q at hrun hr
      obtain ⟨a, o2, r2⟩ := q
      match a, hrun, hr with
      | none, hrun, _ => simp at hrun
      | some false, hrun, _ =>
        simp only [Prod.mk.injEq] at hrun
        rw [← hrun.2.1] at hkeep
        cases hkeep
      | some true, hrun, hr =>
        simp only [Prod.mk.injEq, Option.some.injEq] at hrun
        obtain ⟨rfl, rfl, _⟩ := hrun
        rw [g2 rfl, hacc, List.append_nil, List.nil_append] at g1
        refine ⟨by rw [← g1]; exact hr.2 rfl, ?_⟩
        cases st
        simp only at hacc hon'
        rw [hacc, hon']

/-- **C54** (partial), immediate failure: if the kernel refuses the first byte, the digest is right. -/
theorem C54_early_failure_partial (H K : Bytes → Bytes) (hH : Digests H) (st : Kcapi) (data out : Bytes) (ho : out.length = 32) (n : Nat) (r : List Sys) (hdata : data ≠ []) :
    (shaOnce H K st data out (List.replicate n .eintr ++ .err :: r)).1 = some (H data) := by
  unfold shaOnce
  by_cases hon : st.on = false
  · rw [if_pos hon, bufWrite_all hH ho]
  · rw [if_neg hon]
    have : sendLoop data st.acc (List.replicate n .eintr ++ .err :: r) = (some (false, data, st.acc), r) := by
      have he : ¬ data.isEmpty = true := by simpa using hdata
      induction n with
      | zero =>
        show sendLoop data st.acc (.err :: r) = _
        unfold sendLoop
        rw [if_neg he]
      | succ n ih =>
        show sendLoop data st.acc (.eintr :: (List.replicate n .eintr ++ .err :: r)) = _
        unfold sendLoop
        rw [if_neg he]
        exact ih
    rw [this]
    simp only [bufWrite_all hH ho]

/-- **C54**, afterwards: once a call has failed, the kernel is not used any more, and all later digests are SHA-256 whatever
happens. -/
theorem C54_disabled_for_good (H K : Bytes → Bytes) (hH : Digests H) (st : Kcapi) (data out : Bytes) (ho : out.length = 32) (sys : List Sys) (d : Bytes) (st' : Kcapi) (r : List Sys)
    (hrun : shaOnce H K st data out sys = (some d, st', r)) (hst : st.on = true → st.acc = [] ∧ K = H) (hbad : d ≠ H data) :
    ∀ data' out' sys', out'.length = 32 → shaOnce H K st' data' out' sys' = (some (H data'), st', sys') := by
  have hoff : st'.on = false := by
    rw [← Bool.not_eq_true]
    intro h
    by_cases hon : st.on = true
    · exact hbad (C54_digest_partial H K hH st data out ho sys d st' r hrun hst (h.trans hon.symm)).1
    · unfold shaOnce at hrun
      rw [if_pos (by simpa using hon)] at hrun
      cases hrun
      exact hon h
  intro data' out' sys' ho'
  unfold shaOnce
  rw [if_pos hoff, bufWrite_all hH ho']

/-- **C54 refuted in full**: whatever the hash function distinguishes, a failure after a partial transfer (or when the digest is
collected) yields the hash of the rest only - of nothing in the second case. -/
theorem C54_refuted (H : Bytes → Bytes) (hH : Digests H) (data out : Bytes) (ho : out.length = 32) (k : Nat) (hk : k < data.length) (r : List Sys) :
    (shaOnce H H ⟨true, []⟩ data out (.some k :: .err :: r)).1 = some (H (data.drop (k + 1))) := by
  unfold shaOnce
  rw [if_neg (by simp)]
  have h1 : ¬ data.isEmpty = true := by
    intro h
    rw [List.isEmpty_iff] at h
    rw [h] at hk; simp at hk
  unfold sendLoop
  rw [if_neg h1]
  simp only [List.nil_append]
  by_cases h2 : (data.drop (k + 1)).isEmpty = true
  · unfold sendLoop
    rw [if_pos h2]
    simp only [recvLoop, bufWrite_all hH ho]
  · unfold sendLoop
    rw [if_neg h2]
    simp only [bufWrite_all hH ho]

/-- A hash function that is injective on inputs of up to 31 bytes. -/
def padHash (b : Bytes) : Bytes := (b ++ 0x80 :: List.replicate 31 0).take 32

theorem padHash_digests : Digests padHash := fun b => by
  unfold padHash
  simp

/-- ... which is the wrong digest for a function that is injective on short inputs, like this one. -/
example : (shaOnce padHash padHash ⟨true, []⟩ [1, 2, 3, 4] (List.replicate 32 9) [.some 1, .err]).1 = some (padHash [3, 4]) ∧
    (shaOnce padHash padHash ⟨true, []⟩ [1, 2, 3, 4] (List.replicate 32 9) [.some 3, .eintr, .some 30]).1 = some (padHash []) ∧
    (shaOnce padHash padHash ⟨true, []⟩ [1, 2, 3, 4] (List.replicate 32 9) [.some 1, .eintr, .zero, .some 8, .eintr, .some 31]) = (some (padHash [1, 2, 3, 4]), ⟨true, []⟩, []) := by decide

end Csn.Props
