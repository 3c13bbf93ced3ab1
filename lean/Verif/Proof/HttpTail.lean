import Verif.Proof.Http
/-
A response changes the start of the output buffer and nothing else, whatever the server and the decompressor do.
-/
namespace Csn.Proof
open Csn Spec

/-- Behind what was written, the buffer is as before. -/
structure Tail (o : Bytes) (r : Req) : Prop where
  len : r.out.length = o.length
  written : r.written ≤ o.length
  rest : r.out.drop r.written = o.drop r.written

theorem wp_absorb_out {env : Env} {ks : Option (Nat → UInt8)} {r : Req} {data : Bytes} {w : World} :
    wp (absorb env ks r data) (fun a _ => a.2.out = r.out ∧ a.2.written = r.written) (fun _ _ => True) w := by
  unfold absorb
  have key : ∀ (size : Nat) (w1 : World),
      wp (match ks with
        | some k =>
          match encryptDo k env.evp0 r.kpos data with
          | none => pure (false, { r with size := size })
          | some d =>
            if d.length < data.length then M.stop .ub
            else if r.fill.length + data.length > size then M.stop .ub
            else pure (true, { r with size := size, fill := r.fill ++ d, kpos := r.kpos + d.length })
        | none =>
          if r.fill.length + data.length > size then M.stop .ub
          else pure (true, { r with size := size, fill := r.fill ++ data }) : M (Bool × Req))
      (fun a _ => a.2.out = r.out ∧ a.2.written = r.written) (fun _ _ => True) w1 := by
    intro size w1
    cases ks with
    | none =>
      simp only
      split
      · trivial
      · exact wp_pure ⟨rfl, rfl⟩
    | some k =>
      simp only
      cases encryptDo k env.evp0 r.kpos data with
      | none => exact wp_pure ⟨rfl, rfl⟩
      | some d =>
        simp only
        split
        · trivial
        · split
          · trivial
          · exact wp_pure ⟨rfl, rfl⟩
  by_cases hlt : (r.size + 2 ^ 64 - r.fill.length) % 2 ^ 64 < data.length
  · simp only [hlt, if_true]
    by_cases hge : (r.size + data.length) % 2 ^ 64 < r.size
    · simp only [hge, if_true]
      exact wp_bind (wp_pure (wp_pure ⟨rfl, rfl⟩))
    · simp only [hge, if_false]
      refine wp_bind (wp_alloc ?_)
      cases ha : (allocPure ((r.size + data.length) % 2 ^ 64) w.mem).1 with
      | false =>
        simp only [Bool.not_false, if_true]
        exact wp_bind (wp_pure (wp_pure ⟨rfl, rfl⟩))
      | true =>
        simp only [Bool.not_true, Bool.false_eq_true, if_false]
        exact wp_bind (wp_pure (key _ _))
  · simp only [hlt, if_false]
    exact wp_bind (wp_pure (key _ _))

theorem Tail.wrote {o : Bytes} {r : Req} (h : Tail o r) {d : Bytes} (hd : d.length ≤ r.out.length - r.written) (hist : List (Nat × Bytes)) (st : HState) :
    Tail o { r with st := st, hist := hist, written := r.written + d.length, out := bufWrite r.out r.written d } := by
  obtain ⟨h1, h2, h3⟩ := h
  refine ⟨?_, ?_, ?_⟩
  · simp only [bufWrite, List.length_append, List.length_take, List.length_drop]; omega
  · simp only; omega
  · simp only [bufWrite]
    rw [List.drop_append, List.drop_eq_nil_of_le (by simp; omega), ← List.drop_drop]
    have : (List.take r.written r.out ++ d).length = r.written + d.length := by simp; omega
    rw [this, Nat.sub_self, List.drop_zero, List.nil_append, h3, List.drop_drop]

theorem wp_handleData_tail {env : Env} {o : Bytes} {r : Req} {data : Bytes} {w : World} (hr : Tail o r) :
    wp (handleData env r data) (fun a _ => Tail o a.2) (fun _ _ => True) w := by
  have run : ∀ (r' : Req) (w : World), Tail o r' →
      wp (do
        if r'.st ≠ .streaming then M.stop .abort
        let room := r'.out.length - r'.written
        match env.zstd r'.hist room data with
        | none => return (none, { r' with hist := r'.hist ++ [(room, data)] })
        | some (k, o) =>
          if o.length > room ∨ k > data.length then M.stop .ub
          else return (some k, { r' with
            hist := r'.hist ++ [(room, data)]
            written := r'.written + o.length
            out := bufWrite r'.out r'.written o }) : M (Option Nat × Req))
        (fun a _ => Tail o a.2) (fun _ _ => True) w := by
    intro r' w h
    have rest : ∀ w, wp (match env.zstd r'.hist (r'.out.length - r'.written) data with
        | none => return (none, { r' with hist := r'.hist ++ [(r'.out.length - r'.written, data)] })
        | some (k, o) =>
          if o.length > r'.out.length - r'.written ∨ k > data.length then M.stop .ub
          else return (some k, { r' with
            hist := r'.hist ++ [(r'.out.length - r'.written, data)]
            written := r'.written + o.length
            out := bufWrite r'.out r'.written o }) : M (Option Nat × Req))
        (fun a _ => Tail o a.2) (fun _ _ => True) w := by
      intro w
      split
      · exact wp_pure ⟨h.len, h.written, h.rest⟩
      · split
        · trivial
        · next hc => exact wp_pure (h.wrote (by omega) _ _)
    split
    · trivial
    · exact rest w
  unfold handleData
  simp only
  split
  · split
    · exact wp_pure hr
    · split
      · exact run { r with st := .streaming } w ⟨hr.len, hr.written, hr.rest⟩
      · exact wp_pure hr
  · exact run r w hr

theorem Tail.same {o : Bytes} {r r' : Req} (h : Tail o r) (h1 : r'.out = r.out) (h2 : r'.written = r.written) : Tail o r' :=
  ⟨by rw [h1]; exact h.len, by rw [h2]; exact h.written, by rw [h1, h2]; exact h.rest⟩

theorem wp_dataCb_tail {env : Env} {ks : Option (Nat → UInt8)} {http : Option Nat} {o : Bytes} {r : Req} {frag : Bytes} {w : World} (hr : Tail o r) :
    wp (dataCb env ks http r frag) (fun a _ => Tail o a.2) (fun _ _ => True) w := by
  unfold dataCb
  simp only
  split
  · exact wp_pure (hr.same rfl rfl)
  · split
    · exact wp_pure hr
    · split
      · refine wp_bind (wp_mono wp_absorb_out (fun a w1 g => ?_) (fun _ _ _ => trivial))
        obtain ⟨b, r1⟩ := a
        have g := hr.same g.1 g.2
        cases b with
        | false => exact wp_pure (g.same rfl rfl)
        | true =>
          simp only
          refine wp_bind (wp_mono (wp_handleData_tail g) (fun a w2 e => ?_) (fun _ _ _ => trivial))
          obtain ⟨k, r2⟩ := a
          cases k with
          | none => exact wp_pure (Tail.same e rfl rfl)
          | some k => exact wp_pure (Tail.same e rfl rfl)
      · refine wp_bind (wp_mono (wp_handleData_tail hr) (fun a w1 e => ?_) (fun _ _ _ => trivial))
        obtain ⟨k, r1⟩ := a
        cases k with
        | none => exact wp_pure (Tail.same e rfl rfl)
        | some k =>
          simp only
          split
          · refine wp_bind (wp_mono wp_absorb_out (fun a w2 g => ?_) (fun _ _ _ => trivial))
            obtain ⟨b, r2⟩ := a
            have g := Tail.same e g.1 g.2
            cases b with
            | false => exact wp_pure (g.same rfl rfl)
            | true => exact wp_pure g
          · exact wp_pure e

theorem wp_deliver_tail {env : Env} {ks : Option (Nat → UInt8)} {http : Option Nat} {o : Bytes} (fs : List Bytes) : ∀ (r : Req) (w : World), Tail o r →
    wp (deliver env ks http r fs) (fun a _ => Tail o a.2) (fun _ _ => True) w := by
  induction fs with
  | nil => intro r w hr; exact wp_pure hr
  | cons f fs ih =>
    intro r w hr
    unfold deliver
    refine wp_bind (wp_mono (wp_dataCb_tail hr) (fun a w1 g => ?_) (fun _ _ _ => trivial))
    obtain ⟨k, r1⟩ := a
    simp only
    split
    · exact wp_pure g
    · exact ih r1 w1 g

theorem wp_perform_tail {env : Env} {ks : Option (Nat → UInt8)} {url : Bytes} {o : Bytes} {r : Req} {w : World} (hr : Tail o r) :
    wp (perform env ks url r) (fun a _ => Tail o a.2.2) (fun _ _ => True) w := by
  unfold perform
  refine wp_bind (wp_emit ?_)
  apply wp_bind
  cases hn : w.net with
  | nil => simp only [wp]
  | cons f rest =>
    simp only [wp]
    exact wp_bind (wp_mono (wp_deliver_tail (f url).frags r _ hr) (fun a w1 g => wp_pure g) (fun _ _ _ => trivial))

theorem wp_retried_tail {env : Env} {ks : Option (Nat → UInt8)} {url : Bytes} {o : Bytes} (m : Nat) : ∀ (wait : Nat) (r : Req) (w : World), Tail o r →
    wp (retried env ks url m wait r) (fun a _ => Tail o a.2.2) (fun _ _ => True) w := by
  induction m with
  | zero =>
    intro wait r w hr
    unfold retried
    refine wp_bind (wp_mono (wp_perform_tail hr) (fun a w1 g => ?_) (fun _ _ _ => trivial))
    obtain ⟨code, http, r1⟩ := a
    simp only
    split
    · exact wp_pure g
    · exact wp_bind (wp_emit (wp_pure g))
  | succ m ih =>
    intro wait r w hr
    unfold retried
    refine wp_bind (wp_mono (wp_perform_tail hr) (fun a w1 g => ?_) (fun _ _ _ => trivial))
    obtain ⟨code, http, r1⟩ := a
    simp only
    split
    · exact wp_pure g
    · exact wp_bind (wp_emit (ih _ r1 _ g))

theorem httpJudge_tail (env : Env) (h : Http) (id : Id) (code : Nat) (http : Option Nat) (r : Req) :
    (httpJudge env h id code http r).2.2 = r.out ∧ ∀ n, (httpJudge env h id code http r).1 = some (n + 1) → r.written = n + 1 ∧ env.H (r.out.take r.written) = id := by
  unfold httpJudge increaseErr
  simp only
  repeat' split
  all_goals refine ⟨rfl, ?_⟩
  all_goals intro n hn
  all_goals simp at hn
  all_goals (try (next hh => exact ⟨hn, Classical.not_not.1 hh⟩))

/-- What `store_http_get_chunk` leaves in the buffer. -/
theorem wp_httpGet_tail {env : Env} {h : Http} {id : Id} {out : Bytes} {w : World} :
    wp (httpGet env h id out)
      (fun a _ => a.2.2.length = out.length ∧ ∀ n, a.1 = some (n + 1) → n + 1 ≤ out.length ∧ env.H (a.2.2.take (n + 1)) = id ∧ a.2.2.drop (n + 1) = out.drop (n + 1))
      (fun _ _ => True) w := by
  unfold httpGet
  simp only
  split
  · trivial
  · refine wp_bind (wp_alloc ?_)
    split
    · exact wp_pure ⟨rfl, (nofun)⟩
    · refine wp_bind (wp_mono (wp_retried_tail (o := out) 9 200000 _ _ ⟨rfl, Nat.zero_le _, rfl⟩) (fun a w1 g => ?_) (fun _ _ _ => trivial))
      obtain ⟨code, http, r1⟩ := a
      obtain ⟨j1, j2⟩ := httpJudge_tail env h id code http r1
      refine wp_pure ⟨by rw [j1]; exact g.len, fun n hn => ?_⟩
      obtain ⟨e1, e2⟩ := j2 n hn
      have g2 := g.written
      have g3 := g.rest
      rw [e1] at e2 g2 g3
      exact ⟨g2, by rw [j1]; exact e2, by rw [j1]; exact g3⟩

end Csn.Proof
