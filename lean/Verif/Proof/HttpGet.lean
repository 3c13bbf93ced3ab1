import Verif.Proof.Http
/-
`store_http_get_chunk`, whatever the server does.
-/
namespace Csn.Proof
open Csn Spec

theorem hexDigit_eq : ∀ n, n < 16 → hexDigit n = (str "0123456789abcdef").getD n 0 := by decide

theorem hex2_eq (b : UInt8) : hex2 b =
    [(str "0123456789abcdef").getD (b.toNat / 16) 0, (str "0123456789abcdef").getD (b.toNat % 16) 0] := by
  have := b.toNat_lt
  unfold hex2
  rw [hexDigit_eq _ (by omega), hexDigit_eq _ (by omega)]

theorem formatId_eq (id : Id) : formatId id = hexString id := by
  unfold formatId hexString
  congr 1
  funext b
  exact hex2_eq b

theorem hexString_length (id : Id) : (hexString id).length = 2 * id.length := by
  unfold hexString
  induction id with
  | nil => rfl
  | cons b r ih => simp only [List.flatMap_cons, List.length_append, ih, List.length_cons, List.length_nil]; omega

theorem urlOf_eq (h : Http) (id : Id) (hid : 2 ≤ id.length) : urlOf h id = chunkUrl h.base h.key.isSome id := by
  unfold urlOf chunkUrl
  rw [formatId_eq]
  match id, hid with
  | a :: b :: r, _ =>
    have : (hexString (a :: b :: r)).take 4 = hex2 a ++ hex2 b := by
      rw [hex2_eq, hex2_eq]; simp [hexString]
    rw [this]
    simp

theorem urlOf_length (h : Http) (id : Id) (hid : id.length = 32) :
    (urlOf h id).length = h.base.length + if h.key.isSome then 80 else 76 := by
  rw [urlOf_eq h id (by omega)]
  unfold chunkUrl
  have h1 : (str "/").length = 1 := rfl
  have h2 : (str ".cacnk").length = 6 := rfl
  have h3 : (str ".enc").length = 4 := rfl
  cases h.key.isSome <;>
    simp only [List.length_append, List.length_take, hexString_length, hid, h1, h2, h3, if_true, if_false,
      Bool.false_eq_true, List.length_nil] <;> omega

/-- The state of a fresh request (store-http.c:277-300). -/
def freshReq (h : Http) (out : Bytes) : Req := ⟨.started, [], 0, out, [], h.size, 0⟩

/-- The result of a request. -/
def resultOf (H : Bytes → Id) (e : Nat) (id : Id) (written : Nat) (out' : Bytes) : Verdict → Option Nat
  | .counted => if e + 1 > 10 then none else some 0
  | .broken => none
  | .missing => some 0
  | .invalid => some 0
  | .processed => if H (out'.take written) = id then some written else some 0

/-- What a request that reached the network does to the store and returns. -/
structure Judged (H : Bytes → Id) (h : Http) (id : Id) (v : Verdict) (written : Nat) (res : Option Nat) (h' : Http) (out' : Bytes) : Prop where
  base : h'.base = h.base
  key : h'.key = h.key
  err : h'.err = errAfter h.err v
  res : res = resultOf H h.err id written out' v

theorem httpJudge_elim {env : Env} {h : Http} {id : Id} {code : Nat} {http : Option Nat} {r : Req} (herr : h.err < 2 ^ 32 - 1)
    {Q : Option Nat × Http × Bytes → Prop} (fin : ∀ (res : Option Nat) (h' : Http), h'.size = r.size →
      Judged env.H h id (verdict code http (decide (r.st = .streaming))) r.written res h' r.out → Q (res, h', r.out)) :
    Q (httpJudge env h id code http r) := by
  unfold httpJudge
  have hinc : ((h.err + 1) % 2 ^ 32) = h.err + 1 := Nat.mod_eq_of_lt (by omega)
  unfold verdict at fin
  by_cases ht : TransientCode code
  · simp only [(transient_iff _).mpr ht, if_true]
    simp only [if_pos ht] at fin
    refine fin _ _ ?_ ?_
    · rfl
    · exact ⟨rfl, rfl, by simp only [increaseErr, hinc, errAfter], by simp only [increaseErr, hinc, resultOf]⟩
  · have ht' : transient code = false := by
      cases hh : transient code with
      | false => rfl
      | true => exact absurd ((transient_iff _).mp hh) ht
    simp only [ht', Bool.false_eq_true, if_false]
    simp only [if_neg ht] at fin
    by_cases hc : code ≠ 0 ∧ code ≠ 23
    · rw [if_pos hc]
      simp only [if_pos hc] at fin
      exact fin _ _ rfl ⟨rfl, rfl, rfl, rfl⟩
    · rw [if_neg hc]
      simp only [if_neg hc] at fin
      cases hh : http with
      | none =>
        simp only [hh] at fin ⊢
        exact fin _ _ rfl ⟨rfl, rfl, rfl, rfl⟩
      | some c =>
        simp only [hh] at fin ⊢
        by_cases h4 : c = 404 ∨ c = 410
        · rw [if_pos h4]
          simp only [if_pos h4] at fin
          exact fin _ _ rfl ⟨rfl, rfl, rfl, rfl⟩
        · rw [if_neg h4]
          simp only [if_neg h4] at fin
          by_cases h5 : 400 ≤ c
          · rw [if_pos h5]
            simp only [if_pos h5] at fin
            refine fin _ _ ?_ ?_
            · rfl
            · exact ⟨rfl, rfl, by simp only [increaseErr, hinc, errAfter], by simp only [increaseErr, hinc, resultOf]⟩
          · rw [if_neg h5]
            simp only [if_neg h5] at fin
            cases hst : r.st with
            | started =>
              simp only [hst, true_or, if_true, reduceCtorEq, decide_false, Bool.false_eq_true, if_false] at fin ⊢
              exact fin _ { h with size := r.size } rfl ⟨rfl, rfl, rfl, rfl⟩
            | failed =>
              simp only [hst, or_true, if_true, reduceCtorEq, decide_false, Bool.false_eq_true, if_false] at fin ⊢
              exact fin _ { h with size := r.size } rfl ⟨rfl, rfl, rfl, rfl⟩
            | streaming =>
              simp only [hst, reduceCtorEq, or_self, if_false, decide_true, if_true] at fin ⊢
              by_cases hH : env.H (r.out.take r.written) = id
              · rw [if_neg (by simp [hH])]
                exact fin _ _ rfl ⟨rfl, rfl, rfl, by simp only [resultOf, hH, if_true]⟩
              · rw [if_pos hH]
                exact fin _ _ rfl ⟨rfl, rfl, rfl, by simp only [resultOf, hH, if_false]⟩

theorem httpJudge_spec (env : Env) (h : Http) (id : Id) (code : Nat) (http : Option Nat) (r : Req) (herr : h.err < 2 ^ 32 - 1) :
    (httpJudge env h id code http r).2.1.size = r.size ∧ (httpJudge env h id code http r).2.2 = r.out ∧
    Judged env.H h id (verdict code http (decide (r.st = .streaming))) r.written (httpJudge env h id code http r).1
      (httpJudge env h id code http r).2.1 r.out :=
  httpJudge_elim (Q := fun a => a.2.1.size = r.size ∧ a.2.2 = r.out ∧
    Judged env.H h id (verdict code http (decide (r.st = .streaming))) r.written a.1 a.2.1 r.out) herr
    (fun _ _ e1 e2 => ⟨e1, rfl, e2⟩)

theorem wp_httpGet {env : Env} (hz : Sane env) {h : Http} {id : Id} {out : Bytes} {w : World}
    (hs : ShortFrags w.net) (hsz : h.size < 2 ^ 63) (hid : id.length = 32) (herr : h.err < 2 ^ 32 - 1) :
    wp (httpGet env h id out)
      (fun a w' => a.2.1.size < 2 ^ 63 ∧ a.2.2.length = out.length ∧
        ((a = (none, h, out) ∧ MemOnly w w') ∨
        ∃ as1 last r w1, MemOnly w w1 ∧
          Attempted (h.key.map (fun k => env.ks k id)) (urlOf h id) 0 out.length (freshReq h out) w1 (as1 ++ [last]) r w' ∧
          as1.length ≤ 9 ∧ (TransientCode last.code → as1.length = 9) ∧ a.2.2 = r.out ∧
          Judged env.H h id (verdict last.code last.run.http (decide (r.st = .streaming))) r.written a.1 a.2.1 a.2.2))
      (fun s w' => s = .killed ∧ ∃ as r w1 w2, MemOnly w w1 ∧
        Attempted (h.key.map (fun k => env.ks k id)) (urlOf h id) 0 out.length (freshReq h out) w1 as r w2 ∧
        as.length ≤ 9 ∧ (∀ a ∈ as, TransientCode a.code) ∧ w2.net = [] ∧
        w' = { w2 with log := w2.log ++ [.http (urlOf h id)] }) w := by
  unfold httpGet
  have hl := urlOf_length h id hid
  have hle : ¬ ((urlOf h id).length + 1 > h.base.length + 80 + 1) := by split at hl <;> omega
  simp only [hle, if_false]
  refine wp_bind (wp_alloc ?_)
  cases hb : (allocPure ((urlOf h id).length + 1) w.mem).1
  · exact wp_pure ⟨hsz, rfl, Or.inl ⟨rfl, rfl⟩⟩
  · simp only [Bool.not_true, Bool.false_eq_true, if_false]
    have hr : ReqOk out.length (freshReq h out) := ⟨rfl, Nat.zero_le _, by simp [freshReq], hsz⟩
    refine wp_bind (wp_mono (wp_retried hz 9 0 200000 (freshReq h out) _ rfl hr hs) (fun a w2 g => ?_) (fun s w2 g => ?_))
    · obtain ⟨code, http, r⟩ := a
      obtain ⟨as1, last, g1, g2, g3, g4, g5⟩ := g
      simp only at g1 g2 g3
      subst g2 g3
      obtain ⟨j1, j2, j3⟩ := httpJudge_spec env h id last.code last.run.http r herr
      refine wp_pure ⟨by rw [j1]; exact g1.ok.size, by rw [j2]; exact g1.ok.out, Or.inr ⟨as1, last, r, _, ?_, g1, g4, g5, j2, by rw [j2]; exact j3⟩⟩
      rfl
    · obtain ⟨g1, as, r1, w3, g2, g3, g4, g5, g6⟩ := g
      refine ⟨g1, as, r1, _, w3, ?_, g2, g3, g4, g5, g6⟩
      rfl

end Csn.Proof
