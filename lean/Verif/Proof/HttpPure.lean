import Verif.Proof.HttpGet
/-
Body processing of HTTP stores as a function of the decrypted fragments, when memory does not run out.
-/
namespace Csn.Proof
open Csn Spec

/-- The part of a request that decides its outcome. -/
structure View where
  st : HState
  hist : List (Nat × Bytes)
  written : Nat
  out : Bytes
  fill : Bytes

/-- `handle_data` on the outcome-relevant part. -/
def core (env : Env) (v : View) (x : Bytes) : Option (Nat × HState × List (Nat × Bytes) × Nat × Bytes) :=
  if v.st = .started ∧ x.length < 4 then some (0, v.st, v.hist, v.written, v.out)
  else if v.st = .started ∧ x.take 4 ≠ zstdMagic then none
  else
    match env.zstd v.hist (v.out.length - v.written) x with
    | none => none
    | some (k, o) => some (k, .streaming, v.hist ++ [(v.out.length - v.written, x)], v.written + o.length, bufWrite v.out v.written o)

/-- One decrypted fragment: whether it is accepted, and the request afterwards. -/
def pureCb (env : Env) (http : Option Nat) (v : View) (frag : Bytes) : Bool × View :=
  if v.st = .started ∧ http ≠ some 200 then (false, { v with st := .failed })
  else if v.st = .failed then (false, v)
  else
    match core env v (v.fill ++ frag) with
    | none => (false, { v with st := .failed })
    | some (k, st, hist, written, out) => (true, ⟨st, hist, written, out, (v.fill ++ frag).drop k⟩)

def pureDeliver (env : Env) (http : Option Nat) : View → List Bytes → Bool × View
  | v, [] => (false, v)
  | v, f :: fs =>
    match pureCb env http v f with
    | (false, v) => (true, v)
    | (true, v) => pureDeliver env http v fs

/-- `r` is as `v` says. -/
structure Rel (v : View) (r : Req) : Prop where
  st : r.st = v.st
  written : r.written = v.written
  out : r.out = v.out
  hist : r.st ≠ .failed → r.hist = v.hist
  fill : r.st ≠ .failed → r.fill = v.fill

/-- Split `d` into fragments and decrypt each at its position. -/
def decFrags (ks : Option (Nat → UInt8)) : Nat → List Bytes → List Bytes
  | _, [] => []
  | pos, f :: fs => incoming ks pos f :: decFrags ks (pos + f.length) fs

theorem decFrags_none (fs : List Bytes) : ∀ pos, decFrags none pos fs = fs := by
  induction fs with
  | nil => intro _; rfl
  | cons f fs ih => intro pos; simp only [decFrags, incoming, ih]

theorem handle_none {env : Env} {v : View} {r : Req} {x : Bytes} (h1 : r.st = v.st) (h2 : r.hist = v.hist) (h3 : r.written = v.written)
    (h4 : r.out = v.out) (h : core env v x = none) :
    (handlePure env r x).1 = none ∧ (handlePure env r x).2.written = v.written ∧ (handlePure env r x).2.out = v.out ∧
    (handlePure env r x).2.size = r.size := by
  obtain ⟨vst, vhist, vwritten, vout, vfill⟩ := v
  simp only at h1 h2 h3 h4
  subst h1 h2 h3 h4
  simp only [core] at h
  simp only [handlePure]
  split at h
  · cases h
  · next hc =>
    rw [if_neg hc]
    split at h
    · next hc => rw [if_pos hc]; exact ⟨rfl, rfl, rfl, rfl⟩
    · next hc =>
      rw [if_neg hc]
      split at h
      · next he => rw [he]; exact ⟨rfl, rfl, rfl, rfl⟩
      · cases h

theorem handle_some {env : Env} {v : View} {r : Req} {x : Bytes} (h1 : r.st = v.st) (h2 : r.hist = v.hist) (h3 : r.written = v.written)
    (h4 : r.out = v.out) {k : Nat} {st : HState} {hist : List (Nat × Bytes)} {written : Nat} {out : Bytes}
    (h : core env v x = some (k, st, hist, written, out)) :
    handlePure env r x = (some k, { r with st := st, hist := hist, written := written, out := out }) := by
  obtain ⟨vst, vhist, vwritten, vout, vfill⟩ := v
  simp only at h1 h2 h3 h4
  subst h1 h2 h3 h4
  simp only [core] at h
  simp only [handlePure]
  split at h
  · next hc =>
    rw [if_pos hc]
    cases h; rfl
  · next hc =>
    rw [if_neg hc]
    split at h
    · cases h
    · next hc =>
      rw [if_neg hc]
      split at h
      · cases h
      · next he => rw [he]; cases h; rfl

theorem core_fill (env : Env) (v : View) (f : Bytes) (x : Bytes) : core env { v with fill := f } x = core env v x := rfl

theorem wp_dataCb_pure {env : Env} (hz : Sane env) {ks : Option (Nat → UInt8)} {http : Option Nat} {v : View} {r : Req} {frag : Bytes}
    {n : Nat} {w : World} (hr : ReqOk n r) (hv : Rel v r) (hne : frag ≠ []) (hd : frag.length < 2 ^ 32) (hm : AllMem w.mem)
    (hsz : r.size + frag.length < 2 ^ 63) :
    wp (dataCb env ks http r frag)
      (fun a w' => MemOnly w w' ∧ AllMem w'.mem ∧ ReqOk n a.2 ∧ a.2.size ≤ r.size + frag.length ∧
        (a.1 = frag.length ↔ (pureCb env http v (incoming ks r.kpos frag)).1 = true) ∧
        Rel (pureCb env http v (incoming ks r.kpos frag)).2 a.2 ∧
        ((pureCb env http v (incoming ks r.kpos frag)).1 = true → ks.isSome → a.2.kpos = r.kpos + frag.length))
      (fun _ _ => False) w := by
  have hlen : 0 < frag.length := List.length_pos_iff.mpr hne
  have h0 : ¬ (0 = frag.length) := by omega
  unfold dataCb pureCb
  rw [← hv.st]
  by_cases h1 : r.st = .started ∧ http ≠ some 200
  · rw [if_pos h1, if_pos h1]
    exact wp_pure ⟨MemOnly.refl _, hm, ⟨hr.out, hr.written, hr.fill, hr.size⟩, Nat.le_add_right _ _, by simp [h0], ⟨rfl, hv.written, hv.out, by simp, by simp⟩, by simp⟩
  · rw [if_neg h1, if_neg h1]
    by_cases h2 : r.st = .failed
    · rw [if_pos h2, if_pos h2]
      exact wp_pure ⟨MemOnly.refl _, hm, hr, Nat.le_add_right _ _, by simp [h0], hv, by simp⟩
    · rw [if_neg h2, if_neg h2]
      by_cases h3 : r.fill ≠ [] ∨ ks.isSome
      · rw [if_pos h3]
        refine wp_bind (wp_mono (wp_absorb hr hd) (fun a w1 g => ?_) (fun _ _ g => g))
        obtain ⟨b, r1⟩ := a
        obtain ⟨g1, g2, g3, g4, g5, g6, g7⟩ := g
        obtain ⟨g8, g9⟩ := g7 hm hsz (fun _ => Or.inl hne)
        simp only at g8
        subst g8
        obtain ⟨g10, g11⟩ := g5 rfl
        simp only at g2 g3 g9 g10 g11 ⊢
        have hst1 : r1.st ≠ .failed := by rw [g3.st]; exact h2
        refine wp_bind (wp_handleData hz hst1 ?_)
        have hx : r1.fill = v.fill ++ incoming ks r.kpos frag := by rw [g10, hv.fill h2]
        obtain ⟨q1, q2, q3, q4, q5, q6, _⟩ := handlePure_ok hz g2 r1.fill
        have e1 := g3.st.trans hv.st
        have e2 := g3.hist.trans (hv.hist h2)
        have e3 := g3.written.trans hv.written
        have e4 := g3.out.trans hv.out
        rw [← hx]
        cases hc : core env v r1.fill with
        | none =>
          obtain ⟨p1, p2, p3, p4⟩ := handle_none (r := r1) e1 e2 e3 e4 hc
          generalize handlePure env r1 r1.fill = a at p1 p2 p3 p4 q1
          obtain ⟨a1, a2⟩ := a
          simp only at p1 p2 p3 p4
          subst p1
          simp only
          refine wp_pure ⟨g1, g6 hm, ⟨q1.out, q1.written, q1.fill, q1.size⟩, by simp only; omega, by simp [h0], ⟨rfl, p2, p3, by simp, by simp⟩, by simp⟩
        | some t =>
          obtain ⟨k, st, hist, written, out⟩ := t
          have he := handle_some (r := r1) e1 e2 e3 e4 hc
          rw [he] at q1 ⊢
          simp only at q1 ⊢
          refine wp_pure ⟨g1, g6 hm, ⟨q1.out, q1.written, by have := q1.fill; simp at this ⊢; omega, q1.size⟩, by simp only; omega, by simp, ⟨rfl, rfl, rfl, fun _ => rfl, fun _ => rfl⟩, fun _ h => g11 h⟩
      · rw [if_neg h3]
        have hfill : r.fill = [] := Classical.byContradiction (fun h => h3 (Or.inl h))
        have hks : ks = none := by
          cases ks with
          | none => rfl
          | some k => exact absurd (Or.inr rfl) h3
        subst hks
        have hinc : incoming none r.kpos frag = frag := rfl
        rw [hinc, ← hv.fill h2, hfill, List.nil_append]
        refine wp_bind (wp_handleData hz h2 ?_)
        obtain ⟨q1, q2, q3, q4, q5, q6, _⟩ := handlePure_ok hz hr frag
        cases hc : core env v frag with
        | none =>
          obtain ⟨p1, p2, p3, p4⟩ := handle_none (r := r) hv.st (hv.hist h2) hv.written hv.out hc
          generalize handlePure env r frag = a at p1 p2 p3 p4 q1
          obtain ⟨a1, a2⟩ := a
          simp only at p1 p2 p3 p4
          subst p1
          simp only
          refine wp_pure ⟨MemOnly.refl _, hm, ⟨q1.out, q1.written, q1.fill, q1.size⟩, by simp only; omega, by simp [h0], ⟨rfl, p2, p3, by simp, by simp⟩, by simp⟩
        | some t =>
          obtain ⟨k, st, hist, written, out⟩ := t
          have he := handle_some (r := r) hv.st (hv.hist h2) hv.written hv.out hc
          rw [he] at q1 q6 ⊢
          simp only at q1 ⊢
          have hk := q6 k rfl
          by_cases hlt : k < frag.length
          · rw [if_pos hlt]
            refine wp_bind (wp_mono (wp_absorb q1 (by simp; omega)) (fun a w1 g => ?_) (fun _ _ g => g))
            obtain ⟨b, r1⟩ := a
            obtain ⟨g1, g2, g3, g4, g5, g6, g7⟩ := g
            obtain ⟨g8, g9⟩ := g7 hm (by simp; omega) (by simp)
            simp only at g8
            subst g8
            obtain ⟨g10, g11⟩ := g5 rfl
            simp only at g2 g3 g9 g10 g11 ⊢
            refine wp_pure ⟨g1, g6 hm, g2, by simp at g9 ⊢; omega, by simp, ⟨g3.st, g3.written, g3.out, fun _ => g3.hist, fun _ => ?_⟩, by simp⟩
            rw [g10, hfill]; rfl
          · rw [if_neg hlt]
            refine wp_pure ⟨MemOnly.refl _, hm, q1, by simp only; omega, by simp, ⟨rfl, rfl, rfl, fun _ => rfl, fun _ => ?_⟩, by simp⟩
            simp only
            rw [hfill, List.drop_eq_nil_of_le (by omega)]

theorem wp_deliver_pure {env : Env} (hz : Sane env) {ks : Option (Nat → UInt8)} {http : Option Nat} {n : Nat} (fs : List Bytes) :
    ∀ (v : View) (r : Req) (w : World), ReqOk n r → Rel v r → (∀ f ∈ fs, f ≠ [] ∧ f.length < 2 ^ 32) → AllMem w.mem →
      r.size + fs.flatten.length < 2 ^ 63 →
      wp (deliver env ks http r fs)
        (fun a w' => MemOnly w w' ∧ AllMem w'.mem ∧ a.2.size ≤ r.size + fs.flatten.length ∧
          a.1 = (pureDeliver env http v (decFrags ks r.kpos fs)).1 ∧ Rel (pureDeliver env http v (decFrags ks r.kpos fs)).2 a.2)
        (fun _ _ => False) w := by
  induction fs with
  | nil =>
    intro v r w hr hv _ hm _
    exact wp_pure ⟨MemOnly.refl _, hm, by simp, rfl, hv⟩
  | cons f fs ih =>
    intro v r w hr hv hfs hm hsz
    have hsz' : r.size + (f.length + fs.flatten.length) < 2 ^ 63 := by simpa using hsz
    unfold deliver
    refine wp_bind (wp_mono (wp_dataCb_pure hz hr hv (hfs f (by simp)).1 (hfs f (by simp)).2 hm (by omega)) (fun a w1 g => ?_) (fun _ _ g => g))
    obtain ⟨k, r1⟩ := a
    obtain ⟨g1, g2, g3, g4, g5, g6, g7⟩ := g
    simp only at g3 g4 g5 g6 g7
    simp only [decFrags, pureDeliver]
    generalize pureCb env http v (incoming ks r.kpos f) = p at g5 g6 g7
    obtain ⟨b, v1⟩ := p
    simp only at g5 g6 g7
    have hfl : (f :: fs).flatten.length = f.length + fs.flatten.length := by simp
    cases b with
    | false =>
      have hne : k ≠ f.length := fun h => by have := g5.mp h; cases this
      simp only [hne, ne_eq, not_false_eq_true, if_true]
      exact wp_pure ⟨g1, g2, by rw [hfl]; simp only; omega, rfl, g6⟩
    | true =>
      have he : k = f.length := g5.mpr rfl
      simp only [he, ne_eq, not_true_eq_false, if_false]
      refine wp_mono (ih v1 r1 w1 g3 g6 (fun x hx => hfs x (by simp [hx])) g2 (by omega)) (fun a w2 g => ?_) (fun _ _ g => g)
      obtain ⟨i1, i2, i3, i4, i5⟩ := g
      have hd : decFrags ks r1.kpos fs = decFrags ks (r.kpos + f.length) fs := by
        cases ks with
        | none => rw [decFrags_none, decFrags_none]
        | some k => rw [g7 rfl rfl]
      rw [hd] at i4 i5
      exact ⟨g1.trans i1, i2, by rw [hfl]; omega, i4, i5⟩

/-- A request beginning with attempts `fs` that fail transiently without any body, followed by the attempt
`g`. -/
structure Tries (url : Bytes) (fs : List (Bytes → CurlRun)) (run : CurlRun) : Prop where
  few : fs.length ≤ 9
  silent : ∀ f ∈ fs, (f url).frags = [] ∧ TransientCode (f url).code
  frags : ∀ x ∈ run.frags, x ≠ [] ∧ x.length < 2 ^ 32
  final : ¬ TransientCode run.code

theorem wp_perform_silent {env : Env} {ks : Option (Nat → UInt8)} {url : Bytes} {r : Req} {w : World} {f : Bytes → CurlRun}
    {rest : List (Bytes → CurlRun)} (hn : w.net = f :: rest) (hf : (f url).frags = [])
    {Q : Nat × Option Nat × Req → World → Prop} {S : Stop → World → Prop}
    (h : Q ((f url).code, (f url).http, r) { w with net := rest, log := w.log ++ [.http url] }) :
    wp (perform env ks url r) Q S w := by
  unfold perform
  refine wp_bind (wp_emit ?_)
  apply wp_bind
  simp only [wp, hn]
  rw [hf]
  unfold deliver
  exact h

theorem wp_retried_pure {env : Env} (hz : Sane env) {ks : Option (Nat → UInt8)} {url : Bytes} {n : Nat} {g : Bytes → CurlRun}
    {rest : List (Bytes → CurlRun)} {v : View} (hfr : ∀ x ∈ (g url).frags, x ≠ [] ∧ x.length < 2 ^ 32) (hfin : ¬ TransientCode (g url).code)
    (fs : List (Bytes → CurlRun)) : ∀ (m wait : Nat) (r : Req) (w : World), fs.length ≤ m →
    (∀ f ∈ fs, (f url).frags = [] ∧ TransientCode (f url).code) → w.net = fs ++ g :: rest → ReqOk n r → Rel v r → AllMem w.mem →
    r.size + (g url).frags.flatten.length < 2 ^ 63 →
    wp (retried env ks url m wait r)
      (fun a w' => a.1 = (if (pureDeliver env (g url).http v (decFrags ks r.kpos (g url).frags)).1 then 23 else (g url).code) ∧
        a.2.1 = (g url).http ∧ Rel (pureDeliver env (g url).http v (decFrags ks r.kpos (g url).frags)).2 a.2.2 ∧
        a.2.2.size ≤ r.size + (g url).frags.flatten.length ∧ AllMem w'.mem ∧ w'.net = rest ∧
        w' = { w with mem := w'.mem, net := w'.net, log := w'.log })
      (fun _ _ => False) w := by
  induction fs with
  | nil =>
    intro m wait r w _ _ hn hr hv hm hsz
    unfold retried
    refine wp_bind (wp_mono (Q := fun a w' => a.1 = (if (pureDeliver env (g url).http v (decFrags ks r.kpos (g url).frags)).1 then 23 else (g url).code) ∧
        a.2.1 = (g url).http ∧ Rel (pureDeliver env (g url).http v (decFrags ks r.kpos (g url).frags)).2 a.2.2 ∧
        a.2.2.size ≤ r.size + (g url).frags.flatten.length ∧ AllMem w'.mem ∧ w'.net = rest ∧
        w' = { w with mem := w'.mem, net := w'.net, log := w'.log }) (S := fun _ _ => False) ?_ (fun a w1 h => ?_) (fun _ _ h => h))
    · unfold perform
      refine wp_bind (wp_emit ?_)
      apply wp_bind
      simp only [wp, hn, List.nil_append]
      refine wp_bind (wp_mono (wp_deliver_pure hz (g url).frags v r { w with net := rest, log := w.log ++ [.http url] } hr hv hfr hm hsz) (fun a w1 h => ?_) (fun _ _ h => h))
      obtain ⟨ab, r1⟩ := a
      obtain ⟨h1, h2, h3, h4, h5⟩ := h
      simp only at h3 h4 h5
      exact wp_pure ⟨by simp only [h4], rfl, h5, h3, h2, by rw [h1], by rw [h1]⟩
    · obtain ⟨code, http, r1⟩ := a
      obtain ⟨h1, h2⟩ := h
      simp only at h1 h2
      have hnt : transient code = false := by
        cases ht : transient code with
        | false => rfl
        | true =>
          have := (transient_iff _).mp ht
          rw [h1] at this
          split at this
          · unfold TransientCode at this; omega
          · exact absurd this hfin
      simp only [hnt, Bool.not_false, if_true]
      exact wp_pure ⟨h1, h2⟩
  | cons f fs ih =>
    intro m wait r w hl hs hn hr hv hm hsz
    have hf := hs f (by simp)
    unfold retried
    refine wp_bind (wp_perform_silent hn hf.1 ?_)
    have ht : transient (f url).code = true := (transient_iff _).mpr hf.2
    simp only [ht, Bool.not_true, Bool.false_eq_true, if_false]
    refine wp_bind (wp_emit ?_)
    cases m with
    | zero => simp at hl
    | succ m =>
      simp only
      refine wp_mono (ih m _ r { w with net := fs ++ g :: rest, log := (w.log ++ [.http url]) ++ [.sleep wait] } (by simpa using hl) (fun x hx => hs x (by simp [hx])) rfl hr hv hm hsz) (fun a w1 h => ?_) (fun _ _ h => h)
      obtain ⟨h1, h2, h3, h4, h5, h6, h7⟩ := h
      exact ⟨h1, h2, h3, h4, h5, h6, by rw [h7]⟩

/-- With enough memory the outcome of a request whose attempts before the last one have no body is decided
by the decrypted fragments. -/
theorem wp_httpGet_pure {env : Env} (hz : Sane env) {h : Http} {id : Id} {out : Bytes} {w : World} {fs rest : List (Bytes → CurlRun)}
    {g : Bytes → CurlRun} (hid : id.length = 32) (herr : h.err ≤ 10) (hm : AllMem w.mem) (hb : h.base.length < 2 ^ 62)
    (hn : w.net = fs ++ g :: rest) (ht : Tries (chunkUrl h.base h.key.isSome id) fs (g (chunkUrl h.base h.key.isSome id)))
    (hsz : h.size + (g (chunkUrl h.base h.key.isSome id)).frags.flatten.length < 2 ^ 63) :
    wp (httpGet env h id out)
      (fun a w' => ∃ p, p = pureDeliver env (g (chunkUrl h.base h.key.isSome id)).http ⟨.started, [], 0, out, []⟩
          (decFrags (h.key.map (fun k => env.ks k id)) 0 (g (chunkUrl h.base h.key.isSome id)).frags) ∧
        ∃ v, v = verdict (if p.1 then 23 else (g (chunkUrl h.base h.key.isSome id)).code) (g (chunkUrl h.base h.key.isSome id)).http
          (decide (p.2.st = .streaming)) ∧
        a.1 = resultOf env.H h.err id p.2.written p.2.out v ∧ a.2.1.err = errAfter h.err v ∧ a.2.1.base = h.base ∧ a.2.1.key = h.key ∧
        a.2.2 = p.2.out ∧ AllMem w'.mem ∧ w'.net = rest ∧ w' = { w with mem := w'.mem, net := w'.net, log := w'.log } ∧
        a.2.1.size ≤ h.size + (g (chunkUrl h.base h.key.isSome id)).frags.flatten.length)
      (fun _ _ => False) w := by
  rw [← urlOf_eq h id (by omega)] at *
  have hl := urlOf_length h id hid
  unfold httpGet
  have hle : ¬ ((urlOf h id).length + 1 > h.base.length + 80 + 1) := by split at hl <;> omega
  simp only [hle, if_false]
  refine wp_bind (wp_alloc ?_)
  obtain ⟨m1, m2⟩ := hm.alloc (n := (urlOf h id).length + 1) (by split at hl <;> omega)
  rw [m1]
  simp only [Bool.not_true, Bool.false_eq_true, if_false]
  have hr : ReqOk out.length (freshReq h out) := ⟨rfl, Nat.zero_le _, by simp [freshReq], by simp only [freshReq]; omega⟩
  have hv : Rel ⟨.started, [], 0, out, []⟩ (freshReq h out) := ⟨rfl, rfl, rfl, fun _ => rfl, fun _ => rfl⟩
  refine wp_bind (wp_mono (wp_retried_pure hz ht.frags ht.final fs 9 200000 (freshReq h out) _ ht.few ht.silent hn hr hv m2 hsz) (fun a w2 g => ?_) (fun _ _ h => h))
  obtain ⟨code, http, r⟩ := a
  obtain ⟨g1, g2, g3, g4, g5, g6, g7⟩ := g
  simp only at g1 g2 g3 g4
  obtain ⟨j1, j2, j3⟩ := httpJudge_spec env h id code http r (by omega)
  refine wp_pure ⟨_, rfl, _, rfl, ?_⟩
  have hst := g3.st
  have hk : (freshReq h out).kpos = 0 := rfl
  rw [hk] at g1 g3
  rw [← g1, ← g3.st, ← g3.out, ← g3.written]
  rw [← g2]
  exact ⟨j3.res, j3.err, j3.base, j3.key, j2, g5, g6, by rw [g7], by rw [j1]; exact g4⟩

end Csn.Proof
