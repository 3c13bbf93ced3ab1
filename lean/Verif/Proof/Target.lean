import Verif.Proof.ChainGet
import Verif.Spec.Sync
/-
Reading and writing the target.
-/
namespace Csn.Proof
open Csn Spec Props

/-- What has been verified or written so far stays so when the index of the target is extended. -/
theorem TgtInv.grow {H : Bytes → Id} {bufMax : Nat} {R : Prop} {T : Nat → Prop} {f f' : Bytes} {done : List Seg} {t : Tgt}
    (h : TgtInv H bufMax R T f done t) (hf : ∀ o n, o + n ≤ total done → slice f' o n = slice f o n) {seg : Seg} (hT : ∀ n, ¬ T n) :
    TgtInv H bufMax R T f' (done ++ [seg]) t := by
  refine ⟨h.inv, fun g => ?_, fun g e he => ?_, fun n g => absurd g (hT n)⟩
  · have := h.few g; simp; omega
  · obtain ⟨a, b, ⟨s, c1, c2⟩, d⟩ := h.ok g e he
    refine ⟨a, by rw [total_append]; omega, ⟨s, by simp [c1], c2⟩, fun hR => ?_⟩
    rw [hf _ _ b]; exact d hR

/-- Recording region `seg`, which starts behind `done`. -/
theorem wp_targetAdd {lib : Lib} (hlib : lib.Conforms) {H : Bytes → Id} {bufMax : Nat} {R : Prop} {T : Nat → Prop} {f f' : Bytes} {done : List Seg} {t : Tgt}
    {seg : Seg} {w : World} (h : TgtInv H bufMax R T f done t) (hf : ∀ o n, o + n ≤ total done → slice f' o n = slice f o n)
    (hoff : seg.off = total done) (hm : R → seg.len ≠ 0 → seg.len ≤ bufMax ∧ Matches H f' seg)
    (hT : ∀ n, T n → t.queryable = true ∧ done.length < n)
    {Q : Tgt → World → Prop} {S : Stop → World → Prop}
    (hok : ∀ t' m, t'.ino = t.ino → t'.queryable = t.queryable → TgtInv H bufMax R T f' (done ++ [seg]) t' → m <:+ w.mem →
      Q t' { w with mem := m })
    (habort : seg.len = 0 → S .abort w) :
    wp (targetAdd lib t seg.len seg.off seg.id) Q S w := by
  unfold targetAdd
  cases hq : t.queryable with
  | false =>
    simp only [Bool.not_false, if_true]
    have hT' : ∀ n, ¬ T n := fun n g => by rw [(hT n g).1] at hq; cases hq
    have := hok t w.mem rfl rfl (h.grow hf hT') (List.suffix_refl _)
    exact wp_pure this
  | true =>
    simp only [Bool.not_true, Bool.false_eq_true, if_false]
    obtain ⟨r, idx', e, h1, h2, hsp, _, _, _, _, h3, h4⟩ := indexQuery_spec lib hlib t.idx seg.id (h.inv hq)
    rw [e]
    cases r with
    | some i =>
      simp only
      refine wp_pure (hok { t with idx := idx', queryable := true } w.mem rfl hq.symm ?_ (List.suffix_refl _))
      obtain ⟨x, x1, x2, x3⟩ := h3 i rfl
      refine ⟨fun _ => h1, fun _ => ?_, fun _ y hy => ?_, fun n g => ⟨rfl, fun s hs => ?_, by simp only; rw [hsp]; exact (h.full n g).2.2⟩⟩
      · simp only; rw [h2.length_eq]; have := h.few hq; simp; omega
      · simp only at hy
        obtain ⟨a, b, ⟨s, c1, c2⟩, d⟩ := h.ok hq y (h2.mem_iff.1 hy)
        refine ⟨a, by rw [total_append]; omega, ⟨s, by simp [c1], c2⟩, fun hR => ?_⟩
        rw [hf _ _ b]; exact d hR
      · rcases List.mem_append.1 hs with hs | hs
        · obtain ⟨y, y1, y2⟩ := (h.full n g).2.1 s hs
          exact ⟨y, h2.mem_iff.2 y1, y2⟩
        · simp at hs; subst hs
          exact ⟨x, h2.mem_iff.2 x3, x2⟩
    | none =>
      simp only
      refine wp_bind (wp_indexInsert h1 ?_ ?_ habort)
      · intro idx2 m g1 g2 g3 g4 g5
        refine wp_pure (hok { t with idx := idx2, queryable := true } m rfl hq.symm ?_ g2)
        refine ⟨fun _ => g1, fun _ => ?_, fun _ y hy => ?_, fun n g => ⟨rfl, fun s hs => ?_, by simp only; have := (h.full n g).2.2; omega⟩⟩
        · simp only; rw [g4]; simp; rw [h2.length_eq]; exact h.few hq
        · simp only at hy
          rw [g4] at hy
          rcases List.mem_append.1 hy with hy | hy
          · obtain ⟨a, b, ⟨s, c1, c2⟩, d⟩ := h.ok hq y (h2.mem_iff.1 hy)
            refine ⟨a, by rw [total_append]; omega, ⟨s, by simp [c1], c2⟩, fun hR => ?_⟩
            rw [hf _ _ b]; exact d hR
          · simp at hy; subst hy
            refine ⟨g3, by simp only [total_append, total_cons, total_nil, hoff]; omega, ⟨seg, by simp, rfl, rfl⟩, fun hR => ?_⟩
            exact ⟨(hm hR g3).1, (hm hR g3).2⟩
        · simp only
          rw [g4]
          rcases List.mem_append.1 hs with hs | hs
          · obtain ⟨y, y1, y2⟩ := (h.full n g).2.1 s hs
            exact ⟨y, by simp [h2.mem_iff.2 y1], y2⟩
          · simp at hs; subst hs
            exact ⟨_, List.mem_append.2 (Or.inr (List.mem_singleton.2 rfl)), rfl⟩
      · intro m g1 _ g2
        have hT' : ∀ n, ¬ T n := fun n g => by
          obtain ⟨_, a⟩ := hT n g
          have := h.few hq
          have := (h.full n g).2.2
          rw [h2.length_eq] at g2
          omega
        refine wp_pure (hok { t with idx := idx', queryable := true } m rfl hq.symm ?_ g1)
        have hs : TgtSame t { t with idx := idx', queryable := true } := ⟨rfl, hq.symm, fun _ _ => ⟨h1, h2, hsp⟩⟩
        exact (h.same hs).grow hf hT'

/-- Every outcome of `target_check_chunk`. -/
theorem wp_targetCheck {env : Env} (hlib : env.lib.Conforms) {bufMax : Nat} {R : Prop} {T : Nat → Prop} {done : List Seg} {t : Tgt} {tino : Nat}
    (hti : t.ino = tino) {seg : Seg} {buf : Bytes} {w : World} (h : TgtInv env.H bufMax R T (w.data tino) done t) (hlen : seg.len ≤ buf.length)
    (hoff : seg.off = total done) (hb : buf.length = bufMax) (hT : ∀ n, T n → t.queryable = true ∧ done.length < n)
    {Q : Option Bool × Tgt × Bytes → World → Prop} {S : Stop → World → Prop}
    (hok : ∀ t' buf' r m, t'.ino = t.ino → t'.queryable = t.queryable → buf'.length = buf.length →
      TgtInv env.H bufMax R T (w.data tino) (done ++ [seg]) t' → r <:+ w.sys → m <:+ w.mem → Matches env.H (w.data tino) seg →
      (0 < seg.len → seg.off < 2 ^ 63) →
      Q (some true, t', buf') { w with sys := r, mem := m })
    (hno : ∀ buf' r x, buf'.length = buf.length → r <:+ w.sys → x ≠ some true →
      (¬ Matches env.H (w.data tino) seg ∨ ¬ Clean w.sys ∨ 2 ^ 63 ≤ seg.off + seg.len) → Q (x, t, buf') { w with sys := r })
    (habort : ∀ r, r <:+ w.sys → seg.len = 0 → S .abort { w with sys := r })
    (hkill : S .killed { w with sys := [] }) :
    wp (targetCheck env t buf seg.len seg.off seg.id) Q S w := by
  unfold targetCheck
  rw [if_neg (by omega)]
  refine wp_bind (wp_preadall ?_ ?_ (fun _ => hkill))
  · intro r hr hs hlt
    rw [hti] at hs ⊢
    simp only [Bool.not_true, Bool.false_eq_true, if_false]
    have htake : (bufWrite buf 0 (slice (w.data tino) seg.off seg.len)).take seg.len = slice (w.data tino) seg.off seg.len := by
      have := bufWrite0_take (buf := buf) (d := slice (w.data tino) seg.off seg.len)
      rwa [hs] at this
    have hl : (bufWrite buf 0 (slice (w.data tino) seg.off seg.len)).length = buf.length := bufWrite0_length (by omega)
    rw [htake]
    split
    · next hne =>
      exact wp_pure (hno _ r _ hl hr.1 (by simp) (Or.inl (fun hm => hne hm.2)))
    · next heq =>
      have heq : env.H (slice (w.data tino) seg.off seg.len) = seg.id := Decidable.by_contra heq
      have hm : Matches env.H (w.data tino) seg := ⟨hs, heq⟩
      refine wp_bind (wp_targetAdd (w := { w with sys := r }) hlib h (fun _ _ _ => rfl) hoff (fun _ _ => ⟨by omega, hm⟩) hT ?_ (habort r hr.1))
      intro t' m h1 h2 h3 h4
      exact wp_pure (hok t' _ r m h1 h2 hl h3 hr.1 h4 hm hlt)
  · intro r n hr hn hc
    rw [hti] at hc ⊢
    simp only [Bool.not_false, if_true]
    refine wp_pure (hno _ r _ (bufWrite0_length (by have := slice_length_le (w.data tino) seg.off n; omega)) hr.1 (by simp) ?_)
    rcases hc with hc | hc | hc
    · exact Or.inr (Or.inl hc)
    · refine Or.inl (fun hm => ?_)
      have := hm.1
      unfold slice at this
      simp only [List.length_take, List.length_drop] at this
      omega
    · exact Or.inr (Or.inr hc)

/-- Every outcome of `target_write` for the region behind `done`. -/
theorem wp_targetWrite {lib : Lib} (hlib : lib.Conforms) {H : Bytes → Id} {bufMax : Nat} {R : Prop} {T : Nat → Prop} {done : List Seg} {t : Tgt} {tino : Nat}
    (hti : t.ino = tino) {seg : Seg} {buf : Bytes} {w : World} (h : TgtInv H bufMax R T (w.data tino) done t) (hlen : seg.len ≤ buf.length)
    (hoff : seg.off = total done) (hlong : total done ≤ (w.data tino).length) (hb : buf.length = bufMax) (hm : R → seg.len ≠ 0 → H (buf.take seg.len) = seg.id)
    (hT : ∀ n, T n → t.queryable = true ∧ done.length < n)
    {Q : Bool × Tgt → World → Prop} {S : Stop → World → Prop}
    (hok : ∀ t' evs r m, t'.ino = t.ino → t'.queryable = t.queryable → PiecesOf seg.off (buf.take seg.len) evs →
      TgtInv H bufMax R T (writeAt (w.data tino) seg.off (buf.take seg.len)) (done ++ [seg]) t' → r <:+ w.sys → m <:+ w.mem →
      (0 < seg.len → seg.off < 2 ^ 63) →
      Q (true, t') { wrote w tino seg.off (buf.take seg.len) evs r with mem := m })
    (hfail : ∀ evs r k, k < seg.len → PiecesOf seg.off ((buf.take seg.len).take k) evs → r <:+ w.sys →
      (¬ Clean w.sys ∨ (w.kind tino = .blk ∧ (w.data tino).length < seg.off + seg.len) ∨ 2 ^ 63 ≤ seg.off + seg.len) →
      Q (false, t) (wrote w tino seg.off ((buf.take seg.len).take k) evs r))
    (hstop : ∀ evs r k s, k < seg.len → PiecesOf seg.off ((buf.take seg.len).take k) evs → r <:+ w.sys →
      (s = .abort ∧ ¬ Clean w.sys ∨ s = .killed) →
      S s (wrote w tino seg.off ((buf.take seg.len).take k) evs r))
    (habort : ∀ evs r, r <:+ w.sys → seg.len = 0 → PiecesOf seg.off (buf.take seg.len) evs →
      S .abort (wrote w tino seg.off (buf.take seg.len) evs r)) :
    wp (targetWrite lib t buf seg.len seg.off seg.id) Q S w := by
  unfold targetWrite
  rw [if_neg (by omega), hti]
  have hdl : (buf.take seg.len).length = seg.len := by simp; omega
  refine wp_bind (wp_pwriteall ?_ ?_ ?_)
  · intro r evs hr hp _ hlt
    simp only [Bool.not_true, Bool.false_eq_true, if_false]
    have hsl : slice (writeAt (w.data tino) seg.off (buf.take seg.len)) seg.off seg.len = buf.take seg.len := by
      have := slice_writeAt (w.data tino) seg.off (buf.take seg.len)
      rwa [hdl] at this
    refine wp_bind (wp_targetAdd (w := wrote w tino seg.off (buf.take seg.len) evs r)
      (f' := writeAt (w.data tino) seg.off (buf.take seg.len)) hlib h ?_ hoff ?_ hT ?_ ?_)
    · intro o n hn
      exact slice_writeAt_disjoint _ _ _ _ _ (by omega) (by omega)
    · intro hR hne
      refine ⟨by omega, ?_, ?_⟩
      · rw [hsl, hdl]
      · rw [hsl]; exact hm hR hne
    · intro t' m h1 h2 h3 h4
      exact wp_pure (hok t' evs r m h1 h2 hp h3 hr.1 h4 (by rwa [hdl] at hlt))
    · intro h0
      exact habort evs r hr.1 h0 hp
  · intro r evs k hr hk hp _ _ hc
    simp only [Bool.not_false, if_true]
    rw [hdl] at hk hc
    exact wp_pure (hfail evs r k hk hp hr.1 hc)
  · intro r evs k s hk hp _ _ hr hc
    rw [hdl] at hk
    refine hstop evs r k s hk hp hr ?_
    rcases hc with hc | hc
    · exact Or.inl hc
    · exact Or.inr hc.1

end Csn.Proof
