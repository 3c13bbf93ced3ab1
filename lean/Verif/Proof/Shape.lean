import Verif.Proof.Target
import Verif.Model.Main
/-
The state of target and log during a synchronisation.
-/
namespace Csn.Proof
open Csn Spec Props

/-! ### Lists of events and IDs -/

theorem writesOf_append (a b : List Event) : writesOf (a ++ b) = writesOf a ++ writesOf b := by
  induction a with
  | nil => rfl
  | cons e a ih => cases e <;> simp [writesOf, ih]

theorem queriesOf_append (a b : List Event) : queriesOf (a ++ b) = queriesOf a ++ queriesOf b := by
  induction a with
  | nil => rfl
  | cons e a ih => cases e <;> simp [queriesOf, ih]

theorem writesOf_map (ino : Nat) (l : List (Nat × Bytes)) : writesOf (l.map (fun e => Event.write ino e.1 e.2)) = l := by
  induction l with
  | nil => rfl
  | cons e l ih => simp [writesOf, ih]

theorem queriesOf_map (ino : Nat) (l : List (Nat × Bytes)) : queriesOf (l.map (fun e => Event.write ino e.1 e.2)) = [] := by
  induction l with
  | nil => rfl
  | cons e l ih => simp [queriesOf, ih]

theorem askEv_none {id : Id} (evs : List Event) (h : ∀ e ∈ evs, AskEv id e) : writesOf evs = [] ∧ queriesOf evs = [] := by
  induction evs with
  | nil => exact ⟨rfl, rfl⟩
  | cons e evs ih =>
    have h1 := ih (fun x hx => h x (by simp [hx]))
    rcases h e (by simp) with ⟨k, hk⟩ | ⟨k, hk⟩ | ⟨k, hk⟩ | ⟨u, hk⟩ | ⟨u, hk⟩ | ⟨u, hk⟩ <;> subst hk <;> exact h1

theorem storeEv_none (evs : List Event) (h : ∀ e ∈ evs, StoreEv e) : writesOf evs = [] ∧ queriesOf evs = [] :=
  askEv_none (id := []) evs (fun e he => Or.inr (Or.inr (Or.inr (h e he))))

theorem runs_snoc (l : List Id) (a : Id) : runs (l ++ [a]) = if l.getLast? = some a then runs l else runs l ++ [a] := by
  induction l with
  | nil => simp [runs]
  | cons x l ih =>
    cases l with
    | nil =>
      by_cases h : x = a
      · simp [runs, h]
      · simp [runs, h]
    | cons y l =>
      have e : (x :: y :: l).getLast? = (y :: l).getLast? := by simp [List.getLast?_cons_cons]
      rw [e]
      simp only [List.cons_append, runs] at ih ⊢
      by_cases h : x = y
      · rw [if_pos h, if_pos h]; exact ih
      · rw [if_neg h, if_neg h, ih]
        split <;> simp

theorem delivered_seg {es : List (Nat × Bytes)} (he : ∀ e ∈ es, e.1 < 2 ^ 64 ∧ e.2.length = 32) : ∀ {last : Nat} {done : List Seg} {seg : Seg} {rest : List Seg},
    last < 2 ^ 64 → delivered last es = done ++ seg :: rest →
    seg.off = (last + total done) % 2 ^ 64 ∧ seg.len < 2 ^ 32 ∧ seg.id.length = 32 ∧ (∃ e ∈ es, e.2 = seg.id ∧ e.1 = (last + total done + seg.len) % 2 ^ 64) := by
  induction es with
  | nil => intro last done seg rest _ h; simp [delivered] at h
  | cons e es ih =>
    intro last done seg rest hl h
    obtain ⟨o, id⟩ := e
    have h0 := he (o, id) (by simp)
    have he' := fun e h => he e (List.mem_cons_of_mem _ h)
    simp only [delivered] at h
    split at h
    · next hlt =>
      cases done with
      | nil =>
        simp only [List.nil_append, List.cons.injEq] at h
        obtain ⟨h1, h2⟩ := h
        subst h1
        refine ⟨?_, hlt, h0.2, (o, id), by simp, rfl, ?_⟩
        · simp only [total_nil]; omega
        · simp only [total_nil] at h0 ⊢; omega
      | cons x done =>
        simp only [List.cons_append, List.cons.injEq] at h
        obtain ⟨h1, h2⟩ := h
        obtain ⟨g1, g2, g3, e, g4, g5, g6⟩ := ih he' (last := o) h0.1 h2
        subst h1
        refine ⟨?_, g2, g3, e, by simp [g4], g5, ?_⟩
        · rw [g1]; simp only [total_cons] at h0 ⊢; omega
        · rw [g6]; simp only [total_cons] at h0 ⊢; omega
    · obtain ⟨g1, g2, g3, e, g4, g5⟩ := ih he' (last := last) hl h
      exact ⟨g1, g2, g3, e, by simp [g4], g5⟩

theorem tableEntries_ok (f : Bytes) (n : Nat) (h : f.length = 104 + 40 * n) : ∀ e ∈ tableEntries f n, e.1 < 2 ^ 64 ∧ e.2.length = 32 := by
  intro e he
  unfold tableEntries at he
  rw [List.mem_map] at he
  obtain ⟨i, hi, rfl⟩ := he
  rw [List.mem_range] at hi
  refine ⟨field_lt _ _, ?_⟩
  simp only [tableEntry, List.length_take, List.length_drop]
  omega

/-! ### Shape of target and log -/

/-- What is reported at the end. -/
def TellEv (e : Event) : Prop := (∃ n, e = .skipped n) ∨ ∃ q h, e = .stats q h

theorem tellEv_none (evs : List Event) (h : ∀ e ∈ evs, TellEv e) : writesOf evs = [] ∧ queriesOf evs = [] := by
  induction evs with
  | nil => exact ⟨rfl, rfl⟩
  | cons e evs ih =>
    have h1 := ih (fun x hx => h x (by simp [hx]))
    rcases h e (by simp) with ⟨n, hk⟩ | ⟨q, l, hk⟩ <;> subst hk <;> exact h1

/-- Events of a synchronisation of target `tino`. -/
def SyncEv (tino : Nat) (e : Event) : Prop :=
  (∃ o d, e = .write tino o d) ∨ (∃ id, e = .query id) ∨ (∃ k id, e = .ask k id) ∨ (∃ k, e = .failed k) ∨ (∃ id r, e = .answer id r) ∨ TellEv e ∨ StoreEv e

/-- Why region `x` was not skipped. -/
def Unskipped (H : Bytes → Id) (tino : Nat) (w0 : World) (x : Seg) : Prop :=
  ¬ Matches H (w0.data tino) x ∨ ¬ Clean w0.sys ∨ 2 ^ 63 ≤ x.off + x.len

/-- The regions `pre` were skipped, `post` were written, of the next one (if `m = 1` it has been begun) the bytes `d`
have been written. -/
structure Shape (H : Bytes → Id) (bufMax : Nat) (R : Prop) (tino : Nat) (w0 : World) (segs pre post rest : List Seg) (m : Nat)
    (d : Bytes) (w : World) : Prop where
  split : segs = pre ++ post ++ rest
  one : m ≤ 1
  away : Away tino w0 w
  skip : ∀ s ∈ pre, Matches H (w0.data tino) s ∧ s.len ≤ bufMax
  fits : ∀ s ∈ post, s.len ≤ bufMax
  first : ∀ x tl, post ++ rest.take m = x :: tl → Unskipped H tino w0 x
  small : total (pre ++ post) < 2 ^ 63 + 2 ^ 32
  long : total (pre ++ post) + d.length ≤ (w.data tino).length
  grow : (w0.data tino).length ≤ (w.data tino).length
  part : d ≠ [] → m = 1 ∧ ∃ seg rest' c, rest = seg :: rest' ∧ c.length = seg.len ∧ (R → H c = seg.id) ∧ d.length < seg.len ∧ d = c.take d.length
  ver : R → ∀ s ∈ pre ++ post, Verified H (w.data tino) s
  now : slice (w.data tino) (total (pre ++ post)) d.length = d
  frame : ∀ i, i < total pre ∨ total (pre ++ post) + d.length ≤ i → (w.data tino)[i]? = (w0.data tino)[i]?
  log : ∃ evs, w.log = w0.log ++ evs ∧ (∀ e ∈ evs, SyncEv tino e) ∧
    Contig (total pre) (writesOf evs) (total (pre ++ post) + d.length) ∧
    queriesOf evs = runs ((post ++ rest.take m).map (·.id)) ∧
    ∀ e ∈ writesOf evs, ∃ s ∈ segs, PieceFor H R s e.1 e.2

theorem Shape.step {H : Bytes → Id} {bufMax : Nat} {R : Prop} {tino : Nat} {w0 : World} {segs pre post rest : List Seg} {m m' : Nat} {w w' : World}
    (h : Shape H bufMax R tino w0 segs pre post rest m [] w) {evs : List Event} (hc : Calm w w' evs) (he : ∀ e ∈ evs, SyncEv tino e)
    (hw : writesOf evs = []) (hq : runs ((post ++ rest.take m').map (·.id)) = runs ((post ++ rest.take m).map (·.id)) ++ queriesOf evs)
    (hf : ∀ x tl, post ++ rest.take m' = x :: tl → Unskipped H tino w0 x) (hone : m' ≤ 1) :
    Shape H bufMax R tino w0 segs pre post rest m' [] w' := by
  refine ⟨h.split, hone, h.away.trans (hc.away _), h.skip, h.fits, hf, h.small, by rw [hc.data]; exact h.long, by rw [hc.data]; exact h.grow,
    by simp, by rw [hc.data]; exact h.ver, by rw [hc.data]; exact h.now, by rw [hc.data]; exact h.frame, ?_⟩
  obtain ⟨l, l1, l2, l3, l4, l5⟩ := h.log
  refine ⟨l ++ evs, by rw [hc.log, l1, List.append_assoc], ?_, ?_, ?_, ?_⟩
  · intro e hh
    rcases List.mem_append.1 hh with hh | hh
    · exact l2 e hh
    · exact he e hh
  · rw [writesOf_append, hw, List.append_nil]; exact l3
  · rw [queriesOf_append, hq, l4]
  · rw [writesOf_append, hw, List.append_nil]; exact l5

theorem Shape.calm {H : Bytes → Id} {bufMax : Nat} {R : Prop} {tino : Nat} {w0 : World} {segs pre post rest : List Seg} {m : Nat} {w w' : World}
    (h : Shape H bufMax R tino w0 segs pre post rest m [] w) (hc : Calm w w' []) : Shape H bufMax R tino w0 segs pre post rest m [] w' :=
  h.step hc (by simp) rfl (by simp [queriesOf]) h.first h.one

/-- Skipping a matching region. -/
theorem Shape.skipped {H : Bytes → Id} {bufMax : Nat} {R : Prop} {tino : Nat} {w0 : World} {segs pre rest : List Seg} {seg : Seg} {w : World}
    (h : Shape H bufMax R tino w0 segs pre [] (seg :: rest) 0 [] w) (hd : w.data tino = w0.data tino) (hm : Matches H (w0.data tino) seg)
    (hl : seg.len ≤ bufMax) (hoff : seg.off = total pre) (hs : total pre + seg.len < 2 ^ 63 + 2 ^ 32) :
    Shape H bufMax R tino w0 segs (pre ++ [seg]) [] rest 0 [] w := by
  have ht : total (pre ++ [seg]) = total pre + seg.len := by simp [total_append, total_cons, total_nil]
  have hlen : total pre + seg.len ≤ (w0.data tino).length := by
    by_cases h0 : seg.len = 0
    · have h1 := h.long
      rw [hd] at h1
      simp at h1
      omega
    · have := hm.1
      unfold slice at this
      simp only [List.length_take, List.length_drop] at this
      omega
  refine ⟨by rw [h.split]; simp, Nat.zero_le _, h.away, ?_, by simp, by simp, by simp [ht]; omega, by simp [ht, hd]; omega, h.grow, by simp, ?_, by simp [slice], ?_, ?_⟩
  · intro s hs
    rcases List.mem_append.1 hs with hs | hs
    · exact h.skip s hs
    · simp at hs; subst hs; exact ⟨hm, hl⟩
  · intro _ s hs _
    rw [hd]
    simp only [List.append_nil] at hs
    rcases List.mem_append.1 hs with hs | hs
    · exact (h.skip s hs).1
    · simp at hs; subst hs; exact hm
  · intro i _; rw [hd]
  · obtain ⟨l, l1, l2, l3, l4, l5⟩ := h.log
    simp only [List.append_nil, List.length_nil, Nat.add_zero, List.take_zero, List.map_nil] at l3 l4 ⊢
    refine ⟨l, l1, l2, ?_, l4, l5⟩
    have e : writesOf l = [] := by
      have := l3.end_eq
      cases hw : writesOf l with
      | nil => rfl
      | cons x xs =>
        obtain ⟨o, dd⟩ := x
        rw [hw] at l3 this
        simp only [Contig] at l3
        simp only [List.map_cons, List.flatten_cons, List.length_append] at this
        have : dd.length = 0 := by omega
        exact absurd (List.length_eq_zero_iff.1 this) l3.2.1
    rw [e]
    simp [Contig]

/-- What is known about the regions of an index. -/
def SegsOk (segs : List Seg) : Prop := ∀ done seg rest, segs = done ++ seg :: rest →
  seg.off = total done % 2 ^ 64 ∧ seg.len < 2 ^ 32 ∧ seg.id.length = 32

theorem Shape.offs {H : Bytes → Id} {bufMax : Nat} {R : Prop} {tino : Nat} {w0 : World} {segs pre post rest : List Seg} {m : Nat} {d : Bytes} {w : World}
    (h : Shape H bufMax R tino w0 segs pre post rest m d w) (hso : SegsOk segs) {a b : List Seg} {s : Seg} (e : pre ++ post = a ++ s :: b) :
    s.off = total a ∧ total a + s.len ≤ total (pre ++ post) := by
  have h1 := h.split
  rw [e, List.append_assoc, List.cons_append] at h1
  have h2 := (hso _ _ _ h1).1
  have h3 := h.small
  have h4 : total (pre ++ post) = total a + (s.len + total b) := by rw [e, total_append, total_cons]
  omega

theorem Shape.mem_off {H : Bytes → Id} {bufMax : Nat} {R : Prop} {tino : Nat} {w0 : World} {segs pre post rest : List Seg} {m : Nat} {d : Bytes} {w : World}
    (h : Shape H bufMax R tino w0 segs pre post rest m d w) (hso : SegsOk segs) {s : Seg} (e : s ∈ pre ++ post) :
    s.off + s.len ≤ total (pre ++ post) := by
  obtain ⟨a, b, e⟩ := List.append_of_mem e
  have := h.offs hso e
  omega

theorem Shape.next_off {H : Bytes → Id} {bufMax : Nat} {R : Prop} {tino : Nat} {w0 : World} {segs pre post rest : List Seg} {m : Nat} {d : Bytes} {w : World} {seg : Seg}
    (h : Shape H bufMax R tino w0 segs pre post (seg :: rest) m d w) (hso : SegsOk segs) : seg.off = total (pre ++ post) := by
  have h2 := (hso _ _ _ h.split).1
  have h3 := h.small
  omega

theorem contig_ne {a b : Nat} {ws : List (Nat × Bytes)} (h : Contig a ws b) : ∀ e ∈ ws, e.2 ≠ [] := by
  induction ws generalizing a with
  | nil => simp
  | cons x xs ih =>
    obtain ⟨o, d⟩ := x
    intro e he
    rcases List.mem_cons.1 he with he | he
    · subst he; exact h.2.1
    · exact ih h.2.2 e he

/-- Facts about the target and the log after writing `d` at the end of `post`. -/
theorem Shape.written {H : Bytes → Id} {bufMax : Nat} {R : Prop} {tino : Nat} {w0 : World} {segs pre post rest : List Seg} {seg : Seg} {w w' : World}
    (h : Shape H bufMax R tino w0 segs pre post (seg :: rest) 1 [] w) {c d : Bytes} {evs : List (Nat × Bytes)} {r : List Sys} {mm : List Bool}
    (hw' : w' = { wrote w tino seg.off d evs r with mem := mm }) (hr : r <:+ w.sys) (hmm : mm <:+ w.mem)
    (hso : SegsOk segs) (hc : c.length = seg.len) (hR : R → seg.len ≠ 0 → H c = seg.id) (hd : d = c.take d.length)
    (hp : PiecesOf seg.off d evs) :
    Away tino w0 w' ∧ total (pre ++ post) + d.length ≤ (w'.data tino).length ∧ (w0.data tino).length ≤ (w'.data tino).length ∧
    (R → ∀ s ∈ pre ++ post, Verified H (w'.data tino) s) ∧ slice (w'.data tino) (total (pre ++ post)) d.length = d ∧
    (∀ i, i < total pre ∨ total (pre ++ post) + d.length ≤ i → (w'.data tino)[i]? = (w0.data tino)[i]?) ∧
    ∃ evs, w'.log = w0.log ++ evs ∧ (∀ e ∈ evs, SyncEv tino e) ∧
    Contig (total pre) (writesOf evs) (total (pre ++ post) + d.length) ∧
    queriesOf evs = runs ((post ++ [seg]).map (·.id)) ∧
    ∀ e ∈ writesOf evs, ∃ s ∈ segs, PieceFor H R s e.1 e.2 := by
  have hoff := h.next_off hso
  have hdat : w'.data tino = writeAt (w.data tino) seg.off d := by rw [hw']; simp [wrote]
  have hlong := h.long
  have hdl : d.length ≤ seg.len := by rw [hd, ← hc]; simp; omega
  simp only [List.length_nil, Nat.add_zero] at hlong
  have hge := writeAt_length_ge (w.data tino) seg.off d
  refine ⟨?_, ?_, ?_, ?_, ?_, ?_, ?_⟩
  · refine h.away.trans ⟨?_, ?_, ?_, ?_, ?_, ?_, ?_⟩
    · intro i hi; rw [hw']; simp [wrote, hi]
    all_goals rw [hw']
    all_goals try rfl
    · exact hr
    · exact hmm
    · exact List.suffix_refl _
  · rw [hdat]
    by_cases h0 : d = []
    · subst h0; simp [writeAt_nil]; exact hlong
    · rw [writeAt_length _ _ _ h0]; omega
  · rw [hdat]; have := h.grow; omega
  · intro hRR s hs hne
    have hv := h.ver hRR s hs hne
    rw [hdat]
    have hin := h.mem_off hso hs
    unfold Matches
    rw [slice_writeAt_disjoint _ _ _ _ _ (by omega) (by omega)]
    exact hv
  · rw [hdat, ← hoff]; exact slice_writeAt _ _ _
  · intro i hi
    rw [hdat, writeAt_patched (w.data tino) seg.off d i]
    have htp : total (pre ++ post) = total pre + total post := total_append _ _
    rw [if_neg (by omega)]
    have hf := h.frame i (by simp; omega)
    by_cases hil : i < (w.data tino).length
    · rw [if_pos hil]; exact hf
    · rw [if_neg hil, if_neg (by omega), ← hf, List.getElem?_eq_none (by omega)]
  · obtain ⟨l, l1, l2, l3, l4, l5⟩ := h.log
    obtain ⟨p1, p2, p3⟩ := hp
    refine ⟨l ++ evs.map (fun e => Event.write tino e.1 e.2), ?_, ?_, ?_, ?_, ?_⟩
    · rw [hw']; simp only [wrote]; rw [l1, List.append_assoc]
    · intro e he
      rcases List.mem_append.1 he with he | he
      · exact l2 e he
      · rw [List.mem_map] at he
        obtain ⟨x, _, rfl⟩ := he
        exact Or.inl ⟨_, _, rfl⟩
    · rw [writesOf_append, writesOf_map]
      refine l3.append ?_
      rw [← hoff]; exact p2
    · rw [queriesOf_append, queriesOf_map, List.append_nil, l4]; simp
    · intro e he
      rw [writesOf_append, writesOf_map] at he
      rcases List.mem_append.1 he with he | he
      · exact l5 e he
      · obtain ⟨j, j1, j2, j3⟩ := p3 e he
        have hne := List.length_pos_iff.2 (contig_ne p2 e he)
        refine ⟨seg, by rw [h.split]; simp, c, hc, fun hRR => hR hRR (by omega), j, j1, by omega, ?_⟩
        rw [j2, hd]
        unfold slice
        simp only [List.drop_take, List.take_take, List.length_take, List.length_drop]
        congr 1
        omega

theorem Shape.partly {H : Bytes → Id} {bufMax : Nat} {R : Prop} {tino : Nat} {w0 : World} {segs pre post rest : List Seg} {seg : Seg} {w : World}
    (h : Shape H bufMax R tino w0 segs pre post (seg :: rest) 1 [] w) {c : Bytes} {evs : List (Nat × Bytes)} {r : List Sys} {k : Nat}
    (hr : r <:+ w.sys) (hso : SegsOk segs) (hc : c.length = seg.len) (hR : R → seg.len ≠ 0 → H c = seg.id) (hk : k < seg.len)
    (hp : PiecesOf seg.off (c.take k) evs) :
    Shape H bufMax R tino w0 segs pre post (seg :: rest) 1 (c.take k) (wrote w tino seg.off (c.take k) evs r) := by
  have hl : (c.take k).length = k := by simp; omega
  obtain ⟨a1, a2, a3, a4, a5, a6, a7⟩ := h.written (w' := wrote w tino seg.off (c.take k) evs r) (mm := w.mem) (c := c) rfl hr (List.suffix_refl _) hso hc hR
    (by rw [hl]) hp
  refine ⟨h.split, Nat.le_refl _, a1, h.skip, h.fits, h.first, h.small, a2, a3, fun _ => ⟨rfl, seg, rest, c, rfl, hc, fun hRR => hR hRR (by omega), by omega, by rw [hl]⟩, a4, a5, a6, ?_⟩
  obtain ⟨l, l1, l2, l3, l4, l5⟩ := a7
  exact ⟨l, l1, l2, l3, by rw [l4]; simp, l5⟩

theorem Shape.complete {H : Bytes → Id} {bufMax : Nat} {R : Prop} {tino : Nat} {w0 : World} {segs pre post rest : List Seg} {seg : Seg} {w w' : World}
    (h : Shape H bufMax R tino w0 segs pre post (seg :: rest) 1 [] w) {c : Bytes} {evs : List (Nat × Bytes)} {r : List Sys} {mm : List Bool}
    (hw' : w' = { wrote w tino seg.off c evs r with mem := mm }) (hr : r <:+ w.sys) (hmm : mm <:+ w.mem)
    (hso : SegsOk segs) (hc : c.length = seg.len) (hR : R → seg.len ≠ 0 → H c = seg.id) (hs : 0 < seg.len → seg.off < 2 ^ 63)
    (hfit : seg.len ≤ bufMax) (hp : PiecesOf seg.off c evs) :
    Shape H bufMax R tino w0 segs pre (post ++ [seg]) rest 0 [] w' := by
  have hoff := h.next_off hso
  have hlen := (hso _ _ _ h.split).2.1
  obtain ⟨a1, a2, a3, a4, a5, a6, a7⟩ := h.written hw' hr hmm hso hc hR (by rw [List.take_length]) hp
  have ht : total (pre ++ (post ++ [seg])) = total (pre ++ post) + seg.len := by
    rw [← List.append_assoc, total_append (pre ++ post), total_cons, total_nil]; omega
  refine ⟨by rw [h.split]; simp, Nat.zero_le _, a1, h.skip, ?_, ?_, ?_, by simp only [ht, List.length_nil]; omega, a3, by simp, ?_, by simp [slice], ?_, ?_⟩
  · intro s hs
    rcases List.mem_append.1 hs with hs | hs
    · exact h.fits s hs
    · simp at hs; subst hs; exact hfit
  · intro x tl hx
    exact h.first x tl (by simpa using hx)
  · have := h.small
    by_cases h0 : 0 < seg.len
    · have := hs h0; omega
    · omega
  · intro hRR s hs
    rw [← List.append_assoc] at hs
    rcases List.mem_append.1 hs with hs | hs
    · exact a4 hRR s hs
    · simp at hs
      subst hs
      intro hne
      unfold Matches
      rw [hoff, ← hc, a5]
      exact ⟨rfl, hR hRR hne⟩
  · intro i hi
    exact a6 i (by simp only [List.length_nil] at hi; omega)
  · obtain ⟨l, l1, l2, l3, l4, l5⟩ := a7
    refine ⟨l, l1, l2, ?_, by rw [l4]; simp, l5⟩
    simp only [List.length_nil, Nat.add_zero]
    rw [ht, ← hc]
    exact l3

end Csn.Proof
