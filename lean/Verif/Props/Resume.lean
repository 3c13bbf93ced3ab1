import Verif.Props.Sync
import Verif.Proof.RunOk
/-
C31-C33: resumption of interrupted and repeated synchronisations.
-/
namespace Csn.Props
open Csn Spec Proof

theorem runs_prefix (a b : List Id) : runs a <+: runs (a ++ b) := by
  induction b generalizing a with
  | nil => simp
  | cons x b ih =>
    have h1 := ih (a ++ [x])
    rw [List.append_assoc, List.singleton_append] at h1
    refine List.IsPrefix.trans ?_ h1
    rw [runs_snoc]
    split
    · exact List.prefix_refl _
    · exact List.prefix_append _ _

/-- The first element that does not satisfy a predicate is determined. -/
theorem first_unique {α : Type} {P : α → Prop} {p r p' r' : List α} {x : α} (e : p ++ x :: r = p' ++ r') (h : ∀ s ∈ p, P s) (hx : ¬ P x)
    (h' : ∀ s ∈ p', P s) (hx' : ∀ y, r'.head? = some y → ¬ P y) : p = p' ∧ r' = x :: r := by
  induction p generalizing p' with
  | nil =>
    cases p' with
    | nil => exact ⟨rfl, by simpa using e.symm⟩
    | cons y p' =>
      simp only [List.nil_append, List.cons_append, List.cons.injEq] at e
      exact absurd (e.1 ▸ h' y (by simp)) hx
  | cons y p ih =>
    cases p' with
    | nil =>
      simp only [List.cons_append, List.nil_append] at e
      exact absurd (h y (by simp)) (hx' y (by rw [← e]; rfl))
    | cons z p' =>
      simp only [List.cons_append, List.cons.injEq] at e
      obtain ⟨g1, g2⟩ := ih e.2 (fun s hs => h s (by simp [hs])) (fun s hs => h' s (by simp [hs]))
      exact ⟨by rw [e.1, g1], g2⟩

theorem Shape.not_matches {H : Bytes → Id} {bufMax : Nat} {R : Prop} {tino : Nat} {w0 : World} {segs pre post rest : List Seg} {m : Nat} {d : Bytes} {w : World}
    (h : Shape H bufMax R tino w0 segs pre post rest m d w) (hso : SegsOk segs) (hc : Clean w0.sys) (hl : (w0.data tino).length < 2 ^ 63)
    {x : Seg} {tl : List Seg} (hx : post ++ rest.take m = x :: tl) : ¬ Matches H (w0.data tino) x ∧ ∃ r, post ++ rest = x :: r := by
  have hr : ∃ r, post ++ rest = x :: r := by
    cases post with
    | cons y post => simp only [List.cons_append, List.cons.injEq] at hx ⊢; exact ⟨_, hx.1, rfl⟩
    | nil =>
      cases rest with
      | nil => simp at hx
      | cons y rest =>
        cases m with
        | zero => simp at hx
        | succ m => simp only [List.nil_append, List.take_succ_cons, List.cons.injEq] at hx ⊢; exact ⟨_, hx.1, rfl⟩
  refine ⟨?_, hr⟩
  rcases h.first x tl hx with h1 | h1 | h1
  · exact h1
  · exact absurd hc h1
  · intro hm
    obtain ⟨r, hr⟩ := hr
    have hsp : segs = pre ++ x :: r := by rw [h.split, List.append_assoc, hr]
    have ho := (hso _ _ _ hsp).1
    have hsm := h.small
    have htp : total (pre ++ post) = total pre + total post := total_append _ _
    by_cases h0 : x.len = 0
    · have := total_le_of_matches (f := w0.data tino) hso hl _ pre _ rfl hsp (fun s hs => (h.skip s hs).1)
      omega
    · have := matches_end hm h0
      omega

/-- What a run that has no read errors skips. -/
theorem Shape.resumed {H : Bytes → Id} {bufMax : Nat} {R : Prop} {tino : Nat} {w0 : World} {segs pre post rest : List Seg} {m : Nat} {d : Bytes} {w : World}
    (h : Shape H bufMax R tino w0 segs pre post rest m d w) (hso : SegsOk segs) (hc : Clean w0.sys) (hl : (w0.data tino).length < 2 ^ 63)
    {p r : List Seg} (hsp : segs = p ++ r) (hp : ∀ s ∈ p, Matches H (w0.data tino) s) (hr : ∀ x, r.head? = some x → ¬ Matches H (w0.data tino) x) :
    (post = [] ∧ rest.take m = [] ∧ d = [] ∧ (rest = [] → r = [] ∧ p = pre)) ∨ (p = pre ∧ r = post ++ rest) := by
  cases hq : post ++ rest.take m with
  | nil =>
    rw [List.append_eq_nil_iff] at hq
    obtain ⟨rfl, hq⟩ := hq
    refine Or.inl ⟨rfl, hq, ?_, fun hn => ?_⟩
    · by_cases hd : d = []
      · exact hd
      · obtain ⟨rfl, seg, rest', _, e, _⟩ := h.part hd
        rw [e] at hq
        simp at hq
    · subst hn
      have e := h.split
      simp only [List.append_nil] at e
      cases r with
      | nil => exact ⟨rfl, by rw [← e, hsp]; simp⟩
      | cons x r =>
        exfalso
        have : x ∈ pre := by rw [← e, hsp]; simp
        exact hr x rfl (h.skip x this).1
  | cons x tl =>
    obtain ⟨h1, r', h2⟩ := Shape.not_matches h hso hc hl hq
    have e : pre ++ x :: r' = p ++ r := by rw [← hsp, h.split, List.append_assoc, h2]
    obtain ⟨g1, g2⟩ := first_unique e (fun s hs => (h.skip s hs).1) h1 hp hr
    exact Or.inr ⟨g1.symm, by rw [g2, h2]⟩

/-- All writes of a gapless sequence lie behind its start. -/
theorem contig_ge {a b : Nat} {ws : List (Nat × Bytes)} (h : Contig a ws b) : ∀ e ∈ ws, a ≤ e.1 ∧ e.1 + e.2.length ≤ b := by
  induction ws generalizing a with
  | nil => simp
  | cons x ws ih =>
    obtain ⟨o, d⟩ := x
    obtain ⟨h1, h2, h3⟩ := h
    have hle : a + d.length ≤ b := by have := h3.end_eq; omega
    intro e he
    rcases List.mem_cons.1 he with he | he
    · subst he
      exact ⟨by simp only; omega, by simp only; omega⟩
    · have := ih h3 e he
      omega

/-- **C31** (partial): a run without failing system calls, whatever its outcome, neither writes to nor queries the stores
for the longest prefix of entries whose regions of the target already have the right hash; if it succeeds it has written
everything behind it, without gaps, and queried the chain for it.  Missing, since false (`C31_refuted`): with a read
error on the target a matching region is written again. -/
theorem C31_resumption_partial (env : Env) (w w' : World) (ipath tpath : Bytes) (stores : List Bytes) (hsc : Scene env w ipath tpath stores) (o : Res Bool)
    (hrun : csnMain env (ipath :: tpath :: stores) w = (o, w')) (segs : List Seg) (hd : Describes w ipath segs)
    (ti : Nat) (ht : w.dir tpath = some ti) (hclean : Clean w.sys) (hlen : (w.data ti).length < 2 ^ 63)
    (pre rest : List Seg) (hsplit : segs = pre ++ rest) (hpre : ∀ s ∈ pre, Matches env.H (w.data ti) s)
    (hrest : ∀ x, rest.head? = some x → ¬ Matches env.H (w.data ti) x) :
    ∃ evs, w'.log = w.log ++ evs ∧ (∀ e ∈ writesOf evs, total pre ≤ e.1) ∧ queriesOf evs <+: runs (rest.map (·.id)) ∧
      (∀ pos < total pre, (w'.data ti)[pos]? = (w.data ti)[pos]?) ∧
      (o = .ok true → Contig (total pre) (writesOf evs) (total segs) ∧ queriesOf evs = runs (rest.map (·.id))) := by
  obtain ⟨pre', post, rest', m, d, hs, h3⟩ := run_shape hsc hrun hd ht
  have hres := Shape.resumed hs (Describes.segsOk hd) hclean hlen hsplit hpre hrest
  obtain ⟨evs, l1, _, l3, l4, _⟩ := hs.log
  refine ⟨evs, l1, ?_⟩
  rcases hres with ⟨rfl, h5, rfl, h6⟩ | ⟨rfl, rfl⟩
  · have hw : writesOf evs = [] := by
      cases hw : writesOf evs with
      | nil => rfl
      | cons e ws =>
        rw [hw] at l3
        have h7 := contig_ge l3 e (by simp)
        have h8 := List.length_pos_iff.2 (contig_ne l3 e (by simp))
        simp at h7
        omega
    rw [h5] at l4
    have hq : queriesOf evs = [] := by simpa [runs] using l4
    refine ⟨by simp [hw], by simp [hq], ?_, ?_⟩
    · intro pos _
      by_cases hp : pos < total pre'
      · exact hs.frame pos (Or.inl hp)
      · exact hs.frame pos (Or.inr (by simp; omega))
    · intro ho
      obtain ⟨g1, g2⟩ := h6 (h3 ho).1
      subst g1 g2
      rw [hw, hq, hsplit]
      simp [Contig, runs]
  · refine ⟨fun e he => (contig_ge l3 e he).1, ?_, fun pos hp => hs.frame pos (Or.inl hp), ?_⟩
    · rw [l4]
      have := runs_prefix ((post ++ rest'.take m).map (·.id)) ((rest'.drop m).map (·.id))
      rw [← List.map_append, List.append_assoc, List.take_append_drop] at this
      exact this
    · intro ho
      obtain ⟨rfl, rfl, rfl⟩ := h3 ho
      simp only [List.append_nil, List.length_nil, Nat.add_zero, List.take_nil] at l3 l4 ⊢
      rw [hsplit]
      simp only [List.append_nil]
      exact ⟨l3, l4⟩

/-- **C31**, with any failing system calls: a run skips some first entries, all of which have the right hash on the
target at the start; from the next entry on it writes everything without gaps as far as it comes, having queried the
chain for it; below, the target stays as it is.  The entry at which skipping ended does not match unless a system call failed
or offsets reach 2^63. -/
theorem C31_any_schedule_partial (env : Env) (w w' : World) (ipath tpath : Bytes) (stores : List Bytes) (hsc : Scene env w ipath tpath stores) (o : Res Bool)
    (hrun : csnMain env (ipath :: tpath :: stores) w = (o, w')) (segs : List Seg) (hd : Describes w ipath segs)
    (ti : Nat) (ht : w.dir tpath = some ti) :
    ∃ pre rest evs upto, segs = pre ++ rest ∧ w'.log = w.log ++ evs ∧ (∀ s ∈ pre, Matches env.H (w.data ti) s) ∧
      Contig (total pre) (writesOf evs) upto ∧ queriesOf evs <+: runs (rest.map (·.id)) ∧
      (∀ pos, pos < total pre ∨ upto ≤ pos → (w'.data ti)[pos]? = (w.data ti)[pos]?) ∧
      (o = .ok true → upto = total segs ∧ queriesOf evs = runs (rest.map (·.id))) ∧
      (queriesOf evs ≠ [] → ∃ x r, rest = x :: r ∧ (¬ Matches env.H (w.data ti) x ∨ ¬ Clean w.sys ∨ 2 ^ 63 ≤ x.off + x.len)) := by
  obtain ⟨pre, post, rest, m, d, hs, h3⟩ := run_shape hsc hrun hd ht
  obtain ⟨evs, l1, _, l3, l4, _⟩ := hs.log
  refine ⟨pre, post ++ rest, evs, _, by rw [hs.split, List.append_assoc], l1, fun s h => (hs.skip s h).1, l3, ?_, hs.frame, ?_, ?_⟩
  · rw [l4]
    have := runs_prefix ((post ++ rest.take m).map (·.id)) ((rest.drop m).map (·.id))
    rw [← List.map_append, List.append_assoc, List.take_append_drop] at this
    exact this
  · intro ho
    obtain ⟨rfl, rfl, rfl⟩ := h3 ho
    have e := hs.split
    rw [List.append_nil] at e
    simp only [List.append_nil, List.length_nil, Nat.add_zero, List.take_nil] at l4 ⊢
    exact ⟨by rw [e], l4⟩
  · intro hne
    rw [l4] at hne
    cases hx : post ++ rest.take m with
    | nil => rw [hx] at hne; exact absurd rfl hne
    | cons x tl =>
      have hu := hs.first x tl hx
      refine ⟨x, tl ++ rest.drop m, ?_, hu⟩
      have : post ++ rest = (post ++ rest.take m) ++ rest.drop m := by rw [List.append_assoc, List.take_append_drop]
      rw [this, hx]
      rfl

/-! ### C32 -/

theorem split_matching {α : Type} (P : α → Prop) : ∀ l : List α, ∃ p r, l = p ++ r ∧ (∀ s ∈ p, P s) ∧ ∀ x, r.head? = some x → ¬ P x
  | [] => ⟨[], [], rfl, by simp, by simp⟩
  | a :: l => by
    by_cases h : P a
    · obtain ⟨p, r, h1, h2, h3⟩ := split_matching P l
      refine ⟨a :: p, r, by rw [h1]; rfl, ?_, h3⟩
      intro s hs
      rcases List.mem_cons.1 hs with hs | hs
      · rw [hs]; exact h
      · exact h2 s hs
    · exact ⟨[], a :: l, rfl, by simp, by simp [h]⟩

theorem total_take_le (l : List Seg) (k : Nat) : total (l.take k) ≤ total l := by
  have : total l = total (l.take k) + total (l.drop k) := by rw [← total_append, List.take_append_drop]
  omega

/-- **C32** (partial): if a first run, whatever its outcome, has written something of entry `k` or a later one, then a second
run - without failing system calls, with the same index, and the target as the first run left it, but possibly with other
stores - writes nothing before entry `k` and asks no store for the entries before it.  Missing: indices with empty entries
among the first `k`, or with neighbouring entries of the same ID and different lengths (`C32_refuted`). -/
theorem C32_forward_progress_partial (env : Env) (w w1 w2 w3 : World) (ipath tpath ipath2 tpath2 : Bytes) (stores stores2 : List Bytes)
    (hsc : Scene env w ipath tpath stores) (o o2 : Res Bool) (hrun : csnMain env (ipath :: tpath :: stores) w = (o, w1))
    (segs : List Seg) (hd : Describes w ipath segs) (hreg : Regular segs) (ti : Nat) (ht : w.dir tpath = some ti)
    (evs : List Event) (hlog : w1.log = w.log ++ evs) (k : Nat) (hk : ∃ e ∈ writesOf evs, total (segs.take k) ≤ e.1)
    (hz : ∀ s ∈ segs.take k, s.len ≠ 0)
    (hsc2 : Scene env w2 ipath2 tpath2 stores2) (hd2 : Describes w2 ipath2 segs) (ti2 : Nat) (ht2 : w2.dir tpath2 = some ti2)
    (hdata : w2.data ti2 = w1.data ti) (hclean : Clean w2.sys) (hlen : (w2.data ti2).length < 2 ^ 63)
    (hrun2 : csnMain env (ipath2 :: tpath2 :: stores2) w2 = (o2, w3)) :
    ∃ evs2, w3.log = w2.log ++ evs2 ∧ (∀ e ∈ writesOf evs2, total (segs.take k) ≤ e.1) ∧
      ∃ rest, rest <:+ segs.drop k ∧ queriesOf evs2 <+: runs (rest.map (·.id)) := by
  obtain ⟨pre, post, rest, m, d, hs, _⟩ := run_shape hsc hrun hd ht
  obtain ⟨evs', l1, _, l3, _, _⟩ := hs.log
  have : evs' = evs := by rw [hlog] at l1; exact (List.append_cancel_left l1).symm
  subst this
  obtain ⟨e, he, hke⟩ := hk
  have hlt := (contig_ge l3 e he).2
  have hpos := List.length_pos_iff.2 (contig_ne l3 e he)
  -- the first `k` entries are done
  have hdone : segs.take k <+: pre ++ post := by
    have h1 : segs.take k <+: pre ++ post ++ rest := by rw [← hs.split]; exact List.take_prefix _ _
    have h2 : pre ++ post <+: pre ++ post ++ rest := List.prefix_append _ _
    rcases List.prefix_or_prefix_of_prefix h1 h2 with h | h
    · exact h
    · obtain ⟨t, hh⟩ := h
      cases t with
      | nil => rw [← hh]; simp
      | cons x t =>
        exfalso
        rw [← hh, total_append, total_cons] at hke
        have hsp := hs.split
        have hx : ∃ r, rest = x :: r := by
          have h3 := h1
          rw [← hh, List.prefix_append_right_inj] at h3
          obtain ⟨u, hu⟩ := h3
          exact ⟨_, hu.symm⟩
        obtain ⟨r, hx⟩ := hx
        by_cases hd0 : d = []
        · subst hd0; simp at hlt; omega
        · obtain ⟨_, seg, rest', c, r1, r2, _, r3, _⟩ := hs.part hd0
          rw [hx] at r1
          cases r1
          omega
  have hm : ∀ s ∈ segs.take k, Matches env.H (w2.data ti2) s := by
    intro s hss
    rw [hdata]
    exact hs.ver hreg s (hdone.subset hss) (hz s hss)
  obtain ⟨p, r, h1, h2, h3⟩ := split_matching (Matches env.H (w2.data ti2)) segs
  have hkp : segs.take k <+: p := by
    rcases List.prefix_or_prefix_of_prefix (List.take_prefix k segs) (show p <+: segs by rw [h1]; exact List.prefix_append _ _) with h | h
    · exact h
    · obtain ⟨t, hh⟩ := h
      cases t with
      | nil => rw [← hh]; simp
      | cons x t =>
        exfalso
        have h4 : p ++ x :: t <+: p ++ r := by rw [hh, ← h1]; exact List.take_prefix _ _
        rw [List.prefix_append_right_inj] at h4
        obtain ⟨u, hu⟩ := h4
        exact h3 x (by rw [← hu]; rfl) (hm x (by rw [← hh]; simp))
  obtain ⟨evs2, g1, g2, g3, _⟩ := C31_resumption_partial env w2 w3 ipath2 tpath2 stores2 hsc2 o2 hrun2 segs hd2 ti2 ht2 hclean hlen p r h1 h2 h3
  obtain ⟨t, ht⟩ := hkp
  refine ⟨evs2, g1, fun e he => ?_, r, ?_, g3⟩
  · have := g2 e he
    rw [← ht, total_append] at this
    omega
  · refine ⟨t, ?_⟩
    have h4 : segs.take k ++ (t ++ r) = segs.take k ++ segs.drop k := by
      rw [List.take_append_drop, ← List.append_assoc, ht, ← h1]
    exact List.append_cancel_left h4

/-! ### C33 -/

/-- **C33** (partial): a run on a target that a successful run produced - with the same index, possibly other stores, usable
arguments and no failing system calls - succeeds unless it is killed, and in any case issues no write, queries no store
and leaves all files as they are.  Missing, since false (`C33_refuted`): indices with empty entries, or with neighbouring entries of the
same ID and different lengths. -/
theorem C33_second_run_partial (env : Env) (w w1 w2 w3 : World) (ipath tpath ipath2 tpath2 : Bytes) (stores stores2 : List Bytes)
    (hsc : Scene env w ipath tpath stores) (hrun : csnMain env (ipath :: tpath :: stores) w = (.ok true, w1))
    (segs : List Seg) (hd : Describes w ipath segs) (hreg : Regular segs) (hz : ∀ s ∈ segs, s.len ≠ 0) (ti : Nat) (ht : w.dir tpath = some ti)
    (hsc2 : Scene env w2 ipath2 tpath2 stores2) (hu : Usable env w2 ipath2 tpath2 stores2) (hd2 : Describes w2 ipath2 segs)
    (ti2 : Nat) (ht2 : w2.dir tpath2 = some ti2) (hdata : w2.data ti2 = w1.data ti) (o : Res Bool)
    (hrun2 : csnMain env (ipath2 :: tpath2 :: stores2) w2 = (o, w3)) :
    (o = .ok true ∨ o = .stop .killed) ∧ w3.data = w2.data ∧
    ∃ evs, w3.log = w2.log ++ evs ∧ writesOf evs = [] ∧ queriesOf evs = [] := by
  obtain ⟨pre, post, rest, m, d, hs, h3⟩ := run_shape hsc hrun hd ht
  obtain ⟨rfl, rfl, rfl⟩ := h3 rfl
  have hsp := hs.split
  rw [List.append_nil] at hsp
  have hsy : Synced env ti2 w2 segs := by
    refine ⟨fun s h => ?_, fun s h => ⟨hz s h, ?_⟩, hreg⟩
    · rw [hdata]
      exact hs.ver hreg s (hsp ▸ h) (hz s h)
    · rw [hsp] at h
      rcases List.mem_append.1 h with h | h
      · exact (hs.skip s h).2
      · exact hs.fits s h
  constructor
  · have key := run_noop hsc2 hu hd2 ht2 hsy
    cases o with
    | ok r => exact Or.inl (by rw [(wp_ok key hrun2).1])
    | stop s => exact Or.inr (by rw [wp_stopped key hrun2])
  · obtain ⟨pre, post, rest, m, d, hs2, _⟩ := run_shape hsc2 hrun2 hd2 ht2
    have hl := hu.files tpath2 ti2 ht2
    have hres := Shape.resumed hs2 (Describes.segsOk hd2) hu.clean (by omega) (p := segs) (r := []) (by simp) hsy.here (by simp)
    have hnone : post = [] ∧ rest.take m = [] ∧ d = [] := by
      rcases hres with ⟨h1, h2, h4, _⟩ | ⟨_, h⟩
      · exact ⟨h1, h2, h4⟩
      · have h := List.append_eq_nil_iff.1 h.symm
        refine ⟨h.1, by rw [h.2]; simp, ?_⟩
        by_cases hd0 : d = []
        · exact hd0
        · obtain ⟨_, seg, rest', _, e, _⟩ := hs2.part hd0
          rw [h.2] at e; cases e
    obtain ⟨rfl, h2, rfl⟩ := hnone
    obtain ⟨evs, l1, _, l3, l4, _⟩ := hs2.log
    constructor
    · funext i
      by_cases hi : i = ti2
      · subst hi
        apply List.ext_getElem?
        intro pos
        by_cases hp : pos < total pre
        · exact hs2.frame pos (Or.inl hp)
        · exact hs2.frame pos (Or.inr (by simp; omega))
      · exact hs2.away.data i hi
    · refine ⟨evs, l1, ?_, ?_⟩
      · cases hw : writesOf evs with
        | nil => rfl
        | cons e ws =>
          rw [hw] at l3
          have h7 := contig_ge l3 e (by simp)
          have h8 := List.length_pos_iff.2 (contig_ne l3 e (by simp))
          simp at h7
          omega
      · rw [l4, h2]; simp [runs]

end Csn.Props
