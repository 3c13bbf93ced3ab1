import Verif.Spec.Shared
import Verif.Proof.Race
import Verif.Proof.Io
/-
Proofs about several runs of csn on the same target (C87).
-/
namespace Csn.Race
open Csn.Props
open Csn.Spec (slice Regular Patched)

theorem mem_byBytes {α : Type} {f : Nat → UInt8 → α} {a : α} : ∀ {d : Bytes} {off : Nat}, a ∈ byBytes f off d → ∃ i b, d[i]? = some b ∧ a = f (off + i) b
  | b :: d, off, h => by
    rcases List.mem_cons.1 h with h | h
    · exact ⟨0, b, rfl, h⟩
    · obtain ⟨i, c, h1, h2⟩ := mem_byBytes h
      exact ⟨i + 1, c, by simpa using h1, by rw [h2, show off + 1 + i = off + (i + 1) by omega]⟩

theorem byBytes_mem {α : Type} {f : Nat → UInt8 → α} : ∀ {d : Bytes} {off i : Nat} {b : UInt8}, d[i]? = some b → f (off + i) b ∈ byBytes f off d
  | [], _, _, _, h => by simp at h
  | c :: d, off, 0, b, h => by
    simp at h
    subst h
    exact List.mem_cons_self
  | c :: d, off, i + 1, b, h => by
    have := byBytes_mem (f := f) (d := d) (off := off + 1) (i := i) (b := b) (by simpa using h)
    rw [show off + 1 + i = off + (i + 1) by omega] at this
    exact List.mem_cons_of_mem _ this

/-- An access belongs to a step; the accesses of the steps before it come before. -/
theorem _root_.Csn.Props.Performs.split {ε α : Type} {acc : ε → List α} {log : List ε} {as : List α} (h : Performs acc log as) : ∀ {x y : List α} {a : α}, as = x ++ a :: y →
    ∃ l1 e l2 x1 u, log = l1 ++ e :: l2 ∧ Performs acc l1 x1 ∧ x = x1 ++ u ∧ a ∈ acc e := by
  induction h with
  | done => intro x y a h; simp at h
  | @step e log as bs hp _ ih =>
    intro x y a h
    rcases List.append_eq_append_iff.1 h with ⟨z, h1, h2⟩ | ⟨z, h1, h2⟩
    · obtain ⟨l1, e', l2, x1, u, g1, g2, g3, g4⟩ := ih h2
      exact ⟨e :: l1, e', l2, as ++ x1, u, by rw [g1]; rfl, .step hp g2, by rw [h1, g3, List.append_assoc], g4⟩
    · cases z with
      | nil =>
        simp only [List.nil_append] at h2
        obtain ⟨l1, e', l2, x1, u, g1, g2, g3, g4⟩ := ih (x := []) h2.symm
        rw [List.append_nil] at h1
        exact ⟨e :: l1, e', l2, as ++ x1, u, by rw [g1]; rfl, .step hp g2, by rw [h1, List.append_assoc, ← g3, List.append_nil], g4⟩
      | cons a' z =>
        simp only [List.cons_append, List.cons.injEq] at h2
        obtain ⟨rfl, -⟩ := h2
        exact ⟨[], e, log, [], x, rfl, .done, rfl, hp.mem_iff.1 (by rw [h1]; simp)⟩

/-- The accesses of a step come after those of the steps before it. -/
theorem performs_at {ε α : Type} {acc : ε → List α} {e : ε} {m2 : List ε} : ∀ {m1 : List ε} {as : List α}, Performs acc (m1 ++ e :: m2) as →
    ∃ y1 ye y2, as = y1 ++ ye ++ y2 ∧ Performs acc m1 y1 ∧ ye.Perm (acc e) ∧ Performs acc m2 y2
  | [], _, .step hp h => ⟨[], _, _, rfl, .done, hp, h⟩
  | _ :: _, _, .step hp h => by
    obtain ⟨y1, ye, y2, h1, h2, h3, h4⟩ := performs_at h
    exact ⟨_ ++ y1, ye, y2, by rw [h1]; simp, .step hp h2, h3, h4⟩

theorem _root_.Csn.Props.Performs.mem {ε α : Type} {acc : ε → List α} {log : List ε} {as : List α} (h : Performs acc log as) {e : ε} (he : e ∈ log) {a : α} (ha : a ∈ acc e) : a ∈ as := by
  obtain ⟨m1, m2, rfl⟩ := List.append_of_mem he
  obtain ⟨y1, ye, y2, h1, -, h3, -⟩ := performs_at h
  rw [h1]
  exact List.mem_append_left _ (List.mem_append_right _ (h3.mem_iff.2 ha))

theorem doneBy_append {α : Type} (p : Nat) : ∀ h1 h2 : List (Nat × α), doneBy p (h1 ++ h2) = doneBy p h1 ++ doneBy p h2
  | [], _ => rfl
  | (q, a) :: h1, h2 => by
    simp only [List.cons_append, doneBy, doneBy_append p h1 h2]
    split <;> rfl

theorem doneBy_split {α : Type} {p : Nat} {a : α} : ∀ {h : List (Nat × α)} {x y : List α}, doneBy p h = x ++ a :: y →
    ∃ g1 g2, h = g1 ++ (p, a) :: g2 ∧ doneBy p g1 = x ∧ doneBy p g2 = y
  | [], x, y, h => by simp [doneBy] at h
  | (q, c) :: h, x, y, e => by
    simp only [doneBy] at e
    split at e
    · next hq =>
      subst hq
      cases x with
      | nil =>
        simp only [List.nil_append, List.cons.injEq] at e
        exact ⟨[], h, by rw [e.1]; rfl, rfl, e.2⟩
      | cons c' x =>
        simp only [List.cons_append, List.cons.injEq] at e
        obtain ⟨g1, g2, h1, h2, h3⟩ := doneBy_split e.2
        exact ⟨(q, c) :: g1, g2, by rw [h1]; rfl, by simp [doneBy, h2, e.1], h3⟩
    · next hq =>
      obtain ⟨g1, g2, h1, h2, h3⟩ := doneBy_split e
      exact ⟨(q, c) :: g1, g2, by rw [h1]; rfl, by simp [doneBy, h2, hq], h3⟩

theorem contents_append : ∀ (h1 h2 : Trace) (f : Bytes), contents f (h1 ++ h2) = contents (contents f h1) h2
  | [], _, _ => rfl
  | (_, .get _ _) :: h1, h2, f => contents_append h1 h2 f
  | (_, .put _ _) :: h1, h2, _ => contents_append h1 h2 _

theorem coherent_append : ∀ (h1 h2 : Trace) (f : Bytes), Coherent f (h1 ++ h2) ↔ Coherent f h1 ∧ Coherent (contents f h1) h2
  | [], _, _ => by simp [Coherent, contents]
  | (_, .get _ _) :: h1, h2, f => by
    simp only [List.cons_append, Coherent, contents, coherent_append h1 h2 f, and_assoc]
  | (_, .put _ _) :: h1, h2, _ => coherent_append h1 h2 _

/-- All that is written is as in the image. -/
def PutsRight (img : Bytes) (h : Trace) : Prop := ∀ p off b, (p, Acc.put off b) ∈ h → img[off]? = some b

theorem writeAt_one (f : Bytes) (o : Nat) (b : UInt8) : (writeAt f o [b])[o]? = some b := by
  rw [Proof.writeAt_patched f o [b] o, if_pos (by simp)]
  simp

theorem writeAt_keeps {f img : Bytes} {o i : Nat} {b x : UInt8} (hb : img[o]? = some b) (hx : img[i]? = some x) (h : f[i]? = some x) :
    (writeAt f o [b])[i]? = some x := by
  by_cases hi : i = o
  · subst hi
    rw [writeAt_one, ← hb, hx]
  · rw [Proof.writeAt_patched f o [b] i, if_neg (by simp; omega), if_pos (List.getElem?_eq_some_iff.1 h).1, h]

theorem contents_keeps {img : Bytes} {i : Nat} {x : UInt8} (hx : img[i]? = some x) : ∀ {h : Trace} {f : Bytes}, PutsRight img h →
    f[i]? = some x → (contents f h)[i]? = some x
  | [], _, _, hf => hf
  | (_, .get _ _) :: h, _, hp, hf => contents_keeps hx (h := h) (fun p o b hm => hp p o b (List.mem_cons_of_mem _ hm)) hf
  | (q, .put o b) :: h, _, hp, hf =>
    contents_keeps hx (h := h) (fun p o b hm => hp p o b (List.mem_cons_of_mem _ hm)) (writeAt_keeps (hp q o b List.mem_cons_self) hx hf)

theorem slice_get {f : Bytes} {o n i : Nat} (h : i < n) : (slice f o n)[i]? = f[o + i]? := by
  unfold slice
  rw [List.getElem?_take_of_lt h, List.getElem?_drop]

variable {H : Bytes → Id} {kernel : Bool} {segs : List Seg} {srcs : List Source} {log : List Ev} {img f : Bytes}

/-- What csn takes for the chunk of a region, and has its length, is the one of the image. -/
theorem takes_slice {s : Seg} {c x : Bytes} (hn : s.len ≠ 0) (hx : x.length = s.len)
    (h : ∀ c : Bytes, c.length = s.len ∨ kernel = true ∧ c.length ≤ s.len → H c = s.id → c = x) (hc : c.length = s.len) (ht : Takes H kernel c s.id) : c = x := by
  rcases ht with ht | ⟨hk, k, ht⟩
  · exact h c (Or.inl hc) ht
  · have hd := h (c.drop k) (Or.inr ⟨hk, by rw [List.length_drop]; omega⟩) ht
    have hl := congrArg List.length hd
    rw [List.length_drop, hx] at hl
    have h0 : k = 0 := by omega
    rw [h0, List.drop_zero] at hd
    exact hd

theorem slice_length {f : Bytes} {o n : Nat} (h : o + n ≤ f.length) : (slice f o n).length = n := by
  unfold slice
  rw [List.length_take, List.length_drop]
  omega

/-- What process `p` has finished is right. -/
theorem finished_right {p : Nat} {g : Trace} {m : List Ev} {y : List Acc} {s : Seg} (hpt : PutsRight img g) (hco : Coherent f g) (hper : Performs accesses m y)
    (hy : ∀ a ∈ y, a ∈ doneBy p g) (hso : SoundRun (Takes H kernel) srcs m) (himg : HasRegions H kernel img segs) (hs : s ∈ m.filterMap finished) (hm : s ∈ segs)
    (hn : s.len ≠ 0) (i : Nat) (hi : i < s.len) : ∃ x, img[s.off + i]? = some x ∧ (contents f g)[s.off + i]? = some x := by
  obtain ⟨b1, b2, b3⟩ := himg s hm hn
  obtain ⟨e, he, hf⟩ := List.mem_filterMap.1 hs
  obtain ⟨x, hx⟩ : ∃ x, img[s.off + i]? = some x := ⟨_, List.getElem?_eq_getElem (by omega)⟩
  refine ⟨x, hx, ?_⟩
  obtain ⟨a, b, hab⟩ := List.append_of_mem he
  have hsa := hso a e b hab
  -- the access that finished this byte
  have key : ∀ acc, acc ∈ accesses e → (acc = .get (s.off + i) x ∨ ∃ z, acc = .put (s.off + i) z) → (contents f g)[s.off + i]? = some x := by
    intro acc hacc hw
    have hmem := hy acc (hper.mem he hacc)
    obtain ⟨u, v, huv⟩ := List.append_of_mem hmem
    obtain ⟨g1, g2, hg, -⟩ := doneBy_split huv
    have hp2 : PutsRight img g2 := fun p o b hm => hpt p o b (by rw [hg]; exact List.mem_append_right _ (List.mem_cons_of_mem _ hm))
    rw [hg, contents_append]
    rw [hg, coherent_append] at hco
    rcases hw with rfl | ⟨z, rfl⟩
    · exact contents_keeps (h := g2) hx hp2 hco.2.1
    · have hz := hpt p (s.off + i) z (by rw [hg]; simp)
      rw [hx] at hz
      cases hz
      exact contents_keeps (h := g2) hx hp2 (writeAt_one _ _ _)
  cases e with
  | wrote s' d ok =>
    cases ok with
    | false => simp [finished] at hf
    | true =>
      simp only [finished, Option.some.injEq] at hf
      subst hf
      obtain ⟨c, c1, -, c3, -⟩ := hsa
      have hd := c3 rfl
      obtain ⟨z, hz⟩ : ∃ z, d[i]? = some z := ⟨_, List.getElem?_eq_getElem (by rw [hd]; omega)⟩
      exact key _ (byBytes_mem (f := Acc.put) hz) (Or.inr ⟨z, rfl⟩)
  | kept s' d =>
    simp only [finished, Option.some.injEq] at hf
    subst hf
    obtain ⟨d1, d2⟩ := hsa
    have hd := takes_slice hn (slice_length b1) b3 d1 d2
    have hz : d[i]? = some x := by rw [hd, slice_get hi, hx]
    exact key _ (byBytes_mem (f := Acc.get) hz) (Or.inl rfl)
  | trusted => simp [finished] at hf
  | right => simp [finished] at hf
  | rescan => simp [finished] at hf

/-- The next byte written is right. -/
theorem put_right {p off : Nat} {b : UInt8} {g g2 : Trace} (hpt : PutsRight img g) (hco : Coherent f (g ++ (p, .put off b) :: g2))
    (hper : Performs accesses log (doneBy p (g ++ (p, .put off b) :: g2))) (hk : K ⟨H, kernel⟩ segs srcs log) (himg : HasRegions H kernel img segs) (hse : SeedsRight H log) :
    img[off]? = some b ∧ ∃ s ∈ segs, s.off ≤ off ∧ off < s.off + s.len := by
  have hd : doneBy p (g ++ (p, .put off b) :: g2) = doneBy p g ++ .put off b :: doneBy p g2 := by rw [doneBy_append]; simp [doneBy]
  obtain ⟨l1, e, l2, x1, u, h1, h2, h3, h4⟩ := hper.split hd
  have hco1 := ((coherent_append _ _ _).1 hco).1
  cases e with
  | wrote s d ok =>
    obtain ⟨i, b', hi, hb⟩ := mem_byBytes (f := Acc.put) h4
    simp only [Acc.put.injEq] at hb
    obtain ⟨rfl, rfl⟩ := hb
    obtain ⟨c, c1, c2, c3, c4⟩ := hk.sound l1 _ l2 h1
    have hil := (List.getElem?_eq_some_iff.1 hi).1
    have hci : c[i]? = some b := by
      rw [c2, List.getElem?_take] at hi
      rw [if_pos hil] at hi
      exact hi
    have hic : i < s.len := by rw [← c1]; exact (List.getElem?_eq_some_iff.1 hci).1
    have hn : s.len ≠ 0 := by omega
    have hsm : s ∈ segs := (hk.next l1 _ l2 h1 s rfl).subset (by simp)
    obtain ⟨b1, b2, b3⟩ := himg s hsm hn
    have hH : Takes H kernel c s.id := by
      rcases c4 hn with h | ⟨k, o, h⟩
      · exact h
      · cases k with
        | some k => exact Or.inl <| hse k s.id o c (by rw [h1]; exact List.mem_append_left _ h)
        | none =>
          obtain ⟨m1, m2, hm⟩ := List.append_of_mem h
          have hlog : log = m1 ++ .trusted none s.id o c :: (m2 ++ .wrote s d ok :: l2) := by rw [h1, hm]; simp
          obtain ⟨-, hfin⟩ := hk.sound m1 _ _ hlog
          rw [hm] at h2
          obtain ⟨y1, ye, y2, e1, e2, e3, -⟩ := performs_at h2
          have hsub : ∀ s, s ∈ m1.filterMap finished → s ∈ segs := fun s hs =>
            hk.done.subset (by rw [hlog, List.filterMap_append]; exact List.mem_append_left _ hs)
          rw [c1] at hfin
          have hseg := hsub _ hfin
          obtain ⟨a1, a2, a3⟩ := himg _ hseg hn
          refine Or.inl ?_
          rw [← a2]
          congr 1
          refine List.ext_getElem? fun j => ?_
          by_cases hj : j < s.len
          · rw [slice_get hj]
            obtain ⟨z, hz⟩ : ∃ z, c[j]? = some z := ⟨_, List.getElem?_eq_getElem (by omega)⟩
            have hacc : Acc.get (o + j) z ∈ ye := e3.mem_iff.2 (byBytes_mem (f := Acc.get) hz)
            obtain ⟨u1, u2, hu⟩ := List.append_of_mem hacc
            obtain ⟨k1, k2, hkk, hk1, -⟩ := doneBy_split (h := g) (p := p) (a := .get (o + j) z) (x := y1 ++ u1) (y := u2 ++ y2 ++ u) (by
              rw [h3, e1, hu]; simp)
            have hp1 : PutsRight img k1 := fun p o b hm => hpt p o b (by rw [hkk]; exact List.mem_append_left _ hm)
            rw [hkk, coherent_append] at hco1
            obtain ⟨q1, q2, q3⟩ := hco1
            obtain ⟨x, hx1, hx2⟩ := finished_right (p := p) (s := ⟨o, s.len, s.id⟩) hp1 q1 e2 (fun a ha => by rw [hk1]; exact List.mem_append_left _ ha)
              (fun a e b hab => hk.sound a e _ (by rw [hlog, hab, List.append_assoc]; rfl)) himg hfin hseg hn j hj
            simp only at hx1 hx2
            rw [hx2] at q2
            rw [hz, hx1, ← q2]
          · rw [List.getElem?_eq_none (by omega), List.getElem?_eq_none (by unfold slice; simp; omega)]
    have hc := takes_slice hn (slice_length b1) b3 c1 hH
    refine ⟨?_, s, hsm, by omega, by omega⟩
    rw [hc, slice_get hic] at hci
    exact hci
  | kept s d =>
    obtain ⟨i, b', hi, hb⟩ := mem_byBytes (f := Acc.get) h4
    simp at hb
  | trusted k id o d =>
    cases k with
    | none =>
      obtain ⟨i, b', hi, hb⟩ := mem_byBytes (f := Acc.get) h4
      simp at hb
    | some k => simp [accesses] at h4
  | right => simp [accesses] at h4
  | rescan => simp [accesses] at h4

end Csn.Race
