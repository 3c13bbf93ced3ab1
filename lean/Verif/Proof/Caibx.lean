import Verif.Model.Caibx
import Verif.Spec.Caibx
import Verif.Spec.Regions
import Verif.Proof.Wp
import Verif.Proof.Chunking
/-
Reading .caibx files.
-/
namespace Csn.Proof
open Csn Spec

theorem or_eq_add {a b k : Nat} (hb : b < 2 ^ k) (ha : 2 ^ k ∣ a) : a ||| b = a + b := by
  obtain ⟨q, hq⟩ := ha
  have : a = q <<< k := by rw [Nat.shiftLeft_eq, hq, Nat.mul_comm]
  rw [this, Nat.shiftLeft_add_eq_or_of_lt hb]

theorem le_take8 (l : Bytes) : le (l.take 8) =
    (l.getD 7 0).toNat * 2 ^ 56 + (l.getD 6 0).toNat * 2 ^ 48 + (l.getD 5 0).toNat * 2 ^ 40 +
    (l.getD 4 0).toNat * 2 ^ 32 + (l.getD 3 0).toNat * 2 ^ 24 + (l.getD 2 0).toNat * 2 ^ 16 +
    (l.getD 1 0).toNat * 2 ^ 8 + (l.getD 0 0).toNat := by
  rcases l with _ | ⟨a0, _ | ⟨a1, _ | ⟨a2, _ | ⟨a3, _ | ⟨a4, _ | ⟨a5, _ | ⟨a6, _ | ⟨a7, l⟩⟩⟩⟩⟩⟩⟩⟩ <;>
    simp [le] <;> omega

theorem unp64le_eq (f : Bytes) (o : Nat) : unp64le f o = field f o := by
  unfold field
  rw [le_take8]
  simp only [List.getD_eq_getElem?_getD, List.getElem?_drop]
  unfold unp64le
  simp only [List.getD_eq_getElem?_getD]
  have h7 := UInt8.toNat_lt (f[o + 7]?.getD 0)
  have h6 := UInt8.toNat_lt (f[o + 6]?.getD 0)
  have h5 := UInt8.toNat_lt (f[o + 5]?.getD 0)
  have h4 := UInt8.toNat_lt (f[o + 4]?.getD 0)
  have h3 := UInt8.toNat_lt (f[o + 3]?.getD 0)
  have h2 := UInt8.toNat_lt (f[o + 2]?.getD 0)
  have h1 := UInt8.toNat_lt (f[o + 1]?.getD 0)
  have h0 := UInt8.toNat_lt (f[o + 0]?.getD 0)
  generalize (f[o + 7]?.getD 0).toNat = x7, (f[o + 6]?.getD 0).toNat = x6, (f[o + 5]?.getD 0).toNat = x5,
    (f[o + 4]?.getD 0).toNat = x4, (f[o + 3]?.getD 0).toNat = x3, (f[o + 2]?.getD 0).toNat = x2,
    (f[o + 1]?.getD 0).toNat = x1, (f[o + 0]?.getD 0).toNat = x0 at *
  simp only [Nat.shiftLeft_eq]
  rw [or_eq_add (a := x7 * 2 ^ 56) (k := 56) (by omega) (by omega)]
  rw [or_eq_add (b := x5 * 2 ^ 40) (k := 48) (by omega) (by omega)]
  rw [or_eq_add (b := x4 * 2 ^ 32) (k := 40) (by omega) (by omega)]
  rw [or_eq_add (b := x3 * 2 ^ 24) (k := 32) (by omega) (by omega)]
  rw [or_eq_add (b := x2 * 2 ^ 16) (k := 24) (by omega) (by omega)]
  rw [or_eq_add (b := x1 * 2 ^ 8) (k := 16) (by omega) (by omega)]
  rw [or_eq_add (b := x0 * 2 ^ 0) (k := 8) (by omega) (by omega)]
  omega

theorem field_lt (f : Bytes) (o : Nat) : field f o < 2 ^ 64 := by
  unfold field
  rw [le_take8]
  have h7 := UInt8.toNat_lt ((f.drop o).getD 7 0)
  have h6 := UInt8.toNat_lt ((f.drop o).getD 6 0)
  have h5 := UInt8.toNat_lt ((f.drop o).getD 5 0)
  have h4 := UInt8.toNat_lt ((f.drop o).getD 4 0)
  have h3 := UInt8.toNat_lt ((f.drop o).getD 3 0)
  have h2 := UInt8.toNat_lt ((f.drop o).getD 2 0)
  have h1 := UInt8.toNat_lt ((f.drop o).getD 1 0)
  have h0 := UInt8.toNat_lt ((f.drop o).getD 0 0)
  omega

theorem field_slice (f : Bytes) (o n k : Nat) (h : k + 8 ≤ n) : field (slice f o n) k = field f (o + k) := by
  unfold field slice
  rw [List.drop_take, List.take_take, List.drop_drop]
  congr 2
  omega

theorem flags_iff (x : Nat) (hx : x < 2 ^ 64) :
    x &&& (2 ^ 64 - 1 - 0xd000000000000000) = 0 ↔
      ∃ a b c, a ≤ 1 ∧ b ≤ 1 ∧ c ≤ 1 ∧ x = a * 2 ^ 63 + b * 2 ^ 62 + c * 2 ^ 60 := by
  have hm : x &&& (2 ^ 64 - 1 - 0xd000000000000000) =
      ((x / 2 ^ 60) &&& 2) * 2 ^ 60 + x % 2 ^ 60 := by
    have e := Nat.div_add_mod (x &&& (2 ^ 64 - 1 - 0xd000000000000000)) (2 ^ 60)
    rw [Nat.and_mod_two_pow, Nat.and_div_two_pow] at e
    have e1 : (2 ^ 64 - 1 - 0xd000000000000000) / 2 ^ 60 = 2 := by decide
    have e2 : (2 ^ 64 - 1 - 0xd000000000000000) % 2 ^ 60 = 2 ^ 60 - 1 := by decide
    rw [e1, e2, Nat.and_two_pow_sub_one_eq_mod, Nat.mod_mod] at e
    rw [← e, Nat.mul_comm]
  have hs : ∀ h, h < 16 → ((h &&& 2 = 0) ↔ ∃ a b c, a ≤ 1 ∧ b ≤ 1 ∧ c ≤ 1 ∧ h = a * 8 + b * 4 + c) := by
    intro h hh
    constructor
    · intro h0
      have : ∀ h < 16, h &&& 2 = 0 → h / 8 ≤ 1 ∧ h / 4 % 2 ≤ 1 ∧ h % 4 ≤ 1 ∧ h = h / 8 * 8 + h / 4 % 2 * 4 + h % 4 := by decide
      exact ⟨_, _, _, this h hh h0⟩
    · rintro ⟨a, b, c, ha, hb, hc, rfl⟩
      have : ∀ a < 2, ∀ b < 2, ∀ c < 2, (a * 8 + b * 4 + c) &&& 2 = 0 := by decide
      exact this a (by omega) b (by omega) c (by omega)
  rw [hm]
  have := hs (x / 2 ^ 60) (by omega)
  constructor
  · intro h
    obtain ⟨a, b, c, ha, hb, hc, h'⟩ := this.1 (by omega)
    exact ⟨a, b, c, ha, hb, hc, by omega⟩
  · rintro ⟨a, b, c, ha, hb, hc, h'⟩
    have h0 := this.2 ⟨a, b, c, ha, hb, hc, by omega⟩
    omega

theorem paramsSet_iff {a b c : Nat} {p : Params} :
    paramsSet a b c = some p ↔ p = ⟨a, b, c⟩ ∧ a < b ∧ b < c ∧ c < 2 ^ 32 := by
  unfold paramsSet
  split
  · next h =>
    constructor
    · intro h'; cases h'
    · rintro ⟨_, h1, h2, h3⟩; simp at h; omega
  · split
    · next h =>
      constructor
      · intro h'; cases h'
      · rintro ⟨_, h1, h2, h3⟩; simp at h; omega
    · next h1 h2 =>
      simp at h1 h2
      constructor
      · intro h; injection h with h; exact ⟨h.symm, h1.1, h1.2, by omega⟩
      · rintro ⟨h, _⟩; rw [h]

theorem wp_ld64le {buf : Bytes} {off : Nat} {Q : Nat → World → Prop} {S : Stop → World → Prop} {w : World}
    (hl : off + 8 ≤ buf.length) (h : Q (field buf off) w) : wp (ld64le buf off) Q S w := by
  unfold ld64le
  rw [if_pos hl, unp64le_eq]
  exact wp_mpure h

theorem wp_ldBytes {buf : Bytes} {off n : Nat} {Q : Bytes → World → Prop} {S : Stop → World → Prop} {w : World}
    (hl : off + n ≤ buf.length) (h : Q (slice buf off n) w) : wp (ldBytes buf off n) Q S w := by
  unfold ldBytes
  rw [if_pos hl]
  exact wp_mpure h

/-- What the header part of the loader checks. -/
def HeaderOk (f : Bytes) (p : Params) : Prop :=
  field f 8 = 0x96824d9c7b129ff9 ∧ 48 ≤ field f 0 ∧
    (∃ a b c, a ≤ 1 ∧ b ≤ 1 ∧ c ≤ 1 ∧ field f 16 = a * 2 ^ 63 + b * 2 ^ 62 + c * 2 ^ 60) ∧
    p = ⟨field f 24, field f 32, field f 40⟩ ∧ p.min < p.avg ∧ p.avg < p.max ∧ p.max < 2 ^ 32

/-- What the footer part of the loader checks. -/
def FooterOk (f : Bytes) (n : Nat) : Prop :=
  field f (64 + 40 * n) = 0 ∧ field f (72 + 40 * n) = 0 ∧ field f (80 + 40 * n) = 48 ∧
    field f (88 + 40 * n) = 56 + 40 * n ∧ field f (96 + 40 * n) = 0x4b4f050e5549ecd1

theorem wp_loadSectionHeader {ino pos : Nat} {Q : Option (Nat × Nat) → World → Prop}
    {S : Stop → World → Prop} {w : World}
    (hok : ∀ r, Spent w.sys r 16 →
      Q (some (field (w.data ino) (pos + 8), field (w.data ino) pos)) { w with sys := r })
    (hfail : ∀ r, Spent w.sys r 17 → (¬ Clean w.sys ∨ (w.data ino).length < pos + 16 ∨ 2 ^ 63 ≤ pos + 16) →
      Q none { w with sys := r })
    (hkill : okCalls w.sys < 16 → S .killed { w with sys := [] }) :
    wp (loadSectionHeader ino pos) Q S w := by
  unfold loadSectionHeader
  refine wp_bind (wp_readall ?_ ?_ hkill)
  · intro r hr hl _
    refine wp_bind (wp_ld64le (by omega) (wp_bind (wp_ld64le (by omega) (wp_pure ?_))))
    rw [field_slice _ _ _ _ (by omega), field_slice _ _ _ _ (by omega)]
    exact hok r hr
  · intro r n hr _ hc
    exact wp_pure (hfail r hr hc)

theorem wp_loadIndexHeader {ino : Nat} {Q : Option Params → World → Prop}
    {S : Stop → World → Prop} {w : World} (hlen : 48 ≤ (w.data ino).length)
    (hok : ∀ r p, Spent w.sys r 48 → HeaderOk (w.data ino) p → Q (some p) { w with sys := r })
    (hfail : ∀ r, r <:+ w.sys → (¬ Clean w.sys ∨ ∀ p, ¬ HeaderOk (w.data ino) p) → Q none { w with sys := r })
    (hkill : okCalls w.sys < 48 → S .killed { w with sys := [] }) :
    wp (loadIndexHeader ino) Q S w := by
  unfold loadIndexHeader
  refine wp_bind (wp_loadSectionHeader ?_ ?_ ?_)
  · intro r hr
    simp only [Nat.zero_add]
    by_cases h1 : field (w.data ino) 8 = caFormatIndex
    · by_cases h2 : field (w.data ino) 0 < 0x30
      · simp only [h1, ne_eq, not_true_eq_false, if_false, h2, if_true]
        exact wp_pure (hfail r hr.1 (Or.inr (fun p hp => by have := hp.2.1; omega)))
      · simp only [h1, ne_eq, not_true_eq_false, if_false, h2]
        refine wp_bind (wp_readall ?_ ?_ ?_)
        · intro r' hr' hl _
          simp only at hl ⊢
          have hsp := hr.trans hr'
          refine wp_bind (wp_ld64le (by omega) ?_)
          rw [field_slice _ _ _ _ (by omega)]
          simp only [Nat.reduceAdd]
          have hfl := flags_iff (field (w.data ino) 16) (field_lt _ _)
          by_cases h3 : field (w.data ino) 16 &&& (2 ^ 64 - 1 - 0xd000000000000000) = 0
          · rw [if_neg (by simpa using h3)]
            refine wp_bind (wp_ld64le (by omega) (wp_bind (wp_ld64le (by omega) (wp_bind (wp_ld64le (by omega) ?_)))))
            rw [field_slice _ _ _ _ (by omega), field_slice _ _ _ _ (by omega), field_slice _ _ _ _ (by omega)]
            simp only [Nat.reduceAdd]
            cases hp : paramsSet (field (w.data ino) 24) (field (w.data ino) 32) (field (w.data ino) 40) with
            | none =>
              refine wp_pure (hfail r' hsp.1 (Or.inr ?_))
              intro p hp'
              obtain ⟨_, _, _, e, l1, l2, l3⟩ := hp'
              subst e
              have := paramsSet_iff.2 ⟨rfl, l1, l2, l3⟩
              rw [hp] at this; cases this
            | some p =>
              obtain ⟨e, l1, l2, l3⟩ := paramsSet_iff.1 hp
              subst e
              exact wp_pure (hok r' _ hsp ⟨h1, by omega, hfl.1 h3, rfl, l1, l2, l3⟩)
          · rw [if_pos (by simpa using h3)]
            exact wp_pure (hfail r' hsp.1 (Or.inr (fun p hp => h3 (hfl.2 hp.2.2.1))))
        · intro r' n hr' _ hc
          refine wp_pure (hfail r' (hr.trans hr').1 ?_)
          rcases hc with hc | hc
          · exact Or.inl (fun h => hc (h.spent hr))
          · simp only at hc
            omega
        · intro hk
          exact hkill (by have := hr.2; simp only at hk; omega)
    · simp only [ne_eq, h1, not_false_eq_true, if_true]
      exact wp_pure (hfail r hr.1 (Or.inr (fun p hp => h1 hp.1)))
  · intro r hr hc
    refine wp_pure (hfail r hr.1 ?_)
    rcases hc with hc | hc
    · exact Or.inl hc
    · omega
  · intro hk; exact hkill (by omega)

theorem wp_validateTableHeader {ino : Nat} {Q : Bool → World → Prop}
    {S : Stop → World → Prop} {w : World} (hlen : 64 ≤ (w.data ino).length)
    (hok : ∀ r, Spent w.sys r 16 → field (w.data ino) 56 = 0xe75b9e112f17417d → Q true { w with sys := r })
    (hfail : ∀ r, r <:+ w.sys → (¬ Clean w.sys ∨ field (w.data ino) 56 ≠ 0xe75b9e112f17417d) →
      Q false { w with sys := r })
    (hkill : okCalls w.sys < 16 → S .killed { w with sys := [] }) :
    wp (validateTableHeader ino) Q S w := by
  unfold validateTableHeader
  refine wp_bind (wp_loadSectionHeader ?_ ?_ hkill)
  · intro r hr
    simp only [Nat.reduceAdd]
    by_cases h : field (w.data ino) 56 = caFormatTable
    · rw [decide_eq_true h]
      exact wp_pure (hok r hr h)
    · rw [decide_eq_false h]
      exact wp_pure (hfail r hr.1 (Or.inr h))
  · intro r hr hc
    refine wp_pure (hfail r hr.1 ?_)
    rcases hc with hc | hc
    · exact Or.inl hc
    · omega

theorem wp_validateTableFooter {ino n : Nat} {Q : Bool → World → Prop}
    {S : Stop → World → Prop} {w : World} (hlen : (w.data ino).length = 104 + 40 * n)
    (hok : ∀ r, Spent w.sys r 41 → FooterOk (w.data ino) n → Q true { w with sys := r })
    (hfail : ∀ r, r <:+ w.sys → (¬ Clean w.sys ∨ 2 ^ 63 ≤ (w.data ino).length ∨ ¬ FooterOk (w.data ino) n) →
      Q false { w with sys := r })
    (hkill : okCalls w.sys < 41 → S .killed { w with sys := [] }) :
    wp (validateTableFooter ino n) Q S w := by
  unfold validateTableFooter
  refine wp_bind (wp_lseek ?_ ?_ ?_)
  · intro r hr _
    simp only [Bool.not_true, Bool.false_eq_true, if_false]
    refine wp_bind (wp_readall ?_ ?_ ?_)
    · intro r' hr' hl _
      simp only at hl ⊢
      have hsp := hr.trans hr'
      have hno : ∀ (q : ¬ FooterOk (w.data ino) n), wp (pure false : M Bool) Q S { w with sys := r' } :=
        fun q => wp_pure (hfail r' hsp.1 (Or.inr (Or.inr q)))
      refine wp_bind (wp_ld64le (by omega) ?_)
      rw [field_slice _ _ _ _ (by omega), show 0x30 + 16 + n * 40 + 0 = 64 + 40 * n by omega]
      split
      · next h => exact hno (fun q => h q.1)
      · next h1 =>
        refine wp_bind (wp_ld64le (by omega) ?_)
        rw [field_slice _ _ _ _ (by omega), show 0x30 + 16 + n * 40 + 8 = 72 + 40 * n by omega]
        split
        · next h => exact hno (fun q => h q.2.1)
        · next h2 =>
          refine wp_bind (wp_ld64le (by omega) ?_)
          rw [field_slice _ _ _ _ (by omega), show 0x30 + 16 + n * 40 + 16 = 80 + 40 * n by omega]
          split
          · next h => exact hno (fun q => h q.2.2.1)
          · next h3 =>
            refine wp_bind (wp_ld64le (by omega) ?_)
            rw [field_slice _ _ _ _ (by omega), show 0x30 + 16 + n * 40 + 24 = 88 + 40 * n by omega,
              show 16 + (n + 1) * 40 = 56 + 40 * n by omega]
            split
            · next h => exact hno (fun q => h q.2.2.2.1)
            · next h4 =>
              refine wp_bind (wp_ld64le (by omega) ?_)
              rw [field_slice _ _ _ _ (by omega), show 0x30 + 16 + n * 40 + 32 = 96 + 40 * n by omega]
              simp only [ne_eq, Decidable.not_not] at h1 h2 h3 h4
              by_cases h : field (w.data ino) (96 + 40 * n) = caFormatTableTail
              · rw [decide_eq_true h]
                exact wp_pure (hok r' hsp ⟨h1, h2, h3, h4, h⟩)
              · rw [decide_eq_false h]
                exact hno (fun q => h q.2.2.2.2)
    · intro r' m hr' _ hc
      refine wp_pure (hfail r' (hr.trans hr').1 ?_)
      rcases hc with hc | hc
      · exact Or.inl (fun h => hc (h.spent hr))
      · simp only at hc
        exact Or.inr (Or.inl (by omega))
    · intro hk
      exact hkill (by have := hr.2; simp only at hk; omega)
  · intro r hr hc
    simp only [Bool.not_false, if_true]
    refine wp_pure (hfail r hr.1 ?_)
    rcases hc with hc | hc
    · exact Or.inl hc
    · exact Or.inr (Or.inl (by omega))
  · intro hk; exact hkill (by omega)

theorem wellFormed_iff (f : Bytes) (p : Params) (n : Nat) :
    WellFormed f p.min p.avg p.max n ↔
      f.length = 104 + 40 * n ∧ HeaderOk f p ∧ field f 56 = 0xe75b9e112f17417d ∧ FooterOk f n := by
  constructor
  · rintro ⟨h1, h2, h3, h4, ⟨h5, h6, h7⟩, h8, h9, h10, h11, h12, h13, h14⟩
    exact ⟨h1, ⟨h3, h2, h4, by cases p; simp at h5 h6 h7; simp [h5, h6, h7], h8.1, h8.2.1, h8.2.2⟩, h9,
      h10, h11, h12, h13, h14⟩
  · rintro ⟨h1, ⟨h3, h2, h4, h5, h8⟩, h9, h10, h11, h12, h13, h14⟩
    exact ⟨h1, h2, h3, h4, by rw [h5]; exact ⟨rfl, rfl, rfl⟩, h8, h9, h10, h11, h12, h13, h14⟩

/-- The generic rule for iterating over an index whose file content `f` stays fixed.  `I k done s w`
holds when `k` entries have been read and the segments `done` have been handed to the callback;
`J` holds between reading an entry and handling it. -/
theorem wp_iterLoop {σ : Type} {ino : Nat} {p : Params} {cb : σ → Seg → M (Bool × σ)} (f : Bytes) (n : Nat)
    (hlen : f.length = 104 + 40 * n) (hmin : p.min < 2 ^ 32) (hmax : p.max < 2 ^ 32)
    (I J : Nat → List Seg → σ → World → Prop)
    (Q : Bool × σ → World → Prop) (S : Stop → World → Prop)
    (hdata : ∀ k done s w, I k done s w → w.data ino = f)
    (hread : ∀ k done s w r, k < n → I k done s w → Spent w.sys r 40 → J k done s { w with sys := r })
    (hskip : ∀ k done s w, J k done s w → I (k + 1) done s w)
    (hfail : ∀ k done s w r, k < n → I k done s w → r <:+ w.sys → (¬ Clean w.sys ∨ 2 ^ 63 ≤ f.length) →
      Q (false, s) { w with sys := r })
    (hkill : ∀ k done s w, k < n → I k done s w → okCalls w.sys < 40 → S .killed { w with sys := [] })
    (hcb : ∀ k done seg rest s w, k < n → delivered 0 (tableEntries f n) = done ++ seg :: rest → J k done s w →
      wp (cb s seg) (fun b w' => if b.1 = true then I (k + 1) (done ++ [seg]) b.2 w' else Q b w') S w)
    (hdone : ∀ s w, I n (delivered 0 (tableEntries f n)) s w → Q (true, s) w) :
    ∀ (rem k last : Nat) (done : List Seg) (s : σ) (w : World), k + rem = n → last < 2 ^ 64 →
      delivered 0 (tableEntries f n) = done ++ delivered last ((List.range' k rem).map (tableEntry f)) →
      I k done s w → wp (iterLoop ino p cb rem (64 + 40 * k) last s) Q S w := by
  intro rem
  induction rem with
  | zero =>
    intro k last done s w hk _ hd hI
    simp only [iterLoop]
    apply wp_mpure
    simp only [List.range'_zero, List.map_nil, delivered, List.append_nil] at hd
    apply hdone
    rw [hd]
    have : k = n := by omega
    rw [← this]; exact hI
  | succ rem ih =>
    intro k last done s w hk hlast hd hI
    simp only [iterLoop]
    have hf := hdata _ _ _ _ hI
    refine wp_bind (wp_readall ?_ ?_ ?_)
    · intro r hr hl _
      refine wp_bind (wp_ld64le (by omega) (wp_bind (wp_ldBytes (by omega) ?_)))
      rw [field_slice _ _ _ _ (by omega), hf]
      have hJ := hread _ _ _ _ r (by omega) hI hr
      have hid : slice (slice f (64 + 40 * k) 40) 8 32 = (tableEntry f k).2 := by
        simp only [slice, tableEntry, List.drop_take, List.drop_drop, List.take_take]
        congr 2; omega
      rw [hid]
      have hel : field f (64 + 40 * k + 0) = (tableEntry f k).1 := rfl
      rw [hel]
      have helt : (tableEntry f k).1 < 2 ^ 64 := field_lt _ _
      rw [List.range'_succ, List.map_cons] at hd
      generalize tableEntry f k = te at hd helt
      obtain ⟨e, id⟩ := te
      simp only [delivered] at hd
      simp only
      by_cases hs : (e + 2 ^ 64 - last) % 2 ^ 64 < 2 ^ 32
      · rw [if_pos hs] at hd
        rw [if_neg (by omega)]
        refine wp_bind ?_
        refine wp_mono (hcb k done _ (delivered e ((List.range' (k + 1) rem).map (tableEntry f))) s _
          (by omega) ?_ hJ) ?_ (fun _ _ h => h)
        · rw [hd, Nat.mod_eq_of_lt hs]
        · intro b w' hb
          obtain ⟨b, s'⟩ := b
          cases b with
          | false => exact wp_pure hb
          | true =>
            simp only [if_true] at hb
            rw [show 64 + 40 * k + 40 = 64 + 40 * (k + 1) by omega]
            rw [Nat.mod_eq_of_lt hs] at hb
            exact ih (k + 1) e _ s' w' (by omega) helt (by rw [hd, List.append_assoc]; rfl) hb
      · rw [if_neg hs] at hd
        rw [if_pos (by omega)]
        rw [show 64 + 40 * k + 40 = 64 + 40 * (k + 1) by omega]
        exact ih (k + 1) last done s _ (by omega) hlast hd (hskip _ _ _ _ hJ)
    · intro r m hr _ hc
      refine wp_pure (hfail k done s w r (by omega) hI hr.1 ?_)
      rcases hc with hc | hc | hc
      · exact Or.inl hc
      · rw [hf] at hc; omega
      · exact Or.inr (by omega)
    · intro h
      exact hkill k done s w (by omega) hI h

theorem wp_caibxIterate {σ : Type} {ino : Nat} {p : Params} {cb : σ → Seg → M (Bool × σ)} (f : Bytes) (n : Nat)
    (hlen : f.length = 104 + 40 * n) (hmin : p.min < 2 ^ 32) (hmax : p.max < 2 ^ 32)
    (I J : Nat → List Seg → σ → World → Prop)
    (Q : Bool × σ → World → Prop) (S : Stop → World → Prop)
    (hdata : ∀ k done s w, I k done s w → w.data ino = f)
    (hread : ∀ k done s w r, k < n → I k done s w → Spent w.sys r 40 → J k done s { w with sys := r })
    (hskip : ∀ k done s w, J k done s w → I (k + 1) done s w)
    (hfail : ∀ k done s w r, k < n → I k done s w → r <:+ w.sys → (¬ Clean w.sys ∨ 2 ^ 63 ≤ f.length) →
      Q (false, s) { w with sys := r })
    (hkill : ∀ k done s w, k < n → I k done s w → okCalls w.sys < 40 → S .killed { w with sys := [] })
    (hcb : ∀ k done seg rest s w, k < n → delivered 0 (tableEntries f n) = done ++ seg :: rest → J k done s w →
      wp (cb s seg) (fun b w' => if b.1 = true then I (k + 1) (done ++ [seg]) b.2 w' else Q b w') S w)
    (hdone : ∀ s w, I n (delivered 0 (tableEntries f n)) s w → Q (true, s) w)
    (s : σ) (w : World) (hsk : ∀ r, Spent w.sys r 1 → ¬ Clean w.sys → Q (false, s) { w with sys := r })
    (hsk0 : okCalls w.sys = 0 → S .killed { w with sys := [] })
    (hI : ∀ r, Spent w.sys r 1 → I 0 [] s { w with sys := r }) :
    wp (caibxIterate ino p n cb s) Q S w := by
  unfold caibxIterate
  refine wp_bind (wp_lseek ?_ ?_ hsk0)
  · intro r hr _
    simp only [Bool.not_true, Bool.false_eq_true, if_false]
    exact wp_iterLoop f n hlen hmin hmax I J Q S hdata hread hskip hfail hkill hcb hdone n 0 0 [] s _
      (by omega) (by omega) (by simp [tableEntries, List.range_eq_range']) (hI r hr)
  · intro r hr hc
    simp only [Bool.not_false, if_true]
    rcases hc with hc | hc
    · exact wp_pure (hsk r hr hc)
    · omega

/-- Every outcome of the loader. -/
theorem wp_caibxLoadHeader {ino : Nat} {Q : Option (Params × Nat) → World → Prop}
    {S : Stop → World → Prop} {w : World}
    (hok : ∀ r p n, Spent w.sys r 107 → w.kind ino ≠ .other → WellFormed (w.data ino) p.min p.avg p.max n →
      Q (some (p, n)) { w with sys := r })
    (hfail : ∀ r, r <:+ w.sys → (¬ Clean w.sys ∨ w.kind ino = .other ∨ 2 ^ 63 ≤ (w.data ino).length ∨
      ∀ mi av ma n, ¬ WellFormed (w.data ino) mi av ma n) → Q none { w with sys := r })
    (hkill : okCalls w.sys < 107 → S .killed { w with sys := [] }) :
    wp (caibxLoadHeader ino) Q S w := by
  unfold caibxLoadHeader
  refine wp_bind (wp_fdSize ?_ ?_ ?_)
  · intro r1 hr1 hkind
    simp only
    split
    · next h =>
      exact wp_pure (hfail r1 hr1.1 (Or.inr (Or.inr (Or.inr (fun mi av ma n hw => by have := hw.size; omega)))))
    · split
      · next h =>
        exact wp_pure (hfail r1 hr1.1 (Or.inr (Or.inr (Or.inr (fun mi av ma n hw => by have := hw.size; omega)))))
      · next h1 h2 =>
        generalize hn : (List.length (w.data ino) - 0x30 - 56) / 40 = n
        have hlen : (w.data ino).length = 104 + 40 * n := by omega
        have huniq : ∀ mi av ma m, WellFormed (w.data ino) mi av ma m → m = n :=
          fun mi av ma m hw => by have := hw.size; omega
        refine wp_bind (wp_lseek ?_ ?_ ?_)
        · intro r2 hr2 _
          have s2 := hr1.trans hr2
          simp only [Bool.not_true, Bool.false_eq_true, if_false]
          refine wp_bind (wp_loadIndexHeader (by simp only; omega) ?_ ?_ ?_)
          · intro r3 p hr3 hp
            have s3 := s2.trans hr3
            simp only at hp
            refine wp_bind (wp_validateTableHeader (by simp only; omega) ?_ ?_ ?_)
            · intro r4 hr4 ht
              have s4 := s3.trans hr4
              simp only [Bool.not_true, Bool.false_eq_true, if_false]
              refine wp_bind (wp_validateTableFooter (by simp only; exact hlen) ?_ ?_ ?_)
              · intro r5 hr5 hf
                have s5 := s4.trans hr5
                simp only [Bool.not_true, Bool.false_eq_true, if_false]
                exact wp_pure (hok r5 p n (s5.mono (by omega)) hkind
                  ((wellFormed_iff _ _ _).2 ⟨hlen, hp, ht, hf⟩))
              · intro r5 hr5 hc
                simp only [Bool.not_false, if_true]
                refine wp_pure (hfail r5 (hr5.trans s4.1) ?_)
                rcases hc with hc | hc | hc
                · exact Or.inl (fun h => hc (h.spent s4))
                · exact Or.inr (Or.inr (Or.inl hc))
                · refine Or.inr (Or.inr (Or.inr (fun mi av ma m hw => hc ?_)))
                  have e := huniq _ _ _ _ hw
                  subst e
                  exact ((wellFormed_iff _ ⟨mi, av, ma⟩ _).1 hw).2.2.2
              · intro hk; exact hkill (by have := s4.2; simp only at hk; omega)
            · intro r4 hr4 hc
              simp only [Bool.not_false, if_true]
              refine wp_pure (hfail r4 (hr4.trans s3.1) ?_)
              rcases hc with hc | hc
              · exact Or.inl (fun h => hc (h.spent s3))
              · exact Or.inr (Or.inr (Or.inr (fun mi av ma m hw => hc hw.tableMagic)))
            · intro hk; exact hkill (by have := s3.2; simp only at hk; omega)
          · intro r3 hr3 hc
            refine wp_pure (hfail r3 (hr3.trans s2.1) ?_)
            rcases hc with hc | hc
            · exact Or.inl (fun h => hc (h.spent s2))
            · exact Or.inr (Or.inr (Or.inr (fun mi av ma m hw =>
                hc ⟨mi, av, ma⟩ ((wellFormed_iff _ ⟨mi, av, ma⟩ _).1 hw).2.1)))
          · intro hk; exact hkill (by have := s2.2; simp only at hk; omega)
        · intro r2 hr2 hc
          simp only [Bool.not_false, if_true]
          refine wp_pure (hfail r2 (hr1.trans hr2).1 ?_)
          rcases hc with hc | hc
          · exact Or.inl (fun h => hc (h.spent hr1))
          · omega
        · intro hk; exact hkill (by have := hr1.2; simp only at hk; omega)
  · intro r hr hc
    refine wp_pure (hfail r hr.1 ?_)
    rcases hc with hc | hc
    · exact Or.inl hc
    · exact Or.inr (Or.inl hc)
  · intro hk; exact hkill (by omega)

end Csn.Proof
