import Verif.Proof.Text
/-
C43-C45: key specifications, hex strings, line breaks.
-/
namespace Csn.Props
open Csn Spec Proof

theorem _root_.Csn.Spec.HexOf.lengths {s k : Bytes} (h : HexOf s k) : s.length = 2 * k.length := by
  induction h with
  | nil => rfl
  | cons c d hi lo s b k _ _ _ _ ih => simp; omega

theorem keyOf_unique {getenv : Bytes → Option Bytes} {w : World} {spec : Bytes} : ∀ k k', KeyOf getenv w spec k → KeyOf getenv w spec k' → k = k' := by
  rintro k k' ⟨s, a1, a2, a3⟩ ⟨s', b1, b2, b3⟩
  have hs : s = s' := by
    have hcut : ∀ x, (str "key:" ++ x).head? = some 0x6b := fun x => rfl
    have hcut2 : ∀ x, (str "env:" ++ x).head? = some 0x65 := fun x => rfl
    have hcut3 : ∀ x, (str "file:" ++ x).head? = some 0x66 := fun x => rfl
    cases a1 with
    | key =>
      generalize hsp : str "key:" ++ s = sp at *
      have hh : sp.head? = some 0x6b := by rw [← hsp]; rfl
      cases b1 with
      | key => exact List.append_cancel_left hsp
      | env v _ hv => rw [hcut2] at hh; simp at hh
      | file => rw [hcut3] at hh; simp at hh
    | env v _ hv =>
      generalize hsp : str "env:" ++ v = sp at *
      have hh : sp.head? = some 0x65 := by rw [← hsp]; rfl
      cases b1 with
      | key => rw [hcut] at hh; simp at hh
      | env v' _ hv' =>
        have := List.append_cancel_left hsp
        subst this
        rw [hv] at hv'
        cases hv'; rfl
      | file => rw [hcut3] at hh; simp at hh
    | file p ino t _ hp hk ht hc =>
      generalize hsp : str "file:" ++ p = sp at *
      have hh : sp.head? = some 0x66 := by rw [← hsp]; rfl
      cases b1 with
      | key => rw [hcut] at hh; simp at hh
      | env => rw [hcut2] at hh; simp at hh
      | file p' ino' t' _ hp' hk' ht' hc' =>
        have := List.append_cancel_left hsp
        subst this
        rw [hp] at hp'
        cases hp'
        have := ctext_unique ht ht'
        subst this
        exact cut_unique hc hc'
  subst hs
  have e1 := (parseHex_iff (n := 32) a2 k).mpr a3
  rw [(parseHex_iff (n := 32) a2 k').mpr b3] at e1
  cases e1; rfl

/-- C43: a key specification is accepted only with the key its 64 digits denote, and if no system call or
allocation fails (and the file fits in memory), every specification that denotes a key is accepted.  Nothing but
the environment's schedules changes, and only a kill can stop it.  A key file's text ends as `CutAtBreak` says,
see C45. -/
theorem C43_keyspec (getenv : Bytes → Option Bytes) (spec : Bytes) (w : World) :
    wp (parseKeyspec getenv spec)
      (fun a w' => w' = { w with sys := w'.sys, mem := w'.mem } ∧
        (∀ k, a = some k → KeyOf getenv w spec k ∧ k.length = 32) ∧
        (Clean w.sys → AllMem w.mem → (∀ path ino, w.dir path = some ino → (w.data ino).length < 2 ^ 62) →
          ∀ k, KeyOf getenv w spec k → a = some k))
      (fun s w' => s = .killed ∧ w' = { w with sys := w'.sys, mem := w'.mem }) w := by
  refine wp_mono wp_parseKeyspec (fun a w' h => ?_) (fun s w' h => ⟨h.1, h.2.same⟩)
  obtain ⟨h1, h2, h3⟩ := h
  have huniq : ∀ k k', KeyOf getenv w spec k → KeyOf getenv w spec k' → k = k' := keyOf_unique
  have hacc : ∀ k, a = some k → KeyOf getenv w spec k := fun k e => (specKey_iff _ _ _ _).mp (h2 k e)
  refine ⟨h1.same, ?_, ?_⟩
  · intro k e
    have hk := hacc k e
    refine ⟨hk, ?_⟩
    obtain ⟨s, _, g2, g3⟩ := hk
    have := g3.lengths
    omega
  · intro c1 c2 c3 k hk
    cases a with
    | none =>
      exfalso
      obtain ⟨s, g1, g2, g3⟩ := (specKey_iff _ _ _ _).mpr hk
      exact h3 rfl c1 c2 c3 s g1 g2 k g3
    | some k' => rw [huniq k k' hk (hacc k' rfl)]

/-- A key in the specification itself, -/
example (getenv : Bytes → Option Bytes) (w : World) : KeyOf getenv w (str "key:" ++ (List.replicate 32 (str "4F")).flatten) (List.replicate 32 0x4f) :=
  ⟨_, .key _, by decide +kernel, (parseHex_iff (n := 32) (by decide +kernel) _).mp (by decide +kernel)⟩

/-- and one in a file that ends in CR LF. -/
example (getenv : Bytes → Option Bytes) (w : World) (hd : w.dir (str "k") = some 3) (hk : w.kind 3 = .reg)
    (h : w.data 3 = (List.replicate 32 (str "4f")).flatten ++ [13, 10]) : KeyOf getenv w (str "file:k") (List.replicate 32 0x4f) :=
  ⟨_, .file (str "k") 3 _ _ hd (by rw [hk]; simp) (by rw [h]; exact cstr_text _) (chomp_cut _), by decide +kernel,
    (parseHex_iff (n := 32) (by decide +kernel) _).mp (by decide +kernel)⟩

/-! ### C44 -/

/-- Lower-case a letter. -/
def lower (c : UInt8) : UInt8 := if 0x41 ≤ c.toNat ∧ c.toNat ≤ 0x5a then c + 0x20 else c

theorem nibble_lower (c : UInt8) : nibble (lower c) = nibble c := by
  have : ∀ n, n < 256 → nibble (lower (UInt8.ofNat n)) = nibble (UInt8.ofNat n) := by decide +kernel
  have h := this c.toNat c.toNat_lt
  simpa using h

theorem parseHexGo_lower (s : Bytes) : ∀ acc o, parseHexGo acc o (s.map lower) = parseHexGo acc o s := by
  induction s with
  | nil => intro acc o; rfl
  | cons c s ih =>
    intro acc o
    cases o <;> simp only [List.map_cons, parseHexGo, nibble_lower] <;> cases nibble c <;> simp only [ih]

theorem hexOf_hexString (id : Bytes) : HexOf (hexString id) id := by
  have hx : ∀ n, n < 256 → hexVal ((str "0123456789abcdef").getD (n / 16) 0) = some (n / 16) ∧
      hexVal ((str "0123456789abcdef").getD (n % 16) 0) = some (n % 16) := by decide +kernel
  unfold hexString
  induction id with
  | nil => exact .nil
  | cons b id ih =>
    rw [List.flatMap_cons]
    obtain ⟨h1, h2⟩ := hx b.toNat b.toNat_lt
    exact .cons _ _ _ _ _ b _ h1 h2 (by omega) ih

/-- Writes of a parse: the digits before the first other character, rounded up to bytes. -/
theorem parseHexGo_length (s : Bytes) : ∀ acc o, (parseHexGo acc o s).1 = s.all (fun c => (hexVal c).isSome) ∧
    (s.all (fun c => (hexVal c).isSome) = true → (parseHexGo acc o s).2.length = acc.length + (s.length + 1 + (if o.isSome then 1 else 0)) / 2) ∧
    (s.all (fun c => (hexVal c).isSome) = false → (parseHexGo acc o s).2.length ≤ acc.length + (s.length + (if o.isSome then 1 else 0)) / 2) := by
  induction s with
  | nil =>
    intro acc o
    cases o with
    | none => simp [parseHexGo]
    | some n => simp [parseHexGo]
  | cons c s ih =>
    intro acc o
    have hn := nibble_eq c
    cases o with
    | none =>
      simp only [parseHexGo, List.all_cons, List.length_cons]
      rw [← hn]
      cases nibble c with
      | none => simp
      | some n =>
        obtain ⟨i1, i2, i3⟩ := ih acc (some n)
        simp only [Option.isSome_some, Bool.true_and, if_true, Option.isSome_none, Bool.false_eq_true, if_false] at i1 i2 i3 ⊢
        refine ⟨i1, ?_, ?_⟩
        · intro h; rw [i2 h]
        · intro h; have := i3 h; omega
    | some hi =>
      simp only [parseHexGo, List.all_cons, List.length_cons]
      rw [← hn]
      cases nibble c with
      | none => simp; omega
      | some n =>
        obtain ⟨i1, i2, i3⟩ := ih (acc ++ [UInt8.ofNat ((hi <<< 4) ||| n)]) none
        simp only [Option.isSome_some, Bool.true_and, if_true, Option.isSome_none, Bool.false_eq_true, if_false, List.length_append, List.length_cons,
          List.length_nil] at i1 i2 i3 ⊢
        refine ⟨i1, ?_, ?_⟩
        · intro h; rw [i2 h]; omega
        · intro h; have := i3 h; omega

/-- C44: the text of an ID is 64 lower-case hex digits that denote it; parsing it in any letter case gives the ID
back; parsing succeeds exactly for strings of hex digits of either case and then writes one byte per two digits,
an odd one counting as a full byte (and never more, also when failing); and for an even number of digits
the bytes are those denoted. -/
theorem C44_id_text (id : Id) (hid : id.length = 32) (s : Bytes) :
    ((formatId id).length = 64 ∧ (∀ c ∈ formatId id, c ∈ str "0123456789abcdef") ∧ HexOf (formatId id) id) ∧
    (s.map lower = formatId id → parseHex s = (true, id)) ∧
    ((parseHex s).1 = true ↔ ∀ c ∈ s, (hexVal c).isSome) ∧
    ((parseHex s).1 = true → (parseHex s).2.length = (s.length + 1) / 2) ∧
    ((parseHex s).2.length ≤ (s.length + 1) / 2) ∧
    ((parseHex s).1 = true → s.length % 2 = 0 → HexOf s (parseHex s).2) := by
  have hlen : (formatId id).length = 64 := by rw [formatId_eq, hexString_length, hid]
  have hhex : HexOf (formatId id) id := by rw [formatId_eq]; exact hexOf_hexString id
  obtain ⟨l1, l2, l3⟩ := parseHexGo_length s [] none
  have l1' : (parseHex s).1 = s.all (fun c => (hexVal c).isSome) := l1
  refine ⟨⟨hlen, ?_, hhex⟩, ?_, ?_, ?_, ?_, ?_⟩
  · intro c hc
    rw [formatId_eq] at hc
    unfold hexString at hc
    obtain ⟨b, _, hb⟩ := List.mem_flatMap.mp hc
    have hx : ∀ n, n < 256 → (str "0123456789abcdef").getD (n / 16) 0 ∈ str "0123456789abcdef" ∧
      (str "0123456789abcdef").getD (n % 16) 0 ∈ str "0123456789abcdef" := by decide +kernel
    obtain ⟨h1, h2⟩ := hx b.toNat b.toNat_lt
    simp only [List.mem_cons, List.not_mem_nil, or_false] at hb
    rcases hb with hb | hb
    · rw [hb]; exact h1
    · rw [hb]; exact h2
  · intro h
    have : parseHex (s.map lower) = (true, id) := by rw [h]; exact (parseHex_iff (n := 32) hlen id).mpr hhex
    unfold parseHex at this ⊢
    rw [← parseHexGo_lower]
    exact this
  · rw [l1']; simp
  · intro h
    have := l2 (by rw [← l1']; exact h)
    simpa [parseHex] using this
  · cases hb : s.all (fun c => (hexVal c).isSome) with
    | true => have := l2 hb; simp at this; simp only [parseHex]; omega
    | false => have := l3 hb; simp at this; simp only [parseHex]; omega
  · intro h he
    have e : s.length = 2 * (s.length / 2) := by omega
    refine (parseHex_iff e _).mp ?_
    rw [← h]

example : parseHex (str "0aF") = (true, [0x0a, 0xf0]) := by decide +kernel
example : parseHex (str "0a5g") = (false, [0x0a, 0x50]) := by decide +kernel
example : (formatId (List.replicate 32 0xab)) = (List.replicate 32 (str "ab")).flatten := by decide +kernel

/-! ### C45 -/

/-- C45 is false: with a line break inside and none at the end, the end of the text is cut off. -/
theorem C45_chomp_refuted : ¬ ∀ s, Stripped s (chomp s) := by
  intro h
  obtain ⟨u, h1, h2, _⟩ := h (str "ab\ncd")
  have e : chomp (str "ab\ncd") = str "ab" := by decide +kernel
  rw [e] at h1
  have hu : u = str "\ncd" := List.append_cancel_left (as := str "ab") (by rw [← h1]; decide +kernel)
  have := h2 0x64 (by rw [hu]; decide +kernel)
  rcases this with h | h <;> exact absurd h (by decide)

/-- The same for a key file: the second line is dropped and the key accepted. -/
example : chomp ((List.replicate 32 (str "4f")).flatten ++ str "\nnot a key") = (List.replicate 32 (str "4f")).flatten := by decide +kernel

/-- C45: a text that has no line breaks or ends in one loses exactly its trailing line breaks; any other text is cut
at its last group of line breaks.  Missing from the full claim: that inner line breaks are left alone
(`C45_chomp_refuted`). -/
theorem C45_chomp_partial (s : Bytes) :
    (((∀ c ∈ s, ¬ LineBreak c) ∨ ∃ c, s.getLast? = some c ∧ LineBreak c) → Stripped s (chomp s)) ∧ CutAtBreak s (chomp s) := by
  have hc := chomp_cut s
  refine ⟨?_, hc⟩
  intro h
  rcases hc with ⟨h1, h2⟩ | ⟨u, v, h1, h2, h3, h4, h5⟩
  · rw [h1]
    refine ⟨[], by simp, by simp, ?_⟩
    intro c hc
    exact h2 c (List.mem_of_getLast? hc)
  · rcases h with h | ⟨c, hc1, hc2⟩
    · exfalso
      obtain ⟨x, u', hx⟩ := List.exists_cons_of_ne_nil h2
      exact h x (by rw [h1, hx]; simp) (h3 x (by rw [hx]; simp))
    · have hv : v = [] := by
        cases hvl : v.getLast? with
        | none => exact List.getLast?_eq_none_iff.mp hvl
        | some y =>
          exfalso
          rw [h1, List.getLast?_append, hvl] at hc1
          simp only [Option.some_or, Option.some.injEq] at hc1
          exact h4 y (List.mem_of_getLast? hvl) (by rw [hc1]; exact hc2)
      subst hv
      exact ⟨u, by rw [List.append_nil] at h1; exact h1, h3, h5⟩

example : Stripped (str "a\nb\r\n") (str "a\nb") ∧ chomp (str "a\nb\r\n") = str "a\nb" := by
  have e : chomp (str "a\nb\r\n") = str "a\nb" := by decide +kernel
  refine ⟨?_, e⟩
  rw [← e]
  exact (C45_chomp_partial _).1 (Or.inr ⟨10, by decide +kernel, Or.inr rfl⟩)

end Csn.Props
