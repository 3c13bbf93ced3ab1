import Verif.Proof.Caibx
/-
Encoding an index and reading it back.
-/
namespace Csn.Proof
open Csn Spec

theorem toLe_length (n v : Nat) : (toLe n v).length = n := by
  induction n generalizing v with
  | zero => rfl
  | succ n ih => simp [toLe, ih]

theorem le_toLe (n v : Nat) : le (toLe n v) = v % 256 ^ n := by
  induction n generalizing v with
  | zero => simp [toLe, le, Nat.mod_one]
  | succ n ih =>
    simp only [toLe, le, ih]
    have : (UInt8.ofNat (v % 256)).toNat = v % 256 := by
      rw [UInt8.toNat_ofNat']; omega
    rw [this, Nat.pow_succ, Nat.mul_comm (256 ^ n), Nat.mod_mul]

theorem field_head (v : Nat) (r : Bytes) (h : v < 2 ^ 64) : field (toLe 8 v ++ r) 0 = v := by
  unfold field
  rw [List.drop_zero, List.take_append_of_le_length (by rw [toLe_length]; omega),
    List.take_of_length_le (by rw [toLe_length]; omega), le_toLe]
  exact Nat.mod_eq_of_lt h

theorem field_skip (a r : Bytes) (k o : Nat) (h : a.length = k) : field (a ++ r) (k + o) = field r o := by
  unfold field
  rw [← h, ← List.drop_drop, List.drop_left]

theorem field_skip8 (v : Nat) (r : Bytes) (o : Nat) : field (toLe 8 v ++ r) (8 + o) = field r o :=
  field_skip _ _ _ _ (toLe_length _ _)

/-- The encoded table. -/
def encTable (es : List (Nat × Bytes)) : Bytes := (es.map (fun e => toLe 8 e.1 ++ e.2)).flatten

theorem encTable_length (es : List (Nat × Bytes)) (h : ∀ e ∈ es, e.2.length = 32) :
    (encTable es).length = 40 * es.length := by
  induction es with
  | nil => rfl
  | cons e es ih =>
    have := ih (fun x hx => h x (by simp [hx]))
    unfold encTable at this ⊢
    rw [List.map_cons, List.flatten_cons, List.length_append, List.length_append, toLe_length, this,
      h e (by simp), List.length_cons]
    omega

theorem encTable_entries (es : List (Nat × Bytes)) (r : Bytes) (h : ∀ e ∈ es, e.2.length = 32)
    (h64 : ∀ e ∈ es, e.1 < 2 ^ 64) :
    (List.range es.length).map (fun i => (field (encTable es ++ r) (40 * i),
      slice (encTable es ++ r) (40 * i + 8) 32)) = es := by
  induction es with
  | nil => rfl
  | cons e es ih =>
    have ih' := ih (fun x hx => h x (by simp [hx])) (fun x hx => h64 x (by simp [hx]))
    have he : encTable (e :: es) = (toLe 8 e.1 ++ e.2) ++ encTable es := by
      unfold encTable; rw [List.map_cons, List.flatten_cons]
    have hl : (toLe 8 e.1 ++ e.2).length = 40 := by
      rw [List.length_append, toLe_length, h e (by simp)]
    rw [List.length_cons, List.range_succ_eq_map, List.map_cons, List.map_map, he]
    refine List.cons_eq_cons.2 ⟨?_, ?_⟩
    · rw [List.append_assoc, List.append_assoc, Nat.mul_zero, field_head _ _ (h64 e (by simp))]
      have : slice (toLe 8 e.1 ++ (e.2 ++ (encTable es ++ r))) (0 + 8) 32 = e.2 := by
        unfold slice
        have hd : List.drop (0 + 8) (toLe 8 e.1 ++ (e.2 ++ (encTable es ++ r))) = e.2 ++ (encTable es ++ r) :=
          List.drop_left' (by rw [toLe_length])
        rw [hd]
        exact List.take_left' (h e (by simp))
      rw [this]
    · refine Eq.trans ?_ ih'
      apply List.map_congr_left
      intro i _
      simp only [Function.comp]
      rw [List.append_assoc (toLe 8 e.1 ++ e.2)]
      rw [show 40 * (i + 1) = 40 + 40 * i by omega, field_skip _ _ _ _ hl]
      refine Prod.ext rfl ?_
      unfold slice
      simp only
      rw [show 40 + 40 * i + 8 = 40 + (40 * i + 8) by omega, ← hl, ← List.drop_drop, List.drop_left]

theorem ends_length (o : Nat) (cs : List (Nat × Bytes)) : (ends o cs).length = cs.length := by
  induction cs generalizing o with
  | nil => rfl
  | cons c cs ih => obtain ⟨l, i⟩ := c; simp [ends, ih]

theorem ends_ids (o : Nat) (cs : List (Nat × Bytes)) (h : ∀ c ∈ cs, c.2.length = 32) :
    ∀ e ∈ ends o cs, e.2.length = 32 := by
  induction cs generalizing o with
  | nil => intro e he; cases he
  | cons c cs ih =>
    obtain ⟨l, i⟩ := c
    intro e he
    simp only [ends, List.mem_cons] at he
    rcases he with he | he
    · subst he; exact h (l, i) (by simp)
    · exact ih (o + l) (fun c hc => h c (by simp [hc])) e he

theorem ends_lt (o : Nat) (cs : List (Nat × Bytes)) (b : Nat) (h : o + (cs.map (·.1)).sum < b) :
    ∀ e ∈ ends o cs, e.1 < b := by
  induction cs generalizing o with
  | nil => intro e he; cases he
  | cons c cs ih =>
    obtain ⟨l, i⟩ := c
    intro e he
    simp only [List.map_cons, List.sum_cons] at h
    simp only [ends, List.mem_cons] at he
    rcases he with he | he
    · subst he; simp only; omega
    · exact ih (o + l) (by omega) e he

/-- A valid set of things to encode. -/
structure Encodable (mi av ma : Nat) (cs : List (Nat × Bytes)) : Prop where
  sizes : mi < av ∧ av < ma ∧ ma < 2 ^ 32
  ids : ∀ c ∈ cs, c.2.length = 32
  lens : ∀ c ∈ cs, 0 < c.1 ∧ c.1 < 2 ^ 32
  total : (cs.map (·.1)).sum < 2 ^ 64
  count : 56 + 40 * cs.length < 2 ^ 64

theorem encode_eq (mi av ma : Nat) (cs : List (Nat × Bytes)) :
    encode mi av ma cs =
      toLe 8 48 ++ (toLe 8 0x96824d9c7b129ff9 ++ (toLe 8 0xd000000000000000 ++ (toLe 8 mi ++ (toLe 8 av ++
      (toLe 8 ma ++ (toLe 8 (2 ^ 64 - 1) ++ (toLe 8 0xe75b9e112f17417d ++ (encTable (ends 0 cs) ++
      (toLe 8 0 ++ (toLe 8 0 ++ (toLe 8 48 ++ (toLe 8 (56 + 40 * cs.length) ++
      toLe 8 0x4b4f050e5549ecd1)))))))))))) := by
  simp only [encode, encTable, List.append_assoc]

theorem encode_length (mi av ma : Nat) (cs : List (Nat × Bytes)) (h : ∀ c ∈ cs, c.2.length = 32) :
    (encode mi av ma cs).length = 104 + 40 * cs.length := by
  rw [encode_eq]
  simp only [List.length_append, toLe_length]
  rw [encTable_length _ (ends_ids 0 cs h), ends_length]
  omega

theorem encode_wellFormed {mi av ma : Nat} {cs : List (Nat × Bytes)} (h : Encodable mi av ma cs) :
    WellFormed (encode mi av ma cs) mi av ma cs.length := by
  have hT : (encTable (ends 0 cs)).length = 40 * cs.length := by
    rw [encTable_length _ (ends_ids 0 cs h.ids), ends_length]
  have h0 := h.sizes
  have hc := h.count
  have e1 : field (encode mi av ma cs) 0 = 48 := by
    rw [encode_eq, field_head _ _ (by omega)]
  have e2 : field (encode mi av ma cs) 8 = 0x96824d9c7b129ff9 := by
    rw [encode_eq, show 8 = 8 + 0 from rfl, field_skip8, field_head _ _ (by omega)]
  have e3 : field (encode mi av ma cs) 16 = 0xd000000000000000 := by
    rw [encode_eq, show 16 = 8 + (8 + 0) from rfl, field_skip8, field_skip8, field_head _ _ (by omega)]
  have e4 : field (encode mi av ma cs) 24 = mi := by
    rw [encode_eq, show 24 = 8 + (8 + (8 + 0)) from rfl]
    simp only [field_skip8]
    exact field_head _ _ (by omega)
  have e5 : field (encode mi av ma cs) 32 = av := by
    rw [encode_eq, show 32 = 8 + (8 + (8 + (8 + 0))) from rfl]
    simp only [field_skip8]
    exact field_head _ _ (by omega)
  have e6 : field (encode mi av ma cs) 40 = ma := by
    rw [encode_eq, show 40 = 8 + (8 + (8 + (8 + (8 + 0)))) from rfl]
    simp only [field_skip8]
    exact field_head _ _ (by omega)
  have e7 : field (encode mi av ma cs) 56 = 0xe75b9e112f17417d := by
    rw [encode_eq, show 56 = 8 + (8 + (8 + (8 + (8 + (8 + (8 + 0)))))) from rfl]
    simp only [field_skip8]
    exact field_head _ _ (by omega)
  have ef : ∀ o, field (encode mi av ma cs) (64 + 40 * cs.length + o) =
      field (toLe 8 0 ++ (toLe 8 0 ++ (toLe 8 48 ++ (toLe 8 (56 + 40 * cs.length) ++
      toLe 8 0x4b4f050e5549ecd1)))) o := by
    intro o
    rw [encode_eq, show 64 + 40 * cs.length + o = 8 + (8 + (8 + (8 + (8 + (8 + (8 + (8 + (40 * cs.length + o))))))))
      by omega]
    simp only [field_skip8]
    exact field_skip _ _ _ _ hT
  refine ⟨encode_length _ _ _ _ h.ids, by omega, e2, ⟨1, 1, 1, by omega, by omega, by omega, by rw [e3]⟩,
    ⟨e4, e5, e6⟩, h0, e7, ?_, ?_, ?_, ?_, ?_⟩
  · have := ef 0
    rw [field_head _ _ (by omega)] at this
    exact this
  · have := ef (8 + 0)
    rw [field_skip8, field_head _ _ (by omega)] at this
    rw [show 72 + 40 * cs.length = 64 + 40 * cs.length + (8 + 0) by omega]
    exact this
  · have := ef (8 + (8 + 0))
    rw [field_skip8, field_skip8, field_head _ _ (by omega)] at this
    rw [show 80 + 40 * cs.length = 64 + 40 * cs.length + (8 + (8 + 0)) by omega]
    exact this
  · have := ef (8 + (8 + (8 + 0)))
    rw [field_skip8, field_skip8, field_skip8, field_head _ _ (by omega)] at this
    rw [show 88 + 40 * cs.length = 64 + 40 * cs.length + (8 + (8 + (8 + 0))) by omega]
    exact this
  · have := ef (8 + (8 + (8 + (8 + 0))))
    rw [field_skip8, field_skip8, field_skip8, field_skip8] at this
    have e := field_head 0x4b4f050e5549ecd1 [] (by omega)
    rw [List.append_nil] at e
    rw [e] at this
    rw [show 96 + 40 * cs.length = 64 + 40 * cs.length + (8 + (8 + (8 + (8 + 0)))) by omega]
    exact this

theorem encode_entries {mi av ma : Nat} {cs : List (Nat × Bytes)} (h : Encodable mi av ma cs) :
    tableEntries (encode mi av ma cs) cs.length = ends 0 cs := by
  have := encTable_entries (ends 0 cs) (toLe 8 0 ++ (toLe 8 0 ++ (toLe 8 48 ++ (toLe 8 (56 + 40 * cs.length) ++
      toLe 8 0x4b4f050e5549ecd1)))) (ends_ids 0 cs h.ids) (ends_lt 0 cs _ (by have := h.total; omega))
  rw [ends_length] at this
  refine Eq.trans ?_ this
  unfold tableEntries
  apply List.map_congr_left
  intro i _
  unfold tableEntry
  have hd : ∀ o, List.drop (64 + o) (encode mi av ma cs) = List.drop o (encTable (ends 0 cs) ++
      (toLe 8 0 ++ (toLe 8 0 ++ (toLe 8 48 ++ (toLe 8 (56 + 40 * cs.length) ++
      toLe 8 0x4b4f050e5549ecd1))))) := by
    intro o
    have hskip : ∀ (v : Nat) (r : Bytes) (o : Nat), List.drop (8 + o) (toLe 8 v ++ r) = List.drop o r := by
      intro v r o
      rw [← List.drop_drop, List.drop_left' (by rw [toLe_length])]
    rw [encode_eq, show 64 + o = 8 + (8 + (8 + (8 + (8 + (8 + (8 + (8 + o))))))) by omega]
    simp only [hskip]
  refine Prod.ext ?_ ?_
  · unfold field; simp only; rw [hd]
  · unfold slice
    simp only
    rw [show 72 + 40 * i = 64 + (40 * i + 8) by omega, hd]

theorem ascending_ends (o : Nat) (cs : List (Nat × Bytes)) (h : ∀ c ∈ cs, c.1 < 2 ^ 32) :
    Ascending o (ends o cs) := by
  induction cs generalizing o with
  | nil => trivial
  | cons c cs ih =>
    obtain ⟨l, i⟩ := c
    have := h (l, i) (by simp)
    exact ⟨by omega, by simp only at this; omega, ih _ (fun c hc => h c (by simp [hc]))⟩

theorem delivered_ascending (last : Nat) (es : List (Nat × Bytes)) (h : Ascending last es)
    (h64 : ∀ e ∈ es, e.1 < 2 ^ 64) :
    delivered last es = (consecutive last es).map (fun x => ⟨x.1, x.2.1, x.2.2⟩) := by
  induction es generalizing last with
  | nil => rfl
  | cons e es ih =>
    obtain ⟨e, id⟩ := e
    obtain ⟨h1, h2, h3⟩ := h
    have := h64 (e, id) (by simp)
    simp only at this
    have hm : (e + 2 ^ 64 - last) % 2 ^ 64 = e - last := by omega
    simp only [delivered, consecutive, List.map_cons, hm, if_pos h2]
    rw [ih e h3 (fun x hx => h64 x (by simp [hx]))]

theorem tableEntries_lt (f : Bytes) (n : Nat) : ∀ e ∈ tableEntries f n, e.1 < 2 ^ 64 := by
  intro e he
  simp only [tableEntries, List.mem_map] at he
  obtain ⟨i, _, rfl⟩ := he
  exact field_lt _ _

end Csn.Proof
