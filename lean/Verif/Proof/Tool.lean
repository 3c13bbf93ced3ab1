import Verif.Model.Tool
import Verif.Spec.Tool
import Verif.Spec.Files
import Verif.Props.Encrypt
import Verif.Props.Keys
import Verif.Proof.MemSuf
/-
Rules for csn-tool: file names, and the conversion of one file.
-/
namespace Csn.Proof
open Csn Spec Props

theorem takeWhile_slash (l : Bytes) : 0x2f ∉ l.takeWhile (· != 0x2f) ∧ (l.dropWhile (· != 0x2f) = [] ∨ (l.dropWhile (· != 0x2f)).head? = some 0x2f) := by
  induction l with
  | nil => simp
  | cons x l ih =>
    by_cases h : x = 0x2f
    · subst h; simp
    · have h' : (x != 0x2f) = true := by simpa using h
      rw [List.takeWhile_cons, List.dropWhile_cons, if_pos h', if_pos h']
      refine ⟨?_, ih.2⟩
      intro hm
      rcases List.mem_cons.1 hm with e | e
      · exact h e.symm
      · exact ih.1 e

theorem lastPart_baseName (path : Bytes) : LastPart path (baseName path) := by
  obtain ⟨h1, h2⟩ := takeWhile_slash path.reverse
  refine ⟨by simpa [baseName] using h1, (path.reverse.dropWhile (· != 0x2f)).reverse, ?_, ?_⟩
  · unfold baseName
    rw [← List.reverse_append, List.takeWhile_append_dropWhile, List.reverse_reverse]
  · rcases h2 with h2 | h2
    · left; rw [h2]; rfl
    · right; rw [List.getLast?_reverse]; exact h2

theorem lastPart_unique {path a b : Bytes} (ha : LastPart path a) (hb : LastPart path b) : a = b := by
  have key : ∀ d x : Bytes, 0x2f ∉ x → (d = [] ∨ d.getLast? = some 0x2f) → baseName (d ++ x) = x := by
    intro d x hx hd
    unfold baseName
    rw [List.reverse_append, List.takeWhile_append_of_pos (by
      intro c hc
      rw [List.mem_reverse] at hc
      have : c ≠ 0x2f := fun e => hx (e ▸ hc)
      simpa using this)]
    have : (d.reverse).takeWhile (· != 0x2f) = [] := by
      rcases hd with rfl | hd
      · rfl
      · rw [← List.head?_reverse] at hd
        cases hr : d.reverse with
        | nil => rfl
        | cons y ys =>
          rw [hr] at hd
          simp only [List.head?_cons, Option.some.injEq] at hd
          subst hd
          simp
    rw [this, List.append_nil, List.reverse_reverse]
  obtain ⟨a1, da, a2, a3⟩ := ha
  obtain ⟨b1, db, b2, b3⟩ := hb
  rw [← key da a a1 a3, ← key db b b1 b3, ← a2, ← b2]

theorem cacnk_len : (str ".cacnk").length = 6 := by decide
theorem cacnkEnc_len : (str ".cacnk.enc").length = 10 := by decide
theorem enc_eq : str ".cacnk.enc" = str ".cacnk" ++ str ".enc" := by decide

theorem hexOf_head {hex id : Bytes} (h : HexOf hex id) : ∀ c ∈ hex, c ≠ 0x2e := by
  induction h with
  | nil => simp
  | cons c d hi lo s b k h1 h2 _ _ ih =>
    have hx : hexVal 0x2e = none := by decide
    intro x hx'
    rcases List.mem_cons.1 hx' with rfl | hx'
    · rintro rfl; rw [hx] at h1; cases h1
    · rcases List.mem_cons.1 hx' with rfl | hx'
      · rintro rfl; rw [hx] at h2; cases h2
      · exact ih x hx'

theorem parse_take {b : Bytes} {id : Id} (hb : 64 ≤ b.length) :
    (match parseHex (b.take 64) with | (true, id) => some id | (false, _) => none) = some id ↔ HexOf (b.take 64) id := by
  rw [← parseHex_iff (n := 32) (by simp; omega)]
  cases h : parseHex (b.take 64) with
  | mk ok k => cases ok <;> simp

/-- Which names are accepted, and with which ID. -/
theorem chunkIdFromPath_iff (path : Bytes) (id : Id) :
    chunkIdFromPath path = some id ↔ ∃ name, LastPart path name ∧ (ChunkName name id ∨ OddName name id) := by
  have hl := lastPart_baseName path
  generalize hb : baseName path = b at hl
  have hu : (∃ name, LastPart path name ∧ (ChunkName name id ∨ OddName name id)) ↔ (ChunkName b id ∨ OddName b id) :=
    ⟨fun ⟨n, h1, h2⟩ => lastPart_unique h1 hl ▸ h2, fun h => ⟨b, hl, h⟩⟩
  rw [hu]
  unfold chunkIdFromPath
  rw [hb]
  simp only
  constructor
  · intro h
    split at h
    · cases h
    · rename_i hlen
      split at h
      · cases h
      · rename_i hend
        have hge : 64 ≤ b.length := by omega
        have hx := (parse_take hge).mp h
        have hsplit : b = b.take 64 ++ b.drop 64 := (List.take_append_drop 64 b).symm
        have h64 : (b.take 64).length = 64 := by simp; omega
        simp only [Bool.and_eq_true, Bool.not_eq_true', streq, beq_eq_false_iff_ne, ne_eq] at hend
        by_cases h70 : b.length = 70
        · left
          refine ⟨b.take 64, h64, hx, Or.inl ?_⟩
          by_cases he : b.drop (b.length - 6) = str ".cacnk"
          · rw [h70] at he
            conv => lhs; rw [hsplit]
            rw [← he]
          · exfalso
            have he' : b.drop (b.length - 10) = str ".cacnk.enc" := Classical.not_not.1 (fun h' => hend ⟨he, h'⟩)
            rw [h70] at he'
            have h60 : b[60]? = some 0x2e := by
              have := congrArg (·[0]?) he'
              simp only [List.getElem?_drop] at this
              exact this.trans (by decide)
            refine hexOf_head hx 0x2e ?_ rfl
            refine List.mem_of_getElem? (i := 60) ?_
            rw [List.getElem?_take, if_pos (by omega)]
            exact h60
        · have h74 : b.length = 74 := by omega
          by_cases he : b.drop (b.length - 6) = str ".cacnk"
          · right
            rw [h74] at he
            refine ⟨b.take 64, (b.drop 64).take 4, h64, hx, by simp; omega, ?_⟩
            have e2 : b.drop 64 = (b.drop 64).take 4 ++ (b.drop 64).drop 4 := (List.take_append_drop 4 _).symm
            rw [List.drop_drop] at e2
            conv => lhs; rw [hsplit, e2]
            rw [List.append_assoc, ← he]
          · left
            have he' : b.drop (b.length - 10) = str ".cacnk.enc" := Classical.not_not.1 (fun h' => hend ⟨he, h'⟩)
            rw [h74] at he'
            refine ⟨b.take 64, h64, hx, Or.inr ?_⟩
            conv => lhs; rw [hsplit]
            rw [← he']
  · have go : ∀ (hex tail : Bytes), hex.length = 64 → HexOf hex id → b = hex ++ tail → (b.length = 70 ∨ b.length = 74) →
        (b.drop (b.length - 6) = str ".cacnk" ∨ b.drop (b.length - 10) = str ".cacnk.enc") →
        (if b.length ≠ 70 ∧ b.length ≠ 74 then none
          else if (!streq (b.drop (b.length - 6)) (str ".cacnk") && !streq (b.drop (b.length - 10)) (str ".cacnk.enc")) = true then none
          else match parseHex (b.take 64) with | (true, id) => some id | (false, _) => none) = some id := by
      intro hex tail h1 h2 h3 h4 h5
      rw [if_neg (by omega), if_neg (by
        rcases h5 with h5 | h5 <;> simp [streq, h5]), parse_take (by omega), h3]
      rw [List.take_append_of_le_length (by omega), List.take_of_length_le (by omega)]
      exact h2
    rintro (⟨hex, h1, h2, h3 | h3⟩ | ⟨hex, four, h1, h2, h4, h3⟩)
    · have hlen : b.length = 70 := by rw [h3, List.length_append, cacnk_len, h1]
      refine go hex _ h1 h2 h3 (Or.inl hlen) (Or.inl ?_)
      rw [hlen, h3, List.drop_append_of_le_length (by omega), List.drop_of_length_le (by omega), List.nil_append]
    · have hlen : b.length = 74 := by rw [h3, List.length_append, cacnkEnc_len, h1]
      refine go hex _ h1 h2 h3 (Or.inr hlen) (Or.inr ?_)
      rw [hlen, h3, List.drop_append_of_le_length (by omega), List.drop_of_length_le (by omega), List.nil_append]
    · have hlen : b.length = 74 := by rw [h3, List.length_append, List.length_append, cacnk_len, h1, h4]
      refine go hex (four ++ str ".cacnk") h1 h2 (by rw [h3, List.append_assoc]) (Or.inr hlen) (Or.inl ?_)
      rw [hlen, h3, List.drop_append_of_le_length (by simp [h1, h4]), List.drop_of_length_le (by simp [h1, h4]), List.nil_append]

theorem drop_suffix (x t : Bytes) (n : Nat) (h : n = t.length) : (x ++ t).drop ((x ++ t).length - n) = t := by
  subst h
  rw [List.length_append, Nat.add_sub_cancel, List.drop_left]

theorem ends_cacnk_enc (x : Bytes) : (x ++ str ".cacnk.enc").drop ((x ++ str ".cacnk.enc").length - 6) ≠ str ".cacnk" := by
  rw [enc_eq, ← List.append_assoc, List.length_append]
  have : (x ++ str ".cacnk").length + (str ".enc").length - 6 = (x ++ str ".cacnk").length - 2 := by
    have : (str ".enc").length = 4 := by decide
    rw [this]; omega
  rw [this, List.drop_append_of_le_length (by omega), List.length_append, cacnk_len]
  rw [List.drop_append, List.drop_of_length_le (by omega : x.length ≤ x.length + 6 - 2)]
  have : x.length + 6 - 2 - x.length = 4 := by omega
  rw [this]
  decide

/-- The derived name, both ways. -/
theorem derivedOutput_iff (p q : Bytes) :
    derivedOutput p = some q ↔ (Twins p q ∧ p.length ≤ 4091) ∨ (Twins q p ∧ p.length ≤ 4095) := by
  unfold derivedOutput
  have hpm : pathMax = 4096 := rfl
  have hst : ∀ a b : Bytes, streq a b = true ↔ a = b := fun a b => by simp [streq]
  simp only
  constructor
  · intro h
    split at h
    · rename_i h1
      split at h
      · cases h
      · rename_i h2
        rw [hst] at h1
        left
        simp only [Option.some.injEq] at h
        refine ⟨⟨p.take (p.length - 6), ?_, ?_⟩, by omega⟩
        · rw [← h1.2, List.take_append_drop]
        · rw [← h, enc_eq, ← List.append_assoc, ← h1.2, List.take_append_drop]
    · split at h
      · rename_i _ h1
        split at h
        · cases h
        · rename_i h2
          rw [hst] at h1
          right
          simp only [Option.some.injEq] at h
          obtain ⟨x, e⟩ : ∃ x, p = x ++ str ".cacnk.enc" := ⟨p.take (p.length - 10), by rw [← h1.2, List.take_append_drop]⟩
          have hl : p.length = x.length + 10 := by rw [e, List.length_append, cacnkEnc_len]
          refine ⟨⟨x, ?_, e⟩, by omega⟩
          rw [← h, (by omega : p.length - 4 = x.length + 6), e, List.take_append, List.take_of_length_le (by omega), Nat.add_sub_cancel_left]
          rfl
      · cases h
  · rintro (⟨⟨x, h1, h2⟩, h3⟩ | ⟨⟨x, h1, h2⟩, h3⟩)
    · have hl : p.length = x.length + 6 := by rw [h1, List.length_append, cacnk_len]
      rw [if_pos ⟨by omega, by rw [hst, h1]; exact drop_suffix _ _ _ cacnk_len.symm⟩, if_neg (by omega), h2, h1, enc_eq, List.append_assoc]
    · have hl : p.length = x.length + 10 := by rw [h2, List.length_append, cacnkEnc_len]
      rw [if_neg (by rintro ⟨_, h⟩; rw [hst, h2] at h; exact ends_cacnk_enc x h), if_pos ⟨by omega, by rw [hst, h2]; exact drop_suffix _ _ _ cacnkEnc_len.symm⟩,
        if_neg (by omega)]
      have : p.length - 4 = x.length + 6 := by omega
      rw [this, h2, h1, List.take_append, List.take_of_length_le (by omega), Nat.add_sub_cancel_left]
      rfl

theorem twins_ne {p q : Bytes} (h : Twins p q) : p ≠ q := by
  obtain ⟨x, rfl, rfl⟩ := h
  intro e
  have := congrArg List.length e
  rw [List.length_append, List.length_append, cacnk_len, cacnkEnc_len] at this
  omega

/-- What writing a chunk to a file leaves: `e` is everything, `k` bytes have been written. -/
def Made (T : Tool) (out : Bytes) (e : Bytes) (w w' : World) (k : Nat) : Prop :=
  (out = str "-" ∧ ∃ evs m, PiecesOf T.pos (e.take k) evs ∧ w' = wrote { w with mem := m } T.out T.pos (e.take k) evs w'.sys) ∨
  (out ≠ str "-" ∧ ∃ evs m, PiecesOf 0 (e.take k) evs ∧ w' = wrote ({ w with mem := m }.create out) w.next 0 (e.take k) evs w'.sys)

/-- What is left in place of the buffer: the length handed to the cipher has 32 bits. -/
def convBuf (key : Bytes) (id : Id) (d : Bytes) : Bytes :=
  xorFrom (encryptStream key id) 0 (d.take (d.length % 2 ^ 32)) ++ d.drop (d.length % 2 ^ 32)

theorem convBuf_length (key : Bytes) (id : Id) (d : Bytes) : (convBuf key id d).length = d.length := by
  unfold convBuf
  rw [List.length_append, xorFrom_len, ← List.length_append, List.take_append_drop]

theorem xchacha_take (key nonce : Bytes) (i : Nat) : xchacha key (nonce.take 24) i = xchacha key nonce i := by
  unfold xchacha
  rw [List.take_take, List.drop_take, List.take_take]
  rfl

theorem convBuf_small {key : Bytes} {id : Id} {d : Bytes} (h : d.length < 2 ^ 32) : Converted key id d (convBuf key id d) := by
  intro i
  unfold convBuf
  rw [Nat.mod_eq_of_lt h, List.take_length, List.drop_length, List.append_nil, xorFrom_getElem?, Nat.zero_add]
  by_cases hi : i < d.length
  · have h38 : i < 2 ^ 38 := by omega
    rw [encryptStream_eq _ _ _ h38, xchacha_take]
  · rw [List.getElem?_eq_none (by omega), Option.map_none, Option.map_none]

/-- Beyond the truncated length nothing is encrypted. -/
theorem convBuf_tail {key : Bytes} {id : Id} {d : Bytes} {i : Nat} (h : d.length % 2 ^ 32 ≤ i) : (convBuf key id d)[i]? = d[i]? := by
  unfold convBuf
  have hl : (xorFrom (encryptStream key id) 0 (d.take (d.length % 2 ^ 32))).length = d.length % 2 ^ 32 := by
    rw [xorFrom_len, List.length_take, Nat.min_eq_left (Nat.mod_le _ _)]
  rw [List.getElem?_append_right (by rw [hl]; exact h), hl, List.getElem?_drop, Nat.add_sub_cancel' h]

theorem encryptDoCtx_restart (ec : EncCtx) (evp0 : Bool) (id d : Bytes) :
    ((encryptDoCtx (encryptRestart ec id) evp0 d).2.key = ec.key) ∧
    (((encryptDoCtx (encryptRestart ec id) evp0 d).1 = none ∧ d.length % 2 ^ 32 = 0 ∧ evp0 = false) ∨
      ((encryptDoCtx (encryptRestart ec id) evp0 d).1 = some (xorFrom (encryptStream ec.key id) 0 (d.take (d.length % 2 ^ 32))) ∧
        (d.length % 2 ^ 32 ≠ 0 ∨ evp0 = true))) := by
  simp only [encryptDoCtx, encryptRestart, encryptDo]
  by_cases h : d.length % 2 ^ 32 = 0 ∧ evp0 = false
  · rw [if_pos h]; exact ⟨rfl, Or.inl ⟨rfl, h⟩⟩
  · rw [if_neg h]
    refine ⟨rfl, Or.inr ⟨rfl, ?_⟩⟩
    cases evp0
    · left; intro h'; exact h ⟨h', rfl⟩
    · right; rfl

theorem wp_accessOk {path : Bytes} {Q : Bool → World → Prop} {S : Stop → World → Prop} {w : World}
    (hok : ∀ r, r <:+ w.sys → (w.dir path).isSome = true → Q true { w with sys := r })
    (hno : ∀ r, r <:+ w.sys → (w.dir path = none ∨ w.sys.head? = some .err) → Q false { w with sys := r })
    (hkill : S .killed w) : wp (accessOk path) Q S w := by
  unfold accessOk M.sysOk
  refine wp_bind (wp_bind ?_)
  cases hs : w.sys with
  | nil => simp only [wp, M.sysNext, hs]; exact hkill
  | cons y ys =>
    have hsuf : ys <:+ w.sys := by rw [hs]; exact List.suffix_cons _ _
    have hrest : wp (fun w => (.ok (w.dir path).isSome, w) : M Bool) Q S { w with sys := ys } := by
      unfold wp
      simp only
      cases hd : w.dir path with
      | none => exact hno ys hsuf (Or.inl hd)
      | some i => exact hok ys hsuf (by rw [hd]; rfl)
    simp only [wp, M.sysNext, hs]
    cases y with
    | err => exact hno ys hsuf (Or.inr (by rw [hs]; rfl))
    | eintr => exact hrest
    | zero => exact hrest
    | some k => exact hrest

theorem wp_openCreat {path : Bytes} {Q : Option Nat → World → Prop} {S : Stop → World → Prop} {w : World} (hn : w.dir path = none)
    (hok : ∀ r, r <:+ w.sys → Q (some w.next) ({ w with sys := r }.create path))
    (hfail : ∀ r, r <:+ w.sys → ¬ Clean w.sys → Q none { w with sys := r })
    (hkill : S .killed { w with sys := [] }) : wp (openCreat path) Q S w := by
  unfold openCreat
  refine wp_bind (wp_sysOk (fun r hr => ?_) (fun r hr hc => ?_) (fun _ => hkill))
  · simp only [Bool.not_true, Bool.false_eq_true, if_false]
    refine wp_bind ?_
    simp only [wp, creat, hn]
    exact hok r hr.1
  · exact hfail r hr.1 hc

theorem wp_openCreat_any {path : Bytes} {Q : Option Nat → World → Prop} {S : Stop → World → Prop} {w : World}
    (hany : ∀ a w', w'.sys <:+ w.sys → Q a w') (hkill : S .killed { w with sys := [] }) : wp (openCreat path) Q S w := by
  unfold openCreat
  refine wp_bind (wp_sysOk (fun r hr => ?_) (fun r hr hc => ?_) (fun _ => hkill))
  · simp only [Bool.not_true, Bool.false_eq_true, if_false]
    refine wp_bind ?_
    simp only [wp, creat]
    cases w.dir path with
    | none => exact hany _ _ hr.1
    | some i => exact hany _ _ hr.1
  · exact hany _ _ hr.1

/-- Converting one file whose output does not exist (or is found to): the world afterwards. -/
theorem wp_encryptOne {T : Tool} {ec : EncCtx} {input : Bytes} {output : Option Bytes} {w : World} :
    wp (encryptOne T ec input output)
      (fun a w' => a.2.key = ec.key ∧ w'.sys <:+ w.sys ∧
        ((SysMem w w' ∧ (a.1 = true → ∃ id out, chunkIdFromPath input = some id ∧ output.or (derivedOutput input) = some out ∧ (w.dir out).isSome = true)) ∨
         ∃ id out i, chunkIdFromPath input = some id ∧ output.or (derivedOutput input) = some out ∧
          (w.dir out = none ∨ w.sys.head? = some .err) ∧ w.dir input = some i ∧ w.kind i ≠ .other ∧
          (w.dir out = none → ∃ k, k ≤ (w.data i).length ∧ (a.1 = true → k = (w.data i).length) ∧ Made T out (convBuf ec.key id (w.data i)) w w' k)))
      (fun _ w' => w'.sys <:+ w.sys ∧ (SysMem w w' ∨
         ∃ id out i, chunkIdFromPath input = some id ∧ output.or (derivedOutput input) = some out ∧
          (w.dir out = none ∨ w.sys.head? = some .err) ∧ w.dir input = some i ∧ w.kind i ≠ .other ∧
          (w.dir out = none → ∃ k, k ≤ (w.data i).length ∧ Made T out (convBuf ec.key id (w.data i)) w w' k))) w := by
  unfold encryptOne
  cases hid : chunkIdFromPath input with
  | none => exact wp_pure ⟨rfl, List.suffix_refl _, Or.inl ⟨SysMem.refl _, by simp⟩⟩
  | some id =>
    simp only
    cases ho : output.or (derivedOutput input) with
    | none => exact wp_pure ⟨rfl, List.suffix_refl _, Or.inl ⟨SysMem.refl _, by simp⟩⟩
    | some out =>
      simp only
      refine wp_bind (wp_accessOk (fun r hr hd => ?_) (fun r hr hd => ?_) ⟨List.suffix_refl _, Or.inl (SysMem.refl _)⟩)
      · simp only [if_true]
        exact wp_pure ⟨rfl, hr, Or.inl ⟨SysMem.mk' w w.mem hr, fun _ => ⟨id, out, rfl, rfl, hd⟩⟩⟩
      · simp only [Bool.false_eq_true, if_false]
        refine wp_bind (wp_mono wp_slurpFile (fun a w1 h => ?_) (fun s w1 h => ?_))
        · obtain ⟨h1, h2, h3⟩ := h
          have h1' : SysMem w w1 := (SysMem.mk' w w.mem hr).trans h1
          cases a with
          | none => exact wp_pure ⟨rfl, h1'.sys, Or.inl ⟨h1', by simp⟩⟩
          | some d =>
            obtain ⟨i, g1, g2, g3⟩ := h2 d rfl
            simp only [Bool.false_eq_true, if_false] at g1 g2 g3 ⊢
            obtain ⟨k1, k2⟩ := encryptDoCtx_restart ec T.evp0 id d
            generalize hx : encryptDoCtx (encryptRestart ec id) T.evp0 d = x at k1 k2 ⊢
            obtain ⟨o, ec'⟩ := x
            simp only at k1 k2
            rcases k2 with ⟨k2, _, _⟩ | ⟨k2, _⟩
            · subst k2
              exact wp_pure ⟨k1, h1'.sys, Or.inl ⟨h1', by simp⟩⟩
            · subst k2
              simp only
              have hbuf : xorFrom (encryptStream ec.key id) 0 (List.take (d.length % 2 ^ 32) d) ++
                  d.drop (xorFrom (encryptStream ec.key id) 0 (List.take (d.length % 2 ^ 32) d)).length = convBuf ec.key id (w.data i) := by
                rw [xorFrom_len, List.length_take, Nat.min_eq_left (Nat.mod_le _ _), g2]
                rfl
              rw [hbuf]
              generalize he : convBuf ec.key id (w.data i) = e
              have hel : e.length = (w.data i).length := by rw [← he, convBuf_length]
              have hd1 : w1.dir out = w.dir out := by rw [h1'.same]
              have fin : ∀ (ok : Bool) (w' : World) (k : Nat), w'.sys <:+ w.sys → k ≤ e.length → (ok = true → k = e.length) →
                  (w.dir out = none → Made T out e w w' k) → _ := fun ok w' k q1 q2 q3 q4 =>
                (⟨k1, q1, Or.inr ⟨id, out, i, rfl, rfl, hd, g1, g3, fun hn => ⟨k, hel ▸ q2, fun h => hel ▸ q3 h, he ▸ q4 hn⟩⟩⟩ :
                  (ok, ec').2.key = ec.key ∧ w'.sys <:+ w.sys ∧ ((SysMem w w' ∧ (ok = true → ∃ id' out', some id = some id' ∧ some out = some out' ∧ (w.dir out').isSome = true)) ∨
                    ∃ id' out' i, some id = some id' ∧ some out = some out' ∧ (w.dir out' = none ∨ w.sys.head? = some .err) ∧ w.dir input = some i ∧ w.kind i ≠ .other ∧
                      (w.dir out' = none → ∃ k, k ≤ (w.data i).length ∧ (ok = true → k = (w.data i).length) ∧ Made T out' (convBuf ec.key id' (w.data i)) w w' k)))
              have fin2 : ∀ (w' : World) (k : Nat), w'.sys <:+ w.sys → k ≤ e.length →
                  (w.dir out = none → Made T out e w w' k) → _ := fun w' k q1 q2 q4 =>
                (⟨q1, Or.inr ⟨id, out, i, rfl, rfl, hd, g1, g3, fun hn => ⟨k, hel ▸ q2, he ▸ q4 hn⟩⟩⟩ :
                  w'.sys <:+ w.sys ∧ (SysMem w w' ∨
                    ∃ id' out' i, some id = some id' ∧ some out = some out' ∧ (w.dir out' = none ∨ w.sys.head? = some .err) ∧ w.dir input = some i ∧ w.kind i ≠ .other ∧
                      (w.dir out' = none → ∃ k, k ≤ (w.data i).length ∧ Made T out' (convBuf ec.key id' (w.data i)) w w' k)))
              by_cases hdash : out = str "-"
              · have hst : streq out (str "-") = true := by rw [hdash]; rfl
                rw [if_pos hst]
                refine wp_bind (wp_pwriteall (fun r2 evs hr2 hp _ _ => ?_) (fun r2 evs k hr2 hk hp _ _ _ => ?_) (fun r2 evs k s hk hp _ _ hr2 _ => ?_))
                · refine wp_pure (fin true _ e.length (hr2.1.trans h1'.sys) (Nat.le_refl _) (fun _ => rfl) (fun _ => Or.inl ⟨hdash, evs, w1.mem, ?_, ?_⟩))
                  · rw [List.take_length]; exact hp
                  · rw [h1'.same, List.take_length]; rfl
                · refine wp_pure (fin false _ k (hr2.1.trans h1'.sys) (by omega) (by simp) (fun _ => Or.inl ⟨hdash, evs, w1.mem, hp, ?_⟩))
                  rw [h1'.same]; rfl
                · refine fin2 _ k (hr2.trans h1'.sys) (by omega) (fun _ => Or.inl ⟨hdash, evs, w1.mem, hp, ?_⟩)
                  rw [h1'.same]; rfl
              · have hst : ¬ streq out (str "-") = true := by simpa [streq] using hdash
                rw [if_neg hst]
                by_cases hno : w.dir out = none
                · refine wp_bind (wp_openCreat (by rw [hd1]; exact hno) (fun r2 hr2 => ?_) (fun r2 hr2 hc => ?_) ?_)
                  · simp only
                    refine wp_bind (wp_pwriteall (fun r3 evs hr3 hp _ _ => ?_) (fun r3 evs k hr3 hk hp _ _ _ => ?_) (fun r3 evs k s hk hp _ _ hr3 _ => ?_))
                    · refine wp_pure (fin true _ e.length (hr3.1.trans (hr2.trans h1'.sys)) (Nat.le_refl _) (fun _ => rfl) (fun _ => Or.inr ⟨hdash, evs, w1.mem, ?_, ?_⟩))
                      · rw [List.take_length]; exact hp
                      · rw [h1'.same, List.take_length]; rfl
                    · refine wp_pure (fin false _ k (hr3.1.trans (hr2.trans h1'.sys)) (by omega) (by simp) (fun _ => Or.inr ⟨hdash, evs, w1.mem, hp, ?_⟩))
                      rw [h1'.same]; rfl
                    · refine fin2 _ k (hr3.trans (hr2.trans h1'.sys)) (by omega) (fun _ => Or.inr ⟨hdash, evs, w1.mem, hp, ?_⟩)
                      rw [h1'.same]; rfl
                  · exact wp_pure ⟨k1, hr2.trans h1'.sys, Or.inl ⟨⟨by rw [h1'.same], hr2.trans h1'.sys⟩, by simp⟩⟩
                  · exact ⟨List.nil_suffix, Or.inl ⟨by rw [h1'.same], List.nil_suffix⟩⟩
                · refine wp_bind (wp_openCreat_any (fun a w2 hr2 => ?_) ⟨List.nil_suffix, Or.inl ⟨by rw [h1'.same], List.nil_suffix⟩⟩)
                  cases a with
                  | none => exact wp_pure (fin false w2 0 (hr2.trans h1'.sys) (Nat.zero_le _) (by simp) (fun h => absurd h hno))
                  | some ino =>
                    refine wp_bind (wp_pwriteall (fun r3 evs hr3 hp _ _ => ?_) (fun r3 evs k hr3 hk hp _ _ _ => ?_) (fun r3 evs k s hk hp _ _ hr3 _ => ?_))
                    · exact wp_pure (fin true _ e.length (hr3.1.trans (hr2.trans h1'.sys)) (Nat.le_refl _) (fun _ => rfl) (fun h => absurd h hno))
                    · exact wp_pure (fin false _ k (hr3.1.trans (hr2.trans h1'.sys)) (by omega) (by simp) (fun h => absurd h hno))
                    · exact fin2 _ k (hr3.trans (hr2.trans h1'.sys)) (by omega) (fun h => absurd h hno)
        · exact ⟨h.2.sys.trans hr, Or.inl ((SysMem.mk' w w.mem hr).trans h.2)⟩

/-- Converting one file succeeds if nothing fails. -/
theorem wp_encryptOne_ok {T : Tool} {ec : EncCtx} {input : Bytes} {output : Option Bytes} {w : World} {id : Id} {out : Bytes} {i : Nat}
    (hid : chunkIdFromPath input = some id) (ho : output.or (derivedOutput input) = some out) (hc : Clean w.sys) (hm : AllMem w.mem)
    (hi : w.dir input = some i) (hk : w.kind i ≠ .other) (hl : (w.data i).length < 2 ^ 32) (h0 : w.data i ≠ [] ∨ T.evp0 = true)
    (hT : out = str "-" → w.kind T.out ≠ .blk ∧ T.pos < 2 ^ 62) :
    wp (encryptOne T ec input output) (fun a _ => a.1 = true) (fun s _ => s = .killed) w := by
  unfold encryptOne
  rw [hid]
  simp only
  rw [ho]
  simp only
  refine wp_bind (wp_accessOk (fun r hr hd => ?_) (fun r hr hd => ?_) rfl)
  · simp only [if_true]
    exact wp_pure rfl
  · have hdn : w.dir out = none := by
      rcases hd with hd | hd
      · exact hd
      · exact absurd (List.mem_of_mem_head? hd) hc.1
    simp only [Bool.false_eq_true, if_false]
    refine wp_bind (wp_mono wp_slurpFile (fun a w1 h => ?_) (fun s w1 h => h.1))
    obtain ⟨h1, h2, h3⟩ := h
    have h1' : SysMem w w1 := (SysMem.mk' w w.mem hr).trans h1
    cases a with
    | none => exact (h3 rfl (hc.suffix hr) hm i hi hk (Nat.lt_trans hl (by decide))).elim
    | some d =>
      obtain ⟨i', g1, g2, g3⟩ := h2 d rfl
      simp only [Bool.false_eq_true, if_false] at g1 g2 ⊢
      rw [hi] at g1
      cases g1
      obtain ⟨k1, k2⟩ := encryptDoCtx_restart ec T.evp0 id d
      generalize encryptDoCtx (encryptRestart ec id) T.evp0 d = x at k1 k2 ⊢
      obtain ⟨o, ec'⟩ := x
      simp only at k1 k2
      rcases k2 with ⟨_, e1, e2⟩ | ⟨k2, _⟩
      · exfalso
        rw [g2, Nat.mod_eq_of_lt hl] at e1
        rcases h0 with h0 | h0
        · exact h0 (List.length_eq_zero_iff.mp e1)
        · rw [h0] at e2; cases e2
      · subst k2
        simp only
        have hlen : (xorFrom (encryptStream ec.key id) 0 (List.take (d.length % 2 ^ 32) d) ++
            d.drop (xorFrom (encryptStream ec.key id) 0 (List.take (d.length % 2 ^ 32) d)).length).length < 2 ^ 32 := by
          rw [List.length_append, List.length_drop, xorFrom_len, List.length_take, Nat.min_eq_left (Nat.mod_le _ _), Nat.add_sub_cancel' (Nat.mod_le _ _), g2]
          exact hl
        generalize xorFrom (encryptStream ec.key id) 0 (List.take (d.length % 2 ^ 32) d) ++
            d.drop (xorFrom (encryptStream ec.key id) 0 (List.take (d.length % 2 ^ 32) d)).length = e at hlen ⊢
        have hc1 : Clean w1.sys := hc.suffix h1'.sys
        by_cases hdash : out = str "-"
        · have hst : streq out (str "-") = true := by rw [hdash]; rfl
          rw [if_pos hst]
          have hkk : w1.kind T.out = w.kind T.out := by rw [h1'.same]
          refine wp_bind (wp_pwriteall (fun r2 evs hr2 hp _ _ => wp_pure rfl) (fun r2 evs k hr2 hk hp _ _ hf => ?_) (fun r2 evs k s hk hp _ _ hr2 hs => ?_))
          · exfalso
            rcases hf with hf | ⟨hf, _⟩ | hf
            · exact hf hc1
            · exact (hT hdash).1 (hkk ▸ hf)
            · have := (hT hdash).2; omega
          · rcases hs with ⟨_, hs⟩ | ⟨hs, _⟩
            · exact absurd hc1 hs
            · exact hs
        · have hst : ¬ streq out (str "-") = true := by simpa [streq] using hdash
          rw [if_neg hst]
          refine wp_bind (wp_openCreat (by rw [h1'.same]; exact hdn) (fun r2 hr2 => ?_) (fun r2 hr2 hf => absurd hc1 hf) rfl)
          simp only
          have hc2 : Clean r2 := hc1.suffix hr2
          refine wp_bind (wp_pwriteall (fun r3 evs hr3 hp _ _ => wp_pure rfl) (fun r3 evs k hr3 hk hp _ _ hf => ?_) (fun r3 evs k s hk hp _ _ hr3 hs => ?_))
          · exfalso
            rcases hf with hf | ⟨hf, _⟩ | hf
            · exact hf hc2
            · simp [World.create] at hf
            · omega
          · rcases hs with ⟨_, hs⟩ | ⟨hs, _⟩
            · exact absurd hc2 hs
            · exact hs

theorem fgetsLines_spec (s : Bytes) : ∀ cur, cur.length < 4095 → 0x0a ∉ cur →
    (fgetsLines cur s).flatten = cur ++ s ∧ (∀ l ∈ fgetsLines cur s, l ≠ [] ∧ l.length ≤ 4095 ∧ 0x0a ∉ l.dropLast) ∧
      ∀ l ∈ (fgetsLines cur s).dropLast, l.getLast? = some 0x0a ∨ l.length = 4095 := by
  induction s with
  | nil =>
    intro cur h1 h2
    unfold fgetsLines
    by_cases h : cur = []
    · rw [if_pos h, h]; simp
    · rw [if_neg h]
      refine ⟨by simp, ?_, by simp⟩
      intro l hl
      rw [List.mem_singleton] at hl
      subst hl
      exact ⟨h, by omega, fun hm => h2 (List.dropLast_subset _ hm)⟩
  | cons c s ih =>
    intro cur h1 h2
    have hp : pathMax - 1 = 4095 := rfl
    unfold fgetsLines
    by_cases h : c = 0x0a ∨ (cur ++ [c]).length = pathMax - 1
    · rw [if_pos h]
      obtain ⟨i1, i2, i3⟩ := ih [] (by simp) (by simp)
      refine ⟨?_, ?_, ?_⟩
      · rw [List.flatten_cons, i1]; simp
      · intro l hl
        rcases List.mem_cons.1 hl with rfl | hl
        · refine ⟨by simp, by simp; omega, by simpa using h2⟩
        · exact i2 l hl
      · intro l hl
        cases hr : fgetsLines [] s with
        | nil => rw [hr] at hl; simp at hl
        | cons y ys =>
          rw [hr, List.dropLast_cons_cons, ← hr] at hl
          rcases List.mem_cons.1 hl with rfl | hl
          · rcases h with h | h
            · left; simp [h]
            · right; omega
          · exact i3 l hl
    · rw [if_neg h]
      rw [hp, List.length_append] at h
      simp only [List.length_cons, List.length_nil, not_or] at h
      obtain ⟨i1, i2, i3⟩ := ih (cur ++ [c]) (by simp; omega) (by
        rw [List.mem_append, List.mem_singleton]
        rintro (h' | h')
        · exact h2 h'
        · exact h.1 h'.symm)
      exact ⟨by rw [i1]; simp, i2, i3⟩

end Csn.Proof
