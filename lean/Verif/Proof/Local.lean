import Verif.Model.Local
import Verif.Proof.Index
import Verif.Proof.ScanCost
import Verif.Proof.Caibx
import Verif.Props.Chunking
/-
Rules for store-local.c.
-/
namespace Csn.Proof
open Csn Spec Props

/-- The index entry a scan makes for a reported segment. -/
def scanned (s : Seg) : Entry := ⟨s.off, s.len, true, s.id⟩

/-- The index entry side-loading makes for an index entry. -/
def loaded (s : Seg) : Entry := ⟨s.off, s.len, false, s.id⟩

theorem orFlags_append (idx : Index) (l : List Entry) (e : Entry) (b : Bool)
    (h : idx.entries = l ++ [e]) : (orFlags idx l.length b).entries = l ++ [{ e with valid := e.valid || b }] := by
  unfold orFlags
  simp only [h]
  clear h
  induction l with
  | nil => rfl
  | cons x xs ih => simpa using ih

theorem orFlags_inv {idx : Index} (i : Nat) (b : Bool) (h : IndexInv idx) : IndexInv (orFlags idx i b) := by
  obtain ⟨h1, h2, h3, h4⟩ := h
  refine ⟨h1, h2, by simpa [orFlags] using h3, fun hs => ?_⟩
  have := h4 hs
  unfold SortedById orFlags at *
  simp only
  rw [List.pairwise_iff_getElem] at this ⊢
  intro a b' ha hb hab
  simp only [List.length_modify] at ha hb
  have := this a b' ha hb hab
  simp only [List.getElem_modify]
  split <;> split <;> exact this

/-- Inserting a list of segments from a scan. -/
theorem runInsert (xs : List Seg) : ∀ (s : Index × List Bool), IndexInv s.1 → (∀ x ∈ xs, x.len ≠ 0) →
    ∃ y s' j, runCb (storeInsertScan true) s xs = (y, s') ∧ IndexInv s'.1 ∧ j ≤ xs.length ∧
      s'.1.entries = s.1.entries ++ (xs.take j).map scanned ∧ s'.2 <:+ s.2 ∧
      ((y = .ok ∧ j = xs.length) ∨
       (y = .fail ∧ (false ∈ s.2 ∨ 2 ^ 62 ≤ (s.1.entries.length + j) * 48))) := by
  induction xs with
  | nil => intro s hi _; exact ⟨.ok, s, 0, rfl, hi, by simp, by simp, List.suffix_refl _, Or.inl ⟨rfl, rfl⟩⟩
  | cons x xs ih =>
    intro s hi hx
    obtain ⟨r, idx', m, e, hi', hm, _, hc⟩ :=
      indexInsertPure_spec s.1 x.off x.len x.id s.2 hi (hx x (by simp))
    simp only [runCb, storeInsertScan, e]
    rcases hc with ⟨h1, h2⟩ | ⟨h1, h2, h3⟩
    · subst h1
      simp only
      obtain ⟨y, s', j, g1, g2, g3, g4, g5, g6⟩ := ih (orFlags idx' s.1.entries.length true, m)
        (orFlags_inv _ _ hi') (fun z hz => hx z (by simp [hz]))
      rw [orFlags_append idx' _ _ _ h2] at g4 g6
      refine ⟨y, s', j + 1, g1, g2, by simp; omega, ?_, g5.trans hm, ?_⟩
      · rw [g4]; simp [scanned]
      · rcases g6 with ⟨a, b⟩ | ⟨a, b⟩
        · exact Or.inl ⟨a, by simp [b]⟩
        · right
          refine ⟨a, ?_⟩
          rcases b with b | b
          · exact Or.inl (hm.subset b)
          · right; simp at b; omega
    · subst h1 h2
      refine ⟨.fail, (s.1, m), 0, rfl, hi, by simp, by simp, hm, Or.inr ⟨rfl, ?_⟩⟩
      simpa using h3

theorem length_le_flatten (cs : List Bytes) (h : ∀ c ∈ cs, c ≠ []) : cs.length ≤ cs.flatten.length := by
  induction cs with
  | nil => simp
  | cons c cs ih =>
    have h1 := h c (by simp)
    have h2 := ih (fun x hx => h x (by simp [hx]))
    have : c.length ≠ 0 := fun e => h1 (List.length_eq_zero_iff.1 e)
    simp only [List.length_cons, List.flatten_cons, List.length_append]; omega

/-- Segments of consecutive pieces of `f` describe `f`. -/
theorem segs_describe (H : Bytes → Id) (cs : List Bytes) (h : ∀ c ∈ cs, c ≠ []) :
    ∀ (o : Nat) (f : Bytes), (∃ tail, f.drop o = cs.flatten ++ tail) →
      ∀ s ∈ segs H o cs, s.len ≠ 0 ∧ (slice f s.off s.len).length = s.len ∧ H (slice f s.off s.len) = s.id ∧
        slice f s.off s.len ∈ cs := by
  induction cs with
  | nil => intro o f _ s hs; simp [segs] at hs
  | cons c cs ih =>
    intro o f hf s hs
    obtain ⟨tail, hf⟩ := hf
    simp only [segs, List.mem_cons] at hs
    rcases hs with hs | hs
    · subst hs
      have hc : c.length ≠ 0 := fun e => h c (by simp) (List.length_eq_zero_iff.1 e)
      have : slice f o c.length = c := by
        unfold slice; rw [hf]; simp
      simp only [this]
      exact ⟨hc, by simp⟩
    · have := ih (fun x hx => h x (by simp [hx])) (o + c.length) f ⟨tail, by
        rw [← List.drop_drop, hf]; simp⟩ s hs
      exact ⟨this.1, this.2.1, this.2.2.1, by simp [this.2.2.2]⟩

theorem storeInsertScan_not_killed (b : Bool) (s : Index × List Bool) (x : Seg) (s' : Index × List Bool) :
    storeInsertScan b s x ≠ .stop .killed s' := by
  unfold storeInsertScan indexInsertPure
  split
  · next y idx mem h =>
    intro e
    injection e with e1 e2
    subst e1
    split at h
    · simp at h
    · split at h
      · simp at h
      · split at h <;> simp at h
  · simp
  · simp

/-- The index holds what a scan of `f` finds. -/
def ScanIndex (env : LEnv) (p : Params) (d : Nat) (f : Bytes) (idx : Index) : Prop :=
  IndexInv idx ∧ ∃ cs, Chunking p.min p.max d f cs ∧ idx.entries.Perm ((segs env.H 0 cs).map scanned)

theorem wp_scanInto {env : LEnv} {l : Loc} {d : Nat} (he : ScanEnv env.disc env.bufsiz l.p d) {idx : Index}
    (hi : IndexInv idx) (h0 : idx.entries = [])
    {Q : Bool × Index → World → Prop} {S : Stop → World → Prop} {w : World}
    (hok : ∀ idx' r m e cs, IndexInv idx' → Spent w.sys r ((w.data l.ino).length + 2) → m <:+ w.mem →
      e ≤ (w.data l.ino).length → (NoEof w.sys → e = (w.data l.ino).length) →
      Chunking l.p.min l.p.max d ((w.data l.ino).take e) cs →
      idx'.entries = (segs env.H 0 cs).map scanned → Q (true, idx') { w with sys := r, mem := m })
    (hfail : ∀ idx' r m, r <:+ w.sys → m <:+ w.mem →
      (¬ Clean w.sys ∨ false ∈ w.mem ∨ 2 ^ 56 ≤ (w.data l.ino).length) →
      Q (false, idx') { w with sys := r, mem := m })
    (hkill : ∀ m, okCalls w.sys < (w.data l.ino).length + 2 → m <:+ w.mem →
      S .killed { w with sys := [], mem := m }) :
    wp (scanInto env l idx) Q S w := by
  generalize hf : w.data l.ino = f at *
  have hmax : l.p.max < 2 ^ 32 := (paramsSet_some he.accepted).2.2.2
  have hd : 0 < deff l.p d := by rw [he.deff]; exact he.pos
  unfold wp scanInto
  simp only [scanFd, he.disc_avg, hf]
  have main : ∀ y r0, w.sys = y :: r0 → y ≠ .err → ∃ res idx' m r,
      scanLoop env.H l.p d env.bufsiz (storeInsertScan true) f Chunker.init 0 0 0 (idx, w.mem) r0 =
        (res, (idx', m), r) ∧
      (res = .ok → Q (true, idx') { w with sys := r, mem := m }) ∧
      (res = .fail → Q (false, idx') { w with sys := r, mem := m }) ∧
      (∀ x, res = .stop x → S x { w with sys := r, mem := m }) := by
    intro y r0 hs hy
    obtain ⟨res, s', r, h1, e, cs, k, x, g0, g1, g2, g3, g4, g5⟩ :=
      scanLoop_spec env.H hd hmax env.bufsiz he.buf (storeInsertScan true) f r0 Chunker.init 0 (idx, w.mem) []
        (by simp) (by simp) rep_init (noCut_nil l.p d)
    simp only [List.length_nil, Nat.add_zero] at h1
    have hcost := scanLoop_cost env.H l.p d env.bufsiz (storeInsertScan true)
      (storeInsertScan_not_killed true) f r0 Chunker.init 0 0 0 (idx, w.mem) res s' r h1
    rw [he.deff, List.drop_zero] at g3
    have hne := chunking_nonempty g3
    have hlen : ∀ z ∈ (segs env.H 0 cs).take k, z.len ≠ 0 := by
      intro z hz
      exact (segs_describe env.H cs hne 0 (f.take e) ⟨[], by simp [chunking_flatten g3]⟩ z
        (List.take_subset _ _ hz)).1
    obtain ⟨y', s2, j, i1, i2, i3, i4, i5, i6⟩ := runInsert ((segs env.H 0 cs).take k) (idx, w.mem) hi hlen
    rw [i1] at g4
    simp only [Prod.mk.injEq] at g4
    obtain ⟨gx, gs⟩ := g4
    subst gx gs
    obtain ⟨idx2, m2⟩ := s2
    refine ⟨res, idx2, m2, r, h1, ?_⟩
    have hsuf : r0 <:+ w.sys := by rw [hs]; exact List.suffix_cons _ _
    have hok1 := okCalls_cons_le y r0
    rw [← hs] at hok1
    have hcl : cs.length ≤ f.length := by
      have := length_le_flatten cs hne
      rw [chunking_flatten g3] at this
      simp at this; omega
    rcases g5 with ⟨a, b, c⟩ | ⟨a, b⟩ | ⟨a, b⟩
    · subst a
      rcases i6 with ⟨_, ij⟩ | ⟨ib, _⟩
      · refine ⟨fun _ => ?_, by simp, by simp⟩
        refine hok _ _ _ e cs i2 ⟨hcost.1.trans hsuf, by omega⟩ i5 g1 ?_ g3 ?_
        · intro hc; exact g2 (fun hz => hc (hsuf.subset hz))
        · rw [i4]
          simp only [h0, List.nil_append]
          rw [ij, List.take_length, List.take_of_length_le (by rw [segs_length]; exact c)]
      · rw [b] at ib; cases ib
    · rcases i6 with ⟨ia, _⟩ | ⟨ib, ic⟩
      · rw [ia] at b; exact absurd b.symm a
      · rw [ib] at b
        subst b
        refine ⟨by simp, fun _ => ?_, by simp⟩
        refine hfail _ _ _ (hcost.1.trans hsuf) i5 ?_
        rcases ic with ic | ic
        · exact Or.inr (Or.inl ic)
        · right; right
          simp only [h0, List.length_nil, Nat.zero_add] at ic
          have : j ≤ cs.length := by
            have := i3
            simp only [List.length_take, segs_length] at this; omega
          omega
    · rcases b with ⟨b, b'⟩ | b
      · subst b
        refine ⟨by simp, fun _ => ?_, by simp⟩
        exact hfail _ _ _ (hcost.1.trans hsuf) i5 (Or.inl (fun hc => hc.1 (hsuf.subset b')))
      · subst b
        obtain ⟨q1, q2⟩ := hcost.2.2 rfl
        subst q1
        refine ⟨by simp, by simp, ?_⟩
        intro x hx
        injection hx with hx
        subst hx
        exact hkill _ (by omega) i5
  cases hs : w.sys with
  | nil =>
    simp only
    have hk := hkill w.mem (by rw [hs]; simp [okCalls]) (List.suffix_refl _)
    have hw : { w with sys := [] } = w := by cases w; simp at hs; simp [hs]
    exact hk
  | cons y r0 =>
    rw [hs] at main
    cases y with
    | err =>
      simp only
      exact hfail idx r0 w.mem (by rw [hs]; exact List.suffix_cons _ _) (List.suffix_refl _)
        (Or.inl (fun hc => hc.1 (by rw [hs]; simp)))
    | eintr =>
      obtain ⟨res, idx', m, r, h1, h2, h3, h4⟩ := main _ _ rfl (by simp)
      simp only [h1]
      cases res with
      | ok => exact h2 rfl
      | fail => exact h3 rfl
      | stop x => exact h4 x rfl
    | zero =>
      obtain ⟨res, idx', m, r, h1, h2, h3, h4⟩ := main _ _ rfl (by simp)
      simp only [h1]
      cases res with
      | ok => exact h2 rfl
      | fail => exact h3 rfl
      | stop x => exact h4 x rfl
    | some n =>
      obtain ⟨res, idx', m, r, h1, h2, h3, h4⟩ := main _ _ rfl (by simp)
      simp only [h1]
      cases res with
      | ok => exact h2 rfl
      | fail => exact h3 rfl
      | stop x => exact h4 x rfl

theorem spent_nil_suffix (a : List Sys) : ([] : List Sys) <:+ a := List.nil_suffix

/-- The entries scanning the first `e` bytes of `f` produces. -/
def scanEntries (env : LEnv) (cs : List Bytes) : List Entry := (segs env.H 0 cs).map scanned

theorem wp_storeScan {env : LEnv} {l : Loc} {d : Nat} (he : ScanEnv env.disc env.bufsiz l.p d)
    {Q : Bool × Loc → World → Prop} {S : Stop → World → Prop} {w : World}
    (hok : ∀ idx r m e cs, IndexInv idx → Spent w.sys r ((w.data l.ino).length + 3) → m <:+ w.mem →
      e ≤ (w.data l.ino).length → (NoEof w.sys → e = (w.data l.ino).length) →
      Chunking l.p.min l.p.max d ((w.data l.ino).take e) cs →
      idx.entries = scanEntries env cs →
      Q (true, { l with idx := .live idx }) { w with sys := r, mem := m, log := w.log ++ [.scan l.ino] })
    (hfail : ∀ i r m, r <:+ w.sys → m <:+ w.mem →
      (¬ Clean w.sys ∨ false ∈ w.mem ∨ 2 ^ 56 ≤ (w.data l.ino).length ∨ w.kind l.ino = .other) →
      Q (false, { l with idx := i }) { w with sys := r, mem := m, log := w.log ++ [.scan l.ino] })
    (habort : ∀ r, r <:+ w.sys → chunkEstimate l.p (w.data l.ino).length = 0 →
      S .abort { w with sys := r, log := w.log ++ [.scan l.ino] })
    (hkill : ∀ m, okCalls w.sys < (w.data l.ino).length + 3 → m <:+ w.mem →
      S .killed { w with sys := [], mem := m, log := w.log ++ [.scan l.ino] }) :
    wp (storeScan env l) Q S w := by
  unfold storeScan
  refine wp_bind (wp_emit (wp_bind (wp_fdSize ?_ ?_ ?_)))
  · intro r1 h1 hk
    simp only at h1 hk ⊢
    refine wp_bind (wp_indexInit ?_ ?_ ?_)
    · intro idx m hi h0 hm _ _
      simp only at hm ⊢
      refine wp_bind (wp_scanInto he hi h0 ?_ ?_ ?_)
      · intro idx' r m' e cs g1 g2 g3 g4 g5 g6 g7
        simp only at g2 g3 g4 g5 g6 ⊢
        exact hok idx' r m' e cs g1 ((h1.trans g2).mono (by omega)) (g3.trans hm) g4
          (fun hc => g5 (hc.suffix h1.1)) g6 g7
      · intro idx' r m' g1 g2 g3
        simp only at g1 g2 g3 ⊢
        refine hfail _ r m' (g1.trans h1.1) (g2.trans hm) ?_
        rcases g3 with g | g | g
        · exact Or.inl (fun hc => g (hc.spent h1))
        · exact Or.inr (Or.inl (hm.subset g))
        · exact Or.inr (Or.inr (Or.inl g))
      · intro m' g1 g2
        simp only at g1 g2 ⊢
        have := h1.2
        exact hkill m' (by omega) (g2.trans hm)
    · intro m hm hc _
      simp only at hm hc ⊢
      refine wp_pure (hfail .null r1 m h1.1 hm ?_)
      rcases hc with hc | hc
      · exact Or.inr (Or.inl hc)
      · refine Or.inr (Or.inr (Or.inl ?_))
        refine Nat.le_of_not_lt (fun hlt => ?_)
        unfold chunkEstimate at hc
        have e1 : (12 * (w.data l.ino).length) % 2 ^ 64 ≤ 12 * (w.data l.ino).length := Nat.mod_le _ _
        have e2 := Nat.div_le_self ((12 * (w.data l.ino).length) % 2 ^ 64) l.p.avg
        omega
    · intro hz
      exact habort r1 h1.1 hz
  · intro r1 h1 hc
    simp only at h1 hc ⊢
    refine wp_pure ?_
    have := hfail l.idx r1 w.mem h1.1 (List.suffix_refl _) ?_
    · exact this
    · rcases hc with hc | hc
      · exact Or.inl hc
      · exact Or.inr (Or.inr (Or.inr hc))
  · intro hz
    simp only at hz ⊢
    exact hkill w.mem (by omega) (List.suffix_refl _)

/-- One pass through `restart` in store_local_get_chunk. -/
theorem wp_localPass {env : LEnv} (hlib : env.lib.Conforms) {l : Loc} {idx : Index} (hl : l.idx = .live idx)
    (hi : IndexInv idx) {fuel : Nat} {id : Id} {out : Bytes}
    {Q : Option Nat × Loc × Bytes → World → Prop} {S : Stop → World → Prop} {w : World}
    (hmiss : ∀ idx', IndexInv idx' → idx'.entries.Perm idx.entries → (∀ e ∈ idx.entries, e.id ≠ id) →
      Q (some 0, { l with idx := .live idx' }, out) w)
    (hbig : ∀ idx' e, IndexInv idx' → idx'.entries.Perm idx.entries → e ∈ idx.entries → e.id = id →
      out.length < e.len → Q (none, { l with idx := .live idx' }, out) w)
    (hread : ∀ idx' e r k, IndexInv idx' → idx'.entries.Perm idx.entries → e ∈ idx.entries → e.id = id →
      e.len ≤ out.length → Spent w.sys r (e.len + 1) → k < e.len →
      (¬ Clean w.sys ∨ (w.data l.ino).length < e.start + e.len ∨ 2 ^ 63 ≤ e.start + e.len) →
      Q (none, { l with idx := .live idx' }, bufWrite out 0 (slice (w.data l.ino) e.start k)) { w with sys := r })
    (hvalid : ∀ idx' e r, IndexInv idx' → idx'.entries.Perm idx.entries → e ∈ idx.entries → e.id = id →
      e.len ≤ out.length → Spent w.sys r e.len → (slice (w.data l.ino) e.start e.len).length = e.len →
      e.valid = true →
      Q (some e.len, { l with idx := .live idx' }, bufWrite out 0 (slice (w.data l.ino) e.start e.len))
        { w with sys := r })
    (hcheck : ∀ idx' e r i, IndexInv (orFlags idx' i true) → IndexInv idx' → idx'.entries.Perm idx.entries →
      e ∈ idx.entries → e.id = id → idx'.entries[i]? = some e →
      e.len ≤ out.length → Spent w.sys r e.len → (slice (w.data l.ino) e.start e.len).length = e.len →
      env.H (slice (w.data l.ino) e.start e.len) = id → e.valid = false →
      Q (some e.len, { l with idx := .live (orFlags idx' i true) },
        bufWrite out 0 (slice (w.data l.ino) e.start e.len)) { w with sys := r })
    (hrescan : ∀ e r, e ∈ idx.entries → e.id = id → e.valid = false →
      e.len ≤ out.length → Spent w.sys r e.len → (slice (w.data l.ino) e.start e.len).length = e.len →
      env.H (slice (w.data l.ino) e.start e.len) ≠ id →
      wp (storeScan env { l with idx := .freed }) (fun x w' =>
          (x.1 = false → Q (none, x.2, bufWrite out 0 (slice (w.data l.ino) e.start e.len)) w') ∧
          (x.1 = true → wp (localGet env fuel x.2 id (bufWrite out 0 (slice (w.data l.ino) e.start e.len))) Q S w'))
        S { w with sys := r })
    (hkill : ∀ e, e ∈ idx.entries → e.id = id → e.len ≤ out.length → okCalls w.sys < e.len →
      S .killed { w with sys := [] }) :
    wp (localGet env (fuel + 1) l id out) Q S w := by
  obtain ⟨r, idx', e, hi', hp, _, _, _, _, _, hf, hn⟩ := indexQuery_spec env.lib hlib idx id hi
  unfold localGet
  simp only [hl, e]
  cases r with
  | none => exact wp_pure (hmiss idx' hi' hp (hn rfl))
  | some i =>
    obtain ⟨e, e1, e2, e3⟩ := hf i rfl
    simp only [e1]
    by_cases hb : e.len > out.length
    · rw [if_pos hb]; exact wp_pure (hbig idx' e hi' hp e3 e2 hb)
    · rw [if_neg hb]
      have hle : e.len ≤ out.length := by omega
      refine wp_bind (wp_preadall ?_ ?_ ?_)
      · intro r hr hlen _
        have htake : (bufWrite out 0 (slice (w.data l.ino) e.start e.len)).take e.len =
            slice (w.data l.ino) e.start e.len := by
          unfold bufWrite
          simp [hlen]
        simp only [Bool.not_true, Bool.false_eq_true, if_false, htake]
        split
        · next hv => exact wp_pure (hvalid idx' e r hi' hp e3 e2 hle hr hlen hv)
        · next hv =>
          split
          · next hh => exact wp_pure (hcheck idx' e r i (orFlags_inv _ _ hi') hi' hp e3 e2 e1 hle hr hlen hh (by simpa using hv))
          · next hh =>
            refine wp_bind (wp_mono (hrescan e r e3 e2 (by simpa using hv) hle hr hlen hh) ?_ (fun _ _ h => h))
            intro x w' hx
            obtain ⟨b, l'⟩ := x
            cases b with
            | false => exact wp_pure (hx.1 rfl)
            | true => exact hx.2 rfl
      · intro r n hr hn hc
        simp only [Bool.not_false, if_true]
        exact wp_pure (hread idx' e r n hi' hp e3 e2 hle hr hn hc)
      · intro hk
        exact hkill e e3 e2 hle hk

end Csn.Proof
