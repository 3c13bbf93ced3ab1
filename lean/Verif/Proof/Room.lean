import Verif.Proof.LocalNew
import Verif.Proof.ReadOnly
/-
How much memory the chunk indices take.
-/
namespace Csn.Proof
open Csn Spec Props

/-- The space of an index is what was asked for, or follows from the number of entries. -/
def Fits (e : Nat) (idx : Index) : Prop :=
  (idx.space ≤ e ∨ idx.space ≤ 12 * idx.entries.length / 10 + 1) ∧ idx.cap ≤ idx.space * 48

theorem insert_room {idx idx' : Index} {off len : Nat} {id : Id} {mem m : List Bool} {r : Res (Option Nat)}
    (h : indexInsertPure idx off len id mem = (r, idx', m)) :
    idx'.entries.length ≤ idx.entries.length + 1 ∧ (∀ e, Fits e idx → Fits e idx') ∧
      (idx.entries.length < idx.space → idx'.space = idx.space ∧ idx'.cap = idx.cap) := by
  unfold indexInsertPure at h
  split at h
  · cases h; exact ⟨by omega, fun _ h => h, fun _ => ⟨rfl, rfl⟩⟩
  · have grow : ∃ b i m, indexGrow idx mem = (b, i, m) ∧ i.entries = idx.entries ∧ (∀ e, Fits e idx → Fits e i) ∧
        (idx.entries.length < idx.space → i.space = idx.space ∧ i.cap = idx.cap) := by
      unfold indexGrow
      split
      · next hge =>
        simp only
        generalize allocPure ((idx.space * 12 % 2 ^ 64 / 10 + 1) * entrySize % 2 ^ 64) mem = a
        obtain ⟨b, m'⟩ := a
        simp only
        cases b with
        | true =>
          simp only [if_true]
          refine ⟨_, _, _, rfl, rfl, fun e hf => ⟨?_, ?_⟩, fun hlt => by omega⟩
          · right
            have := Nat.mod_le (idx.space * 12) (2 ^ 64)
            simp only
            generalize idx.space * 12 % 2 ^ 64 = z at this
            omega
          · simp only
            unfold entrySize
            exact Nat.mod_le _ _
        | false =>
          simp only [Bool.false_eq_true, if_false]
          exact ⟨_, _, _, rfl, rfl, fun _ h => h, fun _ => ⟨rfl, rfl⟩⟩
      · exact ⟨_, _, _, rfl, rfl, fun _ h => h, fun _ => ⟨rfl, rfl⟩⟩
    obtain ⟨b, i, m0, e, h1, h2, h3⟩ := grow
    rw [e] at h
    cases b with
    | false => cases h; exact ⟨by rw [h1]; omega, h2, h3⟩
    | true =>
      simp only at h
      split at h
      · cases h; exact ⟨by rw [h1]; omega, h2, h3⟩
      · cases h
        refine ⟨by simp [h1], fun e hf => ?_, h3⟩
        have := h2 e hf
        refine ⟨?_, this.2⟩
        rcases this.1 with g | g
        · exact Or.inl g
        · right
          simp only [List.length_append, List.length_cons, List.length_nil]
          omega

theorem orFlags_length (idx : Index) (i : Nat) (v : Bool) : (orFlags idx i v).entries.length = idx.entries.length := by
  simp [orFlags]

theorem runCb_room {e : Nat} : ∀ (xs : List Seg) (s s' : Index × List Bool) (x : ScanRes),
    runCb (storeInsertScan true) s xs = (x, s') → Fits e s.1 → Fits e s'.1 ∧ s'.1.entries.length ≤ s.1.entries.length + xs.length
  | [], s, s', x, h, hf => by cases h; exact ⟨hf, by simp⟩
  | y :: ys, s, s', x, h, hf => by
    unfold runCb storeInsertScan at h
    generalize hi : indexInsertPure s.1 y.off y.len y.id s.2 = r at h
    obtain ⟨r, idx, m⟩ := r
    obtain ⟨h1, h2, _⟩ := insert_room hi
    cases r with
    | stop z => cases h; exact ⟨h2 e hf, by simp only [List.length_cons]; omega⟩
    | ok p =>
      cases p with
      | none => cases h; exact ⟨h2 e hf, by simp only [List.length_cons]; omega⟩
      | some i =>
        obtain ⟨g1, g2⟩ := runCb_room (e := e) ys _ s' x h (by
          have := h2 e hf
          exact ⟨by rw [orFlags_length]; exact this.1, this.2⟩)
        refine ⟨g1, ?_⟩
        simp only [orFlags_length, List.length_cons] at g2 ⊢
        omega

theorem mul_le_flatten {m : Nat} : ∀ (cs : List Bytes), (∀ c ∈ cs, m ≤ c.length) → m * cs.length ≤ cs.flatten.length
  | [], _ => by simp
  | c :: cs, h => by
    have h1 := h c (by simp)
    have h2 := mul_le_flatten cs (fun x hx => h x (by simp [hx]))
    simp only [List.flatten_cons, List.length_append, List.length_cons, Nat.mul_add, Nat.mul_one]
    omega

/-- The number of chunks of a file. -/
theorem chunking_count {mi ma d : Nat} (hmm : mi ≤ ma) {q : Bytes} {cs : List Bytes} (h : Chunking mi ma d q cs) :
    cs.length ≤ q.length / Nat.max mi 48 + 1 := by
  have h1 := mul_le_flatten _ (chunking_ge hmm h)
  have h2 : cs.dropLast.flatten.length ≤ q.length := by
    have := chunking_flatten h
    rw [← this]
    rcases List.eq_nil_or_concat cs with rfl | ⟨l, x, rfl⟩
    · simp
    · simp
  have h3 : 0 < Nat.max mi 48 := Nat.lt_of_lt_of_le (by decide) (Nat.le_max_right _ _)
  have h4 : cs.dropLast.length ≤ q.length / Nat.max mi 48 := by
    rw [Nat.le_div_iff_mul_le h3, Nat.mul_comm]; omega
  rw [List.length_dropLast] at h4
  omega

/-- At most this many entries are allotted when a file of `size` bytes is scanned. -/
def scanRoom (p : Params) (size : Nat) : Nat :=
  Nat.max (12 * size / p.avg / 10) (12 * (size / Nat.max p.min 48 + 1) / 10 + 1)

theorem fits_room {p : Params} {size : Nat} {idx : Index} (h : Fits (chunkEstimate p size) idx)
    (hn : idx.entries.length ≤ size / Nat.max p.min 48 + 1) : idx.cap ≤ 48 * scanRoom p size := by
  obtain ⟨h1, h2⟩ := h
  have : idx.space ≤ scanRoom p size := by
    unfold scanRoom
    rcases h1 with h | h
    · refine Nat.le_trans h (Nat.le_trans ?_ (Nat.le_max_left _ _))
      unfold chunkEstimate
      exact Nat.div_le_div_right (Nat.div_le_div_right (Nat.mod_le _ _))
    · refine Nat.le_trans h (Nat.le_trans ?_ (Nat.le_max_right _ _))
      generalize size / Nat.max p.min 48 = z at hn
      omega
  omega

/-- The index of a local store has room for at most `B` entries. -/
def Small (B : Nat) (l : Loc) : Prop := ∀ idx, l.idx = .live idx → idx.cap ≤ 48 * B

theorem scanInto_room {env : LEnv} {l : Loc} {d e : Nat} (he : ScanEnv env.disc env.bufsiz l.p d) {idx : Index}
    (h0 : idx.entries = []) (hf : Fits e idx) (w : World) :
    wp (scanInto env l idx) (fun a w' => w'.data = w.data ∧ Fits e a.2 ∧
      a.2.entries.length ≤ (w.data l.ino).length / Nat.max l.p.min 48 + 1) (fun _ _ => True) w := by
  have hp := paramsSet_some he.accepted
  have hmax : l.p.max < 2 ^ 32 := hp.2.2.2
  have hd : 0 < deff l.p d := by rw [he.deff]; exact he.pos
  have key : ∀ r0, ∃ res s' r, scanLoop env.H l.p d env.bufsiz (storeInsertScan true) (w.data l.ino) Chunker.init 0 0 0 (idx, w.mem) r0 = (res, s', r) ∧
      Fits e s'.1 ∧ s'.1.entries.length ≤ (w.data l.ino).length / Nat.max l.p.min 48 + 1 := by
    intro r0
    obtain ⟨res, s', r, h1, t, cs, k, x, g0, g1, g2, g3, g4, g5⟩ :=
      scanLoop_spec env.H hd hmax env.bufsiz he.buf (storeInsertScan true) (w.data l.ino) r0 Chunker.init 0 (idx, w.mem) []
        (by simp) (by simp) rep_init (noCut_nil l.p d)
    simp only [List.length_nil, Nat.add_zero] at h1
    obtain ⟨a1, a2⟩ := runCb_room _ _ _ _ g4 hf
    refine ⟨res, s', r, h1, a1, ?_⟩
    have hc := chunking_count (by omega) g3
    simp only [h0, List.length_nil, Nat.zero_add, List.length_take, segs_length, List.drop_zero] at a2 hc
    have hm : min t (w.data l.ino).length / Nat.max l.p.min 48 ≤ (w.data l.ino).length / Nat.max l.p.min 48 := Nat.div_le_div_right (by omega)
    omega
  unfold wp scanInto scanFd
  simp only [he.disc_avg]
  cases hs : w.sys with
  | nil => trivial
  | cons y r0 =>
    obtain ⟨res, s', r, h1, h2, h3⟩ := key r0
    cases y with
    | err => exact ⟨rfl, hf, by simp [h0]⟩
    | eintr =>
      simp only [h1]
      cases res <;> first | trivial | exact ⟨rfl, h2, h3⟩
    | zero =>
      simp only [h1]
      cases res <;> first | trivial | exact ⟨rfl, h2, h3⟩
    | some n =>
      simp only [h1]
      cases res <;> first | trivial | exact ⟨rfl, h2, h3⟩

theorem storeScan_room {env : LEnv} {l : Loc} {d B : Nat} (he : ScanEnv env.disc env.bufsiz l.p d) (hl : Small B l) {w : World}
    (hB : scanRoom l.p (w.data l.ino).length ≤ B) :
    wp (storeScan env l) (fun a w' => w'.data = w.data ∧ a.2.ino = l.ino ∧ a.2.p = l.p ∧ Small B a.2) (fun _ _ => True) w := by
  unfold storeScan
  refine wp_bind (wp_emit (wp_bind (wp_fdSize ?_ ?_ ?_)))
  · intro r1 _ _
    simp only
    refine wp_bind (wp_indexInit ?_ ?_ ?_)
    · intro idx m hi h0 _ _ hsp
      simp only
      refine wp_bind (wp_mono (scanInto_room he h0 (e := chunkEstimate l.p (w.data l.ino).length) ⟨Or.inl (by rw [hsp]; exact Nat.le_refl _), by rw [hi.cap]; exact Nat.le_refl _⟩ _) ?_ (fun _ _ h => h))
      intro a w' ⟨h1, h2, h3⟩
      obtain ⟨ok, idx'⟩ := a
      refine wp_pure ⟨h1, rfl, rfl, ?_⟩
      intro i hi'
      cases hi'
      have := fits_room h2 h3
      omega
    · intro m _ _ _
      exact wp_pure ⟨rfl, rfl, rfl, fun i h => by cases h⟩
    · intro _; trivial
  · intro r1 _ _
    exact wp_pure ⟨rfl, rfl, rfl, hl⟩
  · intro _; trivial

theorem indexQuery_room (lib : Lib) (idx : Index) (id : Id) :
    (indexQuery lib idx id).2.cap = idx.cap ∧ (indexQuery lib idx id).2.space = idx.space := by
  unfold indexQuery indexSort
  cases idx.sorted <;> exact ⟨rfl, rfl⟩

theorem localGet_room {env : LEnv} {d B : Nat} : ∀ (fuel : Nat) (l : Loc) (id : Id) (out : Bytes) (w : World),
    ScanEnv env.disc env.bufsiz l.p d → Small B l → scanRoom l.p (w.data l.ino).length ≤ B →
    wp (localGet env fuel l id out) (fun a w' => w'.data = w.data ∧ a.2.1.ino = l.ino ∧ a.2.1.p = l.p ∧ Small B a.2.1) (fun _ _ => True) w
  | 0, l, id, out, w => fun _ _ _ => by unfold localGet; exact wp_stop trivial
  | fuel + 1, l, id, out, w => fun he hl hB => by
    unfold localGet
    cases hi : l.idx with
    | freed => exact wp_stop trivial
    | null => exact wp_stop trivial
    | live idx =>
      simp only
      have hc := hl idx hi
      have hq := (indexQuery_room env.lib idx id).1
      generalize indexQuery env.lib idx id = qr at hq
      obtain ⟨r, idx'⟩ := qr
      simp only at hq
      have keep : ∀ i : Index, i.cap = idx'.cap → Small B { l with idx := .live i } := fun i hi j hj => by cases hj; omega
      cases r with
      | none => exact wp_pure ⟨rfl, rfl, rfl, keep _ rfl⟩
      | some i =>
        simp only
        cases idx'.entries[i]? with
        | none => exact wp_stop trivial
        | some e =>
          simp only
          have rest : ∀ ok dat (w1 : World), w1.data = w.data →
              wp (if (!ok) = true then pure (none, { l with idx := Idx.live idx' }, bufWrite out 0 dat)
                else do
                  if e.valid = true then return (some e.len, { l with idx := .live idx' }, bufWrite out 0 dat)
                  if env.H ((bufWrite out 0 dat).take e.len) = id then
                    return (some e.len, { l with idx := .live (orFlags idx' i true) }, bufWrite out 0 dat)
                  match ← storeScan env { l with idx := .freed } with
                  | (false, l) => return (none, l, bufWrite out 0 dat)
                  | (true, l) => localGet env fuel l id (bufWrite out 0 dat))
                (fun a w' => w'.data = w.data ∧ a.2.1.ino = l.ino ∧ a.2.1.p = l.p ∧ Small B a.2.1) (fun _ _ => True) w1 := by
            intro ok dat w1 hw
            split
            · exact wp_pure ⟨hw, rfl, rfl, keep _ rfl⟩
            · split
              · exact wp_pure ⟨hw, rfl, rfl, keep _ rfl⟩
              · split
                · exact wp_pure ⟨hw, rfl, rfl, keep _ rfl⟩
                · refine wp_bind (wp_mono (storeScan_room (B := B) (l := { l with idx := .freed }) he (fun i h => by cases h) (by simp only [hw]; exact hB)) ?_ (fun _ _ h => h))
                  intro a w2 ⟨h1, h2, h3, h4⟩
                  obtain ⟨b, l2⟩ := a
                  simp only at h2 h3 h4
                  cases b with
                  | false => exact wp_pure ⟨h1.trans hw, h2, h3, h4⟩
                  | true =>
                    refine wp_mono (localGet_room fuel l2 id _ w2 (by rw [h3]; exact he) h4 (by rw [h3, h2, h1, hw]; exact hB)) ?_ (fun _ _ h => h)
                    intro a w3 ⟨k1, k2, k3, k4⟩
                    exact ⟨k1.trans (h1.trans hw), k2.trans h2, k3.trans h3, k4⟩
          split
          · exact wp_pure ⟨rfl, rfl, rfl, keep _ rfl⟩
          · refine wp_bind (wp_preadall ?_ ?_ ?_)
            · intro r _ _ _
              exact rest true _ _ rfl
            · intro r n _ _ _
              exact rest false _ _ rfl
            · intros; trivial

end Csn.Proof
