import Verif.Spec.Room
import Verif.Proof.RoomTarget
import Verif.Props.SyncEx
import Verif.Props.Index
import Verif.Props.Local
/-
C93: the memory for chunk indices.
-/
namespace Csn.Props
open Csn Spec Proof

theorem nmax_eq (a b : Nat) : Nat.max a b = if a ≤ b then b else a := rfl

theorem scanRoom_eq (p : Params) (size : Nat) : scanRoom p size = scanLimit p.min p.avg size := by
  unfold scanRoom scanLimit grownLimit chunkLimit
  simp only [nmax_eq]

/-! ### An index on its own -/

/-- How many insertions a history has. -/
def insertions (ops : List IndexOp) : Nat := (ops.filter (fun o => match o with | .insert _ _ _ => true | .lookup _ => false)).length

theorem runIndex_room {lib : Lib} (hlib : lib.Conforms) {e : Nat} : ∀ (ops : List IndexOp) (idx : Index) (mem : List Bool) (as : List IndexAns) (k : Nat),
    Fits e idx → idx.entries.length ≤ k →
    Fits e (runIndex lib ops idx mem as).2 ∧ (runIndex lib ops idx mem as).2.entries.length ≤ k + insertions ops
  | [], idx, mem, as, k, hf, hk => ⟨hf, by simp only [runIndex]; omega⟩
  | .insert off len id :: r, idx, mem, as, k, hf, hk => by
    have hi : insertions (.insert off len id :: r) = insertions r + 1 := by simp [insertions]
    unfold runIndex
    generalize h : indexInsertPure idx off len id mem = x
    obtain ⟨x, idx', m⟩ := x
    obtain ⟨h1, h2, _⟩ := insert_room h
    cases x with
    | stop s => exact ⟨h2 e hf, by simp only; omega⟩
    | ok p =>
      have := runIndex_room hlib r idx' m (as ++ [.inserted p.isSome]) (k + 1) (h2 e hf) (by omega)
      exact ⟨this.1, by simp only; omega⟩
  | .lookup id :: r, idx, mem, as, k, hf, hk => by
    have hi : insertions (.lookup id :: r) = insertions r := by simp [insertions]
    unfold runIndex
    have hq := indexQuery_room lib idx id
    have hl : (indexQuery lib idx id).2.entries.length = idx.entries.length := by
      unfold indexQuery indexSort
      cases idx.sorted with
      | true => rfl
      | false => simp only [Bool.false_eq_true, if_false, (hlib.perm idx.entries).length_eq]
    generalize indexQuery lib idx id = x at hq hl
    obtain ⟨x, idx'⟩ := x
    simp only at hq hl
    have hf' : Fits e idx' := by
      refine ⟨?_, ?_⟩
      · rw [hq.2, hl]; exact hf.1
      · rw [hq.1, hq.2]; exact hf.2
    cases x with
    | none =>
      have := runIndex_room hlib r idx' mem (as ++ [.found none]) k hf' (by omega)
      exact ⟨this.1, by simp only; omega⟩
    | some i =>
      simp only
      split
      · exact ⟨hf', by simp only; omega⟩
      · next x _ =>
        have := runIndex_room hlib r idx' mem (as ++ [.found (some (x.start, x.len))]) k hf' (by omega)
        exact ⟨this.1, by omega⟩

/-- Whatever is done with an index, and however it ends, it never has room for more than what it was made for, or a fifth more
than the number of insertions, and one. -/
theorem C93_index (lib : Lib) (hlib : lib.Conforms) (expected : Nat) (w w' : World) (idx : Index)
    (h : indexInit expected w = (.ok (some idx), w')) (ops : List IndexOp) (mem : List Bool) :
    (runIndex lib ops idx mem []).2.cap ≤ 48 * grownLimit expected (insertions ops) := by
  obtain ⟨rfl, _, _⟩ := indexInit_fresh expected w w' idx h
  obtain ⟨⟨h1, h2⟩, h3⟩ := runIndex_room hlib (e := expected) ops (freshIndex expected) mem [] 0 ⟨Or.inl (Nat.le_refl _), Nat.le_refl _⟩ (by simp [freshIndex])
  have : (runIndex lib ops (freshIndex expected) mem []).2.space ≤ grownLimit expected (insertions ops) := by
    unfold grownLimit
    split <;> omega
  omega

/-- The limit is reached: an index made for one entry, with three insertions. -/
example : (runIndex (Lib.mk id (fun _ _ => none)) [.insert 0 1 [1], .insert 1 1 [2], .insert 2 1 [3]] (freshIndex 1) [] []).2.cap = 48 * 3 ∧
    grownLimit 1 3 = 4 := by decide

/-! ### Local stores -/

/-- The index of a new local store is one that was made for the entries of the index file, or has the room the scan of the file
needs. -/
theorem C93_new {env : LEnv} {path : Bytes} {index : Option Bytes} {p : Params} {d : Nat} (he : ScanEnv env.disc env.bufsiz p d) {w w' : World} {l : Loc}
    (h : localNew env path index p w = (.ok (some l), w')) {idx : Index} (hi : l.idx = .live idx) :
    (∃ ipath i n, index = some ipath ∧ w.dir ipath = some i ∧ (w.data i).length = 104 + 40 * n ∧ idx.cap = 48 * n) ∨
    (∃ i, w.dir path = some i ∧ idx.cap ≤ 48 * scanLimit p.min p.avg (w.data i).length) := by
  obtain ⟨_, h2⟩ := wp_ok (localNew_room (path := path) (index := index) he w) h
  obtain ⟨h3, h4, h5⟩ := h2 l rfl
  rcases h5 with ⟨idx', ipath, i, n, e1, e2, e3, e4, e5⟩ | h5
  · rw [hi] at e1
    cases e1
    exact Or.inl ⟨ipath, i, n, e2, e3, e4, e5⟩
  · refine Or.inr ⟨l.ino, h3, ?_⟩
    rw [← scanRoom_eq]
    exact h5 idx hi

theorem askAll_room {env : LEnv} {d B : Nat} (ids : List Id) : ∀ (l : Loc) (out : Bytes) (w : World), ScanEnv env.disc env.bufsiz l.p d → Small B l →
    scanRoom l.p (w.data l.ino).length ≤ B → wp (askAll env l out ids) (fun r _ => Small B r.2) (fun _ _ => True) w := by
  induction ids with
  | nil =>
    intro l out w _ hl _
    exact wp_pure hl
  | cons id ids ih =>
    intro l out w he hl hB
    unfold askAll
    refine wp_bind (wp_mono (localGet_room 2 l id out w he hl hB) ?_ (fun _ _ h => h))
    intro a w1 ⟨h1, h2, h3, h4⟩
    obtain ⟨r, l1, out1⟩ := a
    simp only at h2 h3 h4 ⊢
    cases r with
    | none => exact wp_pure h4
    | some n =>
      refine wp_bind (wp_mono (ih l1 out1 w1 (by rw [h3]; exact he) h4 (by rw [h3, h2, h1]; exact hB)) ?_ (fun _ _ h => h))
      intro x w2 hx
      exact wp_pure hx

/-- However long a local store is used: its index has room for the entries of the index file, or for what a scan of its file
needs. -/
theorem C93_store {env : LEnv} {path : Bytes} {index : Option Bytes} {p : Params} {d : Nat} (he : ScanEnv env.disc env.bufsiz p d) {out : Bytes} {ids : List Id}
    {w w' : World} {as : List (Id × Answer)} {l : Loc} (h : session env path index p out ids w = (.ok (some (as, l)), w')) {idx : Index} (hi : l.idx = .live idx) :
    (∃ ipath i, index = some ipath ∧ w.dir ipath = some i ∧ idx.cap ≤ 48 * listedIn (w.data i).length) ∨
    (∃ i, w.dir path = some i ∧ idx.cap ≤ 48 * scanLimit p.min p.avg (w.data i).length) := by
  have key : wp (session env path index p out ids) (fun r _ => ∀ as l, r = some (as, l) → ∀ idx, l.idx = .live idx →
      (∃ ipath i, index = some ipath ∧ w.dir ipath = some i ∧ idx.cap ≤ 48 * listedIn (w.data i).length) ∨
      (∃ i, w.dir path = some i ∧ idx.cap ≤ 48 * scanLimit p.min p.avg (w.data i).length)) (fun _ _ => True) w := by
    unfold session
    refine wp_bind (wp_mono (localNew_room (path := path) (index := index) he w) ?_ (fun _ _ h => h))
    intro a w1 ⟨h1, h2⟩
    cases a with
    | none => exact wp_pure (by simp)
    | some l =>
      obtain ⟨h3, h4, h5⟩ := h2 l rfl
      have main : ∀ B, Small B l → scanRoom p (w.data l.ino).length ≤ B → wp (askAll env l out ids) (fun r _ => Small B r.2) (fun _ _ => True) w1 :=
        fun B g1 g2 => askAll_room ids l out w1 (by rw [h4]; exact he) g1 (by rw [h4, h1]; exact g2)
      rcases h5 with ⟨idx', ipath, i, n, e1, e2, e3, e4, e5⟩ | h5
      · have hn : listedIn (w.data i).length = n := by unfold listedIn; omega
        have hs : Small n l := fun j hj => by rw [e1] at hj; cases hj; omega
        by_cases hle : scanRoom p (w.data l.ino).length ≤ n
        · refine wp_bind (wp_mono (main n hs hle) ?_ (fun _ _ h => h))
          intro x w2 hx
          refine wp_pure ?_
          rintro as l' e idx hi
          cases e
          exact Or.inl ⟨ipath, i, e2, e3, by rw [hn]; exact hx idx hi⟩
        · refine wp_bind (wp_mono (main _ (fun j hj => Nat.le_trans (hs j hj) (by omega)) (Nat.le_refl _)) ?_ (fun _ _ h => h))
          intro x w2 hx
          refine wp_pure ?_
          rintro as l' e idx hi
          cases e
          exact Or.inr ⟨l.ino, h3, by rw [← scanRoom_eq]; exact hx idx hi⟩
      · refine wp_bind (wp_mono (main _ h5 (Nat.le_refl _)) ?_ (fun _ _ h => h))
        intro x w2 hx
        refine wp_pure ?_
        rintro as l' e idx hi
        cases e
        exact Or.inr ⟨l.ino, h3, by rw [← scanRoom_eq]; exact hx idx hi⟩
  exact wp_ok key h as l rfl idx hi

/-- A store without index file: estimate and chunks of the file. -/
example : (match (session syncEnv.toLEnv (str "s") none ⟨10, 20, 50⟩ (List.replicate 60 0) [syncEnv.H exC1] okWorld).1 with
    | .ok (some (_, ⟨_, .live idx, _⟩)) => (idx.entries.length, idx.cap)
    | _ => (0, 0)) = (2, 48 * 3) ∧ scanLimit 10 20 exFile.length = 3 := by decide +kernel

/-- With an index file: one of two entries takes 96 bytes. -/
example : (match (session syncEnv.toLEnv (str "s") (some (str "i")) ⟨10, 20, 50⟩ (List.replicate 60 0) [syncEnv.H exC1] okWorld).1 with
    | .ok (some (_, ⟨_, .live idx, _⟩)) => (idx.entries.length, idx.cap)
    | _ => (0, 0)) = (2, 96) ∧ listedIn (exIdx [exC1, exC2]).length = 2 := by decide +kernel

/-- With an average of at least 48 bytes only the number of chunks counts. -/
theorem C93_limit (min avg size : Nat) (h : min < avg) (h48 : 48 ≤ avg) : scanLimit min avg size = 12 * chunkLimit min size / 10 + 1 := by
  unfold scanLimit grownLimit
  rw [if_pos]
  unfold chunkLimit
  generalize hm : (if min ≤ 48 then 48 else min) = m
  have hm0 : 0 < m ∧ m ≤ avg := by rw [← hm]; split <;> omega
  have h1 : size < m * (size / m + 1) := by
    have := Nat.div_add_mod size m
    have := Nat.mod_lt size hm0.1
    rw [Nat.mul_add, Nat.mul_one]; omega
  generalize size / m = q at h1
  have h2 : 12 * size / avg ≤ 12 * (q + 1) := by
    refine Nat.div_le_of_le_mul ?_
    have : m * (q + 1) ≤ avg * (q + 1) := Nat.mul_le_mul_right _ hm0.2
    have e : avg * (12 * (q + 1)) = 12 * (avg * (q + 1)) := by rw [Nat.mul_left_comm]
    omega
  omega

/-- An image of 64 GiB with casync's default sizes: at most 242 MB, less than 0.4 percent. -/
example : 48 * scanLimit 16384 65536 (2 ^ 36) = 241592016 ∧ 1000 * (48 * scanLimit 16384 65536 (2 ^ 36)) < 4 * 2 ^ 36 := by decide

/-! ### The target -/

theorem TgtRoom.down {n k : Nat} {t : Tgt} (h : TgtRoom n n t) (hk : k ≤ n) : TgtRoom n k t := fun e => ⟨(h e).1, (h e).2.1, by have := (h e).2.2; omega⟩

/-- After a front end: the index file has `n` entries and the target is ready for them. -/
theorem started_room {env : Env} {posix : Bool} {args : List Bytes} {w w1 : World} {s : Setup} (h : csn env args w = (.ok (some s), w1) ∨ casync env posix args w = (.ok (some (.ready s)), w1)) :
    (w.data s.iino).length = 104 + 40 * s.n ∧ TgtRoom s.n s.n s.tgt := by
  rcases h with h | h
  · exact (wp_ok (wp_csn_room env args w) h s rfl).2
  · exact ((wp_ok (wp_casync_room env posix args w) h).1 s rfl).2

/-- The index of the target has room for the entries of the index file and never grows: after any part of the run, whatever happens
in it. -/
theorem C93_target {env : Env} (hlib : env.lib.Conforms) {posix : Bool} {args : List Bytes} {w w1 w2 w3 : World} {s : Setup}
    (h : csn env args w = (.ok (some s), w1) ∨ casync env posix args w = (.ok (some (.ready s)), w1)) {c c' : Cb} (hc : c.tgt = s.tgt) {k : Nat} (hk : k ≤ s.n) {b : Bool}
    (hr : caibxIterate s.iino s.p k (entryCb env) c w2 = (.ok (b, c'), w3)) (hq : c'.tgt.queryable = true) :
    (w.data s.iino).length = 104 + 40 * s.n ∧ c'.tgt.idx.cap = 48 * s.n ∧ c'.tgt.idx.entries.length ≤ s.n := by
  obtain ⟨h1, h2⟩ := started_room h
  have hy := yields_caibxIterate (P := fun k (c : Cb) => TgtRoom s.n k c.tgt) (cb := entryCb env) (ino := s.iino) (p := s.p)
    (fun k c e hc => yields_entryCb hlib hc e) (fun k c h => h.le) (s := c) (n := k) (by rw [hc]; exact TgtRoom.down h2 hk)
  obtain ⟨_, g2, g3⟩ := wp_ok (hy w2) hr hq
  exact ⟨h1, g2, by omega⟩

/-- The same if casync was asked for help (C39) and goes on without stores. -/
theorem C93_help {env : Env} (hlib : env.lib.Conforms) {posix : Bool} {args : List Bytes} {w w1 w2 w3 : World} {i n : Nat} {p : Params} {t : Tgt}
    (h : casync env posix args w = (.ok (some (.noStore i p n t)), w1)) {c' : Tgt × Bytes} {buf : Bytes} {k : Nat} (hk : k ≤ n) {b : Bool}
    (hr : caibxIterate i p k (entryCbNoStore env) (t, buf) w2 = (.ok (b, c'), w3)) (hq : c'.1.queryable = true) :
    (w.data i).length = 104 + 40 * n ∧ c'.1.idx.cap = 48 * n ∧ c'.1.idx.entries.length ≤ n := by
  obtain ⟨_, h1, h2⟩ := (wp_ok (wp_casync_room env posix args w) h).2 i p n t rfl
  have hy := yields_caibxIterate (P := fun k (c : Tgt × Bytes) => TgtRoom n k c.1) (cb := entryCbNoStore env) (ino := i) (p := p)
    (fun k c e hc => by
      unfold entryCbNoStore
      refine Yields.ite (Yields.pure' hc.le) (Yields.bind' (yields_targetCheck hlib hc _ _ _ _) (fun a ha => ?_))
      exact Yields.ite (Yields.pure' ha.1) (Yields.stop _)) (fun k c h => h.le) (s := (t, buf)) (n := k) (TgtRoom.down h2 hk)
  obtain ⟨_, g2, g3⟩ := wp_ok (hy w2) hr hq
  exact ⟨h1, g2, by omega⟩

/-- A run with the target and a file as stores: two chunks are written, and the index has them in the 96 bytes it was made with. -/
example : (match csn syncEnv [str "i", str "t", str "t", str "s"] okWorld with
    | (.ok (some s), w1) =>
      match (caibxIterate s.iino s.p s.n (entryCb syncEnv) ⟨true, false, List.replicate 32 0, List.replicate 60 0, 0, s.tgt, s.chain⟩ w1).1 with
      | .ok (b, c) => (b, c.tgt.queryable, s.n, c.tgt.idx.entries.length, c.tgt.idx.cap)
      | _ => (false, false, 0, 0, 0)
    | _ => (false, false, 0, 0, 0)) = (true, true, 2, 2, 96) := by decide +kernel

end Csn.Props
