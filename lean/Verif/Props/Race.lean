import Verif.Proof.Race
/-
C82: csn while other processes change files.
-/
namespace Csn.Props
open Csn.Race
open Csn.Spec (Regular)

/-- A run of the loop with the given answers: its result and the events. -/
def raced (H : Bytes → Id) (n : Nat) (srcs : List Source) (segs : List Seg) (ans : List Ans) : Res Bool × List Ev :=
  ((sync (.user H) n srcs segs ⟨ans, []⟩).1, (sync (.user H) n srcs segs ⟨ans, []⟩).2.log)

theorem raced_spec (H : Bytes → Id) (n : Nat) (srcs : List Source) (segs : List Seg) (ans : List Ans) (hreg : Regular segs) :
    K (.user H) segs srcs (raced H n srcs segs ans).2 ∧
    ((raced H n srcs segs ans).1 = .ok true → (raced H n srcs segs ans).2.filterMap finished = segs) ∧
    (raced H n srcs segs ans).1 ≠ .stop .ub ∧ (raced H n srcs segs ans).1 ≠ .stop .diverge := by
  have h := tr_sync (H := .user H) (bufMax := n) (srcs := srcs) hreg ans
  unfold raced
  revert h
  generalize sync (.user H) n srcs segs ⟨ans, []⟩ = r
  obtain ⟨r, w⟩ := r
  cases r with
  | ok a => exact fun h => ⟨h.1, fun ha => h.2 (by simpa using ha), by simp, by simp⟩
  | stop s => exact fun h => ⟨h.2.2, by simp, by simp [h.1], by simp [h.2.1]⟩

theorem takes_user (H : Bytes → Id) : Takes H false = fun c id => H c = id := by
  funext c id
  simp [Takes]

/-- C82: Whatever happens to the files while csn runs, every write carries a chunk of the region's length that hashes to the
region's ID, or that a store handed out without comparing; what csn leaves alone had the right hash when it was read.
Missing: a store that hands out data without comparing (`C82_refuted`, `C82_refuted_side`, `C82_refuted_target`).  `Regular`:
known from C58, C60.  `SoundRun` also says what a store had seen before it handed out anything without comparing. -/
theorem C82_writes_partial (H : Bytes → Id) (n : Nat) (srcs : List Source) (segs : List Seg) (ans : List Ans) (hreg : Regular segs) :
    SoundRun (fun c id => H c = id) srcs (raced H n srcs segs ans).2 := by
  rw [← takes_user]
  exact (raced_spec H n srcs segs ans hreg).1.sound

/-- C82: Only the target and local stores hand out data without comparing. -/
theorem C82_trusted (H : Bytes → Id) (n : Nat) (srcs : List Source) (segs : List Seg) (ans : List Ans) (hreg : Regular segs)
    (k : Option Nat) (id : Id) (off : Nat) (d : Bytes) (hm : .trusted k id off d ∈ (raced H n srcs segs ans).2) :
    match k with
    | none => .target ∈ srcs
    | some k => ∃ es, srcs[k]? = some (.scanned es) ∨ srcs[k]? = some (.side es) := by
  obtain ⟨a, b, hab⟩ := List.append_of_mem hm
  have h := C82_writes_partial H n srcs segs ans hreg a _ b hab
  cases k with
  | none => exact h.1
  | some k =>
    rcases h with ⟨es, h, -⟩ | ⟨⟨es, h⟩, -⟩
    · exact ⟨es, Or.inl h⟩
    · exact ⟨es, Or.inr h⟩

/-- C82: With HTTP stores only, every write carries (if it fails: a part of) a chunk that hashes to the region's ID. -/
theorem C82_http (H : Bytes → Id) (n : Nat) (srcs : List Source) (segs : List Seg) (ans : List Ans) (hreg : Regular segs)
    (hs : ∀ s ∈ srcs, s = .http) (s : Seg) (d : Bytes) (ok : Bool) (hw : .wrote s d ok ∈ (raced H n srcs segs ans).2) (hn : s.len ≠ 0) :
    ∃ c : Bytes, c.length = s.len ∧ H c = s.id ∧ d = c.take d.length ∧ (ok = true → d = c) := by
  obtain ⟨a, b, hab⟩ := List.append_of_mem hw
  obtain ⟨c, h1, h2, h3, h4⟩ := C82_writes_partial H n srcs segs ans hreg a _ b hab
  refine ⟨c, h1, ?_, h2, h3⟩
  rcases h4 hn with h4 | h4
  · exact h4
  · obtain ⟨k, off, h4⟩ := h4
    have hm : Ev.trusted k s.id off c ∈ (raced H n srcs segs ans).2 := by rw [hab]; exact List.mem_append_left _ h4
    have := C82_trusted H n srcs segs ans hreg k s.id off c hm
    cases k with
    | none => exact absurd (hs _ this) (by simp)
    | some k =>
      obtain ⟨es, h | h⟩ := this
      · exact absurd (hs _ (List.mem_of_getElem? h)) (by simp)
      · exact absurd (hs _ (List.mem_of_getElem? h)) (by simp)

/-- C82: Success means that all regions, in the order of the index, were written or found right; before the end a part
of them was.  Every write is for the region that follows those, even one that fails. -/
theorem C82_order (H : Bytes → Id) (n : Nat) (srcs : List Source) (segs : List Seg) (ans : List Ans) (hreg : Regular segs) :
    (raced H n srcs segs ans).2.filterMap finished <+: segs ∧
    ((raced H n srcs segs ans).1 = .ok true → (raced H n srcs segs ans).2.filterMap finished = segs) ∧
    OneByOne segs (raced H n srcs segs ans).2 :=
  ⟨(raced_spec H n srcs segs ans hreg).1.done, (raced_spec H n srcs segs ans hreg).2.1, (raced_spec H n srcs segs ans hreg).1.next⟩

/-- C82: With HTTP stores only, success means that every region that is not empty had the right contents at some time: csn
wrote them or read them there. -/
theorem C82_success (H : Bytes → Id) (n : Nat) (srcs : List Source) (segs : List Seg) (ans : List Ans) (hreg : Regular segs)
    (hs : ∀ s ∈ srcs, s = .http) (hok : (raced H n srcs segs ans).1 = .ok true) (s : Seg) (hm : s ∈ segs) (hn : s.len ≠ 0) :
    ∃ d : Bytes, d.length = s.len ∧ H d = s.id ∧ (.wrote s d true ∈ (raced H n srcs segs ans).2 ∨ .kept s d ∈ (raced H n srcs segs ans).2) := by
  have ho := (C82_order H n srcs segs ans hreg).2.1 hok
  rw [← ho] at hm
  obtain ⟨e, he, hf⟩ := List.mem_filterMap.1 hm
  cases e with
  | wrote s' d ok =>
    cases ok with
    | true =>
      simp [finished] at hf
      subst hf
      obtain ⟨c, h1, h2, h3, h4⟩ := C82_http H n srcs segs ans hreg hs s' d true he hn
      have := h4 rfl
      subst this
      exact ⟨d, h1, h2, Or.inl he⟩
    | false => simp [finished] at hf
  | kept s' d =>
    simp [finished] at hf
    subst hf
    obtain ⟨a, b, hab⟩ := List.append_of_mem he
    obtain ⟨h1, h2⟩ := C82_writes_partial H n srcs segs ans hreg a _ b hab
    exact ⟨d, h1, h2, Or.inr he⟩
  | trusted => simp [finished] at hf
  | right => simp [finished] at hf
  | rescan => simp [finished] at hf

/-- C82: However often files change, a local store is scanned again at most once, and only if it was given with an index. -/
theorem C82_rescan (H : Bytes → Id) (n : Nat) (srcs : List Source) (segs : List Seg) (ans : List Ans) (hreg : Regular segs) (k : Nat) :
    (raced H n srcs segs ans).2.count (.rescan k) ≤ 1 ∧
    (.rescan k ∈ (raced H n srcs segs ans).2 → ∃ es, srcs[k]? = some (.side es)) :=
  ⟨(raced_spec H n srcs segs ans hreg).1.once k, fun hm => by
    obtain ⟨a, b, hab⟩ := List.append_of_mem hm
    exact C82_writes_partial H n srcs segs ans hreg a _ b hab⟩

/-- C82: Changing files cause no undefined behaviour, and no lookup goes on for ever. -/
theorem C82_no_ub (H : Bytes → Id) (n : Nat) (srcs : List Source) (segs : List Seg) (ans : List Ans) (hreg : Regular segs) :
    (raced H n srcs segs ans).1 ≠ .stop .ub ∧ (raced H n srcs segs ans).1 ≠ .stop .diverge :=
  (raced_spec H n srcs segs ans hreg).2.2

/-- The claim without exception: a run that succeeds has written or found the right contents everywhere. -/
def RaceProof (H : Bytes → Id) : Prop :=
  ∀ (n : Nat) (srcs : List Source) (segs : List Seg) (ans : List Ans), Regular segs → (raced H n srcs segs ans).1 = .ok true →
    ∀ s ∈ segs, s.len ≠ 0 → ∃ d : Bytes, H d = s.id ∧ (.wrote s d true ∈ (raced H n srcs segs ans).2 ∨ .kept s d ∈ (raced H n srcs segs ans).2)

/-- The index used below: one region that is the chunk `x`. -/
def single (H : Bytes → Id) (x : Bytes) : List Seg := [⟨0, x.length, H x⟩]

/-- The seed file is changed between the scan (store-local.c:121) and the lookup: the target's region cannot be read, the
index of the seed knows the chunk, the seed now has `y` there. -/
def swapped (y : Bytes) : List Ans := [.read [] false, .pick (some 0), .read y true, .write true 0]

theorem swapped_run (H : Bytes → Id) (x y : Bytes) (n : Nat) (hxy : x.length = y.length) (h0 : y.length ≠ 0) (hn : y.length ≤ n) :
    raced H n [.scanned (single H x)] (single H x) (swapped y) =
      (.ok true, [.trusted (some 0) (H x) 0 y, .wrote ⟨0, y.length, H x⟩ y true]) := by
  have h1 : ¬ y.length > n := by omega
  have h2 : (bufWrite (List.replicate n (0 : UInt8)) 0 []) = List.replicate n 0 := by simp [bufWrite]
  obtain ⟨m, hm⟩ : ∃ m, y.length = m + 1 := ⟨y.length - 1, by omega⟩
  have h3 : ∀ (b : Bytes), (y ++ b).take (m + 1) = y := by
    intro b
    rw [← hm, List.take_left]
  have h4 : (bufWrite (List.replicate n (0 : UInt8)) 0 y).length = n := by
    rw [bufWrite_length' _ _ (by simpa using hn), List.length_replicate]
  have h5 : (bufWrite (List.replicate n (0 : UInt8)) 0 y).take (m + 1) = y := by
    rw [← hm]; exact bufWrite_take' _ _
  have h6 : ¬ m + 1 > n := by omega
  unfold raced sync single
  simp only [hxy, hm, swapped, loop, cb, tCheck, digest, Hasher.user, readInto, query, store, fetch, cGet, sGet, lGet, tryEntry, tWrite, tAdd, chainFrom, Source.store,
    List.map_cons, List.map_nil, bind, R.bind, R.next, pure, R.pure, List.length_replicate, List.take_nil, h2, h6, if_false, if_true,
    List.contains_cons, List.contains_nil, Bool.or_false]
  simp [R.bind, R.next, R.emit, R.pure, h4, h5, h6, hm]

/-- C82, the other half: if the hash tells any two byte strings of the same length apart, csn can be made to write the wrong
one and report success, by changing a seed file after it was scanned. -/
theorem C82_refuted (H : Bytes → Id) (x y : Bytes) (hxy : x.length = y.length) (hne : H y ≠ H x) : ¬ RaceProof H := by
  intro h
  have h0 : y.length ≠ 0 := by
    intro h0
    have e1 := List.length_eq_zero_iff.1 h0
    have e2 := List.length_eq_zero_iff.1 (hxy.trans h0)
    rw [e1, e2] at hne
    exact hne rfl
  have hr := swapped_run H x y y.length hxy h0 (Nat.le_refl _)
  obtain ⟨d, hd, hm⟩ := h y.length _ (single H x) (swapped y) (by
    intro a p q b hab
    have := congrArg List.length hab
    simp [single] at this
    omega) (by rw [hr]) ⟨0, x.length, H x⟩ (by simp [single]) (by simp only; omega)
  rw [hr] at hm
  simp at hm
  rw [hm.2] at hd
  exact hne hd

/-- The hash of the examples below: every string is its own ID. -/
def selfHash (d : Bytes) : Id := d

/-- Three regions, the first and the last with the same ID. -/
def sandwich : List Seg := [⟨0, 2, [1, 2]⟩, ⟨2, 2, [3, 4]⟩, ⟨4, 2, [1, 2]⟩]

theorem sandwich_regular : Regular sandwich := by
  intro a x y b h
  unfold sandwich at h
  match a, h with
  | [], h => simp at h; obtain ⟨h1, h2, -⟩ := h; subst h1; subst h2; decide
  | [_], h => simp at h; obtain ⟨-, h1, h2, -⟩ := h; subst h1; subst h2; decide
  | [_, _], h => simp at h
  | _ :: _ :: _ :: r, h =>
    have := congrArg List.length h
    simp at this

/-- C82: A seed file with an index is compared at the first use of an entry (store-local.c:152-161), not at later ones. -/
theorem C82_refuted_side : raced selfHash 8 [.side [⟨0, 2, [1, 2]⟩], .http] sandwich
    [.read [] false, .pick (some 0), .read [1, 2] true, .write true 0, .pick none, .http [3, 4] .judged, .write true 0,
     .pick (some 0), .read [6, 6] true, .write true 0] =
    (.ok true, [.right 0 [1, 2] [1, 2], .wrote ⟨0, 2, [1, 2]⟩ [1, 2] true, .wrote ⟨2, 2, [3, 4]⟩ [3, 4] true, .trusted (some 0) [1, 2] 0 [6, 6],
      .wrote ⟨4, 2, [1, 2]⟩ [6, 6] true]) := by decide +kernel

/-- C82: What is read back from the target is never compared (target.c:65-70). -/
theorem C82_refuted_target : raced selfHash 8 [.target, .http] sandwich
    [.read [] false, .pick none, .http [1, 2] .judged, .write true 0, .pick none, .room true,
     .pick none, .http [3, 4] .judged, .write true 0, .pick none, .room true,
     .pick (some 0), .read [6, 6] true, .write true 0, .pick (some 0)] =
    (.ok true, [.wrote ⟨0, 2, [1, 2]⟩ [1, 2] true, .wrote ⟨2, 2, [3, 4]⟩ [3, 4] true, .trusted none [1, 2] 0 [6, 6],
      .wrote ⟨4, 2, [1, 2]⟩ [6, 6] true]) := by decide +kernel

/-- A run with an HTTP store: the first region is in the target, the server first answers something else for the second (so
the run ends), a second run gets the right data. -/
example : raced selfHash 8 [.http] sandwich [.read [1, 2] true, .read [6, 6] true, .http [6, 6] .judged] =
    (.ok false, [.kept ⟨0, 2, [1, 2]⟩ [1, 2]]) := by decide +kernel

example : Regular sandwich ∧ (∀ s ∈ [Source.http], s = .http) ∧
    raced selfHash 8 [.http] sandwich [.read [1, 2] true, .read [6, 6] true, .http [3, 4] .judged, .write true 0, .http [1, 2] .judged, .write true 0] =
    (.ok true, [.kept ⟨0, 2, [1, 2]⟩ [1, 2], .wrote ⟨2, 2, [3, 4]⟩ [3, 4] true, .wrote ⟨4, 2, [1, 2]⟩ [1, 2] true]) :=
  ⟨sandwich_regular, by simp, by decide +kernel⟩

/-- A seed whose index is wrong is scanned again; the file changes again before the chunk is read. -/
example : raced selfHash 8 [.side [⟨0, 2, [1, 2]⟩]] sandwich
    [.read [] false, .pick (some 0), .read [6, 6] true, .scan (some [⟨0, 2, [6, 6]⟩, ⟨2, 2, [1, 2]⟩]), .pick (some 1), .read [7, 7] true, .write false 1] =
    (.ok false, [.rescan 0, .trusted (some 0) [1, 2] 2 [7, 7], .wrote ⟨0, 2, [1, 2]⟩ [7] false]) := by decide +kernel

/-- Two byte strings a hash tells apart. -/
example : ([1, 2] : Bytes).length = ([6, 6] : Bytes).length ∧ selfHash [6, 6] ≠ selfHash [1, 2] := by decide

end Csn.Props
