import Verif.Spec.TestImage
import Verif.Proof.Edits
import Verif.Props.LocalExact
/-
C92: images that are made of chunks.
-/
namespace Csn.Props
open Csn Spec Proof

/-- **C92**: pieces each of which the rule cuts off exactly at its end are the chunks of their concatenation. -/
theorem C92_concat {mi ma d : Nat} : ∀ {cs : List Bytes}, (∀ c ∈ cs, FirstCut mi ma d c c.length) → Chunking mi ma d cs.flatten cs
  | [], _ => .empty
  | c :: cs, h => by
    have hc := h c List.mem_cons_self
    have := Chunking.cut (n := c.length) (cs := cs) (firstCut_congr (g := c ++ cs.flatten) (by simp) (by simp) hc)
      (by rw [List.drop_left]; exact C92_concat fun x hx => h x (List.mem_cons_of_mem _ hx))
    rw [List.take_left] at this
    exact this

/-! ### The hash values -/

theorem zeros_stay : (buzhash (List.replicate 48 0)).toNat % 0xc17f ≠ 0xc17f - 1 := by decide +kernel

theorem five_stays : (buzhash (List.replicate 47 0 ++ [0x05])).toNat % 0xc17f ≠ 0xc17f - 1 := by decide +kernel

theorem pattern_cuts : (buzhash (List.replicate 46 0 ++ [0x05, 0x8b])).toNat % 0xc17f = 0xc17f - 1 := by decide +kernel

/-- **C92**: what the comment in the test says about the windows: one that starts with any byte and goes on with zeros is no place to cut, one
that ends with the pattern is. -/
theorem C92_windows : (∀ x : UInt8, (buzhash ([x] ++ List.replicate 47 0)).toNat % 0xc17f ≠ 0xc17f - 1) ∧
    (buzhash (List.replicate 46 0 ++ [0x05, 0x8b])).toNat % 0xc17f = 0xc17f - 1 := by
  refine ⟨fun x => ?_, pattern_cuts⟩
  have h : ∀ n : Fin 256, (buzhash ([UInt8.ofNat n.1] ++ List.replicate 47 0)).toNat % 0xc17f ≠ 0xc17f - 1 := by decide +kernel
  have := h ⟨x.toNat, x.toNat_lt⟩
  simpa using this

theorem window_zero {x : UInt8} {k n : Nat} {r : Bytes} (h1 : 49 ≤ n) (h2 : n ≤ k + 1) : hashAt (x :: (List.replicate k 0 ++ r)) n = (buzhash (List.replicate 48 0)).toNat := by
  unfold hashAt
  obtain ⟨n, rfl⟩ : ∃ j, n = j + 1 := ⟨n - 1, by omega⟩
  rw [List.take_succ_cons, List.take_append_of_le_length (by simp; omega), List.take_replicate, Nat.min_eq_left (by omega)]
  obtain ⟨j, rfl⟩ : ∃ j, n = j + 48 := ⟨n - 48, by omega⟩
  rw [show j + 48 + 1 - 48 = j + 1 by omega, List.drop_succ_cons, List.drop_replicate, Nat.add_sub_cancel_left]

/-- **C92**: the chunks of the tests are cut off at their ends. -/
theorem C92_made (size : Nat) (x : UInt8) (h1 : 16 * 1024 ≤ size) (h2 : size ≤ 256 * 1024) :
    (made size x).length = size ∧ FirstCut 16384 262144 0xc17f (made size x) size := by
  unfold made
  by_cases hs : size = 256 * 1024
  · rw [if_pos hs]
    have hl : ([x] ++ List.replicate (size - 1) (0 : UInt8)).length = size := by simp; omega
    refine ⟨hl, ⟨by omega, by omega, Or.inl (by omega)⟩, ?_⟩
    rintro m hm ⟨_, _, h | ⟨h, h'⟩⟩
    · omega
    · have := window_zero (x := x) (k := size - 1) (n := m) (r := []) (by omega) (by omega)
      rw [List.append_nil] at this
      rw [List.singleton_append, this] at h'
      exact zeros_stay h'
  · rw [if_neg hs]
    have e : [x] ++ List.replicate (size - 1 - 48) (0 : UInt8) ++ (List.replicate 46 0 ++ [0x05, 0x8b]) = x :: (List.replicate (size - 3) 0 ++ [0x05, 0x8b]) := by
      rw [List.append_assoc, ← List.append_assoc (List.replicate _ _), List.replicate_append_replicate, List.singleton_append]
      congr 3
      omega
    rw [e]
    have hl : (x :: (List.replicate (size - 3) (0 : UInt8) ++ [0x05, 0x8b])).length = size := by simp; omega
    refine ⟨hl, ⟨by omega, by omega, Or.inr ⟨by omega, ?_⟩⟩, ?_⟩
    · unfold hashAt
      rw [List.take_of_length_le (by omega)]
      obtain ⟨k, rfl⟩ : ∃ k, size = k + 49 := ⟨size - 49, by omega⟩
      rw [show k + 49 - 48 = k + 1 by omega, List.drop_succ_cons, List.drop_append_of_le_length (by simp), List.drop_replicate, show k + 49 - 3 - k = 46 by omega]
      exact pattern_cuts
    · rintro m hm ⟨_, _, h | ⟨h, h'⟩⟩
      · omega
      · by_cases hm' : m = size - 1
        · unfold hashAt at h'
          subst hm'
          obtain ⟨k, rfl⟩ : ∃ k, size = k + 50 := ⟨size - 50, by omega⟩
          have e' : List.replicate (k + 50 - 3) (0 : UInt8) ++ [0x05, 0x8b] = (List.replicate (k + 47) 0 ++ [0x05]) ++ [0x8b] := by simp
          rw [e', show k + 50 - 1 = (k + 48) + 1 by omega, List.take_succ_cons, List.take_left' (by simp), show k + 48 + 1 - 48 = k + 1 by omega, List.drop_succ_cons,
            List.drop_append_of_le_length (by simp), List.drop_replicate, Nat.add_sub_cancel_left] at h'
          exact five_stays h'
        · rw [window_zero (by omega) (by omega)] at h'
          exact zeros_stay h'

/-- **C92**: an image made of such chunks is divided into exactly these. -/
theorem C92_image (l : List (Nat × UInt8)) (h : ∀ x ∈ l, 16 * 1024 ≤ x.1 ∧ x.1 ≤ 256 * 1024) :
    Chunking 16384 262144 0xc17f (l.map (fun x => made x.1 x.2)).flatten (l.map (fun x => made x.1 x.2)) :=
  C92_concat fun c hc => by
    obtain ⟨x, hx, rfl⟩ := List.mem_map.1 hc
    obtain ⟨g1, g2⟩ := C92_made x.1 x.2 (h x hx).1 (h x hx).2
    rwa [g1]

theorem zeros_cut {n m : Nat} (h : Cut 16384 262144 0xc17f (List.replicate n 0) m) : 262144 ≤ m := by
  obtain ⟨_, h2, h | ⟨h, h'⟩⟩ := h
  · exact h
  · rw [List.length_replicate] at h2
    obtain ⟨n, rfl⟩ : ∃ j, n = j + 1 := ⟨n - 1, by omega⟩
    have := window_zero (x := 0) (k := n) (n := m) (r := []) (by omega) h2
    rw [List.append_nil, ← List.replicate_succ] at this
    rw [this] at h'
    exact absurd h' zeros_stay

/-- **C92**: an empty disk: any number of zeros is divided into chunks of the maximal size, which are all the same, and what is left. -/
theorem C92_zeros : ∀ k r : Nat, r < 262144 →
    Chunking 16384 262144 0xc17f (List.replicate (k * 262144 + r) 0) (List.replicate k (List.replicate 262144 0) ++ if r = 0 then [] else [List.replicate r 0])
  | 0, r, hr => by
    rw [Nat.zero_mul, Nat.zero_add, List.replicate_zero (a := List.replicate 262144 (0 : UInt8)), List.nil_append]
    split
    · next h => subst h; exact .empty
    · next h =>
      refine .last (fun e => h (by simpa using congrArg List.length e)) fun n hn => ?_
      have := zeros_cut hn
      have := hn.2.1
      rw [List.length_replicate] at this
      omega
  | k + 1, r, hr => by
    have e : (k + 1) * 262144 + r = 262144 + (k * 262144 + r) := by omega
    have := Chunking.cut (min := 16384) (max := 262144) (d := 0xc17f) (data := List.replicate ((k + 1) * 262144 + r) 0) (n := 262144)
      (cs := List.replicate k (List.replicate 262144 0) ++ if r = 0 then [] else [List.replicate r 0])
      ⟨⟨by decide, by rw [List.length_replicate]; omega, Or.inl (Nat.le_refl _)⟩, fun m hm hc => by have := zeros_cut hc; omega⟩
      (by rw [List.drop_replicate, e, Nat.add_sub_cancel_left]; exact C92_zeros k r hr)
    rw [List.take_replicate, Nat.min_eq_left (by omega)] at this
    rw [List.replicate_succ, List.cons_append]
    exact this

/-- **C92**: so a scan with the default parameters that succeeds reports exactly these, ... -/
theorem C92_scan (H : Bytes → Id) {disc bufsiz} (hd : disc 65536 = some 0xc17f) (hb : 0 < bufsiz) (l : List (Nat × UInt8)) (h : ∀ x ∈ l, 16 * 1024 ≤ x.1 ∧ x.1 ≤ 256 * 1024)
    (sys : List Sys) (hz : Sys.zero ∉ sys.tail) (hok : (scan H disc bufsiz ⟨16384, 65536, 262144⟩ (l.map (fun x => made x.1 x.2)).flatten sys).1 = .ok) :
    (scan H disc bufsiz ⟨16384, 65536, 262144⟩ (l.map (fun x => made x.1 x.2)).flatten sys).2 = report H (l.map (fun x => made x.1 x.2)) := by
  obtain ⟨cs, h1, h2⟩ := C01_scan_reports_spec_chunks H (p := ⟨16384, 65536, 262144⟩) (d := 0xc17f) ⟨rfl, hd, hd, by decide, hb⟩ _ sys hz hok
  rw [h2, chunking_unique h1 (C92_image l h)]

/-- **C92**: ... and a local store with this image answers exactly these. -/
theorem C92_store (env : LEnv) (hlib : env.lib.Conforms) (hd : env.disc 65536 = some 0xc17f) (hb : 0 < env.bufsiz) (path out : Bytes) (l : List (Nat × UInt8)) (ids : List Id)
    (h : ∀ x ∈ l, 16 * 1024 ≤ x.1 ∧ x.1 ≤ 256 * 1024) (w : World) (ino : Nat) (hp : w.dir path = some ino) (hk : w.kind ino ≠ .other)
    (hf : w.data ino = (l.map (fun x => made x.1 x.2)).flatten) (hlo : 65536 ≤ (w.data ino).length) (hhi : (w.data ino).length < 2 ^ 56) (hout : 262144 ≤ out.length)
    (herr : Sys.err ∉ w.sys) (hz : Sys.zero ∉ w.sys) (hm : false ∉ w.mem) (hcalls : (w.data ino).length + 4 + ids.length * out.length ≤ okCalls w.sys) :
    ∃ as s w', session env path none ⟨16384, 65536, 262144⟩ out ids w = (.ok (some (as, s)), w') ∧ as.map Prod.fst = ids ∧
      ∀ id a, (id, a) ∈ as → (∃ x ∈ l, env.H (made x.1 x.2) = id ∧ a = .data (made x.1 x.2)) ∨
        (a = .notFound ∧ ∀ x ∈ l, env.H (made x.1 x.2) ≠ id) := by
  obtain ⟨as, s, w', cs, g1, g2, g3, g4⟩ := C15_scanned_store_answers env hlib path ⟨16384, 65536, 262144⟩ (d := 0xc17f) ⟨rfl, hd, hd, by decide, hb⟩ out ids w ino hp hk
    (by
      show 12 * (w.data ino).length % 2 ^ 64 / 65536 / 10 ≠ 0
      rw [Nat.mod_eq_of_lt (by omega)]
      omega) hhi (by simpa using hout) herr hz hm hcalls
  refine ⟨as, s, w', g1, g3, fun id a ha => ?_⟩
  rw [hf] at g2
  have := chunking_unique g2 (C92_image l h)
  subst this
  rcases g4 id a ha with ⟨c, hc, e1, e2⟩ | ⟨e1, e2⟩
  · obtain ⟨x, hx, rfl⟩ := List.mem_map.1 hc
    exact Or.inl ⟨x, hx, e1, e2⟩
  · exact Or.inr ⟨e1, fun x hx => e2 _ (List.mem_map.2 ⟨x, hx, rfl⟩)⟩

/-! ### Cases -/

/-- The image of test_copy (csn_test.py:240-245). -/
def testList : List (Nat × UInt8) := [(32 * 1024, 1), (32 * 1024 + 1, 2), (256 * 1024, 0), (32 * 1024, 3)]

theorem testList_sizes : ∀ x ∈ testList, 16 * 1024 ≤ x.1 ∧ x.1 ≤ 256 * 1024 := by decide

theorem testList_length : ((testList.map (fun x => made x.1 x.2)).flatten).length = 360449 := by
  simp only [testList, List.map_cons, List.map_nil, List.flatten_cons, List.flatten_nil, List.length_append, List.length_nil]
  rw [(C92_made _ 1 (by decide) (by decide)).1, (C92_made _ 2 (by decide) (by decide)).1, (C92_made _ 0 (by decide) (by decide)).1, (C92_made _ 3 (by decide) (by decide)).1]

theorem okCalls_replicate (n k : Nat) : okCalls (List.replicate n (.some k)) = n := by
  induction n with
  | zero => rfl
  | succ n ih => rw [List.replicate_succ, okCalls_cons_some, ih]

theorem not_mem_some {n k : Nat} {s : Sys} (h : s ≠ .some k) : s ∉ List.replicate n (Sys.some k) := fun hm => h (List.eq_of_mem_replicate hm)

/-- The hypotheses of `C92_scan` can be met. -/
example : (scan exH discExact 8192 ⟨16384, 65536, 262144⟩ (testList.map (fun x => made x.1 x.2)).flatten (.some 0 :: List.replicate 400000 (.some 5000))).2 =
    report exH (testList.map (fun x => made x.1 x.2)) := by
  refine C92_scan exH (by decide) (by decide) testList testList_sizes _ (not_mem_some (by decide)) (C01_scan_succeeds exH (d := 0xc17f) ⟨by decide, by decide, by decide, by decide, by decide⟩ _ 0 _ (not_mem_some (by decide)) ?_)
  rw [testList_length, okCalls_replicate]
  decide

def testWorld : World :=
  { data := fun i => if i = 1 then (testList.map (fun x => made x.1 x.2)).flatten else [], kind := fun _ => .reg, dir := fun p => if p = str "s" then some 1 else none,
    next := 6, sys := List.replicate 2000000 (.some 5000), mem := [], net := [], log := [] }

/-- The hypotheses of `C92_store` can be met. -/
example (ids : List Id) (h : ids.length = 4) :
    ∃ as s w', session exEnv (str "s") none ⟨16384, 65536, 262144⟩ (List.replicate 262144 0) ids testWorld = (.ok (some (as, s)), w') ∧ as.map Prod.fst = ids ∧
      ∀ id a, (id, a) ∈ as → (∃ x ∈ testList, exEnv.H (made x.1 x.2) = id ∧ a = .data (made x.1 x.2)) ∨ (a = .notFound ∧ ∀ x ∈ testList, exEnv.H (made x.1 x.2) ≠ id) := by
  have hd : testWorld.data 1 = (testList.map (fun x => made x.1 x.2)).flatten := rfl
  refine C92_store exEnv refLib_conforms (by decide) (by decide) (str "s") _ testList ids testList_sizes testWorld 1 rfl (fun e => nomatch e) hd ?_ ?_ ?_ (not_mem_some (by decide)) (not_mem_some (by decide))
    List.not_mem_nil ?_
  · rw [hd, testList_length]; decide
  · rw [hd, testList_length]; decide
  · rw [List.length_replicate]; decide
  · rw [hd, testList_length, h, List.length_replicate, show testWorld.sys = List.replicate 2000000 (.some 5000) from rfl, okCalls_replicate]
    decide

/-- A megabyte of zeros and a bit: four times the same chunk, and a short one. -/
example : Chunking 16384 262144 0xc17f (List.replicate 1048577 0)
    [List.replicate 262144 0, List.replicate 262144 0, List.replicate 262144 0, List.replicate 262144 0, [0]] := C92_zeros 4 1 (by decide)

end Csn.Props
