import Verif.Model.Bench
import Verif.Proof.Chunking
import Verif.Spec.Bench
/-
C68: csn-bench.
-/
namespace Csn.Props
open Csn Csn.Spec Csn.Proof

/-- A reading of the clock: less than a second of nanoseconds. -/
def Timespec.Valid (t : Timespec) : Prop := 0 ≤ t.nsec ∧ t.nsec < 1000000000

/-- Nanoseconds. -/
def Timespec.ns (t : Timespec) : Int := t.sec * 1000000000 + t.nsec

/-- **C68** (time): the milliseconds printed differ from the time between the two readings by less than one millisecond. -/
theorem C68_delta (s e : Timespec) (hs : Timespec.Valid s) (he : Timespec.Valid e) (hle : Timespec.ns s ≤ Timespec.ns e)
    (hsmall : e.sec - s.sec < 2 ^ 54) :
    ((timeDeltaMs s e).toNat : Int) * 1000000 - (Timespec.ns e - Timespec.ns s) < 1000000 ∧
      (Timespec.ns e - Timespec.ns s) - ((timeDeltaMs s e).toNat : Int) * 1000000 < 1000000 ∧
      (10 ≤ e.sec - s.sec → 9001 ≤ (timeDeltaMs s e).toNat) := by
  obtain ⟨s1, s2⟩ := hs
  obtain ⟨e1, e2⟩ := he
  unfold Timespec.ns at *
  have hd : 0 ≤ e.sec - s.sec := by omega
  generalize hq : (e.nsec - s.nsec).tdiv 1000000 = q
  have hq1 : -1000000 < (e.nsec - s.nsec) - q * 1000000 ∧ (e.nsec - s.nsec) - q * 1000000 < 1000000 ∧ -1000 < q ∧ q < 1000 := by
    have h1 := Int.mul_tdiv_add_tmod (e.nsec - s.nsec) 1000000
    have h2 := Int.tmod_lt_of_pos (e.nsec - s.nsec) (b := 1000000) (by omega)
    have h3 := Int.lt_tmod_of_pos (e.nsec - s.nsec) (b := 1000000) (by omega)
    have h4 : (0 ≤ e.nsec - s.nsec → 0 ≤ (e.nsec - s.nsec).tmod 1000000) ∧ (e.nsec - s.nsec ≤ 0 → (e.nsec - s.nsec).tmod 1000000 ≤ 0) := by
      refine ⟨fun h => Int.tmod_nonneg _ h, fun h => ?_⟩
      have := Int.tmod_nonneg 1000000 (a := -(e.nsec - s.nsec)) (by omega)
      rw [Int.neg_tmod] at this
      omega
    rw [hq] at h1
    omega
  have hv : timeDeltaMs s e = BitVec.ofInt 64 ((e.sec - s.sec) * 1000 + q) := by
    unfold timeDeltaMs
    simp only [hq]
    rw [BitVec.ofInt_add, BitVec.ofInt_mul]
    rfl
  have hpos : 0 ≤ (e.sec - s.sec) * 1000 + q := by
    by_cases h0 : e.sec - s.sec = 0
    · have : 0 ≤ e.nsec - s.nsec := by omega
      have : 0 ≤ q := by rw [← hq]; exact Int.tdiv_nonneg this (by omega)
      omega
    · omega
  have hn : ((timeDeltaMs s e).toNat : Int) = (e.sec - s.sec) * 1000 + q := by
    rw [hv, BitVec.toNat_ofInt]
    rw [Int.emod_eq_of_lt hpos (by omega)]
    omega
  rw [hn]
  refine ⟨by omega, by omega, ?_⟩
  intro h10
  omega

/-- Readings of the clock: nanoseconds below a second, and seconds that are not negative and below 2^54. -/
def Ticks (clock : List (Option Timespec)) : Prop := ∀ t, some t ∈ clock → Timespec.Valid t ∧ 0 ≤ t.sec ∧ t.sec < 2 ^ 54

/-- A line tells the time between two readings of the clock that are at least ten seconds apart, give or take a millisecond;
the time it divides by is not zero. -/
def Measured (clock : List (Option Timespec)) (l : BenchLine) : Prop :=
  0 < l.count ∧ 9001 ≤ l.delta.toNat ∧ ∃ s e, some s ∈ clock ∧ some e ∈ clock ∧ 10 ≤ e.sec - s.sec ∧
    (l.delta.toNat : Int) * 1000000 - (Timespec.ns e - Timespec.ns s) < 1000000 ∧
    (Timespec.ns e - Timespec.ns s) - (l.delta.toNat : Int) * 1000000 < 1000000

theorem measured_of {clock : List (Option Timespec)} (ht : Ticks clock) {s e : Timespec} (hs : some s ∈ clock) (he : some e ∈ clock)
    (h10 : 10 ≤ e.sec - s.sec) (size count : Nat) (hc : 0 < count) : Measured clock ⟨size, count, timeDeltaMs s e⟩ := by
  obtain ⟨v1, r1, r2⟩ := ht s hs
  obtain ⟨v2, r3, r4⟩ := ht e he
  have := C68_delta s e v1 v2 (by unfold Timespec.ns; have := v1.1; have := v1.2; have := v2.1; have := v2.2; omega) (by omega)
  exact ⟨hc, this.2.2 h10, s, e, hs, he, h10, this.1, this.2.1⟩

theorem hashRound_ok {size : Nat} {start : Timespec} : ∀ {clock : List (Option Timespec)} {count n : Nat} {fin : Timespec} {rest : List (Option Timespec)},
    hashRound size start count clock = .ok (n, fin, rest) →
    some fin ∈ clock ∧ 10 ≤ fin.sec - start.sec ∧ ∃ k, clock.length = k + rest.length ∧ n = count + 100 * k ∧ 0 < k ∧ rest <:+ clock := by
  intro clock
  induction clock with
  | nil => intro count n fin rest h; simp [hashRound] at h
  | cons t clock ih =>
    intro count n fin rest h
    rw [hashRound] at h
    split at h
    · simp at h
    · cases t with
      | none => simp at h
      | some t =>
        simp only at h
        split at h
        · next h10 =>
          simp only [Res.ok.injEq, Prod.mk.injEq] at h
          obtain ⟨rfl, rfl, rfl⟩ := h
          exact ⟨by simp, h10, 1, by simp; omega, by omega, by omega, List.suffix_cons _ _⟩
        · obtain ⟨h1, h2, k, h3, h4, h5, h6⟩ := ih h
          exact ⟨by simp [h1], h2, k + 1, by simp; omega, by omega, by omega, h6.trans (List.suffix_cons _ _)⟩

theorem hashRound_stop {size : Nat} (h4 : size % 4 = 0) {start : Timespec} : ∀ {clock : List (Option Timespec)} {count : Nat} {x : Stop},
    hashRound size start count clock = .stop x → x = .killed ∨ (x = .abort ∧ none ∈ clock) := by
  intro clock
  induction clock with
  | nil => intro count x h; simp [hashRound] at h; exact .inl h.symm
  | cons t clock ih =>
    intro count x h
    rw [hashRound, if_neg (by omega)] at h
    cases t with
    | none => simp at h; exact .inr ⟨h.symm, by simp⟩
    | some t =>
      simp only at h
      split at h
      · simp at h
      · rcases ih h with h | ⟨h, hm⟩
        · exact .inl h
        · exact .inr ⟨h, by simp [hm]⟩

theorem hashRounds_ok (whole : List (Option Timespec)) (ht : Ticks whole) : ∀ (n size : Nat) (clock : List (Option Timespec)) (lines : List BenchLine), clock <:+ whole →
    hashRounds n size clock = .ok lines → lines.map BenchLine.size = (List.range n).map (fun i => size / 4 ^ i) ∧ ∀ l ∈ lines, Measured whole l ∧ 100 ∣ l.count := by
  intro n
  induction n with
  | zero => intro size clock lines _ h; simp [hashRounds] at h; subst h; simp
  | succ n ih =>
    intro size clock lines hsuf h
    cases clock with
    | nil => simp [hashRounds] at h
    | cons t clock =>
      cases t with
      | none => simp [hashRounds] at h
      | some start =>
        simp only [hashRounds] at h
        cases h1 : hashRound size start 0 clock with
        | stop x => rw [h1] at h; simp at h
        | ok r =>
          obtain ⟨count, fin, rest⟩ := r
          rw [h1] at h
          simp only at h
          obtain ⟨hf, h10, k, h3, h4, h5, h6⟩ := hashRound_ok h1
          cases h2 : hashRounds n (size / 4) rest with
          | stop x => rw [h2] at h; simp at h
          | ok ls =>
            rw [h2] at h
            simp only [Res.ok.injEq] at h
            subst h
            have hc : clock <:+ whole := (List.suffix_cons _ _).trans hsuf
            obtain ⟨i1, i2⟩ := ih (size / 4) rest ls (h6.trans hc) h2
            refine ⟨?_, ?_⟩
            · rw [List.map_cons, i1, List.range_succ_eq_map]
              simp [Nat.div_div_eq_div_mul, Nat.pow_succ, Nat.mul_comm]
            · intro l hl
              simp only [List.mem_cons] at hl
              rcases hl with rfl | hl
              · exact ⟨measured_of ht (hsuf.subset (by simp)) (hc.subset hf) h10 size count (by omega), ⟨k, by simpa using h4⟩⟩
              · exact i2 l hl

/-- **C68** (hashing): a benchmark of the hash that ends reports the sizes 256, 64 and 16 KiB, a multiple of 100 blocks each,
and measured times that are not zero; it exits with failure exactly if the kernel interface or the memory is not available. -/
theorem C68_hash (kcapi : Option Bool) (alloc : Bool) (clock : List (Option Timespec)) (ht : Ticks clock) (status : Nat) (lines : List BenchLine)
    (h : benchHash kcapi alloc clock = .ok (status, lines)) :
    ((kcapi = some false ∨ alloc = false) ∧ status = 1 ∧ lines = []) ∨
    (kcapi ≠ some false ∧ alloc = true ∧ status = 0 ∧ lines.map BenchLine.size = [262144, 65536, 16384] ∧ ∀ l ∈ lines, Measured clock l ∧ 100 ∣ l.count) := by
  unfold benchHash at h
  split at h
  · next h1 => simp at h; exact .inl ⟨.inl h1, h.1.symm, h.2⟩
  · next h1 =>
    split at h
    · next h2 => simp at h; exact .inl ⟨.inr h2, h.1.symm, h.2⟩
    · next h2 =>
      cases h3 : hashRounds 3 (65536 * 4) clock with
      | stop x => rw [h3] at h; simp at h
      | ok ls =>
        rw [h3] at h
        simp only [Res.ok.injEq, Prod.mk.injEq] at h
        obtain ⟨rfl, rfl⟩ := h
        obtain ⟨g1, g2⟩ := hashRounds_ok clock ht 3 _ clock ls (List.suffix_refl _) h3
        exact .inr ⟨h1, by simpa using h2, rfl, g1, g2⟩

/-- A word of the generator that is not zero does not become zero: shifting left. -/
theorem xorshl_ne {x : BitVec 32} (n : Nat) (hn : 0 < n) (h : x ≠ 0#32) : x ^^^ x <<< n ≠ 0#32 := by
  intro e
  apply h
  have hx : ∀ i, x.getLsbD i = (x <<< n).getLsbD i := by
    intro i
    have := congrArg (fun v => BitVec.getLsbD v i) e
    simp only [BitVec.getLsbD_xor, BitVec.getLsbD_zero] at this
    revert this
    generalize x.getLsbD i = a
    generalize (x <<< n).getLsbD i = b
    revert a b
    decide
  have key : ∀ i, x.getLsbD i = false := by
    intro i
    induction i using Nat.strongRecOn with
    | ind i ih =>
      rw [hx i, BitVec.getLsbD_shiftLeft]
      by_cases hi : i < n
      · simp [hi]
      · rw [ih (i - n) (by omega)]; simp
  apply BitVec.eq_of_getLsbD_eq
  intro i _
  rw [key i]; simp

theorem xorshr_ne {x : BitVec 32} (n : Nat) (hn : 0 < n) (h : x ≠ 0#32) : x ^^^ x >>> n ≠ 0#32 := by
  intro e
  apply h
  have hx : ∀ i, x.getLsbD i = (x >>> n).getLsbD i := by
    intro i
    have := congrArg (fun v => BitVec.getLsbD v i) e
    simp only [BitVec.getLsbD_xor, BitVec.getLsbD_zero] at this
    revert this
    generalize x.getLsbD i = a
    generalize (x >>> n).getLsbD i = b
    revert a b
    decide
  have key : ∀ k i, 32 ≤ i + k → x.getLsbD i = false := by
    intro k
    induction k with
    | zero => intro i hi; exact BitVec.getLsbD_of_ge _ _ (by omega)
    | succ k ih =>
      intro i hi
      rw [hx i, BitVec.getLsbD_ushiftRight]
      exact ih (n + i) (by omega)
  apply BitVec.eq_of_getLsbD_eq
  intro i _
  rw [key 32 i (by omega)]; simp

theorem xorshift_ne {x : BitVec 32} (h : x ≠ 0#32) : xorshift32 x ≠ 0#32 := by
  unfold xorshift32
  exact xorshl_ne 5 (by omega) (xorshr_ne 17 (by omega) (xorshl_ne 13 (by omega) h))

theorem xorshift32_toNat (x : BitVec 32) : (xorshift32 x).toNat = marsaglia x.toNat := by
  simp only [xorshift32, marsaglia, BitVec.toNat_xor, BitVec.toNat_shiftLeft, BitVec.toNat_ushiftRight, Nat.shiftLeft_eq, Nat.shiftRight_eq_div_pow]

theorem marsagliaN_succ (x n : Nat) : marsagliaN x (n + 1) = marsagliaN (marsaglia x) n := by
  induction n with
  | zero => rfl
  | succ n ih => rw [marsagliaN, ih, marsagliaN]

theorem marsagliaN_add (x m : Nat) : ∀ n, marsagliaN x (m + n) = marsagliaN (marsagliaN x m) n := by
  intro n
  induction n with
  | zero => rfl
  | succ n ih => rw [← Nat.add_assoc, marsagliaN, ih, marsagliaN]

theorem marsagliaByte_shift (x m j : Nat) : marsagliaByte (marsagliaN x m) j = marsagliaByte x (4 * m + j) := by
  unfold marsagliaByte
  rw [← marsagliaN_add, show (4 * m + j) / 4 = m + j / 4 by omega, show (4 * m + j) % 4 = j % 4 by omega, Nat.add_assoc]

theorem xorshiftLoop_stream : ∀ (n : Nat) (x : BitVec 32),
    (xorshiftLoop n x).1 = (List.range (4 * n)).map (marsagliaByte x.toNat) ∧ (xorshiftLoop n x).2.toNat = marsagliaN x.toNat n := by
  intro n
  induction n with
  | zero => intro x; exact ⟨rfl, rfl⟩
  | succ n ih =>
    intro x
    obtain ⟨i1, i2⟩ := ih (xorshift32 x)
    simp only [xorshiftLoop]
    refine ⟨?_, by rw [i2, xorshift32_toNat, marsagliaN_succ]⟩
    rw [i1, show 4 * (n + 1) = 4 + 4 * n by omega, List.range_add, List.map_append, List.map_map]
    congr 1
    · apply List.map_congr_left
      intro i hi
      rw [List.mem_range] at hi
      unfold marsagliaByte
      rw [show i / 4 + 1 = 1 by omega, Nat.mod_eq_of_lt hi, BitVec.toNat_ushiftRight, xorshift32_toNat, Nat.shiftRight_eq_div_pow]
      show UInt8.ofNat (marsaglia x.toNat / 2 ^ (8 * i)) = UInt8.ofNat (marsaglia x.toNat / 256 ^ i % 256)
      rw [show (256 : Nat) = 2 ^ 8 from rfl, ← Nat.pow_mul]
      apply UInt8.toNat_inj.1
      simp
    · apply List.map_congr_left
      intro j _
      rw [xorshift32_toNat, show marsaglia x.toNat = marsagliaN x.toNat 1 from rfl, marsagliaByte_shift]
      simp only [Function.comp_apply]

/-- **C68** (data): filling a buffer with the generator yields the requested number of bytes of Marsaglia's sequence, the
generator goes on from there, and it does not get stuck at zero. -/
theorem C68_fill (x : BitVec 32) (hx : x ≠ 0#32) (len : Nat) (h4 : 4 ∣ len) : ∃ b y, xorshiftFill x len = .ok (b, y) ∧
    b = (List.range len).map (marsagliaByte x.toNat) ∧ y.toNat = marsagliaN x.toNat (len / 4) ∧ y ≠ 0#32 := by
  have key : ∀ (n : Nat) (x : BitVec 32), x ≠ 0#32 → (xorshiftLoop n x).1.length = 4 * n ∧ (xorshiftLoop n x).2 ≠ 0#32 := by
    intro n
    induction n with
    | zero => intro x hx; exact ⟨rfl, hx⟩
    | succ n ih =>
      intro x hx
      obtain ⟨i1, i2⟩ := ih _ (xorshift_ne hx)
      simp only [xorshiftLoop]
      exact ⟨by simp [i1]; omega, i2⟩
  unfold xorshiftFill
  rw [if_neg (by omega)]
  exact ⟨_, _, rfl, by rw [(xorshiftLoop_stream _ x).1, show 4 * (len / 4) = len by omega], (xorshiftLoop_stream _ x).2, (key _ x hx).2⟩

/-- Cutting the chunks off the front of `data` as far as they are determined gives `cs`, with `rest` left over. -/
inductive CutOff (min max d : Nat) : Bytes → List Bytes → Bytes → Prop where
  | stop (data) : (∀ n, ¬ Cut min max d data n) → CutOff min max d data [] data
  | cut (data n cs rest) : FirstCut min max d data n → CutOff min max d (data.drop n) cs rest → CutOff min max d data (data.take n :: cs) rest

theorem firstCut_append {mi ma d : Nat} {q x : Bytes} {n : Nat} (h : FirstCut mi ma d q n) : FirstCut mi ma d (q ++ x) n := by
  have hn : n ≤ q.length := h.1.2.1
  exact ⟨(cut_append hn).2 h.1, fun m hm hc => h.2 m hm ((cut_append (by omega)).1 hc)⟩

theorem CutOff.append {mi ma d : Nat} {q : Bytes} {cs : List Bytes} {rest : Bytes} (h : CutOff mi ma d q cs rest) :
    ∀ {x : Bytes} {cs' : List Bytes} {rest' : Bytes}, CutOff mi ma d (rest ++ x) cs' rest' → CutOff mi ma d (q ++ x) (cs ++ cs') rest' := by
  induction h with
  | stop data _ => intro x cs' rest' h'; simpa using h'
  | cut data n cs rest hf _ ih =>
    intro x cs' rest' h'
    have hn : n ≤ data.length := hf.1.2.1
    have h1 := ih h'
    rw [← List.drop_append_of_le_length hn] at h1
    have := CutOff.cut (data ++ x) n _ _ (firstCut_append hf) h1
    rwa [List.take_append_of_le_length hn] at this

theorem benchScan_spec {p : Params} {d : Nat} (hd : 0 < deff p d) : ∀ (fuel : Nat) (c : Chunker) (q buf : Bytes), buf.length ≤ fuel → Rep c q → NoCut p d q →
    ∃ cs c' rest, benchScan p d fuel c buf = .ok (cs, c') ∧ CutOff p.min p.max (deff p d) (q ++ buf) cs rest ∧ Rep c' rest ∧ NoCut p d rest := by
  intro fuel
  induction fuel with
  | zero =>
    intro c q buf hf hr hn
    have : buf = [] := List.eq_nil_of_length_eq_zero (by omega)
    subst this
    refine ⟨[], c, q, by simp [benchScan], ?_, hr, hn⟩
    simpa using CutOff.stop q hn
  | succ fuel ih =>
    intro c q buf hf hr hn
    by_cases h0 : buf.length = 0
    · have : buf = [] := List.eq_nil_of_length_eq_zero h0
      subst this
      refine ⟨[], c, q, by simp [benchScan], ?_, hr, hn⟩
      simpa using CutOff.stop q hn
    · obtain ⟨r, hr1, hs⟩ := chunkerScan_spec hd c q buf hr hn
      rw [benchScan, if_neg h0, hr1]
      obtain ⟨o, c'⟩ := r
      cases o with
      | none =>
        simp only [ScanSpec] at hs
        exact ⟨[], c', q ++ buf, rfl, .stop _ hs.2, hs.1, hs.2⟩
      | some n =>
        simp only [ScanSpec] at hs
        obtain ⟨j, hj, hle, hcut, hsha, hwl⟩ := hs
        have hnj : n = j := by omega
        subst hnj
        have hpos : 0 < n := by
          rcases Nat.eq_zero_or_pos n with h | h
          · exfalso
            subst h
            have h1 := hcut.1
            rw [Nat.add_zero] at h1
            exact hn _ ((cut_append (Nat.le_refl _)).1 h1)
          · exact h
        obtain ⟨cs, c2, rest, e1, e2, e3, e4⟩ := ih c'.reset [] (buf.drop n) (by simp; omega) (rep_reset c' hwl) (noCut_nil p d)
        simp only
        rw [if_neg (by omega), e1]
        refine ⟨c'.sha :: cs, c2, rest, rfl, ?_, e3, e4⟩
        have := CutOff.cut (q ++ buf) (q.length + n) cs rest hcut (by
          rw [show (q ++ buf).drop (q.length + n) = buf.drop n by simp]
          simpa using e2)
        rw [hsha]
        rwa [show (q ++ buf).take (q.length + n) = q ++ buf.take n by rw [List.take_append, List.take_of_length_le (by omega)]; simp] at this

/-- The data of the generator: `k` buffers of `size` bytes. -/
def buffers (size : Nat) : Nat → BitVec 32 → Bytes
  | 0, _ => []
  | k + 1, x => (xorshiftLoop (size / 4) x).1 ++ buffers size k (xorshiftLoop (size / 4) x).2

theorem buffers_stream {size : Nat} (h4 : size % 4 = 0) : ∀ (k : Nat) (x : BitVec 32),
    buffers size k x = (List.range (k * size)).map (marsagliaByte x.toNat) := by
  intro k
  induction k with
  | zero => intro x; simp [buffers]
  | succ k ih =>
    intro x
    rw [buffers, ih, (xorshiftLoop_stream _ x).1, (xorshiftLoop_stream _ x).2, show 4 * (size / 4) = size by omega,
      show (k + 1) * size = size + k * size by rw [Nat.add_mul]; omega, List.range_add, List.map_append, List.map_map]
    congr 1
    apply List.map_congr_left
    intro j _
    rw [marsagliaByte_shift, show 4 * (size / 4) = size by omega]
    rfl

theorem chunkerRound_spec {p : Params} {d : Nat} (hd : 0 < deff p d) {size : Nat} (h4 : size % 4 = 0) (start : Timespec) :
    ∀ (clock : List (Option Timespec)) (c : Chunker) (q : Bytes) (rng : BitVec 32) (count : Nat), Rep c q → NoCut p d q →
    (∃ n fin cs k rest, chunkerRound p d size start c rng count clock = .ok (n, fin, cs) ∧ some fin ∈ clock ∧ 10 ≤ fin.sec - start.sec ∧
      n = count + k ∧ 0 < k ∧ CutOff p.min p.max (deff p d) (q ++ buffers size k rng) cs rest) ∨
    chunkerRound p d size start c rng count clock = .stop .killed ∨
    (chunkerRound p d size start c rng count clock = .stop .abort ∧ none ∈ clock) := by
  intro clock
  induction clock with
  | nil => intro c q rng count _ _; exact .inr (.inl rfl)
  | cons t clock ih =>
    intro c q rng count hr hn
    have hfill : xorshiftFill rng size = .ok (xorshiftLoop (size / 4) rng) := by unfold xorshiftFill; rw [if_neg (by omega)]
    obtain ⟨cs, c', rest, e1, e2, e3, e4⟩ := benchScan_spec hd _ c q (xorshiftLoop (size / 4) rng).1 (Nat.le_refl _) hr hn
    rw [chunkerRound, hfill]
    simp only [e1]
    cases t with
    | none => exact .inr (.inr ⟨rfl, by simp⟩)
    | some fin =>
      simp only
      by_cases h10 : fin.sec - start.sec ≥ 10
      · rw [if_pos h10]
        exact .inl ⟨_, _, _, 1, rest, rfl, by simp, h10, rfl, by omega, by simpa [buffers] using e2⟩
      · rw [if_neg h10]
        rcases ih c' rest (xorshiftLoop (size / 4) rng).2 (count + 1) e3 e4 with ⟨n, f, cs', k, rest', g1, g2, g3, g4, g5, g6⟩ | g | ⟨g, hm⟩
        · rw [g1]
          refine .inl ⟨_, _, _, k + 1, rest', rfl, by simp [g2], g3, by omega, by omega, ?_⟩
          rw [buffers, ← List.append_assoc]
          exact e2.append g6
        · rw [g]; exact .inr (.inl rfl)
        · rw [g]; exact .inr (.inr ⟨rfl, by simp [hm]⟩)

/-- **C68** (chunking, if there is memory): the chunking benchmark has no undefined behaviour, ends once ten seconds have passed
unless it is killed or the clock fails, exits with success, cuts the generated data into exactly the chunks of the
specification, and reports a measured time that is not zero. -/
theorem C68_chunker_partial (disc : Nat → Option Nat) (hdisc : (disc 65536).isSome) (clock : List (Option Timespec)) (ht : Ticks clock) :
    (∃ line cs rest k, benchChunker disc true clock = .ok (0, line, cs) ∧ line.size = 1048576 ∧ line.count = k ∧ Measured clock line ∧
      -- the generated data, of which the first buffer is not used
      CutOff 16384 262144 0xc17f ((List.range (k * 1048576)).map (fun j => marsagliaByte 0xdeadbeef (1048576 + j))) cs rest) ∨
    benchChunker disc true clock = .stop .killed ∨ (benchChunker disc true clock = .stop .abort ∧ none ∈ clock) := by
  obtain ⟨d, hd⟩ := Option.isSome_iff_exists.1 hdisc
  have hp : paramsSet (65536 / 4) 65536 (65536 * 4) = some ⟨16384, 65536, 262144⟩ := by decide
  have h4 : chunkerBuf % 4 = 0 := by decide
  have hfill : ∀ x, xorshiftFill x chunkerBuf = .ok (xorshiftLoop (chunkerBuf / 4) x) := fun x => by
    unfold xorshiftFill; rw [if_neg (by omega)]
  have hde : deff ⟨16384, 65536, 262144⟩ d = 0xc17f := by unfold deff; rw [if_pos rfl]
  unfold benchChunker
  rw [if_neg (by simp), hfill, hp]
  have hbuf : ∀ k, buffers chunkerBuf k (xorshiftLoop (chunkerBuf / 4) 0xdeadbeef#32).2 =
      (List.range (k * 1048576)).map (fun j => marsagliaByte 0xdeadbeef (1048576 + j)) := fun k => by
    rw [buffers_stream h4, (xorshiftLoop_stream _ _).2]
    show (List.range (k * 1048576)).map _ = _
    apply List.map_congr_left
    intro j _
    rw [marsagliaByte_shift]
    rfl
  revert hbuf
  generalize xorshiftLoop (chunkerBuf / 4) 0xdeadbeef#32 = fill
  intro hbuf
  obtain ⟨_, rng⟩ := fill
  simp only [hd]
  cases clock with
  | nil => exact .inr (.inl rfl)
  | cons t clock =>
    cases t with
    | none => exact .inr (.inr ⟨rfl, by simp⟩)
    | some start =>
      simp only
      rcases chunkerRound_spec (p := ⟨16384, 65536, 262144⟩) (d := d) (by rw [hde]; omega) (size := chunkerBuf) h4 start clock Chunker.init [] rng 0 rep_init (noCut_nil _ _)
        with ⟨n, fin, cs, k, rest, g1, g2, g3, g4, g5, g6⟩ | g | ⟨g, hm⟩
      · rw [g1]
        refine .inl ⟨_, _, rest, k, rfl, rfl, by simpa using g4, measured_of ht (by simp) (by simp [g2]) g3 _ _ (by omega), ?_⟩
        rw [hde, hbuf] at g6
        simpa using g6
      · rw [g]; exact .inr (.inl rfl)
      · rw [g]; exact .inr (.inr ⟨rfl, by simp [hm]⟩)

/-- **C68 refuted** (memory): without memory the chunking benchmark writes through a null pointer. -/
theorem C68_refuted_memory (disc : Nat → Option Nat) (clock : List (Option Timespec)) : benchChunker disc false clock = .stop .ub := rfl

/-- **C68** (arguments): which benchmark runs; the usage text goes to stderr with a failure status only without arguments. -/
theorem C68_arguments_partial (argv : List Bytes) :
    (benchMain argv = .run .hash ↔ argv.head? = some (str "hash")) ∧
    (benchMain argv = .run .chunker ↔ argv.head? = some (str "chunker")) ∧
    (benchMain argv = .usage true 1 ↔ argv = []) ∧
    (benchMain argv = .usage false 0 ↔ ∃ a, argv.head? = some a ∧ a ≠ str "hash" ∧ a ≠ str "chunker") := by
  cases argv with
  | nil => simp [benchMain, benchUsage]
  | cons a r =>
    simp only [benchMain, benchLookup, benchmarks, benchUsage, streq, Bool.or_eq_true, beq_iff_eq, List.head?_cons, Option.some.injEq]
    by_cases h1 : a = str "hash"
    · subst h1
      simp [show str "hash" ≠ str "-h" by decide, show str "hash" ≠ str "--help" by decide, show str "hash" ≠ str "chunker" by decide]
    · by_cases h2 : a = str "chunker"
      · subst h2
        simp [show str "chunker" ≠ str "-h" by decide, show str "chunker" ≠ str "--help" by decide, show str "hash" ≠ str "chunker" by decide,
          show str "chunker" ≠ str "hash" by decide]
      · have h1' : ¬ str "hash" = a := fun e => h1 e.symm
        have h2' : ¬ str "chunker" = a := fun e => h2 e.symm
        by_cases h3 : a = str "-h" ∨ a = str "--help"
        · rw [if_pos h3]; simp [h1, h2]
        · rw [if_neg h3, if_neg h1', if_neg h2']; simp [h1, h2]

/-- **C68 refuted** (status): asked for a benchmark that does not exist, csn-bench reports success. -/
theorem C68_refuted_status : benchMain [str "hsah"] = .usage false 0 := by decide

/-- A run of the hash benchmark on a slow machine: one round of 100 blocks takes six seconds. -/
example : benchHash none true ((List.range 9).map (fun i : Nat => some ⟨6 * (i : Int), 500000000⟩)) =
    .ok (0, [⟨262144, 200, 12000⟩, ⟨65536, 200, 12000⟩, ⟨16384, 200, 12000⟩]) := by decide +kernel

/-- The first bytes of the generator's output for the seed of the benchmarks. -/
example : (List.range 8).map (marsagliaByte 0xdeadbeef) = [0xb7, 0x20, 0x7d, 0x47, 0x42, 0x91, 0x1d, 0x8e] := by decide +kernel

/-- Two readings around a change of the second. -/
example : (timeDeltaMs ⟨7, 999999999⟩ ⟨8, 0⟩).toNat = 1 ∧ (timeDeltaMs ⟨7, 999999999⟩ ⟨17, 0⟩).toNat = 9001 := by decide +kernel

end Csn.Props
