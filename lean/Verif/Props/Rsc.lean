import Verif.Proof.RscRun
/-
C71, C72, C73: descriptors and heap blocks.
-/
namespace Csn.Props
open Csn

/-- The process before anything happened: no descriptor is listed twice, the kernel's hash is not in use, there is no target, and the maxima count what is
there. -/
structure Before (s : Rsc.RS) : Prop where
  nodup : s.fds.Nodup
  kfd : s.kfd = none
  tfd : s.tfd = none
  peak : s.peak = s.fds.length
  peakMem : s.peakMem = s.mem.length

/-- Never more than `d` descriptors and `b` blocks more than at `s` were in use up to `s'`; what was there is still there. -/
structure Modest (d b : Nat) (s s' : Rsc.RS) : Prop where
  fds : s'.peak ≤ s.fds.length + d
  mem : s'.peakMem ≤ s.mem.length + b
  kept : s.fds ⊆ s'.fds
  keptMem : s.mem ⊆ s'.mem

theorem before_at {s : Rsc.RS} (h : Before s) (kc : Bool) (d b : Nat) :
    Rsc.At { fds := s.fds, mem := s.mem, kc := kc, P := s.fds.length + d, Q := s.mem.length + b } [] [] s where
  fds := by simp [h.kfd]
  kc := fun _ => h.kfd
  mem := by simp
  peak := by have := h.peak; simp only; omega
  peakMem := by have := h.peakMem; simp only; omega
  nodup := h.nodup
  tgt := fun n hn => by rw [h.tfd] at hn; cases hn

theorem modest_of_at {s s' : Rsc.RS} {kc : Bool} {d b : Nat} {F M : List Nat}
    (h : Rsc.At { fds := s.fds, mem := s.mem, kc := kc, P := s.fds.length + d, Q := s.mem.length + b } F M s') : Modest d b s s' :=
  ⟨h.peak, h.peakMem, fun n hn => h.fds.symm.subset (by simp [hn]), fun n hn => h.mem.symm.subset (by simp [hn])⟩

theorem modest_of_stopped {s s' : Rsc.RS} {kc : Bool} {d b : Nat} {e : Stop}
    (h : Rsc.Stopped { fds := s.fds, mem := s.mem, kc := kc, P := s.fds.length + d, Q := s.mem.length + b } e s') :
    e ≠ .ub ∧ Modest d b s s' := ⟨h.noUb, h.peak, h.peakMem, h.keeps, h.keepsMem⟩

/-- **C71**, as far as it is true: if standard output is open, then whatever the key, the list and the files are and whichever calls
fail, `do_crypt` leaves exactly the descriptors and blocks that were there when it started; it uses at most one descriptor and two blocks
at a time and never closes or frees anything twice, nor uses it afterwards.  If it is stopped (killed, or by an assertion) it has not done so until then. -/
theorem C71_crypt_partial (list : Bool) (s : Rsc.RS) (h : Before s) (hout : 1 ∈ s.fds) :
    match Rsc.doCrypt list s with
    | (.ok _, s') => s'.fds.Perm s.fds ∧ s'.mem.Perm s.mem ∧ Modest 1 2 s s'
    | (.stop e, s') => e ≠ .ub ∧ Modest 1 2 s s' := by
  have h1 := Rsc.doCrypt_spec (F := []) (M := []) list (by simp [Rsc.Base.k, hout]) (by simp) s (before_at h false 1 2)
  generalize Rsc.doCrypt list s = r at h1 ⊢
  obtain ⟨r1, s'⟩ := r
  cases r1 with
  | stop e => exact modest_of_stopped h1
  | ok b =>
    obtain ⟨F, M, ⟨hk, rfl⟩, ha⟩ := h1
    rcases hk with rfl | ⟨h2, _, _⟩
    · refine ⟨?_, ?_, modest_of_at ha⟩
      · simpa [ha.kc rfl] using ha.fds
      · simpa using ha.mem
    · exact absurd hout h2

/-- If standard output is closed, at most descriptor 1 is left over, and there is at most one more descriptor in between: lists of any
length can be handled. -/
theorem C71_closed_output (list : Bool) (s : Rsc.RS) (h : Before s) (hout : 1 ∉ s.fds) :
    match Rsc.doCrypt list s with
    | (.ok _, s') => (s'.fds.Perm s.fds ∨ s'.fds.Perm (1 :: s.fds)) ∧ s'.mem.Perm s.mem ∧ Modest 2 2 s s'
    | (.stop e, s') => e ≠ .ub ∧ Modest 2 2 s s' := by
  have h1 := Rsc.doCrypt_spec (F := []) (M := []) list (by simp [Rsc.Base.k, hout]) (by simp) s (before_at h false 2 2)
  generalize Rsc.doCrypt list s = r at h1 ⊢
  obtain ⟨r1, s'⟩ := r
  cases r1 with
  | stop e => exact modest_of_stopped h1
  | ok b =>
    obtain ⟨F, M, ⟨hk, rfl⟩, ha⟩ := h1
    have hf := ha.fds
    rw [ha.kc rfl] at hf
    rcases hk with rfl | ⟨_, _, rfl⟩
    · exact ⟨.inl hf, ha.mem, modest_of_at ha⟩
    · exact ⟨.inr hf, ha.mem, modest_of_at ha⟩

/-- `slurp_file` and `encrypt_parse_keyspec`, as functions. -/
theorem C71_slurp (s : Rsc.RS) (h : Before s) :
    match Rsc.slurpFile s with
    | (.ok none, s') => s'.fds.Perm s.fds ∧ s'.mem.Perm s.mem ∧ Modest 1 1 s s'
    | (.ok (some p), s') => s'.fds.Perm s.fds ∧ s'.mem.Perm (p :: s.mem) ∧ Modest 1 1 s s'
    | (.stop e, s') => e ≠ .ub ∧ Modest 1 1 s s' := by
  have h1 := Rsc.slurp_spec (F := []) (M := []) (by simp [Rsc.Base.k]) (by simp) s (before_at h false 1 1)
  generalize Rsc.slurpFile s = r at h1 ⊢
  obtain ⟨r1, s'⟩ := r
  cases r1 with
  | stop e => exact modest_of_stopped h1
  | ok a =>
    obtain ⟨F, M, ⟨rfl, hk⟩, ha⟩ := h1
    have hf := ha.fds
    rw [ha.kc rfl] at hf
    rcases hk with ⟨rfl, rfl⟩ | ⟨p, rfl, rfl⟩
    · exact ⟨hf, ha.mem, modest_of_at ha⟩
    · exact ⟨hf, ha.mem, modest_of_at ha⟩

theorem C71_keyspec (s : Rsc.RS) (h : Before s) :
    match Rsc.parseKeyspec s with
    | (.ok _, s') => s'.fds.Perm s.fds ∧ s'.mem.Perm s.mem ∧ Modest 1 1 s s'
    | (.stop e, s') => e ≠ .ub ∧ Modest 1 1 s s' := by
  have h1 := Rsc.keyspec_spec (F := []) (M := []) (by simp [Rsc.Base.k]) (by simp) s (before_at h false 1 1)
  generalize Rsc.parseKeyspec s = r at h1 ⊢
  obtain ⟨r1, s'⟩ := r
  cases r1 with
  | stop e => exact modest_of_stopped h1
  | ok a =>
    obtain ⟨F, M, ⟨rfl, rfl⟩, ha⟩ := h1
    have hf := ha.fds
    rw [ha.kc rfl] at hf
    exact ⟨hf, ha.mem, modest_of_at ha⟩

/-- A process with the given descriptors and nothing else. -/
def process (fds : List Nat) (ans : List Bool) : Rsc.RS := ⟨fds, none, none, [], 0, fds.length, 0, ans⟩

/-- **C71** in full is wrong: with standard output closed the output file gets descriptor 1, which is not closed (csn-tool.c:116). -/
theorem C71_refuted :
    ∃ s, Before s ∧ (Rsc.doCrypt false s).1 = .ok true ∧ ¬ (Rsc.doCrypt false s).2.fds.Perm s.fds :=
  ⟨process [0, 2] [false, false, true, true, false, false, false, true, true, true, true, false, false, true, false, true],
    ⟨by decide, rfl, rfl, rfl, rfl⟩, by decide +kernel, fun h => absurd h.length_eq (by decide +kernel)⟩

/-- A list of two names, the key in a file: the hypotheses of `C71_crypt_partial` hold, and it ends with success. -/
example : Before (process [0, 1, 2] [false, true, true, true, true, true, true, true, true, false, false, false, true, true, true, true,
    false, false, true, false, true, true, false, true, false, true]) ∧
    (Rsc.doCrypt true (process [0, 1, 2] [false, true, true, true, true, true, true, true, true, false, false, false, true, true, true, true,
    false, false, true, false, true, true, false, true, false, true])).1 = .ok true :=
  ⟨⟨by decide, rfl, rfl, rfl, rfl⟩, by decide +kernel⟩

/-! ### csn -/

/-- Descriptors csn needs: index, target, one for each store that is a file, and one for a moment; one for the kernel's hash. -/
def mayOpen (kc : Bool) (args : List Rsc.Arg) : Nat := 3 + Rsc.total Rsc.files args + if kc then 1 else 0

/-- Blocks csn needs: target and its index, chain and its array; two for a file; for a URL six and one for each parameter. -/
def mayAlloc (args : List Rsc.Arg) : Nat := 4 + Rsc.total Rsc.cost args

theorem sync_at (kc : Bool) (args : List Rsc.Arg) (s : Rsc.RS) (h : Before s) :
    match Rsc.sync kc args s with
    | (.ok r, s') => ∃ F M, (∀ x, r = some x →
        Rsc.Running { fds := s.fds, mem := s.mem, kc := kc, P := s.fds.length + mayOpen kc args, Q := s.mem.length + mayAlloc args } args x.1 x.2 F M) ∧
        Rsc.At { fds := s.fds, mem := s.mem, kc := kc, P := s.fds.length + mayOpen kc args, Q := s.mem.length + mayAlloc args } F M s'
    | (.stop e, s') => Rsc.Stopped { fds := s.fds, mem := s.mem, kc := kc, P := s.fds.length + mayOpen kc args, Q := s.mem.length + mayAlloc args } e s' := by
  have h1 := Rsc.sync_spec (args := args) (B := { fds := s.fds, mem := s.mem, kc := kc, P := s.fds.length + mayOpen kc args, Q := s.mem.length + mayAlloc args })
    (by cases kc <;> simp [mayOpen, Rsc.Base.k] <;> omega) (by simp [mayAlloc]; omega) s
    (before_at h false (mayOpen kc args) (mayAlloc args))
  dsimp only at h1
  generalize Rsc.sync kc args s = r at h1 ⊢
  obtain ⟨r1, s'⟩ := r
  cases r1 <;> exact h1

/-- **C72**, as far as it is true: however many chunks the index and the stores have, however many requests are made and whichever calls
fail, a run up to the end of the synchronisation needs at most `mayOpen` descriptors and `mayAlloc` blocks at a time and never closes
or frees anything twice, nor uses it afterwards.  At the end of a successful one exactly index, target and local stores (and
the kernel's hash, if it did not fail) are open. -/
theorem C72_sync_partial (kc : Bool) (args : List Rsc.Arg) (s : Rsc.RS) (h : Before s) :
    match Rsc.sync kc args s with
    | (.ok none, s') => Modest (mayOpen kc args) (mayAlloc args) s s'
    | (.ok (some (ifd, t, c)), s') => Modest (mayOpen kc args) (mayAlloc args) s s' ∧
        s'.fds.Perm (s'.kfd.toList ++ Rsc.fdsOf c.subs ++ [t.fd, ifd] ++ s.fds) ∧ (Rsc.fdsOf c.subs).length = Rsc.total Rsc.files args ∧
        s'.mem.length ≤ s.mem.length + mayAlloc args
    | (.stop e, s') => e ≠ .ub ∧ Modest (mayOpen kc args) (mayAlloc args) s s' := by
  have h1 := sync_at kc args s h
  generalize Rsc.sync kc args s = r at h1 ⊢
  obtain ⟨r1, s'⟩ := r
  cases r1 with
  | stop e => exact modest_of_stopped h1
  | ok a =>
    obtain ⟨F, M, g, ha⟩ := h1
    cases a with
    | none => exact modest_of_at ha
    | some x =>
      obtain ⟨ifd, t, c⟩ := x
      obtain ⟨g1, g2, g3, L, g4, g5, g6⟩ := g _ rfl
      refine ⟨modest_of_at ha, ?_, g3, ?_⟩
      · refine ha.fds.trans ?_
        have := (g1.append_left s'.kfd.toList).append_right s.fds
        simpa [List.append_assoc] using this
      · have := g4.length
        have h2 := ha.mem.length_eq
        simp only [List.length_append] at h2
        dsimp only at g6 this
        unfold mayAlloc
        omega

/-- The end of a successful run in which no local store failed: everything is freed except target, its index and the cipher contexts
of all parameters but the last of each URL; no descriptor is closed. -/
theorem C72_end_partial (kc : Bool) (args : List Rsc.Arg) (s s' : Rsc.RS) (h : Before s) (ifd : Nat) (t : Rsc.Tgt) (c : Rsc.Chain)
    (hr : Rsc.sync kc args s = (.ok (some (ifd, t, c)), s')) (hact : ∀ l, (Rsc.Store.loc l, false) ∉ c.subs) :
    ∃ s'' L, Rsc.run kc args s = (.ok true, s'') ∧ s''.fds = s'.fds ∧ s''.mem.Perm (t.blk :: (t.ents.toList ++ L) ++ s.mem) ∧
      L.length = Rsc.total Rsc.lost args := by
  have h1 := sync_at kc args s h
  rw [hr] at h1
  obtain ⟨F, M, g, ha⟩ := h1
  obtain ⟨g1, g2, g3, L, g4, g5, g6⟩ := g _ rfl
  have e : Rsc.run kc args s = (do Rsc.chainFree c; return true : Rsc.R Bool) s' := by
    unfold Rsc.run
    simp only [Bind.bind, Rsc.R.bind, hr]
  have h2 := Rsc.chainFree_spec (F := F) g4 hact s' ha
  obtain ⟨⟨l, h3⟩, h4⟩ := Rsc.FreeOnly.chain c s'
  rw [e]
  simp only [Bind.bind, Rsc.R.bind]
  dsimp only at h2
  generalize Rsc.chainFree c s' = r at h2 h3 h4 ⊢
  obtain ⟨r1, s2⟩ := r
  dsimp only at h3 h4
  cases r1 with
  | stop e => exact absurd (h4 e rfl) h2.noUb
  | ok u =>
    obtain ⟨F2, M2, ⟨k1, k2⟩, k3⟩ := h2
    refine ⟨s2, L, rfl, by rw [h3], ?_, g5⟩
    refine k3.mem.trans ((k2.append_right _).trans ?_)
    simp [Rsc.tgtBlks]

/-- The answers for a run that uses a store file once. -/
def fileRun : Rsc.RS := process [0, 1, 2] ([true, true, true, true, true, true] ++ [true, true, true, false, true, true, false, false,
  false, true, false] ++ [true, false, false, false, true, false, true, true, false, true])

/-- **C72** in full is wrong.  A run that uses a store file ends without closing index, target or the store, and without freeing the
target. -/
theorem C72_refuted :
    ∃ args s, Before s ∧ (Rsc.run false args s).1 = .ok true ∧ (Rsc.run false args s).2.fds.length = s.fds.length + 3 ∧
      (Rsc.run false args s).2.mem.length = s.mem.length + 1 :=
  ⟨[.file false], fileRun, ⟨by decide, rfl, rfl, rfl, rfl⟩, by decide +kernel, by decide +kernel, by decide +kernel⟩

/-- The answers for a run in which the rescan of a store file fails. -/
def rescanRun : Rsc.RS := process [0, 1, 2] ([true, true, true, true, true, true] ++ [true, true, true, true, false, true, true,
  false, false, false, true, false] ++ [false, true, false] ++ [false, true, true, true, false, true, true, true, false, true, true,
  true, true, false, true, false] ++ [true, false, false, false, true, false, false, false, false, false, true, true, true, false,
  true, false, false, true, false, false, false, false, true])

/-- Also, a block is freed twice at the end of a successful synchronisation: the rescan of a store file failed (the size of the
store could not be determined), but another store had the chunk. -/
theorem C72_double_free_refuted :
    ∃ args s, Before s ∧ (Rsc.sync false args s).1 ≠ .ok none ∧ (∀ e, (Rsc.sync false args s).1 ≠ .stop e) ∧
      (Rsc.run false args s).1 = .stop .ub :=
  ⟨[.file true, .target, .url 2], rescanRun, ⟨by decide, rfl, rfl, rfl, rfl⟩, by decide +kernel, fun e => by cases e <;> decide +kernel,
    by decide +kernel⟩

/-- A failing `store_local_new` keeps the descriptor of the store, and the array if inserting failed. -/
theorem C72_local_new_refuted :
    ∃ s, Before s ∧ (Rsc.localNew false s).1 = .ok none ∧ (Rsc.localNew false s).2.fds.length = s.fds.length + 1 ∧
      (Rsc.localNew false s).2.mem.length = s.mem.length + 1 :=
  ⟨process [0, 1, 2] [true, true, true, false, true, true, false, true, false], ⟨by decide, rfl, rfl, rfl, rfl⟩, by decide +kernel,
    by decide +kernel, by decide +kernel⟩

/-- A failing `store_http_new` keeps the cipher context (with the key). -/
theorem C72_http_new_refuted :
    ∃ s, Before s ∧ (Rsc.httpNew 1 s).1 = .ok none ∧ (Rsc.httpNew 1 s).2.mem.length = s.mem.length + 1 :=
  ⟨process [0, 1, 2] [false, true, true, true, false, true, true, false], ⟨by decide, rfl, rfl, rfl, rfl⟩, by decide +kernel,
    by decide +kernel⟩

/-- A run with the kernel's hash, a store file with an index, the target as a store, and a URL with two keys. -/
def busyRun : Rsc.RS := process [0, 1, 2] ([true, true, true] ++ [true, true, true, true, true, true] ++
  [true, true, true, true, false, true, true, true, false, false, false, true, false] ++ [false, true, false] ++
  [false, true, true, true, false, true, true, true, false, true, true, true, true, false, true, false] ++
  [true, true, false, false, false, false, false, true, true, true, false, true, true, false, false, true, false, false, false, false, true])

def busyArgs : List Rsc.Arg := [.file true, .target, .url 2]

/-- Its target and chain after the synchronisation. -/
def busyEnd : Nat × Rsc.Tgt × Rsc.Chain :=
  (3, ⟨0, 5, some 5⟩, ⟨1, 2, [(.loc ⟨3, 6, some 4⟩, true), (.target, true), (.http ⟨6, 7, 10, 11, 12, some 13, some 9⟩, true)]⟩)

/-- The hypotheses of `C72_sync_partial` and `C72_end_partial` hold for it; one cipher context is lost. -/
example : Before busyRun ∧ (Rsc.sync true busyArgs busyRun).1 = .ok (some busyEnd) ∧
    (∀ l, (Rsc.Store.loc l, false) ∉ busyEnd.2.2.subs) ∧ (Rsc.run true busyArgs busyRun).1 = .ok true ∧
    (Rsc.run true busyArgs busyRun).2.mem = [8, 5, 0] ∧ Rsc.total Rsc.lost busyArgs = 1 :=
  ⟨⟨by decide, rfl, rfl, rfl, rfl⟩, by decide +kernel, fun l h => by simp [busyEnd] at h, by decide +kernel, by decide +kernel, by decide⟩

/-! ### Standard streams -/

/-- **C73**, as far as it is true: if the standard streams are open when csn starts, none of their numbers is ever that of the target, and
they stay open, so that no message and no progress bar (descriptors 2 and 1) is written to the target; whatever happens and
however far the run gets. -/
theorem C73_streams_partial (kc : Bool) (args : List Rsc.Arg) (s : Rsc.RS) (h : Before s) (h0 : 0 ∈ s.fds) (h1 : 1 ∈ s.fds) (h2 : 2 ∈ s.fds) :
    (∀ n, n ≤ 2 → n ∈ (Rsc.sync kc args s).2.fds) ∧ ∀ n, (Rsc.sync kc args s).2.tfd = some n → 2 < n := by
  have h3 := sync_at kc args s h
  generalize Rsc.sync kc args s = r at h3 ⊢
  obtain ⟨r1, s'⟩ := r
  have hs : ∀ n, n ≤ 2 → n ∈ s.fds := by
    intro n hn
    match n, hn with
    | 0, _ => exact h0
    | 1, _ => exact h1
    | 2, _ => exact h2
  cases r1 with
  | stop e => exact ⟨fun n hn => h3.keeps n (hs n hn), fun n hn => Nat.lt_of_not_le fun hle => h3.tgt n hn (hs n hle)⟩
  | ok a =>
    obtain ⟨F, M, _, ha⟩ := h3
    exact ⟨fun n hn => (modest_of_at ha).kept (hs n hn), fun n hn => Nat.lt_of_not_le fun hle => ha.tgt n hn (hs n hle)⟩

/-- The same for patchdd and its destination. -/
theorem C73_patchdd_partial (s : Rsc.RS) (h : Before s) (h1 : 1 ∈ s.fds) (h2 : 2 ∈ s.fds) :
    ∀ src dst, (Rsc.patchddOpen s).1 = .ok (some (src, dst)) → dst ≠ 1 ∧ dst ≠ 2 := by
  intro src dst hr
  have hb := before_at h false 2 0
  have h3 : Rsc.Spec { fds := s.fds, mem := s.mem, kc := false, P := s.fds.length + 2, Q := s.mem.length + 0 } [] [] Rsc.patchddOpen (fun r _ _ => ∀ x, r = some x → x.2 ∉ s.fds) := by
    unfold Rsc.patchddOpen
    refine (Rsc.Spec.openFd (B := { fds := s.fds, mem := s.mem, kc := false, P := s.fds.length + 2, Q := s.mem.length + 0 }) (by simp [Rsc.Base.k])).bind
      fun a F' M' ⟨hM, h⟩ => ?_
    subst hM
    rcases h with ⟨rfl, rfl⟩ | ⟨fd, rfl, rfl, _, _⟩
    · exact Rsc.Spec.pure fun _ h => by cases h
    · dsimp only
      refine (Rsc.Spec.openFd (by simp [Rsc.Base.k]; omega)).bind fun a F' M' ⟨hM, h⟩ => ?_
      subst hM
      rcases h with ⟨rfl, rfl⟩ | ⟨fd2, rfl, rfl, _, hn⟩
      · exact Rsc.Spec.pure fun _ h => by cases h
      · exact Rsc.Spec.pure fun x h => by cases h; exact hn
  have h4 := h3 s hb
  generalize Rsc.patchddOpen s = r at h4 hr
  obtain ⟨r1, s'⟩ := r
  dsimp only at hr
  subst hr
  obtain ⟨F, M, g, _⟩ := h4
  have := g _ rfl
  exact ⟨fun e => this (e ▸ h1), fun e => this (e ▸ h2)⟩

/-- **C73** in full is wrong: if csn is started with standard output and error closed, the target gets the number of standard error, to
which all messages are written. -/
theorem C73_refuted :
    ∃ s, Before s ∧ 0 ∈ s.fds ∧ (Rsc.run false [.target] s).1 = .ok true ∧ (Rsc.run false [.target] s).2.tfd = some 2 :=
  ⟨process [0] [true, true, true, true, true, true, false, true, false, false, true], ⟨by decide, rfl, rfl, rfl, rfl⟩, by decide,
    by decide +kernel, by decide +kernel⟩

/-- Likewise the destination of patchdd gets the number of standard output, to which it prints its results after `fsync`. -/
theorem C73_patchdd_refuted :
    ∃ s, Before s ∧ 2 ∈ s.fds ∧ ∃ src, (Rsc.patchddOpen s).1 = .ok (some (src, 1)) :=
  ⟨process [2] [true, true], ⟨by decide, rfl, rfl, rfl, rfl⟩, by decide, 0, by decide +kernel⟩

/-- The hypotheses of `C73_streams_partial` hold for the run above; the target has descriptor 5. -/
example : Before busyRun ∧ 0 ∈ busyRun.fds ∧ 1 ∈ busyRun.fds ∧ 2 ∈ busyRun.fds ∧ (Rsc.sync true busyArgs busyRun).2.tfd = some 5 :=
  ⟨⟨by decide, rfl, rfl, rfl, rfl⟩, by decide, by decide, by decide, by decide +kernel⟩

end Csn.Props
