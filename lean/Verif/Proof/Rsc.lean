import Verif.Model.Rsc
/-
Rules for the resource model: what a function owns before and after.
-/
namespace Csn.Rsc
open R

variable {α β σ : Type}

/-- Where a piece of program starts: the descriptors and blocks that are not its own, whether the kernel's hash may be used, and
bounds on the descriptors and blocks open at the same time. -/
structure Base where
  fds : List Nat
  mem : List Nat
  kc : Bool
  P : Nat
  Q : Nat

/-- The descriptor of the kernel's hash counts as one more. -/
def Base.k (B : Base) : Nat := if B.kc then 1 else 0

/-- Beside what was there before, the descriptors `F` (and that of the kernel's hash) and the blocks `M` are in use. -/
structure At (B : Base) (F M : List Nat) (s : RS) : Prop where
  fds : s.fds.Perm (s.kfd.toList ++ F ++ B.fds)
  kc : B.kc = false → s.kfd = none
  mem : s.mem.Perm (M ++ B.mem)
  peak : s.peak ≤ B.P
  peakMem : s.peakMem ≤ B.Q
  nodup : s.fds.Nodup
  tgt : ∀ n, s.tfd = some n → n ∉ B.fds

/-- How a piece of program may be stopped: not by misuse of a descriptor or block, and within the bounds; what was open before
still is, and is not the target. -/
structure Stopped (B : Base) (e : Stop) (s : RS) : Prop where
  noUb : e ≠ .ub
  keeps : ∀ n ∈ B.fds, n ∈ s.fds
  keepsMem : ∀ n ∈ B.mem, n ∈ s.mem
  peak : s.peak ≤ B.P
  peakMem : s.peakMem ≤ B.Q
  tgt : ∀ n, s.tfd = some n → n ∉ B.fds

/-- What becomes of the resources. -/
def Spec (B : Base) (F M : List Nat) (m : R α) (post : α → List Nat → List Nat → Prop) : Prop :=
  ∀ s, At B F M s →
    match m s with
    | (.ok a, s') => ∃ F' M', post a F' M' ∧ At B F' M' s'
    | (.stop e, s') => Stopped B e s'

theorem At.stopped {B : Base} {F M : List Nat} {s : RS} (h : At B F M s) {e : Stop} (he : e ≠ .ub) : Stopped B e s :=
  ⟨he, fun n hn => h.fds.symm.subset (by simp [hn]), fun n hn => h.mem.symm.subset (by simp [hn]), h.peak, h.peakMem, h.tgt⟩

theorem At.permM {B : Base} {F M M' : List Nat} {s : RS} (h : At B F M s) (p : M.Perm M') : At B F M' s :=
  { h with mem := h.mem.trans (p.append_right _) }

theorem At.permF {B : Base} {F F' M : List Nat} {s : RS} (h : At B F M s) (p : F.Perm F') : At B F' M s :=
  { h with fds := h.fds.trans ((p.append_left _).append_right _) }

theorem Spec.pure {B : Base} {F M : List Nat} {a : α} {post : α → List Nat → List Nat → Prop} (h : post a F M) :
    Spec B F M (Pure.pure a : R α) post := fun s hs => ⟨F, M, h, hs⟩

theorem Spec.bind {B : Base} {F M : List Nat} {m : R α} {f : α → R β} {p1 : α → List Nat → List Nat → Prop}
    {post : β → List Nat → List Nat → Prop} (h : Spec B F M m p1) (hf : ∀ a F' M', p1 a F' M' → Spec B F' M' (f a) post) :
    Spec B F M (m >>= f) post := by
  intro s hs
  have h1 := h s hs
  show match (R.bind m f) s with
    | (.ok a, s') => ∃ F' M', post a F' M' ∧ At B F' M' s'
    | (.stop e, s') => Stopped B e s'
  unfold R.bind
  generalize m s = r at h1 ⊢
  obtain ⟨r1, r2⟩ := r
  cases r1 with
  | ok a =>
    obtain ⟨F', M', p, ha⟩ := h1
    exact hf a F' M' p r2 ha
  | stop e => exact h1

theorem Spec.mono {B : Base} {F M : List Nat} {m : R α} {p1 post : α → List Nat → List Nat → Prop} (h : Spec B F M m p1)
    (hf : ∀ a F' M', p1 a F' M' → post a F' M') : Spec B F M m post := by
  intro s hs
  have h1 := h s hs
  generalize m s = r at h1 ⊢
  obtain ⟨r1, r2⟩ := r
  cases r1 with
  | ok a =>
    obtain ⟨F', M', p, ha⟩ := h1
    exact ⟨F', M', hf a F' M' p, ha⟩
  | stop e => exact h1

theorem Spec.permM {B : Base} {F M M' : List Nat} {m : R α} {post : α → List Nat → List Nat → Prop} (p : M.Perm M')
    (h : Spec B F M' m post) : Spec B F M m post := fun s hs => h s (hs.permM p)

theorem Spec.permF {B : Base} {F F' M : List Nat} {m : R α} {post : α → List Nat → List Nat → Prop} (p : F.Perm F')
    (h : Spec B F' M m post) : Spec B F M m post := fun s hs => h s (hs.permF p)

theorem Spec.stop {B : Base} {F M : List Nat} {e : Stop} {post : α → List Nat → List Nat → Prop} (he : e ≠ .ub) :
    Spec B F M (R.stop e : R α) post := fun _ hs => hs.stopped he

theorem Spec.ask {B : Base} {F M : List Nat} : Spec B F M R.ask (fun _ F' M' => F' = F ∧ M' = M) := by
  intro s hs
  unfold R.ask
  cases s.ans with
  | nil => exact hs.stopped (by decide)
  | cons b r => exact ⟨F, M, ⟨rfl, rfl⟩, { fds := hs.fds, kc := hs.kc, mem := hs.mem, peak := hs.peak, peakMem := hs.peakMem, nodup := hs.nodup, tgt := hs.tgt }⟩

/-- A question, and what follows. -/
theorem Spec.asks {B : Base} {F M : List Nat} {f : Bool → R α} {post : α → List Nat → List Nat → Prop}
    (h : ∀ b, Spec B F M (f b) post) : Spec B F M (R.ask >>= f) post :=
  Spec.ask.bind fun a F' M' ⟨hF, hM⟩ => by subst hF; subst hM; exact h a

/-- A question with two continuations. -/
theorem Spec.askIf {B : Base} {F M : List Nat} {x y : R α} {post : α → List Nat → List Nat → Prop}
    (h1 : Spec B F M x post) (h2 : Spec B F M y post) :
    Spec B F M (R.ask >>= fun b => if b = true then x else y) post :=
  Spec.asks fun b => by cases b <;> simpa

theorem lowest_not_mem (l : List Nat) : lowest l ∉ l := by
  unfold lowest
  cases h : (List.range (l.length + 1)).find? (fun n => !l.contains n) with
  | some n =>
    have := List.find?_some h
    simpa using this
  | none =>
    exfalso
    rw [List.find?_eq_none] at h
    have hs : ∀ n ∈ List.range (l.length + 1), n ∈ l := by
      intro n hn
      have := h n hn
      simpa using this
    have hd : (List.range (l.length + 1)).Nodup := List.nodup_range
    have := hd.length_le_of_subset hs
    simp at this
    omega

theorem Spec.openFd {B : Base} {F M : List Nat} (hP : F.length + B.fds.length + B.k + 1 ≤ B.P) :
    Spec B F M Rsc.openFd (fun a F' M' => M' = M ∧
      ((a = none ∧ F' = F) ∨ (∃ n, a = some n ∧ F' = n :: F ∧ n ∉ F ∧ n ∉ B.fds))) := by
  unfold Rsc.openFd
  refine Spec.askIf ?_ (Spec.pure ⟨rfl, .inl ⟨rfl, rfl⟩⟩)
  intro s hs
  have hn := lowest_not_mem s.fds
  have hk : s.kfd.toList.length ≤ B.k := by
    unfold Base.k
    cases hb : B.kc with
    | true => cases s.kfd <;> simp
    | false => simp [hs.kc hb]
  have hl : s.fds.length + 1 ≤ B.P := by
    have := hs.fds.length_eq
    simp only [List.length_append] at this
    omega
  have hF : ∀ x, x ∈ F → x ∈ s.fds := fun x hx => hs.fds.symm.subset (by simp [hx])
  have hB : ∀ x, x ∈ B.fds → x ∈ s.fds := fun x hx => hs.fds.symm.subset (by simp [hx])
  refine ⟨lowest s.fds :: F, M, ⟨rfl, .inr ⟨_, rfl, rfl, fun h => hn (hF _ h), fun h => hn (hB _ h)⟩⟩, ?_⟩
  refine { fds := ?_, kc := hs.kc, mem := hs.mem, peak := ?_, peakMem := hs.peakMem, nodup := ?_, tgt := hs.tgt }
  · refine (hs.fds.cons _).trans ?_
    rw [List.append_assoc, List.append_assoc]
    exact (List.perm_middle (l₁ := s.kfd.toList) (l₂ := F ++ B.fds) (a := lowest s.fds)).symm
  · exact Nat.max_le.2 ⟨hs.peak, hl⟩
  · exact List.nodup_cons.2 ⟨hn, hs.nodup⟩

theorem Spec.close {B : Base} {F F' M : List Nat} {n : Nat} (hF : F.Perm (n :: F')) :
    Spec B F M (Rsc.close n) (fun _ F1 M1 => F1 = F' ∧ M1 = M) := by
  intro s hs
  have hp : s.fds.Perm (n :: (s.kfd.toList ++ F' ++ B.fds)) := by
    refine hs.fds.trans (((hF.append_left _).append_right _).trans ?_)
    rw [List.append_assoc, List.append_assoc]
    exact List.perm_middle
  have hmem : n ∈ s.fds := hp.symm.subset (by simp)
  unfold Rsc.close
  rw [if_pos hmem]
  refine ⟨F', M, ⟨rfl, rfl⟩, { fds := ?_, kc := hs.kc, mem := hs.mem, peak := hs.peak, peakMem := hs.peakMem, nodup := hs.nodup.erase n, tgt := hs.tgt }⟩
  have := hp.erase n
  rwa [List.erase_cons_head] at this

theorem Spec.alloc {B : Base} {F M : List Nat} (hQ : M.length + B.mem.length + 1 ≤ B.Q) :
    Spec B F M Rsc.alloc (fun a F' M' => F' = F ∧ ((a = none ∧ M' = M) ∨ (∃ p, a = some p ∧ M' = p :: M))) := by
  unfold Rsc.alloc
  refine Spec.askIf ?_ (Spec.pure ⟨rfl, .inl ⟨rfl, rfl⟩⟩)
  intro s hs
  have hl : s.mem.length + 1 ≤ B.Q := by
    have := hs.mem.length_eq
    simp only [List.length_append] at this
    omega
  refine ⟨F, s.next :: M, ⟨rfl, .inr ⟨_, rfl, rfl⟩⟩, ?_⟩
  exact { fds := hs.fds, kc := hs.kc, mem := hs.mem.cons _, peak := hs.peak, peakMem := Nat.max_le.2 ⟨hs.peakMem, hl⟩, nodup := hs.nodup, tgt := hs.tgt }

theorem Spec.free {B : Base} {F M M' : List Nat} {p : Nat} (hM : M.Perm (p :: M')) :
    Spec B F M (Rsc.free (some p)) (fun _ F1 M1 => F1 = F ∧ M1 = M') := by
  intro s hs
  have hp : s.mem.Perm (p :: (M' ++ B.mem)) := hs.mem.trans (hM.append_right _)
  have hmem : p ∈ s.mem := hp.symm.subset (by simp)
  simp only [Rsc.free]
  rw [if_pos hmem]
  refine ⟨F, M', ⟨rfl, rfl⟩, { fds := hs.fds, kc := hs.kc, mem := ?_, peak := hs.peak, peakMem := hs.peakMem, nodup := hs.nodup, tgt := hs.tgt }⟩
  have := hp.erase p
  rwa [List.erase_cons_head] at this

theorem Spec.freeOpt {B : Base} {F M M' : List Nat} {p : Option Nat} (hM : M.Perm (p.toList ++ M')) :
    Spec B F M (Rsc.free p) (fun _ F1 M1 => F1 = F ∧ M1.Perm M') := by
  cases p with
  | none => exact Spec.pure ⟨rfl, by simpa using hM⟩
  | some p => exact (Spec.free (M' := M') (by simpa using hM)).mono fun _ _ _ ⟨h1, h2⟩ => ⟨h1, h2 ▸ .refl _⟩

theorem Spec.use {B : Base} {F M : List Nat} {p : Nat} (hM : p ∈ M) :
    Spec B F M (Rsc.use (some p)) (fun _ F1 M1 => F1 = F ∧ M1 = M) := by
  intro s hs
  have hmem : p ∈ s.mem := hs.mem.symm.subset (by simp [hM])
  simp only [Rsc.use]
  rw [if_pos hmem]
  exact ⟨F, M, ⟨rfl, rfl⟩, hs⟩

theorem Spec.realloc {B : Base} {F M M' : List Nat} {p : Nat} (hM : M.Perm (p :: M')) :
    Spec B F M (Rsc.realloc (some p)) (fun a F1 M1 => F1 = F ∧ ((a = none ∧ M1 = M) ∨ (∃ q, a = some q ∧ M1 = q :: M'))) := by
  unfold Rsc.realloc
  refine (Spec.use (hM.symm.subset (by simp))).bind fun _ F1 M1 ⟨h1, h2⟩ => ?_
  subst h1; subst h2
  refine Spec.askIf ?_ (Spec.pure ⟨rfl, .inl ⟨rfl, rfl⟩⟩)
  intro s hs
  have hp : s.mem.Perm (p :: (M' ++ B.mem)) := hs.mem.trans (hM.append_right _)
  refine ⟨F1, s.next :: M', ⟨rfl, .inr ⟨_, rfl, rfl⟩⟩, ?_⟩
  refine { fds := hs.fds, kc := hs.kc, mem := ?_, peak := hs.peak, peakMem := hs.peakMem, nodup := hs.nodup, tgt := hs.tgt }
  have := hp.erase p
  rw [List.erase_cons_head] at this
  exact this.cons _

theorem Spec.iterate {B : Base} {F M : List Nat} {body : σ → R (Bool × σ)} {x : σ} (I : σ → List Nat → List Nat → Prop)
    (h0 : I x F M) (hb : ∀ y F M, I y F M → Spec B F M (body y) (fun r F' M' => I r.2 F' M')) :
    Spec B F M (Rsc.iterate body x) (fun r F' M' => I r.2 F' M') := by
  have h : ∀ n x F M, I x F M → Spec B F M (Rsc.iterLoop body n x) (fun r F' M' => I r.2 F' M') := by
    intro n
    induction n with
    | zero => intro x F M _; exact Spec.stop (by decide)
    | succ n ih =>
      intro x F M hx
      unfold Rsc.iterLoop
      refine Spec.askIf ?_ ?_
      · refine (hb x F M hx).bind fun r F' M' hr => ?_
        split
        · exact ih _ _ _ hr
        · exact Spec.pure hr
      · exact Spec.asks fun b => Spec.pure hx
  intro s hs
  exact h (s.ans.length + 1) x F M h0 s hs

/-! ### utils.c, encrypt.c -/

theorem slurp_spec {B : Base} {F M : List Nat} (hP : F.length + B.fds.length + B.k + 1 ≤ B.P)
    (hQ : M.length + B.mem.length + 1 ≤ B.Q) :
    Spec B F M slurpFile (fun a F' M' => F' = F ∧ ((a = none ∧ M' = M) ∨ (∃ p, a = some p ∧ M' = p :: M))) := by
  unfold slurpFile
  refine (Spec.openFd hP).bind fun a F' M' ⟨hM, h⟩ => ?_
  subst hM
  rcases h with ⟨rfl, rfl⟩ | ⟨fd, rfl, rfl, _, _⟩
  · exact Spec.pure ⟨rfl, .inl ⟨rfl, rfl⟩⟩
  dsimp only
  have hclose : ∀ {M : List Nat} {post : Option Nat → List Nat → List Nat → Prop} (a : Option Nat), post a F M →
      Spec B (fd :: F) M (do Rsc.close fd; return a) post := fun a ha =>
    (Spec.close (.refl _)).bind fun _ F' M' ⟨h1, h2⟩ => by subst h1; subst h2; exact Spec.pure ha
  refine Spec.askIf ?_ ?_
  · refine (Spec.alloc hQ).bind fun a F' M' ⟨hF, h⟩ => ?_
    subst hF
    rcases h with ⟨rfl, rfl⟩ | ⟨p, rfl, rfl⟩
    · exact hclose none ⟨rfl, .inl ⟨rfl, rfl⟩⟩
    dsimp only
    refine Spec.askIf ?_ ?_
    · exact hclose (some p) ⟨rfl, .inr ⟨_, rfl, rfl⟩⟩
    · refine (Spec.free (.refl _)).bind fun _ F1 M1 ⟨h1, h2⟩ => ?_
      subst h1; subst h2
      exact hclose none ⟨rfl, .inl ⟨rfl, rfl⟩⟩
  · exact hclose none ⟨rfl, .inl ⟨rfl, rfl⟩⟩

theorem keyspec_spec {B : Base} {F M : List Nat} (hP : F.length + B.fds.length + B.k + 1 ≤ B.P)
    (hQ : M.length + B.mem.length + 1 ≤ B.Q) :
    Spec B F M parseKeyspec (fun _ F' M' => F' = F ∧ M' = M) := by
  unfold parseKeyspec
  refine Spec.askIf ?_ Spec.ask
  refine (slurp_spec hP hQ).bind fun a F' M' ⟨hF, h⟩ => ?_
  subst hF
  rcases h with ⟨rfl, rfl⟩ | ⟨p, rfl, rfl⟩
  · exact Spec.pure ⟨rfl, rfl⟩
  dsimp only
  refine (Spec.use (by simp)).bind fun _ F1 M1 ⟨h1, h2⟩ => ?_
  subst h1; subst h2
  refine Spec.asks fun b => ?_
  exact (Spec.free (.refl _)).bind fun _ F1 M1 ⟨h1, h2⟩ => by subst h1; subst h2; exact Spec.pure ⟨rfl, rfl⟩

/-! ### csn-tool.c -/

theorem writeAll_spec {B : Base} {F M : List Nat} : Spec B F M writeAll (fun _ F' M' => F' = F ∧ M' = M) := by
  unfold writeAll
  exact Spec.askIf (Spec.stop (by decide)) Spec.ask

/-- `F'` is `F`, except that 1 may be left over if it was closed before. -/
def Kept (B : Base) (F F' : List Nat) : Prop := F' = F ∨ (1 ∉ B.fds ∧ 1 ∉ F ∧ F' = 1 :: F)

theorem encryptOne_spec {B : Base} {F M : List Nat} (hP : F.length + B.fds.length + B.k + 1 ≤ B.P)
    (hQ : M.length + B.mem.length + 1 ≤ B.Q) :
    Spec B F M encryptOne (fun _ F' M' => Kept B F F' ∧ M' = M) := by
  unfold encryptOne
  have same : ∀ b : Bool, Spec B F M (Pure.pure b : R Bool) (fun _ F' M' => Kept B F F' ∧ M' = M) :=
    fun b => Spec.pure ⟨.inl rfl, rfl⟩
  refine Spec.askIf (same _) (Spec.askIf (same _) (Spec.askIf (same _) ?_))
  refine (slurp_spec hP hQ).bind fun a F' M' ⟨hF, h⟩ => ?_
  subst hF
  rcases h with ⟨rfl, rfl⟩ | ⟨p, rfl, rfl⟩
  · exact same _
  dsimp only
  have hfree : ∀ {F2 : List Nat} (b : Bool), Kept B F' F2 →
      Spec B F2 (p :: M) (do Rsc.free (some p); return b) (fun _ F2 M' => Kept B F' F2 ∧ M' = M) := fun b hk =>
    (Spec.free (.refl _)).bind fun _ F1 M1 ⟨h1, h2⟩ => by subst h1; subst h2; exact Spec.pure ⟨hk, rfl⟩
  refine (Spec.use (by simp)).bind fun _ F1 M1 ⟨h1, h2⟩ => ?_
  subst h1; subst h2
  refine Spec.askIf (hfree _ (.inl rfl)) (Spec.askIf ?_ ?_)
  · refine writeAll_spec.bind fun b F1 M1 ⟨h1, h2⟩ => ?_
    subst h1; subst h2
    unfold encryptOut
    rw [if_pos rfl]
    exact hfree _ (.inl rfl)
  · refine (Spec.openFd hP).bind fun a F' M' ⟨hM, h⟩ => ?_
    subst hM
    rcases h with ⟨rfl, rfl⟩ | ⟨fd, rfl, rfl, n1, n2⟩
    · exact hfree _ (.inl rfl)
    dsimp only
    refine writeAll_spec.bind fun b F1 M1 ⟨h1, h2⟩ => ?_
    subst h1; subst h2
    unfold encryptOut
    split
    · next h => subst h; exact hfree _ (.inr ⟨n2, n1, rfl⟩)
    · exact (Spec.close (.refl _)).bind fun _ F1 M1 ⟨h1, h2⟩ => by
        subst h1; subst h2; exact hfree _ (.inl rfl)

theorem Kept.trans {B : Base} {F F1 F2 : List Nat} (h1 : Kept B F F1) (h2 : Kept B F1 F2) : Kept B F F2 := by
  rcases h1 with rfl | ⟨a, b, rfl⟩
  · exact h2
  · rcases h2 with rfl | ⟨_, c, _⟩
    · exact .inr ⟨a, b, rfl⟩
    · simp at c

theorem Kept.length {B : Base} {F F1 : List Nat} (h : Kept B F F1) : F1.length ≤ F.length + 1 := by
  rcases h with rfl | ⟨_, _, rfl⟩ <;> simp

theorem doCrypt_spec {B : Base} {F M : List Nat} (list : Bool)
    (hP : F.length + B.fds.length + B.k + (if 1 ∈ B.fds then 1 else 2) ≤ B.P)
    (hQ : M.length + B.mem.length + 2 ≤ B.Q) :
    Spec B F M (doCrypt list) (fun _ F' M' => Kept B F F' ∧ M' = M) := by
  have hP1 : F.length + B.fds.length + B.k + 1 ≤ B.P := by split at hP <;> omega
  unfold doCrypt
  refine Spec.askIf (Spec.pure ⟨.inl rfl, rfl⟩) ?_
  refine (keyspec_spec hP1 (by omega)).bind fun b F1 M1 ⟨h1, h2⟩ => ?_
  subst h1; subst h2
  cases b
  · exact Spec.pure ⟨.inl rfl, rfl⟩
  simp only [if_true]
  unfold encryptInit
  refine (Spec.alloc (by omega)).bind fun a F' M' ⟨hF, h⟩ => ?_
  subst hF
  rcases h with ⟨rfl, rfl⟩ | ⟨c, rfl, rfl⟩
  · exact Spec.pure ⟨.inl rfl, rfl⟩
  dsimp only
  have hend : ∀ {F2 : List Nat} (b : Bool), Kept B F' F2 →
      Spec B F2 (c :: M1) (do encryptClose (some c); return b) (fun _ F2 M' => Kept B F' F2 ∧ M' = M1) := fun b hk =>
    (Spec.free (.refl _)).bind fun _ F1 M1 ⟨h1, h2⟩ => by subst h1; subst h2; exact Spec.pure ⟨hk, rfl⟩
  cases list
  · simp only [Bool.false_eq_true, if_false]
    refine (encryptOne_spec hP1 (by simp; omega)).bind fun b F1 M2 ⟨h1, h2⟩ => ?_
    subst h2
    exact hend _ h1
  · simp only [if_true]
    refine (Spec.iterate (fun _ F2 M2 => Kept B F' F2 ∧ M2 = c :: M1) ⟨.inl rfl, rfl⟩ ?_).bind
      fun b F1 M2 ⟨h1, h2⟩ => by subst h2; exact hend _ h1
    intro _ F2 M2 ⟨hk, hm⟩
    subst hm
    have hP2 : F2.length + B.fds.length + B.k + 1 ≤ B.P := by
      rcases hk with rfl | ⟨h1, h2, rfl⟩
      · exact hP1
      · rw [if_neg h1] at hP
        simp
        omega
    refine (encryptOne_spec hP2 (by simp; omega)).bind fun b F3 M3 ⟨h1, h2⟩ => ?_
    subst h2
    exact Spec.pure ⟨hk.trans h1, rfl⟩

/-! ### sha.c, index.c -/

/-- As `Spec`, for a program that starts without the kernel's hash. -/
def SpecK (B : Base) (F M : List Nat) (m : R α) (post : α → List Nat → List Nat → Prop) : Prop :=
  ∀ s, At { B with kc := false } F M s →
    match m s with
    | (.ok a, s') => ∃ F' M', post a F' M' ∧ At B F' M' s'
    | (.stop e, s') => Stopped B e s'

theorem At.up {B : Base} {F M : List Nat} {s : RS} (h : At { B with kc := false } F M s) : At B F M s :=
  { fds := h.fds, kc := fun _ => h.kc rfl, mem := h.mem, peak := h.peak, peakMem := h.peakMem, nodup := h.nodup, tgt := h.tgt }

theorem SpecK.of {B : Base} {F M : List Nat} {m : R α} {post : α → List Nat → List Nat → Prop} (h : Spec B F M m post) :
    SpecK B F M m post := fun s hs => h s hs.up

theorem SpecK.bind {B : Base} {F M : List Nat} {m : R α} {f : α → R β} {p1 : α → List Nat → List Nat → Prop}
    {post : β → List Nat → List Nat → Prop} (h : Spec { B with kc := false } F M m p1)
    (hf : ∀ a F' M', p1 a F' M' → SpecK B F' M' (f a) post) : SpecK B F M (m >>= f) post := by
  intro s hs
  have h1 := h s hs
  show match (R.bind m f) s with
    | (.ok a, s') => ∃ F' M', post a F' M' ∧ At B F' M' s'
    | (.stop e, s') => Stopped B e s'
  unfold R.bind
  generalize m s = r at h1 ⊢
  obtain ⟨r1, r2⟩ := r
  cases r1 with
  | ok a =>
    obtain ⟨F', M', p, ha⟩ := h1
    exact hf a F' M' p r2 ha
  | stop e => exact ⟨h1.noUb, h1.keeps, h1.keepsMem, h1.peak, h1.peakMem, h1.tgt⟩

theorem kcapiInit_spec {B : Base} {F M : List Nat} (hk : B.kc = true) (hP : F.length + B.fds.length + 2 ≤ B.P) :
    SpecK B F M kcapiInit (fun _ F' M' => F' = F ∧ M' = M) := by
  unfold kcapiInit
  refine SpecK.bind (Spec.openFd (by simp [Base.k]; omega)) fun a F' M' ⟨hM, h⟩ => ?_
  subst hM
  rcases h with ⟨rfl, rfl⟩ | ⟨alg, rfl, rfl, _, _⟩
  · exact SpecK.of (Spec.pure ⟨rfl, rfl⟩)
  dsimp only
  have hclose : ∀ {M : List Nat} (b : Bool), Spec B (alg :: F) M (do Rsc.close alg; return b) (fun _ F' M' => F' = F ∧ M' = M) :=
    fun b => (Spec.close (.refl _)).bind fun _ F' M' ⟨h1, h2⟩ => by subst h1; subst h2; exact Spec.pure ⟨rfl, rfl⟩
  refine SpecK.bind Spec.ask fun b F' M' ⟨h1, h2⟩ => ?_
  subst h1; subst h2
  cases b
  · exact SpecK.of (hclose _)
  simp only [if_true]
  refine SpecK.bind (Spec.openFd (by simp [Base.k]; omega)) fun a F' M' ⟨hM, h⟩ => ?_
  subst hM
  rcases h with ⟨rfl, rfl⟩ | ⟨fd, rfl, rfl, _, _⟩
  · exact SpecK.of (hclose _)
  dsimp only
  intro s hs
  refine hclose true { s with kfd := some fd } ?_
  refine { fds := ?_, kc := fun h => (by simp [hk] at h), mem := hs.mem, peak := hs.peak, peakMem := hs.peakMem, nodup := hs.nodup, tgt := hs.tgt }
  have := hs.fds
  rw [hs.kc rfl] at this
  exact this

theorem shaOnce_spec {B : Base} {F M : List Nat} : Spec B F M shaOnce (fun _ F' M' => F' = F ∧ M' = M) := by
  intro s hs
  obtain ⟨fds, kfd, tfd, mem, next, peak, peakMem, ans⟩ := s
  cases kfd with
  | none => exact ⟨F, M, ⟨rfl, rfl⟩, hs⟩
  | some fd =>
    cases ans with
    | nil => exact hs.stopped (by decide)
    | cons b r =>
      cases b with
      | true => exact ⟨F, M, ⟨rfl, rfl⟩, { fds := hs.fds, kc := hs.kc, mem := hs.mem, peak := hs.peak, peakMem := hs.peakMem, nodup := hs.nodup, tgt := hs.tgt }⟩
      | false =>
        have hp : fds.Perm (fd :: (F ++ B.fds)) := hs.fds
        have hm : fd ∈ fds := hp.symm.subset (by simp)
        have : shaOnce ⟨fds, some fd, tfd, mem, next, peak, peakMem, false :: r⟩ =
            (.ok (), ⟨fds.erase fd, none, tfd, mem, next, peak, peakMem, r⟩) := by
          show (R.bind (Rsc.close fd) _) _ = _
          unfold R.bind Rsc.close
          simp [hm]
        rw [this]
        refine ⟨F, M, ⟨rfl, rfl⟩, { fds := ?_, kc := fun _ => rfl, mem := hs.mem, peak := hs.peak, peakMem := hs.peakMem, nodup := hs.nodup.erase fd, tgt := hs.tgt }⟩
        have := hp.erase fd
        rwa [List.erase_cons_head] at this

theorem indexInit_spec {B : Base} {F M : List Nat} (hQ : M.length + B.mem.length + 1 ≤ B.Q) :
    Spec B F M indexInit (fun r F' M' => F' = F ∧ (r = (false, none) ∧ M' = M ∨ ∃ p, r = (true, some p) ∧ M' = p :: M)) := by
  unfold indexInit
  refine Spec.askIf (Spec.stop (by decide)) ?_
  refine (Spec.alloc hQ).bind fun a F' M' ⟨hF, h⟩ => ?_
  subst hF
  rcases h with ⟨rfl, rfl⟩ | ⟨p, rfl, rfl⟩
  · exact Spec.pure ⟨rfl, .inl ⟨rfl, rfl⟩⟩
  · exact Spec.pure ⟨rfl, .inr ⟨p, rfl, rfl⟩⟩

/-- The array stays in use, whether or not the insertion succeeds. -/
theorem indexInsert_spec {B : Base} {F M M' : List Nat} {e : Nat} (hM : M.Perm (e :: M')) :
    Spec B F M (indexInsert (some e)) (fun r F1 M1 => F1 = F ∧ ∃ e', r.2 = some e' ∧ M1.Perm (e' :: M')) := by
  unfold indexInsert
  simp only [reduceCtorEq, if_false]
  refine Spec.askIf (Spec.stop (by decide)) (Spec.askIf ?_ ?_)
  · refine (Spec.realloc hM).bind fun a F1 M1 ⟨hF, h⟩ => ?_
    subst hF
    rcases h with ⟨rfl, rfl⟩ | ⟨q, rfl, rfl⟩
    · exact Spec.pure ⟨rfl, e, rfl, hM⟩
    · dsimp only
      exact (Spec.use (by simp)).bind fun _ F1 M1 ⟨h1, h2⟩ => by
        subst h1; subst h2; exact Spec.pure ⟨rfl, q, rfl, .refl _⟩
  · exact (Spec.use (hM.symm.subset (by simp))).bind fun _ F1 M1 ⟨h1, h2⟩ => by
      subst h1; subst h2; exact Spec.pure ⟨rfl, e, rfl, hM⟩

theorem indexQuery_spec {B : Base} {F M : List Nat} {e : Nat} (hM : e ∈ M) :
    Spec B F M (indexQuery (some e)) (fun _ F1 M1 => F1 = F ∧ M1 = M) := by
  unfold indexQuery
  exact (Spec.use hM).bind fun _ F1 M1 ⟨h1, h2⟩ => by subst h1; subst h2; exact Spec.ask

/-! ### store-local.c -/

theorem insertIndex_spec {B : Base} {F M M' : List Nat} {l : Loc} {e : Nat} (he : l.ents = some e) (hM : M.Perm (e :: M')) :
    Spec B F M (insertIndex l) (fun r F1 M1 => F1 = F ∧ ∃ e', r.2 = { l with ents := some e' } ∧ M1.Perm (e' :: M')) := by
  unfold insertIndex
  refine shaOnce_spec.bind fun _ F1 M1 ⟨h1, h2⟩ => ?_
  subst h1; subst h2
  rw [he]
  refine (indexInsert_spec hM).bind fun r F1 M1 ⟨h1, e', h2, h3⟩ => ?_
  subst h1
  exact Spec.pure ⟨rfl, e', by rw [h2], h3⟩

theorem insertAll_spec {B : Base} {F M : List Nat} {l : Loc} {e : Nat} (he : l.ents = some e) :
    Spec B F (e :: M) (Rsc.iterate insertIndex l)
      (fun r F1 M1 => F1 = F ∧ ∃ e', r.2 = { l with ents := some e' } ∧ M1.Perm (e' :: M)) := by
  refine Spec.iterate (fun x F1 M1 => F1 = F ∧ ∃ e', x = { l with ents := some e' } ∧ M1.Perm (e' :: M)) ?_ ?_
  · exact ⟨rfl, e, by rw [← he], .refl _⟩
  · rintro y F1 M1 ⟨rfl, e', rfl, hm⟩
    exact (insertIndex_spec (l := { l with ents := some e' }) rfl hm).mono fun r F2 M2 ⟨h1, e2, h2, h3⟩ => ⟨h1, e2, h2, h3⟩

theorem scan_spec {B : Base} {F M : List Nat} {l : Loc} (hQ : M.length + B.mem.length + 1 ≤ B.Q) :
    Spec B F M (scan l) (fun r F1 M1 => F1 = F ∧
      ((r.1 = false ∧ r.2 = l ∧ M1 = M) ∨ (r = (false, { l with ents := none }) ∧ M1 = M) ∨
        ∃ e, r.2 = { l with ents := some e } ∧ M1.Perm (e :: M))) := by
  unfold scan
  refine Spec.askIf ?_ (Spec.pure ⟨rfl, .inl ⟨rfl, rfl, rfl⟩⟩)
  refine (indexInit_spec hQ).bind fun r F1 M1 ⟨hF, h⟩ => ?_
  subst hF
  rcases h with ⟨rfl, rfl⟩ | ⟨e, rfl, rfl⟩
  · exact Spec.pure ⟨rfl, .inr (.inl ⟨rfl, rfl⟩)⟩
  · simp only [if_true]
    exact (insertAll_spec (l := { l with ents := some e }) rfl).mono fun r F1 M1 ⟨h1, e', h2, h3⟩ =>
      ⟨h1, .inr (.inr ⟨e', h2, h3⟩)⟩

/-- After side-loading the array is in use exactly on success. -/
theorem sideload_spec {B : Base} {F M : List Nat} {l : Loc} (hP : F.length + B.fds.length + B.k + 1 ≤ B.P)
    (hQ : M.length + B.mem.length + 1 ≤ B.Q) :
    Spec B F M (sideload l) (fun r F1 M1 => F1 = F ∧ r.2.blk = l.blk ∧ r.2.fd = l.fd ∧
      ((r.1 = false ∧ M1.Perm M) ∨ ∃ e, r.1 = true ∧ r.2.ents = some e ∧ M1.Perm (e :: M))) := by
  unfold sideload
  refine (Spec.openFd hP).bind fun a F' M' ⟨hM, h⟩ => ?_
  subst hM
  rcases h with ⟨rfl, rfl⟩ | ⟨fd, rfl, rfl, _, _⟩
  · exact Spec.pure ⟨rfl, rfl, rfl, .inl ⟨rfl, .refl _⟩⟩
  dsimp only
  have hclose : ∀ {M1 : List Nat} {post : Bool × Loc → List Nat → List Nat → Prop} (a : Bool × Loc), post a F M1 →
      Spec B (fd :: F) M1 (do Rsc.close fd; return a) post := fun a ha =>
    (Spec.close (.refl _)).bind fun _ F' M' ⟨h1, h2⟩ => by subst h1; subst h2; exact Spec.pure ha
  refine Spec.askIf ?_ (hclose _ ⟨rfl, rfl, rfl, .inl ⟨rfl, .refl _⟩⟩)
  refine (indexInit_spec hQ).bind fun r F1 M1 ⟨hF, h⟩ => ?_
  subst hF
  rcases h with ⟨rfl, rfl⟩ | ⟨e, rfl, rfl⟩
  · exact hclose _ ⟨rfl, rfl, rfl, .inl ⟨rfl, .refl _⟩⟩
  simp only [if_true]
  refine (insertAll_spec (l := { l with ents := some e }) rfl).bind fun r F1 M1 ⟨h1, e', h2, h3⟩ => ?_
  subst h1
  obtain ⟨ok, l'⟩ := r
  dsimp only at h2
  subst h2
  cases ok
  · simp only [Bool.false_eq_true, if_false]
    refine (Spec.free h3).bind fun _ F1 M1 ⟨h1, h2⟩ => ?_
    subst h1; subst h2
    exact hclose _ ⟨rfl, rfl, rfl, .inl ⟨rfl, .refl _⟩⟩
  · simp only [if_true]
    exact hclose _ ⟨rfl, rfl, rfl, .inr ⟨e', rfl, rfl, h3⟩⟩

/-- What a new local store owns. -/
theorem localScanned_spec {B : Base} {F M : List Nat} {l : Loc} (hQ : M.length + B.mem.length + 2 ≤ B.Q) :
    Spec B F (l.blk :: M) (localScanned l) (fun a F1 M1 => F1 = F ∧
      ∀ l', a = some l' → l'.fd = l.fd ∧ ∃ e, l'.ents = some e ∧ M1.Perm (e :: l'.blk :: M)) := by
  unfold localScanned
  refine (scan_spec (by simp; omega)).bind fun r F1 M1 ⟨h1, h⟩ => ?_
  subst h1
  have hfree : ∀ {M2 : List Nat}, l.blk ∈ M2 → Spec B F1 M2 (do Rsc.free (some l.blk); return (none : Option Loc)) (fun a F2 M3 => F2 = F1 ∧
      ∀ l', a = some l' → l'.fd = l.fd ∧ ∃ e, l'.ents = some e ∧ M3.Perm (e :: l'.blk :: M)) := fun hm =>
    (Spec.free (List.perm_cons_erase hm)).bind fun _ F2 M2 ⟨h1, h2⟩ => by
      subst h1; exact Spec.pure ⟨rfl, fun _ h => by cases h⟩
  obtain ⟨ok, l'⟩ := r
  rcases h with ⟨rfl, _, rfl⟩ | ⟨h, rfl⟩ | ⟨e, h2, h3⟩
  · exact hfree (by simp)
  · cases h
    exact hfree (by simp)
  · dsimp only at h2
    subst h2
    cases ok
    · exact hfree (h3.symm.subset (by simp))
    · exact Spec.pure ⟨rfl, fun l' h => by cases h; exact ⟨rfl, e, rfl, h3⟩⟩

theorem localNew_spec {B : Base} {F M : List Nat} (side : Bool) (hP : F.length + B.fds.length + B.k + 2 ≤ B.P)
    (hQ : M.length + B.mem.length + 2 ≤ B.Q) :
    Spec B F M (localNew side) (fun a F1 M1 =>
      ∀ l, a = some l → F1 = l.fd :: F ∧ ∃ e, l.ents = some e ∧ M1.Perm (e :: l.blk :: M)) := by
  unfold localNew
  refine (Spec.alloc (by omega)).bind fun a F' M' ⟨hF, h⟩ => ?_
  subst hF
  rcases h with ⟨rfl, rfl⟩ | ⟨blk, rfl, rfl⟩
  · exact Spec.pure fun _ h => by cases h
  dsimp only
  refine (Spec.openFd (by omega)).bind fun a F1 M' ⟨hM, h⟩ => ?_
  subst hM
  rcases h with ⟨rfl, rfl⟩ | ⟨fd, rfl, rfl, _, _⟩
  · exact (Spec.free (.refl _)).bind fun _ _ _ _ => Spec.pure fun _ h => by cases h
  dsimp only
  have hscan : ∀ l : Loc, l.blk = blk → l.fd = fd → Spec B (fd :: F') (blk :: M) (localScanned l) (fun a F1 M1 =>
      ∀ l, a = some l → F1 = l.fd :: F' ∧ ∃ e, l.ents = some e ∧ M1.Perm (e :: l.blk :: M)) := by
    intro l hb hf
    subst hb; subst hf
    refine (localScanned_spec hQ).mono fun a F1 M1 ⟨h1, h2⟩ l' hl => ?_
    obtain ⟨h3, h4⟩ := h2 l' hl
    exact ⟨by rw [h1, h3], h4⟩
  split
  · refine (sideload_spec (by simp; omega) (by simp; omega)).bind fun r F1 M1 ⟨h1, h2, h3, h⟩ => ?_
    subst h1
    obtain ⟨ok, l'⟩ := r
    dsimp only at h2 h3 h
    rcases h with ⟨rfl, h⟩ | ⟨e, rfl, h4, h5⟩
    · exact Spec.permM h (hscan l' h2 h3)
    · refine Spec.pure fun l h => ?_
      cases h
      exact ⟨by rw [h3], e, h4, by rw [h2]; exact h5⟩
  · exact hscan _ rfl rfl

theorem localGet_spec {B : Base} {F M' : List Nat} (hQ : M'.length + B.mem.length + 1 ≤ B.Q) (n : Nat) :
    ∀ {l : Loc} {e : Nat} {M : List Nat}, l.ents = some e → M.Perm (e :: M') →
    Spec B F M (localGet n l) (fun r F1 M1 => F1 = F ∧ r.2.blk = l.blk ∧ r.2.fd = l.fd ∧
      ((∃ e', r.2.ents = some e' ∧ M1.Perm (e' :: M')) ∨ (r.1 = .fail ∧ M1.Perm M'))) := by
  induction n with
  | zero => intro l e M _ _; exact Spec.stop (by decide)
  | succ n ih =>
    intro l e M he hM
    have same : ∀ g : Got, Spec B F M (Pure.pure (g, l) : R (Got × Loc)) (fun r F1 M1 => F1 = F ∧ r.2.blk = l.blk ∧ r.2.fd = l.fd ∧
      ((∃ e', r.2.ents = some e' ∧ M1.Perm (e' :: M')) ∨ (r.1 = .fail ∧ M1.Perm M'))) :=
      fun g => Spec.pure ⟨rfl, rfl, rfl, .inl ⟨e, he, hM⟩⟩
    unfold localGet
    rw [he]
    refine (indexQuery_spec (hM.symm.subset (by simp))).bind fun b F1 M1 ⟨h1, h2⟩ => ?_
    subst h1; subst h2
    cases b
    · exact same _
    simp only [if_true]
    refine Spec.askIf (same _) (Spec.askIf (same _) ?_)
    refine shaOnce_spec.bind fun _ F1 M1 ⟨h1, h2⟩ => ?_
    subst h1; subst h2
    refine Spec.askIf (same _) ?_
    refine (Spec.free hM).bind fun _ F1 M1 ⟨h1, h2⟩ => ?_
    subst h1; subst h2
    refine (scan_spec hQ).bind fun r F1 M1 ⟨h1, h⟩ => ?_
    subst h1
    obtain ⟨ok, l'⟩ := r
    rcases h with ⟨rfl, rfl, rfl⟩ | ⟨h, rfl⟩ | ⟨e', h2, h3⟩
    · exact Spec.pure ⟨rfl, rfl, rfl, .inr ⟨rfl, .refl _⟩⟩
    · cases h
      exact Spec.pure ⟨rfl, rfl, rfl, .inr ⟨rfl, .refl _⟩⟩
    · dsimp only at h2
      subst h2
      cases ok
      · exact Spec.pure ⟨rfl, rfl, rfl, .inl ⟨e', rfl, h3⟩⟩
      · exact ih rfl h3

/-! ### store-http.c -/

/-- Each parameter leaves a cipher context behind; only the last one is remembered. -/
theorem handleParams_spec {B : Base} {F M : List Nat} (hP : F.length + B.fds.length + B.k + 1 ≤ B.P) (n : Nat) :
    ∀ {enc : Option Nat} {L : List Nat}, M.length + enc.toList.length + L.length + n + 1 + B.mem.length ≤ B.Q →
    Spec B F (enc.toList ++ L ++ M) (handleParams n enc) (fun a F1 M1 => F1 = F ∧
      ((a = none ∧ ∃ L', M1 = L' ++ M) ∨ ∃ enc' L', a = some enc' ∧ M1 = enc'.toList ++ L' ++ M ∧
        enc'.toList.length + L'.length = enc.toList.length + L.length + n ∧ (enc'.isSome = (enc.isSome || decide (0 < n))))) := by
  induction n with
  | zero => intro enc L _; exact Spec.pure ⟨rfl, .inr ⟨enc, L, rfl, rfl, by omega, by simp⟩⟩
  | succ n ih =>
    intro enc L hQ
    unfold handleParams
    have same : Spec B F (enc.toList ++ L ++ M) (Pure.pure none : R (Option (Option Nat))) (fun a F1 M1 => F1 = F ∧
      ((a = none ∧ ∃ L', M1 = L' ++ M) ∨ ∃ enc' L', a = some enc' ∧ M1 = enc'.toList ++ L' ++ M ∧
        enc'.toList.length + L'.length = enc.toList.length + L.length + (n + 1) ∧ (enc'.isSome = (enc.isSome || decide (0 < n + 1))))) :=
      Spec.pure ⟨rfl, .inl ⟨rfl, _, rfl⟩⟩
    refine Spec.askIf ?_ same
    refine (keyspec_spec hP (by simp; omega)).bind fun b F1 M1 ⟨h1, h2⟩ => ?_
    subst h1; subst h2
    cases b
    · exact same
    simp only [if_true]
    unfold encryptInit
    refine (Spec.alloc (by simp; omega)).bind fun a F' M' ⟨hF, h⟩ => ?_
    subst hF
    rcases h with ⟨rfl, rfl⟩ | ⟨c, rfl, rfl⟩
    · exact same
    dsimp only
    refine (ih (enc := some c) (L := enc.toList ++ L) (by simp; omega)).mono fun a F1 M1 ⟨h1, h⟩ => ⟨h1, ?_⟩
    rcases h with h | ⟨enc', L', h2, h3, h4, h5⟩
    · exact .inl h
    · refine .inr ⟨enc', L', h2, h3, ?_, ?_⟩
      · simp only [Option.toList_some, List.length_append, List.length_cons, List.length_nil] at h4
        omega
      · simpa using h5

/-- The blocks of an HTTP store. -/
def httpBlks (h : Http) : List Nat := [h.zstd, h.curl, h.url, h.base, h.blk] ++ h.dec.toList ++ h.enc.toList

theorem httpNew_spec {B : Base} {F M : List Nat} (n : Nat) (hP : F.length + B.fds.length + B.k + 1 ≤ B.P)
    (hQ : M.length + n + 6 + B.mem.length ≤ B.Q) :
    Spec B F M (httpNew n) (fun a F1 M1 => F1 = F ∧
      ∀ h, a = some h → h.dec = none ∧ h.enc.isSome = decide (0 < n) ∧ ∃ L, M1.Perm (httpBlks h ++ L ++ M) ∧ L.length = n - 1) := by
  unfold httpNew
  have bad : ∀ M2, Spec B F M2 (Pure.pure none : R (Option Http)) (fun a F1 M1 => F1 = F ∧
      ∀ h, a = some h → h.dec = none ∧ h.enc.isSome = decide (0 < n) ∧ ∃ L, M1.Perm (httpBlks h ++ L ++ M) ∧ L.length = n - 1) :=
    fun M2 => Spec.pure ⟨rfl, fun _ h => by cases h⟩
  have free1 : ∀ {p : Nat} {M2 : List Nat} {f : Unit → R (Option Http)} {post : Option Http → List Nat → List Nat → Prop}, p ∈ M2 →
      Spec B F (M2.erase p) (f ()) post → Spec B F M2 (Rsc.free (some p) >>= f) post := fun hm hf =>
    (Spec.free (List.perm_cons_erase hm)).bind fun _ F1 M1 ⟨h1, h2⟩ => by subst h1; subst h2; exact hf
  refine Spec.askIf (bad _) ?_
  refine (Spec.alloc (by omega)).bind fun a F' M' ⟨hF, h⟩ => ?_
  subst hF
  rcases h with ⟨rfl, rfl⟩ | ⟨hs, rfl, rfl⟩
  · exact bad _
  dsimp only
  refine (Spec.alloc (by simp; omega)).bind fun a F' M' ⟨hF, h⟩ => ?_
  subst hF
  rcases h with ⟨rfl, rfl⟩ | ⟨tmp, rfl, rfl⟩
  · exact free1 (by simp) (bad _)
  dsimp only
  refine (handleParams_spec (M := tmp :: hs :: M) hP n (enc := none) (L := []) (by simp; omega)).bind fun a F' M' ⟨hF, h⟩ => ?_
  subst hF
  have two : ∀ {M2 : List Nat}, tmp ∈ M2 → hs ∈ M2.erase tmp →
      Spec B F' M2 (do Rsc.free (some tmp); Rsc.free (some hs); return none) (fun a F1 M1 => F1 = F' ∧
      ∀ h, a = some h → h.dec = none ∧ h.enc.isSome = decide (0 < n) ∧ ∃ L, M1.Perm (httpBlks h ++ L ++ M) ∧ L.length = n - 1) :=
    fun h1 h2 => free1 h1 (free1 h2 (bad _))
  have er : ∀ {X : List Nat} {p q : Nat} {Y : List Nat}, X.Perm (p :: q :: Y) → p ∈ X ∧ q ∈ X.erase p := by
    intro X p q Y h
    refine ⟨h.symm.subset (by simp), ?_⟩
    have := h.erase p
    rw [List.erase_cons_head] at this
    exact this.symm.subset (by simp)
  rcases h with ⟨rfl, L', rfl⟩ | ⟨enc, L, rfl, rfl, h4, h5⟩
  · have := er (X := L' ++ tmp :: hs :: M) (p := tmp) (q := hs) (Y := L' ++ M)
      (List.perm_middle.trans ((List.perm_middle).cons _))
    exact two this.1 this.2
  dsimp only
  simp only [Option.toList_none, List.length_nil, Nat.zero_add, Option.isSome_none, Bool.false_or] at h4 h5
  have hlen : (enc.toList ++ L ++ tmp :: hs :: M).length = n + 2 + M.length := by
    simp only [List.length_append, List.length_cons]; omega
  have hp0 : (enc.toList ++ L ++ tmp :: hs :: M).Perm (tmp :: hs :: (enc.toList ++ L ++ M)) :=
    List.perm_middle.trans ((List.perm_middle).cons _)
  generalize (enc.toList ++ L ++ tmp :: hs :: M) = M0 at hlen hp0 ⊢
  refine (Spec.alloc (by omega)).bind fun a F' M' ⟨hF, h⟩ => ?_
  subst hF
  rcases h with ⟨rfl, rfl⟩ | ⟨url, rfl, rfl⟩
  · exact two (er hp0).1 (er hp0).2
  dsimp only
  refine (Spec.alloc (by simp; omega)).bind fun a F' M' ⟨hF, h⟩ => ?_
  subst hF
  rcases h with ⟨rfl, rfl⟩ | ⟨curl, rfl, rfl⟩
  · refine free1 (by simp) ?_
    rw [List.erase_cons_head]
    exact two (er hp0).1 (er hp0).2
  dsimp only
  have herr : Spec B F' (curl :: url :: M0) (httpErr curl url tmp hs) (fun a F1 M1 => F1 = F' ∧
      ∀ h, a = some h → h.dec = none ∧ h.enc.isSome = decide (0 < n) ∧ ∃ L, M1.Perm (httpBlks h ++ L ++ M) ∧ L.length = n - 1) := by
    unfold httpErr
    refine free1 (by simp) ?_
    rw [List.erase_cons_head]
    refine free1 (by simp) ?_
    rw [List.erase_cons_head]
    exact two (er hp0).1 (er hp0).2
  refine Spec.askIf herr ?_
  refine (Spec.alloc (by simp; omega)).bind fun a F' M' ⟨hF, h⟩ => ?_
  subst hF
  rcases h with ⟨rfl, rfl⟩ | ⟨z, rfl, rfl⟩
  · exact herr
  dsimp only
  refine Spec.pure ⟨rfl, fun h hh => ?_⟩
  cases hh
  refine ⟨rfl, h5, L, ?_, ?_⟩
  · simp only [httpBlks, Option.toList_none, List.append_nil, List.cons_append, List.nil_append]
    exact ((hp0.cons _).cons _).cons _
  · cases enc with
    | none => simp at h4 h5; omega
    | some c => simp at h4 h5; omega

theorem absorb_spec {B : Base} {F M : List Nat} {h : Http} {O : List Nat} (hM : M.Perm (h.dec.toList ++ O))
    (hQ : O.length + B.mem.length + 1 ≤ B.Q) :
    Spec B F M (absorb h) (fun r F1 M1 => F1 = F ∧ ∃ d, r.2 = { h with dec := d } ∧ M1.Perm (d.toList ++ O)) := by
  unfold absorb
  refine Spec.askIf ?_ (Spec.pure ⟨rfl, h.dec, rfl, hM⟩)
  cases hd : h.dec with
  | none =>
    rw [hd] at hM
    simp only [Option.toList_none, List.nil_append] at hM
    show Spec B F M (Rsc.alloc >>= _) _
    refine (Spec.alloc (by rw [hM.length_eq]; omega)).bind fun a F' M' ⟨hF, h'⟩ => ?_
    subst hF
    rcases h' with ⟨rfl, rfl⟩ | ⟨p, rfl, rfl⟩
    · exact Spec.pure ⟨rfl, none, by rw [← hd], by simpa using hM⟩
    · exact Spec.pure ⟨rfl, some p, rfl, hM.cons _⟩
  | some d =>
    rw [hd] at hM
    refine (Spec.realloc (M' := O) hM).bind fun a F1 M1 ⟨hF, h'⟩ => ?_
    subst hF
    rcases h' with ⟨rfl, rfl⟩ | ⟨q, rfl, rfl⟩
    · exact Spec.pure ⟨rfl, some d, by rw [← hd], by simpa using hM⟩
    · exact Spec.pure ⟨rfl, some q, rfl, .refl _⟩

theorem httpGet_spec {B : Base} {F M M' : List Nat} {h : Http} (hM : M.Perm (httpBlks h ++ M'))
    (hQ : M'.length + 6 + h.enc.toList.length + B.mem.length ≤ B.Q) :
    Spec B F M (httpGet h) (fun r F1 M1 => F1 = F ∧ ∃ d, r.2 = { h with dec := d } ∧ M1.Perm (httpBlks r.2 ++ M')) := by
  unfold httpGet
  have use1 : ∀ {p : Nat} {f : Unit → R (Got × Http)} {post : Got × Http → List Nat → List Nat → Prop}, p ∈ httpBlks h →
      Spec B F M (f ()) post → Spec B F M (Rsc.use (some p) >>= f) post := fun hm hf =>
    (Spec.use (hM.symm.subset (List.mem_append_left _ hm))).bind fun _ F1 M1 ⟨h1, h2⟩ => by subst h1; subst h2; exact hf
  refine use1 (by simp [httpBlks]) (use1 (by simp [httpBlks]) (use1 (by simp [httpBlks]) ?_))
  have hO : ∀ d : Option Nat, (httpBlks { h with dec := d } ++ M').Perm (d.toList ++ ([h.zstd, h.curl, h.url, h.base, h.blk] ++ (h.enc.toList ++ M'))) := by
    intro d
    unfold httpBlks
    cases d with
    | none => simp
    | some d => simp only [Option.toList_some, List.append_assoc, List.cons_append, List.nil_append]; exact List.perm_middle (l₁ := [h.zstd, h.curl, h.url, h.base, h.blk])
  refine (Spec.iterate (fun x F1 M1 => F1 = F ∧ ∃ d, x = { h with dec := d } ∧
    M1.Perm (d.toList ++ ([h.zstd, h.curl, h.url, h.base, h.blk] ++ (h.enc.toList ++ M')))) ⟨rfl, h.dec, rfl, hM.trans (hO h.dec)⟩ ?_).bind
    fun r F1 M1 ⟨h1, d, h2, h3⟩ => ?_
  · rintro y F1 M1 ⟨rfl, d, rfl, hm⟩
    refine (absorb_spec hm (by simp; omega)).mono fun r F2 M2 ⟨h1, d', h2, h3⟩ => ⟨h1, d', h2, h3⟩
  · subst h1
    refine shaOnce_spec.bind fun _ F2 M2 ⟨h1, h4⟩ => ?_
    subst h1; subst h4
    have fin : ∀ g : Got, Spec B F2 M2 (Pure.pure (g, r.2) : R (Got × Http)) (fun r F1 M1 => F1 = F2 ∧
        ∃ d, r.2 = { h with dec := d } ∧ M1.Perm (httpBlks r.2 ++ M')) := fun g =>
      Spec.pure ⟨rfl, d, h2, h3.trans (by rw [h2]; exact (hO d).symm)⟩
    exact Spec.askIf (fin _) (Spec.askIf (fin _) (fin _))

theorem httpFree_spec {B : Base} {F M M' : List Nat} {h : Http} (hM : M.Perm (httpBlks h ++ M')) :
    Spec B F M (httpFree h) (fun _ F1 M1 => F1 = F ∧ M1.Perm M') := by
  have step : ∀ {β : Type} {p : Option Nat} {M1 M2 : List Nat} {f : Unit → R β} {post : β → List Nat → List Nat → Prop}, M1.Perm (p.toList ++ M2) →
      Spec B F M2 (f ()) post → Spec B F M1 (Rsc.free p >>= f) post := fun hm hf =>
    (Spec.freeOpt hm).bind fun _ F1 M1 ⟨h1, h2⟩ => by subst h1; exact Spec.permM h2 hf
  unfold httpFree encryptClose
  have e : (httpBlks h ++ M').Perm (h.base :: h.url :: (h.dec.toList ++ (h.zstd :: h.curl :: (h.enc.toList ++ (h.blk :: M'))))) := by
    unfold httpBlks
    generalize h.dec.toList = D
    generalize h.enc.toList = E
    rw [List.perm_iff_count]
    intro a
    simp only [List.count_append, List.count_cons, List.count_nil]
    omega
  refine step (p := some h.base) (hM.trans e) (step (p := some h.url) (.refl _) (step (p := h.dec) (.refl _)
    (step (p := some h.zstd) (.refl _) (step (p := some h.curl) (.refl _) (step (p := h.enc) (.refl _) ?_)))))
  exact (Spec.free (.refl _)).mono fun _ _ _ ⟨h1, h2⟩ => ⟨h1, h2 ▸ .refl _⟩

end Csn.Rsc
