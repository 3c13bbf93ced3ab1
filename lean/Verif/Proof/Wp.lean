import Verif.Proof.Io
/-
Weakest preconditions for the execution monad and specifications of the basic operations.
-/
namespace Csn.Proof
open Csn Spec

/-- `m` started in `w` ends normally in `Q` or stops in `S`. -/
def wp {α : Type} (m : M α) (Q : α → World → Prop) (S : Stop → World → Prop) (w : World) : Prop :=
  match m w with
  | (.ok a, w') => Q a w'
  | (.stop s, w') => S s w'

theorem wp_pure {α : Type} {a : α} {Q : α → World → Prop} {S : Stop → World → Prop} {w : World}
    (h : Q a w) : wp (pure a) Q S w := h

theorem wp_mpure {α : Type} {a : α} {Q : α → World → Prop} {S : Stop → World → Prop} {w : World}
    (h : Q a w) : wp (M.pure a) Q S w := h

theorem wp_stop {α : Type} {s : Stop} {Q : α → World → Prop} {S : Stop → World → Prop} {w : World}
    (h : S s w) : wp (M.stop s) Q S w := h

theorem wp_bind {α β : Type} {m : M α} {f : α → M β} {Q : β → World → Prop} {S : Stop → World → Prop}
    {w : World} (h : wp m (fun a w' => wp (f a) Q S w') S w) : wp (m >>= f) Q S w := by
  unfold wp at h ⊢
  show (match M.bind m f w with | (.ok a, w') => Q a w' | (.stop s, w') => S s w')
  unfold M.bind
  cases hm : m w with
  | mk r w' =>
    rw [hm] at h
    cases r with
    | ok a => exact h
    | stop s => exact h

theorem wp_mono {α : Type} {m : M α} {Q Q' : α → World → Prop} {S S' : Stop → World → Prop} {w : World}
    (h : wp m Q S w) (hq : ∀ a w', Q a w' → Q' a w') (hs : ∀ s w', S s w' → S' s w') : wp m Q' S' w := by
  unfold wp at h ⊢
  split at h
  · next h' => exact hq _ _ h
  · next h' => exact hs _ _ h

theorem wp_and {α : Type} {m : M α} {Q Q' : α → World → Prop} {S S' : Stop → World → Prop} {w : World}
    (h : wp m Q S w) (h' : wp m Q' S' w) : wp m (fun a w' => Q a w' ∧ Q' a w') (fun s w' => S s w' ∧ S' s w') w := by
  unfold wp at h h' ⊢
  split at h
  · next e => rw [e] at h'; exact ⟨h, h'⟩
  · next e => rw [e] at h'; exact ⟨h, h'⟩

/-- Read a `wp` fact off a concrete result. -/
theorem wp_ok {α : Type} {m : M α} {Q : α → World → Prop} {S : Stop → World → Prop} {w w' : World} {a : α}
    (h : wp m Q S w) (e : m w = (.ok a, w')) : Q a w' := by
  unfold wp at h; rw [e] at h; exact h

theorem wp_stopped {α : Type} {m : M α} {Q : α → World → Prop} {S : Stop → World → Prop} {w w' : World} {s : Stop}
    (h : wp m Q S w) (e : m w = (.stop s, w')) : S s w' := by
  unfold wp at h; rw [e] at h; exact h

/-- The schedule `r` is what remains of `a` after at most `n` successful calls. -/
def Spent (a r : List Sys) (n : Nat) : Prop := r <:+ a ∧ okCalls a ≤ okCalls r + n

theorem Spent.refl (a : List Sys) : Spent a a 0 := ⟨List.suffix_refl _, Nat.le_refl _⟩

theorem Spent.trans {a b c : List Sys} {n m : Nat} (h : Spent a b n) (h' : Spent b c m) :
    Spent a c (n + m) := ⟨h'.1.trans h.1, by have := h.2; have := h'.2; omega⟩

theorem Spent.mono {a b : List Sys} {n m : Nat} (h : Spent a b n) (hn : n ≤ m) : Spent a b m :=
  ⟨h.1, by have := h.2; omega⟩

/-- No system call fails or reports an early end of file. -/
def Clean (a : List Sys) : Prop := Sys.err ∉ a ∧ Sys.zero ∉ a

theorem Clean.suffix {a b : List Sys} (h : Clean a) (hs : b <:+ a) : Clean b :=
  ⟨fun x => h.1 (hs.subset x), fun x => h.2 (hs.subset x)⟩

/-- No read or write returns 0 except at the end of a file. -/
def NoEof (a : List Sys) : Prop := Sys.zero ∉ a

theorem NoEof.suffix {a b : List Sys} (h : NoEof a) (hs : b <:+ a) : NoEof b := fun x => h (hs.subset x)

theorem Clean.noEof {a : List Sys} (h : Clean a) : NoEof a := h.2

theorem NoEof.err {a : List Sys} (h : NoEof a) (hc : ¬ Clean a) : Sys.err ∈ a := by
  apply Classical.byContradiction
  intro he
  exact hc ⟨he, h⟩

theorem Clean.spent {a b : List Sys} {n : Nat} (h : Clean a) (hs : Spent a b n) : Clean b :=
  h.suffix hs.1

theorem wp_sysOk {Q : Bool → World → Prop} {S : Stop → World → Prop} {w : World}
    (hok : ∀ r, Spent w.sys r 1 → Q true { w with sys := r })
    (hfail : ∀ r, Spent w.sys r 1 → ¬ Clean w.sys → Q false { w with sys := r })
    (hkill : okCalls w.sys = 0 → S .killed { w with sys := [] }) : wp M.sysOk Q S w := by
  unfold M.sysOk
  apply wp_bind
  cases hs : w.sys with
  | nil =>
    have h : { w with sys := [] } = w := by cases w; simp at hs; simp [hs]
    rw [h] at hkill
    simp only [wp, M.sysNext, hs]
    exact hkill (by rw [hs]; rfl)
  | cons y ys =>
    have hsp : Spent w.sys ys 1 := ⟨by rw [hs]; exact List.suffix_cons _ _, by rw [hs]; exact okCalls_cons_le _ _⟩
    simp only [wp, M.sysNext, hs]
    cases y with
    | err => exact hfail ys hsp (fun h => h.1 (by rw [hs]; simp))
    | eintr => exact hok ys hsp
    | zero => exact hok ys hsp
    | some k => exact hok ys hsp

theorem wp_get {Q : World → World → Prop} {S : Stop → World → Prop} {w : World} (h : Q w w) :
    wp (fun w => (.ok w, w) : M World) Q S w := h

theorem wp_emit {e : Event} {Q : Unit → World → Prop} {S : Stop → World → Prop} {w : World}
    (h : Q () { w with log := w.log ++ [e] }) : wp (M.emit e) Q S w := h

theorem wp_alloc {n : Nat} {Q : Bool → World → Prop} {S : Stop → World → Prop} {w : World}
    (h : Q (allocPure n w.mem).1 { w with mem := (allocPure n w.mem).2 }) : wp (M.alloc n) Q S w := h

theorem wp_preadall {ino off len : Nat} {Q : Bool × Bytes → World → Prop} {S : Stop → World → Prop}
    {w : World}
    (hok : ∀ r, Spent w.sys r len → (slice (w.data ino) off len).length = len →
      (0 < len → off < 2 ^ 63) → Q (true, slice (w.data ino) off len) { w with sys := r })
    (hfail : ∀ r n, Spent w.sys r (len + 1) → n < len →
      (¬ Clean w.sys ∨ (w.data ino).length < off + len ∨ 2 ^ 63 ≤ off + len) →
      Q (false, slice (w.data ino) off n) { w with sys := r })
    (hkill : okCalls w.sys < len → S .killed { w with sys := [] }) :
    wp (preadall ino off len) Q S w := by
  obtain ⟨res, got, r, h1, h2, h3, h4, h5, h6, h7⟩ := readLoop_spec (w.data ino) off len w.sys [] (by simp)
  have hc := readLoop_cost (w.data ino) off len w.sys []
  rw [h1] at hc
  simp only [List.length_nil, Nat.add_zero, Nat.sub_zero, List.nil_append] at h3 hc h6
  unfold wp preadall
  rw [h1]
  rcases h7 with ⟨a, b⟩ | ⟨a, b, c⟩ | ⟨a, b, c⟩
  · subst a
    simp at hc
    rw [b] at h3
    simp only
    rw [h3]
    refine hok r ⟨h2, by omega⟩ (by rw [← h3]; exact b) (fun h => h6 (by omega))
  · subst a
    simp at hc
    simp only
    have hb := b
    rw [h3]
    refine hfail r got.length ⟨h2, by omega⟩ hb ?_
    rcases c with c | c | c | c
    · exact Or.inl (fun h => h.1 c)
    · exact Or.inl (fun h => h.2 c)
    · exact Or.inr (Or.inl c)
    · exact Or.inr (Or.inr c)
  · subst a c
    simp [okCalls] at hc
    simp only
    exact hkill (by unfold okCalls; omega)

theorem wp_readall {ino off len : Nat} {Q : Bool × Bytes → World → Prop} {S : Stop → World → Prop}
    {w : World}
    (hok : ∀ r, Spent w.sys r len → (slice (w.data ino) off len).length = len →
      (0 < len → off < 2 ^ 63) → Q (true, slice (w.data ino) off len) { w with sys := r })
    (hfail : ∀ r n, Spent w.sys r (len + 1) → n < len →
      (¬ Clean w.sys ∨ (w.data ino).length < off + len ∨ 2 ^ 63 ≤ off + len) →
      Q (false, slice (w.data ino) off n) { w with sys := r })
    (hkill : okCalls w.sys < len → S .killed { w with sys := [] }) :
    wp (readall ino off len) Q S w := wp_preadall hok hfail hkill

/-- The world after `k` bytes of `d` have been written at `off`. -/
def wrote (w : World) (ino off : Nat) (d : Bytes) (evs : List (Nat × Bytes)) (r : List Sys) : World :=
  { w with
    data := fun i => if i = ino then writeAt (w.data ino) off d else w.data i
    sys := r
    log := w.log ++ evs.map (fun e => Event.write ino e.1 e.2) }

/-- The write events `evs` are consecutive pieces of `d` placed at `off`. -/
def PiecesOf (off : Nat) (d : Bytes) (evs : List (Nat × Bytes)) : Prop :=
  (evs.map (·.2)).flatten = d ∧ Contig off evs (off + d.length) ∧
    ∀ e ∈ evs, ∃ j, e.1 = off + j ∧ e.2 = slice d j e.2.length ∧ j + e.2.length ≤ d.length

theorem wp_pwriteall {ino off : Nat} {d : Bytes} {Q : Bool → World → Prop} {S : Stop → World → Prop}
    {w : World}
    (hok : ∀ r evs, Spent w.sys r d.length → PiecesOf off d evs →
      (w.kind ino = .blk → 0 < d.length → off + d.length ≤ (w.data ino).length) →
      (0 < d.length → off < 2 ^ 63) → Q true (wrote w ino off d evs r))
    (hfail : ∀ r evs k, Spent w.sys r (d.length + 1) → k < d.length → PiecesOf off (d.take k) evs →
      (w.kind ino = .blk → 0 < k → off + k ≤ (w.data ino).length) → (0 < k → off < 2 ^ 63) →
      (¬ Clean w.sys ∨ (w.kind ino = .blk ∧ (w.data ino).length < off + d.length) ∨ 2 ^ 63 ≤ off + d.length) →
      Q false (wrote w ino off (d.take k) evs r))
    (hstop : ∀ r evs k s, k < d.length → PiecesOf off (d.take k) evs →
      (w.kind ino = .blk → 0 < k → off + k ≤ (w.data ino).length) → (0 < k → off < 2 ^ 63) →
      r <:+ w.sys →
      (s = .abort ∧ ¬ Clean w.sys ∨ s = .killed ∧ okCalls w.sys < d.length ∧ r = []) →
      S s (wrote w ino off (d.take k) evs r)) :
    wp (pwriteall ino d off) Q S w := by
  obtain ⟨res, f', new, r, k, h1, h2, h3, h4, h5, h6, h7, h8, h9⟩ :=
    writeLoop_spec (w.kind ino = .blk) off d w.sys 0 (w.data ino) [] (by simp)
  have hc := writeLoop_cost _ _ _ _ _ _ _ _ _ _ _ (by simp) h1
  simp only [List.nil_append, Nat.add_zero, Nat.zero_add, List.drop_zero, decide_eq_true_eq] at h1 h3 h4 h5 h6 h7 h8 h9 hc
  have hdl : (d.take k).length = k := by simp; omega
  have hp : PiecesOf off (d.take k) new := by
    obtain ⟨new', b', g1, g2⟩ := writeLoop_contig (w.kind ino = .blk) off d w.sys 0 (w.data ino) []
    rw [h1] at g1
    simp only [List.nil_append] at g1
    subst g1
    have g3 := g2.end_eq
    rw [h5] at g3
    simp only [Nat.add_zero] at g2 g3
    refine ⟨h5, g3 ▸ g2, ?_⟩
    intro e he
    obtain ⟨j, e1, e2, e3, e4⟩ := h6 e he
    refine ⟨j, e1, ?_, by omega⟩
    conv => lhs; rw [e2]
    unfold slice
    rw [List.drop_take, List.take_take]
    congr 1; omega
  have hw : ({ w with
      data := fun i => if i = ino then f' else w.data i
      sys := r
      log := w.log ++ new.map (fun e => Event.write ino e.1 e.2) } : World) =
      wrote w ino off (d.take k) new r := by
    rw [h4]; rfl
  unfold wp pwriteall
  rw [h1]
  simp only
  rcases h9 with ⟨a, b⟩ | ⟨a, b, c⟩ | ⟨a, b, c⟩ | ⟨a, b, c⟩
  · subst a
    simp only
    rw [hw]
    rw [b, List.take_length] at hp
    rw [b, List.take_length]
    rw [b] at h7 h8
    exact hok r new ⟨h2, hc.2.1 (by simp)⟩ hp h7 h8
  · subst a
    simp only
    rw [hw]
    refine hfail r new k ⟨h2, by omega⟩ b hp h7 h8 ?_
    rcases c with c | c | c
    · exact Or.inl (fun h => h.1 c)
    · exact Or.inr (Or.inl c)
    · exact Or.inr (Or.inr c)
  · subst a
    simp only
    rw [hw]
    exact hstop r new k _ b hp h7 h8 h2 (Or.inl ⟨rfl, fun h => h.2 c⟩)
  · subst a
    subst c
    simp only
    rw [hw]
    refine hstop [] new k _ b hp h7 h8 h2 (Or.inr ⟨rfl, hc.2.2 rfl, rfl⟩)

theorem wp_fdSize {ino : Nat} {Q : Option Nat → World → Prop} {S : Stop → World → Prop} {w : World}
    (hok : ∀ r, Spent w.sys r 1 → w.kind ino ≠ .other → Q (some (w.data ino).length) { w with sys := r })
    (hfail : ∀ r, Spent w.sys r 1 → (¬ Clean w.sys ∨ w.kind ino = .other) → Q none { w with sys := r })
    (hkill : okCalls w.sys = 0 → S .killed { w with sys := [] }) : wp (fdSize ino) Q S w := by
  unfold fdSize
  refine wp_bind (wp_sysOk (fun r hr => ?_) (fun r hr hc => ?_) hkill)
  · refine wp_bind (wp_get ?_)
    simp only
    cases hk : w.kind ino with
    | reg => exact hok r hr (by simp [hk])
    | blk => exact hok r hr (by simp [hk])
    | other => exact hfail r hr (Or.inr hk)
  · exact hfail r hr (Or.inl hc)

theorem wp_lseek {pos : Nat} {Q : Bool → World → Prop} {S : Stop → World → Prop} {w : World}
    (hok : ∀ r, Spent w.sys r 1 → pos < 2 ^ 63 → Q true { w with sys := r })
    (hfail : ∀ r, Spent w.sys r 1 → (¬ Clean w.sys ∨ 2 ^ 63 ≤ pos) → Q false { w with sys := r })
    (hkill : okCalls w.sys = 0 → S .killed { w with sys := [] }) : wp (lseek pos) Q S w := by
  unfold lseek
  refine wp_bind (wp_sysOk (fun r hr => ?_) (fun r hr hc => ?_) hkill)
  · by_cases h : pos < 2 ^ 63
    · have := hok r hr h
      simp only [wp, pure, M.pure, Bool.not_true, Bool.false_eq_true, if_false, h, decide_true]
      exact this
    · have := hfail r hr (Or.inr (by omega))
      simp only [wp, pure, M.pure, Bool.not_true, Bool.false_eq_true, if_false, h, decide_false]
      exact this
  · exact hfail r hr (Or.inl hc)

theorem wp_openPath {path : Bytes} {Q : Option Nat → World → Prop} {S : Stop → World → Prop} {w : World}
    (hok : ∀ r, Spent w.sys r 1 → Q (w.dir path) { w with sys := r })
    (hfail : ∀ r, Spent w.sys r 1 → ¬ Clean w.sys → Q none { w with sys := r })
    (hkill : okCalls w.sys = 0 → S .killed { w with sys := [] }) : wp (openPath path) Q S w := by
  unfold openPath
  refine wp_bind (wp_sysOk (fun r hr => ?_) (fun r hr hc => ?_) hkill)
  · exact hok r hr
  · exact hfail r hr hc

end Csn.Proof
