import Verif.Model.Utils
import Verif.Spec.Files
/-
The exact-length I/O helpers under every schedule.
-/
namespace Csn.Proof
open Csn Spec

/-- Number of successful system calls in a schedule. -/
def okCalls (sys : List Sys) : Nat := (sys.filter (fun s => match s with | .some _ => true | _ => false)).length

theorem okCalls_cons_some (k : Nat) (ys : List Sys) : okCalls (.some k :: ys) = okCalls ys + 1 := by
  simp [okCalls]

theorem okCalls_cons_other (y : Sys) (ys : List Sys) (h : ∀ k, y ≠ .some k) :
    okCalls (y :: ys) = okCalls ys := by
  cases y <;> simp [okCalls] at *

theorem okCalls_cons_le (y : Sys) (ys : List Sys) : okCalls (y :: ys) ≤ okCalls ys + 1 := by
  cases y <;> simp [okCalls]

theorem writeAt_nil (f : Bytes) (o : Nat) : writeAt f o [] = f := rfl

theorem writeAt_ne (f : Bytes) (o : Nat) {d : Bytes} (h : d ≠ []) :
    writeAt f o d = (f ++ List.replicate (o - f.length) 0).take o ++ d ++ f.drop (o + d.length) := by
  unfold writeAt
  rw [if_neg (by simpa [List.isEmpty_iff] using h)]

theorem writeAt_patched (f : Bytes) (o : Nat) (d : Bytes) : Patched f o d (writeAt f o d) := by
  intro i
  by_cases hd : d = []
  · subst hd
    rw [writeAt_nil]
    rw [if_neg (by simp)]
    by_cases h : i < f.length
    · simp [h]
    · simp [h]
  · rw [writeAt_ne _ _ hd]
    have hl : ((f ++ List.replicate (o - f.length) 0).take o).length = o := by
      simp; omega
    have hdl : 0 < d.length := List.length_pos_iff.2 hd
    by_cases h1 : i < o
    · rw [if_neg (by omega), List.append_assoc, List.getElem?_append_left (by omega),
        List.getElem?_take_of_lt h1]
      by_cases h2 : i < f.length
      · rw [if_pos h2, List.getElem?_append_left h2]
      · rw [if_neg h2, if_pos ⟨h1, hd⟩, List.getElem?_append_right (by omega),
          List.getElem?_replicate]
        rw [if_pos (by omega)]
    · by_cases h2 : i < o + d.length
      · rw [if_pos ⟨by omega, h2⟩, List.append_assoc, List.getElem?_append_right (by omega), hl,
          List.getElem?_append_left (by omega)]
      · rw [if_neg (by omega), List.append_assoc, List.getElem?_append_right (by omega), hl,
          List.getElem?_append_right (by omega), List.getElem?_drop]
        rw [show o + d.length + (i - o - d.length) = i by omega]
        by_cases h3 : i < f.length
        · rw [if_pos h3]
        · rw [if_neg h3, if_neg (by omega)]
          exact List.getElem?_eq_none (by omega)

theorem patched_unique {f : Bytes} {o : Nat} {d g h : Bytes} (a : Patched f o d g)
    (b : Patched f o d h) : g = h := by
  apply List.ext_getElem?
  intro i
  rw [a i, b i]

theorem writeAt_append (f : Bytes) (o : Nat) (a b : Bytes) :
    writeAt (writeAt f o a) (o + a.length) b = writeAt f o (a ++ b) := by
  apply patched_unique (f := f) (o := o) (d := a ++ b) _ (writeAt_patched f o (a ++ b))
  intro i
  rw [writeAt_patched (writeAt f o a) (o + a.length) b i]
  have hlen : (writeAt f o a).length = if a = [] then f.length else max f.length (o + a.length) := by
    by_cases h : a = []
    · subst h; simp [writeAt_nil]
    · rw [writeAt_ne _ _ h, if_neg h]
      simp; omega
  simp only [List.length_append]
  by_cases ha : a = []
  · subst ha
    simp only [writeAt_nil, List.nil_append, List.length_nil, Nat.add_zero, Nat.zero_add]
    rfl
  · rw [if_neg ha] at hlen
    have hal : 0 < a.length := List.length_pos_iff.2 ha
    by_cases h1 : o + a.length ≤ i ∧ i < o + a.length + b.length
    · rw [if_pos h1, if_pos (by omega), List.getElem?_append_right (by omega)]
      congr 1; omega
    · rw [if_neg h1]
      by_cases h2 : i < (writeAt f o a).length
      · rw [if_pos h2, writeAt_patched f o a i]
        by_cases h3 : o ≤ i ∧ i < o + a.length
        · rw [if_pos h3, if_pos (by omega), List.getElem?_append_left (by omega)]
        · rw [if_neg h3]
          by_cases h4 : i < f.length
          · rw [if_pos h4, if_neg (by omega), if_pos h4]
          · have h5 : i < o := by omega
            rw [if_neg h4, if_pos ⟨h5, ha⟩, if_neg (by omega), if_neg h4, if_pos ⟨h5, by simp [ha]⟩]
      · rw [if_neg h2, if_neg (by omega), if_neg (by omega), if_neg (by omega), if_neg (by omega)]

theorem writeAt_length (f : Bytes) (o : Nat) (d : Bytes) (h : d ≠ []) :
    (writeAt f o d).length = max f.length (o + d.length) := by
  rw [writeAt_ne _ _ h]; simp; omega

theorem writeAt_length_ge (f : Bytes) (o : Nat) (d : Bytes) : f.length ≤ (writeAt f o d).length := by
  by_cases h : d = []
  · subst h; exact Nat.le_refl _
  · rw [writeAt_length _ _ _ h]; omega

theorem slice_getElem? (f : Bytes) (o n i : Nat) :
    (slice f o n)[i]? = if i < n then f[o + i]? else none := by
  unfold slice
  by_cases h : i < n
  · rw [if_pos h, List.getElem?_take_of_lt h, List.getElem?_drop]
  · rw [if_neg h, List.getElem?_take_eq_none (by omega)]

/-- The written region reads back. -/
theorem slice_writeAt (f : Bytes) (o : Nat) (d : Bytes) : slice (writeAt f o d) o d.length = d := by
  apply List.ext_getElem?
  intro i
  rw [slice_getElem?]
  by_cases h : i < d.length
  · rw [if_pos h, writeAt_patched f o d (o + i), if_pos (by omega)]
    congr 1; omega
  · rw [if_neg h, List.getElem?_eq_none (by omega)]

/-- Existing regions that do not overlap the written one are unchanged. -/
theorem slice_writeAt_disjoint (f : Bytes) (o : Nat) (d : Bytes) (a n : Nat)
    (hin : a + n ≤ f.length) (hdis : a + n ≤ o ∨ o + d.length ≤ a) :
    slice (writeAt f o d) a n = slice f a n := by
  apply List.ext_getElem?
  intro i
  rw [slice_getElem?, slice_getElem?]
  by_cases h : i < n
  · rw [if_pos h, if_pos h, writeAt_patched f o d (a + i), if_neg (by omega), if_pos (by omega)]
  · rw [if_neg h, if_neg h]

/-- utils.c:55-104: outcome of a read loop that already has `got`. -/
theorem readLoop_spec (f : Bytes) (off len : Nat) : ∀ (sys : List Sys) (got : Bytes), got.length ≤ len →
    ∃ res got' r, readLoop f off len got sys = (res, got', r) ∧ r <:+ sys ∧
      got' = got ++ slice f (off + got.length) (got'.length - got.length) ∧
      got.length ≤ got'.length ∧ got'.length ≤ len ∧
      (got.length < got'.length → off + got.length < 2 ^ 63) ∧
      (res = .ok ∧ got'.length = len ∨
       res = .fail ∧ got'.length < len ∧
         (Sys.err ∈ sys ∨ Sys.zero ∈ sys ∨ f.length < off + len ∨ 2 ^ 63 ≤ off + len) ∨
       res = .stop .killed ∧ got'.length < len ∧ r = []) := by
  intro sys
  induction sys with
  | nil =>
    intro got hg
    by_cases h : got.length < len
    · exact ⟨_, _, _, by simp only [readLoop]; rw [if_pos h], List.suffix_refl _, by simp [slice],
        Nat.le_refl _, hg, by omega, Or.inr (Or.inr ⟨rfl, h, rfl⟩)⟩
    · exact ⟨_, _, _, by simp only [readLoop]; rw [if_neg h], List.suffix_refl _, by simp [slice],
        Nat.le_refl _, hg, by omega, Or.inl ⟨rfl, by omega⟩⟩
  | cons y ys ih =>
    intro got hg
    have hsuf : ys <:+ y :: ys := List.suffix_cons _ _
    by_cases h : got.length < len
    · simp only [readLoop, if_pos h]
      cases y with
      | eintr =>
        obtain ⟨res, got', r, h1, h2, h3, h4, h5, h6, h7⟩ := ih got hg
        refine ⟨res, got', r, h1, h2.trans hsuf, h3, h4, h5, h6, ?_⟩
        rcases h7 with h7 | ⟨a, b, h7⟩ | h7
        · exact Or.inl h7
        · refine Or.inr (Or.inl ⟨a, b, ?_⟩)
          rcases h7 with h7 | h7 | h7
          · exact Or.inl (List.mem_cons_of_mem _ h7)
          · exact Or.inr (Or.inl (List.mem_cons_of_mem _ h7))
          · exact Or.inr (Or.inr h7)
        · exact Or.inr (Or.inr h7)
      | err =>
        exact ⟨_, _, _, rfl, hsuf, by simp [slice], Nat.le_refl _, hg, by omega,
          Or.inr (Or.inl ⟨rfl, h, Or.inl (by simp)⟩)⟩
      | zero =>
        exact ⟨_, _, _, rfl, hsuf, by simp [slice], Nat.le_refl _, hg, by omega,
          Or.inr (Or.inl ⟨rfl, h, Or.inr (Or.inl (by simp))⟩)⟩
      | some k =>
        simp only
        by_cases ho : off + len ≥ 2 ^ 63
        · rw [if_pos ho]
          exact ⟨_, _, _, rfl, hsuf, by simp [slice], Nat.le_refl _, hg, by omega,
            Or.inr (Or.inl ⟨rfl, h, Or.inr (Or.inr (Or.inr (by omega)))⟩)⟩
        · rw [if_neg ho]
          generalize hd : (f.drop (off + got.length)).take (min (k + 1) (len - got.length)) = d
          have hdl : d.length = min (min (k + 1) (len - got.length)) (f.length - (off + got.length)) := by
            rw [← hd]; simp
          by_cases he : d.isEmpty = true
          · rw [if_pos he]
            have : d.length = 0 := by rw [List.isEmpty_iff.1 he]; rfl
            exact ⟨_, _, _, rfl, hsuf, by simp [slice], Nat.le_refl _, hg, by omega,
              Or.inr (Or.inl ⟨rfl, h, Or.inr (Or.inr (Or.inl (by omega)))⟩)⟩
          · rw [if_neg he]
            have hdn : d.length ≠ 0 := by
              intro h0; exact he (List.isEmpty_iff.2 (List.length_eq_zero_iff.1 h0))
            obtain ⟨res, got', r, h1, h2, h3, h4, h5, h6, h7⟩ := ih (got ++ d) (by simp; omega)
            simp only [List.length_append] at h3 h4 h6
            refine ⟨res, got', r, h1, h2.trans hsuf, ?_, by omega, h5, fun _ => by omega, ?_⟩
            · have hds : d = slice f (off + got.length) d.length := by
                unfold slice
                conv => lhs; rw [← hd]
                rw [List.take_eq_take_iff]
                simp only [List.length_drop]
                omega
              have hs2 : slice f (off + got.length) (got'.length - got.length) =
                  d ++ slice f (off + (got.length + d.length)) (got'.length - (got.length + d.length)) := by
                conv => rhs; arg 1; rw [hds]
                unfold slice
                rw [show got'.length - got.length = d.length + (got'.length - (got.length + d.length)) by omega,
                  List.take_add, List.drop_drop]
                rw [show off + (got.length + d.length) = off + got.length + d.length by omega]
              rw [hs2, ← List.append_assoc]
              exact h3
            · rcases h7 with h7 | ⟨a, b, h7⟩ | h7
              · exact Or.inl h7
              · refine Or.inr (Or.inl ⟨a, b, ?_⟩)
                rcases h7 with h7 | h7 | h7
                · exact Or.inl (List.mem_cons_of_mem _ h7)
                · exact Or.inr (Or.inl (List.mem_cons_of_mem _ h7))
                · exact Or.inr (Or.inr h7)
              · exact Or.inr (Or.inr h7)
    · simp only [readLoop, if_neg h]
      exact ⟨_, _, _, rfl, List.suffix_refl _, by simp [slice], Nat.le_refl _, hg, by omega,
        Or.inl ⟨rfl, by omega⟩⟩

/-- utils.c:106-153: outcome of a write loop that has already written `done` bytes: `k` more
bytes have been written. -/
theorem writeLoop_spec (blk : Bool) (off : Nat) (d : Bytes) : ∀ (sys : List Sys) (done : Nat) (f : Bytes)
    (evs : List (Nat × Bytes)), done ≤ d.length →
    ∃ res f' new r k, writeLoop blk off d done f evs sys = (res, f', evs ++ new, r) ∧ r <:+ sys ∧
      done + k ≤ d.length ∧
      f' = writeAt f (off + done) ((d.drop done).take k) ∧
      (new.map (·.2)).flatten = (d.drop done).take k ∧
      (∀ e ∈ new, ∃ j, e.1 = off + j ∧ e.2 = slice d j e.2.length ∧ done ≤ j ∧ j + e.2.length ≤ done + k) ∧
      (blk = true → 0 < k → off + done + k ≤ f.length) ∧
      (0 < k → off + done < 2 ^ 63) ∧
      (res = .ok ∧ done + k = d.length ∨
       res = .fail ∧ done + k < d.length ∧
         (Sys.err ∈ sys ∨ (blk = true ∧ f.length < off + d.length) ∨ 2 ^ 63 ≤ off + d.length) ∨
       res = .stop .abort ∧ done + k < d.length ∧ Sys.zero ∈ sys ∨
       res = .stop .killed ∧ done + k < d.length ∧ r = []) := by
  intro sys
  induction sys with
  | nil =>
    intro done f evs hd
    by_cases h : done < d.length
    · exact ⟨.stop .killed, f, [], [], 0, by simp only [writeLoop, List.append_nil]; rw [if_pos h],
        List.suffix_refl _, by omega, by simp [writeAt_nil], by simp, by simp, by omega, by omega,
        Or.inr (Or.inr (Or.inr ⟨rfl, by omega, rfl⟩))⟩
    · exact ⟨.ok, f, [], [], 0, by simp only [writeLoop, List.append_nil]; rw [if_neg h],
        List.suffix_refl _, by omega, by simp [writeAt_nil], by simp, by simp, by omega, by omega,
        Or.inl ⟨rfl, by omega⟩⟩
  | cons y ys ih =>
    intro done f evs hd
    have hsuf : ys <:+ y :: ys := List.suffix_cons _ _
    by_cases h : done < d.length
    · simp only [writeLoop, if_pos h]
      cases y with
      | eintr =>
        obtain ⟨res, f', new, r, k, h1, h2, h3, h4, h5, h6, h7, h8, h9⟩ := ih done f evs hd
        refine ⟨res, f', new, r, k, h1, h2.trans hsuf, h3, h4, h5, h6, h7, h8, ?_⟩
        rcases h9 with h9 | ⟨a, b, h9⟩ | ⟨a, b, h9⟩ | h9
        · exact Or.inl h9
        · refine Or.inr (Or.inl ⟨a, b, ?_⟩)
          rcases h9 with h9 | h9
          · exact Or.inl (List.mem_cons_of_mem _ h9)
          · exact Or.inr h9
        · exact Or.inr (Or.inr (Or.inl ⟨a, b, List.mem_cons_of_mem _ h9⟩))
        · exact Or.inr (Or.inr (Or.inr h9))
      | err =>
        exact ⟨.fail, f, [], ys, 0, by simp, hsuf, by omega, by simp [writeAt_nil], by simp, by simp,
          by omega, by omega, Or.inr (Or.inl ⟨rfl, by omega, Or.inl (by simp)⟩)⟩
      | zero =>
        exact ⟨.stop .abort, f, [], ys, 0, by simp, hsuf, by omega, by simp [writeAt_nil], by simp, by simp,
          by omega, by omega, Or.inr (Or.inr (Or.inl ⟨rfl, by omega, by simp⟩))⟩
      | some k =>
        simp only
        by_cases ho : off + d.length ≥ 2 ^ 63
        · rw [if_pos ho]
          exact ⟨.fail, f, [], ys, 0, by simp, hsuf, by omega, by simp [writeAt_nil], by simp, by simp,
            by omega, by omega, Or.inr (Or.inl ⟨rfl, by omega, Or.inr (Or.inr (by omega))⟩)⟩
        · rw [if_neg ho]
          generalize hn : min (min (k + 1) (d.length - done))
            (if blk = true then f.length - (off + done) else d.length) = n
          by_cases hn0 : n = 0
          · rw [if_pos hn0]
            refine ⟨.fail, f, [], ys, 0, by simp, hsuf, by omega, by simp [writeAt_nil], by simp, by simp,
              by omega, by omega, Or.inr (Or.inl ⟨rfl, by omega, Or.inr (Or.inl ?_)⟩)⟩
            split at hn
            · next hb => exact ⟨hb, by omega⟩
            · omega
          · rw [if_neg hn0]
            have hnle : done + n ≤ d.length := by omega
            have hpl : ((d.drop done).take n).length = n := by simp; omega
            obtain ⟨res, f', new, r, k', h1, h2, h3, h4, h5, h6, h7, h8, h9⟩ :=
              ih (done + n) (writeAt f (off + done) ((d.drop done).take n))
                (evs ++ [(off + done, (d.drop done).take n)]) hnle
            have hcat : (d.drop done).take (n + k') = (d.drop done).take n ++ (d.drop (done + n)).take k' := by
              rw [List.take_add, List.drop_drop]
            have hpne : (d.drop done).take n ≠ [] := by
              intro h0; rw [h0] at hpl; simp at hpl; omega
            refine ⟨res, f', (off + done, (d.drop done).take n) :: new, r, n + k', ?_, h2.trans hsuf,
              by omega, ?_, ?_, ?_, ?_, fun _ => by omega, ?_⟩
            · rw [h1]; simp
            · rw [h4, hcat, ← writeAt_append, hpl]
              congr 1
              omega
            · simp only [List.map_cons, List.flatten_cons, h5, hcat]
            · intro e he
              rcases List.mem_cons.1 he with he | he
              · subst he
                refine ⟨done, rfl, ?_, Nat.le_refl _, by simp only [hpl]; omega⟩
                simp only [slice, hpl]
              · obtain ⟨j, e1, e2, e3, e4⟩ := h6 e he
                exact ⟨j, e1, e2, by omega, by omega⟩
            · intro hb _
              by_cases hk' : 0 < k'
              · have := h7 hb hk'
                rw [writeAt_length _ _ _ hpne, hpl] at this
                rw [if_pos hb] at hn
                omega
              · rw [if_pos hb] at hn
                omega
            · rcases h9 with h9 | ⟨a, b, h9⟩ | ⟨a, b, h9⟩ | ⟨a, b, h9⟩
              · exact Or.inl ⟨h9.1, by omega⟩
              · refine Or.inr (Or.inl ⟨a, by omega, ?_⟩)
                rcases h9 with h9 | ⟨hb, h9⟩ | h9
                · exact Or.inl (List.mem_cons_of_mem _ h9)
                · refine Or.inr (Or.inl ⟨hb, ?_⟩)
                  have := writeAt_length_ge f (off + done) ((d.drop done).take n)
                  omega
                · exact Or.inr (Or.inr h9)
              · exact Or.inr (Or.inr (Or.inl ⟨a, by omega, List.mem_cons_of_mem _ h9⟩))
              · exact Or.inr (Or.inr (Or.inr ⟨a, by omega, h9⟩))
    · simp only [writeLoop, if_neg h]
      exact ⟨.ok, f, [], y :: ys, 0, by simp, List.suffix_refl _, by omega, by simp [writeAt_nil], by simp,
        by simp, by omega, by omega, Or.inl ⟨rfl, by omega⟩⟩

/-- Every successful call of a read loop delivers at least one byte, except one that fails. -/
theorem readLoop_cost (f : Bytes) (off len : Nat) : ∀ (sys : List Sys) (got : Bytes),
    okCalls sys + got.length ≤ okCalls (readLoop f off len got sys).2.2 +
      (readLoop f off len got sys).2.1.length + (if (readLoop f off len got sys).1 = .fail then 1 else 0) := by
  intro sys
  induction sys with
  | nil => intro got; simp only [readLoop]; split <;> simp
  | cons y ys ih =>
    intro got
    simp only [readLoop]
    by_cases h : got.length < len
    · rw [if_pos h]
      cases y with
      | eintr =>
        rw [okCalls_cons_other _ _ (by simp)]
        exact ih got
      | err => simp only [okCalls_cons_other Sys.err ys (by simp)]; simp
      | zero => simp only [okCalls_cons_other Sys.zero ys (by simp)]; simp
      | some k =>
        simp only [okCalls_cons_some]
        split
        · simp; omega
        · split
          · simp; omega
          · next he =>
            have hdn : 0 < ((f.drop (off + got.length)).take (min (k + 1) (len - got.length))).length := by
              refine Nat.pos_of_ne_zero (fun h0 => he ?_)
              exact List.isEmpty_iff.2 (List.length_eq_zero_iff.1 h0)
            have := ih (got ++ (f.drop (off + got.length)).take (min (k + 1) (len - got.length)))
            rw [List.length_append] at this
            omega
    · rw [if_neg h]; simp

theorem writeLoop_cost (blk : Bool) (off : Nat) (d : Bytes) : ∀ (sys : List Sys) (done : Nat) (f : Bytes)
    (evs : List (Nat × Bytes)) (res : IoRes) (f' : Bytes) (e : List (Nat × Bytes)) (r : List Sys),
    done ≤ d.length → writeLoop blk off d done f evs sys = (res, f', e, r) →
    okCalls sys + done ≤ okCalls r + d.length + 1 ∧
      (res ≠ .fail → okCalls sys + done ≤ okCalls r + d.length) ∧
      (res = .stop .killed → okCalls sys + done < d.length) := by
  intro sys
  induction sys with
  | nil =>
    intro done f evs res f' e r hd hrun
    have : okCalls [] = 0 := rfl
    refine ⟨by omega, fun _ => by omega, ?_⟩
    intro hk
    subst hk
    simp only [writeLoop] at hrun
    by_cases h : done < d.length
    · omega
    · rw [if_neg h] at hrun; simp at hrun
  | cons y ys ih =>
    intro done f evs res f' e r hd hrun
    simp only [writeLoop] at hrun
    by_cases h : done < d.length
    · rw [if_pos h] at hrun
      cases y with
      | eintr =>
        rw [okCalls_cons_other _ _ (by simp)]
        exact ih done f evs _ _ _ _ hd hrun
      | err =>
        simp only [Prod.mk.injEq] at hrun
        obtain ⟨h1, _, _, h2⟩ := hrun
        subst h1 h2
        rw [okCalls_cons_other _ _ (by simp)]
        exact ⟨by omega, fun h => absurd rfl h, by simp⟩
      | zero =>
        simp only [Prod.mk.injEq] at hrun
        obtain ⟨h1, _, _, h2⟩ := hrun
        subst h1 h2
        rw [okCalls_cons_other _ _ (by simp)]
        exact ⟨by omega, fun h => by omega, by simp⟩
      | some k =>
        simp only [okCalls_cons_some] at hrun ⊢
        have hf : (IoRes.fail, f, evs, ys) = (res, f', e, r) → okCalls ys + 1 + done ≤ okCalls r + d.length + 1 ∧
            (res ≠ .fail → okCalls ys + 1 + done ≤ okCalls r + d.length) ∧
            (res = .stop .killed → okCalls ys + 1 + done < d.length) := by
          intro hrun
          simp only [Prod.mk.injEq] at hrun
          obtain ⟨h1, _, _, h2⟩ := hrun
          subst h1 h2
          exact ⟨by omega, fun h => absurd rfl h, by simp⟩
        by_cases ho : off + d.length ≥ 2 ^ 63
        · rw [if_pos ho] at hrun; exact hf hrun
        · rw [if_neg ho] at hrun
          generalize hn : min (min (k + 1) (d.length - done))
            (if blk = true then f.length - (off + done) else d.length) = n at hrun
          by_cases hn0 : n = 0
          · rw [if_pos hn0] at hrun; exact hf hrun
          · rw [if_neg hn0] at hrun
            have := ih _ _ _ _ _ _ _ (by omega) hrun
            exact ⟨by omega, fun h => by have := this.2.1 h; omega, fun h => by have := this.2.2 h; omega⟩
    · rw [if_neg h] at hrun
      simp only [Prod.mk.injEq] at hrun
      obtain ⟨h1, _, _, h2⟩ := hrun
      subst h1 h2
      exact ⟨by omega, fun h => by omega, by simp⟩

theorem _root_.Csn.Spec.Contig.append {a b c : Nat} {x y : List (Nat × Bytes)} (h : Contig a x b) (h' : Contig b y c) : Contig a (x ++ y) c := by
  induction x generalizing a with
  | nil => simp only [Contig] at h; subst h; exact h'
  | cons e x ih =>
    obtain ⟨h1, h2, h3⟩ := h
    exact ⟨h1, h2, ih h3⟩

theorem _root_.Csn.Spec.Contig.end_eq {a b : Nat} {x : List (Nat × Bytes)} (h : Contig a x b) : b = a + (x.map (·.2)).flatten.length := by
  induction x generalizing a with
  | nil => simp only [Contig] at h; simp [h]
  | cons e x ih =>
    obtain ⟨h1, h2, h3⟩ := h
    have := ih h3
    simp only [List.map_cons, List.flatten_cons, List.length_append]
    omega

theorem writeLoop_contig (blk : Bool) (off : Nat) (d : Bytes) : ∀ (sys : List Sys) (done : Nat) (f : Bytes) (evs : List (Nat × Bytes)),
    ∃ new b, (writeLoop blk off d done f evs sys).2.2.1 = evs ++ new ∧ Contig (off + done) new b := by
  intro sys
  induction sys with
  | nil =>
    intro done f evs
    refine ⟨[], off + done, ?_, rfl⟩
    simp only [writeLoop]
    split <;> simp
  | cons y ys ih =>
    intro done f evs
    by_cases h : done < d.length
    · simp only [writeLoop, if_pos h]
      cases y with
      | eintr => exact ih done f evs
      | err => exact ⟨[], _, by simp, rfl⟩
      | zero => exact ⟨[], _, by simp, rfl⟩
      | some k =>
        simp only
        by_cases ho : off + d.length ≥ 2 ^ 63
        · rw [if_pos ho]; exact ⟨[], _, by simp, rfl⟩
        · rw [if_neg ho]
          generalize hn : min (min (k + 1) (d.length - done))
            (if blk = true then f.length - (off + done) else d.length) = n
          have hle : done + n ≤ d.length := by omega
          by_cases hn0 : n = 0
          · rw [if_pos hn0]; exact ⟨[], _, by simp, rfl⟩
          · rw [if_neg hn0]
            obtain ⟨new, b, h1, h2⟩ := ih (done + n) (writeAt f (off + done) ((d.drop done).take n)) (evs ++ [(off + done, (d.drop done).take n)])
            have hl : ((d.drop done).take n).length = n := by simp; omega
            refine ⟨(off + done, (d.drop done).take n) :: new, b, by rw [h1]; simp, rfl, ?_, ?_⟩
            · intro he; rw [he] at hl; simp at hl; omega
            · rw [hl, Nat.add_assoc]; exact h2
    · simp only [writeLoop, if_neg h]
      exact ⟨[], _, by simp, rfl⟩

end Csn.Proof
