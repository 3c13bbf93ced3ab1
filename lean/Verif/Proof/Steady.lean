import Verif.Spec.Ideal
import Verif.Spec.Durable
import Verif.Proof.Closed
import Verif.Proof.ScanAny
import Verif.Proof.Io
/-
Runs under undisturbed schedules all head for the same end.
-/
namespace Csn.Proof
open Csn Spec

theorem atoms_append : ∀ a b : List Event, atoms (a ++ b) = atoms a ++ atoms b
  | [], b => rfl
  | e :: a, b => by
    have ih := atoms_append a b
    cases e <;> simp [atoms, ih]

theorem bytewise_append (i : Nat) : ∀ (a : Bytes) (o : Nat) (b : Bytes), bytewise i o (a ++ b) = bytewise i o a ++ bytewise i (o + a.length) b
  | [], o, b => rfl
  | x :: a, o, b => by
    simp only [List.cons_append, bytewise, bytewise_append i a (o + 1) b, List.length_cons]
    rw [show o + 1 + a.length = o + (a.length + 1) by omega]

theorem Same.refl (w : World) : Same w w := ⟨rfl, rfl, rfl, rfl, rfl, rfl, rfl⟩

theorem undisturbed_suffix {a b : List Sys} (h : Undisturbed a) (hs : b <:+ a) : Undisturbed b :=
  ⟨fun x => h.1 (hs.subset x), fun x => h.2 (hs.subset x)⟩

/-- From every state there is one end towards which all undisturbed runs lead. -/
def Steady {α : Type} (m : M α) : Prop := ∀ w, ∃ R : Res α × World, atoms w.log <+: atoms R.2.log ∧
  ∀ w', Same w w' → Undisturbed w'.sys → (m w').2.sys <:+ w'.sys ∧ Towards R (m w')

theorem Steady.bind {α β : Type} (m : M α) (f : α → M β) (hm : Steady m) (hf : ∀ a, Steady (f a)) : Steady (m >>= f) := by
  intro w
  obtain ⟨⟨res, w1⟩, h1, h2⟩ := hm w
  have hb : ∀ w', (m >>= f) w' = (match m w' with
      | (.ok a, w2) => f a w2
      | (.stop s, w2) => (.stop s, w2)) := fun _ => rfl
  cases res with
  | ok a =>
    obtain ⟨R, g1, g2⟩ := hf a w1
    refine ⟨R, h1.trans g1, fun w' hs hu => ?_⟩
    obtain ⟨k1, k2⟩ := h2 w' hs hu
    rw [hb]
    generalize m w' = r at k1 k2
    obtain ⟨res, w2⟩ := r
    rcases k2 with ⟨n1, n2, n3⟩ | ⟨n1, n2⟩
    · simp only at n2
      subst n2
      obtain ⟨l1, l2⟩ := g2 w2 n3 (undisturbed_suffix hu k1)
      exact ⟨l1.trans k1, l2⟩
    · simp only at n1
      subst n1
      exact ⟨k1, Or.inr ⟨rfl, n2.trans g1⟩⟩
  | stop s =>
    refine ⟨(.stop s, w1), h1, fun w' hs hu => ?_⟩
    obtain ⟨k1, k2⟩ := h2 w' hs hu
    rw [hb]
    generalize m w' = r at k1 k2
    obtain ⟨res, w2⟩ := r
    rcases k2 with ⟨n1, n2, n3⟩ | ⟨n1, n2⟩
    · simp only at n1 n2
      subst n2
      exact ⟨k1, Or.inl ⟨by simpa using n1, rfl, n3⟩⟩
    · simp only at n1
      subst n1
      exact ⟨k1, Or.inr ⟨rfl, n2⟩⟩

/-- Operations that do not look at the schedule of system calls. -/
theorem Steady.plain {α : Type} {m : M α} (hsys : ∀ w, (m w).2.sys = w.sys) (hlog : ∀ w, ∃ e, (m w).2.log = w.log ++ e)
    (h : ∀ w w', Same w w' → (m w').1 = (m w).1 ∧ Same (m w).2 (m w').2) : Steady m := by
  intro w
  refine ⟨m w, ?_, fun w' hs hu => ⟨by rw [hsys]; exact List.suffix_refl _, ?_⟩⟩
  · obtain ⟨e, he⟩ := hlog w
    rw [he, atoms_append]
    exact List.prefix_append _ _
  · obtain ⟨h1, h2⟩ := h w w' hs
    by_cases hk : (m w').1 = .stop .killed
    · exact Or.inr ⟨hk, by rw [h2.log]; exact List.prefix_refl _⟩
    · exact Or.inl ⟨hk, h1, h2⟩

theorem Steady.pure {α : Type} (a : α) : Steady (Pure.pure a : M α) :=
  Steady.plain (fun _ => rfl) (fun w => ⟨[], (List.append_nil _).symm⟩) (fun _ _ h => ⟨rfl, h⟩)

theorem Steady.stop {α : Type} (s : Stop) : Steady (M.stop s : M α) :=
  Steady.plain (fun _ => rfl) (fun w => ⟨[], (List.append_nil _).symm⟩) (fun _ _ h => ⟨rfl, h⟩)

theorem Steady.emit (e : Event) : Steady (M.emit e) :=
  Steady.plain (fun _ => rfl) (fun w => ⟨[e], rfl⟩)
    (fun w w' h => ⟨rfl, ⟨h.data, h.kind, h.dir, h.next, h.mem, h.net, by simp only [M.emit, atoms_append, h.log]⟩⟩)

theorem Steady.alloc (n : Nat) : Steady (M.alloc n) :=
  Steady.plain (fun _ => rfl) (fun w => ⟨[], (List.append_nil _).symm⟩)
    (fun w w' h => ⟨by simp only [M.alloc, h.mem], ⟨h.data, h.kind, h.dir, h.next, by simp only [M.alloc, h.mem], h.net, h.log⟩⟩)

theorem indexInsert_shape (idx : Index) (off len : Nat) (id : Id) (w : World) :
    indexInsert idx off len id w = ((match (indexInsertPure idx off len id w.mem).1 with
      | .ok r => .ok (r, (indexInsertPure idx off len id w.mem).2.1)
      | .stop s => .stop s), { w with mem := (indexInsertPure idx off len id w.mem).2.2 }) := by
  unfold indexInsert
  generalize indexInsertPure idx off len id w.mem = r
  obtain ⟨r1, r2, r3⟩ := r
  cases r1 <;> rfl

theorem Steady.insert (idx : Index) (off len : Nat) (id : Id) : Steady (indexInsert idx off len id) :=
  Steady.plain (fun w => by rw [indexInsert_shape]) (fun w => ⟨[], by rw [indexInsert_shape]; exact (List.append_nil _).symm⟩)
    (fun w w' h => by
      rw [indexInsert_shape, indexInsert_shape, h.mem]
      exact ⟨rfl, h.data, h.kind, h.dir, h.next, rfl, h.net, h.log⟩)

theorem Steady.net (url : Bytes) : Steady (netNext url) := by
  refine Steady.plain (fun w => ?_) (fun w => ⟨[], ?_⟩) (fun w w' h => ?_)
  · unfold netNext; split <;> rfl
  · unfold netNext; split <;> exact (List.append_nil _).symm
  · unfold netNext
    rw [h.net]
    split
    · exact ⟨rfl, h⟩
    · exact ⟨rfl, h.data, h.kind, h.dir, h.next, h.mem, rfl, h.log⟩

/-- Operations that begin with a system call that succeeds. -/
theorem Steady.sysOk : Steady M.sysOk := by
  intro w
  refine ⟨(.ok true, w), List.prefix_refl _, fun w' hs hu => ?_⟩
  have hb : M.sysOk w' = (match w'.sys with
      | [] => (.stop .killed, w')
      | s :: r => ((match s with | .err => .ok false | _ => .ok true), { w' with sys := r })) := by
    show M.bind M.sysNext _ w' = _
    unfold M.bind M.sysNext
    cases hw : w'.sys with
    | nil => rfl
    | cons x r => cases x <;> rfl
  rw [hb]
  cases hw : w'.sys with
  | nil => exact ⟨by simp [hw], Or.inr ⟨rfl, by rw [hs.log]; exact List.prefix_refl _⟩⟩
  | cons x r =>
    refine ⟨List.suffix_cons _ _, Or.inl ?_⟩
    rw [hw] at hu
    cases x with
    | err => exact absurd List.mem_cons_self hu.1
    | zero => exact absurd List.mem_cons_self hu.2
    | eintr => exact ⟨by simp, rfl, hs.data, hs.kind, hs.dir, hs.next, hs.mem, hs.net, hs.log⟩
    | some k => exact ⟨by simp, rfl, hs.data, hs.kind, hs.dir, hs.next, hs.mem, hs.net, hs.log⟩

theorem Steady.openPath (p : Bytes) : Steady (openPath p) := by
  unfold Csn.openPath
  refine Steady.bind _ _ Steady.sysOk (fun a => ?_)
  cases a
  · exact Steady.pure _
  · exact Steady.plain (fun _ => rfl) (fun w => ⟨[], (List.append_nil _).symm⟩) (fun w w' h => ⟨by simp [h.dir], h⟩)

theorem fdSize_eq (i : Nat) : fdSize i = (M.sysOk >>= fun b => match b with
    | true => (fun w => (.ok (match w.kind i with | .reg => some (w.data i).length | .blk => some (w.data i).length | .other => none), w) : M (Option Nat))
    | false => Pure.pure none) := by
  funext w
  unfold Csn.fdSize
  show M.bind _ _ w = M.bind _ _ w
  unfold M.bind
  generalize M.sysOk w = r
  obtain ⟨r, w1⟩ := r
  cases r with
  | stop s => rfl
  | ok b =>
    cases b with
    | false => rfl
    | true =>
      simp only [Bool.not_true, Bool.false_eq_true, if_false, if_true]
      show M.bind _ _ w1 = _
      unfold M.bind
      simp only
      cases hk : w1.kind i <;> simp only [hk] <;> rfl

theorem Steady.fdSize (i : Nat) : Steady (fdSize i) := by
  rw [fdSize_eq]
  refine Steady.bind _ _ Steady.sysOk (fun a => ?_)
  cases a
  · exact Steady.pure _
  · exact Steady.plain (fun _ => rfl) (fun w => ⟨[], (List.append_nil _).symm⟩) (fun w w' h => ⟨by simp [h.kind, h.data], h⟩)

/-- utils.c:55-104 under undisturbed schedules. -/
theorem readLoop_any (f : Bytes) (off len : Nat) : ∀ (sys : List Sys) (got : Bytes), Undisturbed sys → got.length ≤ len →
    ∃ res got' r, readLoop f off len got sys = (res, got', r) ∧ r <:+ sys ∧
      (res = .stop .killed ∨ (res, got') =
        (if got.length < len ∧ 2 ^ 63 ≤ off + len then (.fail, got)
         else if (got ++ slice f (off + got.length) (len - got.length)).length = len then (.ok, got ++ slice f (off + got.length) (len - got.length))
         else (.fail, got ++ slice f (off + got.length) (len - got.length))))
  | [], got, hu, hg => by
    unfold readLoop
    by_cases h : got.length < len
    · rw [if_pos h]
      exact ⟨_, _, _, rfl, List.suffix_refl _, Or.inl rfl⟩
    · rw [if_neg h]
      refine ⟨_, _, _, rfl, List.suffix_refl _, Or.inr ?_⟩
      have e0 : len - got.length = 0 := by omega
      rw [if_neg (by omega), e0, if_pos (by simp [slice]; omega)]
      simp [slice]
  | x :: sys, got, hu, hg => by
    have hsuf : sys <:+ x :: sys := List.suffix_cons _ _
    have hu' := undisturbed_suffix hu hsuf
    unfold readLoop
    by_cases h : got.length < len
    · rw [if_pos h]
      cases x with
      | err => exact absurd List.mem_cons_self hu.1
      | zero => exact absurd List.mem_cons_self hu.2
      | eintr =>
        obtain ⟨res, got', r, h1, h2, h3⟩ := readLoop_any f off len sys got hu' hg
        exact ⟨res, got', r, h1, h2.trans hsuf, h3⟩
      | some k =>
        simp only
        by_cases ho : off + len ≥ 2 ^ 63
        · rw [if_pos ho]
          exact ⟨_, _, _, rfl, hsuf, Or.inr (by rw [if_pos ⟨h, ho⟩])⟩
        · have hno : ¬ (got.length < len ∧ 2 ^ 63 ≤ off + len) := by omega
          rw [if_neg ho, if_neg hno]
          generalize hd : (f.drop (off + got.length)).take (min (k + 1) (len - got.length)) = d
          by_cases he : d.isEmpty = true
          · rw [if_pos he]
            refine ⟨_, _, _, rfl, hsuf, Or.inr ?_⟩
            have hl := congrArg List.length (List.isEmpty_iff.1 he)
            rw [← hd] at hl
            simp only [List.length_take, List.length_drop, List.length_nil] at hl
            have hs : slice f (off + got.length) (len - got.length) = [] := by
              unfold slice
              rw [List.drop_eq_nil_of_le (by omega), List.take_nil]
            rw [hs, List.append_nil, if_neg (by omega)]
          · rw [if_neg he]
            have hdl : d.length = min (min (k + 1) (len - got.length)) (f.length - (off + got.length)) := by
              rw [← hd]; simp
            have hds : d = slice f (off + got.length) d.length := by
              unfold slice
              conv => lhs; rw [← hd]
              rw [List.take_eq_take_iff]
              simp only [List.length_drop]
              omega
            have hs2 : slice f (off + got.length) (len - got.length) =
                d ++ slice f (off + (got.length + d.length)) (len - (got.length + d.length)) := by
              conv => rhs; arg 1; rw [hds]
              unfold slice
              rw [show len - got.length = d.length + (len - (got.length + d.length)) by omega, List.take_add, List.drop_drop]
              rw [show off + (got.length + d.length) = off + got.length + d.length by omega]
            obtain ⟨res, got', r, h1, h2, h3⟩ := readLoop_any f off len sys (got ++ d) hu' (by simp; omega)
            refine ⟨res, got', r, h1, h2.trans hsuf, ?_⟩
            rcases h3 with h3 | h3
            · exact Or.inl h3
            · refine Or.inr ?_
              have el : (got ++ d).length = got.length + d.length := List.length_append
              rw [h3, if_neg (by omega), hs2, el, List.append_assoc]
    · rw [if_neg h]
      refine ⟨_, _, _, rfl, List.suffix_refl _, Or.inr ?_⟩
      have e0 : len - got.length = 0 := by omega
      rw [if_neg (by omega), e0, if_pos (by simp [slice]; omega)]
      simp [slice]

theorem Steady.preadall (i o n : Nat) : Steady (preadall i o n) := by
  intro w
  have key := readLoop_any (w.data i) o n
  generalize hX : (if ([] : Bytes).length < n ∧ 2 ^ 63 ≤ o + n then ((.fail, []) : IoRes × Bytes)
         else if ([] ++ slice (w.data i) (o + ([] : Bytes).length) (n - ([] : Bytes).length)).length = n then (.ok, [] ++ slice (w.data i) (o + ([] : Bytes).length) (n - ([] : Bytes).length))
         else (.fail, [] ++ slice (w.data i) (o + ([] : Bytes).length) (n - ([] : Bytes).length))) = X
  have hXn : ∀ s, X.1 ≠ .stop s := by
    intro s
    rw [← hX]
    split
    · simp
    · split <;> simp
  refine ⟨((match X.1 with | .ok => .ok (true, X.2) | .fail => .ok (false, X.2) | .stop s => .stop s), w), List.prefix_refl _, fun w' hs hu => ?_⟩
  obtain ⟨res, got, r, h1, h2, h3⟩ := key w'.sys [] hu (Nat.zero_le _)
  rw [hX] at h3
  unfold Csn.preadall
  rw [hs.data, h1]
  rcases h3 with h3 | h3
  · subst h3
    exact ⟨h2, Or.inr ⟨rfl, by rw [hs.log]; exact List.prefix_refl _⟩⟩
  · subst h3
    cases res with
    | stop s => exact absurd rfl (hXn s)
    | ok => exact ⟨h2, Or.inl ⟨by simp, rfl, rfl, hs.kind, hs.dir, hs.next, hs.mem, hs.net, hs.log⟩⟩
    | fail => exact ⟨h2, Or.inl ⟨by simp, rfl, rfl, hs.kind, hs.dir, hs.next, hs.mem, hs.net, hs.log⟩⟩

theorem writeAt_zero (f : Bytes) (o : Nat) (d : Bytes) : f = writeAt f o (d.take 0) := by
  rw [List.take_zero, writeAt_nil]

/-- How many of the bytes behind `done` of `d` can be written at `off`. -/
def writable (blk : Bool) (off : Nat) (d : Bytes) (done flen : Nat) : Nat :=
  if 2 ^ 63 ≤ off + d.length ∧ done < d.length then 0 else min (d.length - done) (if blk then flen - (off + done) else d.length)

/-- utils.c:106-153 under undisturbed schedules. -/
theorem writeLoop_any (blk : Bool) (off : Nat) (d : Bytes) : ∀ (sys : List Sys) (done : Nat) (f : Bytes) (evs : List (Nat × Bytes)),
    Undisturbed sys → done ≤ d.length →
    ∃ res f' new r k, writeLoop blk off d done f evs sys = (res, f', evs ++ new, r) ∧ r <:+ sys ∧ k ≤ writable blk off d done f.length ∧
      f' = writeAt f (off + done) ((d.drop done).take k) ∧
      (∀ i, atoms (new.map (fun e => Event.write i e.1 e.2)) = bytewise i (off + done) ((d.drop done).take k)) ∧
      (res = .stop .killed ∨ (k = writable blk off d done f.length ∧ res = if done + k = d.length then .ok else .fail))
  | [], done, f, evs, hu, hd => by
    unfold writeLoop
    by_cases h : done < d.length
    · rw [if_pos h]
      exact ⟨_, _, [], _, 0, by rw [List.append_nil], List.suffix_refl _, Nat.zero_le _, writeAt_zero _ _ _, fun _ => by rw [List.take_zero]; rfl, Or.inl rfl⟩
    · rw [if_neg h]
      refine ⟨_, _, [], _, 0, by rw [List.append_nil], List.suffix_refl _, Nat.zero_le _, writeAt_zero _ _ _, fun _ => by rw [List.take_zero]; rfl, Or.inr ⟨?_, by rw [if_pos (by omega)]⟩⟩
      unfold writable
      rw [if_neg (by omega)]
      omega
  | x :: sys, done, f, evs, hu, hd => by
    have hsuf : sys <:+ x :: sys := List.suffix_cons _ _
    have hu' := undisturbed_suffix hu hsuf
    unfold writeLoop
    by_cases h : done < d.length
    · rw [if_pos h]
      cases x with
      | err => exact absurd List.mem_cons_self hu.1
      | zero => exact absurd List.mem_cons_self hu.2
      | eintr =>
        obtain ⟨res, f', new, r, k, h1, h2, h3⟩ := writeLoop_any blk off d sys done f evs hu' hd
        exact ⟨res, f', new, r, k, h1, h2.trans hsuf, h3⟩
      | some k =>
        simp only
        by_cases ho : off + d.length ≥ 2 ^ 63
        · rw [if_pos ho]
          refine ⟨_, _, [], _, 0, by rw [List.append_nil], hsuf, Nat.zero_le _, writeAt_zero _ _ _, fun _ => by rw [List.take_zero]; rfl, Or.inr ⟨?_, by rw [if_neg (by omega)]⟩⟩
          unfold writable
          rw [if_pos ⟨ho, h⟩]
        · rw [if_neg ho]
          generalize hn : min (min (k + 1) (d.length - done)) (if blk = true then f.length - (off + done) else d.length) = n
          by_cases hn0 : n = 0
          · rw [if_pos hn0]
            refine ⟨_, _, [], _, 0, by rw [List.append_nil], hsuf, Nat.zero_le _, writeAt_zero _ _ _, fun _ => by rw [List.take_zero]; rfl, Or.inr ⟨?_, by rw [if_neg (by omega)]⟩⟩
            unfold writable
            rw [if_neg (by omega)]
            omega
          · rw [if_neg hn0]
            have hnle : done + n ≤ d.length := by omega
            have hpl : ((d.drop done).take n).length = n := by simp; omega
            have hpne : (d.drop done).take n ≠ [] := by
              intro h0; rw [h0] at hpl; simp at hpl; omega
            have hlen : writable blk off d done f.length = n + writable blk off d (done + n) (writeAt f (off + done) ((d.drop done).take n)).length := by
              rw [writeAt_length _ _ _ hpne, hpl]
              have n1 : ¬ (2 ^ 63 ≤ off + d.length ∧ done < d.length) := by omega
              have n2 : ¬ (2 ^ 63 ≤ off + d.length ∧ done + n < d.length) := by omega
              unfold writable
              rw [if_neg n1, if_neg n2]
              cases blk
              · simp only [Bool.false_eq_true, if_false] at hn ⊢
                omega
              · simp only [if_true] at hn ⊢
                omega
            obtain ⟨res, f', new, r, k', h1, h2, h3, h4, h5, h6⟩ :=
              writeLoop_any blk off d sys (done + n) (writeAt f (off + done) ((d.drop done).take n))
                (evs ++ [(off + done, (d.drop done).take n)]) hu' hnle
            have hcat : (d.drop done).take (n + k') = (d.drop done).take n ++ (d.drop (done + n)).take k' := by
              rw [List.take_add, List.drop_drop]
            refine ⟨res, f', (off + done, (d.drop done).take n) :: new, r, n + k', ?_, h2.trans hsuf, by omega, ?_, ?_, ?_⟩
            · rw [h1]; simp
            · rw [h4, hcat, ← writeAt_append, hpl]
              congr 1
              omega
            · intro i
              simp only [List.map_cons, atoms, h5, hcat, bytewise_append, hpl]
              rw [show off + (done + n) = off + done + n by omega]
            · rcases h6 with h6 | ⟨h6, h7⟩
              · exact Or.inl h6
              · refine Or.inr ⟨by omega, ?_⟩
                rw [h7, show done + n + k' = done + (n + k') by omega]
    · rw [if_neg h]
      refine ⟨_, _, [], _, 0, by rw [List.append_nil], List.suffix_refl _, Nat.zero_le _, writeAt_zero _ _ _, fun _ => by rw [List.take_zero]; rfl, Or.inr ⟨?_, by rw [if_pos (by omega)]⟩⟩
      unfold writable
      rw [if_neg (by omega)]
      omega

theorem bytewise_prefix (i o : Nat) (d : Bytes) {k n : Nat} (h : k ≤ n) : bytewise i o (d.take k) <+: bytewise i o (d.take n) := by
  rw [show n = k + (n - k) by omega, List.take_add, bytewise_append]
  exact List.prefix_append _ _

/-- Return value of the write helpers. -/
def ioOut : IoRes → Res Bool
  | .ok => .ok true
  | .fail => .ok false
  | .stop s => .stop s

theorem Steady.pwriteall (i : Nat) (d : Bytes) (o : Nat) : Steady (pwriteall i d o) := by
  intro w
  generalize hN : writable (decide (w.kind i = .blk)) o d 0 (w.data i).length = N
  refine ⟨(.ok (decide (N = d.length)), { w with
      data := fun j => if j = i then writeAt (w.data i) o (d.take N) else w.data j
      log := w.log ++ [.write i o (d.take N)] }), ?_, fun w' hs hu => ?_⟩
  · simp only [atoms_append]
    exact List.prefix_append _ _
  · obtain ⟨res, f', new, r, k, h1, h2, h3, h4, h5, h6⟩ := writeLoop_any (decide (w.kind i = .blk)) o d w'.sys 0 (w.data i) [] hu (Nat.zero_le _)
    rw [hN] at h3 h6
    simp only [Nat.add_zero, List.drop_zero, List.nil_append, Nat.zero_add] at h1 h4 h5 h6
    have e : Csn.pwriteall i d o w' = (ioOut res, { w' with
        data := fun j => if j = i then f' else w'.data j
        sys := r
        log := w'.log ++ new.map (fun e => Event.write i e.1 e.2) }) := by
      unfold Csn.pwriteall
      have h1' : writeLoop (decide (w'.kind i = .blk)) o d 0 (w'.data i) [] w'.sys = (res, f', new, r) := by rw [hs.kind, hs.data]; exact h1
      simp only [h1']
      cases res <;> rfl
    rw [e]
    refine ⟨h2, ?_⟩
    rcases h6 with h6 | ⟨h6, h7⟩
    · subst h6
      refine Or.inr ⟨rfl, ?_⟩
      simp only [atoms_append, h5, hs.log, atoms, List.append_nil]
      exact (List.prefix_append_right_inj _).2 (bytewise_prefix _ _ _ h3)
    · refine Or.inl ?_
      subst h6
      have hlog : atoms (w'.log ++ new.map (fun e => Event.write i e.1 e.2)) = atoms (w.log ++ [.write i o (d.take k)]) := by
        simp only [atoms_append, h5, hs.log, atoms, List.append_nil]
      have hdata : (fun j => if j = i then f' else w'.data j) = (fun j => if j = i then writeAt (w.data i) o (d.take k) else w.data j) := by
        rw [h4, hs.data]
      rw [h7]
      by_cases hk : k = d.length
      · rw [if_pos hk]
        exact ⟨by simp [ioOut], by simp [hk, ioOut], hdata, hs.kind, hs.dir, hs.next, hs.mem, hs.net, hlog⟩
      · rw [if_neg hk]
        exact ⟨by simp [ioOut], by simp [hk, ioOut], hdata, hs.kind, hs.dir, hs.next, hs.mem, hs.net, hlog⟩

/-- Return value of a scan. -/
def scanOut (i : Index) : ScanRes → Res (Bool × Index)
  | .ok => .ok (true, i)
  | .fail => .ok (false, i)
  | .stop s => .stop s

theorem Steady.scanInto (env : LEnv) (hbuf : 0 < env.bufsiz) (l : Loc) (idx : Index) : Steady (scanInto env l idx) := by
  intro w
  obtain ⟨⟨R1, Ri, Rm⟩, hR⟩ := scanFd_any env.H env.disc env.bufsiz hbuf l.p (storeInsertScan true) (w.data l.ino) (idx, w.mem)
  refine ⟨(scanOut Ri R1, { w with mem := Rm }), List.prefix_refl _, fun w' hs hu => ?_⟩
  obtain ⟨res, ⟨si, sm⟩, r, h1, h2, h3⟩ := hR w'.sys hu.1 hu.2
  have e : Csn.scanInto env l idx w' = (scanOut si res, { w' with sys := r, mem := sm }) := by
    unfold Csn.scanInto
    rw [hs.data, hs.mem, h1]
    cases res <;> rfl
  rw [e]
  refine ⟨h2, ?_⟩
  by_cases hk : res = .stop .killed
  · subst hk
    exact Or.inr ⟨rfl, by simp only [hs.log]; exact List.prefix_refl _⟩
  · rcases h3 with h3 | h3
    · exact absurd h3 hk
    · simp only [Prod.mk.injEq] at h3
      obtain ⟨rfl, rfl, rfl⟩ := h3
      refine Or.inl ⟨?_, rfl, hs.data, hs.kind, hs.dir, hs.next, rfl, hs.net, hs.log⟩
      cases res with
      | ok => simp [scanOut]
      | fail => simp [scanOut]
      | stop x => simpa [scanOut] using hk

theorem Steady.accessOk (p : Bytes) : Steady (accessOk p) := by
  unfold Csn.accessOk
  refine Steady.bind _ _ Steady.sysOk (fun a => ?_)
  cases a
  · exact Steady.pure _
  · exact Steady.plain (fun _ => rfl) (fun w => ⟨[], (List.append_nil _).symm⟩) (fun w w' h => ⟨by simp [h.dir], h⟩)

theorem Steady.creat (p : Bytes) : Steady (creat p) := by
  refine Steady.plain (fun w => ?_) (fun w => ?_) (fun w w' h => ?_)
  · unfold Csn.creat; split <;> rfl
  · unfold Csn.creat
    split
    · exact ⟨[], (List.append_nil _).symm⟩
    · exact ⟨_, rfl⟩
  · unfold Csn.creat
    rw [h.dir]
    cases w.dir p with
    | some ino => exact ⟨rfl, by simp only [h.data, h.kind], h.kind, rfl, h.next, h.mem, h.net, h.log⟩
    | none =>
      exact ⟨by simp only [h.next], by simp only [World.create, h.data, h.next], by simp only [World.create, h.kind, h.next],
        by simp only [World.create, h.dir, h.next], by simp only [World.create, h.next], h.mem, h.net,
        by simp only [World.create, atoms_append, h.log, h.next]⟩

/-- All programs are steady. -/
theorem steady_closedA : ClosedA True @Steady where
  pure := Steady.pure
  bind := Steady.bind
  alloc := Steady.alloc
  sysOk := Steady.sysOk
  openPath := Steady.openPath
  fdSize := Steady.fdSize
  preadall := Steady.preadall
  pwriteall := fun _ => Steady.pwriteall

theorem steady_closedT : ClosedT True @Steady where
  toClosedA := steady_closedA
  accessOk := Steady.accessOk
  creat := Steady.creat

theorem steady_closedB : ClosedB True @Steady where
  toClosedA := steady_closedA
  stop := fun s _ _ => Steady.stop s
  emit := fun e _ _ _ => Steady.emit e

theorem steady_netOps : NetOps @Steady := fun e _ => Steady.emit e

theorem steady_closed0 (env : LEnv) (hbuf : 0 < env.bufsiz) : Closed0 True env @Steady where
  toClosedB := steady_closedB
  insert := Steady.insert
  scanInto := Steady.scanInto env hbuf
  net := Steady.net

theorem steady_closed (env : LEnv) (hbuf : 0 < env.bufsiz) : Closed True env @Steady where
  toClosed0 := steady_closed0 env hbuf
  localGet := (steady_closed0 env hbuf).localGet (Steady.stop _) 2

end Csn.Proof
