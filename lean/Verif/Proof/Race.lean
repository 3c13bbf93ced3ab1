import Verif.Spec.Race
/-
Proofs about csn while other processes change files (C82).
-/
namespace Csn.Race
open Csn.Props
open Csn.Spec (Regular)

/-- Whatever the answers: `x`, started with the events `log`, ends with a result and events in `Q`, or stops in `S`. -/
def Tr {α : Type} (x : R α) (log : List Ev) (Q : α → List Ev → Prop) (S : Stop → List Ev → Prop) : Prop :=
  ∀ ans, match x ⟨ans, log⟩ with
    | (.ok a, w) => Q a w.log
    | (.stop s, w) => S s w.log

variable {α β : Type} {S : Stop → List Ev → Prop} {log : List Ev}

theorem Tr.pure {a : α} {Q : α → List Ev → Prop} (h : Q a log) : Tr (Pure.pure a : R α) log Q S := fun _ => h

theorem Tr.stop {s : Stop} {Q : α → List Ev → Prop} (h : S s log) : Tr (R.stop s : R α) log Q S := fun _ => h

theorem Tr.bind {x : R α} {f : α → R β} {Q : β → List Ev → Prop} {P : α → List Ev → Prop} (hx : Tr x log P S)
    (hf : ∀ a log', P a log' → Tr (f a) log' Q S) : Tr (x >>= f) log Q S := by
  intro ans
  have h := hx ans
  show match R.bind x f ⟨ans, log⟩ with
    | (.ok a, w) => Q a w.log
    | (.stop s, w) => S s w.log
  unfold R.bind
  revert h
  generalize x ⟨ans, log⟩ = r
  obtain ⟨r, w⟩ := r
  cases r with
  | ok a => exact fun h => hf a w.log h w.ans
  | stop s => exact fun h => h

theorem Tr.conseq {x : R α} {Q P : α → List Ev → Prop} (hx : Tr x log P S) (h : ∀ a log', P a log' → Q a log') : Tr x log Q S := by
  intro ans
  have h1 := hx ans
  revert h1
  generalize x ⟨ans, log⟩ = r
  obtain ⟨r, w⟩ := r
  cases r with
  | ok a => exact fun h1 => h a w.log h1
  | stop s => exact fun h1 => h1

theorem Tr.emit {e : Ev} : Tr (R.emit e) log (fun _ log' => log' = log ++ [e]) S := fun _ => rfl

theorem Tr.next (hk : S .killed log) : Tr R.next log (fun _ log' => log' = log) S := by
  intro ans
  cases ans with
  | nil => exact hk
  | cons a as => exact rfl

/-- What a hasher lets csn take for a chunk. -/
abbrev Hasher.takes (H : Hasher) : Bytes → Id → Prop := Takes H.sha H.kernel

theorem tr_digest {H : Hasher} {d : Bytes} (hk : S .killed log) : Tr (digest H d) log (fun h log' => log' = log ∧ ∀ id, h = id → H.takes d id) S := by
  unfold digest
  split
  · next hker =>
    refine (Tr.next hk).bind fun a log' hl => ?_
    subst hl
    cases a with
    | hash k => exact Tr.pure ⟨rfl, fun id h => Or.inr ⟨hker, k, h⟩⟩
    | _ => exact Tr.stop hk
  · exact Tr.pure ⟨rfl, fun id h => Or.inl h⟩

/-! ### What holds of the events at all times -/

section
variable (H : Hasher) (segs : List Seg) (srcs : List Source)

/-- The invariant of the events. -/
structure K (log : List Ev) : Prop where
  sound : SoundRun H.takes srcs log
  once : ∀ k, log.count (.rescan k) ≤ 1
  done : log.filterMap finished <+: segs
  next : OneByOne segs log

/-- How a run may stop. -/
def Halt (s : Stop) (log : List Ev) : Prop := s ≠ .ub ∧ s ≠ .diverge ∧ K H segs srcs log

end

variable {H : Hasher} {segs : List Seg} {srcs : List Source}

theorem soundRun_nil : SoundRun H.takes srcs [] := by
  intro a e b h
  simp at h

theorem soundRun_snoc {l : List Ev} {e : Ev} (h : SoundRun H.takes srcs l) (he : SoundAt H.takes srcs l e) : SoundRun H.takes srcs (l ++ [e]) := by
  intro a x b hx
  rcases List.eq_nil_or_concat b with hb | ⟨b', y, hb⟩
  · subst hb
    have := List.append_inj' hx rfl
    obtain ⟨h1, h2⟩ := this
    simp only [List.cons.injEq, and_true] at h2
    subst h1; subst h2
    exact he
  · subst hb
    rw [List.concat_eq_append, ← List.cons_append, ← List.append_assoc] at hx
    have := List.append_inj' hx rfl
    exact h a x b' this.1

theorem oneByOne_snoc {l : List Ev} {e : Ev} (h : OneByOne segs l) (he : ∀ s, touched e = some s → l.filterMap finished ++ [s] <+: segs) : OneByOne segs (l ++ [e]) := by
  intro a x b hx
  rcases List.eq_nil_or_concat b with hb | ⟨b', y, hb⟩
  · subst hb
    have := List.append_inj' hx rfl
    obtain ⟨h1, h2⟩ := this
    simp only [List.cons.injEq, and_true] at h2
    subst h1; subst h2
    exact he
  · subst hb
    rw [List.concat_eq_append, ← List.cons_append, ← List.append_assoc] at hx
    have := List.append_inj' hx rfl
    exact h a x b' this.1

theorem finished_none {e : Ev} (h : touched e = none) : finished e = none := by
  cases e with
  | wrote s d ok => simp [touched] at h
  | kept s d => simp [touched] at h
  | trusted k id o d => rfl
  | right k id d => rfl
  | rescan k => rfl

/-- Steps that finish nothing and are no scans. -/
theorem K.step {e : Ev} (h : K H segs srcs log) (he : SoundAt H.takes srcs log e) (h1 : ∀ k, e ≠ .rescan k) (h2 : touched e = none) :
    K H segs srcs (log ++ [e]) where
  sound := soundRun_snoc h.sound he
  once k := by
    rw [List.count_append, List.count_eq_zero (l := [e]) |>.2 (by simp; exact fun h => h1 k h.symm)]
    exact h.once k
  done := by
    rw [List.filterMap_append, show List.filterMap finished [e] = [] by simp [finished_none h2], List.append_nil]
    exact h.done
  next := oneByOne_snoc h.next (fun s hs => by rw [h2] at hs; exact absurd hs (by simp))

theorem K.rescan {k : Nat} (h : K H segs srcs log) (hs : ∃ es, srcs[k]? = some (.side es)) (hn : Ev.rescan k ∉ log) :
    K H segs srcs (log ++ [.rescan k]) where
  sound := soundRun_snoc h.sound hs
  once j := by
    by_cases hj : j = k
    · subst hj
      rw [List.count_append, List.count_eq_zero.2 hn]
      simp
    · rw [List.count_append, List.count_eq_zero (l := [Ev.rescan k]) |>.2 (by simp; exact hj)]
      exact h.once j
  done := by
    rw [List.filterMap_append, show List.filterMap finished [_] = [] from rfl, List.append_nil]
    exact h.done
  next := oneByOne_snoc h.next (fun s hs => by simp [touched] at hs)

theorem K.kept {s : Seg} {d : Bytes} {rest : List Seg} (h : K H segs srcs log) (hr : log.filterMap finished ++ s :: rest = segs)
    (he : SoundAt H.takes srcs log (.kept s d)) : K H segs srcs (log ++ [.kept s d]) where
  sound := soundRun_snoc h.sound he
  once k := by simp [h.once k]
  done := ⟨rest, by simp [finished, ← hr]⟩
  next := oneByOne_snoc h.next (fun s' hs => by
    simp only [touched, Option.some.injEq] at hs
    subst hs
    exact ⟨rest, by simp [← hr]⟩)

theorem K.wrote {s : Seg} {d : Bytes} {ok : Bool} {rest : List Seg} (h : K H segs srcs log)
    (hr : log.filterMap finished ++ s :: rest = segs)
    (he : SoundAt H.takes srcs log (.wrote s d ok)) : K H segs srcs (log ++ [.wrote s d ok]) where
  sound := soundRun_snoc h.sound he
  once k := by simp [h.once k]
  done := by
    cases ok with
    | true => exact ⟨rest, by simp [finished, ← hr]⟩
    | false =>
      rw [List.filterMap_append, show List.filterMap finished [_] = [] from rfl, List.append_nil]
      exact h.done
  next := oneByOne_snoc h.next (fun s' hs => by
    simp only [touched, Option.some.injEq] at hs
    subst hs
    exact ⟨rest, by simp [← hr]⟩)

theorem Halt.killed (h : K H segs srcs log) : Halt H segs srcs .killed log := ⟨by simp, by simp, h⟩

theorem Halt.abort (h : K H segs srcs log) : Halt H segs srcs .abort log := ⟨by simp, by simp, h⟩

/-! ### The parts -/

theorem bufWrite_length' (buf d : Bytes) (h : d.length ≤ buf.length) : (bufWrite buf 0 d).length = buf.length := by
  unfold bufWrite
  simp
  omega

theorem bufWrite_take' (buf d : Bytes) : (bufWrite buf 0 d).take d.length = d := by
  unfold bufWrite
  simp

theorem tr_readInto {n : Nat} {buf : Bytes} (hk : K H segs srcs log) (hn : n ≤ buf.length) :
    Tr (readInto n buf) log (fun r log' => log' = log ∧ r.2.length = buf.length) (Halt H segs srcs) := by
  unfold readInto
  refine (Tr.next (.killed hk)).bind fun a log' hl => ?_
  subst hl
  cases a with
  | read d ok =>
    cases ok with
    | true =>
      dsimp only
      split
      · next hd => exact Tr.pure ⟨rfl, bufWrite_length' _ _ (by omega)⟩
      · exact Tr.stop (.killed hk)
    | false => exact Tr.pure ⟨rfl, bufWrite_length' _ _ (by simp; omega)⟩
  | _ => exact Tr.stop (.killed hk)

theorem tr_query {es : List Entry} {id : Id} (hk : K H segs srcs log) :
    Tr (query es id) log (fun r log' => log' = log ∧ ∀ i e, r = some (i, e) → es[i]? = some e ∧ e.id = id) (Halt H segs srcs) := by
  unfold query
  refine (Tr.next (.killed hk)).bind fun a log' hl => ?_
  subst hl
  cases a with
  | pick i =>
    cases i with
    | none =>
      dsimp only
      split
      · exact Tr.stop (.killed hk)
      · exact Tr.pure ⟨rfl, fun _ _ h => by simp at h⟩
    | some i =>
      dsimp only
      split
      · next e he =>
        split
        · next hid =>
          refine Tr.pure ⟨rfl, fun j e' h => ?_⟩
          simp at h
          obtain ⟨h', h⟩ := h
          subst h; subst h'
          exact ⟨he, hid⟩
        · exact Tr.stop (.killed hk)
      · exact Tr.stop (.killed hk)
  | _ => exact Tr.stop (.killed hk)

theorem tr_tAdd {t : RTgt} {s : Seg} (hk : K H segs srcs log) :
    Tr (tAdd t s) log (fun r log' => log' = log ∧ ∀ e ∈ r.idx, e ∈ t.idx ∨ e = ⟨s.off, s.len, false, s.id⟩) (Halt H segs srcs) := by
  unfold tAdd
  split
  · exact Tr.pure ⟨rfl, fun e he => Or.inl he⟩
  · refine (tr_query hk).bind fun r log' h => ?_
    obtain ⟨h, -⟩ := h
    subst h
    cases r with
    | some _ => exact Tr.pure ⟨rfl, fun e he => Or.inl he⟩
    | none =>
      dsimp only
      split
      · exact Tr.stop (.abort hk)
      · refine (Tr.next (.killed hk)).bind fun a log' hl => ?_
        subst hl
        cases a with
        | room ok => 
          cases ok with
          | true => exact Tr.pure ⟨rfl, fun e he => by simpa using he⟩
          | false => exact Tr.pure ⟨rfl, fun e he => Or.inl he⟩
        | _ => exact Tr.stop (.killed hk)

theorem tr_tCheck {t : RTgt} {buf : Bytes} {s : Seg} (hk : K H segs srcs log) (hn : s.len ≤ buf.length) :
    Tr (tCheck H t buf s) log (fun r log' => log' = log ∧ r.2.2.length = buf.length ∧ (∀ e ∈ r.2.1.idx, e ∈ t.idx ∨ (r.1 = some true ∧ e = ⟨s.off, s.len, false, s.id⟩)) ∧
      (r.1 = some true → H.takes (r.2.2.take s.len) s.id)) (Halt H segs srcs) := by
  unfold tCheck
  split
  · omega
  · refine (tr_readInto hk hn).bind fun r log' h => ?_
    obtain ⟨ok, b⟩ := r
    obtain ⟨h1, h2⟩ := h
    subst h1
    dsimp only at h2
    cases ok with
    | false => exact Tr.pure ⟨rfl, h2, fun e he => Or.inl he, fun h => by simp at h⟩
    | true =>
      dsimp only
      refine (tr_digest (.killed hk)).bind fun h0 log' h => ?_
      obtain ⟨hd1, hdig⟩ := h
      subst hd1
      split
      · next hH =>
        refine (tr_tAdd hk).bind fun t' log' h => ?_
        obtain ⟨h3, h4⟩ := h
        subst h3
        exact Tr.pure ⟨rfl, h2, fun e he => (h4 e he).imp (fun h => h) (fun h => ⟨rfl, h⟩), fun _ => hdig _ hH⟩
      · exact Tr.pure ⟨rfl, h2, fun e he => Or.inl he, fun h => by simp at h⟩

/-- What a store hands out. -/
def Handed (H : Hasher) (id : Id) (n : Option Nat) (out : Bytes) (log : List Ev) : Prop :=
  ∀ k, n = some k → k ≤ out.length ∧ (k ≠ 0 → H.takes (out.take k) id ∨ ∃ j o, .trusted j id o (out.take k) ∈ log)

/-- What the target's index says was written or kept. -/
def TgtOk (t : RTgt) (log : List Ev) : Prop := ∀ e ∈ t.idx, (⟨e.start, e.len, e.id⟩ : Seg) ∈ log.filterMap finished

theorem tr_tGet {t : RTgt} {id : Id} {out : Bytes} (hk : K H segs srcs log) (ht : .target ∈ srcs) (hto : TgtOk t log) :
    Tr (tGet t id out) log (fun r log' => K H segs srcs log' ∧ (∃ ext, log' = log ++ ext ∧ ∀ k, Ev.rescan k ∉ ext ∧ ∀ e ∈ ext, finished e = none) ∧
      r.2.length = out.length ∧ Handed H id r.1 r.2 log') (Halt H segs srcs) := by
  unfold tGet
  split
  · exact Tr.pure ⟨hk, ⟨[], by simp⟩, rfl, fun k h => by simp at h; omega⟩
  · refine (tr_query hk).bind fun r log' h => ?_
    obtain ⟨h, hq⟩ := h
    subst h
    cases r with
    | none => exact Tr.pure ⟨hk, ⟨[], by simp⟩, rfl, fun k h => by simp at h; omega⟩
    | some p =>
      obtain ⟨i, e⟩ := p
      dsimp only
      split
      · exact Tr.pure ⟨hk, ⟨[], by simp⟩, rfl, fun k h => by simp at h⟩
      · next hlen =>
        refine (tr_readInto hk (by omega)).bind fun r log' h => ?_
        obtain ⟨ok, b⟩ := r
        obtain ⟨h1, h2⟩ := h
        subst h1
        dsimp only at h2
        cases ok with
        | false => exact Tr.pure ⟨hk, ⟨[], by simp⟩, h2, fun k h => by simp at h⟩
        | true =>
          refine Tr.emit.bind fun _ log3 h => ?_
          subst h
          obtain ⟨q1, q2⟩ := hq i e rfl
          have hso : SoundAt H.takes srcs log' (.trusted none id e.start (b.take e.len)) := by
            have hl : (b.take e.len).length = e.len := by
              simp only [List.length_take]
              omega
            have := hto e (List.mem_of_getElem? q1)
            rw [q2] at this
            exact ⟨ht, by rw [hl]; exact this⟩
          refine Tr.pure ⟨hk.step hso (by simp) rfl, ⟨_, rfl, fun k => by simp [finished]⟩, h2, fun k h => ?_⟩
          simp at h
          subst h
          exact ⟨by simp only; omega, fun _ => Or.inr ⟨none, e.start, by simp⟩⟩

/-- All entries are validated. -/
def AllChecked (l : RLoc) : Prop := ∀ es, l.idx = some es → ∀ e ∈ es, e.valid = true

/-- The store was given without index. -/
def Scanned (srcs : List Source) (l : RLoc) : Prop :=
  ∃ es0, srcs[l.num]? = some (.scanned es0) ∧ ∀ es, l.idx = some es → ∀ e ∈ es, (⟨e.start, e.len, e.id⟩ : Seg) ∈ es0

/-- The store was given with an index and not scanned again so far. -/
def Side (srcs : List Source) (l : RLoc) (log : List Ev) : Prop :=
  (∃ es0, srcs[l.num]? = some (.side es0)) ∧ Ev.rescan l.num ∉ log ∧
    ∀ es, l.idx = some es → ∀ e ∈ es, e.valid = true → ∃ d, Ev.right l.num e.id d ∈ log ∧ d.length = e.len

/-- The store was given with an index and scanned again. -/
def Again (srcs : List Source) (l : RLoc) (log : List Ev) : Prop :=
  (∃ es0, srcs[l.num]? = some (.side es0)) ∧ Ev.rescan l.num ∈ log

/-- A local store is in order. -/
def LocOk (srcs : List Source) (l : RLoc) (log : List Ev) : Prop :=
  (AllChecked l ∧ (Scanned srcs l ∨ Again srcs l log)) ∨ Side srcs l log

/-- The events between: no region is finished, only store `n` is scanned again. -/
def Between (P : Nat → Prop) (log log' : List Ev) : Prop :=
  ∃ ext, log' = log ++ ext ∧ (∀ k, Ev.rescan k ∈ ext → P k) ∧ ∀ e ∈ ext, finished e = none

theorem Between.refl {P : Nat → Prop} : Between P log log := ⟨[], by simp⟩

theorem Between.trans {P : Nat → Prop} {a b c : List Ev} (h1 : Between P a b) (h2 : Between P b c) : Between P a c := by
  obtain ⟨x, h1, p1, q1⟩ := h1
  obtain ⟨y, h2, p2, q2⟩ := h2
  refine ⟨x ++ y, by rw [h2, h1, List.append_assoc], fun k hk => ?_, fun e he => ?_⟩
  · rcases List.mem_append.1 hk with h | h
    · exact p1 k h
    · exact p2 k h
  · rcases List.mem_append.1 he with h | h
    · exact q1 e h
    · exact q2 e h

theorem Between.weaken {P P' : Nat → Prop} {a b : List Ev} (h : Between P a b) (hp : ∀ k, P k → P' k) : Between P' a b := by
  obtain ⟨x, h1, p1, q1⟩ := h
  exact ⟨x, h1, fun k hk => hp k (p1 k hk), q1⟩

theorem Between.one {P : Nat → Prop} {e : Ev} (hp : ∀ k, e = .rescan k → P k) (hf : finished e = none) : Between P log (log ++ [e]) :=
  ⟨[e], rfl, fun k hk => hp k (by simp at hk; exact hk.symm), fun x hx => by simp at hx; subst hx; exact hf⟩

theorem Between.mem {P : Nat → Prop} {a b : List Ev} (h : Between P a b) {e : Ev} (he : e ∈ a) : e ∈ b := by
  obtain ⟨x, h1, -⟩ := h
  rw [h1]
  exact List.mem_append_left _ he

theorem Between.fm {P : Nat → Prop} {a b : List Ev} (h : Between P a b) : b.filterMap finished = a.filterMap finished := by
  obtain ⟨x, h1, -, q⟩ := h
  rw [h1, List.filterMap_append, List.filterMap_eq_nil_iff.2 q, List.append_nil]

theorem Between.notMem {P : Nat → Prop} {a b : List Ev} (h : Between P a b) {k : Nat} (hk : Ev.rescan k ∉ a) (hp : ¬ P k) : Ev.rescan k ∉ b := by
  obtain ⟨x, h1, p, -⟩ := h
  rw [h1]
  intro hm
  rcases List.mem_append.1 hm with hm | hm
  · exact hk hm
  · exact hp (p k hm)

theorem LocOk.between {l : RLoc} {P : Nat → Prop} {a b : List Ev} (h : LocOk srcs l a) (hb : Between P a b) (hp : ¬ P l.num) : LocOk srcs l b := by
  rcases h with ⟨h, h1 | h1⟩ | ⟨h1, h2, h3⟩
  · exact Or.inl ⟨h, Or.inl h1⟩
  · exact Or.inl ⟨h, Or.inr ⟨h1.1, hb.mem h1.2⟩⟩
  · refine Or.inr ⟨h1, hb.notMem h2 hp, fun es he e hm hv => ?_⟩
    obtain ⟨d, h4, h5⟩ := h3 es he e hm hv
    exact ⟨d, hb.mem h4, h5⟩

theorem LocOk.snoc {l : RLoc} {e : Ev} (h : LocOk srcs l log) (he : e ≠ .rescan l.num) : LocOk srcs l (log ++ [e]) := by
  rcases h with ⟨h, h1 | h1⟩ | ⟨h1, h2, h3⟩
  · exact Or.inl ⟨h, Or.inl h1⟩
  · exact Or.inl ⟨h, Or.inr ⟨h1.1, List.mem_append_left _ h1.2⟩⟩
  · refine Or.inr ⟨h1, by simp [h2, he.symm], fun es he e hm hv => ?_⟩
    obtain ⟨d, h4, h5⟩ := h3 es he e hm hv
    exact ⟨d, List.mem_append_left _ h4, h5⟩

theorem tr_rescan {l : RLoc} (hk : K H segs srcs log) (hs : ∃ es, srcs[l.num]? = some (.side es)) (hn : Ev.rescan l.num ∉ log) :
    Tr (rescan l) log (fun r log' => K H segs srcs log' ∧ Between (· = l.num) log log' ∧ AllChecked r.2 ∧ r.2.num = l.num ∧ Ev.rescan l.num ∈ log' ∧
      (r.1 = true → r.2.idx ≠ none)) (Halt H segs srcs) := by
  unfold rescan
  refine Tr.emit.bind fun _ log' h => ?_
  subst h
  have hk' := hk.rescan hs hn
  have hb : Between (· = l.num) log (log ++ [.rescan l.num]) := Between.one (fun k h => by simpa using h.symm) rfl
  refine (Tr.next (.killed hk')).bind fun a log' hl => ?_
  subst hl
  cases a with
  | scan r =>
    cases r with
    | none => exact Tr.pure ⟨hk', hb, fun es h => by simp at h, rfl, by simp, fun h => by simp at h⟩
    | some ss =>
      refine Tr.pure ⟨hk', hb, fun es h e he => ?_, rfl, by simp, fun _ => by simp⟩
      simp at h
      subst h
      simp at he
      obtain ⟨s, -, he⟩ := he
      rw [← he]
  | _ => exact Tr.stop (.killed hk')

theorem mem_modify {es : List Entry} {i : Nat} {f : Entry → Entry} {x : Entry} (h : x ∈ es.modify i f) :
    x ∈ es ∨ ∃ e, es[i]? = some e ∧ x = f e := by
  obtain ⟨j, hj, he⟩ := List.mem_iff_getElem.1 h
  rw [List.getElem_modify] at he
  split at he
  · next hij =>
    subst hij
    rw [List.length_modify] at hj
    exact Or.inr ⟨es[i], List.getElem?_eq_getElem hj, he.symm⟩
  · rw [← he]
    exact Or.inl (List.getElem_mem _)

/-- What a lookup in a local store leaves behind. -/
structure LAfter (H : Hasher) (segs : List Seg) (srcs : List Source) (l : RLoc) (id : Id) (out : Bytes) (log : List Ev)
    (r : Option Nat) (l' : RLoc) (out' : Bytes) (log' : List Ev) : Prop where
  k : K H segs srcs log'
  between : Between (· = l.num) log log'
  num : l'.num = l.num
  ok : LocOk srcs l' log'
  idx : r ≠ none → l'.idx ≠ none
  len : out'.length = out.length
  handed : Handed H id r out' log'

theorem tr_tryEntry {l : RLoc} {es : List Entry} {i : Nat} {e : Entry} {id : Id} {out : Bytes} (hk : K H segs srcs log)
    (hl : LocOk srcs l log) (hi : l.idx = some es) (he : es[i]? = some e) (hid : e.id = id) :
    Tr (tryEntry H l es i e id out) log (fun r log' =>
      match r with
      | (some r, l', out') => LAfter H segs srcs l id out log r l' out' log'
      | (none, l', out') => log' = log ∧ l' = l ∧ e.valid = false ∧ out'.length = out.length) (Halt H segs srcs) := by
  unfold tryEntry
  have hi' : l.idx ≠ none := by rw [hi]; simp
  have hem := List.mem_of_getElem? he
  split
  · exact Tr.pure ⟨hk, .refl, rfl, hl, fun h => absurd rfl h, rfl, fun k h => by simp at h⟩
  · next hlen =>
    refine (tr_readInto hk (by omega)).bind fun r log' h => ?_
    obtain ⟨ok, b⟩ := r
    obtain ⟨h1, h2⟩ := h
    subst h1
    dsimp only at h2
    have hbl : (b.take e.len).length = e.len := by rw [List.length_take]; omega
    cases ok with
    | false => exact Tr.pure ⟨hk, .refl, rfl, hl, fun h => absurd rfl h, h2, fun k h => by simp at h⟩
    | true =>
      dsimp only
      split
      · next hv =>
        refine Tr.emit.bind fun _ log'' h => ?_
        subst h
        have hb : Between (· = l.num) log' (log' ++ [.trusted (some l.num) id e.start (b.take e.len)]) := Between.one (fun k h => by simp at h) rfl
        have hso : SoundAt H.takes srcs log' (.trusted (some l.num) id e.start (b.take e.len)) := by
          rcases hl with ⟨-, ⟨es0, g1, g2⟩ | g⟩ | ⟨g1, -, g3⟩
          · have g3 := g2 es hi e hem
            rw [hid] at g3
            exact Or.inl ⟨es0, g1, by rw [hbl]; exact g3⟩
          · exact Or.inr ⟨g.1, Or.inl g.2⟩
          · obtain ⟨d, g4, g5⟩ := g3 es hi e hem hv
            exact Or.inr ⟨g1, Or.inr ⟨d, hid ▸ g4, g5.trans hbl.symm⟩⟩
        refine Tr.pure ⟨hk.step hso (by simp) rfl, hb, rfl, ?_, fun _ => hi', h2, fun k h => ?_⟩
        · exact hl.between (P := fun _ => False) (Between.one (fun k h => by simp at h) rfl) (by simp)
        · simp at h
          subst h
          exact ⟨by omega, fun _ => Or.inr ⟨some l.num, e.start, by simp⟩⟩
      · next hv =>
        refine (tr_digest (.killed hk)).bind fun h0 log' h => ?_
        obtain ⟨hd1, hdig⟩ := h
        subst hd1
        split
        · next hH =>
          refine Tr.emit.bind fun _ log'' h => ?_
          subst h
          have hside : Side srcs l log' := by
            rcases hl with ⟨g, -⟩ | g
            · exact absurd (g es hi e hem) hv
            · exact g
          have hb : ∀ {P}, Between P log' (log' ++ [.right l.num id (b.take e.len)]) := Between.one (fun k h => by simp at h) rfl
          refine Tr.pure ⟨hk.step ⟨hdig _ hH, hside.1⟩ (by simp) rfl, hb, rfl, ?_, fun _ => by simp, h2, fun k h => ?_⟩
          · refine Or.inr ⟨hside.1, (hb (P := fun _ => False)).notMem hside.2.1 (by simp), fun es' h x hx hxv => ?_⟩
            simp at h
            subst h
            rcases mem_modify hx with hx | ⟨e', h3, h4⟩
            · obtain ⟨d, h5, h6⟩ := hside.2.2 es hi x hx hxv
              exact ⟨d, List.mem_append_left _ h5, h6⟩
            · rw [he] at h3
              simp at h3
              subst h3
              subst h4
              exact ⟨b.take e.len, by simp [hid], hbl⟩
          · simp at h
            subst h
            exact ⟨by omega, fun _ => Or.inl (hdig _ hH)⟩
        · exact Tr.pure ⟨rfl, rfl, by simpa using hv, h2⟩

theorem tr_lGet_checked {l : RLoc} {id : Id} {out : Bytes} {fuel : Nat} (hk : K H segs srcs log)
    (hl : AllChecked l ∧ (Scanned srcs l ∨ Again srcs l log)) (hi : l.idx ≠ none) :
    Tr (lGet H (fuel + 1) l id out) log (fun r log' => LAfter H segs srcs l id out log r.1 r.2.1 r.2.2 log') (Halt H segs srcs) := by
  unfold lGet
  split
  · next h => exact absurd h hi
  · next es hes =>
    refine (tr_query hk).bind fun r log' h => ?_
    obtain ⟨h, hq⟩ := h
    subst h
    cases r with
    | none => exact Tr.pure ⟨hk, .refl, rfl, Or.inl hl, fun _ => hi, rfl, fun k h => by simp at h; omega⟩
    | some p =>
      obtain ⟨i, e⟩ := p
      obtain ⟨q1, q2⟩ := hq i e rfl
      refine (tr_tryEntry hk (Or.inl hl) hes q1 q2).bind fun r log' h => ?_
      obtain ⟨r, l', out'⟩ := r
      cases r with
      | some r => exact Tr.pure h
      | none =>
        obtain ⟨-, -, h, -⟩ := h
        rw [hl.1 es hes e (List.mem_of_getElem? q1)] at h
        simp at h

theorem tr_lGet {l : RLoc} {id : Id} {out : Bytes} (hk : K H segs srcs log)
    (hl : LocOk srcs l log) (hi : l.idx ≠ none) :
    Tr (lGet H 2 l id out) log (fun r log' => LAfter H segs srcs l id out log r.1 r.2.1 r.2.2 log') (Halt H segs srcs) := by
  rcases hl with hl | hl
  · exact tr_lGet_checked hk hl hi
  unfold lGet
  split
  · next h => exact absurd h hi
  · next es hes =>
    refine (tr_query hk).bind fun r log' h => ?_
    obtain ⟨h, hq⟩ := h
    subst h
    cases r with
    | none => exact Tr.pure ⟨hk, .refl, rfl, Or.inr hl, fun _ => hi, rfl, fun k h => by simp at h; omega⟩
    | some p =>
      obtain ⟨i, e⟩ := p
      obtain ⟨q1, q2⟩ := hq i e rfl
      refine (tr_tryEntry hk (Or.inr hl) hes q1 q2).bind fun r log'' h => ?_
      obtain ⟨r, l', out'⟩ := r
      cases r with
      | some r => exact Tr.pure h
      | none =>
        obtain ⟨h1, h2, -, h3⟩ := h
        subst h1; subst h2
        refine (tr_rescan hk hl.1 hl.2.1).bind fun r log3 h => ?_
        obtain ⟨ok, l2⟩ := r
        obtain ⟨k1, k2, k3, k4, k6, k5⟩ := h
        dsimp only at k3 k4 k5
        have hag : Again srcs l2 log3 := ⟨k4.symm ▸ hl.1, k4.symm ▸ k6⟩
        cases ok with
        | false => exact Tr.pure ⟨k1, k2, k4, Or.inl ⟨k3, Or.inr hag⟩, fun h => absurd rfl h, h3, fun k h => by simp at h⟩
        | true =>
          refine (tr_lGet_checked k1 ⟨k3, Or.inr hag⟩ (k5 rfl)).conseq fun r log4 h => ?_
          exact ⟨h.k, k2.trans (k4 ▸ h.between), h.num.trans k4, h.ok, h.idx, h.len.trans h3, h.handed⟩

theorem tr_hGet {id : Id} {out : Bytes} (hk : K H segs srcs log) :
    Tr (hGet H id out) log (fun r log' => log' = log ∧ r.2.length = out.length ∧ Handed H id r.1 r.2 log') (Halt H segs srcs) := by
  unfold hGet
  refine (Tr.next (.killed hk)).bind fun a log' hl => ?_
  subst hl
  cases a with
  | http d r =>
    dsimp only
    split
    · exact Tr.stop (.killed hk)
    · next hd =>
      have hlen := bufWrite_length' out d (by omega)
      cases r with
      | failed => exact Tr.pure ⟨rfl, hlen, fun k h => by simp at h⟩
      | nothing => exact Tr.pure ⟨rfl, hlen, fun k h => by simp at h; omega⟩
      | judged =>
        dsimp only
        refine (tr_digest (.killed hk)).bind fun h0 log' h => ?_
        obtain ⟨hd1, hdig⟩ := h
        subst hd1
        split
        · next hH =>
          refine Tr.pure ⟨rfl, hlen, fun k h => ?_⟩
          simp at h
          subst h
          exact ⟨by simp only; omega, fun _ => Or.inl (hdig _ hH)⟩
        · exact Tr.pure ⟨rfl, hlen, fun k h => by simp at h; omega⟩
  | _ => exact Tr.stop (.killed hk)

/-- The numbers of the local stores of a chain. -/
def num : RSub → Option Nat
  | ⟨.loc l, _⟩ => some l.num
  | _ => none

/-- A store of the chain is in order. -/
def SubOk (srcs : List Source) (log : List Ev) (s : RSub) : Prop :=
  match s.s with
  | .loc l => LocOk srcs l log ∧ (s.active = true → l.idx ≠ none)
  | .http => True
  | .target => .target ∈ srcs

theorem SubOk.between {s : RSub} {P : Nat → Prop} {a b : List Ev} (h : SubOk srcs a s) (hb : Between P a b) (hp : ∀ k, num s = some k → ¬ P k) :
    SubOk srcs b s := by
  obtain ⟨s, act⟩ := s
  cases s with
  | loc l => exact ⟨h.1.between hb (hp _ rfl), h.2⟩
  | http => trivial
  | target => exact h

/-- What asking the store leaves behind. -/
structure SAfter (H : Hasher) (segs : List Seg) (srcs : List Source) (s : RStore) (id : Id) (out : Bytes) (log : List Ev)
    (r : Option Nat) (s' : RStore) (out' : Bytes) (log' : List Ev) : Prop where
  k : K H segs srcs log'
  between : Between (fun k => num ⟨s, true⟩ = some k) log log'
  num : ∀ a b, num ⟨s', a⟩ = num ⟨s, b⟩
  ok : SubOk srcs log' ⟨s', r.isSome⟩
  len : out'.length = out.length
  handed : Handed H id r out' log'

theorem tr_sGet {t : RTgt} {s : RStore} {id : Id} {out : Bytes} (hk : K H segs srcs log) (hs : SubOk srcs log ⟨s, true⟩) (hto : TgtOk t log) :
    Tr (sGet H t s id out) log (fun r log' => SAfter H segs srcs s id out log r.1 r.2.1 r.2.2 log') (Halt H segs srcs) := by
  unfold sGet
  cases s with
  | loc l =>
    obtain ⟨h1, h2⟩ := hs
    refine (tr_lGet hk h1 (h2 rfl)).bind fun r log' h => ?_
    obtain ⟨r, l', out'⟩ := r
    have hnum : l'.num = l.num := h.num
    refine Tr.pure ⟨h.k, h.between.weaken fun k hk => (congrArg some hk.symm : some l.num = some k), fun a b => congrArg some hnum, ⟨h.ok, fun hr => h.idx ?_⟩, h.len, h.handed⟩
    intro hn
    dsimp only at hn
    simp [hn] at hr
  | http =>
    refine (tr_hGet hk).bind fun r log' h => ?_
    obtain ⟨r, out'⟩ := r
    obtain ⟨h1, h2, h3⟩ := h
    subst h1
    exact Tr.pure ⟨hk, .refl, fun _ _ => rfl, trivial, h2, h3⟩
  | target =>
    refine (tr_tGet hk hs hto).bind fun r log' h => ?_
    obtain ⟨r, out'⟩ := r
    obtain ⟨h1, ⟨ext, h2, h3⟩, h4, h5⟩ := h
    exact Tr.pure ⟨h1, ⟨ext, h2, fun k hk => absurd hk (h3 k).1, (h3 0).2⟩, fun _ _ => rfl, hs, h4, h5⟩

/-- A chain is in order. -/
structure ChainOk (srcs : List Source) (log : List Ev) (subs : List RSub) : Prop where
  each : ∀ s ∈ subs, SubOk srcs log s
  nodup : (subs.filterMap num).Nodup

/-- What asking the chain leaves behind. -/
structure CAfter (H : Hasher) (segs : List Seg) (srcs : List Source) (subs : List RSub) (id : Id) (out : Bytes) (log : List Ev)
    (r : Option Nat) (subs' : List RSub) (out' : Bytes) (log' : List Ev) : Prop where
  k : K H segs srcs log'
  between : Between (fun k => k ∈ subs.filterMap num) log log'
  nums : subs'.filterMap num = subs.filterMap num
  ok : ∀ s ∈ subs', SubOk srcs log' s
  len : out'.length = out.length
  handed : Handed H id r out' log'

theorem TgtOk.between {t : RTgt} {P : Nat → Prop} {a b : List Ev} (h : TgtOk t a) (hb : Between P a b) : TgtOk t b := by
  intro e he
  rw [hb.fm]
  exact h e he

theorem filterMap_num_cons (s : RSub) (subs : List RSub) :
    (s :: subs).filterMap num = (num s).toList ++ subs.filterMap num := by
  rw [List.filterMap_cons]
  cases num s <;> simp

theorem num_active (s : RStore) (a b : Bool) : num ⟨s, a⟩ = num ⟨s, b⟩ := by
  cases s <;> rfl

theorem CAfter.cons {s s' : RSub} {subs subs' : List RSub} {id : Id} {out out1 out' : Bytes} {log log1 log' : List Ev} {r : Option Nat}
    (hn : num s' = num s) (hnd : ((s :: subs).filterMap num).Nodup) (hb : Between (fun k => num s = some k) log log1) (hlen : out1.length = out.length)
    (hs : SubOk srcs log1 s') (h : CAfter H segs srcs subs id out1 log1 r subs' out' log') :
    CAfter H segs srcs (s :: subs) id out log r (s' :: subs') out' log' := by
  rw [filterMap_num_cons] at hnd
  refine ⟨h.k, ?_, ?_, ?_, h.len.trans hlen, h.handed⟩
  · refine (hb.weaken fun k hk => ?_).trans (h.between.weaken fun k hk => ?_)
    · rw [filterMap_num_cons, hk]; simp
    · rw [filterMap_num_cons]; exact List.mem_append_right _ hk
  · rw [filterMap_num_cons, filterMap_num_cons, h.nums, hn]
  · intro x hx
    rcases List.mem_cons.1 hx with hx | hx
    · subst hx
      refine hs.between h.between fun k hk hm => ?_
      rw [hn] at hk
      rw [hk] at hnd
      simp at hnd
      exact hnd.1 _ (by simpa using (List.mem_filterMap.1 hm).choose_spec.1) (List.mem_filterMap.1 hm).choose_spec.2
    · exact h.ok x hx

theorem tr_cGet {t : RTgt} {id : Id} : ∀ {subs : List RSub} {out : Bytes} {log : List Ev}, K H segs srcs log → ChainOk srcs log subs → TgtOk t log →
    Tr (cGet H t id subs out) log (fun r log' => CAfter H segs srcs subs id out log r.1 r.2.1 r.2.2 log') (Halt H segs srcs)
  | [], out, log, hk, _, _ => by
    exact Tr.pure ⟨hk, .refl, rfl, fun s hs => by simp at hs, rfl, fun k h => by simp at h; omega⟩
  | ⟨s, act⟩ :: subs, out, log, hk, hc, hto => by
    have hnd := hc.nodup
    have hnd' : (subs.filterMap num).Nodup := by
      rw [filterMap_num_cons] at hnd
      exact (List.nodup_append.1 hnd).2.1
    have htail : ∀ {P : Nat → Prop} {log'}, Between P log log' → (∀ k, P k → num ⟨s, act⟩ = some k) → ChainOk srcs log' subs := by
      intro P log' hb hP
      refine ⟨fun x hx => (hc.each x (List.mem_cons_of_mem _ hx)).between hb fun k hk hp => ?_, hnd'⟩
      have := hP k hp
      rw [filterMap_num_cons, this] at hnd
      simp at hnd
      exact hnd.1 x hx hk
    have hs := hc.each _ List.mem_cons_self
    unfold cGet
    split
    · refine (tr_cGet (out := out) hk (htail (P := fun _ => False) .refl (fun _ h => h.elim)) hto).bind fun r log' h => ?_
      obtain ⟨r, subs', out'⟩ := r
      exact Tr.pure (h.cons rfl hnd .refl rfl hs)
    · next ha =>
      have ha : act = true := by simpa using ha
      subst ha
      refine (tr_sGet hk hs hto).bind fun r log' h => ?_
      obtain ⟨r, s', out'⟩ := r
      have ht := htail h.between (fun _ h => h)
      have hto' := hto.between h.between
      match r, h with
      | none, h =>
        refine (tr_cGet h.k ht hto').bind fun r log'' h' => ?_
        obtain ⟨r, subs', out''⟩ := r
        exact Tr.pure (h'.cons (h.num _ _) hnd h.between h.len h.ok)
      | some 0, h =>
        refine (tr_cGet h.k ht hto').bind fun r log'' h' => ?_
        obtain ⟨r, subs', out''⟩ := r
        exact Tr.pure (h'.cons (h.num _ _) hnd h.between h.len h.ok)
      | some (n + 1), h =>
        have h0 : CAfter H segs srcs subs id out' log' (some (n + 1)) subs out' log' :=
          ⟨h.k, .refl, rfl, ht.each, rfl, h.handed⟩
        exact Tr.pure (h0.cons (s := ⟨s, true⟩) (h.num _ _) hnd h.between h.len h.ok)

/-! ### The loop -/

/-- The state between two regions; `prev` is the region before. -/
structure J (H : Hasher) (segs : List Seg) (srcs : List Source) (c : RCb) (prev : Option Seg) (log : List Ev) : Prop where
  k : K H segs srcs log
  chain : ChainOk srcs log c.subs
  tgt : TgtOk c.tgt log
  resume : c.resuming = true → c.last = none
  last : ∀ id, c.last = some id → ∃ s, prev = some s ∧ s.id = id ∧ s.len ≤ c.buf.length ∧
    (s.len ≠ 0 → H.takes (c.buf.take s.len) id ∨ ∃ k o, .trusted k id o (c.buf.take s.len) ∈ log)

theorem tr_tWrite {t : RTgt} {buf : Bytes} {s : Seg} {rest : List Seg} (hk : K H segs srcs log) (hr : log.filterMap finished ++ s :: rest = segs)
    (hlen : s.len ≤ buf.length) (hg : s.len ≠ 0 → H.takes (buf.take s.len) s.id ∨ ∃ k o, .trusted k s.id o (buf.take s.len) ∈ log) :
    Tr (tWrite t buf s) log (fun r log' => K H segs srcs log' ∧ (r.1 = true → (∃ d, log' = log ++ [.wrote s d true]) ∧ ∀ e ∈ r.2.idx, e ∈ t.idx ∨ e = ⟨s.off, s.len, false, s.id⟩)) (Halt H segs srcs) := by
  unfold tWrite
  split
  · omega
  · refine (Tr.next (.killed hk)).bind fun a log' hl => ?_
    subst hl
    cases a with
    | write ok k =>
      cases ok with
      | true =>
        refine Tr.emit.bind fun _ log'' h => ?_
        subst h
        have hk' := hk.wrote (d := buf.take s.len) (ok := true) hr ⟨buf.take s.len, by simp; omega, (List.take_length).symm, fun _ => rfl, hg⟩
        refine (tr_tAdd hk').bind fun t' log' h => ?_
        obtain ⟨h, ht⟩ := h
        subst h
        exact Tr.pure ⟨hk', fun _ => ⟨⟨_, rfl⟩, ht⟩⟩
      | false =>
        refine Tr.emit.bind fun _ log'' h => ?_
        subst h
        refine Tr.pure ⟨hk.wrote hr ⟨buf.take s.len, by simp; omega, ?_, fun h => by simp at h, hg⟩, fun h => by simp at h⟩
        rw [List.length_take]
        rcases Nat.le_total k (buf.take s.len).length with h | h
        · rw [Nat.min_eq_left h]
        · rw [Nat.min_eq_right h, List.take_of_length_le h, List.take_length]
    | cut k =>
      refine Tr.emit.bind fun _ log'' h => ?_
      subst h
      refine Tr.stop (.killed (hk.wrote hr ⟨buf.take s.len, by simp; omega, ?_, fun h => by simp at h, hg⟩))
      rw [List.length_take]
      rcases Nat.le_total k (buf.take s.len).length with h | h
      · rw [Nat.min_eq_left h]
      · rw [Nat.min_eq_right h, List.take_of_length_le h, List.take_length]
    | _ => exact Tr.stop (.killed hk)

theorem tr_fetch {c : RCb} {s : Seg} {prev : Option Seg} (h : J H segs srcs c prev log) (hreg : ∀ p, prev = some p → p.id = s.id → p.len = s.len) :
    Tr (fetch H c s) log (fun r log' => (r.1 = false → K H segs srcs log') ∧ (r.1 = true → J H segs srcs r.2 (some s) log' ∨
      (c.resuming = true ∧ J H segs srcs { r.2 with resuming := false } (some s) log')) ∧ log'.filterMap finished = log.filterMap finished ∧
      (r.1 = true → r.2.last = some s.id) ∧ r.2.buf.length = c.buf.length ∧ r.2.resuming = c.resuming) (Halt H segs srcs) := by
  unfold fetch
  split
  · next hl =>
    refine Tr.pure ⟨fun h => by simp at h, fun _ => Or.inl ⟨h.k, h.chain, h.tgt, h.resume, ?_⟩, rfl, fun _ => hl, rfl, rfl⟩
    intro id hid
    obtain ⟨p, hp, h1, h2, h3⟩ := h.last id hid
    rw [hl] at hid
    simp at hid
    subst hid
    have hlen := hreg p hp h1
    rw [hlen] at h2 h3
    exact ⟨s, rfl, rfl, h2, h3⟩
  · refine (tr_cGet h.k h.chain h.tgt).bind fun r log' ha => ?_
    obtain ⟨r, subs', buf'⟩ := r
    dsimp only at ha ⊢
    split
    · next hr =>
      have hch : ChainOk srcs log' subs' := ⟨ha.ok, by rw [ha.nums]; exact h.chain.nodup⟩
      have hlast : ∀ id, some s.id = some id → ∃ p, some s = some p ∧ p.id = id ∧ p.len ≤ buf'.length ∧
          (p.len ≠ 0 → H.takes (buf'.take p.len) id ∨ ∃ k o, .trusted k id o (buf'.take p.len) ∈ log') := by
        intro id hid
        simp at hid
        subst hid
        obtain ⟨h1, h2⟩ := ha.handed s.len hr
        exact ⟨s, rfl, rfl, h1, h2⟩
      refine Tr.pure ⟨fun h => by simp at h, fun _ => ?_, ha.between.fm, fun _ => rfl, ha.len, rfl⟩
      cases hc : c.resuming with
      | true => exact Or.inr ⟨rfl, ha.k, hch, h.tgt.between ha.between, fun h => by simp at h, hlast⟩
      | false => exact Or.inl ⟨ha.k, hch, h.tgt.between ha.between, fun h => by simp [hc] at h, hlast⟩
    · exact Tr.pure ⟨fun _ => ha.k, fun h => by simp at h, ha.between.fm, fun h => by simp at h, ha.len, rfl⟩

theorem tr_store {c : RCb} {s : Seg} {rest : List Seg} {prev : Option Seg} (h : J H segs srcs c prev log) (hreg : ∀ p, prev = some p → p.id = s.id → p.len = s.len)
    (hres : c.resuming = false) (hr : log.filterMap finished ++ s :: rest = segs) :
    Tr (store H c s) log (fun r log' => K H segs srcs log' ∧ (r.1 = true → J H segs srcs r.2 (some s) log' ∧
      log'.filterMap finished ++ rest = segs)) (Halt H segs srcs) := by
  unfold store
  refine (tr_fetch h hreg).bind fun r log' ha => ?_
  obtain ⟨ok, c'⟩ := r
  obtain ⟨h1, h2, h3, h4, h5, h6⟩ := ha
  cases ok with
  | false => exact Tr.pure ⟨h1 rfl, fun h => by simp at h⟩
  | true =>
    have hJ : J H segs srcs c' (some s) log' := by
      rcases h2 rfl with h2 | ⟨h2, -⟩
      · exact h2
      · rw [hres] at h2; simp at h2
    obtain ⟨p, hp, hid, hlen, hg⟩ := hJ.last s.id (h4 rfl)
    simp at hp
    subst hp
    have hr' : log'.filterMap finished ++ s :: rest = segs := by rw [h3]; exact hr
    refine (tr_tWrite hJ.k hr' hlen hg).bind fun r log'' hb => ?_
    obtain ⟨ok, t'⟩ := r
    obtain ⟨hb1, hb2⟩ := hb
    refine Tr.pure ⟨hb1, fun hok => ?_⟩
    dsimp only at hok hb2
    obtain ⟨⟨d, hd⟩, htg⟩ := hb2 hok
    subst hd
    have hbt : ∀ e, e ∈ log' → e ∈ log' ++ [.wrote s d true] := fun e he => List.mem_append_left _ he
    refine ⟨⟨hb1, ⟨fun x hx => ?_, hJ.chain.nodup⟩, fun e he => ?_, hJ.resume, fun id hid' => ?_⟩, ?_⟩
    · have := hJ.chain.each x hx
      obtain ⟨x, act⟩ := x
      cases x with
      | loc l => exact ⟨this.1.snoc (by simp), this.2⟩
      | http => trivial
      | target => exact this
    · rw [List.filterMap_append]
      rcases htg e he with he | he
      · exact List.mem_append_left _ (hJ.tgt e he)
      · subst he
        exact List.mem_append_right _ (by simp [finished])
    · obtain ⟨p, e1, e2, e3, e4⟩ := hJ.last id hid'
      exact ⟨p, e1, e2, e3, fun hne => (e4 hne).imp (fun h => h) (fun ⟨k, o, h⟩ => ⟨k, o, hbt _ h⟩)⟩
    · rw [List.filterMap_append, ← hr']
      simp [finished]

theorem tr_cb {c : RCb} {s : Seg} {rest : List Seg} {prev : Option Seg} (h : J H segs srcs c prev log) (hreg : ∀ p, prev = some p → p.id = s.id → p.len = s.len)
    (hr : log.filterMap finished ++ s :: rest = segs) :
    Tr (cb H c s) log (fun r log' => K H segs srcs log' ∧ (r.1 = true → J H segs srcs r.2 (some s) log' ∧
      log'.filterMap finished ++ rest = segs)) (Halt H segs srcs) := by
  unfold cb
  split
  · next hres =>
    split
    · exact Tr.pure ⟨h.k, fun h => by simp at h⟩
    · next hlen =>
      refine (tr_tCheck h.k (by omega)).bind fun r log' ha => ?_
      obtain ⟨r, t', buf'⟩ := r
      obtain ⟨h1, h2, htg, h3⟩ := ha
      subst h1
      dsimp only at h2 h3 htg
      have hnone := h.resume hres
      have hJ' : r ≠ some true → J H segs srcs { c with tgt := t', buf := buf', resuming := false } prev log' := fun hne =>
        ⟨h.k, h.chain, fun e he => h.tgt e ((htg e he).resolve_right fun h => hne h.1), fun h => by simp at h, fun id hid => by simp [hnone] at hid⟩
      match r, h3, hJ', htg with
      | some true, h3, _, htg =>
        refine Tr.emit.bind fun _ log'' he => ?_
        subst he
        have hk' := h.k.kept (d := buf'.take s.len) hr ⟨by simp; omega, h3 rfl⟩
        refine Tr.pure ⟨hk', fun _ => ⟨⟨hk', ⟨fun x hx => ?_, h.chain.nodup⟩, fun e he => ?_, fun _ => hnone, fun id hid => ?_⟩, ?_⟩⟩
        · have := h.chain.each x hx
          obtain ⟨x, act⟩ := x
          cases x with
          | loc l => exact ⟨this.1.snoc (by simp), this.2⟩
          | http => trivial
          | target => exact this
        · rw [List.filterMap_append]
          rcases htg e he with he | ⟨-, he⟩
          · exact List.mem_append_left _ (h.tgt e he)
          · subst he
            exact List.mem_append_right _ (by simp [finished])
        · simp [hnone] at hid
        · rw [List.filterMap_append, ← hr]
          simp [finished]
      | some false, _, hJ', _ => exact tr_store (hJ' (by simp)) hreg rfl hr
      | none, _, hJ', _ => exact tr_store (hJ' (by simp)) hreg rfl hr
  · next hres => exact tr_store h hreg (by simpa using hres) hr

theorem tr_loop : ∀ {rest : List Seg} {c : RCb} {prev : Option Seg} {log : List Ev}, J H segs srcs c prev log →
    Regular (prev.toList ++ rest) → log.filterMap finished ++ rest = segs →
    Tr (loop H c rest) log (fun r log' => K H segs srcs log' ∧ (r = true → log'.filterMap finished = segs)) (Halt H segs srcs)
  | [], c, prev, log, h, _, hr => by
    refine Tr.pure ⟨h.k, fun _ => ?_⟩
    rw [← hr, List.append_nil]
  | s :: rest, c, prev, log, h, hreg, hr => by
    unfold loop
    have h1 : ∀ p, prev = some p → p.id = s.id → p.len = s.len := by
      intro p hp hid
      subst hp
      exact hreg [] p s rest (by simp) hid
    refine (tr_cb h h1 hr).bind fun r log' ha => ?_
    obtain ⟨ok, c'⟩ := r
    cases ok with
    | false => exact Tr.pure ⟨ha.1, fun h => by simp at h⟩
    | true =>
      obtain ⟨hJ, hr'⟩ := ha.2 rfl
      refine tr_loop hJ ?_ hr'
      intro a x y b hab hid
      refine hreg (prev.toList ++ a) x y b ?_ hid
      rw [List.append_assoc, ← hab]
      rfl

theorem num_chainFrom : ∀ {srcs : List Source} {k j : Nat}, j ∈ (chainFrom k srcs).filterMap num → k ≤ j
  | [], k, j, h => by simp [chainFrom] at h
  | s :: ss, k, j, h => by
    rw [chainFrom, filterMap_num_cons] at h
    rcases List.mem_append.1 h with h | h
    · cases s <;> simp [Source.store, num] at h <;> omega
    · have := num_chainFrom h
      omega

theorem chainFrom_ok : ∀ {srcs pre : List Source}, ChainOk (pre ++ srcs) [] (chainFrom pre.length srcs)
  | [], pre => ⟨fun s hs => by simp [chainFrom] at hs, by simp [chainFrom]⟩
  | s :: ss, pre => by
    have ih := chainFrom_ok (srcs := ss) (pre := pre ++ [s])
    simp only [List.length_append, List.length_singleton, List.append_assoc, List.singleton_append] at ih
    refine ⟨fun x hx => ?_, ?_⟩
    · rw [chainFrom] at hx
      rcases List.mem_cons.1 hx with hx | hx
      · subst hx
        cases s with
        | side es =>
          refine ⟨Or.inr ⟨⟨es, by simp⟩, by simp, fun es' h e he hv => ?_⟩, fun _ => by simp⟩
          simp at h
          subst h
          simp at he
          obtain ⟨q, -, he⟩ := he
          rw [← he] at hv
          simp at hv
        | scanned es =>
          refine ⟨Or.inl ⟨fun es' h e he => ?_, Or.inl ⟨es, by simp, fun es' h e he => ?_⟩⟩, fun _ => by simp⟩
          · simp at h
            subst h
            simp at he
            obtain ⟨q, -, he⟩ := he
            rw [← he]
          · simp at h
            subst h
            simp at he
            obtain ⟨q, hq, he⟩ := he
            rw [← he]
            exact hq
        | http => trivial
        | target => exact List.mem_append_right _ List.mem_cons_self
      · exact ih.each x hx
    · rw [chainFrom, filterMap_num_cons]
      refine List.nodup_append.2 ⟨by cases h : num ⟨s.store pre.length, true⟩ <;> simp, ih.nodup, fun a ha b hb hab => ?_⟩
      subst hab
      have := num_chainFrom hb
      cases s <;> simp [Source.store, num] at ha <;> omega

theorem tr_sync {bufMax : Nat} {srcs : List Source} {segs : List Seg} (hreg : Regular segs) :
    Tr (sync H bufMax srcs segs) [] (fun r log' => K H segs srcs log' ∧ (r = true → log'.filterMap finished = segs)) (Halt H segs srcs) := by
  refine tr_loop (prev := none) ⟨⟨soundRun_nil, by simp, by simp, fun a e b h => by simp at h⟩, chainFrom_ok (pre := []), fun e he => by simp at he, fun _ => rfl, fun id h => by simp at h⟩ ?_ (by simp)
  exact hreg

end Csn.Race
