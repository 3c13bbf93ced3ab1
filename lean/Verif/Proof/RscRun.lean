import Verif.Proof.Rsc
/-
The resources of a whole run.
-/
namespace Csn.Rsc
open R

/-! ### target.c -/

/-- The blocks of the target. -/
def tgtBlks (t : Tgt) : List Nat := t.blk :: t.ents.toList

theorem targetNew_spec {B : Base} {F M : List Nat} (hP : F.length + B.fds.length + B.k + 1 ≤ B.P)
    (hQ : M.length + B.mem.length + 1 ≤ B.Q) :
    Spec B F M targetNew (fun a F1 M1 => ∀ t, a = some t → t.ents = none ∧ F1 = t.fd :: F ∧ M1 = t.blk :: M ∧ t.fd ∉ B.fds) := by
  unfold targetNew
  refine (Spec.alloc (by omega)).bind fun a F' M' ⟨hF, h⟩ => ?_
  subst hF
  rcases h with ⟨rfl, rfl⟩ | ⟨blk, rfl, rfl⟩
  · exact Spec.pure fun _ h => by cases h
  dsimp only
  refine (Spec.openFd (by omega)).bind fun a F1 M' ⟨hM, h⟩ => ?_
  subst hM
  rcases h with ⟨rfl, rfl⟩ | ⟨fd, rfl, rfl, _, hb⟩
  · exact (Spec.free (.refl _)).bind fun _ _ _ _ => Spec.pure fun _ h => by cases h
  · intro s hs
    refine ⟨fd :: F', blk :: M, fun t h => by cases h; exact ⟨rfl, rfl, rfl, hb⟩, ?_⟩
    exact { fds := hs.fds, kc := hs.kc, mem := hs.mem, peak := hs.peak, peakMem := hs.peakMem, nodup := hs.nodup, tgt := fun n hn => by cases hn; exact hb }

theorem targetAdd_spec {B : Base} {F M M' : List Nat} {t : Tgt} (hM : M.Perm (tgtBlks t ++ M')) :
    Spec B F M (targetAdd t) (fun t' F1 M1 => F1 = F ∧ t'.blk = t.blk ∧ t'.fd = t.fd ∧ t'.ents.isSome = t.ents.isSome ∧
      M1.Perm (tgtBlks t' ++ M')) := by
  unfold targetAdd
  cases he : t.ents with
  | none =>
    simp only [if_true]
    exact Spec.pure ⟨rfl, rfl, rfl, by rw [he], hM⟩
  | some e =>
    have hm : M.Perm (e :: t.blk :: M') := by
      refine hM.trans ?_
      simp only [tgtBlks, he, Option.toList_some, List.cons_append, List.nil_append]
      exact List.Perm.swap _ _ _
    simp only [reduceCtorEq, if_false]
    refine (indexQuery_spec (hm.symm.subset (by simp))).bind fun b F1 M1 ⟨h1, h2⟩ => ?_
    subst h1; subst h2
    cases b
    · simp only [Bool.false_eq_true, if_false]
      refine (indexInsert_spec hm).bind fun r F1 M1 ⟨h1, e', h2, h3⟩ => ?_
      subst h1
      refine Spec.pure ⟨rfl, rfl, rfl, by simp [h2], h3.trans ?_⟩
      simp only [tgtBlks, h2, Option.toList_some, List.cons_append, List.nil_append]
      exact List.Perm.swap _ _ _
    · exact Spec.pure ⟨rfl, rfl, rfl, by simp [he], hM⟩

theorem targetGet_spec {B : Base} {F M : List Nat} {t : Tgt} (hM : ∀ e, t.ents = some e → e ∈ M) :
    Spec B F M (targetGet t) (fun _ F1 M1 => F1 = F ∧ M1 = M) := by
  unfold targetGet
  cases he : t.ents with
  | none =>
    simp only [if_true]
    exact Spec.pure ⟨rfl, rfl⟩
  | some e =>
    simp only [reduceCtorEq, if_false]
    refine (indexQuery_spec (hM e he)).bind fun b F1 M1 ⟨h1, h2⟩ => ?_
    subst h1; subst h2
    cases b
    · exact Spec.pure ⟨rfl, rfl⟩
    · simp only [if_true]
      exact Spec.askIf (Spec.pure ⟨rfl, rfl⟩) (Spec.pure ⟨rfl, rfl⟩)

/-! ### store.c -/

/-- The blocks of a store in the chain.  A local store that was deactivated may have lost its array. -/
def Owns : Store × Bool → List Nat → Prop
  | (.target, _), O => O = []
  | (.loc l, a), O => (∃ e, l.ents = some e ∧ O = [e, l.blk]) ∨ (a = false ∧ O = [l.blk])
  | (.http h, _), O => O = httpBlks h

/-- The blocks of the stores of a chain. -/
inductive SubsOwn : List (Store × Bool) → List Nat → Prop where
  | nil : SubsOwn [] []
  | cons {x : Store × Bool} {O : List Nat} {r : List (Store × Bool)} {O' : List Nat} : Owns x O → SubsOwn r O' → SubsOwn (x :: r) (O ++ O')

/-- How many blocks a store has at most. -/
def cap : Store → Nat
  | .target => 0
  | .loc _ => 2
  | .http h => 6 + h.enc.toList.length

def caps (l : List (Store × Bool)) : Nat := (l.map fun x => cap x.1).sum

/-- The descriptor of a store. -/
def fdOf : Store → List Nat
  | .loc l => [l.fd]
  | _ => []

def fdsOf (l : List (Store × Bool)) : List Nat := l.flatMap fun x => fdOf x.1

theorem Owns.length {x : Store × Bool} {O : List Nat} (h : Owns x O) : O.length ≤ cap x.1 := by
  obtain ⟨s, a⟩ := x
  cases s with
  | target => unfold Owns at h; subst h; simp
  | loc l =>
    unfold Owns at h
    rcases h with ⟨e, _, rfl⟩ | ⟨_, rfl⟩ <;> simp [cap]
  | http h' =>
    unfold Owns at h
    subst h
    simp only [httpBlks, cap, List.length_append, List.length_cons, List.length_nil]
    cases h'.dec <;> simp

theorem SubsOwn.length {l : List (Store × Bool)} {O : List Nat} (h : SubsOwn l O) : O.length ≤ caps l := by
  induction h with
  | nil => simp
  | cons h1 _ ih =>
    have := h1.length
    simp only [caps, List.map_cons, List.sum_cons, List.length_append] at ih ⊢
    omega

theorem storeGet_spec {B : Base} {F M M' O : List Nat} {t : Tgt} {s : Store} (hO : Owns (s, true) O) (hM : M.Perm (O ++ M'))
    (ht : ∀ e, t.ents = some e → e ∈ M') (hQ : M'.length + cap s + B.mem.length ≤ B.Q) :
    Spec B F M (storeGet t s) (fun r F1 M1 => F1 = F ∧ cap r.2 = cap s ∧ fdOf r.2 = fdOf s ∧
      ∃ O', Owns (r.2, decide (r.1 ≠ .fail)) O' ∧ M1.Perm (O' ++ M')) := by
  cases s with
  | target =>
    unfold Owns at hO
    subst hO
    unfold storeGet
    refine (targetGet_spec fun e he => hM.symm.subset (by simpa using ht e he)).bind fun g F1 M1 ⟨h1, h2⟩ => ?_
    subst h1; subst h2
    exact Spec.pure ⟨rfl, rfl, rfl, [], rfl, hM⟩
  | loc l =>
    unfold Owns at hO
    rcases hO with ⟨e, he, rfl⟩ | ⟨h, _⟩
    · unfold storeGet
      simp only [cap] at hQ
      have hl : Spec B F M (fun st => localGet (st.ans.length + 1) l st) (fun r F1 M1 => F1 = F ∧ r.2.blk = l.blk ∧ r.2.fd = l.fd ∧
          ((∃ e', r.2.ents = some e' ∧ M1.Perm (e' :: l.blk :: M')) ∨ (r.1 = .fail ∧ M1.Perm (l.blk :: M')))) :=
        fun st hs => localGet_spec (M' := l.blk :: M') (by simp; omega) (st.ans.length + 1) he hM st hs
      refine hl.bind fun r F1 M1 ⟨h1, h2, h3, h⟩ => ?_
      subst h1
      rcases h with ⟨e', h4, h5⟩ | ⟨h4, h5⟩
      · exact Spec.pure ⟨rfl, rfl, by simp [fdOf, h3], _, .inl ⟨e', h4, rfl⟩, by rw [h2]; exact h5⟩
      · exact Spec.pure ⟨rfl, rfl, by simp [fdOf, h3], _, .inr ⟨by simp [h4], rfl⟩, by rw [h2]; exact h5⟩
    · cases h
  | http h =>
    unfold Owns at hO
    subst hO
    unfold storeGet
    simp only [cap] at hQ
    refine (httpGet_spec hM (by omega)).bind fun r F1 M1 ⟨h1, d, h2, h3⟩ => ?_
    subst h1
    exact Spec.pure ⟨rfl, by rw [h2]; rfl, rfl, _, rfl, h3⟩

theorem subsGet_spec {B : Base} {F : List Nat} {t : Tgt} : ∀ {subs : List (Store × Bool)} {M M' O : List Nat}, SubsOwn subs O →
    M.Perm (O ++ M') → (∀ e, t.ents = some e → e ∈ M') → M'.length + caps subs + B.mem.length ≤ B.Q →
    Spec B F M (subsGet t subs) (fun r F1 M1 => F1 = F ∧ caps r.2 = caps subs ∧ fdsOf r.2 = fdsOf subs ∧
      ∃ O', SubsOwn r.2 O' ∧ M1.Perm (O' ++ M')) := by
  intro subs
  induction subs with
  | nil =>
    intro M M' O hO hM _ _
    unfold subsGet
    exact Spec.pure ⟨rfl, rfl, rfl, O, hO, hM⟩
  | cons x r ih =>
    intro M M' O hO hM ht hQ
    obtain ⟨s, a⟩ := x
    cases hO with
    | cons h1 h2 =>
    rename_i O1 O2
    have hcaps : ∀ (y : Store × Bool) (l : List (Store × Bool)), caps (y :: l) = cap y.1 + caps l := fun y l => by simp [caps]
    have hfds : ∀ (y : Store × Bool) (l : List (Store × Bool)), fdsOf (y :: l) = fdOf y.1 ++ fdsOf l := fun y l => by simp [fdsOf]
    rw [hcaps] at hQ
    have l1 := h1.length
    have l2 := h2.length
    dsimp only at hQ l1
    have rest : ∀ {M1 O1' : List Nat} {s' : Store} {a' : Bool}, Owns (s', a') O1' → cap s' = cap s → fdOf s' = fdOf s → M1.Perm (O1' ++ (O2 ++ M')) →
        Spec B F M1 (do let x ← subsGet t r; return (x.1, (s', a') :: x.2)) (fun q F1 M1 => F1 = F ∧ caps q.2 = caps ((s, a) :: r) ∧
          fdsOf q.2 = fdsOf ((s, a) :: r) ∧ ∃ O', SubsOwn q.2 O' ∧ M1.Perm (O' ++ M')) := by
      intro M1 O1' s' a' ho hc hf hp
      have l3 := ho.length
      simp only [hc] at l3
      have hp2 : M1.Perm (O2 ++ (O1' ++ M')) := by
        refine hp.trans ?_
        rw [← List.append_assoc, ← List.append_assoc]
        exact List.perm_append_comm.append_right _
      refine (ih h2 hp2 (fun e he => List.mem_append_right _ (ht e he)) (by simp only [List.length_append]; omega)).bind
        fun q F1 M2 ⟨g1, g2, g3, O', g4, g5⟩ => ?_
      subst g1
      refine Spec.pure ⟨rfl, ?_, ?_, O1' ++ O', .cons ho g4, ?_⟩
      · rw [hcaps, hcaps, g2, hc]
      · rw [hfds, hfds, g3, hf]
      · refine g5.trans ?_
        rw [← List.append_assoc]
        exact List.perm_append_comm.append_right _
    rw [List.append_assoc] at hM
    cases a with
    | false =>
      unfold subsGet
      exact rest h1 rfl rfl hM
    | true =>
      unfold subsGet
      refine (storeGet_spec h1 hM (fun e he => List.mem_append_right _ (ht e he)) (by simp only [List.length_append]; omega)).bind
        fun g F1 M1 ⟨g1, g2, g3, O', g4, g5⟩ => ?_
      subst g1
      obtain ⟨got, s'⟩ := g
      dsimp only at g2 g3 g4 ⊢
      cases got with
      | data =>
        refine Spec.pure ⟨rfl, ?_, ?_, O' ++ O2, .cons g4 h2, ?_⟩
        · rw [hcaps, hcaps, g2]
        · rw [hfds, hfds, g3]
        · rw [List.append_assoc]; exact g5
      | nothing => exact rest g4 g2 g3 g5
      | fail => exact rest g4 g2 g3 g5

/-- The blocks of chain, target and stores; `L` are those nobody refers to any more. -/
def Has (t : Tgt) (c : Chain) (L M : List Nat) : Prop :=
  ∃ O, SubsOwn c.subs O ∧ M.Perm (c.blk :: c.arr :: (tgtBlks t ++ (O ++ L)))

theorem Has.length {t : Tgt} {c : Chain} {L M : List Nat} (h : Has t c L M) : M.length ≤ 4 + caps c.subs + L.length := by
  obtain ⟨O, h1, h2⟩ := h
  have := h1.length
  rw [h2.length_eq]
  simp only [tgtBlks, List.length_cons, List.length_append]
  cases t.ents <;> simp <;> omega

theorem chainGet_spec {B : Base} {F M L : List Nat} {t : Tgt} {c : Chain} (h : Has t c L M)
    (hQ : 4 + caps c.subs + L.length + B.mem.length ≤ B.Q) :
    Spec B F M (chainGet t c) (fun r F1 M1 => F1 = F ∧ caps r.2.subs = caps c.subs ∧ fdsOf r.2.subs = fdsOf c.subs ∧ Has t r.2 L M1) := by
  obtain ⟨O, h1, h2⟩ := h
  unfold chainGet
  refine (Spec.use (h2.symm.subset (by simp))).bind fun _ F1 M1 ⟨g1, g2⟩ => ?_
  subst g1; subst g2
  have hp : ∀ X : List Nat, (c.blk :: c.arr :: (tgtBlks t ++ (X ++ L))).Perm (X ++ (c.blk :: c.arr :: (tgtBlks t ++ L))) := by
    intro X
    rw [List.perm_iff_count]
    intro a
    simp only [List.count_append, List.count_cons]
    omega
  refine (subsGet_spec h1 (h2.trans (hp O)) ?_ ?_).bind fun r F1 M2 ⟨g1, g2, g3, O', g4, g5⟩ => ?_
  · intro e he
    simp [tgtBlks, he]
  · simp only [tgtBlks, List.length_cons, List.length_append]
    cases t.ents <;> simp <;> omega
  · subst g1
    exact Spec.pure ⟨rfl, g2, g3, O', g4, g5.trans (hp O').symm⟩

theorem Has.swapTgt {t t' : Tgt} {c : Chain} {L M : List Nat} {X : List Nat} (h : Has t c L M)
    (hX : ∀ O, SubsOwn c.subs O → M.Perm (c.blk :: c.arr :: (tgtBlks t ++ (O ++ L))) → X.Perm (c.blk :: c.arr :: (tgtBlks t' ++ (O ++ L)))) :
    Has t' c L X := by
  obtain ⟨O, h1, h2⟩ := h
  exact ⟨O, h1, hX O h1 h2⟩

theorem targetAdd_has {B : Base} {F M L : List Nat} {t : Tgt} {c : Chain} (h : Has t c L M) :
    Spec B F M (targetAdd t) (fun t' F1 M1 => F1 = F ∧ t'.fd = t.fd ∧ Has t' c L M1) := by
  obtain ⟨O, h1, h2⟩ := h
  have hp : ∀ X : List Nat, (c.blk :: c.arr :: (X ++ (O ++ L))).Perm (X ++ (c.blk :: c.arr :: (O ++ L))) := by
    intro X
    rw [List.perm_iff_count]
    intro a
    simp only [List.count_append, List.count_cons]
    omega
  refine (targetAdd_spec (h2.trans (hp _))).mono fun t' F1 M1 ⟨g1, g2, g3, g4, g5⟩ => ⟨g1, g3, O, h1, g5.trans (hp _).symm⟩

/-! ### main.c -/

theorem chainNew_spec {B : Base} {F M : List Nat} (hQ : M.length + B.mem.length + 2 ≤ B.Q) :
    Spec B F M chainNew (fun a F1 M1 => F1 = F ∧ ∀ c, a = some c → c.subs = [] ∧ M1.Perm (c.blk :: c.arr :: M)) := by
  unfold chainNew
  refine (Spec.alloc (by omega)).bind fun a F' M' ⟨hF, h⟩ => ?_
  subst hF
  rcases h with ⟨rfl, rfl⟩ | ⟨blk, rfl, rfl⟩
  · exact Spec.pure ⟨rfl, fun _ h => by cases h⟩
  dsimp only
  refine (Spec.alloc (by simp; omega)).bind fun a F' M' ⟨hF, h⟩ => ?_
  subst hF
  rcases h with ⟨rfl, rfl⟩ | ⟨arr, rfl, rfl⟩
  · exact (Spec.free (.refl _)).bind fun _ F1 _ ⟨h1, _⟩ => by subst h1; exact Spec.pure ⟨rfl, fun _ h => by cases h⟩
  · exact Spec.pure ⟨rfl, fun c h => by cases h; exact ⟨rfl, List.Perm.swap _ _ _⟩⟩

theorem SubsOwn.snoc {l : List (Store × Bool)} {O X : List Nat} {x : Store × Bool} (h : SubsOwn l O) (hx : Owns x X) :
    SubsOwn (l ++ [x]) (O ++ X) := by
  induction h with
  | nil => simpa using SubsOwn.cons hx .nil
  | cons h1 h2 ih => rw [List.append_assoc]; exact .cons h1 ih

theorem chainAppend_spec {B : Base} {F M L X : List Nat} {t : Tgt} {c : Chain} {s : Store} {O : List Nat} (h1 : SubsOwn c.subs O)
    (hX : Owns (s, true) X) (h2 : M.Perm (c.blk :: c.arr :: (tgtBlks t ++ (O ++ (X ++ L))))) :
    Spec B F M (chainAppend c s) (fun r F1 M1 => F1 = F ∧ (r.1 = true → r.2.subs = c.subs ++ [(s, true)] ∧ Has t r.2 L M1)) := by
  have hO := h1.snoc hX
  have e : O ++ (X ++ L) = O ++ X ++ L := (List.append_assoc _ _ _).symm
  unfold chainAppend
  refine Spec.askIf ?_ ?_
  · refine (Spec.realloc (M' := c.blk :: (tgtBlks t ++ (O ++ (X ++ L)))) (h2.trans (List.Perm.swap _ _ _))).bind fun a F1 M1 ⟨hF, h⟩ => ?_
    subst hF
    rcases h with ⟨rfl, rfl⟩ | ⟨a, rfl, rfl⟩
    · exact Spec.pure ⟨rfl, fun h => by cases h⟩
    · refine Spec.pure ⟨rfl, fun _ => ⟨rfl, O ++ X, hO, ?_⟩⟩
      rw [← e]
      exact List.Perm.swap _ _ _
  · refine (Spec.use (h2.symm.subset (by simp))).bind fun _ F1 M1 ⟨g1, g2⟩ => ?_
    subst g1; subst g2
    refine Spec.pure ⟨rfl, fun _ => ⟨rfl, O ++ X, hO, ?_⟩⟩
    rw [← e]
    exact h2

/-- How many blocks an argument costs at most, and how many descriptors. -/
def cost : Arg → Nat
  | .target => 0
  | .url n => 6 + n
  | .file _ => 2

def files : Arg → Nat
  | .file _ => 1
  | _ => 0

/-- Cipher contexts nobody refers to: all but the last of a URL. -/
def lost : Arg → Nat
  | .url n => n - 1
  | _ => 0

theorem caps_snoc (l : List (Store × Bool)) (x : Store × Bool) : caps (l ++ [x]) = caps l + cap x.1 := by simp [caps]

theorem fdsOf_snoc (l : List (Store × Bool)) (x : Store × Bool) : fdsOf (l ++ [x]) = fdsOf l ++ fdOf x.1 := by simp [fdsOf]

theorem appendArg_spec {B : Base} {F M L : List Nat} {t : Tgt} {c : Chain} {a : Arg} (h : Has t c L M)
    (hP : F.length + B.fds.length + B.k + files a + 1 ≤ B.P)
    (hQ : 4 + caps c.subs + L.length + cost a + B.mem.length ≤ B.Q) :
    Spec B F M (appendArg t c a) (fun r F1 M1 => ∀ x, r = some x → x.1.fd = t.fd ∧
      ∃ s L', x.2.subs = c.subs ++ [(s, true)] ∧ F1 = fdOf s ++ F ∧ Has x.1 x.2 (L' ++ L) M1 ∧ L'.length = lost a ∧
        cap s + L'.length ≤ cost a ∧ (fdOf s).length = files a) := by
  have hl := h.length
  obtain ⟨O, h1, h2⟩ := h
  cases a with
  | target =>
    unfold appendArg
    unfold targetAsStore
    have fin : ∀ {t' : Tgt} {M1 : List Nat}, t'.fd = t.fd → M1.Perm (c.blk :: c.arr :: (tgtBlks t' ++ (O ++ L))) →
        Spec B F M1 (do let x ← chainAppend c .target; if x.1 = true then return some (t', x.2) else return none)
          (fun r F1 M1 => ∀ x, r = some x → x.1.fd = t.fd ∧
            ∃ s L', x.2.subs = c.subs ++ [(s, true)] ∧ F1 = fdOf s ++ F ∧ Has x.1 x.2 (L' ++ L) M1 ∧ L'.length = lost .target ∧
              cap s + L'.length ≤ cost .target ∧ (fdOf s).length = files .target) := by
      intro t' M1 hf hm
      refine (chainAppend_spec (X := []) (s := .target) (L := L) (t := t') h1 rfl (by simpa using hm)).bind fun r F1 M2 ⟨g1, g2⟩ => ?_
      subst g1
      cases hr : r.1
      · exact Spec.pure fun _ h => by cases h
      · refine Spec.pure fun x hx => ?_
        cases hx
        obtain ⟨g3, g4⟩ := g2 hr
        exact ⟨hf, .target, [], g3, rfl, g4, rfl, by simp [cap, cost], rfl⟩
    cases he : t.ents with
    | some e =>
      simp only [Option.isSome_some, if_true]
      exact fin rfl h2
    | none =>
      simp only [Option.isSome_none, Bool.false_eq_true, if_false]
      have hlen : M.length + B.mem.length + 1 ≤ B.Q := by
        rw [h2.length_eq]
        have := h1.length
        simp only [tgtBlks, he, Option.toList_none, List.length_cons, List.length_append, List.length_nil]
        omega
      refine ((indexInit_spec hlen).bind (p1 := _) (post := fun r F1 M1 => F1 = F ∧ (r.1 = true → r.2.fd = t.fd ∧
          M1.Perm (c.blk :: c.arr :: (tgtBlks r.2 ++ (O ++ L))))) fun r F1 M1 ⟨g1, g2⟩ => ?_).bind fun r F1 M1 ⟨g1, g2⟩ => ?_
      · subst g1
        cases hr : r.1
        · exact Spec.pure fun _ h => by cases h
        · simp only [if_true]
          exact fin (g2 hr).1 (g2 hr).2
      · subst g1
        rcases g2 with ⟨rfl, rfl⟩ | ⟨p, rfl, rfl⟩
        · exact Spec.pure ⟨rfl, fun h => by cases h⟩
        · refine Spec.pure ⟨rfl, fun _ => ⟨rfl, (h2.cons _).trans ?_⟩⟩
          simp only [tgtBlks, he, Option.toList_none, Option.toList_some]
          rw [List.perm_iff_count]
          intro a
          simp only [List.count_append, List.count_cons, List.count_nil]
          omega
  | url n =>
    unfold appendArg
    simp only [cost, files] at hP hQ
    refine (httpNew_spec n (by omega) (by omega)).bind fun r F1 M1 ⟨g1, g2⟩ => ?_
    subst g1
    cases r with
    | none => exact Spec.pure fun _ h => by cases h
    | some hh =>
      obtain ⟨g3, g4, L', g5, g6⟩ := g2 hh rfl
      dsimp only
      refine (chainAppend_spec (X := httpBlks hh) (s := .http hh) (L := L' ++ L) (t := t) h1 rfl (g5.trans ((h2.append_left _).trans ?_))).bind
        fun r F1 M2 ⟨k1, k2⟩ => ?_
      · rw [List.perm_iff_count]
        intro a
        simp only [List.count_append, List.count_cons]
        omega
      · subst k1
        cases hr : r.1
        · exact Spec.pure fun _ h => by cases h
        · refine Spec.pure fun x hx => ?_
          cases hx
          obtain ⟨k3, k4⟩ := k2 hr
          refine ⟨rfl, .http hh, L', k3, rfl, k4, g6, ?_, rfl⟩
          simp only [cap, cost, g6]
          cases he : hh.enc with
          | none => simp only [Option.toList_none, List.length_nil]; omega
          | some e => simp only [he, Option.isSome_some, Option.toList_some, List.length_cons, List.length_nil] at g4 ⊢; have := of_decide_eq_true g4.symm; omega
  | file side =>
    unfold appendArg
    simp only [cost, files] at hP hQ
    refine (localNew_spec side (by omega) (by omega)).bind fun r F1 M1 g2 => ?_
    cases r with
    | none => exact Spec.pure fun _ h => by cases h
    | some l =>
      obtain ⟨g3, e, g4, g5⟩ := g2 l rfl
      subst g3
      dsimp only
      refine (chainAppend_spec (X := [e, l.blk]) (s := .loc l) (L := L) (t := t) h1 (.inl ⟨e, g4, rfl⟩) (g5.trans (((h2.cons _).cons _).trans ?_))).bind
        fun r F1 M2 ⟨k1, k2⟩ => ?_
      · rw [List.perm_iff_count]
        intro a
        simp only [List.count_append, List.count_cons, List.count_nil]
        omega
      · subst k1
        cases hr : r.1
        · exact Spec.pure fun _ h => by cases h
        · refine Spec.pure fun x hx => ?_
          cases hx
          obtain ⟨k3, k4⟩ := k2 hr
          exact ⟨rfl, .loc l, [], k3, rfl, k4, rfl, by simp [cap, cost], rfl⟩

def total (f : Arg → Nat) (l : List Arg) : Nat := (l.map f).sum

theorem appendArgs_spec {B : Base} : ∀ {args : List Arg} {F M L : List Nat} {t : Tgt} {c : Chain}, Has t c L M →
    F.length + B.fds.length + B.k + total files args + 1 ≤ B.P →
    4 + caps c.subs + L.length + total cost args + B.mem.length ≤ B.Q →
    Spec B F M (appendArgs t c args) (fun r F1 M1 => ∀ x, r = some x → x.1.fd = t.fd ∧
      ∃ ss L', x.2.subs = c.subs ++ ss ∧ F1.Perm (fdsOf ss ++ F) ∧ Has x.1 x.2 (L' ++ L) M1 ∧ L'.length = total lost args ∧
        caps ss + L'.length ≤ total cost args ∧ (fdsOf ss).length = total files args ∧ ss.length = args.length) := by
  intro args
  induction args with
  | nil =>
    intro F M L t c h _ _
    unfold appendArgs
    refine Spec.pure fun x hx => ?_
    cases hx
    exact ⟨rfl, [], [], by simp, .refl _, h, rfl, by simp [caps], rfl, rfl⟩
  | cons a r ih =>
    intro F M L t c h hP hQ
    have ht : ∀ f, total f (a :: r) = f a + total f r := fun f => by simp [total]
    simp only [ht] at hP hQ
    unfold appendArgs
    refine (appendArg_spec h (by omega) (by omega)).bind fun q F1 M1 g => ?_
    cases q with
    | none => exact Spec.pure fun _ h => by cases h
    | some y =>
      obtain ⟨g1, s, L1, g2, g3, g4, g5, g6, g7⟩ := g y rfl
      subst g3
      dsimp only
      refine (ih g4 (by simp only [List.length_append]; omega) (by rw [g2, caps_snoc]; simp only [List.length_append]; omega)).mono
        fun q F2 M2 k x hx => ?_
      obtain ⟨k1, ss, L2, k2, k3, k4, k5, k6, k7, k8⟩ := k x hx
      refine ⟨k1.trans g1, (s, true) :: ss, L2 ++ L1, ?_, ?_, ?_, ?_, ?_, ?_, ?_⟩
      · rw [k2, g2]; simp
      · refine k3.trans ?_
        simp only [fdsOf, List.flatMap_cons]
        rw [← List.append_assoc]
        exact List.perm_append_comm.append_right _
      · rw [List.append_assoc]; exact k4
      · simp only [List.length_append, ht]; omega
      · simp only [List.length_append, ht, caps, List.map_cons, List.sum_cons] at k6 ⊢; omega
      · simp only [fdsOf, List.flatMap_cons, List.length_append, ht] at k7 ⊢; omega
      · simp [k8]

/-- What a run owns from the end of its initialisation on. -/
def Running (B : Base) (args : List Arg) (ifd : Nat) (x : Tgt × Chain) (F M : List Nat) : Prop :=
  F.Perm (fdsOf x.2.subs ++ [x.1.fd, ifd]) ∧ x.1.fd ∉ B.fds ∧ (fdsOf x.2.subs).length = total files args ∧
    ∃ L, Has x.1 x.2 L M ∧ L.length = total lost args ∧ caps x.2.subs + L.length ≤ total cost args

theorem startIndex_spec {B : Base} {args : List Arg} (hP : B.fds.length + B.k + total files args + 3 ≤ B.P)
    (hQ : 4 + total cost args + B.mem.length ≤ B.Q) :
    Spec B [] [] (startIndex args) (fun r F1 M1 => ∀ x, r = some x → Running B args x.1 x.2 F1 M1) := by
  unfold startIndex
  refine (Spec.openFd (by simp; omega)).bind fun a F' M' ⟨hM, h⟩ => ?_
  subst hM
  rcases h with ⟨rfl, rfl⟩ | ⟨ifd, rfl, rfl, _, _⟩
  · exact Spec.pure fun _ h => by cases h
  dsimp only
  refine Spec.askIf ?_ (Spec.pure fun _ h => by cases h)
  refine (targetNew_spec (by simp; omega) (by simp; omega)).bind fun a F' M' g => ?_
  cases a with
  | none => exact Spec.pure fun _ h => by cases h
  | some t =>
    obtain ⟨g1, rfl, rfl, g2⟩ := g t rfl
    dsimp only
    refine (chainNew_spec (by simp; omega)).bind fun a F' M' ⟨k1, k2⟩ => ?_
    subst k1
    cases a with
    | none => exact Spec.pure fun _ h => by cases h
    | some c =>
      obtain ⟨k3, k4⟩ := k2 c rfl
      dsimp only
      have hh : Has t c [] M' := ⟨[], by rw [k3]; exact .nil, by simpa [tgtBlks, g1] using k4⟩
      refine (appendArgs_spec hh (by simp; omega) (by rw [k3]; simp [caps]; omega)).bind fun a F' M' g => ?_
      cases a with
      | none => exact Spec.pure fun _ h => by cases h
      | some x =>
        obtain ⟨f1, ss, L, f2, f3, f4, f5, f6, f7, f8⟩ := g x rfl
        rw [k3, List.nil_append] at f2
        dsimp only
        refine Spec.pure fun y hy => ?_
        cases hy
        refine ⟨?_, by rw [f1]; exact g2, by rw [f2]; exact f7, L, by simpa using f4, f5, by rw [f2]; exact f6⟩
        rw [f2, f1]
        exact f3

theorem entryCb_spec {B : Base} {args : List Arg} {ifd : Nat} {x : Tgt × Chain} {F M : List Nat} (h : Running B args ifd x F M)
    (hQ : 4 + total cost args + B.mem.length ≤ B.Q) :
    Spec B F M (entryCb x) (fun r F1 M1 => Running B args ifd r.2 F1 M1) := by
  obtain ⟨h1, h2, h3, L, h4, h5, h6⟩ := h
  have same : ∀ b : Bool, Spec B F M (Pure.pure (b, x) : R (Bool × (Tgt × Chain))) (fun r F1 M1 => Running B args ifd r.2 F1 M1) :=
    fun b => Spec.pure ⟨h1, h2, h3, L, h4, h5, h6⟩
  unfold entryCb
  refine shaOnce_spec.bind fun _ F1 M1 ⟨k1, k2⟩ => ?_
  subst k1; subst k2
  have add : Spec B F1 M1 (do let t ← targetAdd x.1; return (true, (t, x.2))) (fun r F1 M1 => Running B args ifd r.2 F1 M1) :=
    (targetAdd_has h4).bind fun t F2 M2 ⟨k1, k2, k3⟩ => by
      subst k1
      exact Spec.pure ⟨by rw [k2]; exact h1, by rw [k2]; exact h2, h3, L, k3, h5, h6⟩
  refine Spec.askIf add (Spec.askIf (same _) (Spec.askIf (Spec.askIf add (same _)) ?_))
  refine (chainGet_spec h4 (by omega)).bind fun g F2 M2 ⟨k1, k2, k3, k4⟩ => ?_
  subst k1
  have hr : Running B args ifd (x.1, g.2) F2 M2 := ⟨by rw [k3]; exact h1, h2, by rw [k3]; exact h3, L, k4, h5, by rw [k2]; exact h6⟩
  refine Spec.askIf ?_ (Spec.pure hr)
  refine (targetAdd_has k4).bind fun t F3 M3 ⟨m1, m2, m3⟩ => ?_
  subst m1
  exact Spec.pure ⟨by rw [m2, k3]; exact h1, by rw [m2]; exact h2, by rw [k3]; exact h3, L, m3, h5, by rw [k2]; exact h6⟩

/-- The whole synchronisation. -/
theorem sync_spec {B : Base} {args : List Arg} (hP : B.fds.length + B.k + total files args + 3 ≤ B.P)
    (hQ : 4 + total cost args + B.mem.length ≤ B.Q) :
    SpecK B [] [] (sync B.kc args) (fun r F1 M1 => ∀ x, r = some x → Running B args x.1 x.2 F1 M1) := by
  have key : Spec B [] [] (do
      match ← startIndex args with
      | none => return none
      | some x =>
        let r ← iterate entryCb x.2
        if r.1 then return some (x.1, r.2) else return none) (fun r F1 M1 => ∀ x, r = some x → Running B args x.1 x.2 F1 M1) := by
    refine (startIndex_spec hP hQ).bind fun a F M g => ?_
    cases a with
    | none => exact Spec.pure fun _ h => by cases h
    | some x =>
      dsimp only
      refine (Spec.iterate (fun y F1 M1 => Running B args x.1 y F1 M1) (g x rfl) fun y F1 M1 h => entryCb_spec h hQ).bind
        fun r F1 M1 h => ?_
      cases hr : r.1
      · exact Spec.pure fun _ h => by cases h
      · refine Spec.pure fun z hz => ?_
        cases hz
        exact h
  cases hk : B.kc with
  | false => 
    unfold sync start
    simp only [Bool.false_eq_true, if_false]
    exact SpecK.of key
  | true =>
    have e : sync true args = (kcapiInit >>= fun b => if b = true then (do
      match ← startIndex args with
      | none => return none
      | some x =>
        let r ← iterate entryCb x.2
        if r.1 then return some (x.1, r.2) else return none) else return none) := by
      funext s
      unfold sync start
      simp only [if_true]
      show R.bind (R.bind kcapiInit _) _ s = R.bind kcapiInit _ s
      unfold R.bind
      generalize kcapiInit s = q
      obtain ⟨q1, q2⟩ := q
      cases q1 with
      | stop e => rfl
      | ok b => cases b <;> rfl
    rw [e]
    intro s hs
    have h1 := kcapiInit_spec (F := []) (M := []) hk (by simp [Base.k, hk] at hP ⊢; omega) s hs
    simp only [Bind.bind]
    unfold R.bind
    generalize kcapiInit s = r at h1 ⊢
    obtain ⟨r1, r2⟩ := r
    cases r1 with
    | stop e => exact h1
    | ok b =>
      obtain ⟨F', M', ⟨h2, h3⟩, ha⟩ := h1
      subst h2; subst h3
      cases b
      · exact ⟨[], [], (fun _ h => by cases h), ha⟩
      · exact key r2 ha

/-- Freeing a chain whose local stores are all active. -/
theorem subsFree_spec {B : Base} {F M' : List Nat} : ∀ {subs : List (Store × Bool)} {M O : List Nat}, SubsOwn subs O →
    (∀ l, (Store.loc l, false) ∉ subs) → M.Perm (O ++ M') →
    Spec B F M (subsFree subs) (fun _ F1 M1 => F1 = F ∧ M1.Perm M') := by
  intro subs
  induction subs with
  | nil =>
    intro M O h _ hM
    cases h
    exact Spec.pure ⟨rfl, by simpa using hM⟩
  | cons x r ih =>
    intro M O h hl hM
    cases h with
    | cons h1 h2 =>
    rename_i O1 O2
    rw [List.append_assoc] at hM
    obtain ⟨s, a⟩ := x
    unfold subsFree
    have hst : Spec B F M (storeFree s) (fun _ F1 M1 => F1 = F ∧ M1.Perm (O2 ++ M')) := by
      cases s with
      | target =>
        unfold Owns at h1
        subst h1
        exact Spec.pure ⟨rfl, by simpa using hM⟩
      | loc l =>
        unfold Owns at h1
        rcases h1 with ⟨e, he, rfl⟩ | ⟨h, _⟩
        · show Spec B F M (localFree l) _
          unfold localFree
          rw [he]
          refine (Spec.free hM).bind fun _ F1 M1 ⟨k1, k2⟩ => ?_
          subst k1; subst k2
          exact (Spec.free (.refl _)).mono fun _ _ _ ⟨g1, g2⟩ => ⟨g1, g2 ▸ .refl _⟩
        · subst h
          exact absurd (List.mem_cons_self ..) (hl l)
      | http h =>
        unfold Owns at h1
        subst h1
        exact httpFree_spec hM
    refine hst.bind fun _ F1 M1 ⟨k1, k2⟩ => ?_
    subst k1
    exact ih h2 (fun l hm => hl l (List.mem_cons_of_mem _ hm)) k2

theorem chainFree_spec {B : Base} {F M L : List Nat} {t : Tgt} {c : Chain} (h : Has t c L M) (hl : ∀ l, (Store.loc l, false) ∉ c.subs) :
    Spec B F M (chainFree c) (fun _ F1 M1 => F1 = F ∧ M1.Perm (tgtBlks t ++ L)) := by
  obtain ⟨O, h1, h2⟩ := h
  unfold chainFree
  refine (subsFree_spec (M' := c.arr :: c.blk :: (tgtBlks t ++ L)) h1 hl (h2.trans ?_)).bind fun _ F1 M1 ⟨k1, k2⟩ => ?_
  · rw [List.perm_iff_count]
    intro a
    simp only [List.count_append, List.count_cons]
    omega
  · subst k1
    refine (Spec.free k2).bind fun _ F2 M2 ⟨k1, k2⟩ => ?_
    subst k1; subst k2
    exact (Spec.free (.refl _)).mono fun _ _ _ ⟨g1, g2⟩ => ⟨g1, g2 ▸ .refl _⟩

/-- Programs that do nothing but free blocks. -/
def FreeOnly {α : Type} (m : R α) : Prop := ∀ s, (∃ l, (m s).2 = { s with mem := l }) ∧ ∀ e, (m s).1 = .stop e → e = .ub

theorem FreeOnly.pure {α : Type} (a : α) : FreeOnly (Pure.pure a : R α) := fun s => ⟨⟨s.mem, rfl⟩, fun _ h => by cases h⟩

theorem FreeOnly.bind {α β : Type} {m : R α} {f : α → R β} (hm : FreeOnly m) (hf : ∀ a, FreeOnly (f a)) : FreeOnly (m >>= f) := by
  intro s
  obtain ⟨⟨l, h1⟩, h2⟩ := hm s
  simp only [Bind.bind]
  unfold R.bind
  generalize m s = r at h1 h2 ⊢
  obtain ⟨r1, s'⟩ := r
  dsimp only at h1 h2
  subst h1
  cases r1 with
  | stop e => exact ⟨⟨l, rfl⟩, fun e' h => by cases h; exact h2 e rfl⟩
  | ok a =>
    obtain ⟨⟨l', h3⟩, h4⟩ := hf a { s with mem := l }
    exact ⟨⟨l', h3⟩, h4⟩

theorem FreeOnly.free (p : Option Nat) : FreeOnly (Rsc.free p) := by
  cases p with
  | none => exact FreeOnly.pure ()
  | some p =>
    intro s
    simp only [Rsc.free]
    split
    · exact ⟨⟨_, rfl⟩, fun _ h => by cases h⟩
    · exact ⟨⟨s.mem, rfl⟩, fun e h => by cases h; rfl⟩

theorem FreeOnly.store (x : Store) : FreeOnly (storeFree x) := by
  cases x with
  | target => exact .pure ()
  | loc l => exact (FreeOnly.free l.ents).bind fun _ => .free _
  | http h =>
    show FreeOnly (httpFree h)
    unfold httpFree encryptClose
    exact (FreeOnly.free _).bind fun _ => (FreeOnly.free _).bind fun _ => (FreeOnly.free _).bind fun _ =>
      (FreeOnly.free _).bind fun _ => (FreeOnly.free _).bind fun _ => (FreeOnly.free _).bind fun _ => .free _

theorem FreeOnly.subs : ∀ l, FreeOnly (subsFree l)
  | [] => .pure ()
  | (s, _) :: r => by
    unfold subsFree
    exact (FreeOnly.store s).bind fun _ => FreeOnly.subs r

theorem FreeOnly.chain (c : Chain) : FreeOnly (chainFree c) := by
  unfold chainFree
  exact (FreeOnly.subs c.subs).bind fun _ => (FreeOnly.free _).bind fun _ => .free _

end Csn.Rsc
