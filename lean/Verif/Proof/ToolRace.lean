import Verif.Spec.ToolRace
import Verif.Proof.Shared
/-
Proofs about several runs of csn-tool in the same directory (C89).
-/
namespace Csn.ToolRace
open Csn Csn.Props

/-- What the conversion of one file may do. -/
inductive Did (conv : Bytes → Bytes) (i o : Bytes) : Res Bool → List Ev → Prop where
  | there : Did conv i o (.ok true) [.look o true]
  | nothing {x : Res Bool} : x ≠ .ok true → Did conv i o x []
  | looked {x : Res Bool} : x ≠ .ok true → Did conv i o x [.look o false]
  | loaded {x : Res Bool} {d : Bytes} : x = .ok true → o = str "-" → Did conv i o x [.look o false, .got i d]
  | failed {x : Res Bool} {d : Bytes} : x ≠ .ok true → Did conv i o x [.look o false, .got i d]
  | opened {x : Res Bool} {d : Bytes} : x ≠ .ok true → o ≠ str "-" → Did conv i o x [.look o false, .got i d, .made o]
  | part {x : Res Bool} {d : Bytes} {k : Nat} : x ≠ .ok true → o ≠ str "-" → Did conv i o x [.look o false, .got i d, .made o, .put o ((conv d).take k) false]
  | all {d : Bytes} : o ≠ str "-" → Did conv i o (.ok true) [.look o false, .got i d, .made o, .put o (conv d) true]

theorem emit_did {conv : Bytes → Bytes} {i o d : Bytes} {ans : List Ans} :
    Did conv i o (emit o (conv d) ans).1 (.look o false :: .got i d :: (emit o (conv d) ans).2.1) := by
  unfold emit
  by_cases ho : o = str "-"
  · have : streq o (str "-") = true := by simp [streq, ho]
    rw [if_pos this]
    split
    · next ok _ _ =>
      cases ok with
      | true => exact .loaded rfl ho
      | false => exact .failed (by simp)
    · exact .failed (by simp)
  · have : ¬ streq o (str "-") = true := by simpa [streq] using ho
    rw [if_neg this]
    split
    · exact .failed (by simp)
    · exact .all ho
    · exact .part (by simp) ho
    · exact .part (by simp) ho
    · exact .opened (by simp) ho
    · exact .failed (by simp)

theorem load_did {conv : Bytes → Bytes} {i o : Bytes} {ans : List Ans} :
    Did conv i o (load conv i o ans).1 (.look o false :: (load conv i o ans).2.1) := by
  unfold load
  split
  · exact .looked (by simp)
  · exact .failed (by simp)
  · exact emit_did
  · exact .failed (by simp)
  · exact .looked (by simp)

theorem look_did {conv : Bytes → Bytes} {i o : Bytes} {ans : List Ans} : Did conv i o (look conv i o ans).1 (look conv i o ans).2.1 := by
  unfold look
  split
  · exact .there
  · exact .looked (by simp)
  · exact load_did
  · exact .looked (by simp)
  · exact .nothing (by simp)

/-- The step `e`, after the steps `a` and before the steps `b`, of a run with result `r` is in order. -/
def StepOk (conv : Id → Bytes → Bytes) (items : List (Bytes × Option Bytes)) (r : Res Bool) (a b : List Ev) : Ev → Prop
  | .look _ _ => True
  | .got i _ => ∃ out, (i, out) ∈ items
  | .made o => ∃ i id out d, (i, out) ∈ items ∧ chunkIdFromPath i = some id ∧ out.or (derivedOutput i) = some o ∧ o ≠ str "-" ∧ .look o false ∈ a ∧ .got i d ∈ a ∧
      (r = .ok true → ∃ b', b = .put o (conv id d) true :: b')
  | .put o d _ => ∃ i id out d0, (i, out) ∈ items ∧ chunkIdFromPath i = some id ∧ out.or (derivedOutput i) = some o ∧ o ≠ str "-" ∧ .got i d0 ∈ a ∧ .made o ∈ a ∧
      ∀ (k : Nat) (x : UInt8), d[k]? = some x → (conv id d0)[k]? = some x

/-- What is known about a run. -/
structure Facts (conv : Id → Bytes → Bytes) (items : List (Bytes × Option Bytes)) (r : Res Bool) (log : List Ev) : Prop where
  step : ∀ a e b, log = a ++ e :: b → StepOk conv items r a b e
  all : r = .ok true → ∀ i id out o, (i, out) ∈ items → chunkIdFromPath i = some id → out.or (derivedOutput i) = some o → o ≠ str "-" →
    .look o true ∈ log ∨ .made o ∈ log

theorem split_cons {α : Type} {x : α} {l a b : List α} {e : α} (h : x :: l = a ++ e :: b) : (a = [] ∧ e = x ∧ b = l) ∨ ∃ a', a = x :: a' ∧ l = a' ++ e :: b := by
  cases a with
  | nil =>
    simp only [List.nil_append, List.cons.injEq] at h
    exact Or.inl ⟨rfl, h.1.symm, h.2.symm⟩
  | cons y a =>
    simp only [List.cons_append, List.cons.injEq] at h
    exact Or.inr ⟨a, by rw [h.1], h.2⟩

theorem Did.facts {conv : Id → Bytes → Bytes} {i o : Bytes} {id : Id} {out : Option Bytes} {x : Res Bool} {evs : List Ev} (h : Did (conv id) i o x evs)
    (h1 : chunkIdFromPath i = some id) (h2 : out.or (derivedOutput i) = some o) : Facts conv [(i, out)] x evs := by
  have hit : (i, out) ∈ [(i, out)] := by simp
  refine ⟨fun a e b hab => ?_, fun hx i' id' out' o' m1 m2 m3 m4 => ?_⟩
  · have nil : ∀ {a b : List Ev} {e : Ev}, [] = a ++ e :: b → False := fun h => by simp at h
    cases h with
    | there =>
      rcases split_cons hab with ⟨-, rfl, -⟩ | ⟨a', -, h⟩
      · trivial
      · exact (nil h).elim
    | nothing => exact (nil hab).elim
    | looked =>
      rcases split_cons hab with ⟨-, rfl, -⟩ | ⟨a', -, h⟩
      · trivial
      · exact (nil h).elim
    | loaded | failed =>
      rcases split_cons hab with ⟨-, rfl, -⟩ | ⟨a', -, h⟩
      · trivial
      · rcases split_cons h with ⟨-, rfl, -⟩ | ⟨a', -, h⟩
        · exact ⟨out, hit⟩
        · exact (nil h).elim
    | opened hx ho =>
      rcases split_cons hab with ⟨-, rfl, -⟩ | ⟨a', ha, h⟩
      · trivial
      · rcases split_cons h with ⟨-, rfl, -⟩ | ⟨a'', ha', h⟩
        · exact ⟨out, hit⟩
        · rcases split_cons h with ⟨rfl, rfl, -⟩ | ⟨a3, ha3, h⟩
          · subst ha'; subst ha
            exact ⟨i, id, out, _, hit, h1, h2, ho, by simp, by simp; rfl, fun h => absurd h hx⟩
          · exact (nil h).elim
    | part hx ho =>
      rcases split_cons hab with ⟨-, rfl, -⟩ | ⟨a', ha, h⟩
      · trivial
      · rcases split_cons h with ⟨-, rfl, -⟩ | ⟨a'', ha', h⟩
        · exact ⟨out, hit⟩
        · rcases split_cons h with ⟨rfl, rfl, -⟩ | ⟨a3, ha3, h⟩
          · subst ha'; subst ha
            exact ⟨i, id, out, _, hit, h1, h2, ho, by simp, by simp; rfl, fun h => absurd h hx⟩
          · rcases split_cons h with ⟨rfl, rfl, -⟩ | ⟨a4, -, h⟩
            · subst ha3; subst ha'; subst ha
              refine ⟨i, id, out, _, hit, h1, h2, ho, by simp; rfl, by simp, fun k x hk => ?_⟩
              rw [List.getElem?_take] at hk
              split at hk
              · exact hk
              · simp at hk
            · exact (nil h).elim
    | all ho =>
      rcases split_cons hab with ⟨-, rfl, -⟩ | ⟨a', ha, h⟩
      · trivial
      · rcases split_cons h with ⟨-, rfl, -⟩ | ⟨a'', ha', h⟩
        · exact ⟨out, hit⟩
        · rcases split_cons h with ⟨rfl, rfl, rfl⟩ | ⟨a3, ha3, h⟩
          · subst ha'; subst ha
            exact ⟨i, id, out, _, hit, h1, h2, ho, by simp, by simp, fun _ => ⟨[], rfl⟩⟩
          · rcases split_cons h with ⟨rfl, rfl, -⟩ | ⟨a4, -, h⟩
            · subst ha3; subst ha'; subst ha
              exact ⟨i, id, out, _, hit, h1, h2, ho, by simp, by simp, fun k x hk => hk⟩
            · exact (nil h).elim
  · simp only [List.mem_singleton, Prod.mk.injEq] at m1
    obtain ⟨rfl, rfl⟩ := m1
    rw [h1] at m2
    rw [h2] at m3
    cases m2; cases m3
    cases h with
    | there => simp
    | nothing h => exact absurd hx h
    | looked h => exact absurd hx h
    | loaded _ h => exact absurd h m4
    | failed h => exact absurd hx h
    | opened h => exact absurd hx h
    | part h => exact absurd hx h
    | all => simp

theorem Facts.weaken {conv : Id → Bytes → Bytes} {i1 i2 : List (Bytes × Option Bytes)} {x : Res Bool} {a b : List Ev} {e : Ev} (h : StepOk conv i1 x a b e)
    (hs : ∀ p ∈ i1, p ∈ i2) : StepOk conv i2 x a b e := by
  cases e with
  | look => trivial
  | got => obtain ⟨out, h⟩ := h; exact ⟨out, hs _ h⟩
  | made => obtain ⟨i, id, out, d, h1, h⟩ := h; exact ⟨i, id, out, d, hs _ h1, h⟩
  | put => obtain ⟨i, id, out, d, h1, h⟩ := h; exact ⟨i, id, out, d, hs _ h1, h⟩

theorem StepOk.before {conv : Id → Bytes → Bytes} {items : List (Bytes × Option Bytes)} {x : Res Bool} {a b : List Ev} {e : Ev} (h : StepOk conv items x a b e)
    (a0 : List Ev) : StepOk conv items x (a0 ++ a) b e := by
  cases e with
  | look => trivial
  | got => exact h
  | made =>
    obtain ⟨i, id, out, d, h1, h2, h3, h0, h4, h5, h6⟩ := h
    exact ⟨i, id, out, d, h1, h2, h3, h0, List.mem_append_right _ h4, List.mem_append_right _ h5, h6⟩
  | put =>
    obtain ⟨i, id, out, d, h1, h2, h3, h4, h5, h6, h7⟩ := h
    exact ⟨i, id, out, d, h1, h2, h3, h4, List.mem_append_right _ h5, List.mem_append_right _ h6, h7⟩

theorem StepOk.after {conv : Id → Bytes → Bytes} {items : List (Bytes × Option Bytes)} {y : Res Bool} {a b : List Ev} {e : Ev} (h : StepOk conv items (.ok true) a b e)
    (b0 : List Ev) : StepOk conv items y a (b ++ b0) e := by
  cases e with
  | look => trivial
  | got => exact h
  | made =>
    obtain ⟨i, id, out, d, h1, h2, h3, h0, h4, h5, h6⟩ := h
    obtain ⟨b', hb⟩ := h6 rfl
    exact ⟨i, id, out, d, h1, h2, h3, h0, h4, h5, fun _ => ⟨b' ++ b0, by rw [hb]; rfl⟩⟩
  | put => exact h

theorem many_facts (conv : Id → Bytes → Bytes) : ∀ (items : List (Bytes × Option Bytes)) (ans : List Ans),
    Facts conv items (many conv items ans).1 (many conv items ans).2
  | [], _ => ⟨fun a e b h => by simp [many] at h, fun _ i id out o h => by simp at h⟩
  | (i, out) :: items, ans => by
    unfold many
    have h1 : Facts conv [(i, out)] (one conv i out ans).1 (one conv i out ans).2.1 := by
      unfold one
      have no : ∀ (h : ¬ ∃ id o, chunkIdFromPath i = some id ∧ out.or (derivedOutput i) = some o), Facts conv [(i, out)] (.ok false) [] := fun h =>
        ⟨fun a e b h => by simp at h, fun h => by simp at h⟩
      split
      · next h => exact no (by simp [h])
      · next id hid =>
        split
        · next h => exact no (by simp [h])
        · next o ho => exact look_did.facts hid ho
    generalize one conv i out ans = q at h1
    obtain ⟨x, evs, r⟩ := q
    have sub1 : ∀ p ∈ [(i, out)], p ∈ (i, out) :: items := by simp
    have sub2 : ∀ p ∈ items, p ∈ (i, out) :: items := fun p hp => List.mem_cons_of_mem _ hp
    by_cases hx : x = .ok true
    · subst hx
      have h2 := many_facts conv items r
      show Facts conv ((i, out) :: items) (many conv items r).1 (evs ++ (many conv items r).2)
      generalize (many conv items r).1 = y at h2 ⊢
      generalize (many conv items r).2 = evs' at h2 ⊢
      refine ⟨fun a e b hab => ?_, fun hy i' id' out' o' m1 m2 m3 m4 => ?_⟩
      · rcases List.append_eq_append_iff.1 hab with ⟨z, g1, g2⟩ | ⟨z, g1, g2⟩
        · rw [g1]
          exact (Facts.weaken (h2.step z e b g2) sub2).before evs
        · cases z with
          | nil =>
            rw [List.append_nil] at g1
            rw [← g1]
            have := (Facts.weaken (h2.step [] e b (by simpa using g2.symm)) sub2).before evs
            simpa using this
          | cons e' z =>
            simp only [List.cons_append, List.cons.injEq] at g2
            obtain ⟨rfl, g2⟩ := g2
            rw [g2]
            exact (Facts.weaken (h1.step a e z g1) sub1).after evs'
      · rcases List.mem_cons.1 m1 with m1 | m1
        · exact (h1.all rfl i' id' out' o' (by rw [m1]; simp) m2 m3 m4).imp (List.mem_append_left _) (List.mem_append_left _)
        · exact (h2.all hy i' id' out' o' m1 m2 m3 m4).imp (List.mem_append_right _) (List.mem_append_right _)
    · have hf : Facts conv ((i, out) :: items) x evs := ⟨fun a e b hab => Facts.weaken (h1.step a e b hab) sub1, fun h => absurd h hx⟩
      match x, hx with
      | .ok true, hx => exact absurd rfl hx
      | .ok false, _ => exact hf
      | .stop _, _ => exact hf

/-! ### Histories -/

theorem filesAfter_append : ∀ (h1 h2 : List (Nat × FAcc)) (f : Files), filesAfter f (h1 ++ h2) = filesAfter (filesAfter f h1) h2
  | [], _, _ => rfl
  | (_, .look _ _) :: h1, h2, f => filesAfter_append h1 h2 f
  | (_, .read _ _) :: h1, h2, f => filesAfter_append h1 h2 f
  | (_, .trunc _) :: h1, h2, _ => filesAfter_append h1 h2 _
  | (_, .put _ _ _) :: h1, h2, _ => filesAfter_append h1 h2 _

theorem truthful_append : ∀ (h1 h2 : List (Nat × FAcc)) (f : Files), Truthful f (h1 ++ h2) ↔ Truthful f h1 ∧ Truthful (filesAfter f h1) h2
  | [], _, _ => by simp [Truthful, filesAfter]
  | (_, .look _ _) :: h1, h2, f => by simp only [List.cons_append, Truthful, filesAfter, truthful_append h1 h2 f, and_assoc]
  | (_, .read _ _) :: h1, h2, f => by simp only [List.cons_append, Truthful, filesAfter, truthful_append h1 h2 f, and_assoc]
  | (_, .trunc _) :: h1, h2, _ => truthful_append h1 h2 _
  | (_, .put _ _ _) :: h1, h2, _ => truthful_append h1 h2 _

/-- The access changes the file. -/
def Touches (o : Bytes) : FAcc → Prop
  | .trunc o' => o' = o
  | .put o' _ _ => o' = o
  | _ => False

theorem untouched {o : Bytes} : ∀ {h : List (Nat × FAcc)} {f : Files}, (∀ x ∈ h, ¬ Touches o x.2) → filesAfter f h o = f o
  | [], _, _ => rfl
  | (_, .look _ _) :: h, _, hn => untouched (h := h) fun x hx => hn x (List.mem_cons_of_mem _ hx)
  | (_, .read _ _) :: h, _, hn => untouched (h := h) fun x hx => hn x (List.mem_cons_of_mem _ hx)
  | (q, .trunc o') :: h, f, hn => by
    have h1 : o' ≠ o := hn (q, .trunc o') List.mem_cons_self
    rw [filesAfter, untouched (h := h) fun x hx => hn x (List.mem_cons_of_mem _ hx)]
    exact if_neg (Ne.symm h1)
  | (q, .put o' off b) :: h, f, hn => by
    have h1 : o' ≠ o := hn (q, .put o' off b) List.mem_cons_self
    rw [filesAfter, untouched (h := h) fun x hx => hn x (List.mem_cons_of_mem _ hx)]
    exact if_neg (Ne.symm h1)

/-- Files stay. -/
theorem files_stay {o : Bytes} : ∀ {h : List (Nat × FAcc)} {f : Files}, (f o).isSome = true → (filesAfter f h o).isSome = true
  | [], _, hf => hf
  | (_, .look _ _) :: h, _, hf => files_stay (h := h) hf
  | (_, .read _ _) :: h, _, hf => files_stay (h := h) hf
  | (_, .trunc o') :: h, f, hf => files_stay (h := h) (by unfold Files.set; split <;> simp [hf])
  | (_, .put o' off b) :: h, f, hf => files_stay (h := h) (by unfold Files.set; split <;> simp [hf])

/-- A file that appears was created. -/
theorem file_made {o : Bytes} : ∀ {h : List (Nat × FAcc)} {f : Files}, f o = none → (filesAfter f h o).isSome = true → ∃ x ∈ h, Touches o x.2
  | [], _, h0, hf => by simp [filesAfter, h0] at hf
  | (_, .look _ _) :: h, _, h0, hf => by obtain ⟨x, h1, h2⟩ := file_made (h := h) h0 hf; exact ⟨x, List.mem_cons_of_mem _ h1, h2⟩
  | (_, .read _ _) :: h, _, h0, hf => by obtain ⟨x, h1, h2⟩ := file_made (h := h) h0 hf; exact ⟨x, List.mem_cons_of_mem _ h1, h2⟩
  | (q, .trunc o') :: h, f, h0, hf => by
    by_cases ho : o' = o
    · exact ⟨(q, .trunc o'), List.mem_cons_self, ho⟩
    · obtain ⟨x, h1, h2⟩ := file_made (h := h) (f := f.set o' []) (by unfold Files.set; rw [if_neg (Ne.symm ho), h0]) hf
      exact ⟨x, List.mem_cons_of_mem _ h1, h2⟩
  | (q, .put o' off b) :: h, f, h0, hf => by
    by_cases ho : o' = o
    · exact ⟨(q, .put o' off b), List.mem_cons_self, ho⟩
    · obtain ⟨x, h1, h2⟩ := file_made (h := h) (f := f.set o' (writeAt ((f o').getD []) off [b])) (by unfold Files.set; rw [if_neg (Ne.symm ho), h0]) hf
      exact ⟨x, List.mem_cons_of_mem _ h1, h2⟩

section
variable {jobs : Nat → ToolJob} {f want : Files} {h : List (Nat × FAcc)}

theorem job_facts (j : ToolJob) : Facts j.conv j.items j.run.1 j.run.2 := many_facts j.conv j.items j.ans

/-- An access in the history is one of a step; the steps before it were done before. -/
theorem access_step (ht : ToolsTogether jobs f h) {h1 h2 : List (Nat × FAcc)} {p : Nat} {x : FAcc} (hh : h = h1 ++ (p, x) :: h2) :
    ∃ a e b, (jobs p).run.2 = a ++ e :: b ∧ x ∈ fileAccesses e ∧ StepOk (jobs p).conv (jobs p).items (jobs p).run.1 a b e ∧
      ∀ e' ∈ a, ∀ y ∈ fileAccesses e', (p, y) ∈ h1 := by
  have hd : doneBy p h = doneBy p h1 ++ x :: doneBy p h2 := by rw [hh, Race.doneBy_append]; simp [doneBy]
  obtain ⟨a, e, b, x1, u, g1, g2, g3, g4⟩ := (ht.does p).split hd
  refine ⟨a, e, b, g1, g4, (job_facts (jobs p)).step a e b g1, fun e' he' y hy => ?_⟩
  have hm := g2.mem he' hy
  have hm : y ∈ doneBy p h1 := by rw [g3]; exact List.mem_append_left _ hm
  obtain ⟨u1, u2, hu⟩ := List.append_of_mem hm
  obtain ⟨k1, k2, hk, -⟩ := Race.doneBy_split hu
  rw [hk]
  simp

/-- Every byte written, every file made: for which input. -/
theorem touched_asked (ht : ToolsTogether jobs f h) {p : Nat} {x : FAcc} {o : Bytes} (hm : (p, x) ∈ h) (hx : Touches o x) :
    ∃ i id, (jobs p).Asked i id o := by
  obtain ⟨h1, h2, hh⟩ := List.append_of_mem hm
  obtain ⟨a, e, b, -, g2, g3, -⟩ := access_step ht hh
  cases e with
  | look o' c => simp [fileAccesses] at g2; subst g2; exact hx.elim
  | got i d => simp [fileAccesses] at g2; subst g2; exact hx.elim
  | made o' =>
    simp [fileAccesses] at g2
    subst g2
    obtain ⟨i, id, out, d, m1, m2, m3, m4, -⟩ := g3
    have hx : o' = o := hx
    subst hx
    exact ⟨i, id, out, m1, m2, m3, m4⟩
  | put o' d ok =>
    obtain ⟨k, c, -, rfl⟩ := Race.mem_byBytes (f := FAcc.put o') g2
    obtain ⟨i, id, out, d0, m1, m2, m3, m4, -⟩ := g3
    have hx : o' = o := hx
    subst hx
    exact ⟨i, id, out, m1, m2, m3, m4⟩

/-- Inputs do not change. -/
theorem read_input (ht : ToolsTogether jobs f h) (ha : Agree jobs f want) {p : Nat} {i d : Bytes} (hm : (p, .read i d) ∈ h)
    (hi : ∃ q out, (i, out) ∈ (jobs q).items) : f i = some d := by
  obtain ⟨h1, h2, hh⟩ := List.append_of_mem hm
  have htr := ht.truth
  rw [hh, truthful_append] at htr
  have := htr.2.1
  obtain ⟨q, out, hq⟩ := hi
  rw [untouched fun x hx hto => ?_] at this
  · exact this
  · obtain ⟨i', id, has⟩ := touched_asked ht (p := x.1) (x := x.2) (by rw [hh]; exact List.mem_append_left _ hx) hto
    exact ha.apart x.1 q i' id i i out has hq rfl

/-- Every byte written is right. -/
theorem put_want (ht : ToolsTogether jobs f h) (ha : Agree jobs f want) {p : Nat} {o : Bytes} {off : Nat} {b : UInt8} (hm : (p, .put o off b) ∈ h) :
    ∃ c, want o = some c ∧ c[off]? = some b := by
  obtain ⟨h1, h2, hh⟩ := List.append_of_mem hm
  obtain ⟨a, e, bs, g1, g2, g3, g4⟩ := access_step ht hh
  cases e with
  | look o' c => simp [fileAccesses] at g2
  | got i d => simp [fileAccesses] at g2
  | made o' => simp [fileAccesses] at g2
  | put o' d ok =>
    obtain ⟨k, c, hk, he⟩ := Race.mem_byBytes (f := FAcc.put o') g2
    simp only [FAcc.put.injEq] at he
    obtain ⟨rfl, rfl, rfl⟩ := he
    obtain ⟨i, id, out, d0, m1, m2, m3, m4, m5, m6, m7⟩ := g3
    have hr := g4 _ m5 (.read i d0) (by simp [fileAccesses])
    have hi := read_input ht ha (p := p) (i := i) (d := d0) (by rw [hh]; exact List.mem_append_left _ hr) ⟨p, out, m1⟩
    refine ⟨_, ha.same p i id o d0 ⟨out, m1, m2, m3, m4⟩ hi, ?_⟩
    rw [Nat.zero_add]
    exact m7 k b hk

/-- A file is created only if it was not there at first. -/
theorem trunc_absent (ht : ToolsTogether jobs f h) {p : Nat} {o : Bytes} (hm : (p, .trunc o) ∈ h) : f o = none := by
  obtain ⟨h1, h2, hh⟩ := List.append_of_mem hm
  obtain ⟨a, e, b, g1, g2, g3, g4⟩ := access_step ht hh
  cases e with
  | look o' c => simp [fileAccesses] at g2
  | got i d => simp [fileAccesses] at g2
  | put o' d ok =>
    obtain ⟨k, c, hk, he⟩ := Race.mem_byBytes (f := FAcc.put o') g2
    simp at he
  | made o' =>
    simp [fileAccesses] at g2
    subst g2
    obtain ⟨i, id, out, d, m1, m2, m3, m4, m5, -⟩ := g3
    have hl := g4 _ m5 (.look o false) (by simp [fileAccesses])
    obtain ⟨k1, k2, hk⟩ := List.append_of_mem hl
    have htr := ht.truth
    rw [hh, hk, List.append_assoc, truthful_append] at htr
    have h0 : (filesAfter f k1 o).isSome = false := htr.2.1
    cases hf : f o with
    | none => rfl
    | some c =>
      have := files_stay (h := k1) (f := f) (o := o) (by simp [hf])
      rw [this] at h0
      cases h0

/-- What is written was created by the same process before. -/
theorem put_trunc (ht : ToolsTogether jobs f h) {p : Nat} {o : Bytes} {off : Nat} {b : UInt8} (hm : (p, .put o off b) ∈ h) : (p, .trunc o) ∈ h := by
  obtain ⟨h1, h2, hh⟩ := List.append_of_mem hm
  obtain ⟨a, e, bs, g1, g2, g3, g4⟩ := access_step ht hh
  cases e with
  | look o' c => simp [fileAccesses] at g2
  | got i d => simp [fileAccesses] at g2
  | made o' => simp [fileAccesses] at g2
  | put o' d ok =>
    obtain ⟨k, c, hk, he⟩ := Race.mem_byBytes (f := FAcc.put o') g2
    simp only [FAcc.put.injEq] at he
    obtain ⟨rfl, rfl, rfl⟩ := he
    obtain ⟨i, id, out, d0, m1, m2, m3, m4, m5, m6, m7⟩ := g3
    rw [hh]
    exact List.mem_append_left _ (g4 _ m6 (.trunc o) (by simp [fileAccesses]))

/-- As `Performs.split`, and the accesses of the steps after it come after. -/
theorem performs_after {ε α : Type} {acc : ε → List α} {log : List ε} {as : List α} (h : Performs acc log as) : ∀ {x y : List α} {a : α}, as = x ++ a :: y →
    ∃ l1 e l2 v y2, log = l1 ++ e :: l2 ∧ Performs acc l2 y2 ∧ y = v ++ y2 ∧ a ∈ acc e ∧ ∃ x1 u, Performs acc l1 x1 ∧ x = x1 ++ u := by
  induction h with
  | done => intro x y a h; simp at h
  | @step e log as bs hp hb ih =>
    intro x y a h
    rcases List.append_eq_append_iff.1 h with ⟨z, h1, h2⟩ | ⟨z, h1, h2⟩
    · obtain ⟨l1, e', l2, v, y2, g1, g2, g3, g4, x1, u, g5, g6⟩ := ih h2
      exact ⟨e :: l1, e', l2, v, y2, by rw [g1]; rfl, g2, g3, g4, as ++ x1, u, .step hp g5, by rw [h1, g6, List.append_assoc]⟩
    · cases z with
      | nil =>
        simp only [List.nil_append] at h2
        obtain ⟨l1, e', l2, v, y2, g1, g2, g3, g4, x1, u, g5, g6⟩ := ih (x := []) h2.symm
        rw [List.append_nil] at h1
        exact ⟨e :: l1, e', l2, v, y2, by rw [g1]; rfl, g2, g3, g4, as ++ x1, u, .step hp g5, by rw [h1, List.append_assoc, ← g6, List.append_nil]⟩
      | cons a' z =>
        simp only [List.cons_append, List.cons.injEq] at h2
        obtain ⟨rfl, h2⟩ := h2
        exact ⟨[], e, log, z, bs, rfl, hb, h2, hp.mem_iff.1 (by rw [h1]; simp), [], x, .done, rfl⟩

theorem doneBy_mem {α : Type} {p : Nat} {a : α} {h : List (Nat × α)} (hm : a ∈ doneBy p h) : (p, a) ∈ h := by
  obtain ⟨u1, u2, hu⟩ := List.append_of_mem hm
  obtain ⟨k1, k2, hk, -⟩ := Race.doneBy_split hu
  rw [hk]
  simp

/-- After a run that succeeds has created a file, it writes all of it. -/
theorem trunc_puts (ht : ToolsTogether jobs f h) (ha : Agree jobs f want) {h1 h2 : List (Nat × FAcc)} {p : Nat} {o : Bytes} (hh : h = h1 ++ (p, .trunc o) :: h2)
    (hok : (jobs p).run.1 = .ok true) : ∃ c, want o = some c ∧ ∀ (k : Nat) (x : UInt8), c[k]? = some x → (p, .put o k x) ∈ h2 := by
  have hd : doneBy p h = doneBy p h1 ++ .trunc o :: doneBy p h2 := by rw [hh, Race.doneBy_append]; simp [doneBy]
  obtain ⟨a, e, b, v, y2, g1, g2, g3, g4, x1, u, g5, g6⟩ := performs_after (ht.does p) hd
  have hs := (job_facts (jobs p)).step a e b g1
  cases e with
  | look o' c => simp [fileAccesses] at g4
  | got i d => simp [fileAccesses] at g4
  | put o' d ok =>
    obtain ⟨k, c, hk, he⟩ := Race.mem_byBytes (f := FAcc.put o') g4
    simp at he
  | made o' =>
    simp [fileAccesses] at g4
    subst g4
    obtain ⟨i, id, out, d, m1, m2, m3, m4, m5, m6, m7⟩ := hs
    obtain ⟨b', hb⟩ := m7 hok
    have hr : (p, .read i d) ∈ h := by
      rw [hh]
      refine List.mem_append_left _ (doneBy_mem ?_)
      rw [g6]
      exact List.mem_append_left _ (g5.mem m6 (by simp [fileAccesses]))
    have hi := read_input ht ha hr ⟨p, out, m1⟩
    refine ⟨_, ha.same p i id o d ⟨out, m1, m2, m3, m4⟩ hi, fun k x hk => doneBy_mem ?_⟩
    rw [g3]
    refine List.mem_append_right _ (g2.mem (e := .put o ((jobs p).conv id d) true) (by rw [hb]; simp) ?_)
    have := Race.byBytes_mem (f := FAcc.put o) (off := 0) hk
    rw [Nat.zero_add] at this
    exact this

/-- What a file that was created contains: a prefix-like part of what is wanted. -/
theorem after_puts {o c : Bytes} : ∀ {h : List (Nat × FAcc)} {f : Files} {d : Bytes}, f o = some d → d.length ≤ c.length →
    (∀ (p off : Nat) (b : UInt8), (p, .put o off b) ∈ h → c[off]? = some b) → (∀ p : Nat, (p, .trunc o) ∉ h) →
    ∃ d', filesAfter f h o = some d' ∧ d'.length ≤ c.length ∧ (∀ (k : Nat) (x : UInt8), c[k]? = some x → d[k]? = some x → d'[k]? = some x) ∧
      ∀ (p off : Nat) (b : UInt8), (p, .put o off b) ∈ h → d'[off]? = some b
  | [], f, d, hf, hl, _, _ => ⟨d, hf, hl, fun _ _ _ h => h, fun _ _ _ h => by simp at h⟩
  | (q, .look o' b) :: h, f, d, hf, hl, hp, hn => by
    obtain ⟨d', g1, g2, g3, g4⟩ := after_puts (h := h) hf hl (fun p off b hm => hp p off b (List.mem_cons_of_mem _ hm)) (fun p hm => hn p (List.mem_cons_of_mem _ hm))
    exact ⟨d', g1, g2, g3, fun p off b hm => g4 p off b (by simpa using hm)⟩
  | (q, .read i b) :: h, f, d, hf, hl, hp, hn => by
    obtain ⟨d', g1, g2, g3, g4⟩ := after_puts (h := h) hf hl (fun p off b hm => hp p off b (List.mem_cons_of_mem _ hm)) (fun p hm => hn p (List.mem_cons_of_mem _ hm))
    exact ⟨d', g1, g2, g3, fun p off b hm => g4 p off b (by simpa using hm)⟩
  | (q, .trunc o') :: h, f, d, hf, hl, hp, hn => by
    have ho : o ≠ o' := fun e => hn q (by rw [e]; exact List.mem_cons_self)
    obtain ⟨d', g1, g2, g3, g4⟩ := after_puts (h := h) (f := f.set o' []) (d := d) (by unfold Files.set; rw [if_neg ho, hf]) hl
      (fun p off b hm => hp p off b (List.mem_cons_of_mem _ hm)) (fun p hm => hn p (List.mem_cons_of_mem _ hm))
    exact ⟨d', g1, g2, g3, fun p off b hm => g4 p off b (by simpa using hm)⟩
  | (q, .put o' off b) :: h, f, d, hf, hl, hp, hn => by
    by_cases ho : o = o'
    · subst ho
      have hc := hp q off b List.mem_cons_self
      have hlt := (List.getElem?_eq_some_iff.1 hc).1
      have hone := Race.writeAt_one d off b
      have hll : (writeAt d off [b]).length ≤ c.length := by
        refine Nat.le_of_not_lt fun hlt' => ?_
        have := Proof.writeAt_patched d off [b] c.length
        rw [if_neg (by simp; omega), if_neg (by omega)] at this
        rw [List.getElem?_eq_getElem hlt'] at this
        split at this <;> simp at this
        omega
      obtain ⟨d', g1, g2, g3, g4⟩ := after_puts (h := h) (f := f.set o (writeAt ((f o).getD []) off [b])) (d := writeAt d off [b])
        (by unfold Files.set; rw [if_pos rfl, hf]; rfl) hll
        (fun p off b hm => hp p off b (List.mem_cons_of_mem _ hm)) (fun p hm => hn p (List.mem_cons_of_mem _ hm))
      refine ⟨d', g1, g2, fun k x hx hd => g3 k x hx (Race.writeAt_keeps hc hx hd), fun p off' b' hm => ?_⟩
      rcases List.mem_cons.1 hm with hm | hm
      · simp only [Prod.mk.injEq, FAcc.put.injEq] at hm
        obtain ⟨-, -, rfl, rfl⟩ := hm
        exact g3 _ _ hc hone
      · exact g4 p off' b' hm
    · obtain ⟨d', g1, g2, g3, g4⟩ := after_puts (h := h) (f := f.set o' (writeAt ((f o').getD []) off [b])) (d := d) (by unfold Files.set; rw [if_neg ho, hf]) hl
        (fun p off b hm => hp p off b (List.mem_cons_of_mem _ hm)) (fun p hm => hn p (List.mem_cons_of_mem _ hm))
      refine ⟨d', g1, g2, g3, fun p off' b' hm => ?_⟩
      rcases List.mem_cons.1 hm with hm | hm
      · simp only [Prod.mk.injEq, FAcc.put.injEq] at hm
        exact absurd hm.2.1 ho
      · exact g4 p off' b' hm

/-- The last time a file was created. -/
theorem last_trunc {o : Bytes} : ∀ {h : List (Nat × FAcc)}, (∃ p : Nat, (p, .trunc o) ∈ h) → ∃ h1 p h2, h = h1 ++ (p, .trunc o) :: h2 ∧ ∀ p : Nat, (p, .trunc o) ∉ h2
  | [], ⟨_, hm⟩ => by simp at hm
  | y :: h, ⟨p, hm⟩ => by
    by_cases hx : ∃ p : Nat, (p, FAcc.trunc o) ∈ h
    · obtain ⟨h1, q, h2, g1, g2⟩ := last_trunc hx
      exact ⟨y :: h1, q, h2, by rw [g1]; rfl, g2⟩
    · rcases List.mem_cons.1 hm with hm | hm
      · exact ⟨[], p, h, by rw [← hm]; rfl, fun q hq => hx ⟨q, hq⟩⟩
      · exact absurd ⟨p, hm⟩ hx

/-- If the runs that created a file all succeeded, it is complete in the end. -/
theorem complete (ht : ToolsTogether jobs f h) (ha : Agree jobs f want) {o : Bytes} (hm : ∃ p : Nat, (p, .trunc o) ∈ h)
    (hok : ∀ p : Nat, (p, .trunc o) ∈ h → (jobs p).run.1 = .ok true) : ∃ c, want o = some c ∧ filesAfter f h o = some c := by
  obtain ⟨h1, p, h2, hh, hl⟩ := last_trunc hm
  obtain ⟨c, g1, g2⟩ := trunc_puts ht ha hh (hok p (by rw [hh]; simp))
  refine ⟨c, g1, ?_⟩
  have hp : ∀ (p off : Nat) (b : UInt8), (p, .put o off b) ∈ h2 → c[off]? = some b := fun q off b hq => by
    obtain ⟨c', k1, k2⟩ := put_want ht ha (p := q) (o := o) (off := off) (b := b) (by rw [hh]; simp [hq])
    rw [g1] at k1
    cases k1
    exact k2
  have h0 : (Files.set (filesAfter f h1) o []) o = some [] := by unfold Files.set; rw [if_pos rfl]
  obtain ⟨d', e1, e2, -, e4⟩ := after_puts (h := h2) (f := Files.set (filesAfter f h1) o []) (c := c) h0 (Nat.zero_le _) hp hl
  rw [hh, filesAfter_append, filesAfter, e1]
  congr 1
  refine List.ext_getElem? fun k => ?_
  by_cases hk : k < c.length
  · have := e4 p k c[k] (g2 k _ (List.getElem?_eq_getElem hk))
    rw [this, List.getElem?_eq_getElem hk]
  · rw [List.getElem?_eq_none (by omega), List.getElem?_eq_none (by omega)]

/-- A run that succeeds has created its outputs or found them. -/
theorem success_there (ht : ToolsTogether jobs f h) {p : Nat} {i : Bytes} {id : Id} {o : Bytes} (has : (jobs p).Asked i id o) (hok : (jobs p).run.1 = .ok true) :
    (f o).isSome = true ∨ ∃ q : Nat, (q, .trunc o) ∈ h := by
  obtain ⟨out, m1, m2, m3, m4⟩ := has
  rcases (job_facts (jobs p)).all hok i id out o m1 m2 m3 m4 with hl | hl
  · have hm : (p, .look o true) ∈ h := doneBy_mem ((ht.does p).mem hl (by simp [fileAccesses]))
    obtain ⟨h1, h2, hh⟩ := List.append_of_mem hm
    have htr := ht.truth
    rw [hh, truthful_append] at htr
    have h1s : (filesAfter f h1 o).isSome = true := htr.2.1
    cases hf : f o with
    | some c => exact Or.inl rfl
    | none =>
      obtain ⟨x, hx, hto⟩ := file_made hf h1s
      refine Or.inr ⟨x.1, ?_⟩
      have hxh : x ∈ h := by rw [hh]; exact List.mem_append_left _ hx
      rcases x with ⟨q, x⟩
      cases x with
      | look => exact hto.elim
      | read => exact hto.elim
      | trunc o' => have : o' = o := hto; subst this; exact hxh
      | put o' off b => have : o' = o := hto; subst this; exact put_trunc ht hxh
  · exact Or.inr ⟨p, doneBy_mem ((ht.does p).mem hl (by simp [fileAccesses]))⟩

/-- What was there at first is not changed. -/
theorem kept_file (ht : ToolsTogether jobs f h) {o c : Bytes} (hf : f o = some c) : filesAfter f h o = some c := by
  rw [untouched fun x hx hto => ?_, hf]
  rcases x with ⟨q, x⟩
  have hn : (q, FAcc.trunc o) ∉ h := fun hm => by rw [trunc_absent ht hm] at hf; cases hf
  cases x with
  | look => exact hto.elim
  | read => exact hto.elim
  | trunc o' => have : o' = o := hto; subst this; exact hn hx
  | put o' off b => have : o' = o := hto; subst this; exact hn (put_trunc ht hx)

/-- What is in a file that is being made: what is wanted, or holes. -/
def PartOf (c : Bytes) (d : Option Bytes) : Prop := ∀ x, d = some x → x.length ≤ c.length ∧ ∀ (k : Nat) (b : UInt8), x[k]? = some b → b = 0 ∨ c[k]? = some b

theorem partOf_put {c d : Bytes} {off : Nat} {b : UInt8} (hp : PartOf c (some d)) (hc : c[off]? = some b) : PartOf c (some (writeAt d off [b])) := by
  intro x hx
  cases hx
  obtain ⟨hl, hb⟩ := hp d rfl
  have hlt := (List.getElem?_eq_some_iff.1 hc).1
  refine ⟨?_, fun k y hk => ?_⟩
  · refine Nat.le_of_not_lt fun hlt' => ?_
    have := Proof.writeAt_patched d off [b] c.length
    rw [if_neg (by simp; omega), if_neg (by omega)] at this
    rw [List.getElem?_eq_getElem hlt'] at this
    split at this <;> simp at this
    omega
  · rw [Proof.writeAt_patched d off [b] k] at hk
    split at hk
    · next h =>
      simp at h
      have : k = off := by omega
      subst this
      simp at hk
      subst hk
      exact Or.inr hc
    · split at hk
      · exact hb k y hk
      · split at hk
        · simp at hk; exact Or.inl hk.symm
        · cases hk

theorem partOf_after {o c : Bytes} : ∀ {h : List (Nat × FAcc)} {f : Files}, PartOf c (f o) → (∀ (p off : Nat) (b : UInt8), (p, .put o off b) ∈ h → c[off]? = some b) →
    PartOf c (filesAfter f h o)
  | [], _, h0, _ => h0
  | (_, .look _ _) :: h, _, h0, hp => partOf_after (h := h) h0 fun p off b hm => hp p off b (List.mem_cons_of_mem _ hm)
  | (_, .read _ _) :: h, _, h0, hp => partOf_after (h := h) h0 fun p off b hm => hp p off b (List.mem_cons_of_mem _ hm)
  | (_, .trunc o') :: h, f, h0, hp => by
    refine partOf_after (h := h) (f := f.set o' []) ?_ fun p off b hm => hp p off b (List.mem_cons_of_mem _ hm)
    unfold Files.set
    split
    · intro x hx; cases hx; simp
    · exact h0
  | (q, .put o' off b) :: h, f, h0, hp => by
    refine partOf_after (h := h) (f := f.set o' (writeAt ((f o').getD []) off [b])) ?_ fun p off b hm => hp p off b (List.mem_cons_of_mem _ hm)
    unfold Files.set
    split
    · next ho =>
      subst ho
      refine partOf_put ?_ (hp q off b List.mem_cons_self)
      cases hf : f o with
      | none => intro x hx; cases hx; simp
      | some d => rw [hf] at h0; exact h0
    · exact h0

/-- A file that was not there and is there now is being made. -/
theorem parts (ht : ToolsTogether jobs f h) (ha : Agree jobs f want) {h1 h2 : List (Nat × FAcc)} (hh : h = h1 ++ h2) {o d : Bytes} (hf : f o = none)
    (hd : filesAfter f h1 o = some d) : ∃ c, want o = some c ∧ d.length ≤ c.length ∧ ∀ (k : Nat) (b : UInt8), d[k]? = some b → b = 0 ∨ c[k]? = some b := by
  obtain ⟨⟨q, x⟩, hx, hto⟩ := file_made (h := h1) hf (by rw [hd]; rfl)
  have hxh : (q, x) ∈ h := by rw [hh]; exact List.mem_append_left _ hx
  have htr : (q, FAcc.trunc o) ∈ h := by
    cases x with
    | look => exact hto.elim
    | read => exact hto.elim
    | trunc o' => have : o' = o := hto; subst this; exact hxh
    | put o' off b => have : o' = o := hto; subst this; exact put_trunc ht hxh
  obtain ⟨k1, k2, hk⟩ := List.append_of_mem htr
  obtain ⟨a, e, b, g1, g2, g3, g4⟩ := access_step ht hk
  have hw : ∃ c, want o = some c := by
    cases e with
    | look o' c => simp [fileAccesses] at g2
    | got i d => simp [fileAccesses] at g2
    | put o' d ok =>
      obtain ⟨k, c, hk, he⟩ := Race.mem_byBytes (f := FAcc.put o') g2
      simp at he
    | made o' =>
      simp [fileAccesses] at g2
      subst g2
      obtain ⟨i, id, out, d, m1, m2, m3, m4, m5, m6, -⟩ := g3
      have hr := g4 _ m6 (.read i d) (by simp [fileAccesses])
      have hi := read_input ht ha (p := q) (i := i) (d := d) (by rw [hk]; exact List.mem_append_left _ hr) ⟨q, out, m1⟩
      exact ⟨_, ha.same q i id o d ⟨out, m1, m2, m3, m4⟩ hi⟩
  obtain ⟨c, hc⟩ := hw
  have := partOf_after (o := o) (c := c) (h := h1) (f := f) (by intro x hx; rw [hf] at hx; cases hx) fun p off b hm => by
    obtain ⟨c', k1, k2⟩ := put_want ht ha (p := p) (o := o) (off := off) (b := b) (by rw [hh]; exact List.mem_append_left _ hm)
    rw [hc] at k1
    cases k1
    exact k2
  exact ⟨c, hc, this d hd⟩

end

end Csn.ToolRace
