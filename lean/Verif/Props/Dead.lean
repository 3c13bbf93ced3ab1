import Verif.Proof.Patient
import Verif.Props.Net
/-
C96: how much a server that is out of order is asked.
-/
namespace Csn.Props
open Csn Spec Proof

/-- Events that are no questions to stores. -/
theorem spentOn_none (f : Event → Nat) (k : Nat) (cur : Option Nat) : ∀ l : List Event, (∀ e ∈ l, isChain e = false) →
    spentOn f k cur l = if cur = some k then sumOf f l else 0
  | [], _ => by simp [spentOn, sumOf]
  | e :: l, h => by
    have he := h e (by simp)
    have hc : lastAsked cur e = cur := by cases e <;> first | rfl | cases he
    rw [spentOn, hc, spentOn_none f k cur l (fun x hx => h x (by simp [hx]))]
    split <;> simp [sumOf]

/-- Events that do not count. -/
theorem spentOn_snoc {f : Event → Nat} {e : Event} (he : f e = 0) (k : Nat) : ∀ (cur : Option Nat) (l : List Event), spentOn f k cur (l ++ [e]) = spentOn f k cur l
  | cur, [] => by simp [spentOn, he]
  | cur, x :: l => by rw [List.cons_append, spentOn, spentOn, spentOn_snoc he k]

theorem spentOn_ask {f : Event → Nat} {k j : Nat} {id : Id} {b : List Event} (hf : f (.ask j id) = 0) (hb : ∀ e ∈ b, isChain e = false) :
    ∀ (cur : Option Nat) (a : List Event), spentOn f k cur (a ++ .ask j id :: b) = spentOn f k cur a + if j = k then sumOf f b else 0
  | cur, [] => by
    have h0 : spentOn f k cur [] = 0 := rfl
    rw [h0, List.nil_append, spentOn, spentOn_none f k _ b hb, hf]
    simp [lastAsked]
  | cur, x :: a => by
    rw [List.cons_append, spentOn, spentOn, spentOn_ask hf hb, Nat.add_assoc]

theorem timesAsked_ask (k j : Nat) (id : Id) (a b : List Event) : timesAsked k a + (if j = k then 1 else 0) ≤ timesAsked k (a ++ .ask j id :: b) := by
  rw [timesAsked_append, timesAsked]
  omega

theorem OnSchedule.spent {U : Nat → Id → Bytes → Prop} {f : Event → Nat} {B : Nat} (hf : ∀ e, isNet e = false → f e = 0)
    (hB : ∀ url, sumOf f (retrySchedule url) ≤ B) (k : Nat) : ∀ (n : Nat) (l : List Event), l.length ≤ n → OnSchedule U l → spentOn f k none l ≤ B * timesAsked k l
  | 0, l, hl, _ => by
    have : l = [] := List.length_eq_zero_iff.1 (by omega)
    subst this; simp [spentOn]
  | n + 1, l, hl, h => by
    rcases List.eq_nil_or_concat l with rfl | ⟨l, e, rfl⟩
    · simp [spentOn]
    · rw [List.concat_eq_append] at hl h ⊢
      rw [List.length_append, List.length_singleton] at hl
      cases he : isNet e with
      | false =>
        have := OnSchedule.spent hf hB k n l (by omega) (fun a x b hx => h a x (b ++ [e]) (by simp [hx]))
        have hm : B * timesAsked k l ≤ B * timesAsked k (l ++ [e]) := Nat.mul_le_mul_left _ (by rw [timesAsked_append]; omega)
        rw [spentOn_snoc (hf e he)]
        omega
      | true =>
        obtain ⟨a1, j, id, a2, url, rfl, h1, _, h2⟩ := h l e [] (by simp) he
        have hi := OnSchedule.spent hf hB k n a1 (by simp only [List.length_append, List.length_cons] at hl; omega) (fun a x b hx => h a x (b ++ .ask j id :: a2 ++ [e]) (by simp [hx]))
        have h3 := Nat.le_trans (sumOf_prefix f h2) (hB url)
        rw [sumOf_filter hf] at h3
        have hc : ∀ x ∈ a2 ++ [e], isChain x = false := by
          intro x hx
          rcases List.mem_append.1 hx with hx | hx
          · exact h1 x hx
          · rw [List.mem_singleton] at hx; subst hx; cases x <;> first | rfl | cases he
        rw [List.append_assoc, List.cons_append, spentOn_ask (hf _ rfl) hc]
        have e2 := Nat.mul_le_mul_left B (timesAsked_ask k j id a1 (a2 ++ [e]))
        rw [Nat.mul_add] at e2
        split
        · next hjk => rw [if_pos hjk, Nat.mul_one] at e2; omega
        · next hjk => rw [if_neg hjk, Nat.mul_zero] at e2; omega

/-- **C96**: whatever each of the stores is asked for in a run of csn or casync, one question to a store leads to at most ten
requests and 52.6 seconds of waiting. -/
theorem C96_each {env : Env} {posix : Bool} {argv0 tpath : Bytes} {args stores : List Bytes} {w w' : World} {o : Res Bool}
    (hn : NamesTarget posix argv0 args tpath stores) (hrun : appMain env posix argv0 args w = (o, w')) :
    ∃ evs, w'.log = w.log ++ evs ∧ ∀ k, requestsFor k evs ≤ 10 * timesAsked k evs ∧ waitedFor k evs ≤ 52600000 * timesAsked k evs := by
  obtain ⟨evs, h1, h2⟩ := C64_on_schedule hn hrun
  have g1 := fun k f B hf hB => OnSchedule.spent (f := f) (B := B) hf hB k _ evs (Nat.le_refl _) h2
  refine ⟨evs, h1, fun k => ⟨g1 k _ _ ?_ ?_, g1 k _ _ ?_ ?_⟩⟩
  · intro e he; cases e <;> first | rfl | cases he
  · intro url
    simp [sumOf, retrySchedule, List.range, List.range.loop]
  · intro e he; cases e <;> first | rfl | cases he
  · intro url
    simp [sumOf, retrySchedule, List.range, List.range.loop, backoff]

/-- **C96**: if the server of a URL store is out of order all the time - it cannot be reached, or answers with errors -, then the
store is asked for at most 11 chunks in a run of csn or casync, whatever the length of the index and whatever the other stores
do.  Altogether at most 110 requests are sent to it, and at most 578.6 seconds are spent waiting for it. -/
theorem C96_given_up {env : Env} {posix : Bool} {argv0 tpath arg : Bytes} {args stores : List Bytes} {k : Nat} {w w' : World} {o : Res Bool}
    (hn : NamesTarget posix argv0 args tpath stores) (hk : stores[k]? = some arg) (ha : HttpArg tpath arg)
    (hd : ∀ base frag key, BaseOf arg base frag → ParamsKey (KeyOf env.getenv w) (frag.getD []) key → Dead w.net base key.isSome)
    (hrun : appMain env posix argv0 args w = (o, w')) :
    ∃ evs, w'.log = w.log ++ evs ∧ timesAsked k evs ≤ 11 ∧ requestsFor k evs ≤ 110 ∧ waitedFor k evs ≤ 578600000 := by
  obtain ⟨evs, h1, h2⟩ := C96_each hn hrun
  have h3 := wp_appMain_dead env posix argv0 args w k arg (by rw [(names_args hn).2]; exact hk) (by rw [(names_args hn).1]; exact ha) hd
  have h4 : timesAsked k evs ≤ 11 := by
    have : DeadEnd k w.log w' := by
      cases o with
      | ok b => exact wp_ok (Q := fun _ w' => DeadEnd k w.log w') h3 hrun
      | stop s => exact wp_stopped (S := fun _ w' => DeadEnd k w.log w') h3 hrun
    obtain ⟨q, e, h5⟩ := this
    rw [h1] at e
    rw [List.append_cancel_left e]
    exact h5
  obtain ⟨h5, h6⟩ := h2 k
  exact ⟨evs, h1, h4, by omega, by omega⟩

/-- **C96**: a URL store is not given up early.  If every attempt at its server is a transient failure, or ends with an answer that
has a status, errors included, and memory suffices, then whenever the store is taken out of use, it has been asked for at least 11
chunks before. -/
theorem C96_patient {env : Env} {posix : Bool} {argv0 tpath arg : Bytes} {args stores : List Bytes} {k : Nat} {w w' : World} {o : Res Bool}
    (hn : NamesTarget posix argv0 args tpath stores) (hk : stores[k]? = some arg) (ha : HttpArg tpath arg) (hl : arg.length < 2 ^ 62) (hm : ∀ b ∈ w.mem, b = true)
    (hd : ∀ base frag key, BaseOf arg base frag → ParamsKey (KeyOf env.getenv w) (frag.getD []) key → Bears w.net base key.isSome)
    (hrun : appMain env posix argv0 args w = (o, w')) :
    ∃ evs, w'.log = w.log ++ evs ∧ ∀ a b, evs = a ++ .failed k :: b → 11 ≤ timesAsked k a := by
  have h3 := wp_appMain_pat env posix argv0 args w k arg (by rw [(names_args hn).2]; exact hk) (by rw [(names_args hn).1]; exact ha) hl hm hd
  have : PatEnd k w.log w' := by
    cases o with
    | ok b => exact wp_ok (Q := fun _ w' => PatEnd k w.log w') h3 hrun
    | stop s => exact wp_stopped (S := fun _ w' => PatEnd k w.log w') h3 hrun
  obtain ⟨q, e, h5⟩ := this
  exact ⟨q, e, fun a b e => by have := h5 a b e; omega⟩

/-- **C96**: a server that is out of order all the time, in ways that count, is given up after exactly 11 questions. -/
theorem C96_exactly {env : Env} {posix : Bool} {argv0 tpath arg : Bytes} {args stores : List Bytes} {k : Nat} {w w' : World} {o : Res Bool}
    (hn : NamesTarget posix argv0 args tpath stores) (hk : stores[k]? = some arg) (ha : HttpArg tpath arg) (hl : arg.length < 2 ^ 62) (hm : ∀ b ∈ w.mem, b = true)
    (hd : ∀ base frag key, BaseOf arg base frag → ParamsKey (KeyOf env.getenv w) (frag.getD []) key → Dead w.net base key.isSome ∧ Bears w.net base key.isSome)
    (hrun : appMain env posix argv0 args w = (o, w')) :
    ∃ evs, w'.log = w.log ++ evs ∧ ∀ a b, evs = a ++ .failed k :: b → timesAsked k a = 11 ∧ timesAsked k b = 0 := by
  obtain ⟨q, e, h1⟩ := C96_patient hn hk ha hl hm (fun base frag key h h' => (hd base frag key h h').2) hrun
  obtain ⟨q', e', h2, _⟩ := C96_given_up hn hk ha (fun base frag key h h' => (hd base frag key h h').1) hrun
  rw [e] at e'
  cases List.append_cancel_left e'
  refine ⟨q, e, fun a b hab => ?_⟩
  have h3 := h1 a b hab
  rw [hab, timesAsked_append] at h2
  simp only [timesAsked] at h2
  omega

/-! ### Cases -/

/-- Twelve chunks, all of them in the local store; before it comes a server that is not reached. -/
def deadWorld : World := { syncWorld (exIdx ((List.replicate 6 [exC1, exC2]).flatten)) [] [] (manySys ++ manySys) with net := List.replicate 120 (fun _ => ⟨[], 7, none⟩) }

def deadRun : Res Bool × World := appMain syncEnv false (str "csn") [str "i", str "t", str "http://h", str "s"] deadWorld

theorem deadWorld_dead (base : Bytes) (enc : Bool) : Dead deadWorld.net base enc := by
  intro g hg id _
  rw [List.eq_of_mem_replicate hg]
  exact Or.inl ⟨rfl, by simp, by simp⟩

theorem deadWorld_bears (base : Bytes) (enc : Bool) : Bears deadWorld.net base enc := by
  intro g hg id _
  rw [List.eq_of_mem_replicate hg]
  exact ⟨Or.inl (by simp [TransientCode]), Or.inr ⟨by simp [TransientCode], rfl⟩⟩

/-- The bounds are reached: the server is asked for eleven of the twelve chunks, and the run succeeds. -/
theorem deadRun_most : deadRun.1 = .ok true ∧ timesAsked 0 deadRun.2.log = 11 ∧ timesAsked 1 deadRun.2.log = 12 ∧
    requestsFor 0 deadRun.2.log = 110 ∧ waitedFor 0 deadRun.2.log = 578600000 ∧ requestsFor 1 deadRun.2.log = 0 := by
  refine ⟨?_, ?_, ?_, ?_, ?_, ?_⟩ <;> decide +kernel

attribute [local irreducible] appMain in
example : ∃ evs, deadRun.2.log = deadWorld.log ++ evs ∧ timesAsked 0 evs ≤ 11 ∧ requestsFor 0 evs ≤ 110 ∧ waitedFor 0 evs ≤ 578600000 :=
  C96_given_up (.csn (str "i") (str "t") [str "http://h", str "s"] (by decide +kernel)) rfl ⟨by decide, str "://h", rfl⟩
    (fun _ _ _ _ _ => deadWorld_dead _ _) (show appMain _ _ _ _ _ = (deadRun.1, deadRun.2) from rfl)

attribute [local irreducible] appMain in
example : ∃ evs, deadRun.2.log = deadWorld.log ++ evs ∧ ∀ a b, evs = a ++ .failed 0 :: b → timesAsked 0 a = 11 ∧ timesAsked 0 b = 0 :=
  C96_exactly (.csn (str "i") (str "t") [str "http://h", str "s"] (by decide +kernel)) rfl ⟨by decide, str "://h", rfl⟩ (by decide) (by decide +kernel)
    (fun _ _ _ _ _ => ⟨deadWorld_dead _ _, deadWorld_bears _ _⟩) (show appMain _ _ _ _ _ = (deadRun.1, deadRun.2) from rfl)

/-- In this run the store is given up indeed. -/
example : deadRun.2.log.any (fun e => match e with | .failed 0 => true | _ => false) = true := by decide +kernel

/-- The same with a server whose certificate is not accepted (error 60): this is not borne even once. -/
def certRun : Res Bool × World := appMain syncEnv false (str "csn") [str "i", str "t", str "http://h", str "s"]
  { deadWorld with net := List.replicate 120 (fun _ => ⟨[], 60, none⟩) }

example : certRun.1 = .ok true ∧ timesAsked 0 certRun.2.log = 1 ∧ requestsFor 0 certRun.2.log = 1 ∧ waitedFor 0 certRun.2.log = 0 ∧
    (certRun.2.log.any (fun e => match e with | .failed 0 => true | _ => false)) = true := by
  refine ⟨?_, ?_, ?_, ?_, ?_⟩ <;> decide +kernel

example : ¬ Bearable ⟨[], 60, none⟩ ∧ Bearable ⟨[], 28, none⟩ ∧ Bearable ⟨[[1]], 0, some 500⟩ ∧ Bearable ⟨[[1]], 0, some 200⟩ ∧ Bearable ⟨[], 0, some 404⟩ ∧ ¬ Bearable ⟨[[1]], 18, some 200⟩ := by
  simp [Bearable, TransientCode]

/-- Errors that count, with and without a body; "no such chunk" is no error. -/
example : Broken ⟨[], 28, none⟩ ∧ Broken ⟨[[1, 2, 3]], 0, some 503⟩ ∧ Broken ⟨[], 60, some 0⟩ ∧ ¬ Broken ⟨[], 0, some 404⟩ ∧ ¬ Broken ⟨[[1]], 18, some 200⟩ := by
  refine ⟨Or.inl ⟨rfl, by decide, by decide⟩, Or.inr ⟨503, rfl, by decide, by decide, by decide⟩, Or.inl ⟨rfl, by decide, by decide⟩, ?_, ?_⟩
  · rintro (⟨_, h, _⟩ | ⟨c, h, _, h4, _⟩)
    · exact h rfl
    · cases h; exact h4 rfl
  · rintro (⟨h, _⟩ | ⟨c, h, h4, _⟩)
    · cases h
    · cases h; omega

end Csn.Props
