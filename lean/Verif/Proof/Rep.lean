import Verif.Spec.Rep
/-
Proof rules for the model of the messages.
-/
namespace Csn.Rep
open Csn Csn.Props

/-- Place and level of a message. -/
def At (f : String) (n : Nat) (v : Level) : Prop := ∃ x ∈ logSites, x.file = f ∧ x.first = n ∧ x.level = v

/-- Lookup of place and level. -/
def isAt (f : String) (n : Nat) (v : Level) : Bool := logSites.any (fun x => x.first == n && x.level == v && x.file == f)

theorem at_of {f : String} {n : Nat} {v : Level} (h : isAt f n v = true) : At f n v := by
  obtain ⟨x, hx, h⟩ := List.any_eq_true.1 h
  simp only [Bool.and_eq_true, beq_iff_eq] at h
  exact ⟨x, hx, h.2, h.1.1, h.1.2⟩

/-- Everything written so far is a message of the source or a usage text. -/
def AllKnown (out : List Line) : Prop := ∀ l ∈ out, l = .usage ∨ ∃ x ∈ logSites, l = .note x.file x.first

/-- A warning or an error was printed. -/
def Loud (out : List Line) : Prop := ToldAt .warn out

/-- An error was printed. -/
def Err (out : List Line) : Prop := ToldAt .err out

/-- Something went wrong or a usage text was printed. -/
def Cause (s : PS) : Prop := s.wrong = true ∨ Line.usage ∈ s.out

/-- Something went wrong, perhaps not reported yet. -/
def Due (s : PS) : Prop := AllKnown s.out ∧ Cause s

/-- All is reported. -/
def Ok (s : PS) : Prop := AllKnown s.out ∧ (s.wrong = true → Loud s.out) ∧ (Loud s.out → Cause s)

/-- Something went wrong, and a warning was printed. -/
def Warned (s : PS) : Prop := Due s ∧ Loud s.out

/-- Something went wrong, and an error was printed. -/
def Bad (s : PS) : Prop := Due s ∧ Err s.out

/-- All is reported, and a usage text was printed. -/
def Used (s : PS) : Prop := Ok s ∧ Line.usage ∈ s.out

/-- All is reported, and an error or a usage text was printed. -/
def Fin (s : PS) : Prop := Ok s ∧ (Err s.out ∨ Line.usage ∈ s.out)

theorem err_loud {out : List Line} (h : Err out) : Loud out := by
  obtain ⟨l, hl, x, hx, he, a, b, h1, h2⟩ := h
  refine ⟨l, hl, x, hx, he, ?_⟩
  have : x.level = .err := by
    revert h1 h2
    cases x.level <;> simp [severities]
    all_goals intro h1
    all_goals (rcases a with _ | ⟨a1, _ | ⟨a2, _ | ⟨a3, _ | ⟨a4, a⟩⟩⟩⟩ <;> simp_all)
  rw [this]
  exact ⟨[.debug, .info], [.err], rfl, by simp⟩

theorem bad_warned {s : PS} (h : Bad s) : Warned s := ⟨h.1, err_loud h.2⟩
theorem warned_ok {s : PS} (h : Warned s) : Ok s := ⟨h.1.1, fun _ => h.2, fun _ => h.1.2⟩
theorem bad_ok {s : PS} (h : Bad s) : Ok s := warned_ok (bad_warned h)
theorem bad_fin {s : PS} (h : Bad s) : Fin s := ⟨bad_ok h, .inl h.2⟩
theorem used_fin {s : PS} (h : Used s) : Fin s := ⟨h.1, .inr h.2⟩
theorem used_due {s : PS} (h : Used s) : Due s := ⟨h.1.1, .inr h.2⟩

/-- What holds after a program that was not killed. -/
def Hoare {α : Type} (p : PS → Prop) (m : P α) (q : α → PS → Prop) : Prop := ∀ s, p s →
  match m s with
  | (.ok a, s') => q a s'
  | (.stop .killed, _) => True
  | (.stop .abort, s') => Bad s'
  | (.stop _, s') => Ok s'

theorem h_mono {α : Type} {p p' : PS → Prop} {q q' : α → PS → Prop} {m : P α} (h : Hoare p m q) (hp : ∀ s, p' s → p s)
    (hq : ∀ a s, q a s → q' a s) : Hoare p' m q' := by
  intro s hs
  have := h s (hp s hs)
  revert this
  rcases m s with ⟨r, s'⟩
  cases r with
  | ok a => exact hq a s'
  | stop e => cases e <;> exact id

theorem h_pre {α : Type} {p p' : PS → Prop} {q : α → PS → Prop} {m : P α} (hp : ∀ s, p' s → p s) (h : Hoare p m q) : Hoare p' m q :=
  h_mono h hp (fun _ _ => id)

theorem h_ret {α : Type} {p : PS → Prop} {a : α} {q : α → PS → Prop} (h : ∀ s, p s → q a s) : Hoare p (Pure.pure a : P α) q :=
  fun s hs => h s hs

theorem h_bind {α β : Type} {p : PS → Prop} {m : P α} {r : α → PS → Prop} {f : α → P β} {q : β → PS → Prop} (h : Hoare p m r)
    (hf : ∀ a, Hoare (r a) (f a) q) : Hoare p (m >>= f) q := by
  intro s hs
  have := h s hs
  show match (P.bind m f) s with | (.ok a, s') => q a s' | (.stop .killed, _) => True | (.stop .abort, s') => Bad s' | (.stop _, s') => Ok s'
  unfold P.bind
  revert this
  rcases m s with ⟨r, s'⟩
  cases r with
  | ok a => exact hf a s'
  | stop e => cases e <;> exact id

theorem h_looped {α : Type} {p : PS → Prop} {f : Nat → P α} {q : α → PS → Prop} (h : ∀ n, Hoare p (f n) q) : Hoare p (looped f) q :=
  fun s hs => h _ s hs

theorem h_killed {α : Type} {p : PS → Prop} {q : α → PS → Prop} : Hoare p (P.stop .killed : P α) q := fun _ _ => trivial

theorem h_abort {α : Type} {q : α → PS → Prop} : Hoare Bad (P.stop .abort : P α) q := fun _ h => h

theorem h_ub {α : Type} {q : α → PS → Prop} : Hoare Ok (P.stop .ub : P α) q := fun _ h => h

/-- Nothing but the answers changes. -/
def Stable (p : PS → Prop) : Prop := ∀ s r b, p s → p { s with ans := r, kcapi := b }

theorem st_ok : Stable Ok := fun _ _ _ h => h
theorem st_due : Stable Due := fun _ _ _ h => h
theorem st_warned : Stable Warned := fun _ _ _ h => h
theorem st_bad : Stable Bad := fun _ _ _ h => h
theorem st_used : Stable Used := fun _ _ _ h => h

theorem h_ask_raw {p : PS → Prop} (h : Stable p) : Hoare p ask (fun _ => p) := by
  intro s hs
  unfold ask
  cases hc : s.ans with
  | nil => trivial
  | cons b r => exact h s r s.kcapi hs

theorem h_ask {α : Type} {p : PS → Prop} {A B : P α} {q : α → PS → Prop} (h : Stable p) (hA : Hoare p A q) (hB : Hoare p B q) :
    Hoare p (ask >>= fun b => if b = true then A else B) q :=
  h_bind (h_ask_raw h) (fun b => by cases b <;> assumption)

theorem h_trouble {p : PS → Prop} (h : ∀ s, p s → AllKnown s.out) : Hoare p trouble (fun _ => Due) :=
  fun s hs => ⟨h s hs, .inl rfl⟩

/-- Results of calls: all is reported, or a failure is. -/
def post (bad : PS → Prop) : Bool → PS → Prop
  | true => Ok
  | false => bad

theorem h_fine : Hoare Ok fine (post Due) :=
  h_ask st_ok (h_ret (fun _ h => h)) (h_bind (h_trouble (fun _ h => h.1)) (fun _ => h_ret (fun _ h => h)))

theorem known_snoc {f : String} {n : Nat} {v : Level} (h : At f n v) {out : List Line} (ho : AllKnown out) : AllKnown (out ++ [.note f n]) := by
  obtain ⟨x, hx, h1, h2, _⟩ := h
  intro l hl
  rcases List.mem_append.1 hl with hl | hl
  · exact ho l hl
  · rw [List.mem_singleton.1 hl]
    exact .inr ⟨x, hx, by rw [h1, h2]⟩

theorem told_append {v : Level} {out more : List Line} (h : ToldAt v out) : ToldAt v (out ++ more) := by
  obtain ⟨l, hl, h⟩ := h
  exact ⟨l, List.mem_append_left _ hl, h⟩

theorem told_snoc {f : String} {n : Nat} {v c : Level} (h : At f n v) (hc : AtLeast v c) {out : List Line} : ToldAt c (out ++ [.note f n]) := by
  obtain ⟨x, hx, h1, h2, h3⟩ := h
  exact ⟨_, List.mem_append_right _ (List.mem_singleton.2 rfl), x, hx, by rw [h1, h2], by rw [h3]; exact hc⟩

theorem cause_snoc {s : PS} {l : Line} (h : Cause s) : Cause { s with out := s.out ++ [l] } :=
  h.imp id (List.mem_append_left _)

theorem h_say_err {f : String} {n : Nat} (h : At f n .err) : Hoare Due (say f n) (fun _ => Bad) :=
  fun _ hs => ⟨⟨known_snoc h hs.1, cause_snoc hs.2⟩, told_snoc h ⟨[.debug, .info, .warn], [], rfl, by simp⟩⟩

theorem h_say_warn {f : String} {n : Nat} (h : At f n .warn) : Hoare Due (say f n) (fun _ => Warned) :=
  fun _ hs => ⟨⟨known_snoc h hs.1, cause_snoc hs.2⟩, told_snoc h ⟨[.debug, .info], [.err], rfl, by simp⟩⟩

/-- A message below WARN. -/
def Low (f : String) (n : Nat) : Prop := (At f n .info ∨ At f n .debug) ∧ ∀ x ∈ logSites, x.file = f → x.first = n → ¬ AtLeast x.level .warn

/-- Lookup for `Low`. -/
def isLow (f : String) (n : Nat) : Bool :=
  (isAt f n .info || isAt f n .debug) && logSites.all (fun x => x.first != n || (x.level == .info || x.level == .debug) || x.file != f)

theorem not_atLeast_low {v : Level} (h : v = .info ∨ v = .debug) : ¬ AtLeast v .warn := by
  rintro ⟨a, b, h1, h2⟩
  simp only [severities] at h1
  rcases a with _ | ⟨a1, _ | ⟨a2, _ | ⟨a3, _ | ⟨a4, a⟩⟩⟩⟩ <;> simp at h1
  · obtain ⟨rfl, rfl, rfl⟩ := h1
    rcases h with rfl | rfl <;> simp at h2

theorem low_of {f : String} {n : Nat} (h : isLow f n = true) : Low f n := by
  simp only [isLow, Bool.and_eq_true, Bool.or_eq_true, List.all_eq_true, bne_iff_ne, beq_iff_eq] at h
  refine ⟨h.1.imp at_of at_of, fun x hx hf hn => ?_⟩
  rcases h.2 x hx with (h | h) | h
  · exact absurd hn h
  · exact not_atLeast_low h
  · exact absurd hf h

theorem low_known {f : String} {n : Nat} (h : Low f n) {out : List Line} (ho : AllKnown out) : AllKnown (out ++ [.note f n]) :=
  h.1.elim (fun h => known_snoc h ho) (fun h => known_snoc h ho)

theorem low_loud {f : String} {n : Nat} (h : Low f n) {out : List Line} (hl : Loud (out ++ [.note f n])) : Loud out := by
  obtain ⟨l, hl, x, hx, he, ha⟩ := hl
  rcases List.mem_append.1 hl with hl | hl
  · exact ⟨l, hl, x, hx, he, ha⟩
  · rw [List.mem_singleton.1 hl] at he
    injection he with h1 h2
    exact absurd ha (h.2 x hx h1.symm h2.symm)

theorem low_ok {f : String} {n : Nat} (h : Low f n) : Hoare Ok (say f n) (fun _ => Ok) :=
  fun _ hs => ⟨low_known h hs.1, fun hw => told_append (hs.2.1 hw), fun hl => cause_snoc (hs.2.2 (low_loud h hl))⟩

theorem low_due {f : String} {n : Nat} (h : Low f n) : Hoare Due (say f n) (fun _ => Due) :=
  fun _ hs => ⟨low_known h hs.1, cause_snoc hs.2⟩

theorem low_bad {f : String} {n : Nat} (h : Low f n) : Hoare Bad (say f n) (fun _ => Bad) :=
  fun _ hs => ⟨⟨low_known h hs.1.1, cause_snoc hs.1.2⟩, told_append hs.2⟩

theorem warn_bad {f : String} {n : Nat} (h : At f n .warn) : Hoare Bad (say f n) (fun _ => Bad) :=
  fun _ hs => ⟨⟨known_snoc h hs.1.1, cause_snoc hs.1.2⟩, told_append hs.2⟩

theorem h_usage {p : PS → Prop} (hp : ∀ s, p s → Ok s) : Hoare p usage (fun _ => Used) := by
  intro s hs
  obtain ⟨hk, hw, _⟩ := hp s hs
  refine ⟨⟨?_, fun h => told_append (hw h), fun _ => .inr (List.mem_append_right _ (List.mem_singleton.2 rfl))⟩,
    List.mem_append_right _ (List.mem_singleton.2 rfl)⟩
  intro l hl
  rcases List.mem_append.1 hl with hl | hl
  · exact hk l hl
  · exact .inl (List.mem_singleton.1 hl)

/-- A function that reports its failures as errors. -/
class Std (m : P Bool) : Prop where
  h : Hoare Ok m (post Bad)

/-- A function whose failures the caller reports. -/
class Quiet (m : P Bool) : Prop where
  h : Hoare Ok m (post Due)

/-- A function whose result is no failure. -/
class Free {α : Type} (m : P α) : Prop where
  h : Hoare Ok m (fun _ => Ok)

theorem h_std {α : Type} {m : P Bool} [i : Std m] {A B : P α} {q : α → PS → Prop} (hA : Hoare Ok A q) (hB : Hoare Bad B q) :
    Hoare Ok (m >>= fun b => if b = true then A else B) q :=
  h_bind i.h (fun b => by cases b <;> assumption)

theorem h_quiet {α : Type} {m : P Bool} [i : Quiet m] {A B : P α} {q : α → PS → Prop} (hA : Hoare Ok A q) (hB : Hoare Due B q) :
    Hoare Ok (m >>= fun b => if b = true then A else B) q :=
  h_bind i.h (fun b => by cases b <;> assumption)

theorem h_freeb {α : Type} {m : P Bool} [i : Free m] {A B : P α} {q : α → PS → Prop} (hA : Hoare Ok A q) (hB : Hoare Ok B q) :
    Hoare Ok (m >>= fun b => if b = true then A else B) q :=
  h_bind i.h (fun b => by cases b <;> assumption)

theorem h_free {α β : Type} {m : P α} [i : Free m] {f : α → P β} {q : β → PS → Prop} (hf : ∀ a, Hoare Ok (f a) q) :
    Hoare Ok (m >>= f) q := h_bind i.h hf

instance : Quiet fine := ⟨h_fine⟩

theorem std_post {m : P Bool} [i : Std m] : Hoare Ok m (post Bad) := i.h
theorem std_quiet {m : P Bool} [i : Std m] : Hoare Ok m (post Due) := h_mono i.h (fun _ => id) (fun b s h => by cases b <;> first | exact h.1 | exact h)
theorem std_free {m : P Bool} [i : Std m] : Hoare Ok m (fun _ => Ok) := h_mono i.h (fun _ => id) (fun b s h => by cases b <;> first | exact bad_ok h | exact h)
theorem quiet_post {m : P Bool} [i : Quiet m] : Hoare Ok m (post Due) := i.h
theorem free_post {α : Type} {m : P α} [i : Free m] : Hoare Ok m (fun _ => Ok) := i.h

/-- One step of a proof about a program, chosen by its first statement. -/
macro "rep1" : tactic => `(tactic| first
  | exact h_killed
  | exact h_abort
  | exact h_ub
  | exact h_pre (fun _ => bad_ok) h_ub
  | exact h_ret (fun _ h => h)
  | exact h_ret (fun _ h => bad_ok h)
  | exact h_ret (fun _ h => warned_ok h)
  | exact h_ret (fun _ h => h.1)
  | exact h_ret (fun _ h => bad_fin h)
  | exact h_ret (fun _ h => used_fin h)
  | exact std_post
  | exact quiet_post
  | exact std_quiet
  | exact free_post
  | exact std_free
  | refine h_ask st_ok ?_ ?_
  | refine h_ask st_warned ?_ ?_
  | refine h_ask st_due ?_ ?_
  | refine h_std ?_ ?_
  | refine h_quiet ?_ ?_
  | refine h_freeb ?_ ?_
  | refine h_bind (low_ok (low_of (by decide +kernel))) (fun _ => ?_)
  | refine h_bind (low_due (low_of (by decide +kernel))) (fun _ => ?_)
  | refine h_bind (low_bad (low_of (by decide +kernel))) (fun _ => ?_)
  | refine h_bind (h_say_err (at_of (by decide +kernel))) (fun _ => ?_)
  | refine h_bind (h_say_warn (at_of (by decide +kernel))) (fun _ => ?_)
  | refine h_bind (h_pre (fun _ h => h.1) (h_say_err (at_of (by decide +kernel)))) (fun _ => ?_)
  | refine h_bind (h_pre (fun _ h => h.1) (h_say_warn (at_of (by decide +kernel)))) (fun _ => ?_)
  | refine h_bind (h_pre (fun _ => used_due) (h_say_err (at_of (by decide +kernel)))) (fun _ => ?_)
  | refine h_bind (h_trouble (fun _ h => h.1)) (fun _ => ?_)
  | refine h_bind (h_usage (fun _ h => h)) (fun _ => ?_)
  | refine h_free (fun _ => ?_)
  | exact h_pre (fun _ => bad_ok) std_post
  | exact h_pre (fun _ => warned_ok) std_post
  | refine h_pre (fun _ => warned_ok) (h_free (fun _ => ?_))
  | refine h_pre (fun _ => bad_ok) (h_free (fun _ => ?_)))

/-- A whole proof about a program. -/
macro "rep" : tactic => `(tactic| repeat rep1)

end Csn.Rep
