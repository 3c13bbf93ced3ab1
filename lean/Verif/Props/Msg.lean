import Verif.Spec.Msg
import Verif.Props.Wipe
import Verif.Props.Log
/-
C80: messages do not reveal keys.
-/
namespace Csn.Props
open Csn Spec

/-- Two programs that say the same and ask the same, with related results. -/
def Sim {α β : Type} (R : α → β → Prop) (m : Msg.X α) (n : Msg.X β) : Prop := ∀ s, R (m s).1 (n s).1 ∧ (m s).2 = (n s).2

namespace Sim

theorem pure {α β : Type} {R : α → β → Prop} {a : α} {b : β} (h : R a b) : Sim R (Pure.pure a : Msg.X α) (Pure.pure b : Msg.X β) := fun _ => ⟨h, rfl⟩

theorem refl {α : Type} {R : α → α → Prop} (h : ∀ a, R a a) (m : Msg.X α) : Sim R m m := fun _ => ⟨h _, rfl⟩

theorem bind {α β γ δ : Type} {R : α → β → Prop} {S : γ → δ → Prop} {m : Msg.X α} {n : Msg.X β} {f : α → Msg.X γ} {g : β → Msg.X δ}
    (h : Sim R m n) (hf : ∀ a b, R a b → Sim S (f a) (g b)) : Sim S (m >>= f) (n >>= g) := by
  intro s
  obtain ⟨h1, h2⟩ := h s
  show S (f (m s).1 (m s).2).1 (g (n s).1 (n s).2).1 ∧ (f (m s).1 (m s).2).2 = (g (n s).1 (n s).2).2
  rw [← h2]
  exact hf _ _ h1 _

/-- The same first step. -/
theorem after {α γ δ : Type} {S : γ → δ → Prop} {m : Msg.X α} {f : α → Msg.X γ} {g : α → Msg.X δ} (hf : ∀ a, Sim S (f a) (g a)) : Sim S (m >>= f) (m >>= g) :=
  bind (R := Eq) (refl (fun _ => rfl) m) (fun a b e => by subst e; exact hf a)

theorem ite {α β : Type} {R : α → β → Prop} {c : Prop} [Decidable c] {a b : Msg.X α} {a' b' : Msg.X β} (h : Sim R a a') (g : Sim R b b') :
    Sim R (if c then a else b) (if c then a' else b') := by
  split
  · exact h
  · exact g

end Sim

/-- Both or none. -/
def Both {α β : Type} (a : Option α) (b : Option β) : Prop := a.isSome = b.isSome

theorem hexOf_length {t k : Bytes} (h : HexOf t k) : t.length = 2 * k.length := by
  induction h with
  | nil => rfl
  | cons c d hi lo s b k _ _ _ _ ih => simp only [List.length_cons, ih]; omega

/-- A key that is accepted causes no messages. -/
theorem keyText_check {t : Bytes} (h : KeyText t) : ∃ k, ∀ s, Msg.check t s = (some k, s) := by
  obtain ⟨k, hk, hh⟩ := h
  have hl : t.length = 2 * 32 := by rw [hexOf_length hh, hk]
  refine ⟨k, fun s => ?_⟩
  unfold Msg.check Msg.hex
  rw [if_neg (by omega), (Proof.parseHex_iff hl k).mpr hh]
  rfl

theorem sim_keyText {t t' : Bytes} (h : KeyText t) (h' : KeyText t') : Sim Both (Msg.check t) (Msg.check t') := by
  obtain ⟨k, hk⟩ := keyText_check h
  obtain ⟨k', hk'⟩ := keyText_check h'
  intro s
  rw [hk, hk']
  exact ⟨rfl, rfl⟩

theorem hexVal_plain {c : UInt8} {n : Nat} (h : hexVal c = some n) : c ≠ 0 ∧ ¬ LineBreak c := by
  refine ⟨fun e => ?_, ?_⟩
  · subst e
    exact absurd h (by rw [show hexVal 0 = none from by decide +kernel]; simp)
  · rintro (e | e) <;> subst e
    · exact absurd h (by rw [show hexVal 0x0d = none from by decide +kernel]; simp)
    · exact absurd h (by rw [show hexVal 0x0a = none from by decide +kernel]; simp)

theorem hexOf_plain {t k : Bytes} (h : HexOf t k) : ∀ c ∈ t, c ≠ 0 ∧ ¬ LineBreak c := by
  induction h with
  | nil => simp
  | cons c d hi lo s b k h1 h2 _ _ ih =>
    intro x hx
    simp only [List.mem_cons] at hx
    rcases hx with rfl | rfl | hx
    · exact hexVal_plain h1
    · exact hexVal_plain h2
    · exact ih x hx

/-- What is taken from a key file is the key. -/
theorem keyFile_text {d : Bytes} (h : KeyFile d) : KeyText (chomp (cstr d)) := by
  obtain ⟨t, u, rfl, ⟨k, hk, hh⟩, hu⟩ := h
  have ht := hexOf_plain hh
  have hc : cstr (t ++ u) = t ++ u := by
    have h0 : 0 ∉ t ++ u := by
      intro hm
      rcases List.mem_append.1 hm with hm | hm
      · exact (ht 0 hm).1 rfl
      · rcases hu 0 hm with e | e <;> cases e
    have := cstr_append (t ++ u) [] h0
    simpa [cstr] using this
  rw [hc]
  rw [chomp_plain t u (fun c hc => (ht c hc).2) hu]
  exact ⟨k, hk, hh⟩

theorem sim_slurp (p : Bytes) {s s' : Msg.Slurped} (h : s = s' ∨ ∃ d d', s = .data d ∧ s' = .data d' ∧ KeyFile d ∧ KeyFile d') :
    Sim (fun a b => a = b ∨ ∃ d d', a = some d ∧ b = some d' ∧ KeyFile d ∧ KeyFile d') (Msg.slurp p s) (Msg.slurp p s') := by
  rcases h with rfl | ⟨d, d', rfl, rfl, h, h'⟩
  · exact Sim.refl (fun (a : Option Bytes) => Or.inl (Eq.refl a)) _
  · exact Sim.pure (Or.inr ⟨d, d', rfl, rfl, h, h'⟩)

theorem Both.refl {α : Type} (a : Option α) : Both a a := rfl

theorem sim_keyspec {e e' : Msg.Ext} (h : SameButKeys e e') (spec : Bytes) : Sim Both (Msg.keyspec e spec) (Msg.keyspec e' spec) := by
  unfold Msg.keyspec
  refine Sim.ite (Sim.refl Both.refl _) (Sim.ite ?_ (Sim.ite ?_ (Sim.refl Both.refl _)))
  · rcases h.getenv (spec.drop 4) with hg | ⟨t, t', h1, h2, h3, h4⟩
    · rw [hg]; exact Sim.refl Both.refl _
    · rw [h1, h2]; exact sim_keyText h3 h4
  · refine Sim.bind (sim_slurp _ (h.file _)) ?_
    rintro a b (rfl | ⟨d, d', rfl, rfl, h1, h2⟩)
    · exact Sim.refl Both.refl _
    · exact sim_keyText (keyFile_text h1) (keyFile_text h2)

theorem sim_init (k k' : Bytes) : Sim Both (Msg.init k) (Msg.init k') := by
  unfold Msg.init
  refine Sim.after (fun a => ?_)
  cases a with
  | none => exact Sim.pure rfl
  | some err => exact Sim.after (fun _ => Sim.pure rfl)

theorem sim_params {e e' : Msg.Ext} (h : SameButKeys e e') : ∀ (fuel : Nat) (p : Bytes) (key key' : Option Bytes), Both key key' →
    Sim (fun a b => a.1 = b.1) (Msg.params e fuel p key) (Msg.params e' fuel p key')
  | 0, _, _, _, _ => Sim.pure rfl
  | fuel + 1, p, key, key', hk => by
    unfold Msg.params
    refine Sim.ite (Sim.pure rfl) ?_
    refine Sim.ite ?_ (Sim.after (fun _ => Sim.pure rfl))
    refine Sim.bind (sim_keyspec h _) ?_
    intro a b hab
    cases a <;> cases b <;> first | cases hab | skip
    · exact Sim.after (fun _ => Sim.pure rfl)
    · refine Sim.bind (sim_init _ _) ?_
      intro a b hab
      cases a <;> cases b <;> first | cases hab | skip
      · exact Sim.after (fun _ => Sim.pure rfl)
      · exact Sim.ite (sim_params h fuel _ _ _ rfl) (Sim.pure rfl)

/-- Stores that differ in nothing but their keys. -/
def Nets (a b : Option Msg.Net) : Prop := a.map (fun n => (n.name, n.base)) = b.map (fun n => (n.name, n.base))

theorem sim_fragment {e e' : Msg.Ext} (h : SameButKeys e e') (url : Bytes) :
    Sim (fun a b => a.1 = b.1 ∧ a.2.2 = b.2.2) (Msg.fragment e url) (Msg.fragment e' url) := by
  unfold Msg.fragment
  cases lastIdx 0x23 url with
  | none => exact Sim.pure ⟨rfl, rfl⟩
  | some i => exact Sim.bind (sim_params h _ _ _ _ rfl) (fun a b hab => Sim.pure ⟨hab, rfl⟩)

theorem sim_httpNew {e e' : Msg.Ext} (h : SameButKeys e e') (url : Bytes) : Sim Nets (Msg.httpNew e url) (Msg.httpNew e' url) := by
  unfold Msg.httpNew
  refine Sim.after (fun a => ?_)
  cases a with
  | some err => exact Sim.after (fun _ => Sim.pure rfl)
  | none =>
    refine Sim.after (fun a => Sim.ite (Sim.pure rfl) (Sim.after (fun a => Sim.ite (Sim.pure rfl) ?_)))
    refine Sim.bind (sim_fragment h url) ?_
    · rintro ⟨ok, key, tmp⟩ ⟨ok', key', tmp'⟩ ⟨h1, h2⟩
      cases h1; cases h2
      refine Sim.ite (Sim.after (fun _ => Sim.pure rfl)) ?_
      refine Sim.after (fun a => Sim.ite (Sim.pure rfl) (Sim.after (fun a => Sim.ite (Sim.pure rfl) ?_)))
      refine Sim.after (fun a => Sim.ite (Sim.pure rfl) (Sim.after (fun a => Sim.ite (Sim.pure rfl) ?_)))
      exact Sim.pure rfl

theorem sim_appendHttp {e e' : Msg.Ext} (h : SameButKeys e e') (full : Bool) (arg : Bytes) :
    Sim Nets (Msg.appendHttp e full arg) (Msg.appendHttp e' full arg) := by
  unfold Msg.appendHttp
  refine Sim.bind (sim_httpNew h arg) ?_
  intro a b hab
  cases a <;> cases b <;> first | cases hab | skip
  · exact Sim.after (fun _ => Sim.pure rfl)
  · exact Sim.ite (Sim.after (fun _ => Sim.ite (Sim.after (fun _ => Sim.pure rfl)) (Sim.pure hab))) (Sim.pure hab)

/-- Lists of such stores. -/
def NetLists (a b : Option (List Msg.Net)) : Prop := a.map (·.map (fun n => (n.name, n.base))) = b.map (·.map (fun n => (n.name, n.base)))

theorem sim_appendAll {e e' : Msg.Ext} (h : SameButKeys e e') : ∀ args, Sim NetLists (Msg.appendAll e args) (Msg.appendAll e' args)
  | [] => Sim.pure rfl
  | (full, arg) :: r => by
    unfold Msg.appendAll
    refine Sim.bind (sim_appendHttp h full arg) ?_
    intro a b hab
    cases a <;> cases b <;> first | cases hab | skip
    · exact Sim.pure rfl
    · refine Sim.bind (sim_appendAll h r) ?_
      intro c d hcd
      cases c <;> cases d <;> first | cases hcd | skip
      · exact Sim.pure rfl
      · refine Sim.pure ?_
        simp only [Nets, NetLists, Option.map_some, Option.some.injEq, List.map_cons] at hab hcd ⊢
        rw [hab, hcd]

theorem sim_served : ∀ (hits : List (BitVec 32)) (a b : List Msg.Net), a.map (fun n => (n.name, n.base)) = b.map (fun n => (n.name, n.base)) →
    Sim Eq (Msg.served a hits) (Msg.served b hits)
  | [], a, b, _ => by cases a <;> cases b <;> exact Sim.refl (fun _ => rfl) _
  | x :: hits, [], [], _ => Sim.refl (fun _ => rfl) _
  | x :: hits, [], _ :: _, h => by cases h
  | x :: hits, _ :: _, [], h => by cases h
  | x :: hits, n :: a, m :: b, h => by
    simp only [List.map_cons, List.cons.injEq, Prod.mk.injEq] at h
    unfold Msg.served
    rw [h.1.1]
    exact Sim.after (fun _ => sim_served hits a b h.2)

theorem sim_storesLife {e e' : Msg.Ext} (h : SameButKeys e e') (args : List (Bool × Bytes)) (q : BitVec 32) (hits : List (BitVec 32)) :
    Sim Eq (Msg.storesLife e args q hits) (Msg.storesLife e' args q hits) := by
  unfold Msg.storesLife
  refine Sim.bind (sim_appendAll h args) ?_
  intro a b hab
  cases a <;> cases b <;> first | cases hab | skip
  · exact Sim.pure rfl
  · refine Sim.after (fun _ => Sim.bind (sim_served hits _ _ ?_) (fun _ _ _ => Sim.pure rfl))
    simpa [NetLists] using hab

theorem sim_restart (k k' : Bytes) (id : Id) : Sim Eq (Msg.restart k id) (Msg.restart k' id) := Sim.refl (fun _ => rfl) _

theorem sim_convert {e e' : Msg.Ext} (h : SameButKeys e e') (k k' : Bytes) (id : Id) (i o : Bytes) :
    Sim Eq (Msg.convert e k id i o) (Msg.convert e' k' id i o) := by
  unfold Msg.convert
  refine Sim.after (fun a => ?_)
  cases a with
  | none => exact Sim.pure rfl
  | some _ =>
    refine Sim.bind (sim_restart k k' id) ?_
    rintro a _ rfl
    refine Sim.ite (Sim.after (fun _ => Sim.pure rfl)) ?_
    refine Sim.bind (sim_slurp _ (h.file _)) ?_
    rintro a b (rfl | ⟨d, d', rfl, rfl, -, -⟩)
    · exact Sim.refl (fun _ => rfl) _
    · exact Sim.refl (fun _ => rfl) _

theorem sim_one {e e' : Msg.Ext} (h : SameButKeys e e') (k k' : Bytes) (i : Bytes) (o : Option Bytes) :
    Sim Eq (Msg.one e k i o) (Msg.one e' k' i o) := by
  unfold Msg.one
  refine Sim.after (fun a => ?_)
  cases a with
  | none => exact Sim.after (fun _ => Sim.pure rfl)
  | some id =>
    cases o with
    | some out => exact sim_convert h k k' id i out
    | none =>
      refine Sim.after (fun a => ?_)
      cases a with
      | none => exact Sim.pure rfl
      | some out => exact sim_convert h k k' id i out

theorem sim_lines {e e' : Msg.Ext} (h : SameButKeys e e') (k k' : Bytes) : ∀ ls, Sim Eq (Msg.lines e k ls) (Msg.lines e' k' ls)
  | [] => Sim.pure rfl
  | l :: r => by
    unfold Msg.lines
    refine Sim.bind (sim_one h k k' _ none) ?_
    rintro a _ rfl
    exact Sim.ite (Sim.pure rfl) (sim_lines h k k' r)

theorem sim_crypt {e e' : Msg.Ext} (h : SameButKeys e e') (spec : Bytes) (names : Option (Bytes × Option Bytes)) (stdin : List Bytes) :
    Sim Eq (Msg.crypt e spec names stdin) (Msg.crypt e' spec names stdin) := by
  unfold Msg.crypt
  refine Sim.bind (sim_keyspec h spec) ?_
  intro a b hab
  cases a <;> cases b <;> first | cases hab | skip
  · exact Sim.after (fun _ => Sim.pure rfl)
  · refine Sim.bind (sim_init _ _) ?_
    intro a b hab
    cases a <;> cases b <;> first | cases hab | skip
    · exact Sim.after (fun _ => Sim.pure rfl)
    · rcases names with _ | ⟨i, o⟩
      · exact sim_lines h _ _ stdin
      · exact sim_one h _ _ i o

theorem sim_said {α : Type} {m n : Msg.X α} (h : Sim Eq m n) (answers : List (Option Bytes)) : said m answers = said n answers := by
  unfold said
  rw [(h _).2]

/-- **C80** (keys from files and environment variables, stores): whatever goes wrong, setting up stores on the network and
reporting about them says the same with any other keys in the files and variables.  Missing: keys that are part of the argument
(`C80_refuted`), rejected keys (`C80_rejected`). -/
theorem C80_stores_partial {e e' : Msg.Ext} (h : SameButKeys e e') (args : List (Bool × Bytes)) (queries : BitVec 32) (hits : List (BitVec 32))
    (answers : List (Option Bytes)) : said (Msg.storesLife e args queries hits) answers = said (Msg.storesLife e' args queries hits) answers :=
  sim_said (sim_storesLife h args queries hits) answers

/-- **C80** (keys from files and environment variables, csn-tool): the same for csn-tool. -/
theorem C80_crypt_partial {e e' : Msg.Ext} (h : SameButKeys e e') (spec : Bytes) (names : Option (Bytes × Option Bytes)) (stdin : List Bytes)
    (answers : List (Option Bytes)) : said (Msg.crypt e spec names stdin) answers = said (Msg.crypt e' spec names stdin) answers :=
  sim_said (sim_crypt h spec names stdin) answers

/-! ### Keys in arguments -/

/-- `m` only adds messages, and with result `a` has said all of `P a`. -/
def Tells {α : Type} (P : α → List Msg.Note → Prop) (m : Msg.X α) : Prop := ∀ s, ∃ l, (m s).2.2 = s.2 ++ l ∧ P (m s).1 l

namespace Tells

theorem pure {α : Type} {P : α → List Msg.Note → Prop} {a : α} (h : P a []) : Tells P (Pure.pure a : Msg.X α) := fun s => ⟨[], by simp [Pure.pure, StateT.pure], h⟩

theorem bind {α β : Type} {P : α → List Msg.Note → Prop} {Q : β → List Msg.Note → Prop} {m : Msg.X α} {f : α → Msg.X β}
    (h : Tells P m) (hf : ∀ a l, P a l → Tells (fun b l' => Q b (l ++ l')) (f a)) : Tells Q (m >>= f) := by
  intro s
  obtain ⟨l, h1, h2⟩ := h s
  obtain ⟨l', h3, h4⟩ := hf _ _ h2 (m s).2
  refine ⟨l ++ l', ?_, h4⟩
  show (f (m s).1 (m s).2).2.2 = _
  rw [h3, h1, List.append_assoc]

theorem mono {α : Type} {P Q : α → List Msg.Note → Prop} {m : Msg.X α} (h : Tells P m) (hpq : ∀ a l, P a l → Q a l) : Tells Q m := by
  intro s
  obtain ⟨l, h1, h2⟩ := h s
  exact ⟨l, h1, hpq _ _ h2⟩

theorem say (file : String) (line : Nat) (args : List LogArg) : Tells (fun _ l => l = [⟨file, line, args⟩]) (Msg.say file line args) :=
  fun _ => ⟨_, rfl, rfl⟩

theorem ask : Tells (fun _ l => l = []) Msg.ask := by
  rintro ⟨_ | ⟨a, r⟩, s⟩ <;> exact ⟨[], by simp [Msg.ask], rfl⟩

/-- Anything at all. -/
abbrev Any {α : Type} : Msg.X α → Prop := Tells (fun _ _ => True)

theorem any_bind {α β : Type} {Q : β → Prop} {m : Msg.X α} {f : α → Msg.X β} (h : Any m) (hf : ∀ a, Tells (fun b _ => Q b) (f a)) :
    Tells (fun b _ => Q b) (m >>= f) := bind h (fun a _ _ => hf a)

theorem any_ite {α : Type} {P : α → List Msg.Note → Prop} {c : Prop} [Decidable c] {a b : Msg.X α} (h : Tells P a) (g : Tells P b) :
    Tells P (if c then a else b) := by split <;> assumption

end Tells

theorem any_say {file : String} {line : Nat} {args : List LogArg} : Tells.Any (Msg.say file line args) := (Tells.say _ _ _).mono (fun _ _ _ => trivial)

theorem any_ask : Tells.Any Msg.ask := Tells.ask.mono (fun _ _ _ => trivial)

theorem any_pure {α : Type} {a : α} : Tells.Any (Pure.pure a : Msg.X α) := Tells.pure trivial

theorem any_slurp (p : Bytes) (x : Msg.Slurped) : Tells.Any (Msg.slurp p x) := by
  cases x <;> unfold Msg.slurp <;> repeat (first | exact any_pure | exact any_say | refine Tells.any_bind any_say (fun _ => ?_))

theorem any_hex (t : Bytes) : Tells.Any (Msg.hex t) := by
  unfold Msg.hex
  split
  · exact any_pure
  · split
    · exact Tells.any_bind any_say (fun _ => any_pure)
    · exact any_pure

theorem any_check (t : Bytes) : Tells.Any (Msg.check t) := by
  unfold Msg.check
  refine Tells.any_ite (Tells.any_bind any_say (fun _ => any_pure)) (Tells.any_bind (any_hex t) (fun a => ?_))
  cases a with
  | some k => exact any_pure
  | none => exact Tells.any_bind any_say (fun _ => any_pure)

theorem any_keyspec (e : Msg.Ext) (spec : Bytes) : Tells.Any (Msg.keyspec e spec) := by
  unfold Msg.keyspec
  refine Tells.any_ite (any_check _) (Tells.any_ite ?_ (Tells.any_ite (Tells.any_bind (any_slurp _ _) (fun a => ?_)) (Tells.any_bind any_say (fun _ => any_pure))))
  · split
    · exact Tells.any_bind any_say (fun _ => any_pure)
    · exact any_check _
  · cases a with
    | none => exact any_pure
    | some d => exact any_check _

theorem any_init (k : Bytes) : Tells.Any (Msg.init k) := by
  unfold Msg.init
  refine Tells.any_bind any_ask (fun a => ?_)
  cases a with
  | none => exact any_pure
  | some d => exact Tells.any_bind any_say (fun _ => any_pure)

theorem any_params (e : Msg.Ext) : ∀ (fuel : Nat) (p : Bytes) (key : Option Bytes), Tells.Any (Msg.params e fuel p key)
  | 0, _, _ => any_pure
  | fuel + 1, p, key => by
    unfold Msg.params
    refine Tells.any_ite any_pure (Tells.any_ite (Tells.any_bind (any_keyspec _ _) (fun a => ?_)) (Tells.any_bind any_say (fun _ => any_pure)))
    cases a with
    | none => exact Tells.any_bind any_say (fun _ => any_pure)
    | some k =>
      refine Tells.any_bind (any_init k) (fun a => ?_)
      cases a with
      | none => exact Tells.any_bind any_say (fun _ => any_pure)
      | some k => exact Tells.any_ite (any_params e fuel _ _) any_pure

theorem any_notNull (file : String) (line : Nat) (x : Bytes) : Tells.Any (Msg.notNull file line x) := by
  unfold Msg.notNull
  refine Tells.any_bind any_ask (fun a => ?_)
  cases a with
  | none => exact any_pure
  | some d => exact Tells.any_bind any_say (fun _ => any_pure)

theorem any_options : ∀ l, Tells.Any (Msg.setOptions l)
  | [] => any_pure
  | (line, opt) :: r => by
    unfold Msg.setOptions
    refine Tells.any_bind any_ask (fun a => ?_)
    cases a with
    | none => exact any_options r
    | some d => exact Tells.any_bind any_say (fun _ => any_pure)

theorem any_fragment (e : Msg.Ext) (url : Bytes) : Tells.Any (Msg.fragment e url) := by
  unfold Msg.fragment
  split
  · exact Tells.any_bind (any_params e _ _ _) (fun _ => any_pure)
  · exact any_pure

theorem named_httpNew (e : Msg.Ext) (url : Bytes) : Tells (fun a _ => ∀ n, a = some n → n.name = url.take 127) (Msg.httpNew e url) := by
  have hn : Tells (fun a _ => ∀ n, a = some n → n.name = url.take 127) (Pure.pure none : Msg.X (Option Msg.Net)) := Tells.pure (fun n hn => by cases hn)
  unfold Msg.httpNew
  refine Tells.any_bind any_ask (fun a => ?_)
  cases a with
  | some err => exact Tells.any_bind any_say (fun _ => hn)
  | none =>
    refine Tells.any_bind (any_notNull _ _ _) (fun _ => Tells.any_ite hn (Tells.any_bind (any_notNull _ _ _) (fun _ => Tells.any_ite hn ?_)))
    refine Tells.any_bind (any_fragment _ _) ?_
    rintro ⟨ok, key, tmp⟩
    refine Tells.any_ite (Tells.any_bind any_say (fun _ => hn)) ?_
    refine Tells.any_bind (any_notNull _ _ _) (fun _ => Tells.any_ite hn (Tells.any_bind (any_notNull _ _ _) (fun _ => Tells.any_ite hn ?_)))
    refine Tells.any_bind (any_options _) (fun _ => Tells.any_ite hn (Tells.any_bind (any_notNull _ _ _) (fun _ => Tells.any_ite hn ?_)))
    exact Tells.pure (fun n hn => by cases hn; rfl)

theorem named_appendHttp (e : Msg.Ext) (full : Bool) (url : Bytes) :
    Tells (fun a _ => ∀ n, a = some n → n.name = url.take 127) (Msg.appendHttp e full url) := by
  have hn : Tells (fun a _ => ∀ n, a = some n → n.name = url.take 127) (Pure.pure none : Msg.X (Option Msg.Net)) := Tells.pure (fun n hn => by cases hn)
  unfold Msg.appendHttp
  refine Tells.bind (named_httpNew e url) (fun a _ ha => ?_)
  cases a with
  | none => exact Tells.any_bind any_say (fun _ => hn)
  | some n => exact Tells.any_ite (Tells.any_bind (any_notNull _ _ _) (fun _ => Tells.any_ite (Tells.any_bind any_say (fun _ => hn)) (Tells.pure ha))) (Tells.pure ha)

theorem named_appendAll (e : Msg.Ext) : ∀ args : List (Bool × Bytes),
    Tells (fun a _ => ∀ ns, a = some ns → ns.map (·.name) = args.map (·.2.take 127)) (Msg.appendAll e args)
  | [] => Tells.pure (fun ns h => by cases h; rfl)
  | (full, arg) :: r => by
    unfold Msg.appendAll
    refine Tells.bind (named_appendHttp e full arg) (fun a _ ha => ?_)
    cases a with
    | none => exact Tells.pure (fun n hn => by cases hn)
    | some n =>
      refine Tells.bind (named_appendAll e r) (fun b _ hb => ?_)
      cases b with
      | none => exact Tells.pure (fun n hn => by cases hn)
      | some ns =>
        refine Tells.pure (fun l hl => ?_)
        cases hl
        simp only [List.map_cons, ha n rfl, hb ns rfl]

theorem tells_served : ∀ (ns : List Msg.Net) (hits : List (BitVec 32)),
    Tells (fun _ l => l = ((ns.map (·.name)).zip hits).map (fun p => ⟨"store.c", 71, [.w4 p.2, .str p.1]⟩)) (Msg.served ns hits)
  | [], _ => Tells.pure (by simp)
  | _ :: _, [] => Tells.pure (by simp)
  | n :: ns, h :: hs => by
    unfold Msg.served
    refine Tells.bind (Tells.say _ _ _) (fun _ l hl => ?_)
    refine (tells_served ns hs).mono (fun _ l' hl' => ?_)
    rw [hl, hl']
    simp

/-- What a successful run says at the end about its stores. -/
theorem tells_storesLife (e : Msg.Ext) (args : List (Bool × Bytes)) (queries : BitVec 32) (hits : List (BitVec 32)) :
    Tells (fun ok l => ok = true → ∀ p ∈ (args.map (·.2.take 127)).zip hits, ⟨"store.c", 71, [.w4 p.2, .str p.1]⟩ ∈ l) (Msg.storesLife e args queries hits) := by
  unfold Msg.storesLife
  refine Tells.bind (named_appendAll e args) (fun a l ha => ?_)
  cases a with
  | none => exact Tells.pure (fun h => by cases h)
  | some ns =>
    refine Tells.bind (Tells.say _ _ _) (fun _ l1 _ => ?_)
    refine Tells.bind (tells_served ns hits) (fun _ l2 hl2 => Tells.pure (fun _ p hp => ?_))
    rw [← ha ns rfl] at hp
    refine List.mem_append_right _ (List.mem_append_right _ (List.mem_append_left _ ?_))
    rw [hl2]
    exact List.mem_map.2 ⟨p, hp, rfl⟩

theorem lastHash (dir file : Bytes) (hfile : (0x23 : UInt8) ∉ file) : lastIdx 0x23 (dir ++ 0x23 :: file) = some dir.length := by
  unfold lastIdx
  have : (dir ++ 0x23 :: file).reverse.findIdx? (· == 0x23) = some file.length := by
    rw [List.findIdx?_eq_some_iff_getElem]
    refine ⟨by simp, ?_, ?_⟩
    · simp
    · intro j hj
      have : (dir ++ 0x23 :: file).reverse[j]? = file.reverse[j]? := by
        rw [List.reverse_append, List.reverse_cons, List.append_assoc, List.getElem?_append_left (by simpa using hj)]
      rw [List.getElem?_eq_getElem (by simp; omega), List.getElem?_eq_getElem (by simpa using hj)] at this
      injection this with this
      rw [this]
      have := List.getElem_mem (l := file.reverse) (n := j) (by simpa using hj)
      simp only [List.mem_reverse] at this
      intro e
      exact hfile (by simpa using (beq_iff_eq.1 e) ▸ this)
  rw [this]
  simp

theorem startswith_append (a b : Bytes) : startswith (a ++ b) a = true := by simp [startswith]

theorem hexOf_only {t k : Bytes} (h : HexOf t k) {c : UInt8} (hc : hexVal c = none) : c ∉ t := by
  induction h with
  | nil => simp
  | cons x y hi lo s b k h1 h2 _ _ ih =>
    intro hm
    simp only [List.mem_cons] at hm
    rcases hm with rfl | rfl | hm
    · rw [hc] at h1; cases h1
    · rw [hc] at h2; cases h2
    · exact ih hm

/-- An argument with a key in it is accepted. -/
theorem key_accepted (e : Msg.Ext) (base t : Bytes) (h : KeyText t) (l : List Msg.Note) : ∃ k,
    Msg.httpNew e (base ++ 0x23 :: (str "encrypt=key:" ++ t)) ([], l) =
      (some ⟨(base ++ 0x23 :: (str "encrypt=key:" ++ t)).take 127, stripSlash base, some k⟩, [], l) := by
  obtain ⟨k, hk⟩ := keyText_check h
  obtain ⟨k0, _, hh⟩ := h
  have h23 : (0x23 : UInt8) ∉ str "encrypt=key:" ++ t := by
    intro hm
    rcases List.mem_append.1 hm with hm | hm
    · exact absurd hm (by decide +kernel)
    · exact hexOf_only hh (by decide +kernel) hm
  have h2c : (0x2c : UInt8) ∉ str "encrypt=key:" ++ t := by
    intro hm
    rcases List.mem_append.1 hm with hm | hm
    · exact absurd hm (by decide +kernel)
    · exact hexOf_only hh (by decide +kernel) hm
  have hspec : ∀ s, Msg.keyspec e (str "key:" ++ t) s = (some k, s) := by
    intro s
    unfold Msg.keyspec
    rw [if_pos (startswith_append _ _)]
    exact hk s
  have hword : (str "encrypt=key:" ++ t).takeWhile (· != 0x2c) = str "encrypt=key:" ++ t := by
    have := List.takeWhile_append_of_pos (p := (· != (0x2c : UInt8))) (l₁ := str "encrypt=key:" ++ t) (l₂ := []) (fun c hc => by
      simp only [bne_iff_ne, ne_eq]
      rintro rfl
      exact h2c hc)
    simpa using this
  have hpar : ∀ n, Msg.params e (n + 1) (str "encrypt=key:" ++ t) none ([], l) = ((true, some k), [], l) := by
    intro n
    unfold Msg.params
    rw [if_neg (by simp [str])]
    simp only [hword]
    rw [if_pos (show startswith (str "encrypt=key:" ++ t) (str "encrypt=") = true from startswith_append (str "encrypt=") (str "key:" ++ t))]
    show (Msg.keyspec e (str "key:" ++ t) >>= _) ([], l) = _
    simp only [Bind.bind, StateT.bind, hspec]
    simp [Msg.init, Msg.ask, Bind.bind, StateT.bind, Pure.pure, StateT.pure]
  have hfrag : Msg.fragment e (base ++ 0x23 :: (str "encrypt=key:" ++ t)) ([], l) = ((true, some k, base), [], l) := by
    unfold Msg.fragment
    rw [lastHash _ _ h23]
    simp only
    rw [show (base ++ 0x23 :: (str "encrypt=key:" ++ t)).drop (base.length + 1) = str "encrypt=key:" ++ t by
      rw [List.drop_append]; simp]
    simp only [Bind.bind, StateT.bind, hpar]
    simp [Pure.pure, StateT.pure]
  refine ⟨k, ?_⟩
  unfold Msg.httpNew
  generalize hu : base ++ 0x23 :: (str "encrypt=key:" ++ t) = url at hfrag
  simp only [Msg.ask, Msg.notNull, Msg.options, Msg.setOptions, hfrag, Bind.bind, StateT.bind, Pure.pure, StateT.pure, Bool.not_true, Bool.false_eq_true, if_false]

theorem formatOk_strings (ren : Bytes → LogArg → Bytes) : ∀ (f : Bytes) (st : Option Bytes) (ks : List ArgKind), formatOk st f ks = true →
    ∀ args : List LogArg, args.map LogArg.kind = ks → ∃ o, Renders ren (match st with | none => f | some sp => 0x25 :: sp ++ f) args o ∧ ∀ s, .str s ∈ args → s <:+: o := by
  intro f
  induction f with
  | nil =>
    intro st ks h args hk
    cases st with
    | none => exact ⟨[], .nil _, fun s hs => by
      have : args = [] := List.map_eq_nil_iff.1 (hk.trans (by simpa [formatOk] using h))
      rw [this] at hs; cases hs⟩
    | some sp => simp [formatOk] at h
  | cons c f ih =>
    intro st ks h args hk
    cases st with
    | none =>
      simp only [formatOk] at h
      by_cases hc : c = 0x25
      · subst hc
        rw [if_pos (by rfl)] at h
        simpa using ih (some []) ks h args hk
      · rw [if_neg (by simpa using hc)] at h
        obtain ⟨o, ho, hi⟩ := ih none ks h args hk
        exact ⟨c :: o, .char c f args o hc ho, fun s hs => (hi s hs).trans (List.infix_cons (List.infix_refl _))⟩
    | some sp =>
      simp only [formatOk] at h
      by_cases hc : (c == 0x25 && sp.isEmpty) = true
      · rw [if_pos hc] at h
        simp only [Bool.and_eq_true, beq_iff_eq, List.isEmpty_iff] at hc
        obtain ⟨rfl, rfl⟩ := hc
        obtain ⟨o, ho, hi⟩ := ih none ks h args hk
        exact ⟨_, .percent f args o ho, fun s hs => (hi s hs).trans (List.infix_cons (List.infix_refl _))⟩
      · rw [if_neg hc] at h
        cases args with
        | nil => simp at hk; subst hk; simp at h
        | cons a as =>
          simp only [List.map_cons] at hk
          subst hk
          simp only at h
          by_cases hm : conversions.contains (sp ++ [c], a.kind) = true
          · rw [if_pos hm] at h
            obtain ⟨o, ho, hi⟩ := ih none _ h as rfl
            obtain ⟨t, ht⟩ := shows_any ren (sp ++ [c]) a
            have := Renders.conv (sp ++ [c]) a t f as o (by simpa using hm) ht ho
            refine ⟨t ++ o, by simpa using this, fun s hs => ?_⟩
            rcases List.mem_cons.1 hs with hs | hs
            · subst hs
              cases ht with
              | text => exact (List.prefix_append _ _).isInfix
              | other _ hn => exact absurd rfl (hn s)
            · exact (hi s hs).trans (List.suffix_append _ _).isInfix
          · rw [if_neg hm] at h
            obtain ⟨o, ho, hi⟩ := ih (some (sp ++ [c])) _ h (a :: as) rfl
            exact ⟨o, by simpa using ho, hi⟩

/-- Strings given to a message are printed in full. -/
theorem printed_str (y : Style) (s : LogSite) (hs : s ∈ logSites) (hne : ¬ (s.file = "store-local.c" ∧ s.first = 70)) (hi : AtLeast s.level .info)
    {notes : List Msg.Note} {args : List LogArg} (hn : ⟨s.file, s.first, args⟩ ∈ notes) (hk : args.map LogArg.kind = s.kinds) {t : Bytes} (ht : .str t ∈ args) :
    ∃ out, Printed y notes out ∧ t <:+: out := by
  have hok := List.all_eq_true.1 sites_ok s hs
  simp only [siteOk, Bool.and_eq_true, Bool.or_eq_true, decide_eq_true_eq, Bool.not_eq_true', isLong, beq_iff_eq] at hok
  obtain ⟨⟨⟨⟨⟨h1, h2⟩, h3⟩, h4⟩, h5⟩, h6⟩ := hok
  have h6 := h6.resolve_left hne
  obtain ⟨msg, hm, hstr⟩ := formatOk_strings y.ren (lit s.format) none s.kinds h1 args hk
  have hl := y.inCall s
  have := C65_line y.ren .info y.tty s.level y.dirPart (by simpa using h2) (lit s.func) (by simpa using h3) (by simpa using h4) (y.line s)
    (lit s.format) args msg hm (by
      have := lineStart_length y.tty s.level (lit s.file) (lit s.func) (line := y.line s) (by omega)
      simp only [List.length_append]
      omega)
  refine ⟨_, ⟨_, hn, s, hs, rfl, rfl, hk, this.1 hi⟩, ?_⟩
  exact (hstr t ht).trans ⟨_, _, rfl⟩

theorem tells_said {α : Type} {P : α → List Msg.Note → Prop} {m : Msg.X α} (h : Tells P m) (answers : List (Option Bytes)) :
    P (m (answers, [])).1 (said m answers) := by
  obtain ⟨l, h1, h2⟩ := h (answers, [])
  have : said m answers = l := by unfold said; rw [h1]; rfl
  rw [this]
  exact h2

/-- **C80 refuted**: every key given on the command line as part of a store is printed by every run that gets as far as setting up
its stores and finishes, at the default level; such runs exist.  The statistics at the end have the first 127 characters of the argument. -/
theorem C80_refuted (e : Msg.Ext) (base t : Bytes) (h : KeyText t) (hl : base.length ≤ 50) (y : Style) (queries n : BitVec 32) (full : Bool) :
    let url := base ++ str "#encrypt=key:" ++ t
    ((Msg.storesLife e [(full, url)] queries [n]) ([], [])).1 = true ∧
    ∀ answers, ((Msg.storesLife e [(full, url)] queries [n]) (answers, [])).1 = true →
      ∃ out, Printed y (said (Msg.storesLife e [(full, url)] queries [n]) answers) out ∧ t <:+: out := by
  intro url
  have hurl : url = base ++ 0x23 :: (str "encrypt=key:" ++ t) := by
    show base ++ (0x23 :: str "encrypt=key:") ++ t = _
    simp
  have ht : t.length = 64 := by
    obtain ⟨k, hk, hh⟩ := h
    rw [hexOf_length hh, hk]
  constructor
  · obtain ⟨k, hk⟩ := key_accepted e base t h []
    rw [← hurl] at hk
    cases full <;>
    simp [Msg.storesLife, Msg.appendAll, Msg.appendHttp, Bind.bind, StateT.bind, hk, Msg.notNull, Msg.ask, Msg.say, Msg.served, Pure.pure, StateT.pure]
  · intro answers hok
    have := tells_said (tells_storesLife e [(full, url)] queries [n]) answers hok (url, n) (by
      have : url.take 127 = url := List.take_of_length_le (by
        rw [hurl]
        simp only [List.length_append, List.length_cons, ht, show (str "encrypt=key:").length = 12 from by decide +kernel]
        omega)
      simp [this])
    obtain ⟨out, h1, h2⟩ := printed_str y ⟨"store.c", 71, 73, "store_chain_free", .info, "    %u answered by store %s", [.w4, .str]⟩ (by decide +kernel)
      (by decide) (atLeast_iff.2 (by decide)) this rfl (t := url) (by simp)
    exact ⟨out, h1, (List.suffix_append _ _).isInfix.trans h2⟩

/-- The same for a store that cannot be set up: the whole argument is printed. -/
theorem C80_refused (e : Msg.Ext) (full : Bool) (arg : Bytes) (answers : List (Option Bytes)) (y : Style)
    (h : ((Msg.appendHttp e full arg) (answers, [])).1 = none) : ∃ out, Printed y (said (Msg.appendHttp e full arg) answers) out ∧ arg <:+: out := by
  have key : Tells (fun a l => a = none → ⟨"main.c", 99, [.str arg]⟩ ∈ l ∨ ⟨"main.c", 117, [.str arg]⟩ ∈ l) (Msg.appendHttp e full arg) := by
    unfold Msg.appendHttp
    refine Tells.bind ((named_httpNew e arg).mono (fun _ _ _ => trivial)) (fun a l _ => ?_)
    cases a with
    | none =>
      refine Tells.bind (Tells.say _ _ _) (fun _ l' hl' => Tells.pure (fun _ => Or.inl ?_))
      rw [hl']; simp
    | some n =>
      refine Tells.any_ite (Tells.bind (any_notNull _ _ _) (fun b l' _ => Tells.any_ite ?_ (Tells.pure (fun h => by cases h)))) (Tells.pure (fun h => by cases h))
      refine Tells.bind (Tells.say _ _ _) (fun _ l' hl' => Tells.pure (fun _ => Or.inr ?_))
      rw [hl']; simp
  rcases tells_said key answers h with h | h
  · exact printed_str y ⟨"main.c", 99, 99, "append_store_from_arg", .err, "creating HTTP store from '%s' failed", [.str]⟩ (by decide +kernel)
      (by decide) (atLeast_iff.2 (by decide)) h rfl (by simp)
  · exact printed_str y ⟨"main.c", 117, 117, "append_store_from_arg", .err, "appending store '%s' to store chain failed", [.str]⟩ (by decide +kernel)
      (by decide) (atLeast_iff.2 (by decide)) h rfl (by simp)

/-- A key whose `key:` is missing is printed. -/
theorem C80_rejected (e : Msg.Ext) (spec : Bytes) (names : Option (Bytes × Option Bytes)) (stdin : List Bytes) (answers : List (Option Bytes)) (y : Style)
    (h1 : startswith spec (str "key:") = false) (h2 : startswith spec (str "env:") = false) (h3 : startswith spec (str "file:") = false) :
    ∃ out, Printed y (said (Msg.crypt e spec names stdin) answers) out ∧ spec <:+: out := by
  have key : Tells (fun _ l => ⟨"encrypt.c", 170, [.str spec]⟩ ∈ l) (Msg.crypt e spec names stdin) := by
    unfold Msg.crypt
    refine Tells.bind (P := fun a l => a = none ∧ ⟨"encrypt.c", 170, [.str spec]⟩ ∈ l) ?_ ?_
    · unfold Msg.keyspec
      rw [if_neg (by simp [h1]), if_neg (by simp [h2]), if_neg (by simp [h3])]
      refine Tells.bind (Tells.say _ _ _) (fun _ l hl => Tells.pure ⟨rfl, ?_⟩)
      rw [hl]; simp
    · rintro _ l ⟨rfl, hl⟩
      exact Tells.bind any_say (fun _ l' _ => Tells.pure (List.mem_append_left _ hl))
  exact printed_str y ⟨"encrypt.c", 170, 170, "encrypt_parse_keyspec", .err, "unknown keyspec used in '%s'", [.str]⟩ (by decide +kernel)
      (by decide) (atLeast_iff.2 (by decide)) (tells_said key answers) rfl (by simp)

/-! ### All of these messages are in the table of calls -/

/-- The entry of the table that a message belongs to. -/
def Listed (n : Msg.Note) : Prop := ∃ s ∈ logSites, s.file = n.file ∧ s.first = n.line ∧ n.args.map LogArg.kind = s.kinds

/-- `m` says nothing but what is listed. -/
abbrev Lists {α : Type} (m : Msg.X α) : Prop := Tells (fun _ l => ∀ n ∈ l, Listed n) m

theorem Lists.pure {α : Type} {a : α} : Lists (Pure.pure a : Msg.X α) := Tells.pure (by simp)

theorem Lists.bind {α β : Type} {m : Msg.X α} {f : α → Msg.X β} (h : Lists m) (hf : ∀ a, Lists (f a)) : Lists (m >>= f) :=
  Tells.bind h (fun a _ hl => (hf a).mono (fun _ _ hl' n hn => (List.mem_append.1 hn).elim (hl n) (hl' n)))

theorem Lists.ask : Lists Msg.ask := Tells.ask.mono (fun _ l hl => by simp [hl])

/-- Check of a message against the table. -/
def inTable (file : String) (line : Nat) (kinds : List ArgKind) : Bool := logSites.any (fun s => s.file == file && s.first == line && s.kinds == kinds)

theorem Lists.say {file : String} {line : Nat} {args : List LogArg} (kinds : List ArgKind) (hk : args.map LogArg.kind = kinds)
    (h : inTable file line kinds = true) : Lists (Msg.say file line args) := (Tells.say file line args).mono (fun _ l hl n hn => by
  rw [hl, List.mem_singleton] at hn
  subst hn
  obtain ⟨s, hs, h⟩ := List.any_eq_true.1 h
  simp only [Bool.and_eq_true, beq_iff_eq] at h
  exact ⟨s, hs, h.1.1, h.1.2, hk.trans h.2.symm⟩)

/-- A message, then the rest. -/
theorem Lists.also {β : Type} {file : String} {line : Nat} {args : List LogArg} {m : Msg.X β} (kinds : List ArgKind) (hk : args.map LogArg.kind = kinds)
    (h : inTable file line kinds = true) (hm : Lists m) : Lists (Msg.say file line args >>= fun _ => m) := Lists.bind (Lists.say kinds hk h) (fun _ => hm)

theorem lists_slurp (p : Bytes) (x : Msg.Slurped) : Lists (Msg.slurp p x) := by
  cases x with
  | noFile err => exact Lists.also [.str, .str] rfl (by decide +kernel) Lists.pure
  | noStat err => exact Lists.also [.str] rfl (by decide +kernel) (Lists.also [.str] rfl (by decide +kernel) Lists.pure)
  | oddType m => exact Lists.also [.w4] rfl (by decide +kernel) (Lists.also [.str] rfl (by decide +kernel) Lists.pure)
  | noDevSize err => exact Lists.also [.str] rfl (by decide +kernel) (Lists.also [.str] rfl (by decide +kernel) Lists.pure)
  | noMem n err => exact Lists.also [.w8, .str] rfl (by decide +kernel) Lists.pure
  | readFails err => exact Lists.also [.str] rfl (by decide +kernel) (Lists.also [.str] rfl (by decide +kernel) Lists.pure)
  | short a b => exact Lists.also [.w8, .w8] rfl (by decide +kernel) (Lists.also [.str] rfl (by decide +kernel) Lists.pure)
  | data d => exact Lists.pure

theorem lists_hex (t : Bytes) : Lists (Msg.hex t) := by
  unfold Msg.hex
  split
  · exact Lists.pure
  · split
    · exact Lists.also [.w4] rfl (by decide +kernel) Lists.pure
    · exact Lists.pure

theorem lists_check (t : Bytes) : Lists (Msg.check t) := by
  unfold Msg.check
  refine Tells.any_ite (Lists.also [.w8] rfl (by decide +kernel) Lists.pure) (Lists.bind (lists_hex t) (fun a => ?_))
  cases a with
  | some k => exact Lists.pure
  | none => exact Lists.also [] rfl (by decide +kernel) Lists.pure

theorem lists_keyspec (e : Msg.Ext) (spec : Bytes) : Lists (Msg.keyspec e spec) := by
  unfold Msg.keyspec
  refine Tells.any_ite (lists_check _) (Tells.any_ite ?_ (Tells.any_ite (Lists.bind (lists_slurp _ _) (fun a => ?_)) (Lists.also [.str] rfl (by decide +kernel) Lists.pure)))
  · split
    · exact Lists.also [.str] rfl (by decide +kernel) Lists.pure
    · exact lists_check _
  · cases a with
    | none => exact Lists.pure
    | some d => exact lists_check _

theorem lists_init (k : Bytes) : Lists (Msg.init k) := by
  unfold Msg.init
  refine Lists.bind Lists.ask (fun a => ?_)
  cases a with
  | none => exact Lists.pure
  | some d => exact Lists.also [] rfl (by decide +kernel) Lists.pure

theorem lists_params (e : Msg.Ext) : ∀ (fuel : Nat) (p : Bytes) (key : Option Bytes), Lists (Msg.params e fuel p key)
  | 0, _, _ => Lists.pure
  | fuel + 1, p, key => by
    unfold Msg.params
    refine Tells.any_ite Lists.pure (Tells.any_ite (Lists.bind (lists_keyspec _ _) (fun a => ?_)) (Lists.also [.str] rfl (by decide +kernel) Lists.pure))
    cases a with
    | none => exact Lists.also [] rfl (by decide +kernel) Lists.pure
    | some k =>
      refine Lists.bind (lists_init k) (fun a => ?_)
      cases a with
      | none => exact Lists.also [] rfl (by decide +kernel) Lists.pure
      | some k => exact Tells.any_ite (lists_params e fuel _ _) Lists.pure

theorem lists_notNull (file : String) (line : Nat) (x : Bytes) (h : inTable file line [.str] = true) : Lists (Msg.notNull file line x) := by
  unfold Msg.notNull
  refine Lists.bind Lists.ask (fun a => ?_)
  cases a with
  | none => exact Lists.pure
  | some d => exact Lists.also [.str] rfl h Lists.pure

theorem lists_options : ∀ l, l.all (fun p => inTable "store-http.c" p.1 [.w4, .str]) = true → Lists (Msg.setOptions l)
  | [], _ => Lists.pure
  | (line, opt) :: r, h => by
    simp only [List.all_cons, Bool.and_eq_true] at h
    unfold Msg.setOptions
    refine Lists.bind Lists.ask (fun a => ?_)
    cases a with
    | none => exact lists_options r h.2
    | some d => exact Lists.also [.w4, .str] rfl h.1 Lists.pure

theorem lists_fragment (e : Msg.Ext) (url : Bytes) : Lists (Msg.fragment e url) := by
  unfold Msg.fragment
  split
  · exact Lists.bind (lists_params e _ _ _) (fun _ => Lists.pure)
  · exact Lists.pure

theorem lists_httpNew (e : Msg.Ext) (url : Bytes) : Lists (Msg.httpNew e url) := by
  unfold Msg.httpNew
  refine Lists.bind Lists.ask (fun a => ?_)
  cases a with
  | some err => exact Lists.also [] rfl (by decide +kernel) Lists.pure
  | none =>
    refine Lists.bind (lists_notNull _ _ _ (by decide +kernel)) (fun _ => Tells.any_ite Lists.pure (Lists.bind (lists_notNull _ _ _ (by decide +kernel)) (fun _ => Tells.any_ite Lists.pure ?_)))
    refine Lists.bind (lists_fragment _ _) ?_
    rintro ⟨ok, key, tmp⟩
    refine Tells.any_ite (Lists.also [] rfl (by decide +kernel) Lists.pure) ?_
    refine Lists.bind (lists_notNull _ _ _ (by decide +kernel)) (fun _ => Tells.any_ite Lists.pure (Lists.bind (lists_notNull _ _ _ (by decide +kernel)) (fun _ => Tells.any_ite Lists.pure ?_)))
    refine Lists.bind (lists_options _ (by decide +kernel)) (fun _ => Tells.any_ite Lists.pure (Lists.bind (lists_notNull _ _ _ (by decide +kernel)) (fun _ => Tells.any_ite Lists.pure ?_)))
    exact Lists.pure

theorem lists_appendAll (e : Msg.Ext) : ∀ args : List (Bool × Bytes), Lists (Msg.appendAll e args)
  | [] => Lists.pure
  | (full, arg) :: r => by
    unfold Msg.appendAll
    have h1 : Lists (Msg.appendHttp e full arg) := by
      unfold Msg.appendHttp
      refine Lists.bind (lists_httpNew e arg) (fun a => ?_)
      cases a with
      | none => exact Lists.also [.str] rfl (by decide +kernel) Lists.pure
      | some n => exact Tells.any_ite (Lists.bind (lists_notNull _ _ _ (by decide +kernel)) (fun _ => Tells.any_ite (Lists.also [.str] rfl (by decide +kernel) Lists.pure) Lists.pure)) Lists.pure
    refine Lists.bind h1 (fun a => ?_)
    cases a with
    | none => exact Lists.pure
    | some n =>
      refine Lists.bind (lists_appendAll e r) (fun b => ?_)
      cases b <;> exact Lists.pure

theorem lists_served : ∀ (ns : List Msg.Net) (hits : List (BitVec 32)), Lists (Msg.served ns hits)
  | [], _ => Lists.pure
  | _ :: _, [] => Lists.pure
  | n :: ns, h :: hs => by
    unfold Msg.served
    exact Lists.also [.w4, .str] rfl (by decide +kernel) (lists_served ns hs)

theorem lists_storesLife (e : Msg.Ext) (args : List (Bool × Bytes)) (queries : BitVec 32) (hits : List (BitVec 32)) : Lists (Msg.storesLife e args queries hits) := by
  unfold Msg.storesLife
  refine Lists.bind (lists_appendAll e args) (fun a => ?_)
  cases a with
  | none => exact Lists.pure
  | some ns => exact Lists.also [.w4, .str] rfl (by decide +kernel) (Lists.bind (lists_served ns hits) (fun _ => Lists.pure))

theorem lists_convert (e : Msg.Ext) (k : Bytes) (id : Id) (i o : Bytes) : Lists (Msg.convert e k id i o) := by
  unfold Msg.convert
  refine Lists.bind Lists.ask (fun a => ?_)
  cases a with
  | none => exact Lists.pure
  | some _ =>
    have hr : Lists (Msg.restart k id) := by
      unfold Msg.restart
      refine Lists.bind Lists.ask (fun a => ?_)
      cases a with
      | some _ => exact Lists.also [] rfl (by decide +kernel) Lists.pure
      | none =>
        refine Lists.bind Lists.ask (fun a => ?_)
        cases a with
        | some _ => exact Lists.also [] rfl (by decide +kernel) Lists.pure
        | none => exact Lists.pure
    refine Lists.bind hr (fun _ => Tells.any_ite (Lists.also [] rfl (by decide +kernel) Lists.pure) (Lists.bind (lists_slurp _ _) (fun a => ?_)))
    cases a with
    | none => exact Lists.also [] rfl (by decide +kernel) Lists.pure
    | some _ =>
      refine Lists.bind Lists.ask (fun a => ?_)
      cases a with
      | some _ => exact Lists.also [] rfl (by decide +kernel) Lists.pure
      | none =>
        have hw : Lists (do
            match ← Msg.ask with
            | some err => do
              Msg.say "utils.c" 118 [.str err]
              Msg.say "csn-tool.c" 109 []
              Pure.pure false
            | none => Pure.pure true) := by
          refine Lists.bind Lists.ask (fun a => ?_)
          cases a with
          | some _ => exact Lists.also [.str] rfl (by decide +kernel) (Lists.also [] rfl (by decide +kernel) Lists.pure)
          | none => exact Lists.pure
        refine Tells.any_ite ?_ (Lists.bind Lists.ask (fun a => ?_))
        · exact Lists.bind Lists.pure (fun a => by
            cases a with
            | some _ => exact Lists.also [.str] rfl (by decide +kernel) Lists.pure
            | none => exact hw)
        · cases a with
          | some _ => exact Lists.also [.str] rfl (by decide +kernel) Lists.pure
          | none => exact hw

theorem lists_one (e : Msg.Ext) (k i : Bytes) (o : Option Bytes) : Lists (Msg.one e k i o) := by
  unfold Msg.one
  have hc : Lists (Msg.chunkId i) := by
    unfold Msg.chunkId
    exact Tells.any_ite (Lists.also [.str, .w8] rfl (by decide +kernel) Lists.pure) (Tells.any_ite (Lists.also [.str] rfl (by decide +kernel) Lists.pure) (lists_hex _))
  have ho : Lists (Msg.outName i) := by
    unfold Msg.outName
    exact Tells.any_ite (Tells.any_ite (Lists.also [] rfl (by decide +kernel) Lists.pure) Lists.pure)
      (Tells.any_ite (Tells.any_ite (Lists.also [] rfl (by decide +kernel) Lists.pure) Lists.pure) (Lists.also [] rfl (by decide +kernel) Lists.pure))
  refine Lists.bind hc (fun a => ?_)
  cases a with
  | none => exact Lists.also [] rfl (by decide +kernel) Lists.pure
  | some id =>
    cases o with
    | some out => exact lists_convert _ _ _ _ _
    | none =>
      refine Lists.bind ho (fun a => ?_)
      cases a with
      | none => exact Lists.pure
      | some out => exact lists_convert _ _ _ _ _

theorem lists_lines (e : Msg.Ext) (k : Bytes) : ∀ ls, Lists (Msg.lines e k ls)
  | [] => Lists.pure
  | l :: r => by
    unfold Msg.lines
    exact Lists.bind (lists_one e k _ none) (fun _ => Tells.any_ite Lists.pure (lists_lines e k r))

theorem lists_crypt (e : Msg.Ext) (spec : Bytes) (names : Option (Bytes × Option Bytes)) (stdin : List Bytes) : Lists (Msg.crypt e spec names stdin) := by
  unfold Msg.crypt
  refine Lists.bind (lists_keyspec e spec) (fun a => ?_)
  cases a with
  | none => exact Lists.also [] rfl (by decide +kernel) Lists.pure
  | some k =>
    refine Lists.bind (lists_init k) (fun a => ?_)
    cases a with
    | none => exact Lists.also [] rfl (by decide +kernel) Lists.pure
    | some k =>
      rcases names with _ | ⟨i, o⟩
      · exact lists_lines e _ stdin
      · exact lists_one e _ i o

/-- The messages spoken of above are those of the code: each is in the table of calls, with arguments of the right types. -/
theorem said_listed (e : Msg.Ext) (answers : List (Option Bytes)) :
    (∀ args queries hits, ∀ n ∈ said (Msg.storesLife e args queries hits) answers, Listed n) ∧
    ∀ spec names stdin, ∀ n ∈ said (Msg.crypt e spec names stdin) answers, Listed n :=
  ⟨fun args queries hits => tells_said (lists_storesLife e args queries hits) answers, fun spec names stdin => tells_said (lists_crypt e spec names stdin) answers⟩

/-! ### Cases -/

theorem aText_key : KeyText aText := ⟨aKey, by decide +kernel, (Proof.parseHex_iff (n := 32) (by decide +kernel) aKey).1 (by decide +kernel)⟩

/-- Another key. -/
def bText : Bytes := (List.replicate 32 (str "C3")).flatten

theorem bText_key : KeyText bText :=
  ⟨List.replicate 32 0xc3, by decide +kernel, (Proof.parseHex_iff (n := 32) (by decide +kernel) _).1 (by decide +kernel)⟩

/-- The key `t` in the variable `K` and, with a line break, in the file `k`; no other variables and files. -/
def keyExt (t : Bytes) : Msg.Ext :=
  ⟨fun v => if v = str "K" then some t else none, fun p => if p = str "k" then .data (t ++ str "\r\n") else .noFile (str "No such file")⟩

/-- Two surroundings that `C80_stores_partial` and `C80_crypt_partial` are about. -/
theorem keyExt_same : SameButKeys (keyExt aText) (keyExt bText) := by
  have hb : ∀ c ∈ str "\r\n", LineBreak c := by
    intro c hc
    simp only [show str "\r\n" = [0x0d, 0x0a] from by decide +kernel, List.mem_cons, List.not_mem_nil, or_false] at hc
    exact hc
  constructor
  · intro v
    by_cases hv : v = str "K"
    · exact Or.inr ⟨aText, bText, by simp [keyExt, hv], by simp [keyExt, hv], aText_key, bText_key⟩
    · exact Or.inl (by simp [keyExt, hv])
  · intro p
    by_cases hp : p = str "k"
    · exact Or.inr ⟨_, _, by simp [keyExt, hp], by simp [keyExt, hp], ⟨_, _, rfl, aText_key, hb⟩, ⟨_, _, rfl, bText_key, hb⟩⟩
    · exact Or.inl (by simp [keyExt, hp])

/-- The keys are used, and there are messages: an option is refused by curl, and the store is given up. -/
example : ∀ t ∈ [aText, bText], said (Msg.storesLife (keyExt t) [(false, str "http://h#encrypt=env:K"), (true, str "http://g#encrypt=file:k")] 0 []) ([none, none, none, none, none, none, none, none, some (str "no")]) =
    [⟨"store-http.c", 486, [.w4 52, .str (str "no")]⟩, ⟨"main.c", 99, [.str (str "http://h#encrypt=env:K")]⟩] := by decide +kernel

/-- A run that succeeds says how often its stores were used. -/
example : said (Msg.storesLife (keyExt aText) [(false, str "http://h#encrypt=env:K"), (true, str "http://g#encrypt=file:k")] 9 [2, 7]) [] =
    [⟨"store.c", 68, [.w4 9, .str (str "chain0")]⟩, ⟨"store.c", 71, [.w4 2, .str (str "http://h#encrypt=env:K")]⟩,
      ⟨"store.c", 71, [.w4 7, .str (str "http://g#encrypt=file:k")]⟩] := by decide +kernel

/-- csn-tool, with a name that is not that of a chunk. -/
example : ∀ t ∈ [aText, bText], said (Msg.crypt (keyExt t) (str "file:k") (some (str "d/x", none)) []) [] =
    [⟨"csn-tool.c", 22, [.str (str "x"), .w8 1]⟩, ⟨"csn-tool.c", 44, []⟩] := by decide +kernel

/-- A style as `C80_refuted`, `C80_refused` and `C80_rejected` need it. -/
def aStyle : Style := ⟨fun _ _ => str "0", false, str "/build/", fun s => s.last, Or.inr ⟨str "/build", by decide +kernel⟩, fun _ => Nat.le_refl _⟩

/-- The line printed about a store that was given with its key. -/
example : uLog aStyle.ren .info false .info (aStyle.dir ++ lit "store.c") (lit "store_chain_free") 73 (lit "    %u answered by store %s")
    [.w4 0, .str (str "http://h#encrypt=key:" ++ aText)] =
      some (lit "INF store.c:store_chain_free:73     0 answered by store http://h#encrypt=key:4f4f4f4f4f4f4f4f4f4f4f4f4f4f4f4f4f4f4f4f4f4f4f4f4f4f4f4f4f4f4f4f\n") := by
  decide +kernel

/-- `C80_refused`: no memory for the store. -/
example : ((Msg.appendHttp (keyExt aText) false (str "http://h#encrypt=key:" ++ aText)) ([none, some []], [])).1 = none := by decide +kernel

/-- `C80_rejected`: the key was given without `key:`. -/
example : ∃ out, Printed aStyle (said (Msg.crypt (keyExt aText) bText none []) []) out ∧ bText <:+: out :=
  C80_rejected _ _ _ _ _ _ (by decide +kernel) (by decide +kernel) (by decide +kernel)

end Csn.Props
