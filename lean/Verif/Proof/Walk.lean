import Verif.Proof.Shrinks
import Verif.Proof.Casync
/-
Invariants of the store chain over whole runs of csn and casync.
-/
namespace Csn.Proof
open Csn Spec

/-- Events of the chain, the report and the network. -/
def Loud (e : Event) : Prop := TopEv e ∨ NetEv e

/-- Events are only added to the log, and none of those. -/
abbrev Hushed {α : Type} (m : M α) : Prop := Mute Loud m

theorem hushed_closed (env : LEnv) : Closed False env @Hushed := mute_closed (fun _ h => h) env

/-- `I` is kept by everything a run does with a chain; `E` is what is left when it ends. -/
structure ChainInv (env : Env) (I : Chain Store → World → Prop) (E : World → Prop) : Prop where
  ended : ∀ {c w}, I c w → E w
  quiet : ∀ {c w w' q}, I c w → w'.log = w.log ++ q → (∀ e ∈ q, ¬ Loud e) → Later w w' → I c w'
  quietEnd : ∀ {w w' q}, E w → w'.log = w.log ++ q → (∀ e ∈ q, ¬ Loud e) → E w'
  get : ∀ t c id out w, id.length = 32 → I c w → wp (chainGet (storeGet env) t c id out) (fun a w' => I a.2.2.1 w') (fun _ w' => E w') w

section
variable {env : Env} {I : Chain Store → World → Prop} {E : World → Prop}

local macro "inv_fetch" H:ident h:ident hid:ident wr:ident : tactic => `(tactic|
  (split
   · refine wp_bind (wp_mono (($H).get _ _ _ _ _ $hid $h) ?_ (fun _ _ h => h))
     rintro ⟨r, t, ch, buf⟩ w' h'
     dsimp only
     split
     · exact wp_bind (wp_pure ($wr _ _ h'))
     · exact wp_bind (wp_pure (wp_pure h'))
   · exact wp_bind (wp_pure ($wr _ _ $h))))

theorem ChainInv.entryCb (H : ChainInv env I E) (c : Cb) (e : Seg) (hid : e.id.length = 32) {w : World} (h : I c.chain w) :
    wp (entryCb env c e) (fun a w' => I a.2.chain w') (fun _ w' => E w') w := by
  have wr : ∀ (c : Cb) (w : World), I c.chain w →
      wp (targetWrite env.lib c.tgt c.buf e.len e.off e.id >>= fun x => match x with
        | (ok, tgt) => (pure (ok, { c with tgt := tgt }) : M (Bool × Cb))) (fun a w' => I a.2.chain w') (fun _ w' => E w') w := by
    intro c w h
    refine wp_bind (wp_still (Mute.targetWrite (fun _ h => h) _ _ _ _ _ _) ((shrinks_closed env.toLEnv).targetWrite trivial _ _ _ _ _ _) ?_ ?_)
    · rintro ⟨ok, t⟩ w' q e1 hq hn
      exact wp_pure (H.quiet h e1 hq hn)
    · intro s w' q e1 hq _
      exact H.quietEnd (H.ended h) e1 hq
  unfold Csn.entryCb
  dsimp only
  split
  · split
    · exact wp_pure h
    · refine wp_bind (wp_still ((hushed_closed env.toLEnv).targetCheck env _ _ _ _ _) ((shrinks_closed env.toLEnv).targetCheck env _ _ _ _ _) ?_ ?_)
      · rintro ⟨r, t, buf⟩ w' q e1 hq hn
        dsimp only
        split
        · exact wp_pure (H.quiet h e1 hq hn)
        · have h := H.quiet h e1 hq hn
          inv_fetch H h hid wr
      · intro s w' q e1 hq _
        exact H.quietEnd (H.ended h) e1 hq
  · inv_fetch H h hid wr

theorem ChainInv.iterLoop (H : ChainInv env I E) (ino : Nat) (p : Params) : ∀ (rem pos last : Nat) (c : Cb) (w : World), I c.chain w →
    wp (iterLoop ino p (Csn.entryCb env) rem pos last c) (fun a w' => I a.2.chain w') (fun _ w' => E w') w
  | 0, pos, last, c, w, h => by
    unfold Csn.iterLoop
    exact h
  | rem + 1, pos, last, c, w, h => by
    unfold Csn.iterLoop
    refine wp_bind (wp_still ((hushed_closed env.toLEnv).readall _ _ _) ((shrinks_closed env.toLEnv).readall _ _ _) ?_ ?_)
    · rintro ⟨ok, buf⟩ w1 q1 e1 hq1 hn1
      have h := H.quiet h e1 hq1 hn1
      cases ok with
      | false => exact wp_pure h
      | true =>
        refine wp_bind (wp_still (Mute.ld64le (T := Loud) _ _) ((shrinks_closed env.toLEnv).ld64le _ _) ?_ (fun s w' q e1 hq _ => H.quietEnd (H.ended h) e1 hq))
        intro off w2 q2 e2 hq2 hn2
        have h := H.quiet h e2 hq2 hn2
        refine wp_bind ?_
        unfold ldBytes
        split
        · next hlen =>
          refine wp_pure ?_
          dsimp only
          split
          · exact ChainInv.iterLoop H ino p rem _ _ c w2 h
          · refine wp_bind (wp_mono (H.entryCb c _ ?_ h) ?_ (fun _ _ h => h))
            · simp only [List.length_take, List.length_drop]; omega
            rintro ⟨ok, c'⟩ w4 h
            cases ok with
            | false => exact wp_pure h
            | true => exact ChainInv.iterLoop H ino p rem _ _ c' w4 h
        · exact wp_stop (H.ended h)
    · intro s w' q e1 hq _
      exact H.quietEnd (H.ended h) e1 hq

theorem ChainInv.sync (H : ChainInv env I E) (s : Setup) {w : World} {Q : Bool → World → Prop} {S : Stop → World → Prop} (h : I s.chain w)
    (hfin : ∀ c w, I c.chain w → wp (finish c) Q S w) (hfail : ∀ w, E w → Q false w) (hstop : ∀ x w, E w → S x w) : wp (sync env s) Q S w := by
  unfold Csn.sync caibxIterate
  dsimp only
  refine wp_bind (wp_bind (wp_still ((hushed_closed env.toLEnv).lseek _) ((shrinks_closed env.toLEnv).lseek _) ?_ (fun s w' q e1 hq _ => hstop _ _ (H.quietEnd (H.ended h) e1 hq))))
  intro ok w1 q1 e1 hq1 hn1
  have h := H.quiet h e1 hq1 hn1
  cases ok with
  | false => exact wp_pure (wp_pure (hfail _ (H.ended h)))
  | true =>
    refine wp_mono (H.iterLoop _ _ _ _ _ _ _ h) ?_ (fun _ _ h => hstop _ _ h)
    rintro ⟨ok, c⟩ w2 h
    cases ok with
    | false => exact wp_pure (hfail _ (H.ended h))
    | true => exact hfin c w2 h

end

/-! ### Setting up -/

/-- The same files. -/
def SameFiles (w w' : World) : Prop := w'.data = w.data ∧ w'.kind = w.kind ∧ w'.dir = w.dir

theorem SameFiles.trans {a b c : World} (h : SameFiles a b) (h' : SameFiles b c) : SameFiles a c :=
  ⟨h'.1.trans h.1, h'.2.1.trans h.2.1, h'.2.2.trans h.2.2⟩

theorem wp_readOnly {α : Type} {m : M α} (h : ReadOnly m) (w : World) : wp m (fun _ w' => SameFiles w w') (fun _ w' => SameFiles w w') w := by
  unfold wp
  obtain ⟨h1, h2, h3, _⟩ := h w
  split
  · next e => rw [e] at h1 h2 h3; exact ⟨h1, h2, h3⟩
  · next e => rw [e] at h1 h2 h3; exact ⟨h1, h2, h3⟩

/-- The sub-stores are made from the arguments, in this order, and in use. -/
structure Built (R : Bytes → Store → Prop) (args : List Bytes) (subs : List (Sub Store)) : Prop where
  length : subs.length = args.length
  each : ∀ (k : Nat) (sub : Sub Store) (arg : Bytes), subs[k]? = some sub → args[k]? = some arg → sub.active = true ∧ R arg sub.s

theorem Built.nil (R : Bytes → Store → Prop) : Built R [] [] := ⟨rfl, by simp⟩

theorem Built.snoc {R : Bytes → Store → Prop} {args : List Bytes} {subs : List (Sub Store)} (h : Built R args subs) {a : Bytes} {s : Store} (hs : R a s) (x : Option Nat) :
    Built R (args ++ [a]) (subs ++ [⟨s, true, x⟩]) := by
  refine ⟨by simp [h.length], fun k sub arg h1 h2 => ?_⟩
  by_cases hk : k < subs.length
  · rw [List.getElem?_append_left hk] at h1
    rw [List.getElem?_append_left (by rw [← h.length]; exact hk)] at h2
    exact h.each k sub arg h1 h2
  · rw [List.getElem?_append_right (by omega)] at h1
    rw [List.getElem?_append_right (by rw [← h.length]; omega)] at h2
    have hk0 : k - subs.length = 0 := by
      rcases Nat.eq_zero_or_pos (k - subs.length) with h0 | h0
      · exact h0
      · obtain ⟨m, hm⟩ : ∃ m, k - subs.length = m + 1 := ⟨k - subs.length - 1, by omega⟩
        rw [hm] at h1
        simp at h1
    rw [hk0] at h1
    rw [← h.length, hk0] at h2
    simp only [List.getElem?_cons_zero, Option.some.injEq] at h1 h2
    subst h1 h2
    exact ⟨rfl, hs⟩

/-- Stores made from an argument satisfy `R`, as long as the files are those of `w0`. -/
def Makes (env : Env) (tpath : Bytes) (R : Bytes → Store → Prop) (w0 : World) : Prop :=
  ∀ n p t arg w, SameFiles w0 w → wp (makeStore env tpath n p t arg) (fun a _ => ∀ s t', a = some (s, t') → R arg s) (fun _ _ => True) w

section
variable {env : Env} {tpath : Bytes} {R : Bytes → Store → Prop} {w0 : World}

theorem wp_appendStore_built (hm : Makes env tpath R w0) (n : Nat) (p : Params) (t : Tgt) (c : Chain Store) (args : List Bytes) (arg : Bytes) {w : World} (hw : SameFiles w0 w)
    (h : Built R args c.subs) : wp (appendStore env tpath n p t c arg) (fun a w' => SameFiles w0 w' ∧ (a.1 = true → Built R (args ++ [arg]) a.2.2.subs)) (fun _ _ => True) w := by
  have hro := wp_readOnly ((readOnly_closed env.toLEnv).appendStore env rfl tpath n p t c arg) w
  refine wp_mono (wp_and (Q' := fun a _ => a.1 = true → Built R (args ++ [arg]) a.2.2.subs) (S' := fun _ _ => True) hro ?_) (fun a w' h => ⟨hw.trans h.1, h.2⟩) (fun _ _ _ => trivial)
  unfold appendStore
  refine wp_bind (wp_mono (hm n p t arg w hw) ?_ (fun _ _ h => h))
  intro a w1 ha
  cases a with
  | none => exact wp_pure (by simp)
  | some x =>
    obtain ⟨s, t⟩ := x
    have hs := ha s t rfl
    refine wp_bind ?_
    unfold chainAppend
    dsimp only
    split
    · refine wp_bind (wp_true _ (fun b w2 => ?_))
      cases b with
      | false => exact wp_bind (wp_pure (wp_pure (wp_pure (by simp))))
      | true =>
        refine wp_bind (wp_pure ?_)
        dsimp only
        split
        · trivial
        · exact wp_pure (wp_pure (fun _ => h.snoc hs _))
    · refine wp_bind (wp_pure ?_)
      dsimp only
      split
      · trivial
      · exact wp_pure (wp_pure (fun _ => h.snoc hs _))

theorem wp_appendAll_built (hm : Makes env tpath R w0) (n : Nat) (p : Params) : ∀ (as : List Bytes) (t : Tgt) (c : Chain Store) (args : List Bytes) (w : World), SameFiles w0 w →
    Built R args c.subs → wp (appendAll env tpath n p t c as) (fun a _ => a.1 = true → Built R (args ++ as) a.2.2.subs) (fun _ _ => True) w
  | [], t, c, args, w, hw, h => by
    unfold appendAll
    exact wp_pure (fun _ => by simpa using h)
  | a :: as, t, c, args, w, hw, h => by
    unfold appendAll
    refine wp_bind (wp_mono (wp_appendStore_built hm n p t c args a hw h) ?_ (fun _ _ h => h))
    rintro ⟨ok, t', c'⟩ w' ⟨hw', h'⟩
    cases ok with
    | false => exact wp_pure (by simp)
    | true =>
      refine wp_mono (wp_appendAll_built hm n p as t' c' (args ++ [a]) w' hw' (h' rfl)) (fun a w2 h2 ha => ?_) (fun _ _ h => h)
      simpa using h2 ha

theorem wp_casyncOpts_built (hm : Makes env tpath R w0) (n : Nat) (p : Params) : ∀ (os : List Opt) (t : Tgt) (c : Chain Store) (args : List Bytes) (w : World), SameFiles w0 w →
    Built R args c.subs → wp (casyncOpts env tpath n p t c os) (fun a _ => ∀ t' c', a = .done t' c' → Built R (args ++ os.filterMap Opt.arg?) c'.subs) (fun _ _ => True) w
  | [], t, c, args, w, hw, h => by
    unfold casyncOpts
    exact wp_pure (by rintro t' c' e; cases e; simpa using h)
  | .help :: _, t, c, args, w, hw, h => by
    unfold casyncOpts
    exact wp_pure (by rintro t' c' e; cases e)
  | .store a :: os, t, c, args, w, hw, h => by
    unfold casyncOpts
    refine wp_bind (wp_mono (wp_appendStore_built hm n p t c args a hw h) ?_ (fun _ _ h => h))
    rintro ⟨ok, t', c'⟩ w' ⟨hw', h'⟩
    cases ok with
    | false => exact wp_pure (by rintro t' c' e; cases e)
    | true =>
      refine wp_mono (wp_casyncOpts_built hm n p os t' c' (args ++ [a]) w' hw' (h' rfl)) (fun a w2 h2 t2 c2 e => ?_) (fun _ _ h => h)
      simpa [List.filterMap_cons, Opt.arg?] using h2 t2 c2 e
  | .seedOutput _ :: os, t, c, args, w, hw, h => by
    unfold casyncOpts
    refine wp_mono (wp_casyncOpts_built hm n p os t c args w hw h) (fun a w2 h2 t2 c2 e => ?_) (fun _ _ h => h)
    simpa [List.filterMap_cons, Opt.arg?] using h2 t2 c2 e
  | .bad :: _, t, c, args, w, hw, h => by
    unfold casyncOpts
    trivial

end

theorem wp_chainNew_built (env : LEnv) (w0 : World) (k : Nat) (w : World) (hw : SameFiles w0 w) : wp (chainNew Store k) (fun a w' => SameFiles w0 w' ∧ ∀ c, a = some c → c.subs = []) (fun _ _ => True) w :=
  wp_mono (wp_and (wp_readOnly ((readOnly_closed env).chainNew Store k) w) (wp_chainNew_active k w)) (fun _ _ h => ⟨hw.trans h.1, h.2⟩) (fun _ _ _ => trivial)

/-- The chain of csn. -/
theorem wp_csn_built {env : Env} {ipath tpath : Bytes} {stores : List Bytes} {R : Bytes → Store → Prop} {w : World} (hm : Makes env tpath R w) :
    wp (csn env (ipath :: tpath :: stores)) (fun a _ => ∀ s, a = some s → Built R stores s.chain.subs) (fun _ _ => True) w := by
  unfold csn
  split
  · next i t s ss heq =>
    simp only [List.cons.injEq] at heq
    obtain ⟨rfl, rfl, rfl⟩ := heq
    split
    · exact wp_pure (by simp)
    · refine wp_bind (wp_mono (wp_readOnly ((readOnly_closed env.toLEnv).openBoth _ _) w) ?_ (fun _ _ _ => trivial))
      intro a w1 hw1
      split
      · exact wp_pure (by simp)
      · refine wp_bind (wp_mono (wp_chainNew_built env.toLEnv w _ _ hw1) ?_ (fun _ _ h => h))
        rintro a w2 ⟨hw2, ha⟩
        split
        · exact wp_pure (by simp)
        · next c =>
          refine wp_bind (wp_mono (wp_appendAll_built hm _ _ _ _ _ [] _ hw2 (by rw [ha c rfl]; exact Built.nil R)) ?_ (fun _ _ h => h))
          rintro ⟨ok, t', c'⟩ w' h'
          cases ok with
          | false => exact wp_pure (by simp)
          | true =>
            refine wp_pure ?_
            rintro s e; cases e
            exact h' rfl
  · exact wp_pure (by simp)

/-- The chain of casync. -/
theorem wp_casync_built {env : Env} {posix : Bool} {args : List Bytes} {R : Bytes → Store → Prop} {w : World} (hm : Makes env (args.getD (args.length - 1) []) R w) :
    wp (casync env posix args) (fun a _ => ∀ s, a = some (.ready s) → Built R ((getopt posix none [] args).1.filterMap Opt.arg?) s.chain.subs) (fun _ _ => True) w := by
  unfold casync
  dsimp only
  split
  · trivial
  · rw [show args.length + 1 - 1 - 1 = args.length - 1 by omega]
    refine wp_bind (wp_mono (wp_readOnly ((readOnly_closed env.toLEnv).openBoth _ _) w) ?_ (fun _ _ _ => trivial))
    intro a w1 hw1
    split
    · exact wp_pure (by simp)
    · refine wp_bind (wp_mono (wp_chainNew_built env.toLEnv w _ _ hw1) ?_ (fun _ _ h => h))
      rintro a w2 ⟨hw2, ha⟩
      split
      · exact wp_pure (by simp)
      · next c =>
        refine wp_bind (wp_mono (wp_casyncOpts_built hm _ _ _ _ _ [] _ hw2 (by rw [ha c rfl]; exact Built.nil R)) ?_ (fun _ _ h => h))
        intro a w2 h'
        split
        · exact wp_pure (by simp)
        · exact wp_pure (by simp)
        · split
          · trivial
          · next t' c' _ =>
            refine wp_pure ?_
            rintro s e; cases e
            exact h' _ _ rfl

/-! ### Whole runs -/

/-- The target's path on a command line. -/
def targetArg (argv0 : Bytes) (args : List Bytes) : Bytes :=
  if streq (posixBasename argv0) (str "csn") then args.getD 1 [] else args.getD (args.length - 1) []

/-- The stores on a command line. -/
def storeArgs (posix : Bool) (argv0 : Bytes) (args : List Bytes) : List Bytes :=
  if streq (posixBasename argv0) (str "csn") then args.drop 2 else (getopt posix none [] args).1.filterMap Opt.arg?

/-- A run of csn or casync: an invariant that holds for the chain at the start holds until the end. -/
theorem wp_appMain_inv {env : Env} {posix : Bool} {argv0 : Bytes} {args : List Bytes} {w : World} {R : Bytes → Store → Prop} {I : Chain Store → World → Prop} {E : World → Prop}
    (hm : Makes env (targetArg argv0 args) R w)
    (h0 : ∀ w' q, w'.log = w.log ++ q → (∀ e ∈ q, ¬ Loud e) → E w')
    (hI : ∀ c w' q, Built R (storeArgs posix argv0 args) c.subs → w'.log = w.log ++ q → (∀ e ∈ q, ¬ Loud e) → Later w w' → ChainInv env I E ∧ I c w')
    {Q : Bool → World → Prop} {S : Stop → World → Prop}
    (hfin : ∀ c w, I c.chain w → wp (finish c) Q S w) (hfail : ∀ w, E w → Q false w) (hstop : ∀ x w, E w → S x w) : wp (appMain env posix argv0 args) Q S w := by
  unfold appMain
  dsimp only
  split
  · next hname =>
    unfold csnMain
    have hb : wp (csn env args) (fun a _ => ∀ s, a = some s → Built R (storeArgs posix argv0 args) s.chain.subs) (fun _ _ => True) w := by
      rw [targetArg, if_pos hname] at hm
      rw [storeArgs, if_pos hname]
      rcases args with _ | ⟨i, _ | ⟨t, stores⟩⟩
      · unfold csn; exact wp_pure (by simp)
      · unfold csn; exact wp_pure (by simp)
      · exact wp_csn_built hm
    refine wp_bind (wp_mono (wp_and hb (wp_still ((hushed_closed env.toLEnv).csn env rfl args) ((shrinks_closed env.toLEnv).csn env rfl args)
      (Q := fun _ w' => ∃ q, w'.log = w.log ++ q ∧ (∀ e ∈ q, ¬ Loud e) ∧ Later w w') (S := fun _ w' => ∃ q, w'.log = w.log ++ q ∧ (∀ e ∈ q, ¬ Loud e) ∧ Later w w')
      (fun _ _ q e h hn => ⟨q, e, h, hn⟩) (fun _ _ q e h hn => ⟨q, e, h, hn⟩))) ?_ ?_)
    · rintro a w1 ⟨ha, q, e1, hq, hn⟩
      cases a with
      | none => exact wp_pure (hfail _ (h0 _ _ e1 hq))
      | some s =>
        obtain ⟨H, h⟩ := hI s.chain w1 q (ha s rfl) e1 hq hn
        exact H.sync s h hfin hfail hstop
    · rintro s w1 ⟨_, q, e1, hq, _⟩
      exact hstop _ _ (h0 _ _ e1 hq)
  · next hname =>
    split
    · unfold casyncMain
      have hb : wp (casync env posix args) (fun a _ => ∀ s, a = some (.ready s) → Built R (storeArgs posix argv0 args) s.chain.subs) (fun _ _ => True) w := by
        rw [targetArg, if_neg hname] at hm
        rw [storeArgs, if_neg hname]
        exact wp_casync_built hm
      refine wp_bind (wp_mono (wp_and hb (wp_still ((hushed_closed env.toLEnv).casync env rfl posix args) ((shrinks_closed env.toLEnv).casync env rfl posix args)
        (Q := fun _ w' => ∃ q, w'.log = w.log ++ q ∧ (∀ e ∈ q, ¬ Loud e) ∧ Later w w') (S := fun _ w' => ∃ q, w'.log = w.log ++ q ∧ (∀ e ∈ q, ¬ Loud e) ∧ Later w w')
        (fun _ _ q e h hn => ⟨q, e, h, hn⟩) (fun _ _ q e h hn => ⟨q, e, h, hn⟩))) ?_ ?_)
      · rintro a w1 ⟨ha, q, e1, hq, hn⟩
        split
        · exact wp_pure (hfail _ (h0 _ _ e1 hq))
        · next s =>
          obtain ⟨H, h⟩ := hI s.chain w1 q (ha s rfl) e1 hq hn
          exact H.sync s h hfin hfail hstop
        · next iino p n t =>
          have hns : wp (syncNoStore env iino p n t) (fun b _ => b = false) (fun _ _ => True) w1 := by
            unfold syncNoStore
            refine wp_bind (wp_true _ (fun a _ => ?_))
            split
            · exact wp_pure rfl
            · trivial
          have e2 : ∀ w2 q2, w2.log = w1.log ++ q2 → (∀ e ∈ q2, ¬ Loud e) → E w2 := by
            intro w2 q2 e2 hq2
            refine h0 w2 (q ++ q2) (by rw [e2, e1, List.append_assoc]) (fun e he => ?_)
            rcases List.mem_append.1 he with he | he
            · exact hq e he
            · exact hq2 e he
          refine wp_mono (wp_and hns (wp_mute ((hushed_closed env.toLEnv).syncNoStore env _ _ _ _)
            (Q := fun _ w' => E w') (S := fun _ w' => E w') (fun _ w2 q2 e hq2 => e2 w2 q2 e hq2) (fun _ w2 q2 e hq2 => e2 w2 q2 e hq2))) ?_ ?_
          · rintro b w2 ⟨rfl, h⟩
            exact hfail _ h
          · rintro s w2 ⟨_, h⟩
            exact hstop _ _ h
      · rintro s w1 ⟨_, q, e1, hq, _⟩
        exact hstop _ _ (h0 _ _ e1 hq)
    · exact wp_pure (hfail _ (h0 _ [] (by simp) (by simp)))

end Csn.Proof
