import Verif.Proof.Casync
import Verif.Proof.Tool
import Verif.Proof.ReadOnly
import Verif.Props.SyncEx
/-
C38-C39: what store arguments denote, and the casync front end.
-/
namespace Csn.Props
open Csn Spec Proof

/-! ### C38 -/

/-- **C38**: every argument denotes exactly one kind of store; if it is a local one, path and index are determined. -/
theorem C38_kinds (tpath arg : Bytes) :
    (arg = tpath ∧ ¬ HttpArg tpath arg ∧ ∀ path index, ¬ LocalArg tpath arg path index) ∨
    (arg ≠ tpath ∧ HttpArg tpath arg ∧ ∀ path index, ¬ LocalArg tpath arg path index) ∨
    (arg ≠ tpath ∧ ¬ HttpArg tpath arg ∧ ∃ path index, LocalArg tpath arg path index ∧
      ∀ path' index', LocalArg tpath arg path' index' → path' = path ∧ index' = index) := by
  by_cases h1 : arg = tpath
  · exact Or.inl ⟨h1, fun h => h.1 h1, fun _ _ h => h.1 h1⟩
  · by_cases h2 : str "http" <+: arg
    · exact Or.inr (Or.inl ⟨h1, ⟨h1, h2⟩, fun _ _ h => h.2.1 h2⟩)
    · refine Or.inr (Or.inr ⟨h1, fun h => h2 h.2, ?_⟩)
      obtain ⟨g1, g2, g3⟩ := takeWhile_colon arg
      have : ∃ path index, LocalArg tpath arg path index := by
        by_cases h3 : (arg.takeWhile (· != 0x3a)).length < arg.length
        · exact ⟨_, some _, h1, h2, g1, g3 h3⟩
        · exact ⟨_, none, h1, h2, g1, g2 h3⟩
      obtain ⟨path, index, hl⟩ := this
      exact ⟨path, index, hl, fun path' index' hl' => localArg_eq hl' hl⟩

/-- **C38**: the target's own path denotes the target, which becomes searchable. -/
theorem C38_target (env : Env) (tpath : Bytes) (n : Nat) (p : Params) (t : Tgt) (w : World) :
    makeStore env tpath n p t tpath w = mapRes (fun r => if r.1 then some (.target, r.2) else none) (targetAsStore t n w) := by
  unfold makeStore streq
  rw [if_pos (by simp), bind_apply]
  generalize targetAsStore t n w = r
  obtain ⟨r, w'⟩ := r
  rcases r with ⟨_ | _, _⟩ | _ <;> rfl

/-- **C38**: a URL denotes the HTTP store at this URL; the target is not involved. -/
theorem C38_http (env : Env) (tpath : Bytes) (n : Nat) (p : Params) (t : Tgt) (arg : Bytes) (h : HttpArg tpath arg) (w : World) :
    makeStore env tpath n p t arg w = mapRes (fun r => r.map (fun s => (.http s, t))) (httpNew env arg w) := by
  unfold makeStore streq
  rw [if_neg (by simpa using h.1), if_pos ((startswith_prefix _ _).2 h.2), bind_apply]
  generalize httpNew env arg w = r
  obtain ⟨r, w'⟩ := r
  rcases r with (_ | _) | _ <;> rfl

/-- **C38**: everything else denotes a local store; what follows the first colon is the index to side-load. -/
theorem C38_local (env : Env) (tpath : Bytes) (n : Nat) (p : Params) (t : Tgt) (arg path : Bytes) (index : Option Bytes) (h : LocalArg tpath arg path index) (w : World) :
    makeStore env tpath n p t arg w = mapRes (fun r => r.map (fun s => (.loc s, t))) (localNew env.toLEnv path index p w) := by
  unfold makeStore streq
  have h2 : ¬ startswith arg (str "http") = true := fun h' => h.2.1 ((startswith_prefix _ _).1 h')
  rw [if_neg (by simpa using h.1), if_neg h2]
  obtain ⟨g1, g2, g3⟩ := takeWhile_colon arg
  have hl : LocalArg tpath arg (arg.takeWhile (· != 0x3a)) (if (arg.takeWhile (· != 0x3a)).length < arg.length then some (arg.drop ((arg.takeWhile (· != 0x3a)).length + 1)) else none) := by
    refine ⟨h.1, h.2.1, g1, ?_⟩
    split
    · rename_i e; split at e
      · cases e
      · rename_i h3; exact g2 h3
    · rename_i i e; split at e
      · rename_i h3; cases e; exact g3 h3
      · cases e
  obtain ⟨e1, e2⟩ := localArg_eq hl h
  rw [e2, e1, bind_apply]
  generalize localNew env.toLEnv path index p w = r
  obtain ⟨r, w'⟩ := r
  rcases r with (_ | _) | _ <;> rfl

/-- **C38**: when csn is ready to synchronise, its chain consists of one active store for every argument, in this order, made
from that argument: the target itself, an HTTP store with the URL's base, or a local store on the file at the path, searched
with the index file's parameters. -/
theorem C38_chain (env : Env) (w w' : World) (ipath tpath : Bytes) (stores : List Bytes) (hsc : Scene env w ipath tpath stores) (s : Setup)
    (h : csn env (ipath :: tpath :: stores) w = (.ok (some s), w')) :
    s.chain.subs.length = stores.length ∧ (s.tgt.queryable = true ↔ tpath ∈ stores) ∧
    ∀ (k : Nat) (arg : Bytes), stores[k]? = some arg → ∃ sub : Sub Store, s.chain.subs[k]? = some sub ∧ sub.active = true ∧
      match sub.s with
      | .target => arg = tpath
      | .http st => HttpArg tpath arg ∧ ∃ frag, BaseOf arg st.base frag
      | .loc l => ∃ path index, LocalArg tpath arg path index ∧ w.dir path = some l.ino ∧ l.p = s.p := by
  have h1 := wp_ok (wp_csn hsc) h
  obtain ⟨_, _, _, _, _, t0, _, ha⟩ := h1
  refine ⟨ha.len, ha.qry, ?_⟩
  intro k arg hk
  have hlt : k < s.chain.subs.length := by rw [ha.len]; exact (List.getElem?_eq_some_iff.1 hk).1
  obtain ⟨g1, arg', g2, g3⟩ := ha.each k s.chain.subs[k] (List.getElem?_eq_getElem hlt)
  rw [hk] at g2
  cases g2
  refine ⟨_, List.getElem?_eq_getElem hlt, g1, ?_⟩
  generalize s.chain.subs[k].s = st at g3
  cases st with
  | target => exact g3
  | http st => obtain ⟨q1, _, _, frag, q2, _⟩ := g3; exact ⟨q1, frag, q2⟩
  | loc l => obtain ⟨path, index, _, q1, q2, q3, _⟩ := g3; exact ⟨path, index, q1, q2, q3⟩

/-- Whether a result is there and satisfies `f`. -/
def okSome {α : Type} (f : α → Bool) : Res (Option α) → Bool
  | .ok (some s) => f s
  | _ => false

theorem okSome_iff {α : Type} {r : Res (Option α)} {f : α → Bool} (h : okSome f r = true) : ∃ s, r = .ok (some s) ∧ f s = true := by
  rcases r with (_ | s) | _
  · cases h
  · exact ⟨s, rfl, h⟩
  · cases h

/-- A case of `C38_chain`: the target and a local store. -/
example : ∃ s, (csn syncEnv [str "i", str "t", str "t", str "s"] okWorld).1 = .ok (some s) ∧
    (s.chain.subs.map (fun u => match u.s with | .target => 0 | .http _ => 1 | .loc _ => 2) == [0, 2]) = true :=
  okSome_iff (f := fun s : Setup => s.chain.subs.map (fun u => match u.s with | .target => 0 | .http _ => 1 | .loc _ => 2) == [0, 2]) (by decide +kernel)

/-- Cases: a colon in an URL does not matter, and a name may begin with "htt". -/
example : HttpArg (str "t") (str "http://x:8/") ∧ LocalArg (str "t") (str "htt:a:b") (str "htt") (some (str "a:b")) ∧ LocalArg (str "t") (str "T") (str "T") none :=
  ⟨⟨by decide +kernel, str "://x:8/", by decide +kernel⟩, ⟨by decide +kernel, by decide +kernel, by decide +kernel, by decide +kernel⟩, ⟨by decide +kernel, by decide +kernel, by decide +kernel, by decide +kernel⟩⟩

/-! ### C39 -/

theorem options_length {ws ss : List Bytes} (h : Options ws ss) : ss.length ≤ ws.length := by
  induction h <;> simp only [List.length_cons, List.length_nil] at * <;> omega

theorem commandLine_paths {posix : Bool} {args : List Bytes} {ipath tpath : Bytes} {stores : List Bytes} (h : CommandLine posix args ipath tpath stores) :
    3 ≤ args.length ∧ args.getD (args.length - 2) [] = ipath ∧ args.getD (args.length - 1) [] = tpath ∧ stores.length ≤ args.length - 3 := by
  obtain ⟨pre, post, s1, s2, rfl, h1, h2, rfl, _, _⟩ := h
  have l1 := options_length h1
  have l2 := options_length h2
  have e : pre ++ str "extract" :: (post ++ [ipath, tpath]) = (pre ++ str "extract" :: post) ++ [ipath, tpath] := by simp
  have hl : ((pre ++ str "extract" :: post) ++ [ipath, tpath]).length = (pre ++ str "extract" :: post).length + 2 := by rw [List.length_append]; rfl
  rw [e, hl]
  have hl2 : (pre ++ str "extract" :: post).length = pre.length + post.length + 1 := by simp; omega
  refine ⟨by omega, ?_, ?_, by rw [hl2, List.length_append]; omega⟩
  · rw [List.getD_eq_getElem?_getD, show (pre ++ str "extract" :: post).length + 2 - 2 = (pre ++ str "extract" :: post).length by omega,
      List.getElem?_append_right (Nat.le_refl _), Nat.sub_self]; rfl
  · rw [List.getD_eq_getElem?_getD, show (pre ++ str "extract" :: post).length + 2 - 1 = (pre ++ str "extract" :: post).length + 1 by omega,
      List.getElem?_append_right (by omega), Nat.add_sub_cancel_left]; rfl

theorem mapRes_eq {α β : Type} {f : α → β} {x y : Res α × World} (h : mapRes f x = mapRes f y) :
    (∃ s w, x = (.stop s, w) ∧ y = (.stop s, w)) ∨ ∃ a b w, x = (.ok a, w) ∧ y = (.ok b, w) ∧ f a = f b := by
  obtain ⟨x, w⟩ := x
  obtain ⟨y, w'⟩ := y
  cases x <;> cases y <;> simp only [mapRes, Prod.mk.injEq, Res.ok.injEq, Res.stop.injEq, reduceCtorEq, false_and] at h
  · obtain ⟨h1, rfl⟩ := h
    exact Or.inr ⟨_, _, _, rfl, rfl, h1⟩
  · obtain ⟨rfl, rfl⟩ := h
    exact Or.inl ⟨_, _, rfl, rfl⟩

theorem chainNew_nil {k : Nat} {w : World} (h : w.mem = []) (hk : k + 1 < 2 ^ 58) : chainNew Store (k + 1) w = (.ok (some ⟨[], k + 1, k + 1, 0⟩), w) := by
  unfold chainNew
  rw [bind_apply, alloc_nil h (by omega)]
  simp only [Bool.not_true, Bool.false_eq_true, if_false]
  rw [if_pos (by omega), bind_apply, alloc_nil h (by omega)]
  rfl

/-- The equivalence, up to what `g` forgets about the hit counters. -/
theorem casync_csn {g : Option Nat → Option Nat} (hcount : Counts g) (env : Env) (posix : Bool) (args : List Bytes) (ipath tpath : Bytes) (stores : List Bytes)
    (h : CommandLine posix args ipath tpath stores) (hne : stores ≠ []) (hk : env.kcapi ≠ some false) (w : World)
    (hm : (w.mem = [] ∧ args.length < 2 ^ 57) ∨ (args.length - 3) / 2 = stores.length)
    (hz : ∀ i, i < stores.length → g (if i < (args.length - 3) / 2 + 1 then some 0 else none) = g (if i < stores.length + 1 then some 0 else none)) :
    logBy g (casyncMain env posix args w) = logBy g (csnMain env (ipath :: tpath :: stores) w) := by
  obtain ⟨os, hg, hgo⟩ := getopt_commandLine h
  obtain ⟨hlen, hi, ht, hle⟩ := commandLine_paths h
  obtain ⟨s, ss, rfl⟩ := List.exists_cons_of_ne_nil hne
  unfold casyncMain csnMain casync csn
  dsimp only
  rw [if_neg (by omega), if_neg hk, show args.length + 1 - 2 - 1 = args.length - 2 by omega, show args.length + 1 - 1 - 1 = args.length - 1 by omega, hi, ht, hgo]
  rw [bind_apply, bind_apply, bind_apply, bind_apply]
  have hmo := MemSuf.openBoth ipath tpath w
  generalize openBoth ipath tpath w = r at hmo
  obtain ⟨r, w1⟩ := r
  cases r with
  | stop x => rfl
  | ok r =>
    cases r with
    | none => rfl
    | some r =>
      obtain ⟨iino, p, n, t⟩ := r
      dsimp only
      rw [bind_apply, bind_apply]
      have slots : (ipath :: tpath :: s :: ss).length + 1 - 3 + 1 = ss.length + 1 + 1 := by simp only [List.length_cons]; omega
      have slots' : (args.length + 1 - 4) / 2 + 1 = (args.length - 3) / 2 + 1 := by omega
      simp only [List.length_cons] at hm hle
      rw [slots, slots']
      have key : (∃ x w2, chainNew Store ((args.length - 3) / 2 + 1) w1 = (.stop x, w2) ∧ chainNew Store (ss.length + 1 + 1) w1 = (.stop x, w2)) ∨
          (∃ w2, chainNew Store ((args.length - 3) / 2 + 1) w1 = (.ok none, w2) ∧ chainNew Store (ss.length + 1 + 1) w1 = (.ok none, w2)) ∨
          ∃ c c' w2, chainNew Store ((args.length - 3) / 2 + 1) w1 = (.ok (some c), w2) ∧ chainNew Store (ss.length + 1 + 1) w1 = (.ok (some c'), w2) ∧
            mapRes (fun r => (r.1, r.2.1, flat g r.2.2)) (appendAll env tpath n p t c (s :: ss) w2) = mapRes (fun r => (r.1, r.2.1, flat g r.2.2)) (appendAll env tpath n p t c' (s :: ss) w2) := by
        rcases hm with ⟨hm, hsmall⟩ | hm
        · have hw1 : w1.mem = [] := by rw [hm] at hmo; exact List.eq_nil_of_suffix_nil hmo
          refine Or.inr (Or.inr ⟨_, _, w1, chainNew_nil hw1 (by omega), chainNew_nil hw1 (by omega), ?_⟩)
          exact appendAll_flat (g := g) (total := ss.length + 1) (by omega) (s :: ss) t _ _ w1 hw1 rfl (hz) (by simp) (by simp) (by simp only; omega) (by simp only; omega) (by simp) (by simp) (by simp)
        · rw [hm]
          generalize chainNew Store (ss.length + 1 + 1) w1 = r
          obtain ⟨r, w2⟩ := r
          rcases r with (_ | c) | x
          · exact Or.inr (Or.inl ⟨w2, rfl, rfl⟩)
          · exact Or.inr (Or.inr ⟨c, c, w2, rfl, rfl, rfl⟩)
          · exact Or.inl ⟨x, w2, rfl, rfl⟩
      rcases key with ⟨x, w2, k1, k2⟩ | ⟨w2, k1, k2⟩ | ⟨c, c', w2, k1, k2, hcc⟩
      · rw [k1, k2]
      · rw [k1, k2]; rfl
      · rw [k1, k2]
        dsimp only
        rw [bind_apply, bind_apply, casyncOpts_eq hg]
        rcases mapRes_eq hcc with ⟨x, w3, e1, e2⟩ | ⟨⟨b1, t1, c1⟩, ⟨b2, t2, c2⟩, w3, e1, e2, e3⟩
        · rw [e1, e2]
        · rw [e1, e2]
          simp only [Prod.mk.injEq] at e3
          obtain ⟨rfl, rfl, e3⟩ := e3
          cases b1 with
          | false => rfl
          | true =>
            dsimp only
            rw [if_neg (by simp [streq])]
            show logBy g (sync env ⟨iino, p, n, t1, c1⟩ w3) = logBy g (sync env ⟨iino, p, n, t1, c2⟩ w3)
            rw [← sync_flat hcount ⟨iino, p, n, t1, c1⟩, ← sync_flat hcount ⟨iino, p, n, t1, c2⟩]
            unfold Setup.flat
            rw [e3]

/-- The log without the hit counters in the statistics. -/
def hitless : List Event → List Event
  | [] => []
  | .stats q hs :: l => .stats q (hs.map fun _ => none) :: hitless l
  | e :: l => e :: hitless l

theorem hitless_eq (l : List Event) : hitless l = l.map (Event.by fun _ => none) := by
  induction l with
  | nil => rfl
  | cons e l ih => cases e <;> simp only [hitless, List.map_cons, Event.by, ih]

/-- **C39** (partial): "casync OPTIONS extract INDEX TARGET" does exactly what "csn INDEX TARGET STORES" does, with the same
result and the same effects, whatever fails on the way: with --store and --seed in any order, given with or without "=",
before or behind "extract", and --seed-output ignored.  Memory is either never short or the number of words per store is
two, so that both allocate the same.  Only the hits per store that are printed at the end can differ (`C39_hits_refuted`),
unless there are at most as many stores as slots at the start (`C39_identical_partial`).  Missing, since false: the case that
csn cannot use the kernel's hash driver (`C39_kcapi_refuted`), help (`C39_help_refuted`), and no store at all, which casync
accepts (`C39_no_store`). -/
theorem C39_equivalent_partial (env : Env) (posix : Bool) (args : List Bytes) (ipath tpath : Bytes) (stores : List Bytes)
    (h : CommandLine posix args ipath tpath stores) (hne : stores ≠ []) (hk : env.kcapi ≠ some false) (w : World)
    (hm : (w.mem = [] ∧ args.length < 2 ^ 57) ∨ (args.length - 3) / 2 = stores.length) :
    (casyncMain env posix args w).1 = (csnMain env (ipath :: tpath :: stores) w).1 ∧
    ({ (casyncMain env posix args w).2 with log := hitless (casyncMain env posix args w).2.log } : World) =
      { (csnMain env (ipath :: tpath :: stores) w).2 with log := hitless (csnMain env (ipath :: tpath :: stores) w).2.log } := by
  have key := casync_csn counts_none env posix args ipath tpath stores h hne hk w hm (fun _ _ => rfl)
  rw [hitless_eq, hitless_eq]
  exact ⟨(congrArg Prod.fst key :), (congrArg Prod.snd key :)⟩

theorem Event.by_id (e : Event) : Event.by (fun h => h) e = e := by cases e <;> simp [Event.by]

/-- **C39** (partial): and it does exactly the same, the statistics included, if the stores fit in the slots that casync
allocates at the start; they do whenever every store is given in two words. -/
theorem C39_identical_partial (env : Env) (posix : Bool) (args : List Bytes) (ipath tpath : Bytes) (stores : List Bytes)
    (h : CommandLine posix args ipath tpath stores) (hne : stores ≠ []) (hk : env.kcapi ≠ some false) (w : World)
    (hm : (w.mem = [] ∧ args.length < 2 ^ 57) ∨ (args.length - 3) / 2 = stores.length) (hs : stores.length ≤ (args.length - 3) / 2 + 1) :
    casyncMain env posix args w = csnMain env (ipath :: tpath :: stores) w := by
  have key := casync_csn counts_id env posix args ipath tpath stores h hne hk w hm (fun i hi => by rw [if_pos (by omega), if_pos (by omega)])
  have e : ∀ {α : Type} (r : Res α × World), logBy (fun h => h) r = r := by
    intro α r
    obtain ⟨r, w⟩ := r
    have : w.log.map (Event.by fun h => h) = w.log := by
      rw [List.map_congr_left (fun e _ => Event.by_id e), List.map_id']
    simp only [logBy, this]
  rwa [e, e] at key

/-- A command line as RAUC issues it. -/
def rauc : List Bytes := [str "extract", str "--seed", str "t", str "--store", str "s", str "--seed-output=no", str "i", str "t"]

theorem rauc_commandLine : CommandLine false rauc (str "i") (str "t") [str "t", str "s"] :=
  ⟨[], _, [], _, rfl, .nil, .seed _ (.store _ (.outputEq (str "no") .nil)), rfl, by simp, fun _ => ⟨Or.inr (by decide), Or.inr (by decide)⟩⟩

/-- A case of `C39_equivalent_partial`: the two front ends on the same world, which also succeed. -/
example : casyncMain syncEnv false rauc okWorld = csnMain syncEnv [str "i", str "t", str "t", str "s"] okWorld ∧
    (casyncMain syncEnv false rauc okWorld).1 = .ok true ∧ (casyncMain syncEnv false rauc okWorld).2.data 3 = exC1 ++ exC2 ++ List.replicate 10 9 :=
  ⟨C39_identical_partial syncEnv false rauc _ _ _ rauc_commandLine (by simp) (by decide) okWorld (Or.inr (by decide)) (by decide), by decide +kernel, by decide +kernel⟩

/-- Three stores, each in one word: casync allocates two slots at the start. -/
def three : List Bytes := [str "extract", str "--store=s", str "--store=s", str "--store=s", str "i", str "t"]

theorem three_commandLine : CommandLine false three (str "i") (str "t") [str "s", str "s", str "s"] :=
  ⟨[], _, [], _, rfl, .nil, .storeEq (str "s") (.storeEq (str "s") (.storeEq (str "s") .nil)), rfl, by simp, fun _ => ⟨Or.inr (by decide), Or.inr (by decide)⟩⟩

/-- A case of `C39_equivalent_partial` in which the chain grows; `three` succeeds. -/
example : ((casyncMain syncEnv false three okWorld).1 = (csnMain syncEnv [str "i", str "t", str "s", str "s", str "s"] okWorld).1 ∧
    ({ (casyncMain syncEnv false three okWorld).2 with log := hitless (casyncMain syncEnv false three okWorld).2.log } : World) =
      { (csnMain syncEnv [str "i", str "t", str "s", str "s", str "s"] okWorld).2 with log := hitless (csnMain syncEnv [str "i", str "t", str "s", str "s", str "s"] okWorld).2.log }) ∧
    (casyncMain syncEnv false three okWorld).1 = .ok true :=
  ⟨C39_equivalent_partial syncEnv false three _ _ _ three_commandLine (by simp) (by decide) okWorld (Or.inl ⟨rfl, by decide⟩), by decide +kernel⟩

/-- **C39 refuted in full**: the chain grows with realloc, and the hit counter of a store in the new slots is never set.  csn
prints "0 hits" for the third store, casync prints whatever is in the memory. -/
theorem C39_hits_refuted : ∃ env w args ipath tpath stores q hs hs', CommandLine false args ipath tpath stores ∧ stores ≠ [] ∧ Scene env w ipath tpath stores ∧
    (csnMain env (ipath :: tpath :: stores) w).2.log.getLast? = some (.stats q hs) ∧ (casyncMain env false args w).2.log.getLast? = some (.stats q hs') ∧
    hs = [some 2, some 0, some 0] ∧ hs' = [some 2, some 0, none] :=
  ⟨syncEnv, okWorld, three, str "i", str "t", [str "s", str "s", str "s"], 2, _, _, three_commandLine, by simp, syncWorld_scene okIdx_wf _ (by simp) (by simp), by decide +kernel, by decide +kernel, rfl, rfl⟩

/-- **C39 refuted in full**: if the kernel's hash driver that the user asks for cannot be used, csn fails; casync does not
ask for it and succeeds. -/
theorem C39_kcapi_refuted : ∃ env w args ipath tpath stores, CommandLine false args ipath tpath stores ∧ stores ≠ [] ∧ Scene env w ipath tpath stores ∧
    (csnMain env (ipath :: tpath :: stores) w).1 = .ok false ∧ (casyncMain env false args w).1 = .ok true := by
  refine ⟨{ syncEnv with kcapi := some false }, okWorld, [str "--store", str "s", str "extract", str "i", str "t"], str "i", str "t", [str "s"], ?_, by simp, ?_, by decide +kernel, by decide +kernel⟩
  · exact ⟨[str "--store", str "s"], [], [str "s"], [], rfl, .store _ .nil, .nil, rfl, by simp, fun _ => ⟨Or.inr (by decide), Or.inr (by decide)⟩⟩
  · obtain ⟨h1, h2, h3, h4, h5, h6, h7⟩ := okScene
    exact ⟨h1, h2, h3, h4, h5, h6, h7⟩

/-- Without any store csn refuses to run; casync runs (and succeeds if the target is complete already). -/
theorem C39_no_store : (∀ env ipath tpath w, csnMain env [ipath, tpath] w = (.ok false, w)) ∧
    ∃ env w, (casyncMain env false [str "extract", str "i", str "t"] w).1 = .ok true :=
  ⟨fun _ _ _ _ => rfl, syncEnv, syncWorld (exIdx [exC1, exC2]) (exC1 ++ exC2) [] manySys, by decide +kernel⟩

/-- **C39**: "casync --help", and every other command line with a single word, has no effect; the exit status is that of a
failure. -/
theorem C39_help_alone (env : Env) (posix : Bool) (args : List Bytes) (h : args.length ≤ 1) (w : World) : casyncMain env posix args w = (.stop .exit, w) := by
  unfold casyncMain casync
  dsimp only
  rw [if_pos (by omega)]
  rfl

/-- **C39 refuted in full**: asked for help in front of two more words casync goes on to synchronise, without a store, and
uses the null pointer. -/
theorem C39_help_refuted : ∃ env w, (casyncMain env false [str "--help", str "i", str "t"] w).1 = .stop .ub ∧ Clean w.sys ∧ w.mem = [] :=
  ⟨syncEnv, okWorld, by decide +kernel, ⟨by decide +kernel, by decide +kernel⟩, rfl⟩

/-- The same if the target is complete already: then it is the clean-up that uses the null pointer. -/
example : (casyncMain syncEnv false [str "--help", str "i", str "t"] (syncWorld (exIdx [exC1, exC2]) (exC1 ++ exC2) [] manySys)).1 = .stop .ub := by decide +kernel

/-- `a` is a long option casync does not have. -/
def Unknown (a : Bytes) : Prop :=
  ∃ rest, a = str "--" ++ rest ∧ rest ≠ [] ∧ ∀ n ∈ ["help", "store", "seed", "seed-output"], ¬ rest.takeWhile (· != 0x3d) <+: str n

theorem casyncOpts_bad {env : Env} {tpath : Bytes} {n : Nat} {p : Params} {os : List Opt} (h : .help ∈ os ∨ .bad ∈ os) (t : Tgt) (c : Chain Store) (w : World) :
    ∀ t' c' w', casyncOpts env tpath n p t c os w ≠ (.ok (.done t' c'), w') := by
  induction os generalizing t c w with
  | nil => simp at h
  | cons o os ih =>
    intro t' c' w' he
    cases o with
    | help => simp [casyncOpts, pure, M.pure] at he
    | bad => simp [casyncOpts, M.stop] at he
    | seedOutput a =>
      refine ih (by simpa using h) t c w t' c' w' he
    | store a =>
      rw [casyncOpts, bind_apply] at he
      generalize appendStore env tpath n p t c a w = r at he
      obtain ⟨r, w1⟩ := r
      rcases r with ⟨_ | _, t1, c1⟩ | _
      · simp [pure, M.pure] at he
      · exact ih (by simpa using h) t1 c1 w1 t' c' w' he
      · simp at he

/-- If the options or the words that follow them are not right, casync gets no store. -/
theorem casync_notReady {env : Env} {posix : Bool} {args : List Bytes}
    (h : (.help ∈ (getopt posix none [] args).1 ∨ .bad ∈ (getopt posix none [] args).1) ∨
      (getopt posix none [] args).2.length < 3 ∨ (getopt posix none [] args).2.headD [] ≠ str "extract") (w : World) :
    ∀ s w', casync env posix args w ≠ (.ok (some (.ready s)), w') := by
  intro s w'
  unfold casync
  dsimp only
  split
  · simp [M.stop]
  · rw [bind_apply]
    generalize openBoth _ _ w = r
    obtain ⟨r, w1⟩ := r
    rcases r with (_ | ⟨iino, p, n, t⟩) | _
    · simp [pure, M.pure]
    · dsimp only
      rw [bind_apply]
      generalize chainNew Store _ w1 = r
      obtain ⟨r, w2⟩ := r
      rcases r with (_ | c) | _
      · simp [pure, M.pure]
      · dsimp only
        rw [bind_apply]
        have := fun hb => casyncOpts_bad (env := env) (tpath := args.getD (args.length + 1 - 1 - 1) []) (n := n) (p := p) (os := (getopt posix none [] args).1) hb t c w2
        generalize casyncOpts env (args.getD (args.length + 1 - 1 - 1) []) n p t c (getopt posix none [] args).1 w2 = r at this
        obtain ⟨r, w3⟩ := r
        rcases r with (_ | _ | ⟨t', c'⟩) | _
        · simp [pure, M.pure]
        · simp [pure, M.pure]
        · rcases h with h | h
          · exact absurd rfl (this h t' c' w3)
          · dsimp only
            have h' : (getopt posix none [] args).2.length < 3 ∨ streq ((getopt posix none [] args).2.headD []) (str "extract") = false := by
              unfold streq
              simpa using h
            rw [if_pos h']
            simp [M.stop]
        · simp
      · simp
    · simp

/-- Without a store casync does not succeed and changes nothing. -/
theorem casyncMain_notReady {env : Env} {posix : Bool} {args : List Bytes} {w : World} (h : ∀ s w', casync env posix args w ≠ (.ok (some (.ready s)), w')) :
    (casyncMain env posix args w).1 ≠ .ok true ∧ (casyncMain env posix args w).2.data = w.data ∧ (casyncMain env posix args w).2.dir = w.dir := by
  unfold casyncMain
  rw [bind_apply]
  have hr := (readOnly_closed env.toLEnv).casync env rfl posix args w
  generalize casync env posix args w = r at h hr
  obtain ⟨r, w1⟩ := r
  rcases r with (_ | (s | ⟨iino, p, n, t⟩)) | _
  · exact ⟨by simp [pure, M.pure], hr.1, hr.2.2.1⟩
  · exact absurd rfl (h s w1)
  · have hs := (readOnly_closed env.toLEnv).syncNoStore env iino p n t w1
    refine ⟨?_, hs.1.trans hr.1, hs.2.2.1.trans hr.2.2.1⟩
    dsimp only
    unfold syncNoStore
    rw [bind_apply]
    split
    · split
      · simp [pure, M.pure]
      · simp [M.stop]
    · simp
  · exact ⟨by simp, hr.1, hr.2.2.1⟩

theorem getopt_help {posix : Bool} {non r : List Bytes} {a : Bytes} (ha : a = str "--help" ∨ a = str "-h") : (getopt posix none non (a :: r)).1 = [.help] := by
  have e : longMatch ((str "--help").drop 2 |>.takeWhile (· != 0x3d)) = some .help := by decide
  have e2 : ¬ ((str "--help").drop 2 |>.takeWhile (· != 0x3d)).length < ((str "--help").drop 2).length := by decide
  rcases ha with rfl | rfl
  · rw [getopt]
    simp only [show str "--help" ≠ str "--" by decide, if_false, show startswith (str "--help") (str "--") = true by decide, if_true, e, e2]
  · rw [getopt]
    simp only [show str "-h" ≠ str "--" by decide, if_false, show startswith (str "-h") (str "--") = false by decide, Bool.false_eq_true,
      show (startswith (str "-h") (str "-") && str "-h" != str "-") = true by decide, if_true, show ((str "-h").drop 1).head? = some 0x68 by decide]

theorem longMatch_unknown {name : Bytes} (h : ∀ n ∈ ["help", "store", "seed", "seed-output"], ¬ name <+: str n) : longMatch name = none := by
  unfold longMatch
  have h1 : longOptions.find? (fun o => o.1 == name) = none := by
    rw [List.find?_eq_none]
    intro o ho hc
    rw [beq_iff_eq] at hc
    simp only [longOptions, List.mem_cons, List.not_mem_nil, or_false] at ho
    rcases ho with rfl | rfl | rfl | rfl
    · exact h "help" (by simp) (hc ▸ List.prefix_refl _)
    · exact h "store" (by simp) (hc ▸ List.prefix_refl _)
    · exact h "seed" (by simp) (hc ▸ List.prefix_refl _)
    · exact h "seed-output" (by simp) (hc ▸ List.prefix_refl _)
  have h2 : longOptions.filter (fun o => startswith o.1 name) = [] := by
    rw [List.filter_eq_nil_iff]
    intro o ho hc
    rw [startswith_prefix] at hc
    simp only [longOptions, List.mem_cons, List.not_mem_nil, or_false] at ho
    rcases ho with rfl | rfl | rfl | rfl
    · exact h "help" (by simp) hc
    · exact h "store" (by simp) hc
    · exact h "seed" (by simp) hc
    · exact h "seed-output" (by simp) hc
  rw [h1, h2]

theorem getopt_unknown {posix : Bool} {non r : List Bytes} {a : Bytes} (ha : Unknown a) : (getopt posix none non (a :: r)).1 = [.bad] := by
  obtain ⟨rest, rfl, h0, h⟩ := ha
  have h1 : str "--" ++ rest ≠ str "--" := by simpa using h0
  have h2 : (str "--" ++ rest).drop 2 = rest := rfl
  rw [getopt]
  simp only [h1, if_false, startswith_append, if_true, h2, longMatch_unknown h]

/-- **C39**: a command line that asks for help, or has an unknown option, never succeeds and changes no file. -/
theorem C39_never_succeeds (env : Env) (posix : Bool) (pre rest : List Bytes) (a : Bytes) (ss : List Bytes) (hpre : Options pre ss)
    (ha : a = str "--help" ∨ a = str "-h" ∨ Unknown a) (w : World) : (casyncMain env posix (pre ++ a :: rest) w).1 ≠ .ok true ∧
      (casyncMain env posix (pre ++ a :: rest) w).2.data = w.data ∧ (casyncMain env posix (pre ++ a :: rest) w).2.dir = w.dir := by
  refine casyncMain_notReady (casync_notReady (Or.inl ?_) w)
  obtain ⟨os, _, e⟩ := getopt_options (posix := posix) hpre
  rw [e]
  rcases ha with ha | ha | ha
  · exact Or.inl (by rw [getopt_help (Or.inl ha)]; simp)
  · exact Or.inl (by rw [getopt_help (Or.inr ha)]; simp)
  · exact Or.inr (by rw [getopt_unknown ha]; simp)

theorem getopt_rest (posix : Bool) : ∀ (args : List Bytes) (want : Option Long) (non : List Bytes),
    ∃ more, (getopt posix want non args).2 = non ++ more ∧ more.length ≤ args.length
  | [], want, non => ⟨[], by simp [getopt], by simp⟩
  | a :: r, want, non => by
    have ih := getopt_rest posix r
    have up : ∀ {want' : Option Long}, ∃ more, (getopt posix want' non r).2 = non ++ more ∧ more.length ≤ (a :: r).length := by
      intro want'
      obtain ⟨m, h1, h2⟩ := ih want' non
      exact ⟨m, h1, by simp; omega⟩
    unfold getopt
    dsimp only
    repeat' (first
      | exact up
      | exact ⟨r, rfl, by simp⟩
      | exact ⟨a :: r, rfl, by simp⟩
      | split)
    obtain ⟨m, h1, h2⟩ := ih none (non ++ [a])
    exact ⟨a :: m, by rw [h1]; simp, by simp; omega⟩

theorem getopt_word {posix : Bool} {a : Bytes} (h : Plain a) (r : List Bytes) : ∃ more, (getopt posix none [] (a :: r)).2 = a :: more ∧ more.length ≤ r.length := by
  cases posix with
  | false =>
    rw [getopt_plain h]
    obtain ⟨m, h1, h2⟩ := getopt_rest false r none ([] ++ [a])
    exact ⟨m, h1, h2⟩
  | true =>
    have hp : getopt true none [] (a :: r) = ([], [] ++ a :: r) := by
      rw [getopt]
      simp only
      by_cases h1 : a = str "--"
      · subst h1
        rcases h with h | h
        · exact absurd h (by decide)
        · exact absurd ⟨str "-", by decide⟩ h
      · rw [if_neg h1]
        by_cases h2 : startswith a (str "--") = true
        · rw [startswith_prefix] at h2
          rcases h with h | h
          · subst h; exact absurd h2.length_le (by decide)
          · exact absurd (List.IsPrefix.trans ⟨str "-", by decide⟩ h2) h
        · rw [if_neg h2]
          by_cases h3 : (startswith a (str "-") && a != str "-") = true
          · rw [Bool.and_eq_true, startswith_prefix] at h3
            rcases h with h | h
            · subst h; exact absurd h3.2 (by decide)
            · exact absurd h3.1 h
          · rw [if_neg h3, if_pos trivial]
    rw [hp]
    exact ⟨r, rfl, Nat.le_refl _⟩

/-- **C39**: unless the first word that is not an option is "extract" and two more words follow, casync does not succeed and
changes no file. -/
theorem C39_only_extract (env : Env) (posix : Bool) (pre rest : List Bytes) (a : Bytes) (ss : List Bytes) (hpre : Options pre ss) (ha : Plain a)
    (h : a ≠ str "extract" ∨ rest.length < 2) (w : World) : (casyncMain env posix (pre ++ a :: rest) w).1 ≠ .ok true ∧
      (casyncMain env posix (pre ++ a :: rest) w).2.data = w.data ∧ (casyncMain env posix (pre ++ a :: rest) w).2.dir = w.dir := by
  refine casyncMain_notReady (casync_notReady (Or.inr ?_) w)
  obtain ⟨os, _, e⟩ := getopt_options (posix := posix) hpre
  rw [e]
  obtain ⟨more, h1, h2⟩ := getopt_word (posix := posix) ha rest
  rcases h with h | h
  · exact Or.inr (by simp only [h1]; exact h)
  · exact Or.inl (by simp only [h1, List.length_cons]; omega)

/-- A case: with the command "list" a run that would succeed otherwise fails. -/
example : Options [str "--store", str "s"] [str "s"] ∧ Plain (str "list") ∧
    (casyncMain syncEnv false ([str "--store", str "s"] ++ str "list" :: [str "i", str "t"]) okWorld).1 = .stop .exit ∧
    (casyncMain syncEnv false ([str "--store", str "s"] ++ str "extract" :: [str "i", str "t"]) okWorld).1 = .ok true :=
  ⟨.store _ .nil, Or.inr (by decide), by decide +kernel, by decide +kernel⟩

/-- A case of an unknown option. -/
example : Unknown (str "--stores=x") ∧ Options [str "--store", str "--help"] [str "--help"] := by
  refine ⟨⟨str "stores=x", by decide, by decide, ?_⟩, .store _ .nil⟩
  intro n hn
  simp only [List.mem_cons, List.not_mem_nil, or_false] at hn
  rcases hn with rfl | rfl | rfl | rfl <;> decide

/-! ### The choice of the front end -/

theorem posixBasename_dir (dir name : Bytes) (hd : dir = [] ∨ dir.getLast? = some 0x2f) (hn : name ≠ []) (h : 0x2f ∉ name) : posixBasename (dir ++ name) = name := by
  have h0 : dir ++ name ≠ [] := by simp [hn]
  have hrev : (dir ++ name).reverse = name.reverse ++ dir.reverse := by simp
  have hdw : ((dir ++ name).reverse.dropWhile (· == 0x2f)) = (dir ++ name).reverse := by
    rw [hrev]
    cases hx : name.reverse with
    | nil => exact absurd (List.reverse_eq_nil_iff.1 hx) hn
    | cons y l =>
      have : y ≠ 0x2f := by
        rintro rfl
        exact h (List.mem_reverse.1 (by rw [hx]; simp))
      rw [List.cons_append, List.dropWhile_cons, if_neg (by simpa using this)]
  unfold posixBasename
  rw [if_neg h0]
  dsimp only
  rw [hdw, List.reverse_reverse, if_neg h0]
  exact lastPart_unique (lastPart_baseName (dir ++ name)) ⟨h, dir, rfl, hd⟩

/-- **C39**: the front end is chosen by the last component of the program's path; other names fail without effect. -/
theorem C39_dispatch (env : Env) (posix : Bool) (dir name : Bytes) (hd : dir = [] ∨ dir.getLast? = some 0x2f) (hn : name ≠ []) (h : 0x2f ∉ name) (args : List Bytes) (w : World) :
    (name = str "csn" → appMain env posix (dir ++ name) args w = csnMain env args w) ∧
    (name = str "casync" → appMain env posix (dir ++ name) args w = casyncMain env posix args w) ∧
    (name ≠ str "csn" → name ≠ str "casync" → appMain env posix (dir ++ name) args w = (.ok false, w)) := by
  unfold appMain
  rw [posixBasename_dir dir name hd hn h]
  unfold streq
  refine ⟨?_, ?_, ?_⟩
  · rintro rfl; rw [if_pos (by decide)]
  · rintro rfl; rw [if_neg (by decide), if_pos (by decide)]
  · intro h1 h2; rw [if_neg (by simpa using h1), if_neg (by simpa using h2)]; rfl

/-- A case: the hypotheses hold for "/usr/bin/casync". -/
example : str "/usr/bin/casync" = str "/usr/bin/" ++ str "casync" ∧ (str "/usr/bin/").getLast? = some 0x2f ∧ 0x2f ∉ str "casync" := by decide

end Csn.Props
