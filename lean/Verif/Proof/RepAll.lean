import Verif.Proof.Rep
/-
What the functions of the model report.
-/
namespace Csn.Rep
open Csn Csn.Props

/-- The end of a proof by induction on the rounds of a loop. -/
macro "rep_with" ih:ident : tactic => `(tactic| repeat (first | exact $ih | rep1))

theorem free_assert {f : String} {n : Nat} (h : isAt f n .err = true) : Free (assertAt f n) where
  h := by
    unfold assertAt
    refine h_ask st_ok (h_ret (fun _ h => h)) (h_bind (h_trouble (fun _ h => h.1)) (fun _ => ?_))
    exact h_bind (h_say_err (at_of h)) (fun _ => h_abort)

theorem std_notNull {f : String} {n : Nat} (h : isAt f n .err = true) : Std (notNull f n) where
  h := by
    unfold notNull
    exact h_quiet (h_ret (fun _ h => h)) (h_bind (h_say_err (at_of h)) (fun _ => h_ret (fun _ h => h)))

theorem std_checked {f : String} {n : Nat} (h : isLow f n = true) (m : P Bool) [Std m] : Std (checked f n m) where
  h := by
    unfold checked
    exact h_std (h_ret (fun _ h => h)) (h_bind (low_bad (low_of h)) (fun _ => h_ret (fun _ h => h)))

theorem quiet_checked {f : String} {n : Nat} (h : isLow f n = true) (m : P Bool) [Quiet m] : Quiet (checked f n m) where
  h := by
    unfold checked
    exact h_quiet (h_ret (fun _ h => h)) (h_bind (low_due (low_of h)) (fun _ => h_ret (fun _ h => h)))

theorem free_sayMaybe {f : String} {n : Nat} (h : isLow f n = true) : Free (sayMaybe f n) where
  h := by
    unfold sayMaybe
    exact h_ask st_ok (low_ok (low_of h)) (h_ret (fun _ h => h))

/-! ### utils.c -/

theorem std_readLoop {a b : Nat} (ha : isAt "utils.c" a .err = true) (hb : isAt "utils.c" b .err = true) (n : Nat) : Hoare Ok (readLoop a b n) (post Bad) := by
  induction n with
  | zero => exact h_killed
  | succ n ih =>
    unfold readLoop
    refine h_ask st_ok (h_ret (fun _ h => h)) (h_ask st_ok ih (h_quiet (h_quiet ih ?_) ?_))
    · exact h_bind (h_say_err (at_of hb)) (fun _ => h_ret (fun _ h => h))
    · exact h_bind (h_say_err (at_of ha)) (fun _ => h_ret (fun _ h => h))

instance : Std readAll := ⟨h_looped (std_readLoop (by decide +kernel) (by decide +kernel))⟩
instance : Std preadAll := ⟨h_looped (std_readLoop (by decide +kernel) (by decide +kernel))⟩

theorem std_writeLoop {a b : Nat} (ha : isAt "utils.c" a .err = true) (hb : isAt "utils.c" b .err = true) (n : Nat) : Hoare Ok (writeLoop a b n) (post Bad) := by
  have := free_assert hb
  induction n with
  | zero => exact h_killed
  | succ n ih =>
    unfold writeLoop
    refine h_ask st_ok (h_ret (fun _ h => h)) (h_ask st_ok ih (h_quiet (h_free (fun _ => ih)) ?_))
    exact h_bind (h_say_err (at_of ha)) (fun _ => h_ret (fun _ h => h))

instance : Std writeAll := ⟨h_looped (std_writeLoop (by decide +kernel) (by decide +kernel))⟩
instance : Std pwriteAll := ⟨h_looped (std_writeLoop (by decide +kernel) (by decide +kernel))⟩
instance : Std fdSize := ⟨by unfold fdSize; rep⟩
instance : Std slurpFile := ⟨by unfold slurpFile; rep⟩
instance : Free timeMonotonic := free_assert (by decide +kernel)
instance : Std parseHex := ⟨by unfold parseHex; rep⟩

/-! ### encrypt.c -/

instance : Std checkKey := ⟨by unfold checkKey; rep⟩
instance : Std parseKeyspec := ⟨by unfold parseKeyspec; rep⟩
instance : Std encryptInit := ⟨by unfold encryptInit; rep⟩
instance : Std encryptRestart := ⟨by unfold encryptRestart; rep⟩
instance : Quiet encryptDo := ⟨h_fine⟩

/-! ### sha.c, chunk.h -/

instance : Std kcapiInit := ⟨by
  unfold kcapiInit
  repeat (first | exact (fun s hs => st_ok s s.ans true hs) | rep1)⟩

theorem shaDisable_h : Hoare Bad shaDisable (post Due) := by
  unfold shaDisable
  refine h_bind (h_pre (fun _ h => h.1) (h_say_err (at_of (by decide +kernel)))) (fun _ s hs => ?_)
  exact h_fine _ (bad_ok (st_bad s s.ans false hs))

instance : Quiet shaOnce := ⟨by
  unfold shaOnce
  refine h_bind (r := fun _ => Ok) (fun s hs => hs) (fun b => ?_)
  cases b
  · exact h_fine
  · show Hoare Ok (fine >>= _) _
    rep_with shaDisable_h⟩

instance : Free calculateId := ⟨by unfold calculateId; rep⟩

/-! ### caibx.c -/

instance : Std sectionHeader := std_checked (by decide +kernel) _
instance : Std paramsSet := ⟨by unfold paramsSet; rep⟩
instance : Std indexParams := by
  have : Std (checked "caibx.c" 60 readAll) := std_checked (by decide +kernel) _
  exact ⟨by unfold indexParams; rep⟩
instance : Std indexHeader := by
  have : Std (checked "caibx.c" 45 sectionHeader) := std_checked (by decide +kernel) _
  exact ⟨by unfold indexHeader; rep⟩
instance : Std tableHeader := by
  have : Std (checked "caibx.c" 89 sectionHeader) := std_checked (by decide +kernel) _
  exact ⟨by unfold tableHeader; rep⟩

theorem std_footerFields {l : List Nat} (h : l.all (fun n => isAt "caibx.c" n .err) = true) : Std (footerFields l) := by
  induction l with
  | nil => exact ⟨h_ret (fun _ h => h)⟩
  | cons n r ih =>
    simp only [List.all_cons, Bool.and_eq_true] at h
    have := ih h.2
    exact ⟨by unfold footerFields; exact h_quiet std_post (h_bind (h_say_err (at_of h.1)) (fun _ => h_ret (fun _ h => h)))⟩

instance : Std tableFooter := by
  have : Std (checked "caibx.c" 114 readAll) := std_checked (by decide +kernel) _
  have : Std (footerFields [118, 123, 128, 136, 142]) := std_footerFields (by decide +kernel)
  exact ⟨by unfold tableFooter; rep⟩

instance : Quiet headerParts := by
  have : Quiet (checked "caibx.c" 171 fine) := quiet_checked (by decide +kernel) _
  have : Std (checked "caibx.c" 173 indexHeader) := std_checked (by decide +kernel) _
  have : Std (checked "caibx.c" 174 tableHeader) := std_checked (by decide +kernel) _
  have : Std (checked "caibx.c" 175 tableFooter) := std_checked (by decide +kernel) _
  exact ⟨by unfold headerParts; rep⟩

instance : Quiet loadHeader := by
  have : Std (checked "caibx.c" 157 fdSize) := std_checked (by decide +kernel) _
  exact ⟨by unfold loadHeader; rep⟩

instance : Free entryLength := ⟨by unfold entryLength; rep⟩

/-- A callback of the iteration: with result `false`, something went wrong. -/
def CbOk {σ : Type} (cb : σ → P (Bool × σ)) : Prop := ∀ x, Hoare Ok (cb x) (fun r => post Due r.1)

theorem h_entryLoop {σ : Type} {cb : σ → P (Bool × σ)} (hcb : CbOk cb) (n : Nat) : ∀ x, Hoare Ok (entryLoop cb n x) (fun r => post Due r.1) := by
  induction n with
  | zero => exact fun _ => h_killed
  | succ n ih =>
    intro x
    unfold entryLoop
    refine h_ask st_ok (h_ret (fun _ h => h)) (h_std (h_freeb (ih x) ?_) ?_)
    · refine h_bind (hcb x) (fun r => ?_)
      obtain ⟨b, y⟩ := r
      cases b
      · exact h_ret (fun _ h => h)
      · exact ih y
    · exact h_bind (h_pre (fun _ h => h.1) (h_say_err (at_of (by decide +kernel)))) (fun _ => h_ret (fun _ h => h.1))

theorem h_iterate {σ : Type} {cb : σ → P (Bool × σ)} (hcb : CbOk cb) (x : σ) : Hoare Ok (iterate cb x) (fun r => post Due r.1) := by
  have : Quiet (checked "caibx.c" 194 fine) := quiet_checked (by decide +kernel) _
  unfold iterate
  exact h_quiet (h_looped (fun n => h_entryLoop hcb n x)) (h_ret (fun _ h => h))

/-! ### index.c -/

instance : Std indexInit := by
  have : Free (assertAt "index.c" 10) := free_assert (by decide +kernel)
  have : Std (notNull "index.c" 13) := std_notNull (by decide +kernel)
  exact ⟨by unfold indexInit; exact h_free (fun _ => std_post)⟩

instance : Std indexInsert := by
  have : Free (assertAt "index.c" 32) := free_assert (by decide +kernel)
  have : Free (assertAt "index.c" 35) := free_assert (by decide +kernel)
  exact ⟨by unfold indexInsert; rep⟩

/-! ### chunker.c, store-local.c -/

instance : Std storeInsert := ⟨by unfold storeInsert; rep⟩

instance : Std (looped boundaries) := ⟨h_looped (fun n => by
  induction n with
  | zero => exact h_killed
  | succ n ih => unfold boundaries; rep_with ih)⟩

instance : Std (looped scanLoop) := ⟨h_looped (fun n => by
  induction n with
  | zero => exact h_killed
  | succ n ih => unfold scanLoop; rep_with ih)⟩

instance : Quiet scanFd := by
  have : Quiet (checked "chunker.c" 232 fine) := quiet_checked (by decide +kernel) _
  exact ⟨by unfold scanFd; rep⟩

instance : Quiet storeScan := by
  have : Std (checked "store-local.c" 107 fdSize) := std_checked (by decide +kernel) _
  exact ⟨by unfold storeScan; rep⟩

theorem h_sideIterate : Hoare Ok (iterate (fun _ : Unit => do return (← storeInsert, ())) ()) (fun r => post Due r.1) :=
  h_iterate (fun _ => h_bind std_quiet (fun _ => h_ret (fun _ h => h))) ()

instance : Std sideload := ⟨by
  unfold sideload
  refine h_quiet (h_quiet (h_quiet (h_std (h_bind h_sideIterate (fun r => ?_)) ?_) ?_) ?_) ?_
  · obtain ⟨b, _⟩ := r
    cases b
    · show Hoare Due _ _
      rep
    · exact h_ret (fun _ h => h)
  all_goals rep⟩

instance : Std localScan := ⟨by unfold localScan; rep⟩

instance : Std localNew := by
  have : Std (notNull "store-local.c" 200) := std_notNull (by decide +kernel)
  exact ⟨by unfold localNew; rep⟩

instance : Free (looped localGet) := ⟨h_looped (fun n => by
  induction n with
  | zero => exact h_killed
  | succ n ih => unfold localGet; repeat (first | exact ih | exact h_pre (fun _ => bad_ok) (h_quiet ih (by rep)) | rep1))⟩

/-! ### store-http.c -/

instance : Std (looped handleParams) := ⟨h_looped (fun n => by
  induction n with
  | zero => exact h_killed
  | succ n ih => unfold handleParams; rep_with ih)⟩

theorem std_setOptions {l : List Nat} (h : l.all (fun n => isAt "store-http.c" n .err) = true) : Std (setOptions l) := by
  induction l with
  | nil => exact ⟨h_ret (fun _ h => h)⟩
  | cons n r ih =>
    simp only [List.all_cons, Bool.and_eq_true] at h
    have := ih h.2
    exact ⟨by unfold setOptions; exact h_quiet std_post (h_bind (h_say_err (at_of h.1)) (fun _ => h_ret (fun _ h => h)))⟩

instance : Std httpHandles := by
  have : Std (notNull "store-http.c" 471) := std_notNull (by decide +kernel)
  have : Std (notNull "store-http.c" 478) := std_notNull (by decide +kernel)
  have : Std (notNull "store-http.c" 496) := std_notNull (by decide +kernel)
  have : Std (setOptions [480, 483, 486, 489, 492]) := std_setOptions (by decide +kernel)
  exact ⟨by unfold httpHandles; rep⟩

instance : Std httpNew := by
  have : Std (notNull "store-http.c" 447) := std_notNull (by decide +kernel)
  have : Std (notNull "store-http.c" 450) := std_notNull (by decide +kernel)
  exact ⟨by unfold httpNew; rep⟩

instance : Std absorbInto := ⟨by unfold absorbInto; rep⟩
instance : Std absorb := ⟨by unfold absorb; rep⟩
instance : Free decompress := ⟨by unfold decompress; rep⟩
instance (st : Req) : Free (handleData st) := ⟨by unfold handleData; split <;> rep⟩
instance : Std responseCode := ⟨by unfold responseCode; rep⟩

instance (st : Req) : Free (dataCbRest st) := ⟨by
  unfold dataCbRest
  refine h_ask st_ok (h_std (h_free (fun r => ?_)) ?_) (h_free (fun r => ?_))
  all_goals (try split)
  all_goals rep⟩

instance (st : Req) : Free (dataCb st) := ⟨by
  unfold dataCb
  split
  · rep
  · split <;> rep⟩

instance (st : Req) : Free (looped (fun k => fragments k st)) := ⟨h_looped (fun n => by
  induction n generalizing st with
  | zero => exact h_killed
  | succ n ih =>
    unfold fragments
    exact h_ask st_ok (h_ret (fun _ h => h)) (h_free (fun _ => ih _)))⟩

/-- After a transfer: all is reported; after one that failed it was not. -/
def curlPost (fuel : Nat) : Curl → PS → Prop
  | .ok => Ok
  | .transient => if fuel = 0 then Ok else Warned
  | .other => Due

theorem h_perform (n : Nat) : ∀ st, Hoare Ok (perform n st) (fun r => curlPost n r.1) ∧ Hoare Warned (perform n st) (fun r => curlPost (n + 1) r.1) := by
  induction n with
  | zero => exact fun st => ⟨h_ret (fun _ h => h), h_ret (fun _ h => h)⟩
  | succ n ih =>
    intro st
    have key : Hoare Ok (perform (n + 1) st) (fun r => curlPost (n + 1) r.1) := by
      unfold perform
      refine h_free (fun st => h_ask st_ok (h_ret (fun _ h => h)) (h_bind (h_trouble (fun _ h => h.1)) (fun _ => ?_)))
      refine h_ask st_due (h_ret (fun _ h => h)) (h_bind (h_say_warn (at_of (by decide +kernel))) (fun _ => ?_))
      exact (ih st).2
    exact ⟨key, h_mono key (fun _ => warned_ok) (fun _ _ h => h)⟩

theorem h_increaseErr : Hoare Warned increaseErr (fun _ => Ok) := by
  unfold increaseErr
  rep

instance : Free judgeData := ⟨by unfold judgeData; rep⟩

instance (st : Req) : Free (judge st) := ⟨by
  unfold judge
  refine h_std (h_ask st_ok ?_ (h_quiet ?_ ?_)) ?_
  · rep
  · split <;> rep
  · exact h_bind (h_say_warn (at_of (by decide +kernel))) (fun _ => h_increaseErr)
  · rep⟩

instance : Free request := ⟨by
  unfold request
  refine h_quiet (h_bind (low_ok (low_of (by decide +kernel))) (fun _ => h_bind (h_perform 10 .started).1 (fun r => ?_))) ?_
  · obtain ⟨c, st⟩ := r
    cases c
    · exact free_post
    · exact h_bind (h_pre (fun _ h => h.1) (h_say_warn (at_of (by decide +kernel)))) (fun _ => h_increaseErr)
    · show Hoare Due _ _
      rep
  · rep⟩

instance : Std setUrl := ⟨by unfold setUrl; rep⟩
instance : Free httpGet := ⟨by unfold httpGet; rep⟩

/-! ### target.c, store.c -/

instance : Free targetAdd := ⟨by
  unfold targetAdd
  refine h_ask st_ok (h_ret (fun _ h => h)) (h_std (h_ret (fun _ h => h)) ?_)
  exact h_mono (warn_bad (at_of (by decide +kernel))) (fun _ h => h) (fun _ _ h => bad_ok h)⟩

instance : Free targetCheck := ⟨by unfold targetCheck; rep⟩
instance : Free targetGet := ⟨by unfold targetGet; rep⟩
instance : Std targetWrite := ⟨by unfold targetWrite; rep⟩

instance : Std targetNew := by
  have : Std (notNull "target.c" 96) := std_notNull (by decide +kernel)
  exact ⟨by unfold targetNew; rep⟩

instance : Std targetAsStore := ⟨by unfold targetAsStore; rep⟩

instance (s : Store) : Free (storeGet s) := ⟨by
  cases s
  · exact free_post (m := targetGet)
  · exact free_post (m := looped localGet)
  · exact free_post (m := httpGet)⟩

theorem h_subsGet (l : List (Store × Bool)) : Hoare Ok (subsGet l) (fun r s => Ok s ∧ (r.1 = false → Due s)) := by
  induction l with
  | nil =>
    unfold subsGet
    exact h_bind (h_trouble (fun _ h => h.1)) (fun _ => h_bind (h_say_warn (at_of (by decide +kernel))) (fun _ => h_ret (fun _ h => ⟨warned_ok h, fun _ => h.1⟩)))
  | cons x r ih =>
    obtain ⟨x, b⟩ := x
    have go : ∀ (b : Bool), Hoare Ok (subsGet r >>= fun y => (Pure.pure (y.1, (x, b) :: y.2) : P _)) (fun r s => Ok s ∧ (r.1 = false → Due s)) :=
      fun b => h_bind ih (fun y => h_ret (fun _ h => h))
    cases b
    · unfold subsGet
      exact go false
    · unfold subsGet
      refine h_free (fun g => ?_)
      cases g
      · exact h_bind (low_ok (low_of (by decide +kernel))) (fun _ => go false)
      · exact go true
      · exact h_bind (low_ok (low_of (by decide +kernel))) (fun _ => h_ret (fun _ h => ⟨h, fun h => by cases h⟩))

instance : Std chainNew := by
  have : Std (notNull "store.c" 89) := std_notNull (by decide +kernel)
  have : Std (notNull "store.c" 98) := std_notNull (by decide +kernel)
  exact ⟨by unfold chainNew; rep⟩

instance : Std chainAppend := by
  have : Std (notNull "store.c" 121) := std_notNull (by decide +kernel)
  exact ⟨by unfold chainAppend; rep⟩

instance (l : List (Store × Bool)) : Free (served l) := ⟨by
  induction l with
  | nil => exact h_ret (fun _ h => h)
  | cons x r ih => unfold served; exact h_bind (low_ok (low_of (by decide +kernel))) (fun _ => ih)⟩

instance (l : List (Store × Bool)) : Free (chainFree l) := ⟨by
  unfold chainFree
  exact h_bind (low_ok (low_of (by decide +kernel))) (fun _ => free_post)⟩

/-! ### main.c -/

theorem h_storeWrite (l : List (Store × Bool)) : Hoare Ok (storeWrite l) (fun r => post Bad r.1) := by
  unfold storeWrite
  rep

theorem h_storeChunk (l : Option (List (Store × Bool))) : Hoare Ok (storeChunk l) (fun r => post Bad r.1) := by
  unfold storeChunk
  cases l with
  | none => exact h_ub
  | some l =>
    refine h_ask st_ok (h_storeWrite l) (h_bind (h_subsGet l) (fun x => ?_))
    obtain ⟨b, y⟩ := x
    cases b
    · refine h_pre (p := Ok) (fun _ h => h.1) ?_
      show Hoare Ok (ask >>= _) _
      refine h_ask st_ok (h_storeWrite y) ?_
      rep
    · refine h_pre (p := Ok) (fun _ h => h.1) ?_
      show Hoare Ok (fine >>= _) _
      refine h_quiet (h_storeWrite y) ?_
      rep

theorem h_entryCb : CbOk entryCb := by
  intro x
  have go : ∀ l, Hoare Ok (storeChunk l >>= fun r => (Pure.pure (r.1, (some r.2, false)) : P (Bool × (Option (List (Store × Bool)) × Bool))))
      (fun r => post Due r.1) := fun l => h_bind (h_storeChunk l) (fun r => by
    obtain ⟨b, y⟩ := r
    cases b
    · exact h_ret (fun _ h => h.1)
    · exact h_ret (fun _ h => h))
  unfold entryCb
  split
  · refine h_quiet (h_freeb (h_ret (fun _ h => h)) (go _)) ?_
    rep
  · exact go _

instance (s : Store) : Std (makeStore s) := ⟨by cases s <;> (unfold makeStore; rep)⟩
instance (s : Store) : Std (appendStore s) := ⟨by unfold appendStore; rep⟩

/-- After the arguments: success, failure with an error or a usage text, exit with a usage text. -/
def beginPost : Begin → PS → Prop
  | .go _ => Ok
  | .fail => Due
  | .exit => Used

theorem h_csnStores (l : List Store) : ∀ subs, Hoare Ok (csnStores l subs) beginPost := by
  induction l with
  | nil => exact fun _ => h_ret (fun _ h => h)
  | cons s r ih =>
    intro subs
    unfold csnStores
    exact h_std (ih _) (h_ret (fun _ h => h.1))

theorem std_openAll {a b c d : Nat} (h : [a, b, c, d].all (fun n => isAt "main.c" n .err) = true) : Std (openAll a b c d) where
  h := by
    simp only [List.all_cons, List.all_nil, Bool.and_eq_true, Bool.and_true] at h
    unfold openAll
    refine h_quiet (h_quiet (h_std (h_std (h_ret (fun _ h => h)) ?_) ?_) ?_) ?_
    · exact h_bind (h_pre (fun _ h => h.1) (h_say_err (at_of h.2.2.2))) (fun _ => h_ret (fun _ h => h))
    · exact h_bind (h_pre (fun _ h => h.1) (h_say_err (at_of h.2.2.1))) (fun _ => h_ret (fun _ h => h))
    · exact h_bind (h_say_err (at_of h.2.1)) (fun _ => h_ret (fun _ h => h))
    · exact h_bind (h_say_err (at_of h.1)) (fun _ => h_ret (fun _ h => h))

theorem h_csnIndex (l : List Store) : Hoare Ok (csnIndex l) beginPost := by
  have : Std (openAll 144 149 156 162) := std_openAll (by decide +kernel)
  unfold csnIndex
  exact h_std (h_csnStores l []) (h_ret (fun _ h => h.1))

theorem h_csn (a : Option (List Store)) : Hoare Ok (csn a) beginPost := by
  unfold csn
  cases a with
  | none => exact h_bind (h_usage (fun _ h => h)) (fun _ => h_ret (fun _ h => used_due h))
  | some l =>
    refine h_ask st_ok (h_csnIndex l) (h_std ?_ ?_)
    · exact h_bind (low_ok (low_of (by decide +kernel))) (fun _ => h_csnIndex l)
    · exact h_bind (h_pre (fun _ h => h.1) (h_say_err (at_of (by decide +kernel)))) (fun _ => h_ret (fun _ h => h.1))

theorem h_casyncOpts (e : Bool) (l : List Opt) : ∀ subs, Hoare Ok (casyncOpts e l subs) beginPost := by
  induction l with
  | nil =>
    intro subs
    unfold casyncOpts
    split
    · exact h_ret (fun _ h => h)
    · exact h_bind (h_usage (fun _ h => h)) (fun _ => h_ret (fun _ h => h))
  | cons o r ih =>
    intro subs
    cases o with
    | help =>
      unfold casyncOpts
      exact h_bind (h_usage (fun _ h => h)) (fun _ => h_ret (fun _ h => h.1))
    | store s =>
      unfold casyncOpts
      exact h_std (ih _) (h_ret (fun _ h => h.1))
    | seedOutput => exact ih subs
    | unknown =>
      unfold casyncOpts
      exact h_bind (h_usage (fun _ h => h)) (fun _ => h_ret (fun _ h => h))

theorem h_casync (a : Option (List Opt × Bool)) : Hoare Ok (casync a) beginPost := by
  have : Std (openAll 212 217 224 231) := std_openAll (by decide +kernel)
  unfold casync
  cases a with
  | none => exact h_bind (h_usage (fun _ h => h)) (fun _ => h_ret (fun _ h => h))
  | some x => exact h_std (h_casyncOpts _ _ _) (h_ret (fun _ h => h.1))

theorem h_sync (l : Option (List (Store × Bool))) : Hoare Ok (sync l) (post Bad) := by
  have : Free (sayMaybe "main.c" 313) := free_sayMaybe (by decide +kernel)
  unfold sync
  refine h_bind (h_iterate h_entryCb _) (fun r => ?_)
  obtain ⟨b, y, z⟩ := r
  cases b
  · show Hoare Due _ _
    rep
  · refine h_free (fun _ => h_bind (low_ok (low_of (by decide +kernel))) (fun _ => h_free (fun _ => ?_)))
    cases y with
    | none => exact h_ub
    | some l => exact h_free (fun _ => h_ret (fun _ h => h))

theorem h_main₂ (b : Begin) : Hoare (beginPost b) (main₂ b) (post Fin) := by
  cases b with
  | exit => exact h_ret (fun _ h => used_fin h)
  | fail =>
    show Hoare Due (main₂ .fail) _
    unfold main₂
    rep
  | go l =>
    show Hoare Ok (main₂ (.go l)) _
    unfold main₂
    refine h_free (fun _ => h_bind (low_ok (low_of (by decide +kernel))) (fun _ => h_bind (low_ok (low_of (by decide +kernel))) (fun _ => ?_)))
    exact h_mono (h_sync l) (fun _ h => h) (fun b _ h => by cases b <;> first | exact bad_fin h | exact h)

instance : Free logInit := ⟨by
  unfold logInit
  exact h_quiet (h_ret (fun _ h => h)) (h_mono (h_say_warn (at_of (by decide +kernel))) (fun _ h => h) (fun _ _ h => warned_ok h))⟩

theorem h_main (a : Args) : Hoare Ok (main a) (post Fin) := by
  unfold main
  refine h_free (fun _ => h_free (fun _ => ?_))
  cases a with
  | csn l => exact h_bind (h_csn l) h_main₂
  | casync l => exact h_bind (h_casync l) h_main₂
  | other => rep

/-! ### csn-tool.c -/

instance : Std chunkId := ⟨by unfold chunkId; rep⟩
instance : Std outName := ⟨by unfold outName; rep⟩
instance : Std convertOut := ⟨by unfold convertOut; rep⟩
instance : Std convert := ⟨by unfold convert; rep⟩
instance : Std encryptOne := ⟨by unfold encryptOne; rep⟩

theorem h_fin {m : P Bool} [i : Std m] : Hoare Ok m (post Fin) :=
  h_mono i.h (fun _ h => h) (fun b _ h => by cases b <;> first | exact bad_fin h | exact h)

theorem h_doCrypt : Hoare Ok (doCrypt false) (post Fin) := by
  unfold doCrypt
  refine h_ask st_ok ?_ (h_std (h_std (h_fin (m := encryptOne)) ?_) ?_)
  all_goals rep

/-- After the list of names: without success all is reported; with success no message was printed without a cause. -/
def listPost : Bool → PS → Prop
  | true => fun s => AllKnown s.out ∧ (Loud s.out → Cause s)
  | false => Fin

theorem h_cryptLines (n : Nat) : Hoare Ok (cryptLines n) listPost := by
  induction n with
  | zero => exact h_killed
  | succ n ih =>
    unfold cryptLines
    refine h_quiet (h_ask st_ok (h_ret (fun _ h => ⟨h.1, h.2.2⟩)) (h_std ih (h_ret (fun _ h => bad_fin h)))) ?_
    exact h_ret (fun _ h => ⟨h.1, fun _ => h.2⟩)

theorem h_doList : Hoare Ok (doCrypt true) listPost := by
  unfold doCrypt
  refine h_ask st_ok ?_ (h_std (h_std (h_looped h_cryptLines) ?_) ?_)
  all_goals rep

theorem h_toolList : Hoare Ok (tool (.crypt true)) listPost := by
  unfold tool
  exact h_free (fun _ => h_doList)

theorem h_tool (a : ToolArgs) (h : a ≠ .crypt true) : Hoare Ok (tool a) (post Fin) := by
  unfold tool
  refine h_free (fun _ => ?_)
  cases a with
  | nothing => rep
  | help => rep
  | crypt l =>
    cases l
    · exact h_doCrypt
    · exact absurd rfl h
  | other => rep

/-! ### patchdd.c -/

instance : Std (looped patchLoop) := ⟨h_looped (fun n => by
  induction n with
  | zero => exact h_killed
  | succ n ih => unfold patchLoop; rep_with ih)⟩

instance : Std patchSizes := by
  have : Free (sayMaybe "patchdd.c" 60) := free_sayMaybe (by decide +kernel)
  exact ⟨by unfold patchSizes; rep⟩

theorem h_patchdd : Hoare Ok patchdd (post Fin) := by
  have : Std (checked "patchdd.c" 50 fdSize) := std_checked (by decide +kernel) _
  have : Std (checked "patchdd.c" 51 fdSize) := std_checked (by decide +kernel) _
  unfold patchdd
  refine h_free (fun _ => h_ask st_ok ?_ (h_quiet (h_quiet (h_std (h_std h_fin ?_) ?_) ?_) ?_))
  all_goals rep

end Csn.Rep
