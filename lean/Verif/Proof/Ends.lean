import Verif.Proof.Steady
/-
Every computation needs a bounded number of system calls, whatever their results.
-/
namespace Csn.Proof
open Csn Spec

/-- A bounded number of system calls suffices, and there are finitely many outcomes, all satisfying `G`. -/
def Fin {β : Type} (G : β → Prop) (run : List Sys → β × List Sys) : Prop :=
  ∃ (N : Nat) (Rs : List β), (∀ b ∈ Rs, G b) ∧ ∀ sys, N ≤ calls sys → (run sys).1 ∈ Rs ∧ calls sys ≤ calls (run sys).2 + N

theorem fin_const {β : Type} {G : β → Prop} {run : List Sys → β × List Sys} {b : β} (hb : G b) (h : ∀ sys, run sys = (b, sys)) : Fin G run :=
  ⟨0, [b], by simpa using hb, fun sys _ => by rw [h]; exact ⟨List.mem_singleton_self _, Nat.le_refl _⟩⟩

theorem fin_join {β γ : Type} {G : β → Prop} {run : γ → List Sys → β × List Sys} : ∀ (L : List γ), (∀ x ∈ L, Fin G (run x)) →
    ∃ (N : Nat) (Rs : List β), (∀ b ∈ Rs, G b) ∧ ∀ x ∈ L, ∀ sys, N ≤ calls sys → (run x sys).1 ∈ Rs ∧ calls sys ≤ calls (run x sys).2 + N
  | [], _ => ⟨0, [], by simp⟩
  | y :: L, h => by
    obtain ⟨N, Rs, k1, h1⟩ := h y List.mem_cons_self
    obtain ⟨N', Rs', k2, h2⟩ := fin_join L (fun x hx => h x (List.mem_cons_of_mem _ hx))
    refine ⟨max N N', Rs ++ Rs', fun b hb => (List.mem_append.1 hb).elim (k1 b) (k2 b), fun x hx sys hs => ?_⟩
    rcases List.mem_cons.1 hx with rfl | hx
    · obtain ⟨g1, g2⟩ := h1 sys (by omega)
      exact ⟨List.mem_append.2 (Or.inl g1), by omega⟩
    · obtain ⟨g1, g2⟩ := h2 x hx sys (by omega)
      exact ⟨List.mem_append.2 (Or.inr g1), by omega⟩

/-- One system call, again if interrupted, and one of finitely many continuations. -/
theorem fin_step {β : Type} {G : β → Prop} {run : List Sys → β × List Sys} (nexts : List (List Sys → β × List Sys)) (hn : ∀ g ∈ nexts, Fin G g)
    (he : ∀ r, run (.eintr :: r) = run r) (ho : ∀ x r, x ≠ .eintr → ∃ g ∈ nexts, run (x :: r) = g r) : Fin G run := by
  obtain ⟨N, Rs, hG, h⟩ := fin_join (run := fun g => g) nexts hn
  refine ⟨N + 1, Rs, hG, fun sys => ?_⟩
  induction sys with
  | nil => intro h; simp [calls] at h
  | cons x r ih =>
    intro hs
    by_cases hx : x = .eintr
    · subst hx
      rw [he]
      exact ih hs
    · have hc : calls (x :: r) = calls r + 1 := by cases x <;> first | rfl | exact absurd rfl hx
      obtain ⟨g, hg, e⟩ := ho x r hx
      obtain ⟨g1, g2⟩ := h g hg r (by omega)
      rw [e]
      exact ⟨g1, by omega⟩

theorem fin_map {β γ : Type} {G : β → Prop} {G' : γ → Prop} {run : List Sys → β × List Sys} (h : Fin G run) (g : β → γ) (hg : ∀ b, G b → G' (g b)) :
    Fin G' (fun sys => (g (run sys).1, (run sys).2)) := by
  obtain ⟨N, Rs, hG, h⟩ := h
  refine ⟨N, Rs.map g, fun b hb => ?_, fun sys hs => ⟨List.mem_map.2 ⟨_, (h sys hs).1, rfl⟩, (h sys hs).2⟩⟩
  obtain ⟨x, hx, rfl⟩ := List.mem_map.1 hb
  exact hg x (hG x hx)

/-- Result, world without the system calls to come, and the system calls to come. -/
def outcome {α : Type} (m : M α) (w : World) (sys : List Sys) : (Res α × World) × List Sys :=
  (((m { w with sys := sys }).1, { (m { w with sys := sys }).2 with sys := [] }), (m { w with sys := sys }).2.sys)

/-- Not killed, except while waiting for the network, and this only if `g`. -/
def NetKill (g : Prop) {α : Type} (R : Res α × World) : Prop := R.1 = .stop .killed → g ∧ R.2.net = []

/-- From every state a bounded number of system calls suffices. -/
def Ends (g : Prop) {α : Type} (m : M α) : Prop := ∀ w, Fin (NetKill g) (outcome m w)

variable {g : Prop}

theorem Ends.plain {α : Type} {m : M α} (h : ∀ w sys, outcome m w sys = ((outcome m w []).1, sys)) (hk : ∀ w, NetKill g (outcome m w []).1) : Ends g m :=
  fun w => fin_const (hk w) (h w)

theorem outcome_bind {α β : Type} (m : M α) (f : α → M β) (w : World) (sys : List Sys) :
    outcome (m >>= f) w sys = (match outcome m w sys with
      | ((.ok a, w1), r) => outcome (f a) w1 r
      | ((.stop s, w1), r) => ((.stop s, w1), r)) := by
  have hb : (m >>= f) { w with sys := sys } = (match m { w with sys := sys } with
      | (.ok a, w2) => f a w2
      | (.stop s, w2) => (.stop s, w2)) := rfl
  unfold outcome
  rw [hb]
  generalize m { w with sys := sys } = r
  obtain ⟨res, w1⟩ := r
  cases res <;> rfl

theorem Ends.bind {α β : Type} (m : M α) (f : α → M β) (hm : Ends g m) (hf : ∀ a, Ends g (f a)) : Ends g (m >>= f) := by
  intro w
  obtain ⟨N, Rs, hG, h1⟩ := hm w
  have hj : ∀ x ∈ Rs, Fin (NetKill g) (fun sys => (match x with
      | (.ok a, w1) => outcome (f a) w1 sys
      | (.stop s, w1) => ((.stop s, w1), sys) : (Res β × World) × List Sys)) := by
    intro x hx
    have hx := hG x hx
    obtain ⟨res, w1⟩ := x
    cases res with
    | ok a => exact hf a w1
    | stop s => exact fin_const (b := (.stop s, w1)) (fun e => hx (by cases e; rfl)) (fun _ => rfl)
  obtain ⟨N', Rs', hG', h2⟩ := fin_join Rs hj
  refine ⟨N + N', Rs', hG', fun sys hs => ?_⟩
  obtain ⟨g1, g2⟩ := h1 sys (by omega)
  obtain ⟨k1, k2⟩ := h2 _ g1 (outcome m w sys).2 (by omega)
  have e : outcome (m >>= f) w sys = (match (outcome m w sys).1 with
      | (.ok a, w1) => outcome (f a) w1 (outcome m w sys).2
      | (.stop s, w1) => ((.stop s, w1), (outcome m w sys).2)) := by
    rw [outcome_bind]
    generalize outcome m w sys = r
    obtain ⟨⟨res, w1⟩, r⟩ := r
    cases res <;> rfl
  rw [e]
  exact ⟨k1, by omega⟩

theorem Ends.pure {α : Type} (a : α) : Ends g (Pure.pure a : M α) := Ends.plain (fun _ _ => rfl) (fun _ h => by cases h)

theorem Ends.stop {α : Type} (s : Stop) (h : s ≠ .killed) : Ends g (M.stop s : M α) :=
  Ends.plain (fun _ _ => rfl) (fun _ e => absurd (by cases e; rfl) h)

theorem sysOk_eq (w : World) : M.sysOk w = (match w.sys with
      | [] => (.stop .killed, w)
      | s :: r => ((match s with | .err => .ok false | _ => .ok true), { w with sys := r })) := by
  show M.bind M.sysNext _ w = _
  unfold M.bind M.sysNext
  cases hw : w.sys with
  | nil => rfl
  | cons x r => cases x <;> rfl

theorem Ends.sysOk : Ends g M.sysOk := by
  intro w
  refine ⟨1, [(.ok true, { w with sys := [] }), (.ok false, { w with sys := [] })], by simp [NetKill], fun sys hs => ?_⟩
  unfold outcome
  rw [sysOk_eq]
  cases sys with
  | nil => simp [calls] at hs
  | cons x r => cases x <;> simp [calls]

theorem Ends.net (url : Bytes) : Ends True (netNext url) := by
  refine Ends.plain (fun w sys => ?_) (fun w => ?_)
  · unfold outcome netNext
    simp only
    cases w.net <;> rfl
  · unfold outcome netNext NetKill
    simp only
    cases w.net with
    | nil => intro _; exact ⟨trivial, rfl⟩
    | cons f n => intro h; cases h

theorem Ends.openPath (p : Bytes) : Ends g (openPath p) := by
  unfold Csn.openPath
  refine Ends.bind _ _ Ends.sysOk (fun a => ?_)
  cases a
  · exact Ends.pure _
  · exact Ends.plain (fun _ _ => rfl) (fun _ h => by cases h)

theorem Ends.fdSize (i : Nat) : Ends g (fdSize i) := by
  rw [fdSize_eq]
  refine Ends.bind _ _ Ends.sysOk (fun a => ?_)
  cases a
  · exact Ends.pure _
  · exact Ends.plain (fun _ _ => rfl) (fun _ h => by cases h)

/-- As `indexInsertPure`, which is never killed. -/
theorem indexInsertPure_not_killed (idx : Index) (off len : Nat) (id : Id) (mem : List Bool) : (indexInsertPure idx off len id mem).1 ≠ .stop .killed := by
  unfold indexInsertPure
  split
  · simp
  · split
    · simp
    · split <;> simp

theorem Ends.insert (idx : Index) (off len : Nat) (id : Id) : Ends g (indexInsert idx off len id) := by
  refine Ends.plain (fun w sys => ?_) (fun w h => ?_)
  · unfold outcome
    simp only [indexInsert_shape]
  · unfold outcome at h
    simp only [indexInsert_shape] at h
    have := indexInsertPure_not_killed idx off len id w.mem
    generalize (indexInsertPure idx off len id w.mem).1 = r at h this
    cases r with
    | ok => cases h
    | stop s => simp only [Res.stop.injEq] at h; subst h; exact absurd rfl this

theorem Ends.accessOk (p : Bytes) : Ends g (accessOk p) := by
  unfold Csn.accessOk
  refine Ends.bind _ _ Ends.sysOk (fun a => ?_)
  cases a
  · exact Ends.pure _
  · exact Ends.plain (fun _ _ => rfl) (fun _ h => by cases h)

theorem Ends.creat (p : Bytes) : Ends g (creat p) := by
  refine Ends.plain (fun w sys => ?_) (fun w h => ?_)
  · unfold outcome Csn.creat
    simp only
    cases w.dir p <;> rfl
  · unfold outcome Csn.creat at h
    simp only at h
    cases hd : w.dir p <;> simp [hd] at h

theorem readLoop_fin (f : Bytes) (off len : Nat) : ∀ (n : Nat) (got : Bytes), len - got.length ≤ n →
    Fin (fun b => b.1 ≠ .stop .killed) (fun sys => (((readLoop f off len got sys).1, (readLoop f off len got sys).2.1), (readLoop f off len got sys).2.2)) := by
  intro n
  induction n with
  | zero =>
    intro got hn
    refine fin_const (b := (.ok, got)) (by simp) (fun sys => ?_)
    cases sys <;> (unfold readLoop; rw [if_neg (by omega)])
  | succ n ih =>
    intro got hn
    by_cases h : got.length < len
    · refine fin_step ((fun r => ((.fail, got), r)) :: (List.range (len + 1)).map (fun j r =>
          if ((f.drop (off + got.length)).take j).isEmpty then ((.fail, got), r)
          else (((readLoop f off len (got ++ (f.drop (off + got.length)).take j) r).1, (readLoop f off len (got ++ (f.drop (off + got.length)).take j) r).2.1),
            (readLoop f off len (got ++ (f.drop (off + got.length)).take j) r).2.2))) ?_ ?_ ?_
      · intro g hg
        rcases List.mem_cons.1 hg with rfl | hg
        · exact fin_const (by simp) (fun _ => rfl)
        · obtain ⟨j, _, rfl⟩ := List.mem_map.1 hg
          by_cases he : ((f.drop (off + got.length)).take j).isEmpty = true
          · simp only [if_pos he]
            exact fin_const (by simp) (fun _ => rfl)
          · simp only [if_neg he]
            refine ih _ ?_
            have : ((f.drop (off + got.length)).take j).length ≠ 0 := by
              intro h0; exact he (List.isEmpty_iff.2 (List.length_eq_zero_iff.1 h0))
            rw [List.length_append]
            omega
      · intro r
        conv => lhs; unfold readLoop
        simp only [if_pos h]
      · intro x r hx
        cases x with
        | eintr => exact absurd rfl hx
        | err => exact ⟨_, List.mem_cons_self, by unfold readLoop; simp only [if_pos h]⟩
        | zero => exact ⟨_, List.mem_cons_self, by unfold readLoop; simp only [if_pos h]⟩
        | some k =>
          by_cases ho : off + len ≥ 2 ^ 63
          · exact ⟨_, List.mem_cons_self, by unfold readLoop; simp only [if_pos h, if_pos ho]⟩
          · refine ⟨_, List.mem_cons_of_mem _ (List.mem_map.2 ⟨min (k + 1) (len - got.length), List.mem_range.2 (by omega), rfl⟩), ?_⟩
            conv => lhs; unfold readLoop
            simp only [if_pos h, if_neg ho]
            split <;> rfl
    · refine fin_const (b := (.ok, got)) (by simp) (fun sys => ?_)
      cases sys <;> (unfold readLoop; rw [if_neg h])

theorem Ends.preadall (i o n : Nat) : Ends g (preadall i o n) := by
  intro w
  have h := fin_map (readLoop_fin (w.data i) o n n [] (by simp))
    (fun b => ((match b.1 with | .ok => .ok (true, b.2) | .fail => .ok (false, b.2) | .stop s => .stop s : Res (Bool × Bytes)), ({ w with sys := [] } : World)))
    (fun b hb => by obtain ⟨b1, b2⟩ := b; cases b1 <;> simp [NetKill] at hb ⊢; exact fun h => absurd h hb) (G' := NetKill g)
  have e : outcome (Csn.preadall i o n) w = (fun sys => (((match (readLoop (w.data i) o n [] sys).1 with
      | .ok => .ok (true, (readLoop (w.data i) o n [] sys).2.1) | .fail => .ok (false, (readLoop (w.data i) o n [] sys).2.1) | .stop s => .stop s : Res (Bool × Bytes)),
        ({ w with sys := [] } : World)), (readLoop (w.data i) o n [] sys).2.2)) := by
    funext sys
    unfold outcome Csn.preadall
    simp only
    generalize readLoop (w.data i) o n [] sys = r
    obtain ⟨r1, r2, r3⟩ := r
    cases r1 <;> rfl
  rw [e]
  exact h

theorem writeLoop_fin (blk : Bool) (off : Nat) (d : Bytes) : ∀ (n : Nat) (done : Nat) (f : Bytes) (evs : List (Nat × Bytes)), d.length - done ≤ n →
    Fin (fun b => b.1 ≠ .stop .killed) (fun sys => (((writeLoop blk off d done f evs sys).1, (writeLoop blk off d done f evs sys).2.1, (writeLoop blk off d done f evs sys).2.2.1),
      (writeLoop blk off d done f evs sys).2.2.2)) := by
  intro n
  induction n with
  | zero =>
    intro done f evs hn
    refine fin_const (b := (.ok, f, evs)) (by simp) (fun sys => ?_)
    cases sys <;> (unfold writeLoop; rw [if_neg (by omega)])
  | succ n ih =>
    intro done f evs hn
    by_cases h : done < d.length
    · refine fin_step ((fun r => ((.fail, f, evs), r)) :: (fun r => ((.stop .abort, f, evs), r)) :: (List.range (d.length + 1)).map (fun j r =>
          if j = 0 then ((.fail, f, evs), r)
          else (((writeLoop blk off d (done + j) (writeAt f (off + done) ((d.drop done).take j)) (evs ++ [(off + done, (d.drop done).take j)]) r).1,
            (writeLoop blk off d (done + j) (writeAt f (off + done) ((d.drop done).take j)) (evs ++ [(off + done, (d.drop done).take j)]) r).2.1,
            (writeLoop blk off d (done + j) (writeAt f (off + done) ((d.drop done).take j)) (evs ++ [(off + done, (d.drop done).take j)]) r).2.2.1),
            (writeLoop blk off d (done + j) (writeAt f (off + done) ((d.drop done).take j)) (evs ++ [(off + done, (d.drop done).take j)]) r).2.2.2))) ?_ ?_ ?_
      · intro g hg
        rcases List.mem_cons.1 hg with rfl | hg
        · exact fin_const (by simp) (fun _ => rfl)
        rcases List.mem_cons.1 hg with rfl | hg
        · exact fin_const (by simp) (fun _ => rfl)
        · obtain ⟨j, _, rfl⟩ := List.mem_map.1 hg
          by_cases he : j = 0
          · simp only [if_pos he]
            exact fin_const (by simp) (fun _ => rfl)
          · simp only [if_neg he]
            exact ih _ _ _ (by omega)
      · intro r
        conv => lhs; unfold writeLoop
        simp only [if_pos h]
      · intro x r hx
        cases x with
        | eintr => exact absurd rfl hx
        | err => exact ⟨_, List.mem_cons_self, by unfold writeLoop; simp only [if_pos h]⟩
        | zero => exact ⟨_, List.mem_cons_of_mem _ List.mem_cons_self, by unfold writeLoop; simp only [if_pos h]⟩
        | some k =>
          by_cases ho : off + d.length ≥ 2 ^ 63
          · exact ⟨_, List.mem_cons_self, by unfold writeLoop; simp only [if_pos h, if_pos ho]⟩
          · refine ⟨_, List.mem_cons_of_mem _ (List.mem_cons_of_mem _ (List.mem_map.2
              ⟨min (min (k + 1) (d.length - done)) (if blk = true then f.length - (off + done) else d.length), List.mem_range.2 (by omega), rfl⟩)), ?_⟩
            conv => lhs; unfold writeLoop
            simp only [if_pos h, if_neg ho]
            generalize min (min (k + 1) (d.length - done)) (if blk = true then f.length - (off + done) else d.length) = n
            by_cases hn0 : n = 0
            · simp only [if_pos hn0]
            · simp only [if_neg hn0]
    · refine fin_const (b := (.ok, f, evs)) (by simp) (fun sys => ?_)
      cases sys <;> (unfold writeLoop; rw [if_neg h])

theorem Ends.pwriteall (i : Nat) (d : Bytes) (o : Nat) : Ends g (pwriteall i d o) := by
  intro w
  have h := fin_map (writeLoop_fin (decide (w.kind i = .blk)) o d d.length 0 (w.data i) [] (by simp))
    (fun b => (ioOut b.1, ({ w with
      data := fun j => if j = i then b.2.1 else w.data j
      sys := []
      log := w.log ++ b.2.2.map (fun e => Event.write i e.1 e.2) } : World)))
    (fun b hb => by obtain ⟨b1, b2⟩ := b; cases b1 <;> simp [NetKill, ioOut] at hb ⊢; exact fun h => absurd h hb) (G' := NetKill g)
  have e : outcome (Csn.pwriteall i d o) w = (fun sys => ((ioOut (writeLoop (decide (w.kind i = .blk)) o d 0 (w.data i) [] sys).1, ({ w with
      data := fun j => if j = i then (writeLoop (decide (w.kind i = .blk)) o d 0 (w.data i) [] sys).2.1 else w.data j
      sys := []
      log := w.log ++ (writeLoop (decide (w.kind i = .blk)) o d 0 (w.data i) [] sys).2.2.1.map (fun e => Event.write i e.1 e.2) } : World)),
      (writeLoop (decide (w.kind i = .blk)) o d 0 (w.data i) [] sys).2.2.2)) := by
    funext sys
    unfold outcome Csn.pwriteall
    simp only
    generalize writeLoop (decide (w.kind i = .blk)) o d 0 (w.data i) [] sys = r
    obtain ⟨r1, r2, r3, r4⟩ := r
    cases r1 <;> rfl
  rw [e]
  exact h

theorem shallBreak_not_killed (p : Params) (d : Nat) (c : Chunker) : shallBreak p d c ≠ .stop .killed := by
  unfold shallBreak
  split
  · simp
  · split
    · simp
    · simp only
      split <;> split <;> simp

theorem rollLoop_not_killed (p : Params) (d : Nat) : ∀ (b : Bytes) (c : Chunker) (idx n : Nat) (seen : Bytes), rollLoop p d c idx n seen b ≠ .stop .killed
  | [], c, idx, n, seen => by simp [rollLoop]
  | x :: b, c, idx, n, seen => by
    unfold rollLoop
    simp only
    split
    · rename_i s h
      intro e
      cases e
      exact shallBreak_not_killed _ _ _ h
    · simp
    · exact rollLoop_not_killed p d b _ _ _ _

theorem scanTail_not_killed (p : Params) (d : Nat) (c : Chunker) (n : Nat) (b : Bytes) : scanTail p d c n b ≠ .stop .killed := by
  unfold scanTail
  split
  · rename_i s h
    intro e
    cases e
    exact shallBreak_not_killed _ _ _ h
  · simp
  · exact rollLoop_not_killed _ _ _ _ _ _ _

theorem chunkerScan_not_killed (p : Params) (d : Nat) (c : Chunker) (b : Bytes) : chunkerScan p d c b ≠ .stop .killed := by
  unfold chunkerScan
  split
  · simp only
    split
    · simp
    · exact scanTail_not_killed _ _ _ _ _
  · exact scanTail_not_killed _ _ _ _ _

theorem scanBuf_not_killed {σ : Type} (H : Bytes → Id) (p : Params) (d : Nat) {cb : σ → Seg → CbRes σ} (hcb : ∀ s g s', cb s g ≠ .stop .killed s') :
    ∀ (n : Nat) (c : Chunker) (offset last : Nat) (s : σ) (buf : Bytes), (scanBuf H p d cb n c offset last s buf).1 ≠ .stop .killed
  | 0, c, offset, last, s, buf => by
    unfold scanBuf
    split <;> simp
  | n + 1, c, offset, last, s, buf => by
    unfold scanBuf
    split
    · simp
    · simp only
      split
      · rename_i x h
        intro e
        simp only [ScanRes.stop.injEq] at e
        subst e
        exact chunkerScan_not_killed _ _ _ _ h
      · simp
      · split
        · rename_i x s' h
          intro e
          simp only [ScanRes.stop.injEq] at e
          subst e
          exact hcb _ _ _ h
        · simp
        · exact scanBuf_not_killed H p d hcb n _ _ _ _ _

theorem scanLoop_fin {σ : Type} (H : Bytes → Id) (p : Params) (d bufsiz : Nat) {cb : σ → Seg → CbRes σ} (hcb : ∀ s g s', cb s g ≠ .stop .killed s') (f : Bytes) :
    ∀ (n : Nat) (c : Chunker) (pos offset last : Nat) (s : σ), f.length - pos ≤ n →
    Fin (fun b => b.1 ≠ .stop .killed) (fun sys => (((scanLoop H p d bufsiz cb f c pos offset last s sys).1, (scanLoop H p d bufsiz cb f c pos offset last s sys).2.1),
      (scanLoop H p d bufsiz cb f c pos offset last s sys).2.2)) := by
  intro n
  induction n with
  | zero =>
    intro c pos offset last s hn
    have hd : f.drop pos = [] := List.drop_eq_nil_of_le (by omega)
    generalize hE : (if offset ≠ last then
        match cb s ⟨last, (offset - last) % 2 ^ 32, H c.sha⟩ with
        | .stop y s' => (.stop y, s')
        | .fail s' => (.fail, s')
        | .ok s' => (.ok, s')
      else (.ok, s) : ScanRes × σ) = E
    have hEk : E.1 ≠ .stop .killed := by
      rw [← hE]
      split
      · split
        · rename_i y s' h
          intro e
          simp only [ScanRes.stop.injEq] at e
          subst e
          exact hcb _ _ _ h
        · simp
        · simp
      · simp
    have hempty : ∀ x r, x ≠ .eintr → x ≠ .err → scanLoop H p d bufsiz cb f c pos offset last s (x :: r) = (E.1, E.2, r) := by
      intro x r h1 h2
      unfold scanLoop
      rw [hd, ← hE]
      cases x with
      | eintr => exact absurd rfl h1
      | err => exact absurd rfl h2
      | zero =>
        simp only [List.isEmpty_nil, if_true]
        split
        · cases cb s ⟨last, (offset - last) % 2 ^ 32, H c.sha⟩ <;> rfl
        · rfl
      | some k =>
        simp only [List.take_nil, List.isEmpty_nil, if_true]
        split
        · cases cb s ⟨last, (offset - last) % 2 ^ 32, H c.sha⟩ <;> rfl
        · rfl
    refine fin_step [fun r => ((.fail, s), r), fun r => (E, r)] ?_ ?_ ?_
    · intro g hg
      simp only [List.mem_cons, List.not_mem_nil, or_false] at hg
      rcases hg with rfl | rfl
      · exact fin_const (by simp) (fun _ => rfl)
      · exact fin_const hEk (fun _ => rfl)
    · intro r
      conv => lhs; unfold scanLoop
    · intro x r hx
      by_cases he : x = .err
      · subst he
        exact ⟨_, List.mem_cons_self, by unfold scanLoop; rfl⟩
      · refine ⟨_, List.mem_cons_of_mem _ List.mem_cons_self, ?_⟩
        rw [hempty x r hx he]
  | succ n ih =>
    intro c pos offset last s hn
    generalize hE : (if offset ≠ last then
        match cb s ⟨last, (offset - last) % 2 ^ 32, H c.sha⟩ with
        | .stop y s' => (.stop y, s')
        | .fail s' => (.fail, s')
        | .ok s' => (.ok, s')
      else (.ok, s) : ScanRes × σ) = E
    have hEk : E.1 ≠ .stop .killed := by
      rw [← hE]
      split
      · split
        · rename_i y s' h
          intro e
          simp only [ScanRes.stop.injEq] at e
          subst e
          exact hcb _ _ _ h
        · simp
        · simp
      · simp
    refine fin_step ((fun r => ((.fail, s), r)) :: (fun r => (E, r)) :: (List.range (bufsiz + 1)).map (fun j r =>
        if ((f.drop pos).take j).isEmpty then (E, r)
        else match scanBuf H p d cb ((f.drop pos).take j).length c offset last s ((f.drop pos).take j) with
          | (.stop y, _, _, _, s') => ((.stop y, s'), r)
          | (.fail, _, _, _, s') => ((.fail, s'), r)
          | (.ok, c', o, l, s') => (((scanLoop H p d bufsiz cb f c' (pos + ((f.drop pos).take j).length) o l s' r).1,
              (scanLoop H p d bufsiz cb f c' (pos + ((f.drop pos).take j).length) o l s' r).2.1),
              (scanLoop H p d bufsiz cb f c' (pos + ((f.drop pos).take j).length) o l s' r).2.2))) ?_ ?_ ?_
    · intro g hg
      rcases List.mem_cons.1 hg with rfl | hg
      · exact fin_const (by simp) (fun _ => rfl)
      rcases List.mem_cons.1 hg with rfl | hg
      · exact fin_const hEk (fun _ => rfl)
      obtain ⟨j, _, rfl⟩ := List.mem_map.1 hg
      by_cases he : ((f.drop pos).take j).isEmpty = true
      · simp only [if_pos he]
        exact fin_const hEk (fun _ => rfl)
      · simp only [if_neg he]
        have hl : ((f.drop pos).take j).length ≠ 0 := by
          intro h0; exact he (List.isEmpty_iff.2 (List.length_eq_zero_iff.1 h0))
        have hk := scanBuf_not_killed H p d hcb ((f.drop pos).take j).length c offset last s ((f.drop pos).take j)
        generalize scanBuf H p d cb ((f.drop pos).take j).length c offset last s ((f.drop pos).take j) = R at hk
        obtain ⟨res, c', o, l, s'⟩ := R
        cases res with
        | stop y => exact fin_const (b := (.stop y, s')) hk (fun _ => rfl)
        | fail => exact fin_const (b := (.fail, s')) (by simp) (fun _ => rfl)
        | ok => exact ih _ _ _ _ _ (by omega)
    · intro r
      conv => lhs; unfold scanLoop
    · intro x r hx
      cases x with
      | eintr => exact absurd rfl hx
      | err => exact ⟨_, List.mem_cons_self, by unfold scanLoop; rfl⟩
      | zero =>
        refine ⟨_, List.mem_cons_of_mem _ List.mem_cons_self, ?_⟩
        unfold scanLoop
        rw [← hE]
        simp only [List.isEmpty_nil, if_true]
        split
        · cases cb s ⟨last, (offset - last) % 2 ^ 32, H c.sha⟩ <;> rfl
        · rfl
      | some k =>
        refine ⟨_, List.mem_cons_of_mem _ (List.mem_cons_of_mem _ (List.mem_map.2 ⟨min (k + 1) bufsiz, List.mem_range.2 (by omega), rfl⟩)), ?_⟩
        conv => lhs; unfold scanLoop
        simp only
        by_cases he : ((f.drop pos).take (min (k + 1) bufsiz)).isEmpty = true
        · simp only [if_pos he]
          rw [← hE]
          split
          · cases cb s ⟨last, (offset - last) % 2 ^ 32, H c.sha⟩ <;> rfl
          · rfl
        · simp only [if_neg he]
          generalize scanBuf H p d cb ((f.drop pos).take (min (k + 1) bufsiz)).length c offset last s ((f.drop pos).take (min (k + 1) bufsiz)) = R
          obtain ⟨res, c', o, l, s'⟩ := R
          cases res <;> rfl

theorem scanFd_fin {σ : Type} (H : Bytes → Id) (disc : Nat → Option Nat) (bufsiz : Nat) (p : Params) {cb : σ → Seg → CbRes σ}
    (hcb : ∀ s g s', cb s g ≠ .stop .killed s') (f : Bytes) (s : σ) :
    Fin (fun b => b.1 ≠ .stop .killed) (fun sys => (((scanFd H disc bufsiz p cb f s sys).1, (scanFd H disc bufsiz p cb f s sys).2.1), (scanFd H disc bufsiz p cb f s sys).2.2)) := by
  cases hd : disc p.avg with
  | none => exact fin_const (b := (.stop .ub, s)) (by simp) (fun sys => by unfold scanFd; rw [hd])
  | some d =>
    obtain ⟨N, Rs, hG, h⟩ := scanLoop_fin H p d bufsiz hcb f f.length Chunker.init 0 0 0 s (by omega)
    refine ⟨N + 1, (.fail, s) :: Rs, ?_, fun sys hs => ?_⟩
    · intro b hb
      rcases List.mem_cons.1 hb with rfl | hb
      · simp
      · exact hG b hb
    · unfold scanFd
      rw [hd]
      cases sys with
      | nil => simp [calls] at hs
      | cons x r =>
        have hc : calls r ≤ calls (x :: r) ∧ calls (x :: r) ≤ calls r + 1 := by cases x <;> simp [calls]
        obtain ⟨g1, g2⟩ := h r (by omega)
        cases x with
        | err => exact ⟨List.mem_cons_self, by simp only; omega⟩
        | zero => exact ⟨List.mem_cons_of_mem _ g1, by simp only at g2 ⊢; omega⟩
        | eintr => exact ⟨List.mem_cons_of_mem _ g1, by simp only at g2 ⊢; omega⟩
        | some k => exact ⟨List.mem_cons_of_mem _ g1, by simp only at g2 ⊢; omega⟩

theorem storeInsertScan_not_killed (v : Bool) (s : Index × List Bool) (g : Seg) (s' : Index × List Bool) : storeInsertScan v s g ≠ .stop .killed s' := by
  unfold storeInsertScan
  have h := indexInsertPure_not_killed s.1 g.off g.len g.id s.2
  split
  · rename_i x idx mem e
    rw [e] at h
    intro e'
    simp only [CbRes.stop.injEq] at e'
    rw [e'.1] at h
    exact h rfl
  · simp
  · simp

theorem Ends.scanInto (env : LEnv) (l : Loc) (idx : Index) : Ends g (scanInto env l idx) := by
  intro w
  have h := fin_map (G' := NetKill g) (scanFd_fin env.H env.disc env.bufsiz l.p (storeInsertScan_not_killed true) (w.data l.ino) (idx, w.mem))
    (fun b => (scanOut b.2.1 b.1, ({ w with sys := [], mem := b.2.2 } : World)))
    (fun b hb => by obtain ⟨b1, b2⟩ := b; cases b1 <;> simp [NetKill, scanOut] at hb ⊢; exact fun h => absurd h hb)
  have e : outcome (Csn.scanInto env l idx) w = (fun sys => ((scanOut (scanFd env.H env.disc env.bufsiz l.p (storeInsertScan true) (w.data l.ino) (idx, w.mem) sys).2.1.1
        (scanFd env.H env.disc env.bufsiz l.p (storeInsertScan true) (w.data l.ino) (idx, w.mem) sys).1,
      ({ w with sys := [], mem := (scanFd env.H env.disc env.bufsiz l.p (storeInsertScan true) (w.data l.ino) (idx, w.mem) sys).2.1.2 } : World)),
      (scanFd env.H env.disc env.bufsiz l.p (storeInsertScan true) (w.data l.ino) (idx, w.mem) sys).2.2)) := by
    funext sys
    unfold outcome Csn.scanInto
    simp only
    generalize scanFd env.H env.disc env.bufsiz l.p (storeInsertScan true) (w.data l.ino) (idx, w.mem) sys = r
    obtain ⟨r1, ⟨r2, r2'⟩, r3⟩ := r
    cases r1 <;> rfl
  rw [e]
  exact h

/-- All programs come to an end after a bounded number of system calls. -/
theorem ends_closedA : ClosedA True (Ends g) where
  pure := Ends.pure
  bind := Ends.bind
  alloc := fun n => Ends.plain (fun _ _ => rfl) (fun _ h => by cases h)
  sysOk := Ends.sysOk
  openPath := Ends.openPath
  fdSize := Ends.fdSize
  preadall := Ends.preadall
  pwriteall := fun _ => Ends.pwriteall

theorem ends_closedT : ClosedT True (Ends g) where
  toClosedA := ends_closedA
  accessOk := Ends.accessOk
  creat := Ends.creat

theorem ends_closedB : ClosedB True (Ends g) where
  toClosedA := ends_closedA
  stop := fun s h _ => Ends.stop s h
  emit := fun e _ _ _ => Ends.plain (fun _ _ => rfl) (fun _ h => by cases h)

theorem ends_netOps : NetOps (Ends True) := fun _ _ => Ends.plain (fun _ _ => rfl) (fun _ h => by cases h)

theorem ends_closed0 (env : LEnv) : Closed0 True env (Ends True) where
  toClosedB := ends_closedB
  insert := Ends.insert
  scanInto := Ends.scanInto env
  net := Ends.net

theorem ends_closed (env : LEnv) : Closed True env (Ends True) where
  toClosed0 := ends_closed0 env
  localGet := (ends_closed0 env).localGet (Ends.stop _ (by simp)) 2

end Csn.Proof
