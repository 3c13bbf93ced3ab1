import Verif.Proof.Ends
/-
The bounds that the model puts on loops are never reached.
-/
namespace Csn.Proof
open Csn

/-- No bound of the model is reached. -/
def NoDiv {α : Type} (m : M α) : Prop := ∀ w, (m w).1 ≠ .stop .diverge

theorem NoDiv.ok {α : Type} {m : M α} (h : ∀ w, ∃ a, (m w).1 = .ok a) : NoDiv m := fun w e => by
  obtain ⟨a, ha⟩ := h w
  rw [ha] at e
  cases e

theorem NoDiv.bind' {α β : Type} {m : M α} {f : α → M β} {w : World} (hm : (m w).1 ≠ .stop .diverge)
    (hf : ∀ a w', m w = (.ok a, w') → (f a w').1 ≠ .stop .diverge) : ((m >>= f) w).1 ≠ .stop .diverge := by
  have hb : (m >>= f) w = (match m w with
      | (.ok a, w2) => f a w2
      | (.stop s, w2) => (.stop s, w2)) := rfl
  rw [hb]
  generalize m w = r at hm hf
  obtain ⟨res, w1⟩ := r
  cases res with
  | ok a => exact hf a w1 rfl
  | stop s => exact fun e => hm (by cases e; rfl)

theorem NoDiv.bind {α β : Type} (m : M α) (f : α → M β) (hm : NoDiv m) (hf : ∀ a, NoDiv (f a)) : NoDiv (m >>= f) :=
  fun w => NoDiv.bind' (hm w) (fun a w' _ => hf a w')

theorem NoDiv.pure {α : Type} (a : α) : NoDiv (Pure.pure a : M α) := NoDiv.ok (fun _ => ⟨a, rfl⟩)

theorem NoDiv.sysOk : NoDiv M.sysOk := fun w => by
  rw [sysOk_eq]
  cases w.sys with
  | nil => simp
  | cons x r => cases x <;> simp

theorem readLoop_diverge (f : Bytes) (off len : Nat) : ∀ (sys : List Sys) (got : Bytes), (readLoop f off len got sys).1 ≠ .stop .diverge
  | [], got => by unfold readLoop; split <;> simp
  | x :: sys, got => by
    unfold readLoop
    split
    · cases x with
      | eintr => exact readLoop_diverge f off len sys got
      | err => simp
      | zero => simp
      | some k =>
        simp only
        split
        · simp
        · split
          · simp
          · exact readLoop_diverge f off len sys _
    · simp

theorem NoDiv.preadall (i o n : Nat) : NoDiv (preadall i o n) := fun w => by
  unfold Csn.preadall
  have h := readLoop_diverge (w.data i) o n w.sys []
  generalize readLoop (w.data i) o n [] w.sys = r at h
  obtain ⟨r1, r2, r3⟩ := r
  cases r1 with
  | ok => simp
  | fail => simp
  | stop s => exact fun e => h (by cases e; rfl)

theorem writeLoop_diverge (blk : Bool) (off : Nat) (d : Bytes) : ∀ (sys : List Sys) (done : Nat) (f : Bytes) (evs : List (Nat × Bytes)),
    (writeLoop blk off d done f evs sys).1 ≠ .stop .diverge
  | [], done, f, evs => by unfold writeLoop; split <;> simp
  | x :: sys, done, f, evs => by
    unfold writeLoop
    split
    · cases x with
      | eintr => exact writeLoop_diverge blk off d sys done f evs
      | err => simp
      | zero => simp
      | some k =>
        simp only
        by_cases ho : off + d.length ≥ 2 ^ 63
        · rw [if_pos ho]; simp
        · rw [if_neg ho]
          generalize min (min (k + 1) (d.length - done)) (if blk = true then f.length - (off + done) else d.length) = n
          by_cases hn : n = 0
          · rw [if_pos hn]; simp
          · rw [if_neg hn]
            exact writeLoop_diverge blk off d sys _ _ _
    · simp

theorem NoDiv.pwriteall (i : Nat) (d : Bytes) (o : Nat) : NoDiv (pwriteall i d o) := fun w => by
  unfold Csn.pwriteall
  have h := writeLoop_diverge (decide (w.kind i = .blk)) o d w.sys 0 (w.data i) []
  generalize writeLoop (decide (w.kind i = .blk)) o d 0 (w.data i) [] w.sys = r at h
  obtain ⟨r1, r2, r3, r4⟩ := r
  cases r1 with
  | ok => simp
  | fail => simp
  | stop s => exact fun e => h (by cases e; rfl)

theorem noDiv_closedA : ClosedA True @NoDiv where
  pure := NoDiv.pure
  bind := NoDiv.bind
  alloc := fun _ => NoDiv.ok (fun _ => ⟨_, rfl⟩)
  sysOk := NoDiv.sysOk
  openPath := fun p => by
    unfold Csn.openPath
    refine NoDiv.bind _ _ NoDiv.sysOk (fun a => ?_)
    cases a
    · exact NoDiv.pure _
    · exact NoDiv.ok (fun _ => ⟨_, rfl⟩)
  fdSize := fun i => by
    rw [fdSize_eq]
    refine NoDiv.bind _ _ NoDiv.sysOk (fun a => ?_)
    cases a
    · exact NoDiv.pure _
    · exact NoDiv.ok (fun _ => ⟨_, rfl⟩)
  preadall := NoDiv.preadall
  pwriteall := fun _ => NoDiv.pwriteall

theorem noDiv_closedB : ClosedB True @NoDiv where
  toClosedA := noDiv_closedA
  stop := fun s _ h w e => h (by cases e; rfl)
  emit := fun _ _ _ _ => NoDiv.ok (fun _ => ⟨_, rfl⟩)

/-- patchdd.c:73-94: every pass transfers something. -/
theorem NoDiv.patchLoop {T src dst size : Nat} (hT : 0 < T) : ∀ (fuel offset skipped : Nat), size < offset + fuel → NoDiv (patchLoop T src dst size fuel offset skipped)
  | 0, offset, skipped, h => by
    unfold Csn.patchLoop
    rw [if_neg (by omega)]
    exact NoDiv.pure _
  | fuel + 1, offset, skipped, h => by
    unfold Csn.patchLoop
    by_cases hlt : offset < size
    · rw [if_pos hlt]
      refine NoDiv.bind _ _ (NoDiv.preadall _ _ _) (fun a => ?_)
      obtain ⟨b, s⟩ := a
      cases b
      · exact NoDiv.pure _
      refine NoDiv.bind _ _ (NoDiv.preadall _ _ _) (fun a => ?_)
      obtain ⟨b, s⟩ := a
      cases b
      · exact NoDiv.pure _
      refine NoDiv.bind _ _ (NoDiv.pwriteall _ _ _) (fun a => ?_)
      cases a
      · exact NoDiv.pure _
      · exact NoDiv.patchLoop hT fuel _ _ (by omega)
    · rw [if_neg hlt]
      exact NoDiv.pure _

theorem NoDiv.patchdd {T : Nat} (hT : 0 < T) (args : List Bytes) : NoDiv (patchdd T args) := by
  have C := noDiv_closedB
  unfold Csn.patchdd
  repeat' (first
    | exact C.pure _
    | exact C.emit _ trivial
    | exact C.openPath _
    | exact C.fdSize _
    | exact NoDiv.patchLoop hT _ _ _ (by omega)
    | exact C.sysOk
    | refine C.bind _ _ ?_ (fun _ => ?_)
    | split
    | dsimp only)

/-! ### Local stores -/

theorem indexInsertPure_diverge (idx : Index) (off len : Nat) (id : Id) (mem : List Bool) : (indexInsertPure idx off len id mem).1 ≠ .stop .diverge := by
  unfold indexInsertPure
  split
  · simp
  · split
    · simp
    · split <;> simp

theorem NoDiv.insert (idx : Index) (off len : Nat) (id : Id) : NoDiv (indexInsert idx off len id) := fun w => by
  rw [indexInsert_shape]
  have := indexInsertPure_diverge idx off len id w.mem
  generalize (indexInsertPure idx off len id w.mem).1 = r at this
  cases r with
  | ok => simp
  | stop s => exact fun e => this (by cases e; rfl)

theorem shallBreak_diverge (p : Params) (d : Nat) (c : Chunker) : shallBreak p d c ≠ .stop .diverge := by
  unfold shallBreak
  split
  · simp
  · split
    · simp
    · simp only
      split <;> split <;> simp

theorem rollLoop_diverge (p : Params) (d : Nat) : ∀ (b : Bytes) (c : Chunker) (idx n : Nat) (seen : Bytes), rollLoop p d c idx n seen b ≠ .stop .diverge
  | [], c, idx, n, seen => by simp [rollLoop]
  | x :: b, c, idx, n, seen => by
    unfold rollLoop
    simp only
    split
    · rename_i s h
      intro e
      cases e
      exact shallBreak_diverge _ _ _ h
    · simp
    · exact rollLoop_diverge p d b _ _ _ _

theorem chunkerScan_diverge (p : Params) (d : Nat) (c : Chunker) (b : Bytes) : chunkerScan p d c b ≠ .stop .diverge := by
  have ht : ∀ c n b, scanTail p d c n b ≠ .stop .diverge := by
    intro c n b
    unfold scanTail
    split
    · rename_i s h
      intro e
      cases e
      exact shallBreak_diverge _ _ _ h
    · simp
    · exact rollLoop_diverge _ _ _ _ _ _ _
  unfold chunkerScan
  split
  · simp only
    split
    · simp
    · exact ht _ _ _
  · exact ht _ _ _

/-- chunker.c:248-270: the inner loop consumes bytes in every pass; what callbacks keep up, the loop keeps up. -/
theorem scanBuf_keeps {σ : Type} (H : Bytes → Id) (p : Params) (d : Nat) {cb : σ → Seg → CbRes σ} (I : σ → Prop)
    (hcb : ∀ s g s', cb s g ≠ .stop .diverge s') (hI : ∀ s g s', I s → cb s g = .ok s' → I s') :
    ∀ (n : Nat) (c : Chunker) (offset last : Nat) (s : σ) (buf : Bytes), Ready0 p d c → buf.length ≤ n →
      (scanBuf H p d cb n c offset last s buf).1 ≠ .stop .diverge ∧
      ((scanBuf H p d cb n c offset last s buf).1 = .ok → Ready0 p d (scanBuf H p d cb n c offset last s buf).2.1 ∧
        (I s → I (scanBuf H p d cb n c offset last s buf).2.2.2.2))
  | 0, c, offset, last, s, buf, hr, hn => by
    unfold scanBuf
    rw [if_pos (by omega)]
    exact ⟨by simp, fun _ => ⟨hr, fun h => h⟩⟩
  | n + 1, c, offset, last, s, buf, hr, hn => by
    unfold scanBuf
    by_cases hb : buf.length = 0
    · rw [if_pos hb]
      exact ⟨by simp, fun _ => ⟨hr, fun h => h⟩⟩
    · rw [if_neg hb]
      simp only
      have h := chunkerScan_append p d buf [] c hr
      cases hc : chunkerScan p d c buf with
      | stop x =>
        refine ⟨fun e => ?_, by simp⟩
        simp only [ScanRes.stop.injEq] at e
        subst e
        exact chunkerScan_diverge _ _ _ _ hc
      | ok r =>
        obtain ⟨o, c'⟩ := r
        cases o with
        | none => exact ⟨by simp, fun _ => ⟨h.2.1 c' hc, fun h => h⟩⟩
        | some k =>
          obtain ⟨h1, h2, h3⟩ := h.2.2 k c' hc
          have hk := h2 (by intro e; simp [e] at hb)
          simp only
          cases hcb' : cb s ⟨last, (offset + k - last) % 2 ^ 32, H c'.sha⟩ with
          | stop y s' =>
            refine ⟨fun e => ?_, by simp⟩
            simp only [ScanRes.stop.injEq] at e
            subst e
            exact hcb _ _ _ hcb'
          | fail s' => exact ⟨by simp, by simp⟩
          | ok s' =>
            have ih := scanBuf_keeps H p d I hcb hI n c'.reset (offset + k) (offset + k) s' (buf.drop k) (ready0_reset h1) (by simp; omega)
            exact ⟨ih.1, fun e => ⟨(ih.2 e).1, fun hi => (ih.2 e).2 (hI _ _ _ hi hcb')⟩⟩

theorem scanLoop_keeps {σ : Type} (H : Bytes → Id) (p : Params) (d bufsiz : Nat) {cb : σ → Seg → CbRes σ} (f : Bytes) (I : σ → Prop)
    (hcb : ∀ s g s', cb s g ≠ .stop .diverge s') (hI : ∀ s g s', I s → cb s g = .ok s' → I s') :
    ∀ (sys : List Sys) (c : Chunker) (pos offset last : Nat) (s : σ), Ready0 p d c →
      (scanLoop H p d bufsiz cb f c pos offset last s sys).1 ≠ .stop .diverge ∧
      ((scanLoop H p d bufsiz cb f c pos offset last s sys).1 = .ok → I s → I (scanLoop H p d bufsiz cb f c pos offset last s sys).2.1)
  | [], c, pos, offset, last, s, hr => by
    unfold scanLoop
    exact ⟨by simp, by simp⟩
  | x :: sys, c, pos, offset, last, s, hr => by
    have hend : ∀ (got : Bytes), (if got.isEmpty then
        if offset ≠ last then
          match cb s ⟨last, (offset - last) % 2 ^ 32, H c.sha⟩ with
          | .stop y s' => (.stop y, s', sys)
          | .fail s' => (.fail, s', sys)
          | .ok s' => (.ok, s', sys)
        else (.ok, s, sys)
      else
        match scanBuf H p d cb got.length c offset last s got with
        | (.stop y, _, _, _, s') => (.stop y, s', sys)
        | (.fail, _, _, _, s') => (.fail, s', sys)
        | (.ok, c', offset', last', s') =>
          scanLoop H p d bufsiz cb f c' (pos + got.length) offset' last' s' sys : ScanRes × σ × List Sys).1 ≠ .stop .diverge ∧
        ((if got.isEmpty then
        if offset ≠ last then
          match cb s ⟨last, (offset - last) % 2 ^ 32, H c.sha⟩ with
          | .stop y s' => (.stop y, s', sys)
          | .fail s' => (.fail, s', sys)
          | .ok s' => (.ok, s', sys)
        else (.ok, s, sys)
      else
        match scanBuf H p d cb got.length c offset last s got with
        | (.stop y, _, _, _, s') => (.stop y, s', sys)
        | (.fail, _, _, _, s') => (.fail, s', sys)
        | (.ok, c', offset', last', s') =>
          scanLoop H p d bufsiz cb f c' (pos + got.length) offset' last' s' sys : ScanRes × σ × List Sys).1 = .ok → I s →
        I (if got.isEmpty then
        if offset ≠ last then
          match cb s ⟨last, (offset - last) % 2 ^ 32, H c.sha⟩ with
          | .stop y s' => (.stop y, s', sys)
          | .fail s' => (.fail, s', sys)
          | .ok s' => (.ok, s', sys)
        else (.ok, s, sys)
      else
        match scanBuf H p d cb got.length c offset last s got with
        | (.stop y, _, _, _, s') => (.stop y, s', sys)
        | (.fail, _, _, _, s') => (.fail, s', sys)
        | (.ok, c', offset', last', s') =>
          scanLoop H p d bufsiz cb f c' (pos + got.length) offset' last' s' sys : ScanRes × σ × List Sys).2.1) := by
      intro got
      by_cases hg : got.isEmpty = true
      · simp only [if_pos hg]
        by_cases ho : offset ≠ last
        · simp only [if_pos ho]
          cases hc : cb s ⟨last, (offset - last) % 2 ^ 32, H c.sha⟩ with
          | stop y s' =>
            refine ⟨fun e => ?_, by simp⟩
            simp only [ScanRes.stop.injEq] at e
            subst e
            exact hcb _ _ _ hc
          | fail s' => exact ⟨by simp, by simp⟩
          | ok s' => exact ⟨by simp, fun _ hi => hI _ _ _ hi hc⟩
        · simp only [if_neg ho]
          exact ⟨by simp, fun _ h => h⟩
      · simp only [if_neg hg]
        have h := scanBuf_keeps H p d I hcb hI got.length c offset last s got hr (Nat.le_refl _)
        generalize scanBuf H p d cb got.length c offset last s got = R at h
        obtain ⟨res, c', o, l, s'⟩ := R
        cases res with
        | stop y => exact ⟨fun e => h.1 (by cases e; rfl), by simp⟩
        | fail => exact ⟨by simp, by simp⟩
        | ok =>
          obtain ⟨k1, k2⟩ := h.2 rfl
          have ih := scanLoop_keeps H p d bufsiz f I hcb hI sys c' (pos + got.length) o l s' k1
          exact ⟨ih.1, fun e hi => ih.2 e (k2 hi)⟩
    unfold scanLoop
    cases x with
    | eintr => exact scanLoop_keeps H p d bufsiz f I hcb hI sys c pos offset last s hr
    | err => exact ⟨by simp, by simp⟩
    | zero => exact hend []
    | some k => exact hend _

theorem scanFd_keeps {σ : Type} (H : Bytes → Id) (disc : Nat → Option Nat) (bufsiz : Nat) (p : Params) {cb : σ → Seg → CbRes σ} (f : Bytes) (I : σ → Prop)
    (hcb : ∀ s g s', cb s g ≠ .stop .diverge s') (hI : ∀ s g s', I s → cb s g = .ok s' → I s') (s : σ) (sys : List Sys) :
      (scanFd H disc bufsiz p cb f s sys).1 ≠ .stop .diverge ∧
      ((scanFd H disc bufsiz p cb f s sys).1 = .ok → I s → I (scanFd H disc bufsiz p cb f s sys).2.1) := by
  unfold scanFd
  cases disc p.avg with
  | none => exact ⟨by simp, by simp⟩
  | some d =>
    cases sys with
    | nil => exact ⟨by simp, by simp⟩
    | cons x r =>
      have h := scanLoop_keeps H p d bufsiz f I hcb hI r Chunker.init 0 0 0 s (ready0_init p d)
      cases x with
      | err => exact ⟨by simp, by simp⟩
      | zero => exact h
      | eintr => exact h
      | some k => exact h

/-- All entries are known to be right. -/
def Checked (idx : Index) : Prop := ∀ e ∈ idx.entries, e.valid = true

theorem indexGrow_entries (idx : Index) (mem : List Bool) : (indexGrow idx mem).2.1.entries = idx.entries := by
  unfold indexGrow
  repeat' (first | rfl | split | dsimp only)

theorem modify_append (xs : List Entry) (x : Entry) (f : Entry → Entry) : (xs ++ [x]).modify xs.length f = xs ++ [f x] := by
  induction xs with
  | nil => rfl
  | cons y xs ih => simp only [List.cons_append, List.length_cons, List.modify_succ_cons, ih]

theorem storeInsertScan_valid (s : Index × List Bool) (g : Seg) (s' : Index × List Bool) (hi : Checked s.1) (h : storeInsertScan true s g = .ok s') : Checked s'.1 := by
  unfold storeInsertScan indexInsertPure at h
  by_cases hl : g.len = 0
  · simp [hl] at h
  · simp only [if_neg hl] at h
    have he := indexGrow_entries s.1 s.2
    generalize indexGrow s.1 s.2 = r at h he
    obtain ⟨b, idx, mem⟩ := r
    simp only at he
    cases b with
    | false => simp at h
    | true =>
      simp only at h
      by_cases hc : (idx.entries.length + 1) * entrySize > idx.cap
      · simp [hc] at h
      · simp only [if_neg hc, CbRes.ok.injEq] at h
        subst h
        intro e hm
        simp only [orFlags, modify_append, he, Bool.or_true, List.mem_append, List.mem_singleton] at hm
        rcases hm with hm | hm
        · exact hi e hm
        · rw [hm]

theorem storeInsertScan_diverge (v : Bool) (s : Index × List Bool) (g : Seg) (s' : Index × List Bool) : storeInsertScan v s g ≠ .stop .diverge s' := by
  unfold storeInsertScan
  have h := indexInsertPure_diverge s.1 g.off g.len g.id s.2
  split
  · rename_i x idx mem e
    rw [e] at h
    intro e'
    simp only [CbRes.stop.injEq] at e'
    rw [e'.1] at h
    exact h rfl
  · simp
  · simp

theorem scanInto_valid (env : LEnv) (l : Loc) (idx : Index) (w : World) : (scanInto env l idx w).1 ≠ .stop .diverge ∧
    ∀ idx', (scanInto env l idx w).1 = .ok (true, idx') → Checked idx → Checked idx' := by
  unfold Csn.scanInto
  have h := scanFd_keeps env.H env.disc env.bufsiz l.p (w.data l.ino) (fun s => Checked s.1) (storeInsertScan_diverge true)
    (fun s g s' hi e => storeInsertScan_valid s g s' hi e) (idx, w.mem) w.sys
  generalize scanFd env.H env.disc env.bufsiz l.p (storeInsertScan true) (w.data l.ino) (idx, w.mem) w.sys = r at h
  obtain ⟨r1, ⟨r2, r2'⟩, r3⟩ := r
  cases r1 with
  | ok =>
    refine ⟨by simp, fun idx' e hv => ?_⟩
    simp only [Res.ok.injEq, Prod.mk.injEq, true_and] at e
    subst e
    exact h.2 rfl hv
  | fail => exact ⟨by simp, by simp⟩
  | stop s => exact ⟨fun e => h.1 (by cases e; rfl), by simp⟩

theorem noDiv_netOps : NetOps @NoDiv := fun _ _ => NoDiv.ok (fun _ => ⟨_, rfl⟩)

theorem noDiv_closed0 (env : LEnv) : Closed0 True env @NoDiv where
  toClosedB := noDiv_closedB
  insert := NoDiv.insert
  scanInto := fun l idx w => (scanInto_valid env l idx w).1
  net := fun url w => by
    unfold netNext
    split <;> simp

theorem bind_ok_cases {α β : Type} {m : M α} {f : α → M β} {w : World} {b : β} {w' : World} (h : (m >>= f) w = (.ok b, w')) :
    ∃ a w1, m w = (.ok a, w1) ∧ f a w1 = (.ok b, w') := by
  have hb : (m >>= f) w = (match m w with
      | (.ok a, w2) => f a w2
      | (.stop s, w2) => (.stop s, w2)) := rfl
  rw [hb] at h
  generalize m w = r at h
  obtain ⟨res, w1⟩ := r
  cases res with
  | ok a => exact ⟨a, w1, rfl, h⟩
  | stop s => cases h

theorem indexInit_empty {n : Nat} {w w' : World} {idx : Index} (h : indexInit n w = (.ok (some idx), w')) : idx.entries = [] := by
  unfold indexInit at h
  by_cases hn : n = 0
  · rw [if_pos hn] at h
    cases h
  · rw [if_neg hn] at h
    obtain ⟨a, w1, _, h⟩ := bind_ok_cases h
    cases a
    · cases h
    · cases h
      rfl

/-- store-local.c:103-128: after a successful scan all entries are known to be right. -/
theorem storeScan_valid (env : LEnv) (l : Loc) (w w' : World) (l' : Loc) (h : storeScan env l w = (.ok (true, l'), w')) :
    ∃ idx, l'.idx = .live idx ∧ Checked idx := by
  unfold storeScan at h
  obtain ⟨_, w1, _, h⟩ := bind_ok_cases h
  obtain ⟨a, w2, _, h⟩ := bind_ok_cases h
  cases a with
  | none => cases h
  | some size =>
    simp only at h
    obtain ⟨a, w3, h3, h⟩ := bind_ok_cases h
    cases a with
    | none => cases h
    | some idx =>
      simp only at h
      obtain ⟨⟨ok, idx'⟩, w4, h4, h⟩ := bind_ok_cases h
      cases h
      refine ⟨idx', rfl, (scanInto_valid env l idx w3).2 idx' (by rw [h4]) ?_⟩
      intro e he
      rw [indexInit_empty h3] at he
      cases he

theorem indexQuery_valid {lib : Lib} (hp : ∀ l, (lib.qsort l).Perm l) {idx : Index} (h : Checked idx) (id : Id) : Checked (indexQuery lib idx id).2 := by
  unfold indexQuery
  simp only
  split
  · exact h
  · exact fun e he => h e ((hp _).mem_iff.mp he)

/-- store-local.c:130-183: with nothing but valid entries there is no second pass. -/
theorem localGet_valid (env : LEnv) (hp : ∀ l, (env.lib.qsort l).Perm l) (l : Loc) (idx : Index) (hl : l.idx = .live idx) (hv : Checked idx) (id : Id) (out : Bytes) :
    NoDiv (localGet env 1 l id out) := by
  unfold localGet
  simp only [hl]
  have h := indexQuery_valid hp hv id
  generalize indexQuery env.lib idx id = q at h
  obtain ⟨o, idx'⟩ := q
  cases o with
  | none => exact NoDiv.pure _
  | some i =>
    simp only
    cases he : idx'.entries[i]? with
    | none => exact fun w => by simp [M.stop]
    | some e =>
      have hev : e.valid = true := h e (List.mem_of_getElem? he)
      simp only [hev, if_true]
      split
      · exact NoDiv.pure _
      · refine NoDiv.bind _ _ (NoDiv.preadall _ _ _) (fun a => ?_)
        obtain ⟨ok, d⟩ := a
        cases ok <;> exact NoDiv.pure _

/-- store-local.c:130-183: two passes are enough. -/
theorem NoDiv.localGet (env : LEnv) (hp : ∀ l, (env.lib.qsort l).Perm l) (l : Loc) (id : Id) (out : Bytes) : NoDiv (localGet env 2 l id out) := by
  rw [Csn.localGet]
  cases hl : l.idx with
  | freed => exact fun w => by simp [M.stop]
  | null => exact fun w => by simp [M.stop]
  | live idx =>
    simp only
    generalize indexQuery env.lib idx id = q
    obtain ⟨o, idx'⟩ := q
    cases o with
    | none => exact NoDiv.pure _
    | some i =>
      simp only
      cases he : idx'.entries[i]? with
      | none => exact fun w => by simp [M.stop]
      | some e =>
        simp only
        split
        · exact NoDiv.pure _
        · refine NoDiv.bind _ _ (NoDiv.preadall _ _ _) (fun a => ?_)
          obtain ⟨ok, d⟩ := a
          cases ok with
          | false => exact NoDiv.pure _
          | true =>
            simp only [Bool.not_true, Bool.false_eq_true, if_false]
            split
            · exact NoDiv.pure _
            · split
              · exact NoDiv.pure _
              · intro w
                refine NoDiv.bind' ((noDiv_closed0 env).storeScan _ w) (fun a w' h => ?_)
                obtain ⟨b, l'⟩ := a
                cases b with
                | false => exact NoDiv.pure _ _
                | true =>
                  obtain ⟨idx2, h1, h2⟩ := storeScan_valid env _ _ _ _ h
                  exact localGet_valid env hp l' idx2 h1 h2 id _ w'

theorem noDiv_closed (env : LEnv) (hp : ∀ l, (env.lib.qsort l).Perm l) : Closed True env @NoDiv where
  toClosed0 := noDiv_closed0 env
  localGet := NoDiv.localGet env hp

end Csn.Proof
