import Verif.Proof.Slurp
import Verif.Proof.Closed
/-
Programs that use no other files than those reachable under certain paths.
-/
namespace Csn.Proof
open Csn

/-- What is allowed: paths and files. -/
structure Allow where
  path : Bytes → Prop
  file : Nat → Prop

/-- `w1` and `w2` agree in everything that is allowed, starting from `o1` and `o2`. -/
structure WRel (A : Allow) (o1 o2 w1 w2 : World) : Prop where
  dir1 : w1.dir = o1.dir
  dir2 : w2.dir = o2.dir
  dir : ∀ p, A.path p → o1.dir p = o2.dir p
  ok : ∀ p i, A.path p → o1.dir p = some i → A.file i
  kind1 : w1.kind = o1.kind
  kind2 : w2.kind = o2.kind
  kind : ∀ i, A.file i → o1.kind i = o2.kind i
  data : ∀ i, A.file i → w1.data i = w2.data i
  rest1 : ∀ i, ¬ A.file i → w1.data i = o1.data i
  rest2 : ∀ i, ¬ A.file i → w2.data i = o2.data i
  sys : w1.sys = w2.sys
  mem : w1.mem = w2.mem
  net : w1.net = w2.net
  log : ∃ evs, w1.log = o1.log ++ evs ∧ w2.log = o2.log ++ evs

/-- Outcomes that agree, with a result in `Q`. -/
def Agree {α : Type} (A : Allow) (o1 o2 : World) (Q : α → Prop) : Res α × World → Res α × World → Prop
  | (.ok a, w1), (.ok b, w2) => a = b ∧ Q a ∧ WRel A o1 o2 w1 w2
  | (.stop s, w1), (.stop t, w2) => s = t ∧ WRel A o1 o2 w1 w2
  | _, _ => False

/-- `m` depends only on what is allowed; its result is in `Q`. -/
def Ind {α : Type} (A : Allow) (Q : α → Prop) (m : M α) : Prop := ∀ o1 o2 w1 w2, WRel A o1 o2 w1 w2 → Agree A o1 o2 Q (m w1) (m w2)

/-- No condition. -/
def Any {α : Type} : α → Prop := fun _ => True

/-- The second part of `fdSize`. -/
def sizeOf (i : Nat) (w : World) : M (Option Nat) :=
  match w.kind i with
  | .reg => return some (w.data i).length
  | .blk => return some (w.data i).length
  | .other => return none

namespace Ind
variable {A : Allow}

theorem pure {α : Type} {Q : α → Prop} {a : α} (h : Q a) : Ind A Q (Pure.pure a : M α) := fun _ _ _ _ r => ⟨rfl, h, r⟩

theorem pure' {α : Type} {Q : α → Prop} {a : α} (h : Q a) : Ind A Q (M.pure a : M α) := fun _ _ _ _ r => ⟨rfl, h, r⟩

theorem stop {α : Type} {Q : α → Prop} (s : Stop) : Ind A Q (M.stop s : M α) := fun _ _ _ _ r => ⟨rfl, r⟩

theorem bind {α β : Type} {Q : α → Prop} {R : β → Prop} {m : M α} {f : α → M β} (h : Ind A Q m) (hf : ∀ a, Q a → Ind A R (f a)) :
    Ind A R (m >>= f) := by
  intro o1 o2 w1 w2 r
  have h' := h o1 o2 w1 w2 r
  show Agree A o1 o2 R (M.bind m f w1) (M.bind m f w2)
  unfold M.bind
  revert h'
  generalize m w1 = x
  generalize m w2 = y
  obtain ⟨x, w1'⟩ := x
  obtain ⟨y, w2'⟩ := y
  intro h'
  cases x with
  | ok a =>
    cases y with
    | ok b =>
      obtain ⟨rfl, hq, r'⟩ := h'
      exact hf a hq o1 o2 w1' w2' r'
    | stop t => exact h'.elim
  | stop s =>
    cases y with
    | ok b => exact h'.elim
    | stop t => exact h'

theorem weaken {α : Type} {Q R : α → Prop} {m : M α} (h : Ind A Q m) (hq : ∀ a, Q a → R a) : Ind A R m := by
  intro o1 o2 w1 w2 r
  have h' := h o1 o2 w1 w2 r
  revert h'
  generalize m w1 = x
  generalize m w2 = y
  obtain ⟨x, w1'⟩ := x
  obtain ⟨y, w2'⟩ := y
  intro h'
  cases x with
  | ok a =>
    cases y with
    | ok b => exact ⟨h'.1, hq a h'.2.1, h'.2.2⟩
    | stop t => exact h'.elim
  | stop s =>
    cases y with
    | ok b => exact h'.elim
    | stop t => exact h'

theorem ite {α : Type} {Q : α → Prop} {c : Prop} [Decidable c] {a b : M α} (ha : Ind A Q a) (hb : Ind A Q b) : Ind A Q (if c then a else b) := by
  split
  · exact ha
  · exact hb

theorem alloc (n : Nat) : Ind A Any (M.alloc n) := by
  intro o1 o2 w1 w2 r
  unfold M.alloc
  rw [r.mem]
  exact ⟨rfl, trivial, { r with mem := rfl }⟩

theorem sysNext : Ind A Any M.sysNext := by
  intro o1 o2 w1 w2 r
  unfold M.sysNext
  rw [r.sys]
  cases h : w2.sys with
  | nil => exact ⟨rfl, r⟩
  | cons s l => exact ⟨rfl, trivial, { r with sys := rfl }⟩

theorem sysOk : Ind A Any M.sysOk := by
  unfold M.sysOk
  refine bind sysNext (fun a _ => ?_)
  split <;> exact pure trivial

theorem emit (e : Event) : Ind A Any (M.emit e) := by
  intro o1 o2 w1 w2 r
  obtain ⟨evs, e1, e2⟩ := r.log
  exact ⟨rfl, trivial, { r with log := ⟨evs ++ [e], by simp [e1], by simp [e2]⟩ }⟩

theorem net (url : Bytes) : Ind A Any (netNext url) := by
  intro o1 o2 w1 w2 r
  unfold netNext
  rw [r.net]
  cases h : w2.net with
  | nil => exact ⟨rfl, r⟩
  | cons s l => exact ⟨rfl, trivial, { r with net := rfl }⟩

theorem openPath {p : Bytes} (hp : A.path p) : Ind A (fun o => ∀ i, o = some i → A.file i) (openPath p) := by
  unfold Csn.openPath
  refine bind sysOk (fun a _ => ite (pure (by simp)) ?_)
  intro o1 o2 w1 w2 r
  refine ⟨by rw [r.dir1, r.dir2, r.dir p hp], fun i hi => r.ok p i hp (by rw [← r.dir1]; exact hi), r⟩

theorem fdSize {i : Nat} (hi : A.file i) : Ind A Any (fdSize i) := by
  unfold Csn.fdSize
  refine bind sysOk (fun a _ => ite (pure trivial) ?_)
  intro o1 o2 w1 w2 r
  have hk : w1.kind i = w2.kind i := by rw [r.kind1, r.kind2, r.kind i hi]
  have hd := r.data i hi
  show Agree A o1 o2 Any (sizeOf i w1 w1) (sizeOf i w2 w2)
  rw [show sizeOf i w1 = sizeOf i w2 by unfold Proof.sizeOf; rw [hk, hd]]
  unfold Proof.sizeOf
  generalize w2.kind i = k
  cases k <;> exact ⟨rfl, trivial, r⟩

theorem preadall {i : Nat} (hi : A.file i) (o n : Nat) : Ind A Any (preadall i o n) := by
  intro o1 o2 w1 w2 r
  unfold Csn.preadall
  rw [r.data i hi, r.sys]
  generalize readLoop (w2.data i) o n [] w2.sys = x
  obtain ⟨res, got, l⟩ := x
  cases res with
  | ok => exact ⟨rfl, trivial, { r with sys := rfl }⟩
  | fail => exact ⟨rfl, trivial, { r with sys := rfl }⟩
  | stop s => exact ⟨rfl, { r with sys := rfl }⟩

theorem pwriteall {i : Nat} (hi : A.file i) (d : Bytes) (o : Nat) : Ind A Any (pwriteall i d o) := by
  intro o1 o2 w1 w2 r
  unfold Csn.pwriteall
  rw [show w1.kind i = w2.kind i by rw [r.kind1, r.kind2, r.kind i hi], r.data i hi, r.sys]
  generalize writeLoop (w2.kind i = .blk) o d 0 (w2.data i) [] w2.sys = x
  obtain ⟨res, f, evs, l⟩ := x
  have key : WRel A o1 o2
      { w1 with data := fun j => if j = i then f else w1.data j, sys := l, log := w1.log ++ evs.map (fun e => Event.write i e.1 e.2) }
      { w2 with data := fun j => if j = i then f else w2.data j, sys := l, log := w2.log ++ evs.map (fun e => Event.write i e.1 e.2) } := by
    obtain ⟨es, e1, e2⟩ := r.log
    refine { r with sys := rfl, data := ?_, rest1 := ?_, rest2 := ?_, log := ⟨es ++ evs.map (fun e => Event.write i e.1 e.2), by simp [e1], by simp [e2]⟩ }
    · intro j hj
      show (if j = i then f else w1.data j) = if j = i then f else w2.data j
      rw [r.data j hj]
    · intro j hj
      show (if j = i then f else w1.data j) = _
      rw [if_neg (fun e : j = i => hj (by rw [e]; exact hi)), r.rest1 j hj]
    · intro j hj
      show (if j = i then f else w2.data j) = _
      rw [if_neg (fun e : j = i => hj (by rw [e]; exact hi)), r.rest2 j hj]
  cases res with
  | ok => exact ⟨rfl, trivial, key⟩
  | fail => exact ⟨rfl, trivial, key⟩
  | stop s => exact ⟨rfl, key⟩

theorem insert (idx : Index) (off len : Nat) (id : Id) : Ind A Any (indexInsert idx off len id) := by
  intro o1 o2 w1 w2 r
  unfold Csn.indexInsert
  rw [r.mem]
  generalize indexInsertPure idx off len id w2.mem = x
  obtain ⟨res, ix, m⟩ := x
  cases res with
  | ok a => exact ⟨rfl, trivial, { r with mem := rfl }⟩
  | stop s => exact ⟨rfl, { r with mem := rfl }⟩

theorem scanInto (env : LEnv) {l : Loc} (hl : A.file l.ino) (idx : Index) : Ind A Any (scanInto env l idx) := by
  intro o1 o2 w1 w2 r
  unfold Csn.scanInto
  rw [r.data l.ino hl, r.sys, r.mem]
  generalize scanFd env.H env.disc env.bufsiz l.p (storeInsertScan true) (w2.data l.ino) (idx, w2.mem) w2.sys = x
  obtain ⟨res, ⟨ix, m⟩, s⟩ := x
  cases res with
  | ok => exact ⟨rfl, trivial, { r with sys := rfl, mem := rfl }⟩
  | fail => exact ⟨rfl, trivial, { r with sys := rfl, mem := rfl }⟩
  | stop t => exact ⟨rfl, { r with sys := rfl, mem := rfl }⟩

theorem readall {i : Nat} (hi : A.file i) (o n : Nat) : Ind A Any (readall i o n) := preadall hi o n

theorem lseek (n : Nat) : Ind A Any (lseek n) := by
  unfold Csn.lseek
  exact bind sysOk (fun _ _ => ite (pure trivial) (pure trivial))

theorem slurpFile {p : Bytes} (hp : A.path p) (t : Bool) : Ind A Any (slurpFile p t) := by
  rw [slurpFile_eq]
  unfold slurpPlain
  refine bind (openPath hp) (fun a ha => ?_)
  cases a with
  | none => exact pure trivial
  | some ino =>
    have hi := ha ino rfl
    refine bind (fdSize hi) (fun a _ => ?_)
    cases a with
    | none => exact pure trivial
    | some n =>
      refine bind (alloc _) (fun a _ => ite (pure trivial) ?_)
      refine bind (readall hi _ _) (fun a _ => ?_)
      split <;> exact pure trivial

theorem parseKeyspec (g : Bytes → Option Bytes) {s : Bytes} (hs : ∀ p, p <:+: s → A.path p) : Ind A Any (parseKeyspec g s) := by
  rw [parseKeyspec_eq]
  refine ite (pure trivial) (ite ?_ (ite ?_ (pure trivial)))
  · split <;> exact pure trivial
  · refine bind (slurpFile (hs _ (List.drop_suffix _ _).isInfix) _) (fun a _ => ?_)
    split <;> exact pure trivial

theorem handleParams (henv : Env) : ∀ (n : Nat) (p : Bytes) (k : Option Bytes), (∀ q, q <:+: p → A.path q) → Ind A Any (handleParams henv n p k)
  | 0, _, _, _ => pure trivial
  | n + 1, p, k, hp => by
    unfold Csn.handleParams
    refine ite (pure trivial) ?_
    dsimp only
    refine ite ?_ (pure trivial)
    refine bind (parseKeyspec _ (fun q hq => hp q ?_)) (fun a _ => ?_)
    · exact (hq.trans (List.drop_suffix _ _).isInfix).trans (List.takeWhile_prefix _).isInfix
    · cases a with
      | none => exact pure trivial
      | some k =>
        refine bind (alloc _) (fun a _ => ite (pure trivial) (ite ?_ (pure trivial)))
        exact handleParams henv n _ _ (fun q hq => hp q (hq.trans (List.drop_suffix _ _).isInfix))

theorem httpNew (henv : Env) {u : Bytes} (hu : ∀ q, q <:+: u → A.path q) : Ind A Any (httpNew henv u) := by
  unfold Csn.httpNew
  dsimp only
  refine bind (alloc _) (fun a _ => ite (pure trivial) ?_)
  refine bind (alloc _) (fun a _ => ite (pure trivial) ?_)
  split
  · refine bind (handleParams henv _ _ _ (fun q hq => hu q (hq.trans (List.drop_suffix _ _).isInfix))) (fun a _ => ?_)
    repeat' (first
      | exact pure trivial
      | exact alloc _
      | refine bind (Q := Any) ?_ (fun _ _ => ?_)
      | split
      | dsimp only)
  · repeat' (first
      | exact pure trivial
      | exact alloc _
      | refine bind (Q := Any) ?_ (fun _ _ => ?_)
      | split
      | dsimp only)

theorem absorb (henv : Env) (ks : Option (Nat → UInt8)) (r : Req) (d : Bytes) : Ind A Any (absorb henv ks r d) := by
  unfold Csn.absorb
  dsimp only
  repeat' (first
    | exact pure trivial
    | exact stop _
    | exact alloc _
    | refine bind (Q := Any) ?_ (fun _ _ => ?_)
    | split
    | dsimp only)

theorem handleData (henv : Env) (r : Req) (d : Bytes) : Ind A Any (handleData henv r d) := by
  have run : ∀ r : Req, Ind A Any (do
    if r.st ≠ .streaming then M.stop .abort
    let room := r.out.length - r.written
    match henv.zstd r.hist room d with
    | none => return (none, { r with hist := r.hist ++ [(room, d)] })
    | some (k, o) =>
      if o.length > room ∨ k > d.length then M.stop .ub
      else return (some k, { r with
        hist := r.hist ++ [(room, d)]
        written := r.written + o.length
        out := bufWrite r.out r.written o }) : M (Option Nat × Req)) := by
    intro r
    have rest : Ind A Any (match henv.zstd r.hist (r.out.length - r.written) d with
      | none => (return (none, { r with hist := r.hist ++ [(r.out.length - r.written, d)] }) : M (Option Nat × Req))
      | some (k, o) =>
        if o.length > (r.out.length - r.written) ∨ k > d.length then M.stop .ub
        else return (some k, { r with
          hist := r.hist ++ [(r.out.length - r.written, d)]
          written := r.written + o.length
          out := bufWrite r.out r.written o })) := by
      split
      · exact pure trivial
      · exact ite (stop _) (pure trivial)
    exact ite (bind (Q := Any) (stop _) (fun _ _ => rest)) rest
  unfold Csn.handleData
  refine ite (ite (pure trivial) (ite (run _) (pure trivial))) (run _)

theorem dataCb (henv : Env) (ks : Option (Nat → UInt8)) (http : Option Nat) (r : Req) (d : Bytes) : Ind A Any (dataCb henv ks http r d) := by
  unfold Csn.dataCb
  refine ite (pure trivial) (ite (pure trivial) (ite ?_ ?_))
  · refine bind (absorb henv _ _ _) (fun a _ => ?_)
    split
    · exact pure trivial
    · refine bind (handleData henv _ _) (fun a _ => ?_)
      split <;> exact pure trivial
  · refine bind (handleData henv _ _) (fun a _ => ?_)
    split
    · exact pure trivial
    · refine ite ?_ (pure trivial)
      refine bind (absorb henv _ _ _) (fun a _ => ?_)
      split <;> exact pure trivial

theorem deliver (henv : Env) (ks : Option (Nat → UInt8)) (http : Option Nat) : ∀ (fs : List Bytes) (r : Req), Ind A Any (deliver henv ks http r fs)
  | [], r => pure trivial
  | f :: fs, r => by
    unfold Csn.deliver
    exact bind (dataCb henv _ _ _ _) (fun a _ => ite (pure trivial) (deliver henv ks http fs _))

theorem perform (henv : Env) (ks : Option (Nat → UInt8)) (u : Bytes) (r : Req) : Ind A Any (perform henv ks u r) := by
  unfold Csn.perform
  exact bind (emit _) (fun _ _ => bind (net u) (fun run _ => bind (deliver henv _ _ _ _) (fun _ _ => pure trivial)))

theorem retried (henv : Env) (ks : Option (Nat → UInt8)) (u : Bytes) : ∀ (n wait : Nat) (r : Req), Ind A Any (retried henv ks u n wait r)
  | 0, wait, r => by
    unfold Csn.retried
    exact bind (perform henv _ _ _) (fun a _ => ite (pure trivial) (bind (emit _) (fun _ _ => pure trivial)))
  | n + 1, wait, r => by
    unfold Csn.retried
    exact bind (perform henv _ _ _) (fun a _ => ite (pure trivial) (bind (emit _) (fun _ _ => retried henv ks u n _ _)))

theorem httpGet (henv : Env) (h : Http) (id : Id) (out : Bytes) : Ind A Any (httpGet henv h id out) := by
  unfold Csn.httpGet
  refine ite (bind (Q := Any) (stop _) (fun _ _ => ?_)) ?_ <;>
  exact bind (alloc _) (fun a _ => ite (pure trivial)
    (bind (retried henv _ _ _ _ _) (fun _ _ => pure trivial)))

theorem storeInsertM (v : Bool) (idx : Index) (seg : Seg) : Ind A Any (storeInsertM v idx seg) := by
  unfold Csn.storeInsertM
  refine bind (insert _ _ _ _) (fun a _ => ?_)
  split <;> exact pure trivial

theorem indexInit (n : Nat) : Ind A Any (indexInit n) := by
  unfold Csn.indexInit
  repeat' (first
    | exact pure trivial
    | exact stop _
    | exact alloc _
    | refine bind (Q := Any) ?_ (fun _ _ => ?_)
    | split
    | dsimp only)

/-- A store's file is allowed. -/
abbrev LocOk (A : Allow) (l : Loc) : Prop := A.file l.ino

theorem storeScan (env : LEnv) {l : Loc} (hl : LocOk A l) : Ind A (fun r => LocOk A r.2) (storeScan env l) := by
  unfold Csn.storeScan
  refine bind (emit _) (fun _ _ => bind (fdSize hl) (fun a _ => ?_))
  cases a with
  | none => exact pure hl
  | some n =>
    refine bind (indexInit _) (fun a _ => ?_)
    cases a with
    | none => exact pure hl
    | some idx => exact bind (scanInto env hl _) (fun a _ => pure hl)

theorem ld64le (b : Bytes) (o : Nat) : Ind A Any (ld64le b o) := by
  unfold Csn.ld64le
  exact ite (pure' trivial) (stop _)

theorem ldBytes (b : Bytes) (o n : Nat) : Ind A Any (ldBytes b o n) := by
  unfold Csn.ldBytes
  exact ite (pure' trivial) (stop _)

theorem loadSectionHeader {i : Nat} (hi : A.file i) (o : Nat) : Ind A Any (loadSectionHeader i o) := by
  unfold Csn.loadSectionHeader
  refine bind (readall hi _ _) (fun a _ => ?_)
  split
  · exact pure trivial
  · exact bind (ld64le _ _) (fun _ _ => bind (ld64le _ _) (fun _ _ => pure trivial))

theorem loadIndexHeader {i : Nat} (hi : A.file i) : Ind A Any (loadIndexHeader i) := by
  unfold Csn.loadIndexHeader
  refine bind (loadSectionHeader hi _) (fun a _ => ?_)
  split
  · exact pure trivial
  · refine ite (pure trivial) (ite (pure trivial) (bind (readall hi _ _) (fun a _ => ?_)))
    split
    · exact pure trivial
    · refine bind (ld64le _ _) (fun _ _ => ite (pure trivial) ?_)
      exact bind (ld64le _ _) (fun _ _ => bind (ld64le _ _) (fun _ _ => bind (ld64le _ _) (fun _ _ => pure trivial)))

theorem validateTableHeader {i : Nat} (hi : A.file i) : Ind A Any (validateTableHeader i) := by
  unfold Csn.validateTableHeader
  refine bind (loadSectionHeader hi _) (fun a _ => ?_)
  split <;> exact pure trivial

theorem validateTableFooter {i : Nat} (hi : A.file i) (n : Nat) : Ind A Any (validateTableFooter i n) := by
  unfold Csn.validateTableFooter
  repeat' (first
    | exact pure trivial
    | exact ld64le _ _
    | exact lseek _
    | exact readall hi _ _
    | refine bind (Q := Any) ?_ (fun _ _ => ?_)
    | split
    | dsimp only)

theorem caibxLoadHeader {i : Nat} (hi : A.file i) : Ind A Any (caibxLoadHeader i) := by
  unfold Csn.caibxLoadHeader
  refine bind (fdSize hi) (fun a _ => ?_)
  cases a with
  | none => exact pure trivial
  | some size =>
    refine ite (pure trivial) (ite (pure trivial) ?_)
    refine bind (lseek _) (fun _ _ => ite (pure trivial) (bind (loadIndexHeader hi) (fun a _ => ?_)))
    cases a with
    | none => exact pure trivial
    | some p =>
      refine bind (validateTableHeader hi) (fun _ _ => ite (pure trivial) ?_)
      exact bind (validateTableFooter hi _) (fun _ _ => ite (pure trivial) (pure trivial))

theorem iterLoop {σ : Type} {I : σ → Prop} {ino : Nat} (hi : A.file ino) (p : Params) {cb : σ → Seg → M (Bool × σ)}
    (hcb : ∀ s seg, I s → Ind A (fun r => I r.2) (cb s seg)) :
    ∀ n pos last s, I s → Ind A (fun r => I r.2) (iterLoop ino p cb n pos last s) := by
  intro n
  induction n with
  | zero => intro pos last s hs; exact pure hs
  | succ n ih =>
    intro pos last s hs
    unfold Csn.iterLoop
    refine bind (readall hi _ _) (fun a _ => ?_)
    split
    · exact pure hs
    · refine bind (ld64le _ _) (fun _ _ => bind (ldBytes _ _ _) (fun _ _ => ?_))
      dsimp only
      refine ite (ih _ _ _ hs) (bind (hcb _ _ hs) (fun a ha => ?_))
      split
      · exact pure ha
      · exact ih _ _ _ ha

theorem caibxIterate {σ : Type} {I : σ → Prop} {ino : Nat} (hi : A.file ino) (p : Params) (n : Nat) {cb : σ → Seg → M (Bool × σ)}
    (hcb : ∀ s seg, I s → Ind A (fun r => I r.2) (cb s seg)) {s : σ} (hs : I s) : Ind A (fun r => I r.2) (caibxIterate ino p n cb s) := by
  unfold Csn.caibxIterate
  exact bind (lseek _) (fun _ _ => ite (pure hs) (iterLoop hi p hcb _ _ _ _ hs))

theorem storeSideload {l : Loc} (hl : LocOk A l) {path : Bytes} (hp : A.path path) : Ind A (fun r => LocOk A r.2) (storeSideload l path) := by
  unfold Csn.storeSideload
  refine bind (openPath hp) (fun a ha => ?_)
  cases a with
  | none => exact pure hl
  | some ino =>
    have hi := ha ino rfl
    refine bind (caibxLoadHeader hi) (fun a _ => ?_)
    split
    · exact pure hl
    · refine ite (pure hl) (bind (indexInit _) (fun a _ => ?_))
      split
      · exact pure hl
      · refine bind (caibxIterate (I := Any) hi _ _ (fun _ _ _ => weaken (storeInsertM _ _ _) (fun _ _ => trivial)) trivial) (fun a _ => ?_)
        split <;> exact pure hl

theorem localNew (env : LEnv) {path : Bytes} (hp : A.path path) {index : Option Bytes} (hx : ∀ q, index = some q → A.path q) (p : Params) :
    Ind A (fun r => ∀ l, r = some l → LocOk A l) (localNew env path index p) := by
  unfold Csn.localNew
  refine bind (alloc _) (fun a _ => ite (pure (by simp)) (bind (openPath hp) (fun a ha => ?_)))
  cases a with
  | none => exact pure (by simp)
  | some ino =>
    have hi := ha ino rfl
    have scan : ∀ l : Loc, LocOk A l → Ind A (fun r => ∀ l, r = some l → LocOk A l) (do
      match ← Csn.storeScan env l with
      | (false, _) => return none
      | (true, l) => return some l : M (Option Loc)) := by
      intro l hl
      refine bind (storeScan env hl) (fun a ha => ?_)
      split
      · exact pure (by simp)
      · exact pure (fun l' h => by cases h; exact ha)
    dsimp only
    cases index with
    | none => exact scan _ hi
    | some ipath =>
      refine bind (storeSideload (l := ⟨ino, .null, p⟩) hi (hx ipath rfl)) (fun a ha => ?_)
      split
      · exact pure (fun l' h => by cases h; exact ha)
      · exact scan _ ha

theorem localGet (env : LEnv) : ∀ (fuel : Nat) {l : Loc} (_ : LocOk A l) (id : Id) (out : Bytes), Ind A (fun r => LocOk A r.2.1) (localGet env fuel l id out)
  | 0, _, _, _, _ => stop _
  | fuel + 1, l, hl, id, out => by
    unfold Csn.localGet
    split
    · exact stop _
    · exact stop _
    · split
      · exact pure hl
      · split
        · exact stop _
        · refine ite (pure hl) (bind (preadall hl _ _) (fun a _ => ?_))
          dsimp only
          refine ite (pure hl) (ite (pure hl) (ite (pure hl) (bind (storeScan env (l := { l with idx := .freed }) hl) (fun a ha => ?_))))
          split
          · exact pure ha
          · exact localGet env fuel ha id _

/-- The target's file is allowed. -/
abbrev TgtOk (A : Allow) (t : Tgt) : Prop := A.file t.ino

theorem targetAdd (lib : Lib) {t : Tgt} (ht : TgtOk A t) (len off : Nat) (id : Id) : Ind A (TgtOk A) (targetAdd lib t len off id) := by
  unfold Csn.targetAdd
  refine ite (pure ht) ?_
  split
  · exact pure ht
  · exact bind (insert _ _ _ _) (fun _ _ => pure ht)

theorem targetCheck (henv : Env) {t : Tgt} (ht : TgtOk A t) (buf : Bytes) (len off : Nat) (id : Id) :
    Ind A (fun r => TgtOk A r.2.1) (targetCheck henv t buf len off id) := by
  unfold Csn.targetCheck
  have rest : Ind A (fun r => TgtOk A r.2.1) (do
      let (ok, d) ← Csn.preadall t.ino off len
      let buf := bufWrite buf 0 d
      if !ok then return (none, t, buf)
      if henv.H (buf.take len) ≠ id then return (some false, t, buf)
      let t ← Csn.targetAdd henv.lib t len off id
      return (some true, t, buf) : M (Option Bool × Tgt × Bytes)) := by
    refine bind (preadall ht _ _) (fun a _ => ?_)
    dsimp only
    exact ite (pure ht) (ite (pure ht) (bind (targetAdd _ ht _ _ _) (fun t' ht' => pure ht')))
  exact ite (bind (Q := Any) (stop _) (fun _ _ => rest)) rest

theorem targetGet (lib : Lib) {t : Tgt} (ht : TgtOk A t) (id : Id) (out : Bytes) : Ind A (fun r => TgtOk A r.2.1) (targetGet lib t id out) := by
  unfold Csn.targetGet
  refine ite (pure ht) ?_
  split
  · exact pure ht
  · dsimp only
    repeat' (first
      | exact pure ht
      | exact stop _
      | exact preadall ht _ _
      | refine bind (Q := Any) ?_ (fun _ _ => ?_)
      | split
      | dsimp only)

theorem targetWrite (lib : Lib) {t : Tgt} (ht : TgtOk A t) (buf : Bytes) (len off : Nat) (id : Id) :
    Ind A (fun r => TgtOk A r.2) (targetWrite lib t buf len off id) := by
  unfold Csn.targetWrite
  have rest : Ind A (fun r => TgtOk A r.2) (do
      if !(← Csn.pwriteall t.ino (buf.take len) off) then return (false, t)
      let t ← Csn.targetAdd lib t len off id
      return (true, t) : M (Bool × Tgt)) :=
    bind (pwriteall ht _ _) (fun a _ => ite (pure ht) (bind (targetAdd _ ht _ _ _) (fun t' ht' => pure ht')))
  exact ite (bind (Q := Any) (stop _) (fun _ _ => rest)) rest

theorem targetNew {path : Bytes} (hp : A.path path) : Ind A (fun r => ∀ t, r = some t → TgtOk A t) (targetNew path) := by
  unfold Csn.targetNew
  refine bind (alloc _) (fun a _ => ite (pure (by simp)) (bind (openPath hp) (fun a ha => ?_)))
  cases a with
  | none => exact pure (by simp)
  | some ino => exact pure (fun t h => by cases h; exact ha ino rfl)

theorem targetAsStore {t : Tgt} (ht : TgtOk A t) (n : Nat) : Ind A (fun r => TgtOk A r.2) (targetAsStore t n) := by
  unfold Csn.targetAsStore
  refine ite (pure ht) (bind (indexInit _) (fun a _ => ?_))
  split <;> exact pure ht

/-- A store's file, if it has one, is allowed. -/
def StoreOk (A : Allow) : Store → Prop
  | .loc l => LocOk A l
  | _ => True

abbrev SubsOk (A : Allow) (subs : List (Sub Store)) : Prop := ∀ s ∈ subs, StoreOk A s.s

theorem storeGet (henv : Env) {t : Tgt} (ht : TgtOk A t) {s : Store} (hs : StoreOk A s) (id : Id) (out : Bytes) :
    Ind A (fun r => TgtOk A r.2.1 ∧ StoreOk A r.2.2.1) (storeGet henv t s id out) := by
  unfold Csn.storeGet
  cases s with
  | loc l => exact bind (localGet _ _ hs _ _) (fun a ha => pure ⟨ht, ha⟩)
  | http h => exact bind (httpGet henv _ _ _) (fun _ _ => pure ⟨ht, trivial⟩)
  | target => exact bind (targetGet _ ht _ _) (fun a ha => pure ⟨ha, trivial⟩)

theorem chainLoop (henv : Env) (id : Id) : ∀ (subs : List (Sub Store)) (i : Nat) (t : Tgt) (out : Bytes), TgtOk A t → SubsOk A subs →
    Ind A (fun r => TgtOk A r.2.1 ∧ SubsOk A r.2.2.1) (chainLoop (Csn.storeGet henv) id i t subs out)
  | [], _, _, _, ht, _ => pure ⟨ht, fun _ h => by simp at h⟩
  | sub :: subs, i, t, out, ht, hs => by
    have hsub : StoreOk A sub.s := hs sub (by simp)
    have hrest : SubsOk A subs := fun s h => hs s (by simp [h])
    unfold Csn.chainLoop
    refine ite (bind (chainLoop henv id subs _ _ _ ht hrest) (fun a ha => pure ⟨ha.1, ?_⟩)) ?_
    · intro s h
      rcases List.mem_cons.1 h with rfl | h
      · exact hsub
      · exact ha.2 s h
    · refine bind (emit _) (fun _ _ => bind (storeGet henv ht hsub _ _) (fun a ha => ?_))
      dsimp only
      split
      · refine bind (emit _) (fun _ _ => bind (chainLoop henv id subs _ _ _ ha.1 hrest) (fun b hb => pure ⟨hb.1, ?_⟩))
        intro s h
        rcases List.mem_cons.1 h with rfl | h
        · exact ha.2
        · exact hb.2 s h
      · refine pure ⟨ha.1, ?_⟩
        intro s h
        rcases List.mem_cons.1 h with rfl | h
        · exact ha.2
        · exact hrest s h
      · refine bind (chainLoop henv id subs _ _ _ ha.1 hrest) (fun b hb => pure ⟨hb.1, ?_⟩)
        intro s h
        rcases List.mem_cons.1 h with rfl | h
        · exact ha.2
        · exact hb.2 s h

theorem chainGet (henv : Env) {t : Tgt} (ht : TgtOk A t) {c : Chain Store} (hc : SubsOk A c.subs) (id : Id) (out : Bytes) :
    Ind A (fun r => TgtOk A r.2.1 ∧ SubsOk A r.2.2.1.subs) (chainGet (Csn.storeGet henv) t c id out) := by
  unfold Csn.chainGet
  exact bind (emit _) (fun _ _ => bind (chainLoop henv _ _ _ _ _ ht hc) (fun a ha => bind (emit _) (fun _ _ => pure ha)))

theorem chainNew (hint : Nat) : Ind A (fun r => ∀ c, r = some c → SubsOk A c.subs) (chainNew Store hint) := by
  unfold Csn.chainNew
  refine bind (alloc _) (fun a _ => ite (pure (by simp)) ?_)
  dsimp only
  exact bind (alloc _) (fun a _ => ite (pure (by simp)) (pure (fun c h => by cases h; intro _ h; simp at h)))

theorem chainAppend {c : Chain Store} (hc : SubsOk A c.subs) {s : Store} (hs : StoreOk A s) : Ind A (fun r => SubsOk A r.2.subs) (chainAppend c s) := by
  have app : ∀ {h}, SubsOk A (c.subs ++ [⟨s, true, h⟩]) := by
    intro _ x hx
    rcases List.mem_append.1 hx with hx | hx
    · exact hc x hx
    · rw [List.mem_singleton] at hx
      subst hx
      exact hs
  unfold Csn.chainAppend
  dsimp only
  refine ite (bind (alloc _) (fun a _ => ite ?_ ?_)) ?_
  · exact bind (pure (Q := fun g => g = none) rfl) (fun g hg => by subst hg; exact pure hc)
  · exact bind (pure (Q := fun g => g = some _) rfl) (fun g hg => by subst hg; exact ite (stop _) (pure app))
  · exact bind (pure (Q := fun g => g = some _) rfl) (fun g hg => by subst hg; exact ite (stop _) (pure app))

theorem freeAll : ∀ subs : List (Sub Store), Ind A Any (freeAll subs)
  | [] => pure trivial
  | s :: r => by
    unfold Csn.freeAll
    have ih := freeAll r
    dsimp only
    split
    · refine bind (Q := Any) ?_ (fun _ _ => ih)
      unfold localFree
      split
      · exact stop _
      · exact pure' trivial
    · exact ih

/-- The files in the callback's state are allowed. -/
abbrev CbOk (A : Allow) (c : Cb) : Prop := TgtOk A c.tgt ∧ SubsOk A c.chain.subs

theorem entryCb (henv : Env) (c : Cb) (e : Seg) (hc : CbOk A c) : Ind A (fun r => CbOk A r.2) (entryCb henv c e) := by
  unfold Csn.entryCb
  extract_lets jp store
  have hstore : ∀ c : Cb, CbOk A c → Ind A (fun r => CbOk A r.2) (store c) := by
    intro c hc
    dsimp only [store]
    refine ite (bind (chainGet henv hc.1 hc.2 _ _) (fun a ha => ?_)) ?_
    · refine ite ?_ ?_
      · exact bind (pure (Q := fun g => g = (true, _)) rfl) (fun g hg => by subst hg; exact bind (targetWrite _ ha.1 _ _ _ _) (fun b hb => pure ⟨hb, ha.2⟩))
      · exact bind (pure (Q := fun g => g = (false, _)) rfl) (fun g hg => by subst hg; exact pure ha)
    · exact bind (pure (Q := fun g => g = (true, _)) rfl) (fun g hg => by subst hg; exact bind (targetWrite _ hc.1 _ _ _ _) (fun b hb => pure ⟨hb, hc.2⟩))
  refine ite (ite (pure hc) (bind (targetCheck henv hc.1 _ _ _ _) (fun a ha => ?_))) (hstore c hc)
  dsimp only
  exact ite (pure ⟨ha, hc.2⟩) (hstore _ ⟨ha, hc.2⟩)

/-- The values of options are parts of arguments. -/
theorem getopt_store (posix : Bool) : ∀ (args : List Bytes) (want : Option Long) (non : List Bytes) (v : Bytes),
    Opt.store v ∈ (getopt posix want non args).1 → ∃ a ∈ args, v <:+: a
  | [], want, non, v, h => by
    unfold getopt at h
    dsimp only at h
    split at h <;> simp at h
  | a :: r, want, non, v, h => by
    have wa : ∀ (o : Long) (x : Bytes) (os : List Opt), Opt.store v ∈ o.withArg x :: os → v = x ∨ Opt.store v ∈ os := by
      intro o x os h
      rcases List.mem_cons.1 h with h | h
      · cases o <;> simp [Long.withArg] at h
        · exact Or.inl h
        · exact Or.inl h
      · exact Or.inr h
    have up : (∃ a ∈ r, v <:+: a) → ∃ b ∈ a :: r, v <:+: b := fun ⟨b, hb, h⟩ => ⟨b, List.mem_cons_of_mem _ hb, h⟩
    unfold getopt at h
    split at h
    · dsimp only at h
      rcases wa _ _ _ h with rfl | h
      · exact ⟨_, List.mem_cons_self, List.infix_rfl⟩
      · exact up (getopt_store posix r none non v h)
    · split at h
      · simp at h
      · split at h
        · dsimp only at h
          split at h
          · simp at h
          · split at h
            · dsimp only at h
              rcases wa _ _ _ h with rfl | h
              · exact ⟨_, List.mem_cons_self, ((List.drop_suffix _ _).trans (List.drop_suffix _ _)).isInfix⟩
              · exact up (getopt_store posix r none non v h)
            · split at h
              · simp at h
              · exact up (getopt_store posix r _ non v h)
        · split at h
          · dsimp only at h
            split at h <;> simp at h
          · split at h
            · simp at h
            · exact up (getopt_store posix r none _ v h)

/-- Everything in an argument is allowed as path. -/
abbrev ArgOk (A : Allow) (a : Bytes) : Prop := ∀ q, q <:+: a → A.path q

theorem makeStore (henv : Env) (tpath : Bytes) (n : Nat) (p : Params) {t : Tgt} (ht : TgtOk A t) {arg : Bytes} (ha : ArgOk A arg) :
    Ind A (fun r => ∀ s t', r = some (s, t') → StoreOk A s ∧ TgtOk A t') (makeStore henv tpath n p t arg) := by
  unfold Csn.makeStore
  refine ite ?_ (ite ?_ ?_)
  · refine bind (targetAsStore ht _) (fun a ha => ?_)
    split
    · exact pure (by simp)
    · exact pure (fun s t' h => by cases h; exact ⟨trivial, ha⟩)
  · refine bind (httpNew henv ha) (fun a _ => ?_)
    split
    · exact pure (by simp)
    · exact pure (fun s t' h => by cases h; exact ⟨trivial, ht⟩)
  · dsimp only
    refine bind (localNew henv.toLEnv (ha _ (List.takeWhile_prefix _).isInfix) (fun q hq => ?_) p) (fun a hl => ?_)
    · split at hq
      · cases hq
        exact ha _ (List.drop_suffix _ _).isInfix
      · cases hq
    · split
      · exact pure (by simp)
      · exact pure (fun s t' h => by cases h; exact ⟨hl _ rfl, ht⟩)

theorem appendStore (henv : Env) (tpath : Bytes) (n : Nat) (p : Params) {t : Tgt} (ht : TgtOk A t) {c : Chain Store} (hc : SubsOk A c.subs)
    {arg : Bytes} (ha : ArgOk A arg) : Ind A (fun r => TgtOk A r.2.1 ∧ SubsOk A r.2.2.subs) (appendStore henv tpath n p t c arg) := by
  unfold Csn.appendStore
  refine bind (makeStore henv tpath n p ht ha) (fun a h => ?_)
  split
  · exact pure ⟨ht, hc⟩
  · next s t' =>
    have := h s t' rfl
    exact bind (chainAppend hc this.1) (fun b hb => pure ⟨this.2, hb⟩)

theorem appendAll (henv : Env) (tpath : Bytes) (n : Nat) (p : Params) : ∀ (as : List Bytes) (t : Tgt) (c : Chain Store), TgtOk A t → SubsOk A c.subs →
    (∀ a ∈ as, ArgOk A a) → Ind A (fun r => TgtOk A r.2.1 ∧ SubsOk A r.2.2.subs) (appendAll henv tpath n p t c as)
  | [], _, _, ht, hc, _ => pure ⟨ht, hc⟩
  | a :: as, t, c, ht, hc, ha => by
    unfold Csn.appendAll
    refine bind (appendStore henv tpath n p ht hc (ha a (by simp))) (fun a h => ?_)
    split
    · exact pure h
    · exact appendAll henv tpath n p as _ _ h.1 h.2 (fun a ha' => ha a (by simp [ha']))

theorem openBoth {ipath tpath : Bytes} (hi : A.path ipath) (ht : A.path tpath) :
    Ind A (fun r => ∀ i p n t, r = some (i, p, n, t) → A.file i ∧ TgtOk A t) (openBoth ipath tpath) := by
  unfold Csn.openBoth
  refine bind (openPath hi) (fun a ha => ?_)
  cases a with
  | none => exact pure (by simp)
  | some iino =>
    refine bind (caibxLoadHeader (ha iino rfl)) (fun a _ => ?_)
    split
    · exact pure (by simp)
    · refine bind (targetNew ht) (fun a htt => ?_)
      cases a with
      | none => exact pure (by simp)
      | some t => exact pure (fun i p n t' h => by cases h; exact ⟨ha _ rfl, htt t rfl⟩)

/-- The files of a setup are allowed. -/
abbrev SetupOk (A : Allow) (s : Setup) : Prop := A.file s.iino ∧ TgtOk A s.tgt ∧ SubsOk A s.chain.subs

theorem csn (henv : Env) {args : List Bytes} (ha : ∀ a ∈ args, ArgOk A a) : Ind A (fun r => ∀ s, r = some s → SetupOk A s) (csn henv args) := by
  unfold Csn.csn
  split
  · next ipath tpath s ss =>
    have self : ∀ a ∈ ipath :: tpath :: s :: ss, A.path a := fun a h => ha a h a List.infix_rfl
    refine ite (pure (by simp)) (bind (openBoth (self ipath (by simp)) (self tpath (by simp))) (fun a h => ?_))
    split
    · exact pure (by simp)
    · next iino p n t =>
      have hb := h iino p n t rfl
      refine bind (chainNew _) (fun a hc => ?_)
      split
      · exact pure (by simp)
      · next c =>
        refine bind (appendAll henv _ _ _ _ _ _ hb.2 (hc c rfl) (fun a h => ha a (List.mem_cons_of_mem _ (List.mem_cons_of_mem _ h)))) (fun a h => ?_)
        split
        · exact pure (by simp)
        · exact pure (fun s' h' => by cases h'; exact ⟨hb.1, h⟩)
  · exact pure (by simp)

theorem finish (c : Cb) : Ind A Any (finish c) := by
  unfold Csn.finish reportSkipped
  exact bind (Q := Any) (ite (pure trivial) (emit _)) (fun _ _ => bind (emit _) (fun _ _ => bind (freeAll _) (fun _ _ => pure trivial)))

theorem sync (henv : Env) {s : Setup} (hs : SetupOk A s) : Ind A Any (sync henv s) := by
  unfold Csn.sync
  refine bind (caibxIterate (I := CbOk A) hs.1 _ _ (fun c e => entryCb henv c e) hs.2) (fun a _ => ?_)
  split
  · exact pure trivial
  · exact finish _

theorem csnMain (henv : Env) {args : List Bytes} (ha : ∀ a ∈ args, ArgOk A a) : Ind A Any (csnMain henv args) := by
  unfold Csn.csnMain
  refine bind (csn henv ha) (fun a h => ?_)
  split
  · exact pure trivial
  · exact sync henv (h _ rfl)

theorem casyncOpts (henv : Env) (tpath : Bytes) (n : Nat) (p : Params) : ∀ (os : List Opt) (t : Tgt) (c : Chain Store), TgtOk A t → SubsOk A c.subs →
    (∀ a, Opt.store a ∈ os → ArgOk A a) → Ind A (fun r => (∀ t c, r = .done t c → TgtOk A t ∧ SubsOk A c.subs) ∧ ∀ t, r = .help t → TgtOk A t) (casyncOpts henv tpath n p t c os)
  | [], _, _, ht, hc, _ => pure ⟨fun t c h => by cases h; exact ⟨ht, hc⟩, by simp⟩
  | .help :: _, _, _, ht, _, _ => pure ⟨by simp, fun t h => by cases h; exact ht⟩
  | .store a :: r, t, c, ht, hc, ha => by
    unfold Csn.casyncOpts
    refine bind (appendStore henv tpath n p ht hc (ha a (by simp))) (fun a h => ?_)
    split
    · exact pure (by simp)
    · exact casyncOpts henv tpath n p r _ _ h.1 h.2 (fun a ha' => ha a (by simp [ha']))
  | .seedOutput _ :: r, t, c, ht, hc, ha => by
    unfold Csn.casyncOpts
    exact casyncOpts henv tpath n p r _ _ ht hc (fun a ha' => ha a (by simp [ha']))
  | .bad :: _, _, _, _, _, _ => stop _

theorem casync (henv : Env) (posix : Bool) {args : List Bytes} (ha : ∀ a ∈ args, ArgOk A a) :
    Ind A (fun r => (∀ s, r = some (.ready s) → SetupOk A s) ∧ ∀ i p n t, r = some (.noStore i p n t) → A.file i ∧ TgtOk A t) (casync henv posix args) := by
  unfold Csn.casync
  by_cases hlen : args.length + 1 < 3
  · rw [if_pos hlen]
    exact stop _
  rw [if_neg hlen]
  have self : ∀ i, i < args.length → A.path (args.getD i []) := by
    intro i hi
    have : args.getD i [] ∈ args := by
      rw [List.getD_eq_getElem?_getD, List.getElem?_eq_getElem hi]
      exact List.getElem_mem hi
    exact ha _ this _ List.infix_rfl
  refine bind (openBoth (self _ (by omega)) (self _ (by omega))) (fun a h => ?_)
  split
  · exact pure (by simp)
  · next iino p n t =>
    have hb := h iino p n t rfl
    refine bind (chainNew _) (fun a hc => ?_)
    split
    · exact pure (by simp)
    · next c =>
      refine bind (casyncOpts henv _ _ _ _ _ _ hb.2 (hc c rfl) (fun v hv => ?_)) (fun a ⟨h, hh⟩ => ?_)
      · obtain ⟨a, hm, hi⟩ := getopt_store posix args none [] v hv
        exact fun q hq => ha a hm q (hq.trans hi)
      · split
        · exact pure (by simp)
        · refine pure ⟨by simp, fun i p n t h => ?_⟩
          cases h
          exact ⟨hb.1, hh _ rfl⟩
        · next t' c' =>
          refine ite (stop _) (pure ⟨fun s hs => ?_, by simp⟩)
          cases hs
          exact ⟨hb.1, h _ _ rfl⟩

theorem syncNoStore (henv : Env) {iino : Nat} (hi : A.file iino) (p : Params) (n : Nat) {t : Tgt} (ht : TgtOk A t) : Ind A Any (syncNoStore henv iino p n t) := by
  unfold Csn.syncNoStore
  refine bind (caibxIterate (I := fun c : Tgt × Bytes => TgtOk A c.1) hi _ _ (fun c e hc => ?_) ht) (fun a _ => ?_)
  · unfold entryCbNoStore
    refine ite (pure hc) (bind (targetCheck henv hc _ _ _ _) (fun a ha => ?_))
    dsimp only
    exact ite (pure ha) (stop _)
  · split
    · exact pure trivial
    · exact stop _

theorem casyncMain (henv : Env) (posix : Bool) {args : List Bytes} (ha : ∀ a ∈ args, ArgOk A a) : Ind A Any (casyncMain henv posix args) := by
  unfold Csn.casyncMain
  refine bind (casync henv posix ha) (fun a h => ?_)
  split
  · exact pure trivial
  · exact sync henv (h.1 _ rfl)
  · exact syncNoStore henv (h.2 _ _ _ _ rfl).1 _ _ (h.2 _ _ _ _ rfl).2

theorem appMain (henv : Env) (posix : Bool) (argv0 : Bytes) {args : List Bytes} (ha : ∀ a ∈ args, ArgOk A a) : Ind A Any (appMain henv posix argv0 args) := by
  unfold Csn.appMain
  dsimp only
  exact ite (csnMain henv ha) (ite (casyncMain henv posix ha) (pure trivial))

theorem patchLoop {src dst : Nat} (hs : A.file src) (hd : A.file dst) (T size : Nat) :
    ∀ (fuel offset skipped : Nat), Ind A Any (patchLoop T src dst size fuel offset skipped)
  | 0, offset, skipped => by
    unfold Csn.patchLoop
    exact ite (stop _) (pure trivial)
  | fuel + 1, offset, skipped => by
    unfold Csn.patchLoop
    repeat' (first
      | exact pure trivial
      | exact preadall hs _ _
      | exact preadall hd _ _
      | exact pwriteall hd _ _
      | exact patchLoop hs hd T size fuel _ _
      | refine bind (Q := Any) ?_ (fun _ _ => ?_)
      | split
      | dsimp only)

theorem patchdd (T : Nat) {args : List Bytes} (ha : ∀ a ∈ args, A.path a) : Ind A Any (patchdd T args) := by
  unfold Csn.patchdd
  split
  · next a b l =>
    refine ite (pure trivial) (bind (openPath (ha a (by simp))) (fun x hx => ?_))
    cases x with
    | none => exact pure trivial
    | some src =>
      refine bind (openPath (ha b (by simp))) (fun y hy => ?_)
      cases y with
      | none => exact pure trivial
      | some dst =>
        have hs := hx src rfl
        have hd := hy dst rfl
        repeat' (first
          | exact pure trivial
          | exact emit _
          | exact fdSize hs
          | exact fdSize hd
          | exact patchLoop hs hd _ _ _ _ _
          | exact sysOk
          | refine bind (Q := Any) ?_ (fun _ _ => ?_)
          | split
          | dsimp only)
  · exact pure trivial

end Ind
end Csn.Proof
