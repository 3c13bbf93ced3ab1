import Verif.Proof.Slurp
import Verif.Model.Main
import Verif.Model.Casync
import Verif.Model.Patchdd
import Verif.Model.Tool
/-
Induction over programs: a statement about computations that holds for the operations on the outside world and passes from
the parts of a sequence to the whole holds for all modelled programs.
-/
namespace Csn.Proof
open Csn

/-- Events other than writes and creations, which are recorded by the operations themselves. -/
def Plain : Event → Prop
  | .write _ _ _ => False
  | .create _ => False
  | _ => True

/-- Events of the store chain. -/
def ChainEv : Event → Prop
  | .query _ => True
  | .ask _ _ => True
  | .failed _ => True
  | .answer _ _ => True
  | _ => False

/-- Events of the store chain, and what is reported at the end. -/
def TopEv : Event → Prop
  | .skipped _ => True
  | .stats _ _ => True
  | e => ChainEv e

theorem ChainEv.top {e : Event} (h : ChainEv e) : TopEv e := by cases e <;> first | exact h | exact h.elim

/-- Events of the network. -/
def NetEv : Event → Prop
  | .http _ => True
  | .sleep _ => True
  | _ => False

/-- One item of the network schedule, as taken by `perform`. -/
def netNext (url : Bytes) : M CurlRun := fun w =>
  match w.net with
  | [] => (.stop .killed, w)
  | f :: n => (.ok (f url), { w with net := n })

/-- `P` holds for the events of the network. -/
def NetOps (P : {α : Type} → M α → Prop) : Prop := ∀ e, NetEv e → P (M.emit e)

/-- `P` holds for the elementary operations on memory and files (writing to files only if `wr`) and for sequences of computations
for which it holds. -/
structure ClosedA (wr : Prop) (P : {α : Type} → M α → Prop) : Prop where
  pure : ∀ {α : Type} (a : α), P (Pure.pure a : M α)
  bind : ∀ {α β : Type} (m : M α) (f : α → M β), P m → (∀ a, P (f a)) → P (m >>= f)
  alloc : ∀ n, P (M.alloc n)
  sysOk : P M.sysOk
  openPath : ∀ p, P (openPath p)
  fdSize : ∀ i, P (fdSize i)
  preadall : ∀ i o n, P (preadall i o n)
  pwriteall : wr → ∀ i d o, P (pwriteall i d o)

namespace ClosedA
variable {wr : Prop} {P : {α : Type} → M α → Prop} (C : ClosedA wr P)
include C

theorem ite {α : Type} {c : Prop} [Decidable c] {a b : M α} (ha : P a) (hb : P b) : P (if c then a else b) := by
  split
  · exact ha
  · exact hb

theorem readall (i o n : Nat) : P (readall i o n) := C.preadall i o n

theorem pure' {α : Type} (a : α) : P (M.pure a : M α) := C.pure a

theorem lseek (n : Nat) : P (lseek n) := by
  unfold Csn.lseek
  exact C.bind _ _ C.sysOk (fun _ => C.ite (C.pure _) (C.pure _))

theorem slurpFile (p : Bytes) (t : Bool) : P (slurpFile p t) := by
  rw [slurpFile_eq]
  unfold slurpPlain
  refine C.bind _ _ (C.openPath _) (fun a => ?_)
  cases a with
  | none => exact C.pure _
  | some ino =>
    refine C.bind _ _ (C.fdSize _) (fun a => ?_)
    cases a with
    | none => exact C.pure _
    | some n =>
      refine C.bind _ _ (C.alloc _) (fun a => C.ite (C.pure _) ?_)
      refine C.bind _ _ (C.readall _ _ _) (fun a => ?_)
      split <;> exact C.pure _

theorem parseKeyspec (g : Bytes → Option Bytes) (s : Bytes) : P (parseKeyspec g s) := by
  rw [parseKeyspec_eq]
  refine C.ite (C.pure _) (C.ite ?_ (C.ite ?_ (C.pure _)))
  · split <;> exact C.pure _
  · refine C.bind _ _ (C.slurpFile _ _) (fun a => ?_)
    split <;> exact C.pure _

end ClosedA

/-- As `ClosedA`, including events (those of the store chain only if `wr`, none of the network) and early stops. -/
structure ClosedB (wr : Prop) (P : {α : Type} → M α → Prop) : Prop extends ClosedA wr P where
  stop : ∀ {α : Type} (s : Stop), s ≠ .killed → s ≠ .diverge → P (M.stop s : M α)
  emit : ∀ e, Plain e → (TopEv e → wr) → ¬ NetEv e → P (M.emit e)

namespace ClosedB
variable {wr : Prop} {P : {α : Type} → M α → Prop} (C : ClosedB wr P)
include C

theorem patchLoop (hw : wr) (hd : P (M.stop .diverge : M (Option Nat))) (T src dst size : Nat) :
    ∀ (fuel offset skipped : Nat), P (patchLoop T src dst size fuel offset skipped)
  | 0, offset, skipped => by
    unfold Csn.patchLoop
    exact C.ite hd (C.pure _)
  | fuel + 1, offset, skipped => by
    unfold Csn.patchLoop
    repeat' (first
      | exact C.pure _
      | exact C.preadall _ _ _
      | exact C.pwriteall hw _ _ _
      | exact patchLoop hw hd T src dst size fuel _ _
      | refine C.bind _ _ ?_ (fun _ => ?_)
      | split
      | dsimp only)

/-- patchdd. -/
theorem patchdd (hw : wr) (hd : P (M.stop .diverge : M (Option Nat))) (T : Nat) (args : List Bytes) : P (patchdd T args) := by
  unfold Csn.patchdd
  repeat' (first
    | exact C.pure _
    | exact C.emit _ trivial (fun _ => hw) (fun h => h.elim)
    | exact C.openPath _
    | exact C.fdSize _
    | exact C.patchLoop hw hd _ _ _ _ _ _ _
    | exact C.sysOk
    | refine C.bind _ _ ?_ (fun _ => ?_)
    | split
    | dsimp only)

end ClosedB

/-- As `ClosedB`, including the operations that only csn and casync use. -/
structure Closed0 (wr : Prop) (env : LEnv) (P : {α : Type} → M α → Prop) : Prop extends ClosedB wr P where
  insert : ∀ idx off len id, P (indexInsert idx off len id)
  scanInto : ∀ l idx, P (scanInto env l idx)
  net : ∀ url, P (netNext url)

namespace Closed0
variable {wr : Prop} {env : LEnv} {P : {α : Type} → M α → Prop} (C : Closed0 wr env P)
include C

theorem handleParams (henv : Env) : ∀ (n : Nat) (p : Bytes) (k : Option Bytes), P (handleParams henv n p k)
  | 0, _, _ => C.pure _
  | n + 1, p, k => by
    unfold Csn.handleParams
    refine C.ite (C.pure _) (C.ite ?_ (C.pure _))
    refine C.bind _ _ (C.parseKeyspec _ _) (fun a => ?_)
    cases a with
    | none => exact C.pure _
    | some k =>
      refine C.bind _ _ (C.alloc _) (fun a => C.ite (C.pure _) (C.ite ?_ (C.pure _)))
      exact handleParams henv n _ _

theorem httpNew (henv : Env) (u : Bytes) : P (httpNew henv u) := by
  unfold Csn.httpNew
  dsimp only
  refine C.bind _ _ (C.alloc _) (fun a => C.ite (C.pure _) ?_)
  refine C.bind _ _ (C.alloc _) (fun a => C.ite (C.pure _) ?_)
  split
  · refine C.bind _ _ (C.handleParams henv _ _ _) (fun a => ?_)
    repeat' (first
      | exact C.pure _
      | exact C.alloc _
      | refine C.bind _ _ ?_ (fun _ => ?_)
      | split
      | dsimp only)
  · repeat' (first
      | exact C.pure _
      | exact C.alloc _
      | refine C.bind _ _ ?_ (fun _ => ?_)
      | split
      | dsimp only)

theorem absorb (henv : Env) (ks : Option (Nat → UInt8)) (r : Req) (d : Bytes) : P (absorb henv ks r d) := by
  unfold Csn.absorb
  dsimp only
  repeat' (first
    | exact C.pure _
    | exact C.stop _ (by simp) (by simp)
    | exact C.alloc _
    | refine C.bind _ _ ?_ (fun _ => ?_)
    | split
    | dsimp only)

theorem handleData (henv : Env) (r : Req) (d : Bytes) : P (handleData henv r d) := by
  have run : ∀ r : Req, P (do
    if r.st ≠ .streaming then M.stop .abort
    let room := r.out.length - r.written
    match henv.zstd r.hist room d with
    | none => return (none, { r with hist := r.hist ++ [(room, d)] })
    | some (k, o) =>
      if o.length > room ∨ k > d.length then M.stop .ub
      else return (some k, { r with
        hist := r.hist ++ [(room, d)]
        written := r.written + o.length
        out := bufWrite r.out r.written o }) : M (Option Nat × Req)) := by
    intro r
    have rest : P (match henv.zstd r.hist (r.out.length - r.written) d with
      | none => (return (none, { r with hist := r.hist ++ [(r.out.length - r.written, d)] }) : M (Option Nat × Req))
      | some (k, o) =>
        if o.length > (r.out.length - r.written) ∨ k > d.length then M.stop .ub
        else return (some k, { r with
          hist := r.hist ++ [(r.out.length - r.written, d)]
          written := r.written + o.length
          out := bufWrite r.out r.written o })) := by
      split
      · exact C.pure _
      · exact C.ite (C.stop _ (by simp) (by simp)) (C.pure _)
    exact C.ite (C.bind _ _ (C.stop _ (by simp) (by simp)) (fun _ => rest)) rest
  unfold Csn.handleData
  refine C.ite (C.ite (C.pure _) (C.ite (run _) (C.pure _))) (run _)

theorem dataCb (henv : Env) (ks : Option (Nat → UInt8)) (http : Option Nat) (r : Req) (d : Bytes) : P (dataCb henv ks http r d) := by
  unfold Csn.dataCb
  refine C.ite (C.pure _) (C.ite (C.pure _) (C.ite ?_ ?_))
  · refine C.bind _ _ (C.absorb henv _ _ _) (fun a => ?_)
    split
    · exact C.pure _
    · refine C.bind _ _ (C.handleData henv _ _) (fun a => ?_)
      split <;> exact C.pure _
  · refine C.bind _ _ (C.handleData henv _ _) (fun a => ?_)
    split
    · exact C.pure _
    · refine C.ite ?_ (C.pure _)
      refine C.bind _ _ (C.absorb henv _ _ _) (fun a => ?_)
      split <;> exact C.pure _

theorem deliver (henv : Env) (ks : Option (Nat → UInt8)) (http : Option Nat) : ∀ (fs : List Bytes) (r : Req), P (deliver henv ks http r fs)
  | [], r => C.pure _
  | f :: fs, r => by
    unfold Csn.deliver
    exact C.bind _ _ (C.dataCb henv _ _ _ _) (fun a => C.ite (C.pure _) (deliver henv ks http fs _))

theorem perform (N : NetOps @P) (henv : Env) (ks : Option (Nat → UInt8)) (u : Bytes) (r : Req) : P (perform henv ks u r) := by
  unfold Csn.perform
  exact C.bind _ _ (N _ trivial) (fun _ => C.bind _ _ (C.net u) (fun run => C.bind _ _ (C.deliver henv _ _ _ _) (fun _ => C.pure _)))

theorem retried (N : NetOps @P) (henv : Env) (ks : Option (Nat → UInt8)) (u : Bytes) : ∀ (n wait : Nat) (r : Req), P (retried henv ks u n wait r)
  | 0, wait, r => by
    unfold Csn.retried
    exact C.bind _ _ (C.perform N henv _ _ _) (fun a => C.ite (C.pure _) (C.bind _ _ (N _ trivial) (fun _ => C.pure _)))
  | n + 1, wait, r => by
    unfold Csn.retried
    exact C.bind _ _ (C.perform N henv _ _ _) (fun a => C.ite (C.pure _) (C.bind _ _ (N _ trivial) (fun _ => retried N henv ks u n _ _)))

theorem httpGet (N : NetOps @P) (henv : Env) (h : Http) (id : Id) (out : Bytes) : P (httpGet henv h id out) := by
  unfold Csn.httpGet
  refine C.ite (C.bind _ _ (C.stop _ (by simp) (by simp)) (fun _ => ?_)) ?_ <;>
  exact C.bind _ _ (C.alloc _) (fun a => C.ite (C.pure _)
    (C.bind _ _ (C.retried N henv _ _ _ _ _) (fun _ => C.pure _)))

theorem storeInsertM (v : Bool) (idx : Index) (seg : Seg) : P (storeInsertM v idx seg) := by
  unfold Csn.storeInsertM
  refine C.bind _ _ (C.insert _ _ _ _) (fun a => ?_)
  split <;> exact C.pure _

theorem indexInit (n : Nat) : P (indexInit n) := by
  unfold Csn.indexInit
  repeat' (first
    | exact C.pure _
    | exact C.stop _ (by simp) (by simp)
    | exact C.alloc _
    | refine C.bind _ _ ?_ (fun _ => ?_)
    | split
    | dsimp only)

theorem storeScan (l : Loc) : P (storeScan env l) := by
  unfold Csn.storeScan
  refine C.bind _ _ (C.emit _ trivial (fun h => h.elim) (fun h => h.elim)) (fun _ => C.bind _ _ (C.fdSize _) (fun a => ?_))
  cases a with
  | none => exact C.pure _
  | some n =>
    refine C.bind _ _ (C.indexInit _) (fun a => ?_)
    cases a with
    | none => exact C.pure _
    | some idx => exact C.bind _ _ (C.scanInto _ _) (fun a => C.pure _)

theorem ld64le (b : Bytes) (o : Nat) : P (ld64le b o) := by
  unfold Csn.ld64le
  exact C.ite (C.pure' _) (C.stop _ (by simp) (by simp))

theorem ldBytes (b : Bytes) (o n : Nat) : P (ldBytes b o n) := by
  unfold Csn.ldBytes
  exact C.ite (C.pure' _) (C.stop _ (by simp) (by simp))

theorem loadSectionHeader (i o : Nat) : P (loadSectionHeader i o) := by
  unfold Csn.loadSectionHeader
  refine C.bind _ _ (C.readall _ _ _) (fun a => ?_)
  split
  · exact C.pure _
  · exact C.bind _ _ (C.ld64le _ _) (fun _ => C.bind _ _ (C.ld64le _ _) (fun _ => C.pure _))

theorem loadIndexHeader (i : Nat) : P (loadIndexHeader i) := by
  unfold Csn.loadIndexHeader
  refine C.bind _ _ (C.loadSectionHeader _ _) (fun a => ?_)
  split
  · exact C.pure _
  · refine C.ite (C.pure _) (C.ite (C.pure _) (C.bind _ _ (C.readall _ _ _) (fun a => ?_)))
    split
    · exact C.pure _
    · refine C.bind _ _ (C.ld64le _ _) (fun _ => C.ite (C.pure _) ?_)
      exact C.bind _ _ (C.ld64le _ _) (fun _ => C.bind _ _ (C.ld64le _ _) (fun _ => C.bind _ _ (C.ld64le _ _) (fun _ => C.pure _)))

theorem validateTableHeader (i : Nat) : P (validateTableHeader i) := by
  unfold Csn.validateTableHeader
  refine C.bind _ _ (C.loadSectionHeader _ _) (fun a => ?_)
  split <;> exact C.pure _

theorem validateTableFooter (i n : Nat) : P (validateTableFooter i n) := by
  unfold Csn.validateTableFooter
  repeat' (first
    | exact C.pure _
    | exact C.ld64le _ _
    | exact C.lseek _
    | exact C.readall _ _ _
    | refine C.bind _ _ ?_ (fun _ => ?_)
    | split
    | dsimp only)

theorem caibxLoadHeader (i : Nat) : P (caibxLoadHeader i) := by
  unfold Csn.caibxLoadHeader
  refine C.bind _ _ (C.fdSize _) (fun a => ?_)
  cases a with
  | none => exact C.pure _
  | some size =>
    refine C.ite (C.pure _) (C.ite (C.pure _) ?_)
    refine C.bind _ _ (C.lseek _) (fun _ => C.ite (C.pure _) (C.bind _ _ (C.loadIndexHeader _) (fun a => ?_)))
    cases a with
    | none => exact C.pure _
    | some p =>
      refine C.bind _ _ (C.validateTableHeader _) (fun _ => C.ite (C.pure _) ?_)
      exact C.bind _ _ (C.validateTableFooter _ _) (fun _ => C.ite (C.pure _) (C.pure _))

theorem iterLoop {σ : Type} (ino : Nat) (p : Params) {cb : σ → Seg → M (Bool × σ)} (hcb : ∀ s seg, P (cb s seg)) :
    ∀ n pos last s, P (iterLoop ino p cb n pos last s) := by
  intro n
  induction n with
  | zero => intro pos last s; exact C.pure _
  | succ n ih =>
    intro pos last s
    unfold Csn.iterLoop
    refine C.bind _ _ (C.readall _ _ _) (fun a => ?_)
    split
    · exact C.pure _
    · refine C.bind _ _ (C.ld64le _ _) (fun _ => C.bind _ _ (C.ldBytes _ _ _) (fun _ => ?_))
      dsimp only
      refine C.ite (ih _ _ _) (C.bind _ _ (hcb _ _) (fun a => ?_))
      split
      · exact C.pure _
      · exact ih _ _ _

theorem caibxIterate {σ : Type} (ino : Nat) (p : Params) (n : Nat) {cb : σ → Seg → M (Bool × σ)} (hcb : ∀ s seg, P (cb s seg)) (s : σ) :
    P (caibxIterate ino p n cb s) := by
  unfold Csn.caibxIterate
  exact C.bind _ _ (C.lseek _) (fun _ => C.ite (C.pure _) (C.iterLoop ino p hcb _ _ _ _))

theorem storeSideload (l : Loc) (path : Bytes) : P (storeSideload l path) := by
  unfold Csn.storeSideload
  repeat' (first
    | exact C.pure _
    | exact C.openPath _
    | exact C.caibxLoadHeader _
    | exact C.indexInit _
    | exact C.caibxIterate _ _ _ (fun _ _ => C.storeInsertM _ _ _) _
    | refine C.bind _ _ ?_ (fun _ => ?_)
    | split
    | dsimp only)

theorem localNew (path : Bytes) (index : Option Bytes) (p : Params) : P (localNew env path index p) := by
  unfold Csn.localNew
  repeat' (first
    | exact C.pure _
    | exact C.stop _ (by simp) (by simp)
    | exact C.alloc _
    | exact C.openPath _
    | exact C.storeSideload _ _
    | exact C.storeScan _
    | refine C.bind _ _ ?_ (fun _ => ?_)
    | split
    | dsimp only)

theorem localGet (hd : P (M.stop .diverge : M (Option Nat × Loc × Bytes))) : ∀ (fuel : Nat) (l : Loc) (id : Id) (out : Bytes), P (localGet env fuel l id out)
  | 0, _, _, _ => hd
  | fuel + 1, l, id, out => by
    unfold Csn.localGet
    repeat' (first
      | exact C.pure _
      | exact C.stop _ (by simp) (by simp)
      | exact C.preadall _ _ _
      | exact C.storeScan _
      | exact localGet hd fuel _ _ _
      | refine C.bind _ _ ?_ (fun _ => ?_)
      | split
      | dsimp only)

end Closed0

/-- As `Closed0`, including requests to local stores (which have a loop bounded by the model). -/
structure Closed (wr : Prop) (env : LEnv) (P : {α : Type} → M α → Prop) : Prop extends Closed0 wr env P where
  localGet : ∀ l id out, P (localGet env 2 l id out)

namespace Closed
variable {wr : Prop} {env : LEnv} {P : {α : Type} → M α → Prop} (C : Closed wr env P)
include C

theorem targetAdd (lib : Lib) (t : Tgt) (len off : Nat) (id : Id) : P (targetAdd lib t len off id) := by
  unfold Csn.targetAdd
  refine C.ite (C.pure _) ?_
  split
  · exact C.pure _
  · exact C.bind _ _ (C.insert _ _ _ _) (fun _ => C.pure _)

theorem targetCheck (henv : Env) (t : Tgt) (buf : Bytes) (len off : Nat) (id : Id) : P (targetCheck henv t buf len off id) := by
  unfold Csn.targetCheck
  repeat' (first
    | exact C.pure _
    | exact C.stop _ (by simp) (by simp)
    | exact C.preadall _ _ _
    | exact C.targetAdd _ _ _ _ _
    | refine C.bind _ _ ?_ (fun _ => ?_)
    | split
    | dsimp only)

theorem targetGet (lib : Lib) (t : Tgt) (id : Id) (out : Bytes) : P (targetGet lib t id out) := by
  unfold Csn.targetGet
  repeat' (first
    | exact C.pure _
    | exact C.stop _ (by simp) (by simp)
    | exact C.preadall _ _ _
    | refine C.bind _ _ ?_ (fun _ => ?_)
    | split
    | dsimp only)

theorem targetWrite (hw : wr) (lib : Lib) (t : Tgt) (buf : Bytes) (len off : Nat) (id : Id) : P (targetWrite lib t buf len off id) := by
  unfold Csn.targetWrite
  repeat' (first
    | exact C.pure _
    | exact C.stop _ (by simp) (by simp)
    | exact C.pwriteall hw _ _ _
    | exact C.targetAdd _ _ _ _ _
    | refine C.bind _ _ ?_ (fun _ => ?_)
    | split
    | dsimp only)

theorem targetNew (path : Bytes) : P (targetNew path) := by
  unfold Csn.targetNew
  repeat' (first
    | exact C.pure _
    | exact C.alloc _
    | exact C.openPath _
    | refine C.bind _ _ ?_ (fun _ => ?_)
    | split
    | dsimp only)

theorem targetAsStore (t : Tgt) (n : Nat) : P (targetAsStore t n) := by
  unfold Csn.targetAsStore
  refine C.ite (C.pure _) (C.bind _ _ (C.indexInit _) (fun a => ?_))
  split <;> exact C.pure _

theorem chainLoop (hw : wr) {τ σ : Type} {get : τ → σ → Id → Bytes → M (Option Nat × τ × σ × Bytes)} (hget : ∀ t s id out, P (get t s id out)) (id : Id) :
    ∀ (subs : List (Sub σ)) (i : Nat) (t : τ) (out : Bytes), P (chainLoop get id i t subs out)
  | [], _, _, _ => C.pure _
  | sub :: subs, i, t, out => by
    unfold Csn.chainLoop
    refine C.ite (C.bind _ _ (chainLoop hw hget id subs _ _ _) (fun _ => C.pure _)) ?_
    refine C.bind _ _ (C.emit _ trivial (fun _ => hw) (fun h => h.elim)) (fun _ => C.bind _ _ (hget _ _ _ _) (fun a => ?_))
    dsimp only
    split
    · exact C.bind _ _ (C.emit _ trivial (fun _ => hw) (fun h => h.elim)) (fun _ => C.bind _ _ (chainLoop hw hget id subs _ _ _) (fun _ => C.pure _))
    · exact C.pure _
    · exact C.bind _ _ (chainLoop hw hget id subs _ _ _) (fun _ => C.pure _)

theorem chainGet (hw : wr) {τ σ : Type} {get : τ → σ → Id → Bytes → M (Option Nat × τ × σ × Bytes)} (hget : ∀ t s id out, P (get t s id out)) (t : τ) (c : Chain σ)
    (id : Id) (out : Bytes) : P (chainGet get t c id out) := by
  unfold Csn.chainGet
  exact C.bind _ _ (C.emit _ trivial (fun _ => hw) (fun h => h.elim)) (fun _ => C.bind _ _ (C.chainLoop hw hget _ _ _ _ _) (fun _ =>
    C.bind _ _ (C.emit _ trivial (fun _ => hw) (fun h => h.elim)) (fun _ => C.pure _)))

theorem chainNew (σ : Type) (hint : Nat) : P (chainNew σ hint) := by
  unfold Csn.chainNew
  repeat' (first
    | exact C.pure _
    | exact C.alloc _
    | refine C.bind _ _ ?_ (fun _ => ?_)
    | split
    | dsimp only)

theorem chainAppend {σ : Type} (c : Chain σ) (s : σ) : P (chainAppend c s) := by
  have tail : ∀ g : Option (Chain σ), P (match g with
      | none => (return (false, c) : M (Bool × Chain σ))
      | some c => if c.subs.length ≥ c.space then M.stop .ub
        else return (true, { c with subs := c.subs ++ [⟨s, true, if c.subs.length < c.zeroed then some 0 else none⟩] })) := by
    intro g
    split
    · exact C.pure _
    · exact C.ite (C.stop _ (by simp) (by simp)) (C.pure _)
  unfold Csn.chainAppend
  repeat' (first
    | exact tail _
    | exact C.pure _
    | exact C.stop _ (by simp) (by simp)
    | exact C.alloc _
    | refine C.bind _ _ ?_ (fun _ => ?_)
    | split
    | dsimp only)

theorem storeGet (N : NetOps @P) (henv : Env) (hl : henv.toLEnv = env) (t : Tgt) (s : Store) (id : Id) (out : Bytes) : P (storeGet henv t s id out) := by
  unfold Csn.storeGet
  cases s with
  | loc l => exact C.bind _ _ (by rw [hl]; exact C.localGet _ _ _) (fun _ => C.pure _)
  | http h => exact C.bind _ _ (C.httpGet N henv _ _ _) (fun _ => C.pure _)
  | target => exact C.bind _ _ (C.targetGet _ _ _ _) (fun _ => C.pure _)

theorem freeAll : ∀ subs : List (Sub Store), P (freeAll subs)
  | [] => C.pure _
  | s :: r => by
    unfold Csn.freeAll
    have ih := freeAll r
    dsimp only
    split
    · refine C.bind _ _ ?_ (fun _ => ih)
      unfold localFree
      split
      · exact C.stop _ (by simp) (by simp)
      · exact C.pure' _
    · exact ih

theorem entryCb (hw : wr) (N : NetOps @P) (henv : Env) (hl : henv.toLEnv = env) (c : Cb) (e : Seg) : P (entryCb henv c e) := by
  unfold Csn.entryCb
  repeat' (first
    | exact C.pure _
    | exact C.stop _ (by simp) (by simp)
    | exact C.chainGet hw (C.storeGet N henv hl) _ _ _ _
    | exact C.targetWrite hw _ _ _ _ _ _
    | exact C.targetCheck henv _ _ _ _ _
    | refine C.bind _ _ ?_ (fun _ => ?_)
    | split
    | dsimp only)

theorem makeStore (henv : Env) (hl : henv.toLEnv = env) (tpath : Bytes) (n : Nat) (p : Params) (t : Tgt) (arg : Bytes) : P (makeStore henv tpath n p t arg) := by
  unfold Csn.makeStore
  refine C.ite ?_ (C.ite ?_ ?_)
  · refine C.bind _ _ (C.targetAsStore _ _) (fun a => ?_)
    split <;> exact C.pure _
  · refine C.bind _ _ (C.httpNew henv _) (fun a => ?_)
    split <;> exact C.pure _
  · refine C.bind _ _ (by rw [hl]; exact C.localNew _ _ _) (fun a => ?_)
    split <;> exact C.pure _

theorem appendStore (henv : Env) (hl : henv.toLEnv = env) (tpath : Bytes) (n : Nat) (p : Params) (t : Tgt) (c : Chain Store) (arg : Bytes) :
    P (appendStore henv tpath n p t c arg) := by
  unfold Csn.appendStore
  refine C.bind _ _ (C.makeStore henv hl _ _ _ _ _) (fun a => ?_)
  split
  · exact C.pure _
  · exact C.bind _ _ (C.chainAppend _ _) (fun _ => C.pure _)

theorem appendAll (henv : Env) (hl : henv.toLEnv = env) (tpath : Bytes) (n : Nat) (p : Params) :
    ∀ (as : List Bytes) (t : Tgt) (c : Chain Store), P (appendAll henv tpath n p t c as)
  | [], _, _ => C.pure _
  | a :: as, t, c => by
    unfold Csn.appendAll
    refine C.bind _ _ (C.appendStore henv hl _ _ _ _ _ _) (fun a => ?_)
    split
    · exact C.pure _
    · exact appendAll henv hl tpath n p as _ _

theorem openBoth (ipath tpath : Bytes) : P (openBoth ipath tpath) := by
  unfold Csn.openBoth
  repeat' (first
    | exact C.pure _
    | exact C.openPath _
    | exact C.targetNew _
    | exact C.caibxLoadHeader _
    | refine C.bind _ _ ?_ (fun _ => ?_)
    | split
    | dsimp only)

theorem csn (henv : Env) (hl : henv.toLEnv = env) (args : List Bytes) : P (csn henv args) := by
  unfold Csn.csn
  split
  · refine C.ite (C.pure _) (C.bind _ _ (C.openBoth _ _) (fun a => ?_))
    split
    · exact C.pure _
    · refine C.bind _ _ (C.chainNew _ _) (fun a => ?_)
      split
      · exact C.pure _
      · refine C.bind _ _ (C.appendAll henv hl _ _ _ _ _ _) (fun a => ?_)
        split <;> exact C.pure _
  · exact C.pure _

/-- The end of a synchronisation. -/
theorem finish (hw : wr) (c : Cb) : P (finish c) := by
  unfold Csn.finish reportSkipped
  exact C.bind _ _ (C.ite (C.pure _) (C.emit _ trivial (fun _ => hw) (fun h => h.elim))) (fun _ => C.bind _ _ (C.emit _ trivial (fun _ => hw) (fun h => h.elim)) (fun _ => C.bind _ _ (C.freeAll _) (fun _ => C.pure _)))

theorem sync (hw : wr) (N : NetOps @P) (henv : Env) (hl : henv.toLEnv = env) (s : Setup) : P (sync henv s) := by
  unfold Csn.sync
  refine C.bind _ _ (C.caibxIterate _ _ _ (C.entryCb hw N henv hl) _) (fun a => ?_)
  split
  · exact C.pure _
  · exact C.finish hw _

/-- The csn front end. -/
theorem csnMain (hw : wr) (N : NetOps @P) (henv : Env) (hl : henv.toLEnv = env) (args : List Bytes) : P (csnMain henv args) := by
  unfold Csn.csnMain
  refine C.bind _ _ (C.csn henv hl _) (fun a => ?_)
  split
  · exact C.pure _
  · exact C.sync hw N henv hl _

theorem casyncOpts (henv : Env) (hl : henv.toLEnv = env) (tpath : Bytes) (n : Nat) (p : Params) :
    ∀ (os : List Opt) (t : Tgt) (c : Chain Store), P (casyncOpts henv tpath n p t c os)
  | [], _, _ => C.pure _
  | .help :: _, _, _ => C.pure _
  | .store a :: r, t, c => by
    unfold Csn.casyncOpts
    refine C.bind _ _ (C.appendStore henv hl _ _ _ _ _ _) (fun a => ?_)
    split
    · exact C.pure _
    · exact casyncOpts henv hl tpath n p r _ _
  | .seedOutput _ :: r, t, c => by
    unfold Csn.casyncOpts
    exact casyncOpts henv hl tpath n p r _ _
  | .bad :: _, _, _ => C.stop _ (by simp) (by simp)

theorem casync (henv : Env) (hl : henv.toLEnv = env) (posix : Bool) (args : List Bytes) : P (casync henv posix args) := by
  unfold Csn.casync
  refine C.ite (C.stop _ (by simp) (by simp)) ?_
  dsimp only
  refine C.bind _ _ (C.openBoth _ _) (fun a => ?_)
  split
  · exact C.pure _
  · refine C.bind _ _ (C.chainNew _ _) (fun a => ?_)
    split
    · exact C.pure _
    · refine C.bind _ _ (C.casyncOpts henv hl _ _ _ _ _ _) (fun a => ?_)
      split
      · exact C.pure _
      · exact C.pure _
      · exact C.ite (C.stop _ (by simp) (by simp)) (C.pure _)

theorem syncNoStore (henv : Env) (iino : Nat) (p : Params) (n : Nat) (t : Tgt) : P (syncNoStore henv iino p n t) := by
  unfold Csn.syncNoStore
  refine C.bind _ _ (C.caibxIterate _ _ _ (fun c e => ?_) _) (fun a => ?_)
  · unfold entryCbNoStore
    exact C.ite (C.pure _) (C.bind _ _ (C.targetCheck henv _ _ _ _ _) (fun _ => C.ite (C.pure _) (C.stop _ (by simp) (by simp))))
  · split
    · exact C.pure _
    · exact C.stop _ (by simp) (by simp)

/-- The casync front end. -/
theorem casyncMain (hw : wr) (N : NetOps @P) (henv : Env) (hl : henv.toLEnv = env) (posix : Bool) (args : List Bytes) : P (casyncMain henv posix args) := by
  unfold Csn.casyncMain
  refine C.bind _ _ (C.casync henv hl _ _) (fun a => ?_)
  split
  · exact C.pure _
  · exact C.sync hw N henv hl _
  · exact C.syncNoStore henv _ _ _ _

/-- main.c under any name. -/
theorem appMain (hw : wr) (N : NetOps @P) (henv : Env) (hl : henv.toLEnv = env) (posix : Bool) (argv0 : Bytes) (args : List Bytes) : P (appMain henv posix argv0 args) := by
  unfold Csn.appMain
  exact C.ite (C.csnMain hw N henv hl _) (C.ite (C.casyncMain hw N henv hl _ _) (C.pure _))

end Closed

/-- As `ClosedA`, including the operations that only csn-tool uses. -/
structure ClosedT (wr : Prop) (P : {α : Type} → M α → Prop) : Prop extends ClosedA wr P where
  accessOk : ∀ p, P (accessOk p)
  creat : ∀ p, P (creat p)

namespace ClosedT
variable {wr : Prop} {P : {α : Type} → M α → Prop} (C : ClosedT wr P)
include C

theorem encryptOne (hw : wr) (T : Tool) (ec : EncCtx) (input : Bytes) (output : Option Bytes) : P (encryptOne T ec input output) := by
  unfold Csn.encryptOne Csn.openCreat
  repeat' (first
    | exact C.pure _
    | exact C.accessOk _
    | exact C.creat _
    | exact C.slurpFile _ _
    | exact C.pwriteall hw _ _ _
    | exact C.sysOk
    | refine C.bind _ _ ?_ (fun _ => ?_)
    | split
    | dsimp only)

theorem cryptLines (hw : wr) (T : Tool) : ∀ (ls : List Bytes) (ec : EncCtx), P (cryptLines T ec ls)
  | [], _ => C.pure _
  | l :: r, ec => by
    unfold Csn.cryptLines
    exact C.bind _ _ (C.encryptOne hw _ _ _ _) (fun _ => C.ite (C.pure _) (cryptLines hw T r _))

/-- csn-tool. -/
theorem toolMain (hw : wr) (T : Tool) (args : List Bytes) : P (toolMain T args) := by
  unfold Csn.toolMain Csn.doCrypt
  repeat' (first
    | exact C.pure _
    | exact C.parseKeyspec _ _
    | exact C.cryptLines hw _ _ _
    | exact C.encryptOne hw _ _ _ _
    | refine C.bind _ _ ?_ (fun _ => ?_)
    | split
    | dsimp only)

end ClosedT

end Csn.Proof
