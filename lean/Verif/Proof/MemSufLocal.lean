import Verif.Proof.MemSuf
import Verif.Model.Main
/-
Allocation schedules are only consumed: opening stores.
-/
namespace Csn.Proof
open Csn Spec

/-- A property of the callback's state that every call preserves holds after a scan. -/
theorem scanBuf_inv {σ : Type} (P : σ → Prop) {cb : σ → Seg → CbRes σ}
    (hcb : ∀ s seg, P s → match cb s seg with | .ok s' => P s' | .fail s' => P s' | .stop _ s' => P s') (H : Bytes → Id) (p : Params) (d : Nat) :
    ∀ fuel c off last s buf, P s → P (scanBuf H p d cb fuel c off last s buf).2.2.2.2 := by
  intro fuel
  induction fuel with
  | zero =>
    intro c off last s buf hs
    unfold scanBuf
    split <;> exact hs
  | succ fuel ih =>
    intro c off last s buf hs
    unfold scanBuf
    split
    · exact hs
    · dsimp only
      split
      · exact hs
      · exact hs
      · rename_i n c' _
        have := hcb s ⟨last, (off + n - last) % 2 ^ 32, H c'.sha⟩ hs
        split
        · rename_i e; rw [e] at this; exact this
        · rename_i e; rw [e] at this; exact this
        · rename_i e; rw [e] at this; exact ih _ _ _ _ _ this

theorem scanLoop_inv {σ : Type} (P : σ → Prop) {cb : σ → Seg → CbRes σ}
    (hcb : ∀ s seg, P s → match cb s seg with | .ok s' => P s' | .fail s' => P s' | .stop _ s' => P s') (H : Bytes → Id) (p : Params) (d bufsiz : Nat) (f : Bytes) :
    ∀ sys c pos off last s, P s → P (scanLoop H p d bufsiz cb f c pos off last s sys).2.1 := by
  intro sys
  induction sys with
  | nil => intro c pos off last s hs; exact hs
  | cons x sys ih =>
    intro c pos off last s hs
    have main : ∀ got : Bytes, P ((if got.isEmpty then
        if off ≠ last then
          match cb s ⟨last, (off - last) % 2 ^ 32, H c.sha⟩ with
          | .stop y s' => (.stop y, s', sys)
          | .fail s' => (.fail, s', sys)
          | .ok s' => (.ok, s', sys)
        else (.ok, s, sys)
      else
        match scanBuf H p d cb got.length c off last s got with
        | (.stop y, _, _, _, s') => (.stop y, s', sys)
        | (.fail, _, _, _, s') => (.fail, s', sys)
        | (.ok, c', offset', last', s') =>
          scanLoop H p d bufsiz cb f c' (pos + got.length) offset' last' s' sys : ScanRes × σ × List Sys).2.1) := by
      intro got
      split
      · split
        · have := hcb s ⟨last, (off - last) % 2 ^ 32, H c.sha⟩ hs
          split
          all_goals (rename_i e; rw [e] at this; exact this)
        · exact hs
      · have := scanBuf_inv P hcb H p d got.length c off last s got hs
        split
        · rename_i e; rw [e] at this; exact this
        · rename_i e; rw [e] at this; exact this
        · rename_i e; rw [e] at this; exact ih _ _ _ _ _ this
    cases x with
    | eintr => exact ih _ _ _ _ _ hs
    | err => exact hs
    | zero => exact main []
    | some k => exact main _

theorem scanFd_inv {σ : Type} (P : σ → Prop) {cb : σ → Seg → CbRes σ}
    (hcb : ∀ s seg, P s → match cb s seg with | .ok s' => P s' | .fail s' => P s' | .stop _ s' => P s') (H : Bytes → Id) (disc : Nat → Option Nat) (bufsiz : Nat) (p : Params) (f : Bytes)
    (s : σ) (sys : List Sys) (hs : P s) : P (scanFd H disc bufsiz p cb f s sys).2.1 := by
  unfold scanFd
  split
  · exact hs
  · split
    · exact hs
    · exact hs
    · exact scanLoop_inv P hcb H p _ bufsiz f _ _ _ _ _ _ hs

theorem indexGrow_suffix (idx : Index) (mem : List Bool) : (indexGrow idx mem).2.2 <:+ mem := by
  unfold indexGrow
  split
  · have := allocPure_suffix ((idx.space * 12 % 2 ^ 64 / 10 + 1) * entrySize % 2 ^ 64) mem
    dsimp only
    split <;> exact this
  · exact List.suffix_refl _

theorem indexInsertPure_suffix (idx : Index) (off len : Nat) (id : Id) (mem : List Bool) : (indexInsertPure idx off len id mem).2.2 <:+ mem := by
  unfold indexInsertPure
  split
  · exact List.suffix_refl _
  · have := indexGrow_suffix idx mem
    split
    · rename_i e; rw [e] at this; exact this
    · rename_i e; rw [e] at this; split <;> exact this

theorem MemSuf.indexInsert (idx : Index) (off len : Nat) (id : Id) : MemSuf (indexInsert idx off len id) := by
  intro w
  unfold Csn.indexInsert
  have := indexInsertPure_suffix idx off len id w.mem
  split
  · rename_i e; rw [e] at this; exact this
  · rename_i e; rw [e] at this; exact this

theorem MemSuf.storeInsertM (v : Bool) (idx : Index) (seg : Seg) : MemSuf (storeInsertM v idx seg) := by
  unfold Csn.storeInsertM
  refine MemSuf.bind (MemSuf.indexInsert _ _ _ _) (fun a => ?_)
  split <;> exact MemSuf.pure _

theorem MemSuf.scanInto (env : LEnv) (l : Loc) (idx : Index) : MemSuf (scanInto env l idx) := by
  intro w
  unfold Csn.scanInto
  have := scanFd_inv (fun s : Index × List Bool => s.2 <:+ w.mem) (cb := storeInsertScan true) (by
    intro s seg hs
    unfold storeInsertScan
    have := (indexInsertPure_suffix s.1 seg.off seg.len seg.id s.2).trans hs
    generalize indexInsertPure s.1 seg.off seg.len seg.id s.2 = r at this
    rcases r with ⟨(_ | _) | _, _, _⟩ <;> exact this) env.H env.disc env.bufsiz l.p (w.data l.ino) (idx, w.mem) w.sys (List.suffix_refl _)
  split
  all_goals (rename_i e; rw [e] at this; exact this)

theorem MemSuf.indexInit (n : Nat) : MemSuf (indexInit n) := by
  unfold Csn.indexInit
  memsuf

theorem MemSuf.storeScan (env : LEnv) (l : Loc) : MemSuf (storeScan env l) := by
  unfold Csn.storeScan
  refine MemSuf.bind (MemSuf.emit _) (fun _ => MemSuf.bind (MemSuf.fdSize _) (fun a => ?_))
  cases a with
  | none => exact MemSuf.pure _
  | some n =>
    refine MemSuf.bind (MemSuf.indexInit _) (fun a => ?_)
    cases a with
    | none => exact MemSuf.pure _
    | some idx => exact MemSuf.bind (MemSuf.scanInto _ _ _) (fun a => MemSuf.pure _)

theorem MemSuf.ld64le (b : Bytes) (o : Nat) : MemSuf (ld64le b o) := by
  unfold Csn.ld64le
  memsuf

theorem MemSuf.ldBytes (b : Bytes) (o n : Nat) : MemSuf (ldBytes b o n) := by
  unfold Csn.ldBytes
  memsuf

theorem MemSuf.lseek (n : Nat) : MemSuf (lseek n) := by
  unfold Csn.lseek
  exact MemSuf.bind MemSuf.sysOk (fun _ => MemSuf.ite (MemSuf.pure _) (MemSuf.pure _))

theorem MemSuf.loadSectionHeader (i o : Nat) : MemSuf (loadSectionHeader i o) := by
  unfold Csn.loadSectionHeader
  refine MemSuf.bind (MemSuf.readall _ _ _) (fun a => ?_)
  split
  · exact MemSuf.pure _
  · exact MemSuf.bind (MemSuf.ld64le _ _) (fun _ => MemSuf.bind (MemSuf.ld64le _ _) (fun _ => MemSuf.pure _))

theorem MemSuf.loadIndexHeader (i : Nat) : MemSuf (loadIndexHeader i) := by
  unfold Csn.loadIndexHeader
  refine MemSuf.bind (MemSuf.loadSectionHeader _ _) (fun a => ?_)
  split
  · exact MemSuf.pure _
  · refine MemSuf.ite (MemSuf.pure _) (MemSuf.ite (MemSuf.pure _) (MemSuf.bind (MemSuf.readall _ _ _) (fun a => ?_)))
    split
    · exact MemSuf.pure _
    · refine MemSuf.bind (MemSuf.ld64le _ _) (fun _ => MemSuf.ite (MemSuf.pure _) ?_)
      exact MemSuf.bind (MemSuf.ld64le _ _) (fun _ => MemSuf.bind (MemSuf.ld64le _ _) (fun _ => MemSuf.bind (MemSuf.ld64le _ _) (fun _ => MemSuf.pure _)))

theorem MemSuf.validateTableHeader (i : Nat) : MemSuf (validateTableHeader i) := by
  unfold Csn.validateTableHeader
  refine MemSuf.bind (MemSuf.loadSectionHeader _ _) (fun a => ?_)
  split <;> exact MemSuf.pure _

theorem MemSuf.validateTableFooter (i n : Nat) : MemSuf (validateTableFooter i n) := by
  unfold Csn.validateTableFooter
  repeat' (first
    | exact MemSuf.pure _
    | exact MemSuf.ld64le _ _
    | exact MemSuf.lseek _
    | exact MemSuf.readall _ _ _
    | refine MemSuf.bind ?_ (fun _ => ?_)
    | split
    | dsimp only)

theorem MemSuf.caibxLoadHeader (i : Nat) : MemSuf (caibxLoadHeader i) := by
  unfold Csn.caibxLoadHeader
  refine MemSuf.bind (MemSuf.fdSize _) (fun a => ?_)
  cases a with
  | none => exact MemSuf.pure _
  | some size =>
    refine MemSuf.ite (MemSuf.pure _) (MemSuf.ite (MemSuf.pure _) ?_)
    refine MemSuf.bind (MemSuf.lseek _) (fun _ => MemSuf.ite (MemSuf.pure _) (MemSuf.bind (MemSuf.loadIndexHeader _) (fun a => ?_)))
    cases a with
    | none => exact MemSuf.pure _
    | some p =>
      refine MemSuf.bind (MemSuf.validateTableHeader _) (fun _ => MemSuf.ite (MemSuf.pure _) ?_)
      exact MemSuf.bind (MemSuf.validateTableFooter _ _) (fun _ => MemSuf.ite (MemSuf.pure _) (MemSuf.pure _))

theorem MemSuf.iterLoop {σ : Type} (ino : Nat) (p : Params) {cb : σ → Seg → M (Bool × σ)} (hcb : ∀ s seg, MemSuf (cb s seg)) :
    ∀ n pos last s, MemSuf (iterLoop ino p cb n pos last s) := by
  intro n
  induction n with
  | zero => intro pos last s w; exact List.suffix_refl _
  | succ n ih =>
    intro pos last s
    unfold Csn.iterLoop
    refine MemSuf.bind (MemSuf.readall _ _ _) (fun a => ?_)
    split
    · exact MemSuf.pure _
    · refine MemSuf.bind (MemSuf.ld64le _ _) (fun _ => MemSuf.bind (MemSuf.ldBytes _ _ _) (fun _ => ?_))
      dsimp only
      refine MemSuf.ite (ih _ _ _) (MemSuf.bind (hcb _ _) (fun a => ?_))
      split
      · exact MemSuf.pure _
      · exact ih _ _ _

theorem MemSuf.caibxIterate {σ : Type} (ino : Nat) (p : Params) (n : Nat) {cb : σ → Seg → M (Bool × σ)} (hcb : ∀ s seg, MemSuf (cb s seg)) (s : σ) :
    MemSuf (caibxIterate ino p n cb s) := by
  unfold Csn.caibxIterate
  exact MemSuf.bind (MemSuf.lseek _) (fun _ => MemSuf.ite (MemSuf.pure _) (MemSuf.iterLoop ino p hcb _ _ _ _))

theorem MemSuf.storeSideload (l : Loc) (path : Bytes) : MemSuf (storeSideload l path) := by
  unfold Csn.storeSideload
  repeat' (first
    | exact MemSuf.pure _
    | exact MemSuf.openPath _
    | exact MemSuf.caibxLoadHeader _
    | exact MemSuf.indexInit _
    | exact MemSuf.caibxIterate _ _ _ (fun _ _ => MemSuf.storeInsertM _ _ _) _
    | refine MemSuf.bind ?_ (fun _ => ?_)
    | split
    | dsimp only)

theorem MemSuf.localNew (env : LEnv) (path : Bytes) (index : Option Bytes) (p : Params) : MemSuf (localNew env path index p) := by
  unfold Csn.localNew
  repeat' (first
    | exact MemSuf.pure _
    | exact MemSuf.stop _
    | exact MemSuf.alloc _
    | exact MemSuf.openPath _
    | exact MemSuf.storeSideload _ _
    | exact MemSuf.storeScan _ _
    | refine MemSuf.bind ?_ (fun _ => ?_)
    | split
    | dsimp only)

theorem MemSuf.targetAsStore (t : Tgt) (n : Nat) : MemSuf (targetAsStore t n) := by
  unfold Csn.targetAsStore
  refine MemSuf.ite (MemSuf.pure _) (MemSuf.bind (MemSuf.indexInit _) (fun a => ?_))
  split <;> exact MemSuf.pure _

theorem MemSuf.makeStore (env : Env) (tpath : Bytes) (n : Nat) (p : Params) (t : Tgt) (arg : Bytes) : MemSuf (makeStore env tpath n p t arg) := by
  unfold Csn.makeStore
  refine MemSuf.ite ?_ (MemSuf.ite ?_ ?_)
  · refine MemSuf.bind (MemSuf.targetAsStore _ _) (fun a => ?_)
    split <;> exact MemSuf.pure _
  · refine MemSuf.bind (MemSuf.httpNew _ _) (fun a => ?_)
    split <;> exact MemSuf.pure _
  · refine MemSuf.bind (MemSuf.localNew _ _ _ _) (fun a => ?_)
    split <;> exact MemSuf.pure _

theorem MemSuf.openBoth (ipath tpath : Bytes) : MemSuf (openBoth ipath tpath) := by
  unfold Csn.openBoth Csn.targetNew
  repeat' (first
    | exact MemSuf.pure _
    | exact MemSuf.alloc _
    | exact MemSuf.openPath _
    | exact MemSuf.caibxLoadHeader _
    | refine MemSuf.bind ?_ (fun _ => ?_)
    | split
    | dsimp only)

end Csn.Proof
