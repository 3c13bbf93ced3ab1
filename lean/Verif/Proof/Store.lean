import Verif.Model.Store
import Verif.Spec.Sync
import Verif.Proof.MemSuf
import Verif.Proof.LocalNew
import Verif.Props.Http
/-
What a single store of the chain does when asked.
-/
namespace Csn.Proof
open Csn Spec Props

/-- Files are untouched, schedules are only consumed; the new log entries are `evs`. -/
structure Calm (w w' : World) (evs : List Event) : Prop where
  data : w'.data = w.data
  kind : w'.kind = w.kind
  dir : w'.dir = w.dir
  next : w'.next = w.next
  sys : w'.sys <:+ w.sys
  mem : w'.mem <:+ w.mem
  net : w'.net <:+ w.net
  log : w'.log = w.log ++ evs

theorem Calm.refl (w : World) : Calm w w [] :=
  ⟨rfl, rfl, rfl, rfl, List.suffix_refl _, List.suffix_refl _, List.suffix_refl _, by simp⟩

theorem Calm.trans {a b c : World} {e e' : List Event} (h : Calm a b e) (h' : Calm b c e') : Calm a c (e ++ e') :=
  ⟨h'.data.trans h.data, h'.kind.trans h.kind, h'.dir.trans h.dir, h'.next.trans h.next,
    h'.sys.trans h.sys, h'.mem.trans h.mem, h'.net.trans h.net, by rw [h'.log, h.log, List.append_assoc]⟩

theorem Quiet.calm {w w' : World} {evs : List Event} (h : Quiet w w' evs) : Calm w w' evs :=
  ⟨h.data, h.kind, h.dir, h.next, h.sys, h.mem, by rw [h.net]; exact List.suffix_refl _, h.log⟩

theorem Calm.ofSys {w : World} {r : List Sys} (h : r <:+ w.sys) : Calm w { w with sys := r } [] := (Quiet.ofSys h).calm

theorem Calm.ofMem {w : World} {m : List Bool} (h : m <:+ w.mem) : Calm w { w with mem := m } [] := (Quiet.ofMem h).calm

theorem Calm.emit (w : World) (e : Event) : Calm w { w with log := w.log ++ [e] } [e] :=
  ⟨rfl, rfl, rfl, rfl, List.suffix_refl _, List.suffix_refl _, List.suffix_refl _, rfl⟩

/-- Events of a store at work. -/
def StoreEv (e : Event) : Prop := (∃ u, e = .http u) ∨ (∃ t, e = .sleep t) ∨ ∃ i, e = .scan i

/-- Invariant of an active store when the target is inode `tino`. -/
def StoreInv (env : Env) (tino : Nat) (w : World) : Store → Prop
  | .loc l => l.ino ≠ tino ∧ LocLive env.toLEnv (w.data l.ino) l ∧ ∃ d, ScanEnv env.disc env.bufsiz l.p d
  | .http h => h.size < 2 ^ 63 ∧ h.err ≤ 10 ∧ ShortFrags w.net
  | .target => True

/-- A store whose memory can be freed. -/
def Freeable : Store → Prop
  | .loc l => l.idx ≠ .freed
  | _ => True

theorem total_append (a b : List Seg) : total (a ++ b) = total a + total b := by simp [total]

theorem total_cons (a : Seg) (b : List Seg) : total (a :: b) = a.len + total b := by simp [total]

theorem total_nil : total [] = 0 := rfl

/-- Invariant of the target after the segments `done` have been verified on it or written to it.  `R`: the
index is such that hashes are known; `T n`: the target is used as a store, with room for `n` chunks. -/
structure TgtInv (H : Bytes → Id) (bufMax : Nat) (R : Prop) (T : Nat → Prop) (f : Bytes) (done : List Seg) (t : Tgt) : Prop where
  inv : t.queryable = true → IndexInv t.idx
  few : t.queryable = true → t.idx.entries.length ≤ done.length
  ok : t.queryable = true → ∀ e ∈ t.idx.entries, e.len ≠ 0 ∧ e.start + e.len ≤ total done ∧
    (∃ s ∈ done, s.id = e.id ∧ s.len = e.len) ∧
    (R → e.len ≤ bufMax ∧ (slice f e.start e.len).length = e.len ∧ H (slice f e.start e.len) = e.id)
  full : ∀ n, T n → t.queryable = true ∧ (∀ s ∈ done, ∃ e ∈ t.idx.entries, e.id = s.id) ∧ n ≤ t.idx.space

/-- The target's index has at most been re-sorted. -/
structure TgtSame (t t' : Tgt) : Prop where
  ino : t'.ino = t.ino
  queryable : t'.queryable = t.queryable
  inv : t.queryable = true → IndexInv t.idx → IndexInv t'.idx ∧ t'.idx.entries.Perm t.idx.entries ∧ t'.idx.space = t.idx.space

theorem TgtSame.refl (t : Tgt) : TgtSame t t := ⟨rfl, rfl, fun _ h => ⟨h, List.Perm.refl _, rfl⟩⟩

theorem TgtSame.trans {a b c : Tgt} (h : TgtSame a b) (h' : TgtSame b c) : TgtSame a c := by
  refine ⟨h'.ino.trans h.ino, h'.queryable.trans h.queryable, fun hq hi => ?_⟩
  obtain ⟨h1, h2, h2'⟩ := h.inv hq hi
  obtain ⟨h3, h4, h4'⟩ := h'.inv (by rw [h.queryable]; exact hq) h1
  exact ⟨h3, h4.trans h2, h4'.trans h2'⟩

theorem TgtInv.same {H : Bytes → Id} {bufMax : Nat} {R : Prop} {T : Nat → Prop} {f : Bytes} {done : List Seg} {t t' : Tgt}
    (h : TgtInv H bufMax R T f done t) (hs : TgtSame t t') : TgtInv H bufMax R T f done t' := by
  have hq := hs.queryable
  refine ⟨fun g => ?_, fun g => ?_, fun g e he => ?_, fun n g => ?_⟩
  · rw [hq] at g; exact (hs.inv g (h.inv g)).1
  · rw [hq] at g
    rw [(hs.inv g (h.inv g)).2.1.length_eq]; exact h.few g
  · rw [hq] at g
    exact h.ok g e ((hs.inv g (h.inv g)).2.1.mem_iff.1 he)
  · obtain ⟨g1, g2, g3⟩ := h.full n g
    refine ⟨by rw [hq]; exact g1, fun s hs' => ?_, by rw [(hs.inv g1 (h.inv g1)).2.2]; exact g3⟩
    obtain ⟨e, e1, e2⟩ := g2 s hs'
    exact ⟨e, (hs.inv g1 (h.inv g1)).2.1.mem_iff.2 e1, e2⟩

/-- Every outcome of `target_get_chunk`. -/
theorem wp_targetGet {lib : Lib} (hlib : lib.Conforms) {t : Tgt} {id : Id} {out : Bytes} {w : World}
    (hi : t.queryable = true → IndexInv t.idx)
    {Q : Option Nat × Tgt × Bytes → World → Prop} {S : Stop → World → Prop}
    (hno : t.queryable = false → Q (some 0, t, out) w)
    (hmiss : ∀ t', TgtSame t t' → (∀ e ∈ t.idx.entries, e.id ≠ id) → Q (some 0, t', out) w)
    (hhit : ∀ t' e r, TgtSame t t' → t.queryable = true → e ∈ t.idx.entries → e.id = id → e.len ≤ out.length →
      Spent w.sys r e.len → (slice (w.data t.ino) e.start e.len).length = e.len →
      Q (some e.len, t', bufWrite out 0 (slice (w.data t.ino) e.start e.len)) { w with sys := r })
    (hfail : ∀ t' e r k, TgtSame t t' → t.queryable = true → e ∈ t.idx.entries → e.id = id → r <:+ w.sys → k ≤ out.length →
      (¬ Clean w.sys ∨ out.length < e.len ∨ (w.data t.ino).length < e.start + e.len ∨ 2 ^ 63 ≤ e.start + e.len) →
      Q (none, t', bufWrite out 0 (slice (w.data t.ino) e.start k)) { w with sys := r })
    (hkill : S .killed { w with sys := [] }) :
    wp (targetGet lib t id out) Q S w := by
  unfold targetGet
  cases hq : t.queryable with
  | false =>
    simp only [Bool.not_false, if_true]
    exact wp_pure (hno hq)
  | true =>
    simp only [Bool.not_true, Bool.false_eq_true, if_false]
    obtain ⟨r, idx', e, h1, h2, hsp, _, _, _, _, h3, h4⟩ := indexQuery_spec lib hlib t.idx id (hi hq)
    rw [e]
    have hsame : TgtSame t { t with idx := idx', queryable := true } := ⟨rfl, hq.symm, fun _ _ => ⟨h1, h2, hsp⟩⟩
    cases r with
    | none => exact wp_pure (hmiss _ hsame (h4 rfl))
    | some i =>
      obtain ⟨x, x1, x2, x3⟩ := h3 i rfl
      simp only [x1]
      split
      · next hl =>
        have := hfail _ x w.sys 0 hsame hq x3 x2 (List.suffix_refl _) (by omega) (Or.inr (Or.inl hl))
        have e0 : bufWrite out 0 (slice (w.data t.ino) x.start 0) = out := by simp [bufWrite, slice]
        rw [e0] at this
        exact wp_pure this
      · next hl =>
        refine wp_bind (wp_preadall ?_ ?_ ?_)
        · intro r hr hs _
          simp only [Bool.not_true, Bool.false_eq_true, if_false]
          exact wp_pure (hhit _ x r hsame hq x3 x2 (by omega) hr hs)
        · intro r n hr hn hc
          simp only [Bool.not_false, if_true]
          refine wp_pure (hfail _ x r n hsame hq x3 x2 hr.1 (by omega) ?_)
          rcases hc with hc | hc | hc
          · exact Or.inl hc
          · exact Or.inr (Or.inr (Or.inl hc))
          · exact Or.inr (Or.inr (Or.inr hc))
        · intro _; exact hkill

/-- Why a failing rescan of the local store behind inode `i` can leave dangling index memory. -/
def Risk (w : World) (i : Nat) : Prop :=
  ¬ Clean w.sys ∨ false ∈ w.mem ∨ 2 ^ 56 ≤ (w.data i).length ∨ w.kind i = .other

/-- A local store is not the target, and its index is only dangling for a reason that `w` has. -/
def LocSafe (tino : Nat) (w : World) (s : Store) : Prop :=
  ∀ l, s = .loc l → l.ino ≠ tino ∧ (l.idx = .freed → Risk w l.ino)

/-- What a store does when it is asked for `id`. -/
structure Asked (env : Env) (R : Prop) (tino : Nat) (t : Tgt) (s : Store) (id : Id) (out : Bytes) (w : World)
    (a : Option Nat × Tgt × Store × Bytes) (w' : World) : Prop where
  calm : ∃ evs, Calm w w' evs ∧ ∀ e ∈ evs, StoreEv e
  tgt : TgtSame t a.2.1
  len : a.2.2.2.length = out.length
  store : a.1 ≠ none → StoreInv env tino w' a.2.2.1
  data : ∀ n, a.1 = some (n + 1) → n + 1 ≤ out.length ∧ (R → env.H (a.2.2.2.take (n + 1)) = id)
  free : LocSafe tino w a.2.2.1
  par : ∀ l', a.2.2.1 = .loc l' → ∃ l, s = .loc l ∧ l'.p = l.p ∧ l'.ino = l.ino

/-- How a store can stop the process. -/
def StoreStop (store : Store) (w : World) (s : Stop) (w' : World) : Prop :=
  (s = .killed ∨ s = .abort ∧ ∃ l, store = .loc l ∧ chunkEstimate l.p (w.data l.ino).length = 0) ∧ ∃ evs, Calm w w' evs ∧ ∀ e ∈ evs, StoreEv e

theorem attemptLog_ev (url : Bytes) (as : List Attempt) : ∀ i, ∀ e ∈ attemptLog url i as, StoreEv e := by
  induction as with
  | nil => intro i e he; simp [attemptLog] at he
  | cons a as ih =>
    intro i e he
    unfold attemptLog at he
    simp only [List.mem_cons, List.mem_append] at he
    rcases he with (he | he) | he
    · exact Or.inl ⟨_, he⟩
    · split at he
      · simp at he; exact Or.inr (Or.inl ⟨_, he⟩)
      · simp at he
    · exact ih _ e he

theorem calm_of_net {w w' : World} (h : w' = { w with mem := w'.mem, net := w'.net, log := w'.log }) (hm : w'.mem <:+ w.mem)
    (hn : w'.net <:+ w.net) {evs : List Event} (hl : w'.log = w.log ++ evs) : Calm w w' evs := by
  refine ⟨?_, ?_, ?_, ?_, ?_, hm, hn, hl⟩
  all_goals rw [h]
  exact List.suffix_refl _

theorem wp_storeGet {env : Env} (hlib : env.lib.Conforms) (hz : Sane env) {R : Prop} {T : Nat → Prop} {t : Tgt} {done : List Seg} {s : Store} {id : Id}
    {out : Bytes} {w : World} (hid : id.length = 32) (hs : StoreInv env t.ino w s)
    (ht : TgtInv env.H env.bufMax R T (w.data t.ino) done t) :
    wp (storeGet env t s id out) (Asked env R t.ino t s id out w) (StoreStop s w) w := by
  unfold storeGet
  cases s with
  | loc l =>
    obtain ⟨h1, h2, d, h3⟩ := hs
    refine wp_bind (wp_mono (wp_localGet hlib h3 h2 (fuel := 0) rfl) ?_ ?_)
    · intro a w' h
      obtain ⟨r, l', out'⟩ := a
      obtain ⟨g1, g2, g0⟩ := h
      have gi := g1.ino
      have gp := g1.par
      have gl := g1.len
      simp only at gi gp gl
      have hc : ∃ evs, Calm w w' evs ∧ ∀ e ∈ evs, StoreEv e := by
        rcases g2 with q | ⟨q, _⟩
        · exact ⟨[], q.calm, by simp⟩
        · exact ⟨_, q.calm, by simp [StoreEv]⟩
      refine wp_pure ⟨hc, TgtSame.refl _, gl, ?_, ?_, ?_, fun l' hl' => by cases hl'; exact ⟨l, rfl, gp, gi⟩⟩
      · intro hn
        cases hr : r with
        | none => simp [hr] at hn
        | some n =>
          obtain ⟨k1, _⟩ := g1.live n hr
          obtain ⟨evs, hc, _⟩ := hc
          refine ⟨by rw [gi]; exact h1, ?_, d, by rw [gp]; exact h3⟩
          rw [gi, hc.data]; exact k1
      · intro n hn
        obtain ⟨_, k2, k3⟩ := g1.live (n + 1) hn
        exact ⟨k2, fun _ => (k3 (by omega)).1⟩
      · intro l1 hl1
        simp only [Store.loc.injEq] at hl1
        subst hl1
        refine ⟨by rw [gi]; exact h1, fun hf => ?_⟩
        unfold Risk
        rw [gi]
        exact g0 hf
    · intro s w' h
      refine ⟨?_, ?_⟩
      · rcases h.1 with h | h
        · exact Or.inl h
        · exact Or.inr ⟨h.1, l, rfl, h.2⟩
      · rcases h.2 with q | q
        · exact ⟨[], q.calm, by simp⟩
        · exact ⟨_, q.calm, by simp [StoreEv]⟩
  | http h =>
    obtain ⟨h1, h2, h3⟩ := hs
    refine wp_bind (wp_mono ((MemSuf.httpGet env h id out).wp (wp_request hz h3 h1 hid h2)) ?_ ?_)
    · intro a w' hh
      obtain ⟨r, h', out'⟩ := a
      obtain ⟨⟨g1, g2, g3, v, ok, as, g4⟩, g5⟩ := hh
      simp only at g1 g2 g3 g4
      have hn : w'.net <:+ w.net := by obtain ⟨ns, n1, _⟩ := g4.net; exact ⟨ns, n1.symm⟩
      refine wp_pure ⟨⟨_, calm_of_net g4.same g5 hn g4.log, attemptLog_ev _ _ _⟩, TgtSame.refl _, g2, ?_, ?_, (by intro l hl; cases hl), (by intro l hl; cases hl)⟩
      · intro hr
        refine ⟨g1, ?_, g3⟩
        have hf := g4.failed
        have he := g4.err
        simp only at hr
        cases v <;> simp [errAfter, hr] at hf he <;> omega
      · intro n hn
        obtain ⟨_, d2, d3⟩ := g4.data n hn
        exact ⟨by omega, fun _ => d2⟩
    · intro s w' hh
      obtain ⟨⟨g1, as, g2, g3, g4, g5, g6⟩, g7⟩ := hh
      refine ⟨Or.inl g1, _, calm_of_net (evs := attemptLog (chunkUrl h.base h.key.isSome id) 0 as ++ [.http (chunkUrl h.base h.key.isSome id)])
        (by rw [g5]) g7 (by rw [g5]; exact List.nil_suffix) (by rw [g4, List.append_assoc]), ?_⟩
      intro e he
      rcases List.mem_append.1 he with he | he
      · exact attemptLog_ev _ _ _ e he
      · simp at he; exact Or.inl ⟨_, he⟩
  | target =>
    refine wp_bind (wp_targetGet hlib ht.inv ?_ ?_ ?_ ?_ ?_)
    · intro _
      exact wp_pure ⟨⟨[], Calm.refl w, by simp⟩, TgtSame.refl _, rfl, fun _ => trivial, by simp, (by intro l hl; cases hl), (by intro l hl; cases hl)⟩
    · intro t' h1 _
      exact wp_pure ⟨⟨[], Calm.refl w, by simp⟩, h1, rfl, fun _ => trivial, by simp, (by intro l hl; cases hl), (by intro l hl; cases hl)⟩
    · intro t' e r h1 hq h2 h3 h4 h5 h6
      refine wp_pure ⟨⟨[], Calm.ofSys h5.1, by simp⟩, h1, bufWrite0_length (by omega), fun _ => trivial, ?_, (by intro l hl; cases hl), (by intro l hl; cases hl)⟩
      intro n hn
      simp only [Option.some.injEq] at hn
      refine ⟨by omega, fun hR => ?_⟩
      have hb : ∀ b, (bufWrite b 0 (slice (w.data t.ino) e.start e.len)).take (n + 1) = slice (w.data t.ino) e.start e.len := by
        intro b
        conv => lhs; rw [← hn]; arg 1; rw [← h6]
        exact bufWrite0_take
      simp only [hb]
      rw [← h3]
      exact ((ht.ok hq e h2).2.2.2 hR).2.2
    · intro t' e r k h1 hq h2 h3 h4 h5 h6
      refine wp_pure ⟨⟨[], Calm.ofSys h4, by simp⟩, h1, bufWrite0_length (by have := slice_length_le (w.data t.ino) e.start k; omega), by simp, by simp, (by intro l hl; cases hl), (by intro l hl; cases hl)⟩
    · exact ⟨Or.inl rfl, [], Calm.ofSys List.nil_suffix, by simp⟩

end Csn.Proof
