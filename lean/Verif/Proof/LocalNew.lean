import Verif.Proof.LocalGet
import Verif.Proof.CaibxEnc
/-
Outcomes of store_local_new.
-/
namespace Csn.Proof
open Csn Spec Props

theorem Quiet.ofMem {w : World} {m : List Bool} (h : m <:+ w.mem) : Quiet w { w with mem := m } [] :=
  ⟨rfl, rfl, rfl, rfl, rfl, List.suffix_refl _, h, by simp⟩

theorem wp_indexInsert {idx : Index} {off len : Nat} {id : Id} (hi : IndexInv idx)
    {Q : Option Nat × Index → World → Prop} {S : Stop → World → Prop} {w : World}
    (hok : ∀ idx' m, IndexInv idx' → m <:+ w.mem → len ≠ 0 →
      idx'.entries = idx.entries ++ [⟨off, len, false, id⟩] → idx.space ≤ idx'.space →
      Q (some idx.entries.length, idx') { w with mem := m })
    (hfail : ∀ m, m <:+ w.mem → (false ∈ w.mem ∨ 2 ^ 62 ≤ idx.entries.length * 48) → idx.space ≤ idx.entries.length →
      Q (none, idx) { w with mem := m })
    (habort : len = 0 → S .abort w) : wp (indexInsert idx off len id) Q S w := by
  unfold wp indexInsert
  by_cases h : len = 0
  · have e : indexInsertPure idx off len id w.mem = (.stop .abort, idx, w.mem) := by
      simp [indexInsertPure, h]
    rw [e]
    exact habort h
  · obtain ⟨r, idx', m, e, g1, g2, gs, g3⟩ := indexInsertPure_spec idx off len id w.mem hi h
    rw [e]
    simp only
    rcases g3 with ⟨a, b⟩ | ⟨a, b, c⟩
    · subst a; exact hok _ _ g1 g2 h b gs
    · subst a b; exact hfail _ g2 c (indexInsertPure_full e)

theorem wp_storeInsertM {idx : Index} {seg : Seg} (hi : IndexInv idx)
    {Q : Bool × Index → World → Prop} {S : Stop → World → Prop} {w : World}
    (hok : ∀ idx' m, IndexInv idx' → m <:+ w.mem → seg.len ≠ 0 →
      idx'.entries = idx.entries ++ [loaded seg] → Q (true, idx') { w with mem := m })
    (hfail : ∀ m, m <:+ w.mem → (false ∈ w.mem ∨ 2 ^ 62 ≤ idx.entries.length * 48) →
      Q (false, idx) { w with mem := m })
    (habort : seg.len = 0 → S .abort w) : wp (storeInsertM false idx seg) Q S w := by
  unfold storeInsertM
  refine wp_bind (wp_indexInsert hi ?_ ?_ habort)
  · intro idx' m h1 h2 h3 h4 _
    refine wp_pure (hok _ m (orFlags_inv _ _ h1) h2 h3 ?_)
    rw [orFlags_append idx' _ _ _ h4]; simp [loaded]
  · intro m h1 h2 _
    exact wp_pure (hfail m h1 h2)

theorem delivered_length_le (es : List (Nat × Bytes)) : ∀ last, (delivered last es).length ≤ es.length := by
  induction es with
  | nil => intro _; simp [delivered]
  | cons e es ih =>
    intro last
    obtain ⟨o, i⟩ := e
    simp only [delivered]
    split
    · have := ih o; simp; omega
    · have := ih last; simp; omega

/-- Why side-loading trips an assertion: an index without entries or with an entry of length 0. -/
def SideloadAborts (f : Bytes) : Prop :=
  ∃ mi av ma n, WellFormed f mi av ma n ∧ (n = 0 ∨ ∃ s ∈ delivered 0 (tableEntries f n), s.len = 0)

/-- The index file holds the entries in `es`, in order, with these chunk sizes. -/
def SideloadEntries (f : Bytes) (p : Params) (es : List Entry) : Prop :=
  ∃ n, WellFormed f p.min p.avg p.max n ∧ es = (delivered 0 (tableEntries f n)).map loaded ∧ ∀ e ∈ es, e.len ≠ 0

/-- Why the index behind `path` is not taken over by a store with chunk sizes `p`. -/
def SideloadFails (w : World) (p : Params) (path : Bytes) : Prop :=
  ¬ Clean w.sys ∨ false ∈ w.mem ∨ w.dir path = none ∨
    ∃ ino, w.dir path = some ino ∧ (w.kind ino = .other ∨ 2 ^ 56 ≤ (w.data ino).length ∨
      ∀ n, ¬ WellFormed (w.data ino) p.min p.avg p.max n)

theorem SideloadFails.quiet {w w' : World} {evs : List Event} (hq : Quiet w w' evs) {p : Params} {path : Bytes} (h : SideloadFails w' p path) :
    SideloadFails w p path := by
  unfold SideloadFails at h ⊢
  rw [hq.data, hq.kind, hq.dir] at h
  rcases h with h | h | h
  · exact Or.inl (fun hcl => h (hcl.suffix hq.sys))
  · exact Or.inr (Or.inl (hq.mem.subset h))
  · exact Or.inr (Or.inr h)

theorem wp_storeSideload {l : Loc} {path : Bytes}
    {Q : Bool × Loc → World → Prop} {S : Stop → World → Prop} {w : World}
    (hok : ∀ idx w' ino, Quiet w w' [] → w.dir path = some ino → w.kind ino ≠ .other → IndexInv idx →
      SideloadEntries (w.data ino) l.p idx.entries → Q (true, { l with idx := .live idx }) w')
    (hfail : ∀ i w', Quiet w w' [] → SideloadFails w l.p path →
      Q (false, { l with idx := i }) w')
    (habort : ∀ w' ino, Quiet w w' [] → w.dir path = some ino → SideloadAborts (w.data ino) → S .abort w')
    (hkill : ∀ w', Quiet w w' [] → S .killed w') :
    wp (storeSideload l path) Q S w := by
  unfold storeSideload
  refine wp_bind (wp_openPath ?_ ?_ ?_)
  · intro r1 hr1
    have q1 : Quiet w { w with sys := r1 } [] := Quiet.ofSys hr1.1
    cases hd : w.dir path with
    | none => exact wp_pure (hfail l.idx _ q1 (Or.inr (Or.inr (Or.inl hd))))
    | some ino =>
      simp only
      refine wp_bind (wp_caibxLoadHeader ?_ ?_ ?_)
      · intro r2 p n hr2 hk hwf
        simp only at hr2 hk hwf ⊢
        have q2 : Quiet w { w with sys := r2 } [] := Quiet.ofSys (hr2.1.trans hr1.1)
        split
        · next hne =>
          refine wp_pure (hfail l.idx _ q2 (Or.inr (Or.inr (Or.inr ⟨ino, hd, Or.inr (Or.inr ?_)⟩))))
          intro n' hw'
          have e1 := hw'.sizes
          have e2 := hwf.sizes
          rw [e1.1, e1.2.1, e1.2.2] at e2
          rcases hne with h | h | h
          · exact h e2.1.symm
          · exact h e2.2.1.symm
          · exact h e2.2.2.symm
        · next hne =>
          have hp : p = l.p := by
            have a1 : p.min = l.p.min := Decidable.by_contra (fun h => hne (Or.inl h))
            have a2 : p.avg = l.p.avg := Decidable.by_contra (fun h => hne (Or.inr (Or.inl h)))
            have a3 : p.max = l.p.max := Decidable.by_contra (fun h => hne (Or.inr (Or.inr h)))
            cases p; cases hlp : l.p; rw [hlp] at a1 a2 a3; simp only at a1 a2 a3; rw [a1, a2, a3]
          rw [hp] at hwf ⊢
          refine wp_bind (wp_indexInit ?_ ?_ ?_)
          · intro idx m hi h0 hm hn _
            simp only at hm ⊢
            have q3 : Quiet w { w with sys := r2, mem := m } [] := by
              have := q2.trans (Quiet.ofMem (w := { w with sys := r2 }) hm); simpa using this
            refine wp_bind (wp_caibxIterate (w.data ino) n hwf.size (by have := hwf.mono; omega)
              (by have := hwf.mono; omega)
              (fun k done s w' => Quiet w w' [] ∧ IndexInv s ∧ s.entries = done.map loaded ∧ ∀ x ∈ done, x.len ≠ 0)
              (fun k done s w' => Quiet w w' [] ∧ IndexInv s ∧ s.entries = done.map loaded ∧ ∀ x ∈ done, x.len ≠ 0)
              _ _ (fun k done s w' h => by rw [h.1.data]) ?_ (fun k done s w' h => h) ?_ ?_ ?_ ?_ idx _ ?_ ?_ ?_)
            · intro k done s w' r hk h hr
              refine ⟨?_, h.2⟩
              have := h.1.trans (Quiet.ofSys hr.1); simpa using this
            · intro k done s w' r hk h hr hc
              refine wp_pure (hfail .freed _ ?_ ?_)
              · have := h.1.trans (Quiet.ofSys hr); simpa using this
              · rcases hc with hc | hc
                · exact Or.inl (fun hcl => hc (hcl.suffix h.1.sys))
                · exact Or.inr (Or.inr (Or.inr ⟨ino, hd, Or.inr (Or.inl (by omega))⟩))
            · intro k done s w' hk h _
              refine hkill _ ?_
              have := h.1.trans (Quiet.ofSys List.nil_suffix); simpa using this
            · intro k done seg rest s w' hk hdel h
              refine wp_storeInsertM h.2.1 ?_ ?_ ?_
              · intro idx' m' g1 g2 g3 g4
                simp only [if_true]
                refine ⟨?_, g1, by rw [g4, h.2.2.1]; simp, ?_⟩
                · have := h.1.trans (Quiet.ofMem g2); simpa using this
                · intro x hx
                  rcases List.mem_append.1 hx with hx | hx
                  · exact h.2.2.2 x hx
                  · rw [List.mem_singleton.1 hx]; exact g3
              · intro m' g1 g2
                simp only [Bool.false_eq_true, if_false]
                refine wp_pure (hfail .freed _ ?_ ?_)
                · have := h.1.trans (Quiet.ofMem g1); simpa using this
                · rcases g2 with g2 | g2
                  · exact Or.inr (Or.inl (h.1.mem.subset g2))
                  · refine Or.inr (Or.inr (Or.inr ⟨ino, hd, Or.inr (Or.inl ?_)⟩))
                    have hl1 := congrArg List.length h.2.2.1
                    have hl2 := congrArg List.length hdel
                    have hl3 := delivered_length_le (tableEntries (w.data ino) n) 0
                    have hl4 := hwf.size
                    simp [tableEntries] at hl1 hl2 hl3
                    omega
              · intro g
                refine habort _ ino h.1 hd ⟨_, _, _, n, hwf, Or.inr ⟨seg, by rw [hdel]; simp, g⟩⟩
            · intro s w' h
              refine wp_pure (hok _ _ ino h.1 hd hk h.2.1 ⟨n, hwf, h.2.2.1, ?_⟩)
              rw [h.2.2.1]
              intro e he
              obtain ⟨x, hx, rfl⟩ := List.mem_map.1 he
              exact h.2.2.2 x hx
            · intro r hr hc
              simp only at hr hc
              refine wp_pure (hfail .freed _ ?_ (Or.inl (fun hcl => hc (hcl.suffix q2.sys))))
              have := q3.trans (Quiet.ofSys hr.1); simpa using this
            · intro _
              refine hkill _ ?_
              have := q3.trans (Quiet.ofSys List.nil_suffix); simpa using this
            · intro r hr
              refine ⟨?_, hi, by rw [h0]; rfl, by simp⟩
              have := q3.trans (Quiet.ofSys hr.1); simpa using this
          · intro m hm hc _
            simp only at hm hc ⊢
            refine wp_pure (hfail .null _ ?_ ?_)
            · have := q2.trans (Quiet.ofMem (w := { w with sys := r2 }) hm); simpa using this
            · rcases hc with hc | hc
              · exact Or.inr (Or.inl hc)
              · have := hwf.size
                exact Or.inr (Or.inr (Or.inr ⟨ino, hd, Or.inr (Or.inl (by omega))⟩))
          · intro hn
            exact habort _ ino q2 hd ⟨_, _, _, n, hwf, Or.inl hn⟩
      · intro r2 hr2 hc
        simp only at hr2 hc ⊢
        refine wp_pure (hfail l.idx _ (Quiet.ofSys (hr2.trans hr1.1)) ?_)
        rcases hc with hc | hc | hc | hc
        · exact Or.inl (fun hcl => hc (hcl.spent hr1))
        · exact Or.inr (Or.inr (Or.inr ⟨ino, hd, Or.inl hc⟩))
        · exact Or.inr (Or.inr (Or.inr ⟨ino, hd, Or.inr (Or.inl (by omega))⟩))
        · exact Or.inr (Or.inr (Or.inr ⟨ino, hd, Or.inr (Or.inr (fun n => hc _ _ _ n))⟩))
      · intro _
        exact hkill _ (Quiet.ofSys List.nil_suffix)
  · intro r hr hc
    exact wp_pure (hfail l.idx _ (Quiet.ofSys hr.1) (Or.inl hc))
  · intro _
    exact hkill _ (Quiet.ofSys List.nil_suffix)

/-- How the index of a new local store came about. -/
inductive LocOrigin (env : LEnv) (d : Nat) (index : Option Bytes) (w : World) (l : Loc) : Prop
  /-- scanned: all entries are known to be right, and they are exactly the chunks of the file unless a read wrongly
  reported its end; there is no index that could have been taken over -/
  | scan (hv : AllValid l) (h : NoEof w.sys → LocScanned env d (w.data l.ino) l) (hx : ∀ ipath, index = some ipath → SideloadFails w l.p ipath)
  /-- taken over from the side-load index -/
  | sideload (ipath : Bytes) (ino : Nat) (idx : Index) (h1 : index = some ipath) (h2 : w.dir ipath = some ino)
      (h3 : l.idx = .live idx) (h4 : SideloadEntries (w.data ino) l.p idx.entries) (h5 : w.kind ino ≠ .other)

/-- Reasons for store_local_new to fail. -/
def LocNewFails (w : World) (path : Bytes) : Prop :=
  ¬ Clean w.sys ∨ false ∈ w.mem ∨ w.dir path = none ∨
    ∃ ino, w.dir path = some ino ∧ (w.kind ino = .other ∨ 2 ^ 56 ≤ (w.data ino).length)

/-- Reasons for store_local_new to trip an assertion. -/
def LocNewAborts (w : World) (path : Bytes) (index : Option Bytes) (p : Params) : Prop :=
  (∃ ino, w.dir path = some ino ∧ chunkEstimate p (w.data ino).length = 0) ∨
  (∃ ipath ino, index = some ipath ∧ w.dir ipath = some ino ∧ SideloadAborts (w.data ino))

/-- The part of store_local_new that scans. -/
theorem wp_localNew_scan {env : LEnv} {path : Bytes} {index : Option Bytes} {p : Params} {d : Nat}
    (he : ScanEnv env.disc env.bufsiz p d) {w w1 : World} {l : Loc} (hq : Quiet w w1 [])
    (hp : l.p = p) (hd : w.dir path = some l.ino) (hx : ∀ ipath, index = some ipath → SideloadFails w p ipath) :
    wp (storeScan env l >>= fun x => match x with
        | (false, _) => (pure none : M (Option Loc))
        | (true, l) => pure (some l))
      (fun r w' => (Quiet w w' [] ∨ ∃ ino, w.dir path = some ino ∧ Quiet w w' [.scan ino] ∧
          ∀ l', r = some l' → AllValid l') ∧
        (∀ l', r = some l' → w.dir path = some l'.ino ∧ l'.p = p ∧ LocLive env (w.data l'.ino) l' ∧
          LocOrigin env d index w l' ∧ Spent w1.sys w'.sys ((w.data l'.ino).length + 3)) ∧
        (r = none → LocNewFails w path))
      (fun s w' => (Quiet w w' [] ∨ ∃ ino, w.dir path = some ino ∧ Quiet w w' [.scan ino]) ∧
        (s = .killed ∧ okCalls w1.sys < (w.data l.ino).length + 3 ∨ s = .abort ∧ LocNewAborts w path index p)) w1 := by
  subst hp
  have hf : w1.data l.ino = w.data l.ino := by rw [hq.data]
  refine wp_bind (wp_storeScan he ?_ ?_ ?_ ?_)
  · intro idx r m e cs g1 g2 g3 g4 g5 g6 g7
    rw [hf] at g2 g4 g5 g6
    refine wp_pure ⟨Or.inr ⟨l.ino, hd, ?_, ?_⟩, ?_, by simp⟩
    rotate_left
    · intro l' hl'
      injection hl' with hl'
      subst hl'
      refine ⟨idx, rfl, fun x hx => ?_⟩
      rw [g7] at hx
      exact (scanEntries_ok env g6 x hx).2.1
    rotate_left
    · have := hq.trans (Quiet.ofScan (e := .scan l.ino) g2.1 g3); simpa using this
    · intro l' hl'
      injection hl' with hl'
      subst hl'
      refine ⟨hd, rfl, ⟨idx, rfl, g1, ?_⟩, 
        .scan ⟨idx, rfl, fun x hx => by rw [g7] at hx; exact (scanEntries_ok env g6 x hx).2.1⟩ ?_ hx, g2⟩
      · intro x hx
        rw [g7] at hx
        exact (scanEntries_ok env g6 x hx).1
      · intro hc
        have := g5 (hc.suffix hq.sys)
        rw [this, List.take_length] at g6
        exact ⟨idx, cs, rfl, g1, g6, by rw [g7]⟩
  · intro i r m g1 g2 g3
    rw [hf, hq.kind] at g3
    refine wp_pure ⟨Or.inr ⟨l.ino, hd, ?_, by simp⟩, by simp, fun _ => ?_⟩
    · have := hq.trans (Quiet.ofScan (e := .scan l.ino) g1 g2); simpa using this
    · rcases g3 with g | g | g | g
      · exact Or.inl (fun hc => g (hc.suffix hq.sys))
      · exact Or.inr (Or.inl (hq.mem.subset g))
      · exact Or.inr (Or.inr (Or.inr ⟨_, hd, Or.inr g⟩))
      · exact Or.inr (Or.inr (Or.inr ⟨_, hd, Or.inl g⟩))
  · intro r g1 g2
    rw [hf] at g2
    refine ⟨Or.inr ⟨l.ino, hd, ?_⟩, Or.inr ⟨rfl, Or.inl ⟨_, hd, g2⟩⟩⟩
    have := hq.trans (Quiet.ofScan (e := .scan l.ino) g1 (List.suffix_refl _)); simpa using this
  · intro m g1 g2
    rw [hf] at g1
    refine ⟨Or.inr ⟨l.ino, hd, ?_⟩, Or.inl ⟨rfl, g1⟩⟩
    have := hq.trans (Quiet.ofScan (e := .scan l.ino) (List.nil_suffix) g2); simpa using this

/-- Everything about store_local_new. -/
theorem wp_localNew {env : LEnv} {path : Bytes} {index : Option Bytes} {p : Params} {d : Nat}
    (he : ScanEnv env.disc env.bufsiz p d) (w : World) :
    wp (localNew env path index p)
      (fun r w' => (Quiet w w' [] ∨ ∃ ino, w.dir path = some ino ∧ Quiet w w' [.scan ino] ∧
          ∀ l', r = some l' → AllValid l') ∧
        (∀ l, r = some l → w.dir path = some l.ino ∧ l.p = p ∧ LocLive env (w.data l.ino) l ∧
          LocOrigin env d index w l ∧
          (index = none → Spent w.sys w'.sys ((w.data l.ino).length + 4))) ∧
        (r = none → LocNewFails w path))
      (fun s w' => (Quiet w w' [] ∨ ∃ ino, w.dir path = some ino ∧ Quiet w w' [.scan ino]) ∧
        (s = .killed ∧ (index = none → okCalls w.sys = 0 ∨
            ∃ ino, w.dir path = some ino ∧ okCalls w.sys < (w.data ino).length + 4) ∨
         s = .abort ∧ LocNewAborts w path index p)) w := by
  unfold localNew
  refine wp_bind (wp_alloc ?_)
  have hq0 : Quiet w { w with mem := (allocPure 256 w.mem).2 } [] := Quiet.ofMem (allocPure_suffix _ _)
  cases hb : (allocPure 256 w.mem).1 with
  | false =>
    simp only [Bool.not_false, if_true]
    refine wp_pure ⟨Or.inl hq0, by simp, fun _ => Or.inr (Or.inl ?_)⟩
    by_cases hf : false ∈ w.mem
    · exact hf
    · rw [allocPure_ok (by decide) hf] at hb; cases hb
  | true =>
    simp only [Bool.not_true, Bool.false_eq_true, if_false]
    generalize (allocPure 256 w.mem).2 = m0 at hq0
    refine wp_bind (wp_openPath ?_ ?_ ?_)
    · intro r1 hr1
      have hq1 : Quiet w { w with mem := m0, sys := r1 } [] := by
        have := hq0.trans (Quiet.ofSys (w := { w with mem := m0 }) hr1.1); simpa using this
      simp only at hr1 ⊢
      cases hd : w.dir path with
      | none => exact wp_pure ⟨Or.inl hq1, by simp, fun _ => Or.inr (Or.inr (Or.inl hd))⟩
      | some ino =>
        simp only
        cases index with
        | none =>
          refine wp_mono (wp_localNew_scan (l := ⟨ino, .null, p⟩) (index := none) (path := path) he hq1 rfl hd (by simp)) ?_ ?_
          · intro r w' h
            rw [hd] at h
            refine ⟨h.1, ?_, h.2.2⟩
            intro l hl
            have := h.2.1 l hl
            refine ⟨this.1, this.2.1, this.2.2.1, this.2.2.2.1, fun _ => ?_⟩
            exact (hr1.trans this.2.2.2.2).mono (by omega)
          · intro s w' h
            rw [hd] at h
            refine ⟨h.1, ?_⟩
            rcases h.2 with ⟨a, b⟩ | b
            · refine Or.inl ⟨a, fun _ => Or.inr ⟨ino, rfl, ?_⟩⟩
              have := hr1.2
              simp only at b; omega
            · exact Or.inr b
        | some ipath =>
          simp only
          refine wp_bind (wp_storeSideload ?_ ?_ ?_ ?_)
          · intro idx w' iino g1 g2 g5 g3 g4
            simp only at g2 g4 g5 ⊢
            have hq2 := hq1.trans g1
            simp only [List.append_nil] at hq2
            refine wp_pure ⟨Or.inl hq2, ?_, by simp⟩
            intro l hl
            injection hl with hl
            subst hl
            refine ⟨rfl, rfl, ⟨idx, rfl, g3, ?_⟩, .sideload ipath iino idx rfl g2 rfl g4 g5, by simp⟩
            obtain ⟨n, _, he, h0⟩ := g4
            intro e hin
            refine ⟨h0 e hin, fun hv => ?_⟩
            rw [he] at hin
            obtain ⟨x, _, rfl⟩ := List.mem_map.1 hin
            simp [loaded] at hv
          · intro i w' g1 g2
            have hq2 := hq1.trans g1
            simp only [List.append_nil] at hq2
            refine wp_mono (wp_localNew_scan (l := ⟨ino, i, p⟩) (index := some ipath) (path := path) he hq2 rfl hd (fun ip e => by cases e; exact SideloadFails.quiet hq1 g2)) ?_ ?_
            · intro r w' h
              rw [hd] at h
              refine ⟨h.1, ?_, h.2.2⟩
              intro l hl
              have := h.2.1 l hl
              exact ⟨this.1, this.2.1, this.2.2.1, this.2.2.2.1, by simp⟩
            · intro s w' h
              rw [hd] at h
              refine ⟨h.1, ?_⟩
              rcases h.2 with ⟨a, b⟩ | b
              · exact Or.inl ⟨a, by simp⟩
              · exact Or.inr b
          · intro w' iino g1 g2 g3
            simp only at g2 g3
            have hq2 := hq1.trans g1
            simp only [List.append_nil] at hq2
            exact ⟨Or.inl hq2, Or.inr ⟨rfl, Or.inr ⟨ipath, iino, rfl, g2, g3⟩⟩⟩
          · intro w' g1
            have hq2 := hq1.trans g1
            simp only [List.append_nil] at hq2
            exact ⟨Or.inl hq2, Or.inl ⟨rfl, by simp⟩⟩
    · intro r hr hc
      simp only at hr hc ⊢
      refine wp_pure ⟨Or.inl ?_, by simp, fun _ => Or.inl hc⟩
      have := hq0.trans (Quiet.ofSys (w := { w with mem := m0 }) hr.1); simpa using this
    · intro hz
      refine ⟨Or.inl ?_, Or.inl ⟨rfl, fun _ => Or.inl hz⟩⟩
      have := hq0.trans (Quiet.ofSys (w := { w with mem := m0 }) List.nil_suffix); simpa using this

end Csn.Proof
