import Verif.Proof.Avail
/-
Which stores are asked for a chunk, when others have it.
-/
namespace Csn.Proof
open Csn Spec

/-- Between `w` and `w'`, a store after number `i` was asked only if none between them satisfies `P`. -/
def Lacking (stores : List Bytes) (P : Bytes → Prop) (i : Nat) (w w' : World) : Prop :=
  ∃ l, w'.log = w.log ++ l ∧ ∀ j id, (j, id) ∈ asksOf l → ∀ k arg, i ≤ k → k < j → stores[k]? = some arg → ¬ P arg

theorem Lacking.none {stores : List Bytes} {P : Bytes → Prop} {i : Nat} {w w' : World} (h : w'.log = w.log) : Lacking stores P i w w' :=
  ⟨[], by simp [h], by simp [asksOf]⟩

theorem Lacking.step {stores : List Bytes} {P : Bytes → Prop} {i : Nat} {w w' : World} (h : Lacking stores P (i + 1) w w')
    (hp : ∀ arg, stores[i]? = some arg → ¬ P arg) : Lacking stores P i w w' := by
  obtain ⟨l, h1, h2⟩ := h
  refine ⟨l, h1, fun j id hj k arg h3 h4 h5 => ?_⟩
  by_cases hk : k = i
  · subst hk; exact hp arg h5
  · exact h2 j id hj k arg (by omega) h4 h5

/-- Store `i` was asked first. -/
theorem Lacking.ask {stores : List Bytes} {P : Bytes → Prop} {i : Nat} {id : Id} {w w1 : World} {evs : List Event}
    (h : w1.log = w.log ++ [.ask i id] ++ evs) (he : asksOf evs = []) : Lacking stores P i w w1 := by
  refine ⟨[.ask i id] ++ evs, by rw [h]; simp, fun j id' hj k arg h3 h4 => ?_⟩
  simp only [asksOf_append, he, asksOf, List.append_nil, List.mem_singleton, Prod.mk.injEq] at hj
  omega

theorem Lacking.trans {stores : List Bytes} {P : Bytes → Prop} {i : Nat} {w w1 w2 : World} (h : Lacking stores P i w w1) (h' : Lacking stores P i w1 w2) :
    Lacking stores P i w w2 := by
  obtain ⟨l, h1, h2⟩ := h
  obtain ⟨l', h1', h2'⟩ := h'
  refine ⟨l ++ l', by rw [h1', h1, List.append_assoc], fun j id hj => ?_⟩
  rw [asksOf_append] at hj
  rcases List.mem_append.1 hj with hj | hj
  · exact h2 j id hj
  · exact h2' j id hj

theorem wp_chainLoop_missing {env : Env} {w0 : World} {tpath : Bytes} {stores : List Bytes} {segs : List Seg} {tino : Nat} (hF : Fixed env w0 tpath stores segs tino)
    {p : Params} {T : Nat → Prop} (hT : tpath ∈ stores → ∃ n, T n) {done : List Seg} {s : Seg} (hd : ∀ x ∈ done, x ∈ segs) (hs : s ∈ segs)
    (hle : total done ≤ total segs) :
    ∀ (args : List Bytes) (subs : List (Sub Store)) (i : Nat) (t : Tgt) (out : Bytes) (w : World), stores.drop i = args → t.ino = tino →
    Away tino w0 w → SubsInv env tino w0 w subs → Tracked env w0 tpath p w args subs → TgtInv env.H env.bufMax True T (w.data tino) done t → out.length = env.bufMax →
    total done ≤ (w.data tino).length →
    wp (chainLoop (storeGet env) s.id i t subs out) (fun _ w' => Lacking stores (Has env w0 tpath p done s) i w w') (fun _ w' => Lacking stores (Has env w0 tpath p done s) i w w') w
  | [], [], i, t, out, w, _, _, _, _, _, _, _, _ => by
    unfold chainLoop
    exact wp_pure (Lacking.none rfl)
  | arg :: args, [], i, t, out, w, _, _, _, _, h, _, _, _ => h.elim
  | [], sub :: subs, i, t, out, w, _, _, _, _, h, _, _, _ => h.elim
  | arg :: args, sub :: subs, i, t, out, w, hargs, hti, hw0, hsub, htr, ht, hout, hlong => by
    have hsub1 : SubsInv env tino w0 w subs := fun s hs => hsub s (by simp [hs])
    have hargs1 : stores.drop (i + 1) = args := by
      rw [← List.drop_drop, hargs]; rfl
    have hat : stores[i]? = some arg := by
      have := congrArg (fun l => l[0]?) hargs
      simpa using this
    have hin : arg ∈ stores := List.mem_of_getElem? hat
    unfold chainLoop
    cases hact : sub.active with
    | false =>
      simp only [Bool.not_false, if_true]
      have hno : ∀ x, stores[i]? = some x → ¬ Has env w0 tpath p done s x := by
        intro x hx hh
        rw [hat] at hx
        cases hx
        have := htr.1.inUse hh
        rw [hact] at this; cases this
      exact wp_bind (wp_mono (wp_chainLoop_missing hF hT hd hs hle args subs (i + 1) t out w hargs1 hti hw0 hsub1 htr.2 ht hout hlong) (fun a w' h => wp_pure (h.step hno))
        (fun st w' h => h.step hno))
    | true =>
      simp only [Bool.not_true, Bool.false_eq_true, if_false]
      refine wp_bind (wp_emit ?_)
      have hce := Calm.emit w (.ask i s.id)
      have hst : StoreInv env tino { w with log := w.log ++ [.ask i s.id] } sub.s := ((hsub sub (by simp)).1 hact).away (hce.away _)
      have htr0 := htr.1.away (hce.away tino)
      have w1 := wp_storeGet hF.lib hF.sane (hF.ids s hs) (by rw [hti]; exact hst) (out := out) (R := True) (T := T) (done := done) (by rw [hti]; exact ht)
      have w2 := wp_storeGet_avail hF hin hT hd hs hti (hw0.trans (hce.away _)) hact htr0 hst ht hout hlong hle
      refine wp_bind (wp_mono (wp_and w1 w2) ?_ (fun st w' h => ?_))
      · intro a w1 h
        obtain ⟨r, t1, s1, out1⟩ := a
        obtain ⟨h, _, _, _, k4⟩ := h
        rw [hti] at h
        have hla : Lacking stores (Has env w0 tpath p done s) i w w1 := by
          obtain ⟨evs, c, ce⟩ := h.calm
          exact Lacking.ask c.log (storeEv_noAsk evs ce)
        have hc1 := Asked.askEv h.calm
        have hti1 : t1.ino = tino := h.tgt.ino.trans hti
        have hd1 : w1.data tino = w.data tino := by obtain ⟨evs, c, _⟩ := hc1; rw [c.data]
        have ht1 : TgtInv env.H env.bufMax True T (w1.data tino) done t1 := by rw [hd1]; exact ht.same h.tgt
        have haw : Away tino w w1 := by obtain ⟨evs, c, _⟩ := hc1; exact c.away _
        have hl1 := h.len
        simp only at hl1 k4
        have rest : ∀ (w1' : World) (lg : List Event), Calm w1 w1' lg → asksOf lg = [] → ∀ (sub' : Sub Store), (¬ ∃ n, r = some (n + 1)) →
            wp (chainLoop (storeGet env) s.id (i + 1) t1 subs out1 >>= fun x => match x with
              | (r, t, subs, out) => (pure (r, t, sub' :: subs, out) : M (Option Nat × Tgt × List (Sub Store) × Bytes)))
              (fun _ w' => Lacking stores (Has env w0 tpath p done s) i w w') (fun _ w' => Lacking stores (Has env w0 tpath p done s) i w w') w1' := by
          intro w1' lg hlg hlg' sub' hr
          have haw := haw.trans (hlg.away tino)
          have ht1 : TgtInv env.H env.bufMax True T (w1'.data tino) done t1 := by rw [hlg.data]; exact ht1
          have hd1 : w1'.data tino = w.data tino := by rw [hlg.data]; exact hd1
          have hla : Lacking stores (Has env w0 tpath p done s) i w w1' := hla.trans ⟨lg, hlg.log, by simp [hlg']⟩
          have hno : ∀ x, stores[i]? = some x → ¬ Has env w0 tpath p done s x := by
            intro x hx hh
            rw [hat] at hx
            cases hx
            exact hr (k4 hh)
          refine wp_bind (wp_mono
            (wp_chainLoop_missing hF hT hd hs hle args subs (i + 1) t1 out1 w1' hargs1 hti1 (hw0.trans haw) (hsub1.away haw) (htr.2.away haw) ht1 (by omega) (by rw [hd1]; exact hlong))
            (fun b w2 g => wp_pure (hla.trans (g.step hno))) (fun st w' g => hla.trans (g.step hno)))
        cases r with
        | none =>
          refine wp_bind (wp_emit ?_)
          exact rest _ _ (Calm.emit w1 (.failed i)) rfl { sub with s := s1, active := false } (by simp)
        | some n =>
          cases n with
          | zero => exact rest w1 [] (Calm.refl w1) rfl { sub with s := s1, active := true } (by simp)
          | succ n => exact wp_pure hla
      · obtain ⟨evs, c, ce⟩ := h.1.2
        exact Lacking.ask c.log (storeEv_noAsk evs ce)

theorem source_congr {env : Env} {w : World} {tpath : Bytes} {p : Params} {arg : Bytes} {s s' : Seg} (hid : s.id = s'.id) (hlen : s.len = s'.len)
    (h : Source env w tpath p arg s) : Source env w tpath p arg s' := by
  obtain ⟨o, n, d⟩ := s
  obtain ⟨o', n', d'⟩ := s'
  simp only at hid hlen
  subst hid hlen
  cases h with
  | scan path index i e1 e2 e3 e4 => exact .scan path index i e1 e2 e3 e4
  | listed path ip i xs e1 e2 e3 e4 e5 e6 => exact .listed path ip i xs e1 e2 e3 e4 e5 e6
  | web B e1 e2 => exact .web B e1 e2

/-- What was asked: for chunks of the index, of a store only if no earlier one has the chunk, and of stores after the target only once. -/
structure AskedFor (env : Env) (w0 : World) (tpath : Bytes) (p : Params) (stores : List Bytes) (segs : List Seg) (l : List Event) : Prop where
  known : ∀ j id, (j, id) ∈ asksOf l → ∃ s ∈ segs, s.id = id
  miss : ∀ j id, (j, id) ∈ asksOf l → ∀ s ∈ segs, s.id = id → ∀ k arg, k < j → stores[k]? = some arg → ¬ Source env w0 tpath p arg s
  once : ∀ k, stores[k]? = some tpath → ((asksOf l).filter (fun a => decide (k < a.1))).Nodup

/-- What was asked since `w0`; chunks with these IDs are among `D`. -/
def AskedSince (env : Env) (w0 : World) (tpath : Bytes) (p : Params) (stores : List Bytes) (segs : List Seg) (D : Option (List Seg)) (w : World) : Prop :=
  ∃ l, w.log = w0.log ++ l ∧ AskedFor env w0 tpath p stores segs l ∧ ∀ done, D = some done → ∀ j id, (j, id) ∈ asksOf l → ∃ x ∈ done, x.id = id

section
variable {env : Env} {w0 : World} {tpath : Bytes} {p : Params} {stores : List Bytes} {segs : List Seg}

theorem AskedSince.quiet {D : Option (List Seg)} {w w' : World} (h : AskedSince env w0 tpath p stores segs D w) {evs : List Event} (hl : w'.log = w.log ++ evs) (he : asksOf evs = []) :
    AskedSince env w0 tpath p stores segs D w' := by
  obtain ⟨l, h1, ⟨h0, h2, h3⟩, h4⟩ := h
  have : asksOf (l ++ evs) = asksOf l := by rw [asksOf_append, he, List.append_nil]
  exact ⟨l ++ evs, by rw [hl, h1, List.append_assoc], ⟨by rw [this]; exact h0, by rw [this]; exact h2, by rw [this]; exact h3⟩, by rw [this]; exact h4⟩

theorem AskedSince.more {D E : Option (List Seg)} {w : World} (h : AskedSince env w0 tpath p stores segs D w) (he : ∀ e, E = some e → ∃ d, D = some d ∧ ∀ x ∈ d, x ∈ e) :
    AskedSince env w0 tpath p stores segs E w := by
  obtain ⟨l, h1, h2, h4⟩ := h
  refine ⟨l, h1, h2, fun e h j id hj => ?_⟩
  obtain ⟨d, h5, h6⟩ := he e h
  obtain ⟨x, h7, h8⟩ := h4 d h5 j id hj
  exact ⟨x, h6 x h7, h8⟩

theorem asksOf_writes (tino : Nat) (evs : List (Nat × Bytes)) : asksOf (evs.map (fun e => Event.write tino e.1 e.2)) = [] := by
  induction evs with
  | nil => rfl
  | cons e evs ih => simpa [asksOf] using ih

theorem asksOf_tell (evs : List Event) (h : ∀ e ∈ evs, TellEv e) : asksOf evs = [] := by
  induction evs with
  | nil => rfl
  | cons e evs ih =>
    have h1 := ih (fun x hx => h x (by simp [hx]))
    rcases h e (by simp) with ⟨n, hk⟩ | ⟨q, l, hk⟩ <;> subst hk <;> exact h1

/-- One query: for `seg`, when `done` are on the target. -/
theorem AskedSince.query {done : List Seg} {seg : Seg} {w w1 w' : World} (h : AskedSince env w0 tpath p stores segs (some done) w) (hseg : seg ∈ segs)
    (heven : ∀ s ∈ segs, ∀ s' ∈ segs, s.id = s'.id → s.len = s'.len)
    (hq : w1.log = w.log ++ [.query seg.id]) (h1 : Ordered 0 seg.id w1 w') (h2 : Lacking stores (Has env w0 tpath p done seg) 0 w1 w') :
    AskedSince env w0 tpath p stores segs (some (done ++ [seg])) w' := by
  obtain ⟨l, g1, ⟨g0, g2, g3⟩, g4⟩ := h
  obtain ⟨evs, ks, a1, a2, a3, _⟩ := h1
  obtain ⟨evs', b1, b2⟩ := h2
  rw [a1] at b1
  have := List.append_cancel_left b1
  subst this
  have e1 : asksOf (l ++ [.query seg.id] ++ evs) = asksOf l ++ ks.map (·, seg.id) := by
    rw [asksOf_append, asksOf_append, a2]; simp [asksOf]
  refine ⟨l ++ [.query seg.id] ++ evs, by rw [a1, hq, g1]; simp, ⟨fun j id hj => ?_, fun j id hj s hs hid k arg hk hka => ?_, fun k hk => ?_⟩, ?_⟩
  · rw [e1] at hj
    rcases List.mem_append.1 hj with hj | hj
    · exact g0 j id hj
    · obtain ⟨_, _, e⟩ := List.mem_map.1 hj
      exact ⟨seg, hseg, congrArg Prod.snd e⟩
  · rw [asksOf_append, asksOf_append] at hj
    rcases List.mem_append.1 hj with hj | hj
    · rcases List.mem_append.1 hj with hj | hj
      · exact g2 j id hj s hs hid k arg hk hka
      · simp [asksOf] at hj
    · intro hh
      have hid' : id = seg.id := by
        rw [a2] at hj
        obtain ⟨_, _, e⟩ := List.mem_map.1 hj
        exact (congrArg Prod.snd e).symm
      exact b2 j id hj k arg (Nat.zero_le _) hk hka (Or.inr (source_congr (hid.trans hid') (heven s hs seg hseg (hid.trans hid')) hh))
  · rw [e1, List.filter_append, List.nodup_append]
    refine ⟨g3 k hk, ?_, ?_⟩
    · refine List.Pairwise.filter _ ?_
      rw [List.pairwise_map]
      exact a3.imp (fun {a b} h e => by have := congrArg Prod.fst e; simp only at this; omega)
    · rintro ⟨j, id⟩ hj x hj' e
      subst e
      simp only [List.mem_filter, decide_eq_true_eq] at hj hj'
      obtain ⟨x, x1, x2⟩ := g4 done rfl j id hj.1
      have hid : id = seg.id := by
        obtain ⟨_, _, e⟩ := List.mem_map.1 hj'.1
        exact (congrArg Prod.snd e).symm
      rw [← a2] at hj'
      exact b2 j id hj'.1 k tpath (Nat.zero_le _) hj.2 hk (Or.inl ⟨rfl, x, x1, x2.trans hid⟩)
  · rintro d hd j id hj
    cases hd
    rw [e1] at hj
    rcases List.mem_append.1 hj with hj | hj
    · obtain ⟨x, x1, x2⟩ := g4 done rfl j id hj
      exact ⟨x, by simp [x1], x2⟩
    · obtain ⟨_, _, e⟩ := List.mem_map.1 hj
      exact ⟨seg, by simp, congrArg Prod.snd e⟩

end

/-- Analysis of which stores are asked. -/
def missRun (env : Env) (tpath : Bytes) (p : Params) (stores : List Bytes) (tino : Nat) (w0 : World) (segs : List Seg) (P : Nat → Prop) : Cfg where
  env := env
  tino := tino
  w0 := w0
  segs := segs
  R := True
  T := fun n => tpath ∈ stores ∧ n = segs.length
  CI := fun done w subs => ((SubsInv env tino w0 w subs ∧ ∀ o ∈ subs.map (fun s => inoOf s.s), ∀ i, o = some i → P i) ∧ Tracked env w0 tpath p w stores subs) ∧
    AskedSince env w0 tpath p stores segs (some done) w
  CJ := fun done seg w subs => ((SubsInv env tino w0 w subs ∧ ∀ o ∈ subs.map (fun s => inoOf s.s), ∀ i, o = some i → P i) ∧ Tracked env w0 tpath p w stores subs) ∧
    AskedSince env w0 tpath p stores segs (some (done ++ [seg])) w
  L := fun w => AskedSince env w0 tpath p stores segs none w
  Bad := fun _ => True
  SOk := fun s => s = .killed

theorem missRun_ok {env : Env} {tpath : Bytes} {p : Params} {stores : List Bytes} {tino : Nat} {w0 : World} {segs : List Seg} {P : Nat → Prop}
    (hF : Fixed env w0 tpath stores segs tino) (hs : SegsOk segs) : (missRun env tpath p stores tino w0 segs P).Ok := by
  refine ⟨hF.lib, hs, fun _ => regular_of_even hF.even, fun n hn => by simp only [missRun] at hn ⊢; omega, ?_, ?_, ?_, ?_, ?_, ?_, ?_, ?_, ?_⟩
  · intro done w w' subs h hc
    exact ⟨⟨⟨SubsInv.away h.1.1.1 (hc.away _), h.1.1.2⟩, h.1.2.away (hc.away tino)⟩, h.2.quiet hc.log rfl⟩
  · intro done seg w subs h
    exact ⟨h.1, h.2.more (by rintro e ⟨⟩; exact ⟨_, rfl, fun x hx => by simp [hx]⟩)⟩
  · intro done seg w subs d evs r mm h _ _ hr hm
    exact ⟨⟨⟨SubsInv.away h.1.1.1 (Away.wrote hr hm), h.1.1.2⟩, h.1.2.away (Away.wrote (tino := tino) hr hm)⟩, h.2.quiet (evs := evs.map (fun e => Event.write tino e.1 e.2)) rfl (asksOf_writes _ _)⟩
  · intro done seg w subs h _
    exact ⟨h.1, h.2.more (by rintro e ⟨⟩; exact ⟨_, rfl, fun x hx => by simp [hx]⟩)⟩
  · intro done w subs h
    exact h.2.more (by rintro e ⟨⟩)
  · intro done seg w subs h
    exact h.2.more (by rintro e ⟨⟩)
  · intro w w' evs h hl
    exact AskedSince.quiet h hl (asksOf_writes _ _)
  · intro w w' evs h he hl
    exact AskedSince.quiet h hl (asksOf_tell _ he)
  · intro pre post seg rest c t out w hsh hun hci ht hti hout
    have hsplit : segs = pre ++ post ++ seg :: rest := hsh.split
    have hseg : seg ∈ segs := by rw [hsplit]; simp
    have ha : Away tino w0 w := hsh.away
    obtain ⟨⟨⟨hci1, hci2⟩, hci3⟩, hci4⟩ := hci
    have hle : total (pre ++ post) ≤ total segs := by rw [hsplit, total_append (pre ++ post)]; omega
    have hlong : total (pre ++ post) ≤ (w.data tino).length := by
      have := hsh.long
      simpa [missRun] using this
    unfold chainGet
    refine wp_bind (wp_emit ?_)
    have hce := Calm.emit w (.query seg.id)
    have w1 := wp_chainLoop_inv (R := True) (T := fun n => tpath ∈ stores ∧ n = segs.length) (done := pre ++ post) (w0 := w0) hF.lib hF.sane (hF.ids seg hseg) c.subs 0 t out _ hti
      (ha.trans (hce.away _)) (SubsInv.away hci1 (hce.away _)) ht
    have w2 := wp_chainLoop_ino env seg.id c.subs 0 t out { w with log := w.log ++ [.query seg.id] }
    have w3 := wp_chainLoop_avail (T := fun n => tpath ∈ stores ∧ n = segs.length) hF (fun h => ⟨segs.length, h, rfl⟩) (fun x hx => by rw [hsplit]; exact List.mem_append_left _ hx) hseg hle stores c.subs 0 t out _ (fun _ h => h) hti
      (ha.trans (hce.away _)) (SubsInv.away hci1 (hce.away _)) (hci3.away (hce.away tino)) ht hout hlong
    have w4 := wp_chainLoop_missing (T := fun n => tpath ∈ stores ∧ n = segs.length) hF (fun h => ⟨segs.length, h, rfl⟩) (fun x hx => by rw [hsplit]; exact List.mem_append_left _ hx) hseg hle stores c.subs 0 t out _ rfl hti
      (ha.trans (hce.away _)) (SubsInv.away hci1 (hce.away _)) (hci3.away (hce.away tino)) ht hout hlong
    refine wp_bind (wp_mono (wp_and (wp_and (wp_and w1 w2) w3) w4) ?_ ?_)
    · intro a w' h
      obtain ⟨r, t', subs', out'⟩ := a
      obtain ⟨⟨⟨h, h'⟩, h1, h2, h3⟩, h4⟩ := h
      obtain ⟨evs, k1, k2⟩ := h.calm
      have hca := (Calm.emit w' (.answer seg.id r)).away tino
      have hq := (hci4.query hseg hF.even rfl h.order h4).quiet (w' := { w' with log := w'.log ++ [.answer seg.id r] }) rfl rfl
      refine wp_bind (wp_emit (wp_pure ⟨Calm.answered ⟨evs, hce.trans k1, k2⟩, fun _ => ⟨⟨⟨SubsInv.away h.subs hca, ?_⟩, h1.away hca⟩, hq⟩, hq.more (by rintro e ⟨⟩), h.tgt, h.len, h.data, fun _ => trivial⟩))
      simp only at h' ⊢
      rw [h']
      exact hci2
    · intro s w' h
      obtain ⟨evs, k1, k2⟩ := h.1.1.1.2
      exact ⟨⟨h.1.2, (hci4.query hseg hF.even rfl h.1.1.1.1.2 h.2).more (by rintro e ⟨⟩)⟩, evs, hce.trans k1, k2⟩

/-- Which stores a run asks. -/
theorem run_missing {env : Env} {w : World} {ipath tpath : Bytes} {stores : List Bytes} (hsc : Scene env w ipath tpath stores)
    (hu : Usable env w ipath tpath stores) {segs : List Seg} {ti ii n : Nat} {p : Params} (hd : Describes w ipath segs) (ht : w.dir tpath = some ti)
    (hii : w.dir ipath = some ii) (hwf : WellFormed (w.data ii) p.min p.avg p.max n) (hfit : ∀ s ∈ segs, s.len ≠ 0 ∧ s.len ≤ env.bufMax)
    (heven : ∀ s ∈ segs, ∀ s' ∈ segs, s.id = s'.id → s.len = s'.len) (hcl : NoClash env w tpath stores segs) (h63 : total segs < 2 ^ 63) :
    wp (csnMain env (ipath :: tpath :: stores)) (fun _ w' => AskedSince env w tpath p stores segs none w') (fun _ w' => AskedSince env w tpath p stores segs none w') w := by
  have quiet : ∀ {D : Option (List Seg)} {w1 : World}, (∃ evs, Calm w w1 evs ∧ ∀ e ∈ evs, StoreEv e) → AskedSince env w tpath p stores segs D w1 := by
    rintro D w1 ⟨evs, c, ce⟩
    have e := storeEv_noAsk evs ce
    exact ⟨evs, c.log, ⟨by simp [e], by simp [e], by simp [e]⟩, by simp [e]⟩
  unfold csnMain
  refine wp_bind (wp_mono (wp_csn hsc) ?_ ?_)
  · intro r w1 h
    obtain ⟨h1, h2⟩ := h
    cases r with
    | none => exact absurd h2 hu.starts
    | some s =>
      simp only at h2 ⊢
      have hb := h2.begun
      have hti : s.tgt.ino = ti := by have := hb.tgt; rw [ht] at this; cases this; rfl
      have hseg := Describes.unique hd hb.idx
      have hso := Describes.segsOk hd
      have hF : Fixed env w tpath stores segs ti := by
        refine ⟨hsc.lib, hsc.sane, hu.clean, ?_, hcl, heven, hfit, hu.files, fun arg ha hh => (hu.urls arg ha hh).1, ?_, h63, ?_, ?_⟩
        · intro b hb'
          cases b with
          | true => rfl
          | false => exact absurd hb' hu.mem
        · intro x hx
          obtain ⟨a, b, e⟩ := List.append_of_mem hx
          exact (hso _ _ _ e).2.2
        · intro arg ha path index hl i hi' e
          rw [e] at hi'
          exact hsc.own arg ha path index hl _ hi' ht
        · intro arg ha path index hl i hi'
          obtain ⟨_, _, _, _, _, _, _, _, _, i5⟩ := hu.index
          obtain ⟨⟨j, k1, k2, _⟩, _⟩ := i5 arg ha path index hl
          rw [hi'] at k1
          cases k1
          exact k2
      have hok : (missRun env tpath p stores ti w segs (LocalIno w tpath stores)).Ok := missRun_ok hF hso
      obtain ⟨t0, _, happ⟩ := h2.app
      have hp : s.p.min = p.min ∧ s.p.avg = p.avg ∧ s.p.max = p.max ∧ s.n = n := by
        have e := h2.idx
        rw [hii] at e
        have e' := h2.wf
        rw [← Option.some.inj e] at e'
        exact wellFormed_unique e' hwf
      have hp' : s.p = p := by
        cases p; cases hsp : s.p
        rw [hsp] at hp
        simp only at hp
        obtain ⟨rfl, rfl, rfl, _⟩ := hp
        rfl
      have hq : AskedSince env w tpath p stores segs (some []) w1 := quiet h1
      obtain ⟨evs1, hcalm1, _⟩ := h1
      refine wp_sync (G := missRun env tpath p stores ti w segs (LocalIno w tpath stores)) hok hsc h2 hti hseg
        ⟨⟨⟨by have := subsInv_start hsc h2; rw [hti] at this; exact this, h2.inos⟩, ?_⟩, hq⟩ (fun n hn => ⟨happ.qry.2 hn.1, ?_⟩)
        (F := True) (fun _ _ _ _ _ => trivial) ?_ ?_ ?_
      · refine tracked_of happ.len (fun k sub hk => ?_)
        obtain ⟨g1, arg, g2, g3⟩ := happ.each k sub hk
        rw [hp'] at g3
        exact ⟨arg, g2, (tracks_start hu hii hwf (List.mem_of_getElem? g2) g1 g3).away (hcalm1.away ti)⟩
      · simp only [missRun] at hn
        have := delivered_length_le (tableEntries (w.data s.iino) s.n) 0
        rw [← hseg] at this
        simp only [tableEntries, List.length_map, List.length_range] at this
        omega
      · intro w' pre post e hs hL _
        exact hL
      · intro w' _ he
        exact he.2
      · intro st w' _ he
        exact he.2
  · intro s w1 h
    exact quiet h.1

end Csn.Proof
