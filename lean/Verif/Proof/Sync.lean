import Verif.Proof.Shape
/-
The synchronisation loop.
-/
namespace Csn.Proof
open Csn Spec Props

/-- Parameters of the loop's analysis: environment, target, world at the start, regions of the index; `R`: hashes are
known; `T`: the target is a store whose index is complete; `CI done w subs`: invariant of the chain when the regions
`done` have been handled; `CJ done seg w subs`: the same when the chunk for `seg` is in the buffer; `L`: what holds
however the run ends; `Bad`: what a wrong answer of the chain implies; `SOk`: how queries may stop the process. -/
structure Cfg where
  env : Env
  tino : Nat
  w0 : World
  segs : List Seg
  R : Prop
  T : Nat → Prop
  CI : List Seg → World → List (Sub Store) → Prop
  CJ : List Seg → Seg → World → List (Sub Store) → Prop
  L : World → Prop
  Bad : World → Prop
  SOk : Stop → Prop

/-- `Shape` for the parameters `G`. -/
abbrev Cfg.Shape (G : Cfg) := Proof.Shape G.env.H G.env.bufMax G.R G.tino G.w0 G.segs

/-- Answer to a query for region `seg` when `done` have been handled. -/
structure Got (G : Cfg) (done : List Seg) (seg : Seg) (t : Tgt) (out : Bytes) (w : World) (a : Option Nat × Tgt × Chain Store × Bytes) (w' : World) : Prop where
  calm : ∃ evs, Calm w w' (.query seg.id :: evs) ∧ ∀ e ∈ evs, AskEv seg.id e
  ci : a.1 = some seg.len → G.CJ done seg w' a.2.2.1.subs
  log : G.L w'
  tgt : TgtSame t a.2.1
  len : a.2.2.2.length = out.length
  data : ∀ n, a.1 = some (n + 1) → n + 1 ≤ out.length ∧ (G.R → G.env.H (a.2.2.2.take (n + 1)) = seg.id)
  bad : a.1 ≠ some seg.len → G.Bad w'

def GotStop (G : Cfg) (seg : Seg) (w : World) (s : Stop) (w' : World) : Prop :=
  (G.SOk s ∧ G.L w') ∧ ∃ evs, Calm w w' (.query seg.id :: evs) ∧ ∀ e ∈ evs, AskEv seg.id e

/-- Why a run can fail. -/
def Cfg.Fails (G : Cfg) (w : World) : Prop :=
  ¬ Clean G.w0.sys ∨ G.Bad w ∨ (∃ x ∈ G.segs, G.env.bufMax < x.len) ∨
    (G.w0.kind G.tino = .blk ∧ (G.w0.data G.tino).length < total G.segs) ∨ 2 ^ 63 ≤ total G.segs

/-- How a run can stop. -/
def Cfg.Stops (G : Cfg) (s : Stop) : Prop :=
  s = .killed ∨ G.SOk s ∨ (s = .abort ∧ (¬ Clean G.w0.sys ∨ ∃ x ∈ G.segs, x.len = 0)) ∨ (s = .ub ∧ ¬ G.R)

/-- What the parameters must satisfy. -/
structure Cfg.Ok (G : Cfg) : Prop where
  lib : G.env.lib.Conforms
  segs : SegsOk G.segs
  reg : G.R → Regular G.segs
  full : ∀ n, G.T n → G.segs.length ≤ n
  calm : ∀ done w w' subs, G.CI done w subs → Calm w w' [] → G.CI done w' subs
  again : ∀ done seg w subs, G.CI done w subs → G.CJ done seg w subs
  write : ∀ done seg w subs d evs r mm, G.CJ done seg w subs → d.length = seg.len → PiecesOf (total done) d evs → r <:+ w.sys → mm <:+ w.mem →
    G.CI (done ++ [seg]) { wrote w G.tino (total done) d evs r with mem := mm } subs
  skip : ∀ done seg w subs, G.CI done w subs → (∃ evs, w.log = G.w0.log ++ evs ∧ ∀ e ∈ evs, StoreEv e) → G.CI (done ++ [seg]) w subs
  kept : ∀ done w subs, G.CI done w subs → G.L w
  kept' : ∀ done seg w subs, G.CJ done seg w subs → G.L w
  logs : ∀ (w w' : World) (evs : List (Nat × Bytes)), G.L w → w'.log = w.log ++ evs.map (fun e => Event.write G.tino e.1 e.2) → G.L w'
  tells : ∀ (w w' : World) (evs : List Event), G.L w → (∀ e ∈ evs, TellEv e) → w'.log = w.log ++ evs → G.L w'
  get : ∀ pre post seg rest c t out w, G.Shape pre post (seg :: rest) 0 [] w →
    (∀ x tl, post ++ [seg] = x :: tl → Unskipped G.env.H G.tino G.w0 x) → G.CI (pre ++ post) w c.subs →
    TgtInv G.env.H G.env.bufMax G.R G.T (w.data G.tino) (pre ++ post) t → t.ino = G.tino → out.length = G.env.bufMax →
    wp (chainGet (storeGet G.env) t c seg.id out) (Got G (pre ++ post) seg t out w) (GotStop G seg w) w

/-- The state between two entries. -/
structure Loop (G : Cfg) (done rest : List Seg) (c : Cb) (w : World) : Prop where
  ino : c.tgt.ino = G.tino
  buf : c.buf.length = G.env.bufMax
  tgt : TgtInv G.env.H G.env.bufMax G.R G.T (w.data G.tino) done c.tgt
  ci : G.CI done w c.chain.subs
  shape : ∃ pre post, done = pre ++ post ∧ G.Shape pre post rest 0 [] w ∧
    (c.resuming = true → post = [] ∧ c.haveLast = false ∧ w.data G.tino = G.w0.data G.tino ∧
      ∃ evs, w.log = G.w0.log ++ evs ∧ ∀ e ∈ evs, StoreEv e) ∧
    (c.resuming = false → ∃ x, post.getLast? = some x ∧ c.haveLast = true ∧ c.lastId = x.id ∧
      (G.R → x.len ≤ G.env.bufMax ∧ (x.len ≠ 0 → G.env.H (c.buf.take x.len) = x.id))) ∧
    c.skipped = pre.length

theorem Loop.calm {G : Cfg} (hG : G.Ok) {done rest : List Seg} {c : Cb} {w w' : World} (h : Loop G done rest c w) (hc : Calm w w' []) :
    Loop G done rest c w' := by
  refine ⟨h.ino, h.buf, by rw [hc.data]; exact h.tgt, hG.calm _ _ _ _ h.ci hc, ?_⟩
  obtain ⟨pre, post, s1, s2, s3, s4⟩ := h.shape
  refine ⟨pre, post, s1, s2.calm hc, fun hr => ?_, s4⟩
  obtain ⟨a, b, c, evs, d, e⟩ := s3 hr
  exact ⟨a, b, by rw [hc.data]; exact c, evs, by rw [hc.log, d]; simp, e⟩

/-- A run has ended with target and log in this state. -/
def Cfg.Ended (G : Cfg) (w : World) : Prop := (∃ pre post rest m d, G.Shape pre post rest m d w) ∧ G.L w

theorem Cfg.Ok.queryable {G : Cfg} (hG : G.Ok) {done : List Seg} {t : Tgt} {w : World}
    (ht : TgtInv G.env.H G.env.bufMax G.R G.T (w.data G.tino) done t) (hd : done.length < G.segs.length) :
    ∀ n, G.T n → t.queryable = true ∧ done.length < n := by
  intro n hT
  have := hG.full n hT
  exact ⟨(ht.full n hT).1, by omega⟩

/-- Writing the region, the chunk being in the buffer. -/
theorem wp_writeEntry {G : Cfg} (hG : G.Ok) {pre post rest : List Seg} {seg : Seg} {c : Cb} {w : World}
    (hs : G.Shape pre post (seg :: rest) 1 [] w) (hino : c.tgt.ino = G.tino) (hbuf : c.buf.length = G.env.bufMax)
    (htgt : TgtInv G.env.H G.env.bufMax G.R G.T (w.data G.tino) (pre ++ post) c.tgt) (hci : G.CJ (pre ++ post) seg w c.chain.subs)
    (hres : c.resuming = false) (hskip : c.skipped = pre.length) (hlast : c.haveLast = true) (hid : c.lastId = seg.id)
    (hfit : seg.len ≤ G.env.bufMax) (hH : G.R → seg.len ≠ 0 → G.env.H (c.buf.take seg.len) = seg.id)
    {Q : Bool × Cb → World → Prop} {S : Stop → World → Prop}
    (hok : ∀ c' w', Loop G (pre ++ post ++ [seg]) rest c' w' → Q (true, c') w')
    (hfail : ∀ c' w', G.Fails w' → G.Ended w' → Q (false, c') w')
    (hstop : ∀ s w', G.Stops s → G.Ended w' → S s w') :
    wp (targetWrite G.env.lib c.tgt c.buf seg.len seg.off seg.id >>= fun x => match x with
      | (ok, tgt) => (pure (ok, { c with tgt := tgt }) : M (Bool × Cb))) Q S w := by
  have hoff := hs.next_off hG.segs
  have hlong := hs.long
  simp only [List.length_nil, Nat.add_zero] at hlong
  have hcl : (c.buf.take seg.len).length = seg.len := by simp; omega
  have htot : total (pre ++ post) + seg.len ≤ total G.segs := by
    rw [hs.split, total_append (pre ++ post), total_cons]; omega
  refine wp_bind (wp_targetWrite hG.lib hino htgt (by omega) hoff hlong hbuf hH
    (hG.queryable htgt (by rw [hs.split]; simp)) ?_ ?_ ?_ ?_)
  · intro t' evs r mm h1 h2 h3 h4 h5 h6 h7
    have hsh := hs.complete (w' := { wrote w G.tino seg.off (c.buf.take seg.len) evs r with mem := mm }) rfl h5 h6 hG.segs hcl hH h7 hfit h3
    refine wp_pure (hok _ _ ⟨h1.trans hino, hbuf, ?_, ?_, pre, post ++ [seg], by simp, hsh, ?_, ?_, hskip⟩)
    · simpa [wrote] using h4
    · have := hG.write _ seg w _ (c.buf.take seg.len) evs r mm hci hcl (by rw [← hoff]; exact h3) h5 h6
      rw [hoff]
      exact this
    · intro hr; simp only at hr; rw [hres] at hr; cases hr
    · intro _
      exact ⟨seg, by simp, hlast, hid, fun hR => ⟨hfit, hH hR⟩⟩
  · intro evs r k hk hp hr hc
    refine wp_pure (hfail _ _ ?_ ⟨⟨_, _, _, _, _, hs.partly hr hG.segs hcl hH hk hp⟩, hG.logs w _ evs (hG.kept' _ _ _ _ hci) (by simp [wrote])⟩)
    rcases hc with hc | ⟨hc, hc'⟩ | hc
    · exact Or.inl (fun g => hc (g.suffix hs.away.sys))
    · refine Or.inr (Or.inr (Or.inr (Or.inl ⟨by rw [← hs.away.kind]; exact hc, ?_⟩)))
      have := hs.grow
      omega
    · exact Or.inr (Or.inr (Or.inr (Or.inr (by omega))))
  · intro evs r k s hk hp hr hc
    refine hstop _ _ ?_ ⟨⟨_, _, _, _, _, hs.partly hr hG.segs hcl hH hk hp⟩, hG.logs w _ evs (hG.kept' _ _ _ _ hci) (by simp [wrote])⟩
    rcases hc with ⟨hc, hc'⟩ | hc
    · exact Or.inr (Or.inr (Or.inl ⟨hc, Or.inl (fun g => hc' (g.suffix hs.away.sys))⟩))
    · exact Or.inl hc
  · intro evs r hr h0 hp
    refine hstop _ _ (Or.inr (Or.inr (Or.inl ⟨rfl, Or.inr ⟨seg, by rw [hs.split]; simp, h0⟩⟩))) ⟨⟨pre, post ++ [seg], rest, 0, [], ?_⟩, hG.logs w _ evs (hG.kept' _ _ _ _ hci) (by simp [wrote])⟩
    exact hs.complete (mm := w.mem) rfl hr (List.suffix_refl _) hG.segs hcl hH (by omega) hfit hp

/-- main.c:57-71, 83 -/
def storePart (env : Env) (e : Seg) (c : Cb) : M (Bool × Cb) := do
  let fetched : Bool × Cb ←
    if !c.haveLast || c.lastId != e.id then do
      let (r, tgt, chain, buf) ← chainGet (storeGet env) c.tgt c.chain e.id c.buf
      let c := { c with tgt := tgt, chain := chain, buf := buf }
      if r = some e.len then pure (true, { c with lastId := e.id, haveLast := true })
      else pure (false, c)
    else pure (true, c)
  match fetched with
  | (false, c) => return (false, c)
  | (true, c) => do
    let (ok, tgt) ← targetWrite env.lib c.tgt c.buf e.len e.off e.id
    return (ok, { c with tgt := tgt })

theorem entryCb_eq (env : Env) (c : Cb) (e : Seg) : entryCb env c e =
    (if c.resuming then
      if e.len > c.buf.length then return (false, c)
      else do
        let (r, tgt, buf) ← targetCheck env c.tgt c.buf e.len e.off e.id
        let c := { c with tgt := tgt, buf := buf }
        if r = some true then return (true, { c with skipped := c.skipped + 1 })
        else storePart env e { c with resuming := false }
    else storePart env e c) := rfl

theorem Calm.sync {tino : Nat} {id : Id} {evs : List Event} (h : ∀ e ∈ evs, AskEv id e) : ∀ e ∈ (.query id :: evs), SyncEv tino e := by
  intro e he
  rcases List.mem_cons.1 he with he | he
  · exact Or.inr (Or.inl ⟨_, he⟩)
  · rcases h e he with ⟨k, h⟩ | h | ⟨r, h⟩ | h
    · exact Or.inr (Or.inr (Or.inl ⟨_, _, h⟩))
    · exact Or.inr (Or.inr (Or.inr (Or.inl h)))
    · exact Or.inr (Or.inr (Or.inr (Or.inr (Or.inl ⟨_, _, h⟩))))
    · exact Or.inr (Or.inr (Or.inr (Or.inr (Or.inr (Or.inr h)))))

theorem wp_storePart {G : Cfg} (hG : G.Ok) {pre post rest : List Seg} {seg : Seg} {c : Cb} {w : World}
    (hs : G.Shape pre post (seg :: rest) 0 [] w) (hst : ∀ x tl, post ++ [seg] = x :: tl → Unskipped G.env.H G.tino G.w0 x)
    (hino : c.tgt.ino = G.tino) (hbuf : c.buf.length = G.env.bufMax)
    (htgt : TgtInv G.env.H G.env.bufMax G.R G.T (w.data G.tino) (pre ++ post) c.tgt) (hci : G.CI (pre ++ post) w c.chain.subs)
    (hres : c.resuming = false) (hskip : c.skipped = pre.length)
    (hlast : (post = [] ∧ c.haveLast = false) ∨ ∃ x, post.getLast? = some x ∧ c.haveLast = true ∧ c.lastId = x.id ∧
      (G.R → x.len ≤ G.env.bufMax ∧ (x.len ≠ 0 → G.env.H (c.buf.take x.len) = x.id)))
    {Q : Bool × Cb → World → Prop} {S : Stop → World → Prop}
    (hok : ∀ c' w', Loop G (pre ++ post ++ [seg]) rest c' w' → Q (true, c') w')
    (hfail : ∀ c' w', G.Fails w' → G.Ended w' → Q (false, c') w')
    (hstop : ∀ s w', G.Stops s → G.Ended w' → S s w') : wp (storePart G.env seg c) Q S w := by
  unfold storePart
  by_cases hq : (!c.haveLast || c.lastId != seg.id) = true
  · simp only [hq, if_true]
    have hne : (post.map (·.id)).getLast? ≠ some seg.id := by
      rw [List.getLast?_map]
      rcases hlast with ⟨h, _⟩ | ⟨x, h1, h2, h3, _⟩
      · simp [h]
      · simp [h2] at hq
        rw [h1]
        simp only [Option.map_some, ne_eq, Option.some.injEq]
        rw [← h3]; exact hq
    have hruns : ∀ evs, (∀ e ∈ evs, AskEv seg.id e) → runs ((post ++ (seg :: rest).take 1).map (·.id)) =
        runs ((post ++ (seg :: rest).take 0).map (·.id)) ++ queriesOf (.query seg.id :: evs) := by
      intro evs he
      simp only [List.take_succ_cons, List.take_zero, List.map_append, List.map_cons, List.map_nil, List.append_nil, queriesOf]
      rw [runs_snoc, if_neg hne, (askEv_none evs he).2]
    refine wp_bind (wp_mono (hG.get pre post seg rest c.chain c.tgt c.buf w hs hst hci htgt hino hbuf) ?_ ?_)
    · intro a w' h
      obtain ⟨r, tgt, chain, buf⟩ := a
      obtain ⟨⟨evs, hc1, hc2⟩, h2, h2', h3, h4, h5, h6⟩ := h
      simp only at h2 h3 h4 h5 h6
      have hsh := hs.step (m' := 1) hc1 (Calm.sync hc2) (askEv_none evs hc2).1 (hruns evs hc2) (by simpa using hst) (Nat.le_refl _)
      by_cases hr : r = some seg.len
      · simp only [hr, if_true]
        refine wp_bind (wp_pure ?_)
        refine wp_writeEntry hG (c := { c with haveLast := true, lastId := seg.id, buf := buf, tgt := tgt, chain := chain }) hsh (h3.ino.trans hino) (h4.trans hbuf) ?_ (h2 hr) hres hskip rfl rfl ?_ ?_ hok hfail hstop
        · rw [hc1.data]; exact htgt.same h3
        · cases hl : seg.len with
          | zero => omega
          | succ n => have := (h5 n (by rw [hr, hl])).1; omega
        · intro hR hne
          obtain ⟨n, hl⟩ : ∃ n, seg.len = n + 1 := ⟨seg.len - 1, by omega⟩
          have := (h5 n (by rw [hr, hl])).2 hR
          rw [hl]; exact this
      · simp only [hr, if_false]
        refine wp_bind (wp_pure ?_)
        exact wp_pure (hfail _ _ (Or.inr (Or.inl (h6 hr))) ⟨⟨_, _, _, _, _, hsh⟩, h2'⟩)
    · intro s w' h
      obtain ⟨⟨h1, h1'⟩, evs, hc1, hc2⟩ := h
      have hsh := hs.step (m' := 1) hc1 (Calm.sync hc2) (askEv_none evs hc2).1 (hruns evs hc2) (by simpa using hst) (Nat.le_refl _)
      exact hstop _ _ (Or.inr (Or.inl h1)) ⟨⟨_, _, _, _, _, hsh⟩, h1'⟩
  · simp only [hq, if_false]
    refine wp_bind (wp_pure ?_)
    rcases hlast with ⟨_, h⟩ | ⟨x, h1, h2, h3, h4⟩
    · simp [h] at hq
    · have hxid : x.id = seg.id := by simp [h2] at hq; rw [← h3, hq]
      have hreg : G.R → x.len = seg.len := by
        intro hR
        obtain ⟨p', hp'⟩ := List.getLast?_eq_some_iff.1 h1
        refine hG.reg hR (pre ++ p') x seg rest ?_ hxid
        rw [hs.split, hp']; simp
      have hsh : G.Shape pre post (seg :: rest) 1 [] w := by
        refine hs.step (m' := 1) (Calm.refl w) (by simp) rfl ?_ (by simpa using hst) (Nat.le_refl _)
        simp only [List.take_succ_cons, List.take_zero, List.map_append, List.map_cons, List.map_nil, List.append_nil, queriesOf]
        rw [runs_snoc, if_pos]
        rw [List.getLast?_map, h1, ← hxid]; rfl
      by_cases hfit : seg.len ≤ G.env.bufMax
      · exact wp_writeEntry hG hsh hino hbuf htgt (hG.again _ _ _ _ hci) hres hskip h2 (h3.trans hxid) hfit
          (fun hR hne => by rw [← hreg hR, ← hxid]; exact (h4 hR).2 (by rw [hreg hR]; exact hne)) hok hfail hstop
      · refine wp_bind ?_
        unfold targetWrite
        rw [if_pos (by omega)]
        refine wp_bind (wp_stop (hstop _ _ (Or.inr (Or.inr (Or.inr ⟨rfl, fun hR => ?_⟩))) ⟨⟨_, _, _, _, _, hsh⟩, hG.kept _ _ _ hci⟩))
        have := (h4 hR).1
        have := hreg hR
        omega

/-- One entry. -/
theorem wp_entryCb {G : Cfg} (hG : G.Ok) {done rest : List Seg} {seg : Seg} {c : Cb} {w : World} (h : Loop G done (seg :: rest) c w)
    {Q : Bool × Cb → World → Prop} {S : Stop → World → Prop}
    (hok : ∀ c' w', Loop G (done ++ [seg]) rest c' w' → Q (true, c') w')
    (hfail : ∀ c' w', G.Fails w' → G.Ended w' → Q (false, c') w')
    (hstop : ∀ s w', G.Stops s → G.Ended w' → S s w') : wp (entryCb G.env c seg) Q S w := by
  obtain ⟨hino, hbuf, htgt, hci, pre, post, rfl, hs, hres, hwr, hskip⟩ := h
  rw [entryCb_eq]
  have hoff := hs.next_off hG.segs
  have hmem : seg ∈ G.segs := by rw [hs.split]; simp
  have hlt := (hG.segs _ _ _ hs.split).2.1
  cases hr : c.resuming with
  | false =>
    simp only [Bool.false_eq_true, if_false]
    refine wp_storePart hG hs ?_ hino hbuf htgt hci hr hskip (Or.inr (hwr hr)) hok hfail hstop
    obtain ⟨x, hx, _⟩ := hwr hr
    intro y tl hy
    cases post with
    | nil => simp at hx
    | cons z zs =>
      simp only [List.cons_append, List.cons.injEq] at hy
      exact hs.first y zs (by simp [hy.1])
  | true =>
    obtain ⟨rfl, hlast, hd, hev⟩ := hres hr
    simp only [if_true]
    simp only [List.append_nil] at htgt hci hoff hok
    split
    · next hl =>
      exact wp_pure (hfail _ _ (Or.inr (Or.inr (Or.inl ⟨seg, hmem, by omega⟩))) ⟨⟨_, _, _, _, _, hs⟩, hG.kept _ _ _ hci⟩)
    · next hl =>
      refine wp_bind (wp_targetCheck hG.lib hino htgt (by omega) hoff hbuf (hG.queryable htgt (by rw [hs.split]; simp)) ?_ ?_ ?_ ?_)
      · intro t' buf' r mm h1 h2 h3 h4 h5 h6 h7 h8
        simp only [if_true]
        have hc : Calm w { w with sys := r, mem := mm } [] := ⟨rfl, rfl, rfl, rfl, h5, h6, List.suffix_refl _, by simp⟩
        have hsm := hs.small
        simp only [List.append_nil] at hsm
        have hsh := (hs.calm hc).skipped hd (by rw [hd] at h7; exact h7) (by omega) hoff (by
          by_cases h0 : 0 < seg.len
          · have := h8 h0; omega
          · omega)
        refine wp_pure (hok _ _ ⟨h1.trans hino, h3.trans hbuf, h4, ?_, pre ++ [seg], [], by simp, hsh, ?_, ?_, by simp [hskip]⟩)
        · exact hG.skip _ _ _ _ (hG.calm _ _ _ _ hci hc) hev
        · intro _; exact ⟨rfl, hlast, hd, hev⟩
        · intro hf; simp at hf
      · intro buf' r x h1 h2 h3 h4
        simp only [h3, if_false]
        have hc : Calm w { w with sys := r } [] := Calm.ofSys h2
        refine wp_storePart hG (c := { c with resuming := false, buf := buf' }) (hs.calm hc) ?_ hino (h1.trans hbuf) (by simpa using htgt)
          (hG.calm _ _ _ _ (by simpa using hci) hc) rfl hskip (Or.inl ⟨rfl, hlast⟩) (by simpa using hok) hfail hstop
        intro y tl hy
        simp only [List.nil_append, List.cons.injEq] at hy
        rw [← hy.1]
        rcases h4 with h4 | h4 | h4
        · exact Or.inl (by rw [hd] at h4; exact h4)
        · exact Or.inr (Or.inl (fun g => h4 (g.suffix hs.away.sys)))
        · exact Or.inr (Or.inr h4)
      · intro r h1 h0
        refine hstop _ _ (Or.inr (Or.inr (Or.inl ⟨rfl, Or.inr ⟨seg, hmem, h0⟩⟩))) ⟨⟨_, _, _, _, _, hs.calm (Calm.ofSys h1)⟩, hG.kept _ _ _ (hG.calm _ _ _ _ hci (Calm.ofSys h1))⟩
      · exact hstop _ _ (Or.inl rfl) ⟨⟨_, _, _, _, _, hs.calm (Calm.ofSys List.nil_suffix)⟩, hG.kept _ _ _ (hG.calm _ _ _ _ hci (Calm.ofSys List.nil_suffix))⟩

/-- The whole loop. -/
theorem wp_syncLoop {G : Cfg} (hG : G.Ok) {iino n : Nat} {p : Params} {f : Bytes} (hlen : f.length = 104 + 40 * n) (hmin : p.min < 2 ^ 32)
    (hmax : p.max < 2 ^ 32) (hsegs : G.segs = delivered 0 (tableEntries f n)) (hne : iino ≠ G.tino) (hf : G.w0.data iino = f)
    {c : Cb} {w : World} (h : Loop G [] G.segs c w)
    {Q : Bool × Cb → World → Prop} {S : Stop → World → Prop}
    (hok : ∀ c' w', Loop G G.segs [] c' w' → Q (true, c') w')
    (hfail : ∀ c' w', (G.Fails w' ∨ 2 ^ 63 ≤ f.length) → G.Ended w' → Q (false, c') w')
    (hstop : ∀ s w', G.Stops s → G.Ended w' → S s w') : wp (caibxIterate iino p n (entryCb G.env) c) Q S w := by
  have ended : ∀ {done rest c w}, Loop G done rest c w → G.Ended w := by
    intro done rest c w h
    obtain ⟨pre, post, _, hs, _⟩ := h.shape
    exact ⟨⟨_, _, _, _, _, hs⟩, hG.kept _ _ _ h.ci⟩
  have hclean : ∀ {done rest c w}, Loop G done rest c w → ¬ Clean w.sys → ¬ Clean G.w0.sys := by
    intro done rest c w h hc g
    obtain ⟨pre, post, _, hs, _⟩ := h.shape
    exact hc (g.suffix hs.away.sys)
  refine wp_caibxIterate f n hlen hmin hmax
    (fun k done c w => ∃ rest, G.segs = done ++ rest ∧ Loop G done rest c w) (fun k done c w => ∃ rest, G.segs = done ++ rest ∧ Loop G done rest c w)
    Q S ?_ ?_ (fun k done s w h => h) ?_ ?_ ?_ ?_ c w ?_ ?_ ?_
  · intro k done c w ⟨rest, _, h⟩
    obtain ⟨pre, post, _, hs, _⟩ := h.shape
    rw [hs.away.data _ hne, hf]
  · intro k done c w r _ ⟨rest, h1, h2⟩ hr
    exact ⟨rest, h1, h2.calm hG (Calm.ofSys hr.1)⟩
  · intro k done c w r _ ⟨rest, h1, h2⟩ hr hc
    refine hfail _ _ ?_ (ended (h2.calm hG (Calm.ofSys hr)))
    rcases hc with hc | hc
    · exact Or.inl (Or.inl (hclean h2 hc))
    · exact Or.inr hc
  · intro k done c w _ ⟨rest, h1, h2⟩ _
    exact hstop _ _ (Or.inl rfl) (ended (h2.calm hG (Calm.ofSys List.nil_suffix)))
  · intro k done seg rest c w _ he ⟨rest', h1, h2⟩
    have : rest' = seg :: rest := by
      rw [hsegs, he] at h1
      exact (List.append_cancel_left h1).symm
    subst this
    refine wp_entryCb hG h2 ?_ ?_ hstop
    · intro c' w' h
      simp only [if_true]
      exact ⟨rest, by rw [h1]; simp, h⟩
    · intro c' w' h h'
      simp only [Bool.false_eq_true, if_false]
      exact hfail _ _ (Or.inl h) h'
  · intro c w ⟨rest, h1, h2⟩
    rw [← hsegs] at h1 h2
    have : rest = [] := by
      have := congrArg List.length h1
      simp at this
      exact this
    subst this
    exact hok _ _ h2
  · intro r hr hc
    exact hfail _ _ (Or.inl (Or.inl (hclean h hc))) (ended (h.calm hG (Calm.ofSys hr.1)))
  · intro _
    exact hstop _ _ (Or.inl rfl) (ended (h.calm hG (Calm.ofSys List.nil_suffix)))
  · intro r hr
    exact ⟨G.segs, by simp, h.calm hG (Calm.ofSys hr.1)⟩

end Csn.Proof
