import Verif.Proof.Keep
import Verif.Props.HttpGood
import Verif.Spec.Avail
/-
Runs for which all chunks are available.
-/
namespace Csn.Proof
open Csn Spec Props

theorem wp_forall {α ι : Type} {m : M α} {Q : ι → α → World → Prop} {S : Stop → World → Prop} {w : World}
    (h0 : wp m (fun _ _ => True) S w) (h : ∀ i, wp m (Q i) (fun _ _ => True) w) : wp m (fun a w' => ∀ i, Q i a w') S w := by
  unfold wp at h0 h ⊢
  split at h0
  · next e =>
    intro i
    have := h i
    rw [e] at this
    exact this
  · exact h0

/-- The result of a program is its result. -/
theorem wp_self {α : Type} (m : M α) (w : World) : wp m (fun a w' => m w = (.ok a, w')) (fun _ _ => True) w := by
  unfold wp
  split
  · next e => exact e
  · trivial

/-- A request on a network that only glitches, and not often enough, ends with the network. -/
theorem wp_retried_glitch {env : Env} {ks : Option (Nat → UInt8)} {url : Bytes} : ∀ (net : List (Bytes → CurlRun)) (m wait : Nat) (r : Req) (w : World),
    w.net = net → (∀ g ∈ net, Glitch (g url)) → net.length ≤ m → wp (retried env ks url m wait r) (fun _ _ => False) (fun s _ => s = .killed) w
  | [], m, wait, r, w, hn, _, _ => by
    unfold retried perform
    refine wp_bind (wp_bind (wp_emit (wp_bind ?_)))
    simp only [wp, hn]
  | f :: net, m, wait, r, w, hn, hg, hm => by
    have hf := hg f (by simp)
    unfold retried
    refine wp_bind (wp_perform_silent hn hf.1 ?_)
    have ht : transient (f url).code = true := (transient_iff _).mpr hf.2
    simp only [ht, Bool.not_true, Bool.false_eq_true, if_false]
    refine wp_bind (wp_emit ?_)
    cases m with
    | zero => simp at hm
    | succ m => exact wp_retried_glitch net m _ r _ rfl (fun g h => hg g (by simp [h])) (by simpa using hm)

/-- Where the first attempt that is no glitch is. -/
theorem net_split {B : Nat} {net : List (Bytes → CurlRun)} {url : Bytes} (h : ∀ g ∈ net, Glitch (g url) ∨ Polite B (g url)) :
    (∀ g ∈ net, Glitch (g url)) ∨ ∃ fs g rest, net = fs ++ g :: rest ∧ (∀ f ∈ fs, Glitch (f url)) ∧ Polite B (g url) ∧ ¬ Glitch (g url) := by
  induction net with
  | nil => exact Or.inl (by simp)
  | cons f net ih =>
    have h1 := h f (by simp)
    rcases ih (fun g hg => h g (by simp [hg])) with ih | ⟨fs, g, rest, e1, e2, e3⟩
    · by_cases hf : Glitch (f url)
      · left
        intro g hg
        rcases List.mem_cons.1 hg with hg | hg
        · rw [hg]; exact hf
        · exact ih g hg
      · exact Or.inr ⟨[], f, net, rfl, by simp, h1.resolve_left hf, hf⟩
    · by_cases hf : Glitch (f url)
      · refine Or.inr ⟨f :: fs, g, rest, by simp [e1], ?_, e3⟩
        intro x hx
        rcases List.mem_cons.1 hx with hx | hx
        · rw [hx]; exact hf
        · exact e2 x hx
      · exact Or.inr ⟨[], f, net, rfl, by simp, h1.resolve_left hf, hf⟩

theorem polite_verdict {B : Nat} {r : CurlRun} (h : Polite B r) (a b : Bool) :
    Spec.verdict (if a then 23 else r.code) r.http b ≠ .counted ∧ Spec.verdict (if a then 23 else r.code) r.http b ≠ .broken := by
  obtain ⟨c, h1, h2⟩ := h.status
  have hc : ¬ TransientCode (if a then 23 else r.code) := by
    rw [h.code]; unfold TransientCode; cases a <;> simp
  have hc' : ¬ ((if a then 23 else r.code) ≠ 0 ∧ (if a then 23 else r.code) ≠ 23) := by
    rw [h.code]; cases a <;> simp
  unfold Spec.verdict
  rw [if_neg hc, if_neg hc', h1]
  simp only
  by_cases h4 : c = 404 ∨ c = 410
  · rw [if_pos h4]; simp
  · rw [if_neg h4, if_neg (by omega)]
    cases b <;> simp

/-- A store whose server answers politely. -/
theorem wp_httpGet_polite {env : Env} (hz : Sane env) {h : Http} {B : Nat} {net : List (Bytes → CurlRun)} {id : Id} {out : Bytes} {w : World}
    (hid : id.length = 32) (herr : h.err ≤ 10) (hm : AllMem w.mem) (hb : h.base.length < 2 ^ 62)
    (ha : Answers B net h.base h.key.isSome) (hn : w.net <:+ net) (hsz : h.size + B * w.net.length < 2 ^ 63) :
    wp (httpGet env h id out)
      (fun a w' => a.1 ≠ none ∧ a.2.1.base = h.base ∧ a.2.1.key = h.key ∧ a.2.1.err ≤ 10 ∧ a.2.1.size + B * w'.net.length < 2 ^ 63 ∧
        ∀ s, s.id = id → Hosts env net h.base h.key s → s.len ≤ out.length → a.1 = some s.len)
      (fun s _ => s = .killed) w := by
  obtain ⟨pre, hpre⟩ := hn
  have each : ∀ g ∈ w.net, Glitch (g (chunkUrl h.base h.key.isSome id)) ∨ Polite B (g (chunkUrl h.base h.key.isSome id)) :=
    fun g hg => ha.each g (by rw [← hpre]; simp [hg]) id hid
  rcases net_split each with hall | ⟨fs, g, rest, e1, e2, e3, e4⟩
  · have hle := ha.rare id hid pre w.net [] (by simp [hpre]) hall
    unfold httpGet
    have hl := urlOf_length h id hid
    have hne : ¬ ((urlOf h id).length + 1 > h.base.length + 80 + 1) := by split at hl <;> omega
    simp only [hne, if_false]
    refine wp_bind (wp_alloc ?_)
    obtain ⟨m1, m2⟩ := hm.alloc (n := (urlOf h id).length + 1) (by split at hl <;> omega)
    rw [m1]
    simp only [Bool.not_true, Bool.false_eq_true, if_false]
    rw [← urlOf_eq h id (by omega)] at hall
    exact wp_bind (wp_mono (wp_retried_glitch w.net 9 _ _ _ rfl hall hle) (fun _ _ h => h.elim) (fun _ _ h => h))
  · have hfew := ha.rare id hid pre fs (g :: rest) (by rw [← hpre, e1, List.append_assoc]) e2
    have ht : Tries (chunkUrl h.base h.key.isSome id) fs (g (chunkUrl h.base h.key.isSome id)) :=
      ⟨hfew, fun f hf => e2 f hf, e3.frags, by rw [e3.code]; unfold TransientCode; simp⟩
    have hsize := e3.size
    have hlen : w.net.length = fs.length + (rest.length + 1) := by rw [e1]; simp
    have hmul : B * w.net.length = B * fs.length + (B * rest.length + B) := by rw [hlen, Nat.mul_add, Nat.mul_add, Nat.mul_one]
    have w1 := wp_httpGet_pure hz (out := out) hid herr hm hb e1 ht (by omega)
    have w2 : wp (httpGet env h id out) (fun a _ => ∀ s : Seg, s.id = id → Hosts env net h.base h.key s → s.len ≤ out.length → a.1 = some s.len) (fun _ _ => True) w := by
      refine wp_forall (wp_any _ _) (fun s => ?_)
      by_cases hs : s.id = id ∧ Hosts env net h.base h.key s ∧ s.len ≤ out.length
      · obtain ⟨hs1, ⟨c, f, I, k1, k2, k3, k4, k5⟩, hs3⟩ := hs
        subst hs1
        have hg : g ∈ net := by rw [← hpre, e1]; simp
        obtain ⟨k6, k7⟩ := k5 g hg e4
        rw [unmask_eq] at k7
        rw [← k1] at hid w1 ht e3 k6 k7 hsize ⊢
        have hfl : (g (chunkUrl h.base h.key.isSome (env.H c))).frags.flatten.length = f.length := by rw [← k7, incoming_length]
        refine wp_mono (wp_httpGet_good hz k3 k4 hid (by omega) herr hm hb e1 ht (by omega) ⟨e3.code, k6⟩ k7) (fun a w' h => ?_) (fun _ _ h => h.elim)
        intro _ _ _
        rw [h.1, k2]
      · exact wp_mono (wp_any _ _) (fun a w' _ a1 a2 a3 => absurd ⟨a1, a2, a3⟩ hs) (fun _ _ _ => trivial)
    refine wp_mono (wp_and w1 w2) (fun a w' q => ?_) (fun _ _ h => h.1.elim)
    obtain ⟨⟨p, hp, v, hv, q1, q2, q3, q4, q5, q6, q7, q8, q9⟩, q10⟩ := q
    have hvd := polite_verdict e3 p.1 (decide (p.2.st = .streaming))
    rw [← hv] at hvd
    refine ⟨?_, q3, q4, ?_, ?_, q10⟩
    · rw [q1]
      cases v <;> simp [resultOf] at hvd ⊢
      split <;> simp
    · rw [q2]
      cases v <;> simp [errAfter] at hvd ⊢ <;> omega
    · rw [q7]; omega

/-- The region an index entry describes. -/
def bare (e : Entry) : Seg := ⟨e.start, e.len, e.id⟩

/-- A local store whose index lists the regions `xs`. -/
def Lists (xs : List Seg) (l : Loc) : Prop :=
  ∃ idx, l.idx = .live idx ∧ IndexInv idx ∧ (idx.entries.map bare).Perm xs

theorem bare_orFlags (idx : Index) (i : Nat) (b : Bool) : (orFlags idx i b).entries.map bare = idx.entries.map bare := by
  unfold orFlags
  simp only
  apply List.ext_getElem?
  intro j
  simp only [List.getElem?_map, List.getElem?_modify]
  cases idx.entries[j]? with
  | none => rfl
  | some e => simp only [Option.map_some, Option.some.injEq]; split <;> rfl

/-- One lookup in a store with an index of its own. -/
theorem wp_localGet_listed {env : LEnv} (hlib : env.lib.Conforms) {l : Loc} {xs : List Seg} {d : Nat} {f : Bytes} {cs : List Bytes} (hl : Lists xs l)
    (he : ScanEnv env.disc env.bufsiz l.p d) (hlive : LocLive env f l) {id : Id} {out : Bytes} {w : World} (hf : w.data l.ino = f) (hcl : Clean w.sys)
    (hm : false ∉ w.mem) (h56 : f.length < 2 ^ 56) (hk : w.kind l.ino ≠ .other) (hy : ∀ y ∈ xs, y.off + y.len ≤ f.length ∧ y.len ≤ out.length)
    (hcs : Chunking l.p.min l.p.max d f cs) (hfit : ∀ c ∈ cs, env.H c = id → c.length ≤ out.length) :
    wp (localGet env 2 l id out)
      (fun a _ => a.1 ≠ none ∧ ((Lists xs a.2.1 ∧ ((∃ x ∈ xs, x.id = id) → ∃ n, a.1 = some (n + 1))) ∨
        ((∃ y ∈ xs, ¬ Matches env.H f y) ∧ LocScanned env d f a.2.1 ∧ ((∃ c ∈ cs, env.H c = id) → ∃ n, a.1 = some (n + 1)))))
      (fun _ _ => True) w := by
  obtain ⟨idx, h1, h2, h3⟩ := hl
  obtain ⟨idx0, k1, k2, k3⟩ := hlive
  rw [h1] at k1
  cases k1
  have mem : ∀ e ∈ idx.entries, bare e ∈ xs := fun e h => h3.mem_iff.1 (List.mem_map.2 ⟨e, h, rfl⟩)
  have lift : ∀ idx' : Index, IndexInv idx' → idx'.entries.Perm idx.entries → Lists xs { l with idx := .live idx' } :=
    fun idx' hi hp => ⟨idx', rfl, hi, (hp.map bare).trans h3⟩
  have pos : ∀ e ∈ idx.entries, ∃ n, some e.len = some (n + 1) := fun e h => ⟨e.len - 1, by have := (k3 e h).1; congr 1; omega⟩
  apply wp_localPass hlib h1 h2
  · intro idx' hi hp hno
    refine ⟨by simp, Or.inl ⟨lift idx' hi hp, ?_⟩⟩
    rintro ⟨x, hx, hid⟩
    obtain ⟨e, e1, e2⟩ := List.mem_map.1 (h3.mem_iff.2 hx)
    exact absurd (by rw [← hid, ← e2]; rfl) (hno e e1)
  · intro idx' e hi hp h4 h5 h6
    have := (hy _ (mem e h4)).2
    simp only [bare] at this
    omega
  · intro idx' e r k hi hp h4 h5 h6 h7 h8 h9
    have := (hy _ (mem e h4)).1
    simp only [bare] at this
    rw [hf] at h9
    rcases h9 with h | h | h
    · exact absurd hcl h
    · omega
    · omega
  · intro idx' e r hi hp h4 _ _ _ _ _
    exact ⟨by simp, Or.inl ⟨lift idx' hi hp, fun _ => pos e h4⟩⟩
  · intro idx' e r i hi' hi hp h4 _ _ _ _ _ _ _
    refine ⟨by simp, Or.inl ⟨⟨_, rfl, hi', ?_⟩, fun _ => pos e h4⟩⟩
    rw [bare_orFlags]
    exact (hp.map bare).trans h3
  · intro e r h4 h5 h6 h7 h8 h9 h10
    rw [hf] at h9 h10 ⊢
    have hbad : ∃ y ∈ xs, ¬ Matches env.H f y := ⟨bare e, mem e h4, fun hh => h10 (hh.2.trans h5)⟩
    have hlen : (bufWrite out 0 (slice f e.start e.len)).length = out.length := bufWrite0_length (by omega)
    generalize bufWrite out 0 (slice f e.start e.len) = out1 at hlen
    refine wp_storeScan (l := { l with idx := .freed }) he ?_ ?_ ?_ ?_
    · intro idx1 r1 m1 e1 cs1 g1 g2 g3 g4 g5 g6 g7
      simp only [hf] at g2 g3 g4 g5 g6
      refine ⟨by simp, fun _ => ?_⟩
      have g5 := g5 (NoEof.suffix hcl.2 h8.1)
      rw [g5, List.take_length] at g6
      refine wp_mono (wp_localGet_scanned hlib (l := { l with idx := .live idx1 }) (fuel := 0) (f := f) (d := d) (cs := cs) ⟨idx1, cs1, rfl, g1, g6, by rw [g7]⟩
        hcs (by omega) (by exact hf) (NoEof.suffix hcl.2 (g2.1.trans h8.1))) ?_ (fun _ _ _ => trivial)
      intro res w2 h
      obtain ⟨a1, a2, a3, a4, a5, a6, a7⟩ := h
      rw [hlen] at a5
      cases hr : res.1 with
      | none =>
        exfalso
        rw [hr] at a5
        rcases a5 with a5 | ⟨c, c1, c2, c3⟩
        · exact hcl.1 ((g2.1.trans h8.1).subset a5)
        · have := hfit c c1 c2; omega
      | some n =>
        refine ⟨by simp, Or.inr ⟨hbad, a3, ?_⟩⟩
        rintro ⟨c, c1, c2⟩
        cases n with
        | succ n => exact ⟨n, rfl⟩
        | zero =>
          rw [hr] at a5
          exact absurd c2 (a5 c c1)
    · intro i r1 m1 g1 g2 g3
      simp only [hf] at g3
      rcases g3 with g | g | g | g
      · exact absurd (hcl.suffix h8.1) g
      · exact absurd g hm
      · omega
      · exact absurd g hk
    · intros; trivial
    · intros; trivial
  · intros; trivial

/-- What the index of a local store made from `arg` holds: what scanning found, there being no index that could be taken over and
is right; or what the index that was taken over lists. -/
def Kept (env : Env) (w0 : World) (tpath : Bytes) (p : Params) (arg : Bytes) (l : Loc) : Prop :=
  ((∃ d, env.disc p.avg = some d ∧ LocScanned env.toLEnv d (w0.data l.ino) l) ∧
    ∀ path ip xs, LocalArg tpath arg path (some ip) → Sidecar w0 p ip xs → ∃ y ∈ xs, ¬ Matches env.H (w0.data l.ino) y) ∨
  ∃ path ip xs, LocalArg tpath arg path (some ip) ∧ Sidecar w0 p ip xs ∧ Lists xs l

/-- If store `arg` takes over an index, this describes regions within the store's file that fit the buffer. -/
def InRange (env : Env) (w0 : World) (tpath : Bytes) (p : Params) (arg : Bytes) : Prop :=
  ∀ path ip xs i, LocalArg tpath arg path (some ip) → w0.dir path = some i → Sidecar w0 p ip xs →
    ∀ y ∈ xs, y.off + y.len ≤ (w0.data i).length ∧ y.len ≤ env.bufMax

theorem not_both {tpath arg path : Bytes} {index : Option Bytes} (h : LocalArg tpath arg path index) (h' : HttpArg tpath arg) : False := h.2.1 h'.2

theorem sidecar_unique {w : World} {p : Params} {ip : Bytes} {xs ys : List Seg} (h : Sidecar w p ip xs) (h' : Sidecar w p ip ys) : xs = ys := by
  obtain ⟨j, n, h1, _, h2, h3⟩ := h
  obtain ⟨j', n', h1', _, h2', h3'⟩ := h'
  rw [h1] at h1'
  cases h1'
  obtain ⟨_, _, _, rfl⟩ := wellFormed_unique h2 h2'
  rw [h3, h3']

theorem source_inRange {env : Env} {w0 : World} {tpath : Bytes} {p : Params} {arg : Bytes} {s : Seg} (h : Source env w0 tpath p arg s) : InRange env w0 tpath p arg := by
  intro path ip xs i e1 e2 e3
  cases h with
  | web _ h => exact (not_both e1 h).elim
  | scan path' index i' h1 h2 h3 h4 =>
    obtain ⟨rfl, rfl⟩ := localArg_eq e1 h1
    exact absurd e3 (h2 _ _ rfl)
  | listed path' ip' i' xs' h1 h2 h3 h4 h5 h6 =>
    obtain ⟨rfl, e4⟩ := localArg_eq e1 h1
    have e4 := Option.some.inj e4
    subst e4
    rw [h3] at e2
    cases e2
    rw [sidecar_unique e3 h2]
    exact h4

/-- What is known about store `sub`, made from `arg`, throughout a run that started in `w0`. -/
structure Tracks (env : Env) (w0 : World) (tpath : Bytes) (p : Params) (arg : Bytes) (w : World) (sub : Sub Store) : Prop where
  loc : ∀ l, sub.s = .loc l → (∃ path index, LocalArg tpath arg path index ∧ w0.dir path = some l.ino) ∧ l.p = p ∧
    chunkEstimate p (w0.data l.ino).length ≠ 0
  http : ∀ h, sub.s = .http h → HttpArg tpath arg ∧ ∃ frag, BaseOf arg h.base frag ∧ ParamsKey (SpecKey env.getenv w0) (frag.getD []) h.key
  own : sub.s = .target → arg = tpath
  tgt : arg = tpath → sub.active = true ∧ sub.s = .target
  keep : ∀ path index, LocalArg tpath arg path index → InRange env w0 tpath p arg → sub.active = true ∧ ∃ l, sub.s = .loc l ∧ Kept env w0 tpath p arg l
  web : ∀ B, HttpArg tpath arg → (∀ base frag key, BaseOf arg base frag → ParamsKey (SpecKey env.getenv w0) (frag.getD []) key → Answers B w0.net base key.isSome) →
    sub.active = true ∧ ∃ h, sub.s = .http h ∧ h.err ≤ 10 ∧ h.size + B * w.net.length < 2 ^ 63

theorem Tracks.away {env : Env} {w0 : World} {tpath : Bytes} {p : Params} {arg : Bytes} {w w' : World} {sub : Sub Store} {tino : Nat}
    (h : Tracks env w0 tpath p arg w sub) (ha : Away tino w w') : Tracks env w0 tpath p arg w' sub := by
  refine ⟨h.loc, h.http, h.own, h.tgt, h.keep, fun B h1 h2 => ?_⟩
  obtain ⟨g1, h', g2, g3, g4⟩ := h.web B h1 h2
  have := Nat.mul_le_mul_left B ha.net.length_le
  exact ⟨g1, h', g2, g3, by omega⟩

/-- The stores made from `args` are as they should be. -/
def Tracked (env : Env) (w0 : World) (tpath : Bytes) (p : Params) (w : World) : List Bytes → List (Sub Store) → Prop
  | [], [] => True
  | arg :: args, sub :: subs => Tracks env w0 tpath p arg w sub ∧ Tracked env w0 tpath p w args subs
  | _, _ => False

theorem Tracked.away {env : Env} {w0 : World} {tpath : Bytes} {p : Params} {w w' : World} {tino : Nat} (ha : Away tino w w') :
    ∀ {args : List Bytes} {subs : List (Sub Store)}, Tracked env w0 tpath p w args subs → Tracked env w0 tpath p w' args subs
  | [], [], _ => trivial
  | _ :: _, _ :: _, h => ⟨h.1.away ha, h.2.away ha⟩
  | [], _ :: _, h => h.elim
  | _ :: _, [], h => h.elim

/-- Chunk `s` is available from the store `arg`, the regions `done` being on the target. -/
def Has (env : Env) (w0 : World) (tpath : Bytes) (p : Params) (done : List Seg) (s : Seg) (arg : Bytes) : Prop :=
  (arg = tpath ∧ ∃ x ∈ done, x.id = s.id) ∨ Source env w0 tpath p arg s

/-- What is fixed during a run. -/
structure Fixed (env : Env) (w0 : World) (tpath : Bytes) (stores : List Bytes) (segs : List Seg) (tino : Nat) : Prop where
  lib : env.lib.Conforms
  sane : Sane env
  clean : Clean w0.sys
  mem : AllMem w0.mem
  clash : NoClash env w0 tpath stores segs
  even : ∀ s ∈ segs, ∀ s' ∈ segs, s.id = s'.id → s.len = s'.len
  fit : ∀ s ∈ segs, s.len ≠ 0 ∧ s.len ≤ env.bufMax
  files : ∀ path i, w0.dir path = some i → (w0.data i).length < 2 ^ 56
  urls : ∀ arg ∈ stores, HttpArg tpath arg → arg.length < 2 ^ 62
  ids : ∀ s ∈ segs, s.id.length = 32
  h63 : total segs < 2 ^ 63
  own : ∀ arg ∈ stores, ∀ path index, LocalArg tpath arg path index → ∀ i, w0.dir path = some i → i ≠ tino
  kinds : ∀ arg ∈ stores, ∀ path index, LocalArg tpath arg path index → ∀ i, w0.dir path = some i → w0.kind i ≠ .other

theorem Tracks.of {env : Env} {w0 : World} {tpath : Bytes} {p : Params} {arg : Bytes} {w : World} {sub : Sub Store}
    (h : Tracks env w0 tpath p arg w sub) {s : Store} {a : Bool} (hs : sub.s = s) (ha : sub.active = a) (hits : Option Nat) :
    Tracks env w0 tpath p arg w ⟨s, a, hits⟩ := by
  subst hs ha
  exact ⟨h.loc, h.http, h.own, h.tgt, h.keep, h.web⟩

theorem chunk_slice {mi ma d : Nat} {f : Bytes} {cs : List Bytes} (h : Chunking mi ma d f cs) {c : Bytes} (hc : c ∈ cs) : ∃ o, c = slice f o c.length := by
  have hf := chunking_flatten h
  obtain ⟨a, b, e⟩ := List.append_of_mem hc
  refine ⟨a.flatten.length, ?_⟩
  rw [← hf, e]
  unfold slice
  simp

/-- A local store. -/
theorem wp_localGet_avail {env : Env} {w0 : World} {tpath : Bytes} {stores : List Bytes} {segs : List Seg} {tino : Nat} (hF : Fixed env w0 tpath stores segs tino)
    {p : Params} {arg : Bytes} (harg : arg ∈ stores) {s : Seg} (hs : s ∈ segs)
    {sub : Sub Store} {l : Loc} {out : Bytes} {w : World} (hw : Away tino w0 w) (ht : Tracks env w0 tpath p arg w sub) (hl : sub.s = .loc l)
    (hi : StoreInv env tino w (.loc l)) (hout : out.length = env.bufMax) :
    wp (localGet env.toLEnv 2 l s.id out)
      (fun a _ => a.2.1.ino = l.ino ∧ a.2.1.p = l.p ∧ (InRange env w0 tpath p arg → a.1 ≠ none ∧ Kept env w0 tpath p arg a.2.1) ∧
        (∀ n, a.1 = some (n + 1) → n + 1 = s.len) ∧ (Source env w0 tpath p arg s → ∃ n, a.1 = some (n + 1)))
      (fun st _ => st = .killed) w := by
  obtain ⟨h1, h2, d, h3⟩ := hi
  obtain ⟨⟨path, index, t1, t2⟩, t3, t4⟩ := ht.loc l hl
  have hdata : w.data l.ino = w0.data l.ino := hw.data _ h1
  have hlen : ∀ o n, env.H (slice (w0.data l.ino) o n) = s.id → (slice (w0.data l.ino) o n).length = s.len :=
    fun o n he => hF.clash s hs _ (Held.file arg path index l.ino o n harg t1 t2) he
  have hfit : ∀ {mi ma d : Nat} {cs : List Bytes}, Chunking mi ma d (w0.data l.ino) cs → ∀ c ∈ cs, env.H c = s.id → c.length ≤ out.length := by
    intro mi ma d cs hcs c c1 c2
    obtain ⟨o, ho⟩ := chunk_slice hcs c1
    have := hlen o c.length (by rw [← ho]; exact c2)
    rw [← ho] at this
    have := (hF.fit s hs).2
    omega
  have h56 := hF.files _ _ t2
  have w1 := wp_localGet hF.lib h3 h2 (fuel := 0) (id := s.id) (out := out) rfl
  have w2 : wp (localGet env.toLEnv 2 l s.id out)
      (fun a _ => a.2.1.ino = l.ino → (InRange env w0 tpath p arg → a.1 ≠ none ∧ Kept env w0 tpath p arg a.2.1) ∧
        (Source env w0 tpath p arg s → ∃ n, a.1 = some (n + 1))) (fun _ _ => True) w := by
    by_cases hx : InRange env w0 tpath p arg
    · obtain ⟨_, l', s1, s2⟩ := ht.keep _ _ t1 hx
      rw [hl] at s1
      cases s1
      have hdisc := ScanEnv.disc_avg h3
      obtain ⟨cs, hcs⟩ := exists_chunking l.p.min l.p.max d _ (w0.data l.ino) (Nat.le_refl _)
      -- what scanning the file finds
      have hfound : ∀ i path' index', LocalArg tpath arg path' index' → w0.dir path' = some i → Found env p (w0.data i) s.id → ∃ c ∈ cs, env.H c = s.id := by
        rintro i path' index' f1 f2 ⟨d2, cs2, c, f3, f4, f5, f6⟩
        obtain ⟨rfl, _⟩ := localArg_eq t1 f1
        rw [t2] at f2
        cases f2
        rw [t3] at hdisc hcs
        rw [hdisc] at f3
        cases f3
        have := C01_rule_is_deterministic hcs f4
        subst this
        exact ⟨c, f5, f6⟩
      rcases s2 with ⟨⟨d', s2, s3⟩, s4⟩ | ⟨path', ip, xs, s2, s3, s4⟩
      · rw [t3] at hdisc
        rw [hdisc] at s2
        cases s2
        refine wp_mono (wp_localGet_scanned hF.lib (fuel := 1) (id := s.id) (out := out) s3 hcs (by omega) hdata (hF.clean.suffix hw.sys).2) (fun a w' h => ?_) (fun _ _ _ => trivial)
        obtain ⟨a1, a2, a3, a4, a5, _, _⟩ := h
        have hnone : a.1 ≠ none := by
          intro hn
          rw [hn] at a5
          rcases a5 with a5 | ⟨c, c1, c2, c3⟩
          · exact (hF.clean.suffix hw.sys).1 a5
          · have := hfit hcs c c1 c2
            omega
        have hget : (∃ c ∈ cs, env.H c = s.id) → ∃ n, a.1 = some (n + 1) := by
          rintro ⟨c, c1, c2⟩
          cases ha : a.1 with
          | none => exact absurd ha hnone
          | some n =>
            cases n with
            | succ n => exact ⟨n, rfl⟩
            | zero =>
              rw [ha] at a5
              exact absurd c2 (a5 c c1)
        intro _
        refine ⟨fun _ => ⟨hnone, Or.inl ⟨⟨d, hdisc, by rw [a1]; exact a3⟩, by rw [a1]; exact s4⟩⟩, fun hsrc => ?_⟩
        cases hsrc with
        | web B hh _ => exact (not_both t1 hh).elim
        | scan path' index' i e1 e2 e3 e4 => exact hget (hfound i path' index' e1 e3 e4)
        | listed path' ip i xs e1 e2 e3 e4 e5 e6 =>
          rcases e6 with e6 | e6
          · exfalso
            obtain ⟨y, y1, y2⟩ := s4 _ _ _ e1 e2
            obtain ⟨rfl, _⟩ := localArg_eq t1 e1
            rw [t2] at e3
            cases e3
            exact y2 (e6 y y1)
          · exact hget (hfound i path' _ e1 e3 e6)
      · obtain ⟨rfl, e⟩ := localArg_eq t1 s2
        cases e
        refine wp_mono (wp_localGet_listed hF.lib (id := s.id) (out := out) s4 h3 (by rw [← hdata]; exact h2) hdata (hF.clean.suffix hw.sys)
          (fun h => by have := AllMem.suffix hF.mem hw.mem; cases this _ h) h56 (by rw [hw.kind]; exact hF.kinds arg harg _ _ t1 _ t2)
          (fun y hy => by have := hx _ _ _ _ t1 t2 s3 y hy; rw [hout]; exact this) hcs (hfit hcs)) (fun a w' h => ?_) (fun _ _ _ => trivial)
        obtain ⟨a1, a2⟩ := h
        intro ha
        rcases a2 with ⟨a2, a3⟩ | ⟨a2, a3, a4⟩
        · refine ⟨fun _ => ⟨a1, Or.inr ⟨_, _, xs, t1, s3, a2⟩⟩, fun hsrc => ?_⟩
          cases hsrc with
          | web B hh _ => exact (not_both t1 hh).elim
          | scan path' index' i e1 e2 e3 e4 =>
            obtain ⟨_, e⟩ := localArg_eq t1 e1
            exact absurd s3 (e2 _ _ e.symm)
          | listed path' ip' i xs' e1 e2 e3 e4 e5 e6 =>
            obtain ⟨_, e⟩ := localArg_eq t1 e1
            cases e
            rw [sidecar_unique e2 s3] at e5
            exact a3 e5
        · refine ⟨fun _ => ⟨a1, Or.inl ⟨⟨d, by rw [← t3]; exact hdisc, by rw [ha]; exact a3⟩, fun path' ip' xs' e1 e2 => ?_⟩⟩, fun hsrc => ?_⟩
          · obtain ⟨_, e⟩ := localArg_eq t1 e1
            cases e
            rw [sidecar_unique e2 s3, ha]
            exact a2
          · cases hsrc with
            | web B hh _ => exact (not_both t1 hh).elim
            | scan path' index' i e1 e2 e3 e4 => exact a4 (hfound i path' index' e1 e3 e4)
            | listed path' ip' i xs' e1 e2 e3 e4 e5 e6 =>
              rcases e6 with e6 | e6
              · exfalso
                obtain ⟨y, y1, y2⟩ := a2
                obtain ⟨rfl, e⟩ := localArg_eq t1 e1
                cases e
                rw [t2] at e3
                cases e3
                rw [sidecar_unique e2 s3] at e6
                exact y2 (e6 y y1)
              · exact a4 (hfound i path' _ e1 e3 e6)
    · exact wp_mono (wp_any _ _) (fun a w' _ _ => ⟨fun h => absurd h hx, fun hsrc => absurd (source_inRange hsrc) hx⟩) (fun _ _ _ => trivial)
  refine wp_mono (wp_and w1 w2) (fun a w' h => ?_) (fun st w' h => ?_)
  · obtain ⟨⟨g1, _, _⟩, g2⟩ := h
    obtain ⟨g2, g3⟩ := g2 g1.ino
    refine ⟨g1.ino, g1.par, g2, fun n hn => ?_, g3⟩
    obtain ⟨_, q1, q2⟩ := g1.live _ hn
    obtain ⟨q2, o, q3⟩ := q2 (by omega)
    have := hlen o (n + 1) (by rw [← hdata, ← q3]; exact q2)
    rw [← hdata, ← q3, List.length_take, g1.len] at this
    omega
  · rcases h.1.1 with h | ⟨_, h⟩
    · exact h
    · rw [t3, hdata] at h
      exact absurd h t4

theorem baseOf_length {arg base : Bytes} {frag : Option Bytes} (h : BaseOf arg base frag) : base.length ≤ arg.length := by
  obtain ⟨whole, h1, h2⟩ := h
  have hw : whole.length ≤ arg.length := by
    unfold FragOf at h1
    split at h1
    · rw [h1.1]; exact Nat.le_refl _
    · rw [h1.1]; simp
  rcases h2 with h2 | h2
  · rw [h2] at hw; simp at hw; omega
  · rw [← h2.1]; exact hw

/-- An HTTP store. -/
theorem wp_httpGet_avail {env : Env} {w0 : World} {tpath : Bytes} {stores : List Bytes} {segs : List Seg} {tino : Nat} (hF : Fixed env w0 tpath stores segs tino)
    {p : Params} {arg : Bytes} (harg : arg ∈ stores) {s : Seg} (hs : s ∈ segs)
    {sub : Sub Store} {h : Http} {out : Bytes} {w : World} (hw : Away tino w0 w) (ht : Tracks env w0 tpath p arg w sub) (hh : sub.s = .http h)
    (hi : StoreInv env tino w (.http h)) (hout : out.length = env.bufMax) :
    wp (httpGet env h s.id out)
      (fun a w' => a.2.1.base = h.base ∧ a.2.1.key = h.key ∧
        (∀ B, (∀ base frag key, BaseOf arg base frag → ParamsKey (SpecKey env.getenv w0) (frag.getD []) key → Answers B w0.net base key.isSome) →
          a.1 ≠ none ∧ a.2.1.err ≤ 10 ∧ a.2.1.size + B * w'.net.length < 2 ^ 63) ∧
        (∀ n, a.1 = some (n + 1) → n + 1 = s.len) ∧ (Source env w0 tpath p arg s → ∃ n, a.1 = some (n + 1)))
      (fun st _ => st = .killed) w := by
  obtain ⟨h1, h2, h3⟩ := hi
  obtain ⟨t1, frag, t2, t3⟩ := ht.http h hh
  have hb : h.base.length < 2 ^ 62 := by
    have := hF.urls arg harg t1
    have := baseOf_length t2
    omega
  have w1 := wp_request (out := out) hF.sane h3 h1 (hF.ids s hs) h2
  have w2 := wp_self (httpGet env h s.id out) w
  have w3 : wp (httpGet env h s.id out) (fun a w' => ∀ B, (∀ base frag key, BaseOf arg base frag → ParamsKey (SpecKey env.getenv w0) (frag.getD []) key → Answers B w0.net base key.isSome) →
      a.1 ≠ none ∧ a.2.1.err ≤ 10 ∧ a.2.1.size + B * w'.net.length < 2 ^ 63 ∧ (Hosts env w0.net h.base h.key s → a.1 = some s.len)) (fun _ _ => True) w := by
    refine wp_forall (wp_any _ _) (fun B => ?_)
    by_cases hx : ∀ base frag key, BaseOf arg base frag → ParamsKey (SpecKey env.getenv w0) (frag.getD []) key → Answers B w0.net base key.isSome
    · obtain ⟨_, h', b1, b2, b3⟩ := ht.web B t1 hx
      rw [hh] at b1
      cases b1
      refine wp_mono (wp_httpGet_polite hF.sane (out := out) (hF.ids s hs) b2 (AllMem.suffix hF.mem hw.mem) hb (hx _ _ _ t2 t3) hw.net b3) (fun a w' g => ?_) (fun _ _ _ => trivial)
      obtain ⟨g1, _, _, g4, g5, g6⟩ := g
      exact fun _ => ⟨g1, g4, g5, fun hho => g6 s rfl hho (by rw [hout]; exact (hF.fit s hs).2)⟩
    · exact wp_mono (wp_any _ _) (fun a w' _ h => absurd h hx) (fun _ _ _ => trivial)
  refine wp_mono (wp_and (wp_and w1 w2) w3) (fun a w' g => ?_) (fun st w' g => g.1.1.1)
  obtain ⟨⟨⟨_, _, _, v, ok, as, g1⟩, g2⟩, g3⟩ := g
  refine ⟨g1.base.1, g1.base.2, fun B hB => ⟨(g3 B hB).1, (g3 B hB).2.1, (g3 B hB).2.2.1⟩, fun n hn => ?_, fun hsrc => ?_⟩
  · obtain ⟨_, q1, q2⟩ := g1.data n hn
    obtain ⟨r, h', out'⟩ := a
    simp only at hn q1 q2 g2
    subst hn
    have := hF.clash s hs _ (Held.web arg frag h h' w w' out out' (n + 1) harg t1 t2 t3 hw.net hw.mem g2) q1
    rw [List.length_take] at this
    omega
  · cases hsrc with
    | scan path' index' i e1 => exact (not_both e1 t1).elim
    | listed path' ip' i xs' e1 => exact (not_both e1 t1).elim
    | web B e1 e2 =>
      have := (g3 B (fun base frag key q1 q2 => (e2 base frag key q1 q2).1)).2.2.2 (e2 _ _ _ t2 t3).2
      have hne := (hF.fit s hs).1
      exact ⟨s.len - 1, by rw [this]; congr 1; omega⟩

/-- A store asked for region `s`. -/
theorem wp_storeGet_avail {env : Env} {w0 : World} {tpath : Bytes} {stores : List Bytes} {segs : List Seg} {tino : Nat} (hF : Fixed env w0 tpath stores segs tino)
    {p : Params} {arg : Bytes} (harg : arg ∈ stores) {T : Nat → Prop} (hT : tpath ∈ stores → ∃ n, T n) {done : List Seg} {s : Seg} (hd : ∀ x ∈ done, x ∈ segs) (hs : s ∈ segs)
    {sub : Sub Store} {t : Tgt} {out : Bytes} {w : World} (hti : t.ino = tino) (hw : Away tino w0 w) (hact : sub.active = true) (ht : Tracks env w0 tpath p arg w sub)
    (hi : StoreInv env tino w sub.s) (hti' : TgtInv env.H env.bufMax True T (w.data tino) done t) (hout : out.length = env.bufMax)
    (hlong : total done ≤ (w.data tino).length) (hle : total done ≤ total segs) :
    wp (storeGet env t sub.s s.id out)
      (fun a w' => (∀ (n : Nat), a.1 = some n → ∀ hits, Tracks env w0 tpath p arg w' ⟨a.2.2.1, true, hits⟩) ∧
        (a.1 = none → ∀ hits, Tracks env w0 tpath p arg w' ⟨a.2.2.1, false, hits⟩) ∧
        (∀ n, a.1 = some (n + 1) → n + 1 = s.len) ∧ (Has env w0 tpath p done s arg → ∃ n, a.1 = some (n + 1)))
      (fun st _ => st = .killed) w := by
  rw [← hti] at hi hw
  have hstay : arg = tpath → ¬ Source env w0 tpath p arg s := by
    intro e h
    cases h with
    | scan _ _ _ e1 => exact e1.1 e
    | listed _ _ _ _ e1 => exact e1.1 e
    | web _ e1 => exact e1.1 e
  unfold storeGet
  cases hsub : sub.s with
  | loc l =>
    rw [hsub] at hi
    obtain ⟨⟨path, index, t1, t2⟩, t3, t4⟩ := ht.loc l hsub
    simp only
    rw [hti] at hi hw
    refine wp_bind (wp_mono (wp_localGet_avail hF harg hs hw ht hsub hi hout) (fun a w' g => ?_) (fun _ _ g => g))
    obtain ⟨r, l', out'⟩ := a
    obtain ⟨g1, g2, g3, g4, g5⟩ := g
    simp only at g1 g2 g3 g4 g5
    have hl' : ∀ l'' : Loc, Store.loc l' = .loc l'' → (∃ path index, LocalArg tpath arg path index ∧ w0.dir path = some l''.ino) ∧ l''.p = p ∧
        chunkEstimate p (w0.data l''.ino).length ≠ 0 := by
      intro l'' e
      cases e
      exact ⟨⟨path, index, t1, by rw [g1]; exact t2⟩, by rw [g2]; exact t3, by rw [g1]; exact t4⟩
    refine wp_pure ⟨fun n hn hits => ⟨hl', (by intro _ e; cases e), (by intro e; cases e), fun e => absurd e t1.1, fun path index hp hr => ⟨rfl, l', rfl, (g3 hr).2⟩, fun B e => (not_both t1 e).elim⟩,
      fun hn hits => ⟨hl', (by intro _ e; cases e), (by intro e; cases e), fun e => absurd e t1.1, fun path index hp hr => absurd hn (g3 hr).1, fun B e => (not_both t1 e).elim⟩, g4, fun hh => ?_⟩
    · rcases hh with ⟨hh, _⟩ | hh
      · exact absurd hh t1.1
      · exact g5 hh
  | http h =>
    rw [hsub] at hi
    obtain ⟨t1, frag, t2, t3⟩ := ht.http h hsub
    simp only
    rw [hti] at hi hw
    refine wp_bind (wp_mono (wp_httpGet_avail hF harg hs hw ht hsub hi hout) (fun a w' g => ?_) (fun _ _ g => g))
    obtain ⟨r, h', out'⟩ := a
    obtain ⟨g1, g2, g3, g4, g5⟩ := g
    simp only at g1 g2 g3 g4 g5
    have hh' : ∀ h'' : Http, Store.http h' = .http h'' → HttpArg tpath arg ∧ ∃ frag, BaseOf arg h''.base frag ∧ ParamsKey (SpecKey env.getenv w0) (frag.getD []) h''.key := by
      intro h'' e
      cases e
      exact ⟨t1, frag, by rw [g1]; exact t2, by rw [g2]; exact t3⟩
    refine wp_pure ⟨fun n hn hits => ⟨(by intro _ e; cases e), hh', (by intro e; cases e), fun e => absurd e t1.1, fun path index hp => (not_both hp t1).elim, fun B _ hB => ?_⟩,
      fun hn hits => ⟨(by intro _ e; cases e), hh', (by intro e; cases e), fun e => absurd e t1.1, fun path index hp => (not_both hp t1).elim, fun B _ hB => absurd hn (g3 B hB).1⟩, g4, fun hh => ?_⟩
    · exact ⟨rfl, h', rfl, (g3 B hB).2⟩
    · rcases hh with ⟨hh, _⟩ | hh
      · exact absurd hh t1.1
      · exact g5 hh
  | target =>
    have hat := ht.own hsub
    obtain ⟨N, hN⟩ := hT (hat ▸ harg)
    rw [hti] at hw
    have hkeep : ∀ {w' : World}, Away tino w w' → ∀ hits, Tracks env w0 tpath p arg w' ⟨.target, true, hits⟩ := fun ha hits => (ht.away ha).of hsub hact hits
    simp only
    refine wp_bind (wp_targetGet hF.lib hti'.inv ?_ ?_ ?_ ?_ rfl)
    · intro hq
      rw [(hti'.full N hN).1] at hq; cases hq
    · intro t' _ hno
      refine wp_pure ⟨fun n _ hits => hkeep (Away.refl _ _) hits, by simp, by simp, fun hh => ?_⟩
      rcases hh with ⟨_, x, h1, h2⟩ | hh
      · obtain ⟨e, e1, e2⟩ := (hti'.full N hN).2.1 x h1
        exact absurd (e2.trans h2) (hno e e1)
      · exact absurd hh (hstay hat)
    · intro t' e r _ hq he hid _ hsp _
      obtain ⟨hne, _, ⟨x, x1, x2, x3⟩, _⟩ := hti'.ok hq e he
      refine wp_pure ⟨fun n _ hits => hkeep (Calm.away (evs := []) (Quiet.ofSys hsp.1).calm tino) hits, by simp, fun n hn => ?_, fun _ => ⟨e.len - 1, ?_⟩⟩
      · simp only [Option.some.injEq] at hn
        rw [← hn, ← x3]
        exact hF.even x (hd x x1) s hs (x2.trans hid)
      · show some e.len = some (e.len - 1 + 1)
        congr 1; omega
    · intro t' e r k _ hq he _ _ _ hbad
      exfalso
      obtain ⟨_, h1, ⟨x, h2, _, h3⟩, _⟩ := hti'.ok hq e he
      have := (hF.fit x (hd x h2)).2
      have := hF.h63
      rw [hti] at hbad
      rcases hbad with g | g | g | g
      · exact g (hF.clean.suffix hw.sys)
      · omega
      · omega
      · omega

theorem Tracks.inUse {env : Env} {w0 : World} {tpath : Bytes} {p : Params} {arg : Bytes} {w : World} {sub : Sub Store}
    (h : Tracks env w0 tpath p arg w sub) {done : List Seg} {s : Seg} (hh : Has env w0 tpath p done s arg) : sub.active = true := by
  rcases hh with ⟨hh, _⟩ | hh
  · exact (h.tgt hh).1
  · cases hh with
    | scan path index i e1 e2 e3 e4 => exact (h.keep path index e1 (source_inRange (Source.scan path index i e1 e2 e3 e4 : Source env w0 tpath p arg s))).1
    | listed path ip i xs e1 e2 e3 e4 e5 e6 => exact (h.keep path _ e1 (source_inRange (Source.listed path ip i xs e1 e2 e3 e4 e5 e6 : Source env w0 tpath p arg s))).1
    | web B e1 e2 => exact (h.web B e1 (fun base frag key h1 h2 => (e2 base frag key h1 h2).1)).1

/-- What a query for region `s` yields. -/
def Served (env : Env) (w0 : World) (tpath : Bytes) (p : Params) (done : List Seg) (s : Seg) (args : List Bytes)
    (a : Option Nat × Tgt × List (Sub Store) × Bytes) (w' : World) : Prop :=
  Tracked env w0 tpath p w' args a.2.2.1 ∧ (∀ n, a.1 = some (n + 1) → n + 1 = s.len) ∧
    ((∃ arg ∈ args, Has env w0 tpath p done s arg) → ∃ n, a.1 = some (n + 1))

theorem wp_chainLoop_avail {env : Env} {w0 : World} {tpath : Bytes} {stores : List Bytes} {segs : List Seg} {tino : Nat} (hF : Fixed env w0 tpath stores segs tino)
    {p : Params} {T : Nat → Prop} (hT : tpath ∈ stores → ∃ n, T n) {done : List Seg} {s : Seg} (hd : ∀ x ∈ done, x ∈ segs) (hs : s ∈ segs)
    (hle : total done ≤ total segs) :
    ∀ (args : List Bytes) (subs : List (Sub Store)) (i : Nat) (t : Tgt) (out : Bytes) (w : World), (∀ arg ∈ args, arg ∈ stores) → t.ino = tino →
    Away tino w0 w → SubsInv env tino w0 w subs → Tracked env w0 tpath p w args subs → TgtInv env.H env.bufMax True T (w.data tino) done t → out.length = env.bufMax →
    total done ≤ (w.data tino).length →
    wp (chainLoop (storeGet env) s.id i t subs out) (Served env w0 tpath p done s args) (fun st _ => st = .killed) w
  | [], [], i, t, out, w, _, _, _, _, _, _, _, _ => by
    unfold chainLoop
    exact wp_pure ⟨trivial, by simp, by simp⟩
  | arg :: args, [], i, t, out, w, _, _, _, _, h, _, _, _ => h.elim
  | [], sub :: subs, i, t, out, w, _, _, _, _, h, _, _, _ => h.elim
  | arg :: args, sub :: subs, i, t, out, w, hargs, hti, hw0, hsub, htr, ht, hout, hlong => by
    have hsub1 : SubsInv env tino w0 w subs := fun s hs => hsub s (by simp [hs])
    have hargs1 : ∀ arg ∈ args, arg ∈ stores := fun x hx => hargs x (by simp [hx])
    unfold chainLoop
    cases hact : sub.active with
    | false =>
      simp only [Bool.not_false, if_true]
      refine wp_bind (wp_mono (wp_and (wp_chainLoop_inv hF.lib hF.sane (hF.ids s hs) subs (i + 1) t out w hti hw0 hsub1 ht)
        (wp_chainLoop_avail hF hT hd hs hle args subs (i + 1) t out w hargs1 hti hw0 hsub1 htr.2 ht hout hlong)) (fun a w' h => ?_) (fun st w' h => h.2))
      obtain ⟨h0, h1, h2, h3⟩ := h
      obtain ⟨evs, c, _⟩ := h0.calm
      refine wp_pure ⟨⟨htr.1.away (c.away tino), h1⟩, h2, ?_⟩
      rintro ⟨x, hx, hh⟩
      rcases List.mem_cons.1 hx with hx | hx
      · subst hx
        have := htr.1.inUse hh
        rw [hact] at this; cases this
      · exact h3 ⟨x, hx, hh⟩
    | true =>
      simp only [Bool.not_true, Bool.false_eq_true, if_false]
      refine wp_bind (wp_emit ?_)
      have hce := Calm.emit w (.ask i s.id)
      have hst : StoreInv env tino { w with log := w.log ++ [.ask i s.id] } sub.s := ((hsub sub (by simp)).1 hact).away (hce.away _)
      have htr0 := htr.1.away (hce.away tino)
      have w1 := wp_storeGet hF.lib hF.sane (hF.ids s hs) (by rw [hti]; exact hst) (out := out) (R := True) (T := T) (done := done) (by rw [hti]; exact ht)
      have w2 := wp_storeGet_avail hF (hargs arg (by simp)) hT hd hs hti (hw0.trans (hce.away _)) hact htr0 hst ht hout hlong hle
      refine wp_bind (wp_mono (wp_and w1 w2) ?_ (fun st w' h => h.2))
      intro a w1 h
      obtain ⟨r, t1, s1, out1⟩ := a
      obtain ⟨h, k1, k2, k3, k4⟩ := h
      rw [hti] at h
      have hc1 := Asked.askEv h.calm
      have hti1 : t1.ino = tino := h.tgt.ino.trans hti
      have hd1 : w1.data tino = w.data tino := by obtain ⟨evs, c, _⟩ := hc1; rw [c.data]
      have ht1 : TgtInv env.H env.bufMax True T (w1.data tino) done t1 := by rw [hd1]; exact ht.same h.tgt
      have haw : Away tino w w1 := by obtain ⟨evs, c, _⟩ := hc1; exact c.away _
      have hl1 := h.len
      simp only at hl1 k1 k2 k3 k4
      have rest : ∀ (w1' : World) (lg : List Event), Calm w1 w1' lg → ∀ (sub' : Sub Store), Tracks env w0 tpath p arg w1 sub' → (¬ ∃ n, r = some (n + 1)) →
          wp (chainLoop (storeGet env) s.id (i + 1) t1 subs out1 >>= fun x => match x with
            | (r, t, subs, out) => (pure (r, t, sub' :: subs, out) : M (Option Nat × Tgt × List (Sub Store) × Bytes)))
            (Served env w0 tpath p done s (arg :: args)) (fun st _ => st = .killed) w1' := by
        intro w1' lg hlg sub' hsub' hr
        have haw := haw.trans (hlg.away tino)
        have ht1 : TgtInv env.H env.bufMax True T (w1'.data tino) done t1 := by rw [hlg.data]; exact ht1
        have hd1 : w1'.data tino = w.data tino := by rw [hlg.data]; exact hd1
        have hsub' := hsub'.away (hlg.away tino)
        refine wp_bind (wp_mono (wp_and (wp_chainLoop_inv hF.lib hF.sane (hF.ids s hs) subs (i + 1) t1 out1 w1' hti1 (hw0.trans haw) (hsub1.away haw) ht1)
          (wp_chainLoop_avail hF hT hd hs hle args subs (i + 1) t1 out1 w1' hargs1 hti1 (hw0.trans haw) (hsub1.away haw) (htr.2.away haw) ht1 (by omega) (by rw [hd1]; exact hlong)))
          (fun b w2 g => ?_) (fun st w' g => g.2))
        obtain ⟨r2, t2, subs2, out2⟩ := b
        obtain ⟨g0, g1, g2, g3⟩ := g
        obtain ⟨evs, c, _⟩ := g0.calm
        refine wp_pure ⟨⟨hsub'.away (c.away tino), g1⟩, g2, ?_⟩
        rintro ⟨x, hx, hh⟩
        rcases List.mem_cons.1 hx with hx | hx
        · subst hx
          exact absurd (k4 hh) hr
        · exact g3 ⟨x, hx, hh⟩
      cases r with
      | none =>
        refine wp_bind (wp_emit ?_)
        exact rest _ _ (Calm.emit w1 (.failed i)) { sub with s := s1, active := false } (k2 rfl _) (by simp)
      | some n =>
        cases n with
        | zero => exact rest w1 [] (Calm.refl w1) { sub with s := s1, active := true } (k1 _ rfl _) (by simp)
        | succ n => exact wp_pure ⟨⟨k1 _ rfl _, htr.2.away haw⟩, k3, fun _ => ⟨n, rfl⟩⟩

theorem regular_of_even {segs : List Seg} (h : ∀ s ∈ segs, ∀ s' ∈ segs, s.id = s'.id → s.len = s'.len) : Regular segs := by
  intro a x y b e hid
  exact h x (by rw [e]; simp) y (by rw [e]; simp) hid

/-- Analysis of runs for which everything is available. -/
def availRun (env : Env) (tpath : Bytes) (p : Params) (stores : List Bytes) (tino : Nat) (w0 : World) (segs : List Seg) (P : Nat → Prop) : Cfg where
  env := env
  tino := tino
  w0 := w0
  segs := segs
  R := True
  T := fun n => tpath ∈ stores ∧ n = segs.length
  CI := fun _ w subs => (SubsInv env tino w0 w subs ∧ ∀ o ∈ subs.map (fun s => inoOf s.s), ∀ i, o = some i → P i) ∧ Tracked env w0 tpath p w stores subs
  CJ := fun _ _ w subs => (SubsInv env tino w0 w subs ∧ ∀ o ∈ subs.map (fun s => inoOf s.s), ∀ i, o = some i → P i) ∧ Tracked env w0 tpath p w stores subs
  L := fun _ => True
  Bad := fun _ => False
  SOk := fun s => s = .killed

theorem availRun_ok {env : Env} {tpath : Bytes} {p : Params} {stores : List Bytes} {tino : Nat} {w0 : World} {segs : List Seg} {P : Nat → Prop}
    (hF : Fixed env w0 tpath stores segs tino) (hs : SegsOk segs) (hO : Obtainable env w0 tpath tino p stores segs) :
    (availRun env tpath p stores tino w0 segs P).Ok := by
  refine ⟨hF.lib, hs, fun _ => regular_of_even hF.even, fun n hn => by simp only [availRun] at hn ⊢; omega, ?_, ?_, ?_, ?_, ?_, ?_, ?_, ?_, ?_⟩
  · intro done w w' subs h hc
    exact ⟨⟨SubsInv.away h.1.1 (hc.away _), h.1.2⟩, h.2.away (hc.away tino)⟩
  · intro done seg w subs h
    exact h
  · intro done seg w subs d evs r mm h _ _ hr hm
    exact ⟨⟨SubsInv.away h.1.1 (Away.wrote hr hm), h.1.2⟩, h.2.away (Away.wrote (tino := tino) hr hm)⟩
  · intro done seg w subs h _
    exact h
  · intro _ _ _ _; trivial
  · intro _ _ _ _ _; trivial
  · intro _ _ _ _ _; trivial
  · intro _ _ _ _ _ _; trivial
  · intro pre post seg rest c t out w hsh hun hci ht hti hout
    have hsplit : segs = pre ++ post ++ seg :: rest := hsh.split
    have hseg : seg ∈ segs := by rw [hsplit]; simp
    have ha : Away tino w0 w := hsh.away
    obtain ⟨⟨hci1, hci2⟩, hci3⟩ := hci
    have hle : total (pre ++ post) ≤ total segs := by rw [hsplit, total_append (pre ++ post)]; omega
    have hlong : total (pre ++ post) ≤ (w.data tino).length := by
      have := hsh.long
      simpa [availRun] using this
    have hhas : ∃ arg ∈ stores, Has env w0 tpath p (pre ++ post) seg arg := by
      rcases hO _ _ _ hsplit with h | ⟨h1, x, h2, h3⟩ | ⟨arg, h1, h2⟩
      · exfalso
        obtain ⟨x, tl, e⟩ : ∃ x tl, post ++ [seg] = x :: tl := by
          cases hp : post ++ [seg] with
          | nil => simp at hp
          | cons x tl => exact ⟨x, tl, rfl⟩
        have hx : x ∈ pre ++ post ++ [seg] := by rw [List.append_assoc, e]; simp
        have hm := h x hx
        rcases hun x tl e with g | g | g
        · exact g hm
        · exact g hF.clean
        · have e' : segs = pre ++ x :: (tl ++ rest) := by
            rw [hsplit, List.append_assoc, show post ++ seg :: rest = (post ++ [seg]) ++ rest by simp, e]; simp
          have ho := (hs _ _ _ e').1
          have hmod := Nat.mod_le (total pre) (2 ^ 64)
          have htot : total segs = total pre + (x.len + total (tl ++ rest)) := by rw [e', total_append, total_cons]
          have := hF.h63
          have g' : 2 ^ 63 ≤ x.off + x.len := g
          omega
      · exact ⟨tpath, h1, Or.inl ⟨rfl, x, h2, h3⟩⟩
      · exact ⟨arg, h1, Or.inr h2⟩
    unfold chainGet
    refine wp_bind (wp_emit ?_)
    have hce := Calm.emit w (.query seg.id)
    have w1 := wp_chainLoop_inv (R := True) (T := fun n => tpath ∈ stores ∧ n = segs.length) (done := pre ++ post) (w0 := w0) hF.lib hF.sane (hF.ids seg hseg) c.subs 0 t out _ hti
      (ha.trans (hce.away _)) (SubsInv.away hci1 (hce.away _)) ht
    have w2 := wp_chainLoop_ino env seg.id c.subs 0 t out { w with log := w.log ++ [.query seg.id] }
    have w3 := wp_chainLoop_avail (T := fun n => tpath ∈ stores ∧ n = segs.length) hF (fun h => ⟨segs.length, h, rfl⟩) (fun x hx => by rw [hsplit]; exact List.mem_append_left _ hx) hseg hle stores c.subs 0 t out _ (fun _ h => h) hti
      (ha.trans (hce.away _)) (SubsInv.away hci1 (hce.away _)) (hci3.away (hce.away tino)) ht hout hlong
    refine wp_bind (wp_mono (wp_and (wp_and w1 w2) w3) ?_ ?_)
    · intro a w' h
      obtain ⟨r, t', subs', out'⟩ := a
      obtain ⟨⟨h, h'⟩, h1, h2, h3⟩ := h
      obtain ⟨evs, k1, k2⟩ := h.calm
      have hca := (Calm.emit w' (.answer seg.id r)).away tino
      refine wp_bind (wp_emit (wp_pure ⟨Calm.answered ⟨evs, hce.trans k1, k2⟩, fun _ => ⟨⟨SubsInv.away h.subs hca, ?_⟩, h1.away hca⟩, trivial, h.tgt, h.len, h.data, fun hne => ?_⟩))
      · simp only at h' ⊢
        rw [h']
        exact hci2
      · obtain ⟨n, hn⟩ := h3 hhas
        simp only at hn hne
        exact hne (by rw [hn, h2 n hn])
    · intro s w' h
      obtain ⟨evs, k1, k2⟩ := h.1.1.2
      exact ⟨⟨h.2, trivial⟩, evs, hce.trans k1, k2⟩

theorem tracked_of {env : Env} {w0 : World} {tpath : Bytes} {p : Params} {w : World} : ∀ {args : List Bytes} {subs : List (Sub Store)}, subs.length = args.length →
    (∀ (k : Nat) (sub : Sub Store), subs[k]? = some sub → ∃ arg, args[k]? = some arg ∧ Tracks env w0 tpath p arg w sub) → Tracked env w0 tpath p w args subs
  | [], [], _, _ => trivial
  | [], _ :: _, h, _ => by simp at h
  | _ :: _, [], h, _ => by simp at h
  | arg :: args, sub :: subs, h, h' => by
    refine ⟨?_, tracked_of (by simpa using h) (fun k sub' hk => ?_)⟩
    · obtain ⟨x, h1, h2⟩ := h' 0 sub rfl
      simp only [List.getElem?_cons_zero, Option.some.injEq] at h1
      rw [h1]; exact h2
    · obtain ⟨x, h1, h2⟩ := h' (k + 1) sub' (by simpa using hk)
      exact ⟨x, by simpa using h1, h2⟩

/-- Stores as they are made. -/
theorem tracks_start {env : Env} {w : World} {ipath tpath : Bytes} {stores : List Bytes} (hu : Usable env w ipath tpath stores) {p : Params} {ii n : Nat}
    (hii : w.dir ipath = some ii) (hwf : WellFormed (w.data ii) p.min p.avg p.max n) {arg : Bytes} (harg : arg ∈ stores) {sub : Sub Store} (hact : sub.active = true)
    (h : StoreFrom env w tpath p arg sub.s) : Tracks env w tpath p arg w sub := by
  cases hs : sub.s with
  | target =>
    rw [hs] at h
    refine ⟨by simp [hs], by simp [hs], fun _ => h, fun _ => ⟨hact, hs⟩, fun path index hp => absurd h hp.1, fun B hh => absurd h hh.1⟩
  | http x =>
    rw [hs] at h
    obtain ⟨h1, h2, h3, frag, h4, h5⟩ := h
    refine ⟨by simp [hs], fun y hy => ?_, by simp [hs], fun e => absurd e h1.1, fun path index hp => (not_both hp h1).elim, fun B _ hB => ?_⟩
    · rw [hs] at hy
      cases hy
      exact ⟨h1, frag, h4, h5⟩
    · have := (hB _ _ _ h4 h5).size
      exact ⟨hact, x, hs, by omega, by omega⟩
  | loc l =>
    rw [hs] at h
    obtain ⟨path, index, d, h1, h2, h3, h4, h5, h6⟩ := h
    refine ⟨fun y hy => ?_, by simp [hs], by simp [hs], fun e => absurd e h1.1, fun path' index' hp hr => ?_, fun B hh => (not_both h1 hh).elim⟩
    · rw [hs] at hy
      cases hy
      refine ⟨⟨path, index, h1, h2⟩, h3, fun h0 => ?_⟩
      obtain ⟨ii', mi, av, ma, n', i1, i2, i3, i4, i5⟩ := hu.index
      rw [hii] at i1
      cases i1
      obtain ⟨_, rfl, _, _⟩ := wellFormed_unique i3 hwf
      obtain ⟨⟨i, k1, k2, k3⟩, _⟩ := i5 arg harg path index h1
      rw [h2] at k1
      cases k1
      have := hu.files _ _ h2
      rw [C57_estimate_zero p _ (by have := hwf.mono; omega) (by omega)] at h0
      omega
    · obtain ⟨rfl, rfl⟩ := localArg_eq h1 hp
      refine ⟨hact, l, hs, ?_⟩
      cases h6 with
      | scan _ h h' =>
        refine Or.inl ⟨⟨d, ScanEnv.disc_avg h4, h hu.clean.2⟩, fun path' ip xs e1 e2 => ?_⟩
        obtain ⟨_, e⟩ := localArg_eq h1 e1
        obtain ⟨j, n', e3, e4, e5, _⟩ := e2
        rcases h' ip e with g | g | g | ⟨j', g, g'⟩
        · exact absurd hu.clean g
        · exact absurd g hu.mem
        · rw [e3] at g; cases g
        · rw [e3] at g
          cases g
          rcases g' with g | g | g
          · exact absurd g e4
          · have := hu.files _ _ e3; omega
          · rw [h3] at g; exact absurd e5 (g n')
      | sideload ip j idx e e2 e3 e4 hk =>
        subst e
        obtain ⟨n', e5, e6, _⟩ := e4
        rw [h3] at e5
        · refine Or.inr ⟨_, ip, delivered 0 (tableEntries (w.data j) n'), h1, ⟨j, n', e2, hk, e5, rfl⟩, idx, e3, ?_, ?_⟩
          · obtain ⟨idx', k1, k2, _⟩ := h5
            rw [e3] at k1
            cases k1
            exact k2
          · rw [e6, List.map_map]
            have : (bare ∘ loaded) = _root_.id := by funext x; rfl
            rw [this, List.map_id]

/-- A run for which everything is available. -/
theorem run_avail {env : Env} {w : World} {ipath tpath : Bytes} {stores : List Bytes} (hsc : Scene env w ipath tpath stores)
    (hu : Usable env w ipath tpath stores) {segs : List Seg} {ti ii n : Nat} {p : Params} (hd : Describes w ipath segs) (ht : w.dir tpath = some ti)
    (hii : w.dir ipath = some ii) (hwf : WellFormed (w.data ii) p.min p.avg p.max n) (hfit : ∀ s ∈ segs, s.len ≠ 0 ∧ s.len ≤ env.bufMax)
    (heven : ∀ s ∈ segs, ∀ s' ∈ segs, s.id = s'.id → s.len = s'.len) (hcl : NoClash env w tpath stores segs) (hblk : w.kind ti = .blk → total segs ≤ (w.data ti).length)
    (h63 : total segs < 2 ^ 63) (hO : Obtainable env w tpath ti p stores segs) :
    wp (csnMain env (ipath :: tpath :: stores))
      (fun r w' => r = true ∧ ∃ pre post, Shape env.H env.bufMax True ti w segs pre post [] 0 [] w')
      (fun s _ => s = .killed) w := by
  unfold csnMain
  refine wp_bind (wp_mono (wp_csn hsc) ?_ ?_)
  · intro r w1 h
    obtain ⟨h1, h2⟩ := h
    cases r with
    | none => exact absurd h2 hu.starts
    | some s =>
      simp only at h2 ⊢
      have hb := h2.begun
      have hti : s.tgt.ino = ti := by have := hb.tgt; rw [ht] at this; cases this; rfl
      have hseg := Describes.unique hd hb.idx
      have hso := Describes.segsOk hd
      have hi := hu.files ipath _ h2.idx
      have hF : Fixed env w tpath stores segs ti := by
        refine ⟨hsc.lib, hsc.sane, hu.clean, ?_, hcl, heven, hfit, hu.files, fun arg ha hh => (hu.urls arg ha hh).1, ?_, h63, ?_, ?_⟩
        · intro b hb'
          cases b with
          | true => rfl
          | false => exact absurd hb' hu.mem
        · intro x hx
          obtain ⟨a, b, e⟩ := List.append_of_mem hx
          exact (hso _ _ _ e).2.2
        · intro arg ha path index hl i hi' e
          rw [e] at hi'
          exact hsc.own arg ha path index hl _ hi' ht
        · intro arg ha path index hl i hi'
          obtain ⟨_, _, _, _, _, _, _, _, _, i5⟩ := hu.index
          obtain ⟨⟨j, k1, k2, _⟩, _⟩ := i5 arg ha path index hl
          rw [hi'] at k1
          cases k1
          exact k2
      have hok : (availRun env tpath p stores ti w segs (LocalIno w tpath stores)).Ok := availRun_ok hF hso hO
      obtain ⟨t0, _, happ⟩ := h2.app
      have hp : s.p.min = p.min ∧ s.p.avg = p.avg ∧ s.p.max = p.max ∧ s.n = n := by
        have e := h2.idx
        rw [hii] at e
        have e' := h2.wf
        rw [← Option.some.inj e] at e'
        exact wellFormed_unique e' hwf
      have hp' : s.p = p := by
        cases p; cases hsp : s.p
        rw [hsp] at hp
        simp only at hp
        obtain ⟨rfl, rfl, rfl, _⟩ := hp
        rfl
      obtain ⟨evs1, hcalm1, _⟩ := h1
      refine wp_sync (G := availRun env tpath p stores ti w segs (LocalIno w tpath stores)) hok hsc h2 hti hseg
        ⟨⟨by have := subsInv_start hsc h2; rw [hti] at this; exact this, h2.inos⟩, ?_⟩ (fun n hn => ⟨happ.qry.2 hn.1, ?_⟩)
        (F := ∃ i, LocalIno w tpath stores i ∧ Risk w i) ?_ ?_ ?_ ?_
      · refine tracked_of happ.len (fun k sub hk => ?_)
        obtain ⟨g1, arg, g2, g3⟩ := happ.each k sub hk
        rw [hp'] at g3
        exact ⟨arg, g2, (tracks_start hu hii hwf (List.mem_of_getElem? g2) g1 g3).away (hcalm1.away ti)⟩
      · simp only [availRun] at hn
        have := delivered_length_le (tableEntries (w.data s.iino) s.n) 0
        rw [← hseg] at this
        simp only [tableEntries, List.length_map, List.length_range] at this
        omega
      · intro _ w' subs hci ⟨sub, hsub, l, hl, hf⟩
        exact ⟨l.ino, hci.1.2 (some l.ino) (List.mem_map.2 ⟨sub, hsub, by simp [hl, inoOf]⟩) _ rfl, ((hci.1.1 sub hsub).2 l hl).2 hf⟩
      · intro w' pre post e hs _ _
        exact ⟨rfl, pre, post, hs⟩
      · intro w' hf _
        exfalso
        rcases hf with (hf | hf | ⟨x, hf, hf'⟩ | hf | hf) | hf
        · exact hf hu.clean
        · exact hf
        · have := (hfit x hf).2
          simp only [availRun] at hf'
          omega
        · simp only [availRun] at hf
          have := hblk hf.1
          omega
        · simp only [availRun] at hf
          omega
        · simp only [availRun] at hf
          omega
      · intro st w' hst _
        rcases hst with (hst | hst | ⟨_, hst | ⟨x, hst, hst'⟩⟩ | hst) | hst
        · exact hst
        · exact hst
        · exact absurd hu.clean hst
        · exact absurd hst' (hfit x hst).1
        · exact absurd trivial hst.2
        · obtain ⟨_, i, ⟨arg, ha, path, index, h3, h4⟩, h5⟩ := hst
          exact absurd ⟨arg, ha, path, index, i, h3, h4, h5⟩ hu.noRisk
  · intro s w1 h
    rcases h.2 with h | h
    · exact h
    · exact absurd h.2 hu.noAbort

end Csn.Proof
