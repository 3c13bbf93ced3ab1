import Verif.Props.Local
/-
C15, C17, C57: local stores that scan their file.
-/
namespace Csn.Props
open Csn Spec Proof

/-- The answer a store holding exactly the chunks `cs` gives to someone with a buffer of `max`
bytes: a chunk with the ID; "not found" exactly if there is none; a failure only if the chunk does
not fit, or if some system call failed (`err`). -/
def Exact (H : Bytes → Id) (cs : List Bytes) (max : Nat) (err : Prop) (id : Id) : Answer → Prop
  | .data d => d ∈ cs ∧ H d = id ∧ d.length ≤ max
  | .notFound => ∀ c ∈ cs, H c ≠ id
  | .failed => err ∨ ∃ c ∈ cs, H c = id ∧ max < c.length

theorem Exact.mono {H : Bytes → Id} {cs : List Bytes} {max : Nat} {e e' : Prop} {id : Id} {a : Answer}
    (h : Exact H cs max e id a) (hm : e → e') : Exact H cs max e' id a := by
  cases a with
  | data d => exact h
  | notFound => exact h
  | failed => exact h.imp_left hm

/-- All IDs were answered, in order; the answers stop early only behind a failure. -/
def InOrder (ids : List Id) (as : List (Id × Answer)) : Prop :=
  as.map Prod.fst <+: ids ∧ (as.map Prod.fst = ids ∨ ∃ a id, as = a ++ [(id, .failed)])

theorem segs_mem (H : Bytes → Id) (cs : List Bytes) : ∀ o, ∀ c ∈ cs, ∃ s ∈ segs H o cs, s.id = H c ∧ s.len = c.length := by
  induction cs with
  | nil => simp
  | cons x xs ih =>
    intro o c hc
    rcases List.mem_cons.1 hc with rfl | hc
    · exact ⟨⟨o, c.length, H c⟩, by simp [segs], rfl, rfl⟩
    · obtain ⟨s, h1, h2⟩ := ih (o + x.length) c hc
      exact ⟨s, by simp [segs, h1], h2⟩

/-- One lookup in a scanned store. -/
theorem wp_localGet_scanned {env : LEnv} (hlib : env.lib.Conforms) {l : Loc} {d : Nat} {f : Bytes} {cs : List Bytes}
    (hl : LocScanned env d f l) (hcs : Chunking l.p.min l.p.max d f cs) (h63 : f.length < 2 ^ 63)
    {fuel : Nat} {id : Id} {out : Bytes} {w : World} (hf : w.data l.ino = f) (hz : NoEof w.sys) :
    wp (localGet env (fuel + 1) l id out)
      (fun res w' => res.2.1.ino = l.ino ∧ res.2.1.p = l.p ∧ LocScanned env d f res.2.1 ∧
        res.2.2.length = out.length ∧ Exact env.H cs out.length (Sys.err ∈ w.sys) id (answer res.1 res.2.2) ∧
        (res.1 ≠ none → Spent w.sys w'.sys out.length) ∧ Quiet w w' [])
      (fun s w' => s = .killed ∧ okCalls w.sys < out.length ∧ Quiet w w' []) w := by
  obtain ⟨idx, cs', h1, h2, h3, h4⟩ := hl
  have e := C01_rule_is_deterministic hcs h3
  subst e
  have hok := scanEntries_ok env (n := f.length) (by rw [List.take_length]; exact h3)
  have hv : ∀ e ∈ idx.entries, EntryOk env.H f e ∧ e.valid = true := fun e he => by
    have := hok e (h4.mem_iff.1 he); exact ⟨this.1, this.2.1⟩
  have lift : ∀ idx' : Index, IndexInv idx' → idx'.entries.Perm idx.entries →
      LocScanned env d f { l with idx := .live idx' } :=
    fun idx' hi hp => ⟨idx', cs, rfl, hi, h3, hp.trans h4⟩
  apply wp_localGet_valid hlib h1 h2 hv hf
  · intro idx' hi hp hno
    refine ⟨rfl, rfl, lift idx' hi hp, rfl, ?_, fun _ => (Spent.refl _).mono (by omega), Quiet.refl w⟩
    intro c hc e
    obtain ⟨s, hs, hs2, _⟩ := segs_mem env.H cs 0 c hc
    refine hno (scanned s) (h4.mem_iff.2 (List.mem_map.2 ⟨s, hs, rfl⟩)) ?_
    show s.id = id
    rw [hs2, e]
  · intro idx' e r hi hp he hid hpos hle hr hlen hh
    refine ⟨rfl, rfl, lift idx' hi hp, bufWrite0_length (by omega), ?_, fun _ => hr.mono hle, Quiet.ofSys hr.1⟩
    have htake : (bufWrite out 0 (slice f e.start e.len)).take e.len = slice f e.start e.len := by
      have := bufWrite0_take (buf := out) (d := slice f e.start e.len)
      rwa [hlen] at this
    obtain ⟨n, hn⟩ : ∃ n, e.len = n + 1 := ⟨e.len - 1, by omega⟩
    simp only [answer, hn]
    rw [← hn, htake]
    exact ⟨(hok e (h4.mem_iff.1 he)).2.2, hh, by omega⟩
  · intro idx' e r k hi hp he hid hr hk hc
    refine ⟨rfl, rfl, lift idx' hi hp, bufWrite0_length (by have := slice_length_le f e.start k; omega), ?_,
      by simp, Quiet.ofSys hr⟩
    rcases hc with hc | hc | hc
    · exact Or.inl (hz.err hc)
    · right
      have := hok e (h4.mem_iff.1 he)
      have hh := this.1.2 this.2.1
      exact ⟨_, this.2.2, by rw [hh.2, hid], by omega⟩
    · omega
  · intro e he hid hle hk
    exact ⟨rfl, by omega, Quiet.ofSys List.nil_suffix⟩

theorem askAll_exact {env : LEnv} (hlib : env.lib.Conforms) {f : Bytes} {cs : List Bytes} {d : Nat}
    (h63 : f.length < 2 ^ 63) (ids : List Id) :
    ∀ (l : Loc) (out : Bytes) (w : World), LocScanned env d f l → Chunking l.p.min l.p.max d f cs →
    w.data l.ino = f → NoEof w.sys →
    wp (askAll env l out ids)
      (fun r _ => InOrder ids r.1 ∧ ∀ x ∈ r.1, Exact env.H cs out.length (Sys.err ∈ w.sys) x.1 x.2)
      (fun s _ => s = .killed ∧ okCalls w.sys < ids.length * out.length) w := by
  induction ids with
  | nil =>
    intro l out w _ _ _ _
    exact wp_pure ⟨⟨by simp, by simp⟩, by simp⟩
  | cons id ids ih =>
    intro l out w hl hcs hf hz
    unfold askAll
    refine wp_bind (wp_mono (wp_localGet_scanned hlib hl hcs h63 (fuel := 1) hf hz) ?_ ?_)
    · intro res w1 h
      obtain ⟨r, l1, out1⟩ := res
      obtain ⟨h1, h2, h3, h4, h5, h6, hq⟩ := h
      simp only at h1 h2 h3 h4 h5 h6 ⊢
      cases r with
      | none =>
        refine wp_pure ⟨⟨by simp, Or.inr ⟨[], id, rfl⟩⟩, ?_⟩
        intro x hx
        simp only [List.mem_singleton] at hx
        subst hx
        exact h5
      | some n =>
        simp only
        have h6 := h6 (by simp)
        refine wp_bind (wp_mono (ih l1 out1 w1 h3 (by rw [h2]; exact hcs) (by rw [h1, hq.data]; exact hf)
          (hz.suffix hq.sys)) ?_ ?_)
        · intro x w2 hx
          refine wp_pure ⟨⟨?_, ?_⟩, ?_⟩
          · simp only [List.map_cons]
            exact List.prefix_cons_inj id |>.2 hx.1.1
          · rcases hx.1.2 with h | ⟨a, i, h⟩
            · left; simp [h]
            · right; exact ⟨(id, answer (some n) out1) :: a, i, by simp only [h]; rfl⟩
          · intro y hy
            rcases List.mem_cons.1 hy with rfl | hy
            · exact h5
            · have := hx.2 y hy
              rw [h4] at this
              exact this.mono (fun h => hq.sys.subset h)
        · intro s w2 hx
          refine ⟨hx.1, ?_⟩
          have := h6.2
          have := hx.2
          rw [h4] at this
          rw [List.length_cons, Nat.succ_mul]; omega
    · intro s w1 h
      refine ⟨h.1, ?_⟩
      rw [List.length_cons, Nat.succ_mul]; omega

/-- A session in which the index cannot be taken over answers exactly. -/
theorem session_exact (env : LEnv) (hlib : env.lib.Conforms) (path : Bytes) (index : Option Bytes)
    (p : Params) {d : Nat} (he : ScanEnv env.disc env.bufsiz p d) (out : Bytes) (ids : List Id) (w w' : World)
    (hz : Sys.zero ∉ w.sys) (ino : Nat) (hp : w.dir path = some ino) (h63 : (w.data ino).length < 2 ^ 63)
    (hns : ∀ ipath iino n, index = some ipath → w.dir ipath = some iino →
      ¬ WellFormed (w.data iino) p.min p.avg p.max n)
    (as : List (Id × Answer)) (l : Loc) (hrun : session env path index p out ids w = (.ok (some (as, l)), w')) :
    ∃ cs, Chunking p.min p.max d (w.data ino) cs ∧ InOrder ids as ∧
      ∀ id a, (id, a) ∈ as → Exact env.H cs out.length (Sys.err ∈ w.sys) id a := by
  have key : wp (session env path index p out ids)
      (fun r _ => ∀ as l, r = some (as, l) → ∃ cs, Chunking p.min p.max d (w.data ino) cs ∧ InOrder ids as ∧
      ∀ x ∈ as, Exact env.H cs out.length (Sys.err ∈ w.sys) x.1 x.2) (fun _ _ => True) w := by
    unfold session
    refine wp_bind (wp_mono (wp_localNew he w) ?_ (fun _ _ _ => trivial))
    intro r w1 h
    have hq : ∃ evs, Quiet w w1 evs := by
      rcases h.1 with h | ⟨_, _, h, _⟩
      · exact ⟨_, h⟩
      · exact ⟨_, h⟩
    obtain ⟨evs, hq⟩ := hq
    cases r with
    | none => exact wp_pure (by simp)
    | some l =>
      simp only
      obtain ⟨h1, h2, h3, h4, _⟩ := h.2.1 l rfl
      rw [hp] at h1
      injection h1 with h1
      subst h1 h2
      cases h4 with
      | sideload ipath i idx e1 e2 _ e4 _ =>
        obtain ⟨n, hn, _⟩ := e4
        exact absurd hn (hns ipath i n e1 e2)
      | scan _ hs _ =>
        have hs := hs hz
        obtain ⟨idx, cs, g1, g2, g3, g4⟩ := id hs
        refine wp_bind (wp_mono (askAll_exact hlib h63 ids l out w1 hs g3 (by rw [hq.data]) (fun h => hz (hq.sys.subset h)))
          ?_ (fun _ _ _ => trivial))
        intro x w2 hx
        refine wp_pure ?_
        intro as l' e
        injection e with e
        subst e
        refine ⟨cs, g3, hx.1, fun y hy => ?_⟩
        exact (hx.2 y hy).mono (fun h => hq.sys.subset h)
  obtain ⟨cs, h1, h2, h3⟩ := wp_ok key hrun as l rfl
  exact ⟨cs, h1, h2, fun id a h => h3 (id, a) h⟩

/-- **C15**: a local store without side-load index answers every sequence of lookups exactly as the
chunking of its file demands: data it returns is a chunk of the file with the requested ID, it says
"not found" only if no chunk of the file has the ID, and it fails only if a system call failed or
the chunk is larger than the caller's buffer.  The file may be of any size a file can have; the
hypothesis on the schedule excludes only reads that report the end of the file too early. -/
theorem C15_scanned_store_is_exact (env : LEnv) (hlib : env.lib.Conforms) (path : Bytes)
    (p : Params) {d : Nat} (he : ScanEnv env.disc env.bufsiz p d) (out : Bytes) (ids : List Id) (w w' : World)
    (hz : Sys.zero ∉ w.sys) (ino : Nat) (hp : w.dir path = some ino) (h63 : (w.data ino).length < 2 ^ 63)
    (as : List (Id × Answer)) (l : Loc) (hrun : session env path none p out ids w = (.ok (some (as, l)), w')) :
    ∃ cs, Chunking p.min p.max d (w.data ino) cs ∧ InOrder ids as ∧
      ∀ id a, (id, a) ∈ as → Exact env.H cs out.length (Sys.err ∈ w.sys) id a :=
  session_exact env hlib path none p he out ids w w' hz ino hp h63 (by simp) as l hrun

/-- **C15**: and it does answer all of them: if the file can be opened and its size is one a local
store can be created for (C57), no call fails and the process is not killed, every ID gets its
exact answer, provided the caller's buffer holds a largest chunk. -/
theorem C15_scanned_store_answers (env : LEnv) (hlib : env.lib.Conforms) (path : Bytes)
    (p : Params) {d : Nat} (he : ScanEnv env.disc env.bufsiz p d) (out : Bytes) (ids : List Id) (w : World)
    (ino : Nat) (hp : w.dir path = some ino) (hk : w.kind ino ≠ .other)
    (hlo : chunkEstimate p (w.data ino).length ≠ 0) (hhi : (w.data ino).length < 2 ^ 56) (hout : max p.max 48 ≤ out.length)
    (herr : Sys.err ∉ w.sys) (hz : Sys.zero ∉ w.sys) (hm : false ∉ w.mem)
    (hcalls : (w.data ino).length + 4 + ids.length * out.length ≤ okCalls w.sys) :
    ∃ as l w' cs, session env path none p out ids w = (.ok (some (as, l)), w') ∧
      Chunking p.min p.max d (w.data ino) cs ∧ as.map Prod.fst = ids ∧
      ∀ id a, (id, a) ∈ as → (∃ c ∈ cs, env.H c = id ∧ a = .data c) ∨ (a = .notFound ∧ ∀ c ∈ cs, env.H c ≠ id) := by
  have hcl : Clean w.sys := ⟨herr, hz⟩
  have key : wp (session env path none p out ids) (fun r _ => r ≠ none) (fun _ _ => False) w := by
    unfold session
    refine wp_bind (wp_mono (wp_localNew he w) ?_ ?_)
    · intro r w1 h
      have hq : ∃ evs, Quiet w w1 evs := by
        rcases h.1 with h | ⟨_, _, h, _⟩
        · exact ⟨_, h⟩
        · exact ⟨_, h⟩
      obtain ⟨evs, hq⟩ := hq
      cases r with
      | none =>
        exfalso
        rcases h.2.2 rfl with g | g | g | ⟨i, g, g'⟩
        · exact g hcl
        · exact hm g
        · rw [hp] at g; cases g
        · rw [hp] at g
          injection g with g
          subst g
          rcases g' with g' | g'
          · exact hk g'
          · omega
      | some l =>
        simp only
        obtain ⟨h1, h2, h3, h4, h5⟩ := h.2.1 l rfl
        rw [hp] at h1
        injection h1 with h1
        subst h1 h2
        cases h4 with
        | sideload ipath i idx e1 _ _ _ _ => cases e1
        | scan _ hs _ =>
          have hs := hs hz
          obtain ⟨idx, cs, g1, g2, g3, g4⟩ := id hs
          refine wp_bind (wp_mono (askAll_exact hlib (by omega) ids l out w1 hs g3 (by rw [hq.data]) (fun h => hz (hq.sys.subset h)))
            ?_ ?_)
          · intro x w2 hx; exact wp_pure (by simp)
          · intro s w2 hx
            have := (h5 rfl).2
            omega
    · intro s w1 h
      rcases h.2 with ⟨_, h⟩ | ⟨_, h⟩
      · rcases h rfl with h | ⟨i, h, h'⟩
        · omega
        · rw [hp] at h
          injection h with h
          subst h
          omega
      · rcases h with ⟨i, h, h'⟩ | ⟨_, _, h, _⟩
        · rw [hp] at h
          injection h with h
          subst h
          exact hlo h'
        · cases h
  unfold wp at key
  split at key
  · next r w' e =>
    cases r with
    | none => exact absurd rfl key
    | some x =>
      obtain ⟨as, l⟩ := x
      obtain ⟨cs, h1, h2, h3⟩ := C15_scanned_store_is_exact env hlib path p he out ids w w' hz ino hp (by omega) as l e
      have hnf : ∀ id, (id, Answer.failed) ∉ as := by
        intro id hin
        rcases h3 id _ hin with h | ⟨c, hc, _, hlt⟩
        · exact herr h
        · have := Nat.le_trans (chunking_le h1 c hc) hout; omega
      refine ⟨as, l, w', cs, e, h1, ?_, ?_⟩
      · rcases h2.2 with h | ⟨a, id, h⟩
        · exact h
        · exact absurd (by rw [h]; simp) (hnf id)
      · intro id a hin
        have := h3 id a hin
        cases a with
        | data c => exact Or.inl ⟨c, this.1, this.2.1, rfl⟩
        | notFound => exact Or.inr ⟨rfl, this⟩
        | failed => exact absurd hin (hnf id)
  · exact key.elim

/-! ### C17 -/

/-- **C17, first part**: an index that cannot be opened, is malformed, or is for other chunk size
parameters is ignored: the store answers exactly as the chunking of its file demands (as in C15). -/
theorem C17_unusable_index_ignored_partial (env : LEnv) (hlib : env.lib.Conforms) (path ipath : Bytes)
    (p : Params) {d : Nat} (he : ScanEnv env.disc env.bufsiz p d) (out : Bytes) (ids : List Id) (w w' : World)
    (hz : Sys.zero ∉ w.sys) (ino : Nat) (hp : w.dir path = some ino) (h63 : (w.data ino).length < 2 ^ 63)
    (hbad : ∀ iino, w.dir ipath = some iino → ∀ n, ¬ WellFormed (w.data iino) p.min p.avg p.max n)
    (as : List (Id × Answer)) (l : Loc)
    (hrun : session env path (some ipath) p out ids w = (.ok (some (as, l)), w')) :
    ∃ cs, Chunking p.min p.max d (w.data ino) cs ∧ InOrder ids as ∧
      ∀ id a, (id, a) ∈ as → Exact env.H cs out.length (Sys.err ∈ w.sys) id a :=
  session_exact env hlib path (some ipath) p he out ids w w' hz ino hp h63
    (fun _ iino n e h => by injection e with e; subst e; exact hbad iino h n) as l hrun

theorem wp_localGet_wrong {env : LEnv} (hlib : env.lib.Conforms) {l : Loc} {idx : Index}
    (hl : l.idx = .live idx) {d : Nat} (he : ScanEnv env.disc env.bufsiz l.p d) {out : Bytes} {id : Id}
    {w : World} {f : Bytes} (hf : w.data l.ino = f) (hi : IndexInv idx) (h63 : f.length < 2 ^ 63) {cs : List Bytes}
    (hcs : Chunking l.p.min l.p.max d f cs)
    (hz : NoEof w.sys) (hin : ∃ e ∈ idx.entries, e.id = id)
    (hwrong : ∀ e ∈ idx.entries, e.id = id → e.valid = false ∧ e.start + e.len ≤ f.length ∧
      e.len ≤ out.length ∧ env.H (slice f e.start e.len) ≠ id) :
    wp (localGet env 2 l id out)
      (fun res w' => res.2.1.ino = l.ino ∧ res.2.1.p = l.p ∧ (res.1 ≠ none → LocScanned env d f res.2.1) ∧
        res.2.2.length = out.length ∧ Exact env.H cs out.length
          (Sys.err ∈ w.sys ∨ false ∈ w.mem ∨ 2 ^ 56 ≤ f.length ∨ w.kind l.ino = .other) id (answer res.1 res.2.2) ∧
        ∃ evs, Quiet w w' evs) (fun _ _ => True) w := by
  apply wp_localPass hlib hl hi
  · intro idx' _ _ h
    obtain ⟨e, h1, h2⟩ := hin
    exact absurd h2 (h e h1)
  · intro idx' e _ _ h1 h2 h3
    have := (hwrong e h1 h2).2.2.1
    omega
  · intro idx' e r k h1 h2 h3 h4 h5 h6 h7 h8
    rw [hf] at h8 ⊢
    have := (hwrong e h3 h4).2.1
    refine ⟨rfl, rfl, by simp, bufWrite0_length (by have := slice_length_le f e.start k; omega), Or.inl (Or.inl ?_), [], Quiet.ofSys h6.1⟩
    rcases h8 with h | h | h
    · exact hz.err h
    · omega
    · omega
  · intro idx' e r _ _ h1 h2 _ _ _ h3
    have := (hwrong e h1 h2).1
    rw [h3] at this; cases this
  · intro idx' e r i _ _ _ h1 h2 _ _ _ _ h3
    rw [hf] at h3
    exact absurd h3 (hwrong e h1 h2).2.2.2
  · intro e r h1 h2 h3 h4 h5 h6 h7
    rw [hf] at h6 ⊢
    have hlen : (bufWrite out 0 (slice f e.start e.len)).length = out.length := bufWrite0_length (by omega)
    generalize bufWrite out 0 (slice f e.start e.len) = out1 at hlen
    refine wp_storeScan (l := { l with idx := .freed }) he ?_ ?_ ?_ ?_
    · intro idx1 r1 m1 e1 cs1 g1 g2 g3 g4 g5 g6 g7
      simp only [hf] at g2 g3 g4 g5 g6
      refine ⟨by simp, fun _ => ?_⟩
      have g5 := g5 (hz.suffix h5.1)
      rw [g5, List.take_length] at g6
      have q1 : Quiet w { w with sys := r1, mem := m1, log := w.log ++ [.scan l.ino] } [.scan l.ino] :=
        Quiet.ofScan (g2.1.trans h5.1) g3
      refine wp_mono (wp_localGet_scanned hlib (l := { l with idx := .live idx1 }) (fuel := 0) (f := f) (d := d) (cs := cs) ⟨idx1, cs1, rfl, g1, g6, by rw [g7]⟩
        hcs h63 (by exact hf) (hz.suffix q1.sys)) ?_ (fun _ _ _ => trivial)
      intro res w2 h
      obtain ⟨a1, a2, a3, a4, a5, a6, a7⟩ := h
      refine ⟨a1, a2, fun _ => a3, a4.trans hlen, ?_, _, q1.trans a7⟩
      rw [hlen] at a5
      exact a5.mono (fun h => Or.inl (q1.sys.subset h))
    · intro i r1 m1 g1 g2 g3
      refine ⟨fun _ => ⟨rfl, rfl, by simp, hlen, Or.inl ?_, [.scan l.ino], Quiet.ofScan (g1.trans h5.1) g2⟩, by simp⟩
      simp only [hf] at g3
      rcases g3 with g | g
      · exact Or.inl (h5.1.subset ((hz.suffix h5.1).err g))
      · exact Or.inr g
    · intros; trivial
    · intros; trivial
  · intros; trivial

/-- **C17, second part**: as soon as a lookup hits an unvalidated entry whose region exists and fits
the buffer but does not hash to the ID, the whole index is discarded: that lookup and all later ones
are answered exactly as the chunking of the file demands. -/
theorem C17_wrong_entry_discards_index_partial (env : LEnv) (hlib : env.lib.Conforms) (l : Loc) (idx : Index)
    (hl : l.idx = .live idx) {d : Nat} (he : ScanEnv env.disc env.bufsiz l.p d) (out : Bytes) (id : Id) (ids : List Id)
    (w w' : World) (hlive : LocLive env (w.data l.ino) l) (h63 : (w.data l.ino).length < 2 ^ 63)
    (hz : Sys.zero ∉ w.sys) (hin : ∃ e ∈ idx.entries, e.id = id)
    (hwrong : ∀ e ∈ idx.entries, e.id = id → e.valid = false ∧ e.start + e.len ≤ (w.data l.ino).length ∧
      e.len ≤ out.length ∧ env.H (slice (w.data l.ino) e.start e.len) ≠ id)
    (as : List (Id × Answer)) (l' : Loc) (hrun : askAll env l out (id :: ids) w = (.ok (as, l'), w')) :
    ∃ cs, Chunking l.p.min l.p.max d (w.data l.ino) cs ∧ InOrder (id :: ids) as ∧
      ∀ i a, (i, a) ∈ as → Exact env.H cs out.length
        (Sys.err ∈ w.sys ∨ false ∈ w.mem ∨ 2 ^ 56 ≤ (w.data l.ino).length ∨ w.kind l.ino = .other) i a := by
  obtain ⟨cs, hcs⟩ := exists_chunking l.p.min l.p.max d _ (w.data l.ino) (Nat.le_refl _)
  obtain ⟨idx0, e0, hi, _⟩ := hlive
  rw [hl] at e0
  injection e0 with e0
  subst e0
  have key : wp (askAll env l out (id :: ids)) (fun r _ => InOrder (id :: ids) r.1 ∧ ∀ x ∈ r.1,
      Exact env.H cs out.length (Sys.err ∈ w.sys ∨ false ∈ w.mem ∨ 2 ^ 56 ≤ (w.data l.ino).length ∨
        w.kind l.ino = .other) x.1 x.2) (fun _ _ => True) w := by
    unfold askAll
    refine wp_bind (wp_mono (wp_localGet_wrong hlib hl he rfl hi h63 hcs hz hin hwrong) ?_ (fun _ _ _ => trivial))
    intro res w1 h
    obtain ⟨r, l1, out1⟩ := res
    obtain ⟨h1, h2, h3, h4, h5, evs, hq⟩ := h
    simp only at h1 h2 h3 h4 h5 ⊢
    cases r with
    | none =>
      refine wp_pure ⟨⟨by simp, Or.inr ⟨[], id, rfl⟩⟩, ?_⟩
      intro x hx
      simp only [List.mem_singleton] at hx
      subst hx
      exact h5
    | some n =>
      simp only
      refine wp_bind (wp_mono (askAll_exact hlib h63 ids l1 out1 w1 (h3 (by simp)) (by rw [h2]; exact hcs)
        (by rw [h1, hq.data]) (fun h => hz (hq.sys.subset h))) ?_ (fun _ _ _ => trivial))
      intro x w2 hx
      refine wp_pure ⟨⟨?_, ?_⟩, ?_⟩
      · simp only [List.map_cons]
        exact List.prefix_cons_inj id |>.2 hx.1.1
      · rcases hx.1.2 with h | ⟨a, i, h⟩
        · left; simp [h]
        · right; exact ⟨(id, answer (some n) out1) :: a, i, by simp only [h]; rfl⟩
      · intro y hy
        rcases List.mem_cons.1 hy with rfl | hy
        · exact h5
        · have := hx.2 y hy
          rw [h4] at this
          exact this.mono (fun h => Or.inl (hq.sys.subset h))
  have := wp_ok key hrun
  exact ⟨cs, hcs, this.1, fun i a h => this.2 (i, a) h⟩

/-! ### Concrete cases and refutations -/

/-- A toy hash with IDs of 32 bytes. -/
def exH32 (b : Bytes) : Id := UInt8.ofNat (b.foldl (fun a x => a + x.toNat) 0) :: List.replicate 31 7

def exEnv : LEnv := ⟨exH32, discExact, 8192, refLib⟩

example : exEnv.lib.Conforms ∧ ScanEnv exEnv.disc exEnv.bufsiz exP 15 :=
  ⟨refLib_conforms, by decide, by decide, by decide, by decide, by decide⟩

/-- A world with a store file "s" (60 bytes, two chunks) and an index file "i". -/
def storeWorld (index : Bytes) (sys : List Sys) : World :=
  { data := fun i => if i = 1 then exFile else if i = 2 then index else [],
    kind := fun _ => .reg, dir := fun p => if p = str "s" then some 1 else if p = str "i" then some 2 else none,
    next := 6, sys := sys, mem := [], net := [], log := [] }

/-- The answers of a run. -/
def answersOf (r : Res (Option (List (Id × Answer) × Loc)) × World) : Option (List Answer) :=
  match r.1 with
  | .ok (some (as, _)) => some (as.map Prod.snd)
  | _ => none

def exIds : List Id := [exH32 (exFile.take 50), exH32 (exFile.drop 50), List.replicate 32 9]

/-- Schedules long enough for everything below. -/
def exSys : List Sys := List.replicate 40 (.some 99)

/-- Without index: both chunks and one "not found". -/
example : answersOf (session exEnv (str "s") none exP (List.replicate 64 0) exIds (storeWorld [] exSys)) =
    some [.data (exFile.take 50), .data (exFile.drop 50), .notFound] := by decide +kernel

/-- An index whose entry for the second chunk claims a region beyond the end of the file: a lookup
hits it before anything else. -/
def beyondIndex : Bytes := encode 10 20 50 [(50, exH32 (exFile.take 50)), (30, exH32 (exFile.drop 50))]

/-- An index that knows nothing about the second chunk. -/
def shortIndex : Bytes := encode 10 20 50 [(50, exH32 (exFile.take 50))]

/-- An index whose entries are swapped: readable regions with the wrong contents. -/
def swappedIndex : Bytes := encode 10 20 50 [(50, exH32 (exFile.drop 50)), (10, exH32 (exFile.take 50))]

/-- **C17 refuted in full**: with this well-formed index, whose parameters match, the store fails
for good on an ID that scanning would have found, as the example above shows (store-local.c:148: a
failed read is treated as failure of the store instead of discarding the index). -/
theorem C17_refuted_entry_beyond_end :
    answersOf (session exEnv (str "s") (some (str "i")) exP (List.replicate 64 0) exIds (storeWorld beyondIndex exSys)) =
      some [.data (exFile.take 50), .failed] ∧
    answersOf (session exEnv (str "s") none exP (List.replicate 64 0) exIds (storeWorld beyondIndex exSys)) =
      some [.data (exFile.take 50), .data (exFile.drop 50), .notFound] := by
  constructor <;> decide +kernel

/-- **C17 refuted in full**: with an index that lists only some of the store's chunks, the store
denies having the others. -/
theorem C17_refuted_incomplete_index :
    answersOf (session exEnv (str "s") (some (str "i")) exP (List.replicate 64 0) exIds (storeWorld shortIndex exSys)) =
      some [.data (exFile.take 50), .notFound, .notFound] := by decide +kernel

/-- Not vacuous (second part): swapped entries are detected and everything is answered as if only
the scan had been used. -/
example :
    answersOf (session exEnv (str "s") (some (str "i")) exP (List.replicate 64 0) exIds (storeWorld swappedIndex exSys)) =
      some [.data (exFile.take 50), .data (exFile.drop 50), .notFound] ∧
    scans (session exEnv (str "s") (some (str "i")) exP (List.replicate 64 0) exIds (storeWorld swappedIndex exSys)).2.log = 1 := by
  constructor <;> decide +kernel

/-- Not vacuous (first part): garbage, and an index for other parameters. -/
example :
    answersOf (session exEnv (str "s") (some (str "i")) exP (List.replicate 64 0) exIds (storeWorld [1, 2, 3] exSys)) =
      some [.data (exFile.take 50), .data (exFile.drop 50), .notFound] ∧
    answersOf (session exEnv (str "s") (some (str "i")) exP (List.replicate 64 0) exIds
        (storeWorld (encode 10 20 51 [(50, exH32 (exFile.take 50))]) exSys)) =
      some [.data (exFile.take 50), .data (exFile.drop 50), .notFound] := by
  constructor <;> decide +kernel

/-! ### C57 -/

/-- The estimate is zero exactly for files below ten twelfths of an average chunk (for files below
2^60 bytes, where the multiplication does not wrap). -/
theorem C57_estimate_zero (p : Params) (size : Nat) (ha : 0 < p.avg) (hs : size < 2 ^ 60) :
    chunkEstimate p size = 0 ↔ 12 * size < 10 * p.avg := by
  unfold chunkEstimate
  rw [Nat.mod_eq_of_lt (by omega), Nat.div_div_eq_div_mul, Nat.div_eq_zero_iff]
  constructor
  · intro h
    rcases h with h | h <;> omega
  · intro h; omega

/-- **C57 refuted in full**: every local store without side-load index whose file is smaller than
ten twelfths of an average chunk makes the program abort (index.c:10), whatever its contents. -/
theorem C57_refuted (env : LEnv) (path : Bytes) (p : Params) (ha : 0 < p.avg) (w : World)
    (ino : Nat) (hp : w.dir path = some ino) (hk : w.kind ino ≠ .other) (hm : w.mem = [])
    (hsmall : 12 * (w.data ino).length < 10 * p.avg) (hsz : (w.data ino).length < 2 ^ 60)
    (a b : Nat) (r : List Sys) (hsys : w.sys = .some a :: .some b :: r) :
    (localNew env path none p w).1 = .stop .abort := by
  have hz := (C57_estimate_zero p _ ha hsz).2 hsmall
  have e1 : allocPure 256 w.mem = (true, []) := by rw [hm]; decide
  obtain ⟨data, kind, dir, next, sys, mem, net, log⟩ := w
  simp only at hp hk hm hsmall hsz hsys hz e1
  subst hm hsys
  cases hk' : kind ino <;>
    simp_all [localNew, bind, M.bind, M.alloc, openPath, M.sysOk, M.sysNext, pure, M.pure,
      storeScan, M.emit, fdSize, indexInit, M.stop]

/-- **C57 for larger files**: no local store whose file is at least ten twelfths of an average chunk
makes the program abort, at creation or in any later lookup, unless its side-load index is one
without entries or with an entry of length 0. -/
theorem C57_large_stores_do_not_abort_partial (env : LEnv) (hlib : env.lib.Conforms) (path : Bytes) (index : Option Bytes)
    (p : Params) {d : Nat} (he : ScanEnv env.disc env.bufsiz p d) (out : Bytes) (ids : List Id) (w : World)
    (ha : 0 < p.avg)
    (hbig : ∀ ino, w.dir path = some ino → (w.data ino).length < 2 ^ 60 ∧ 10 * p.avg ≤ 12 * (w.data ino).length)
    (hidx : ∀ ipath ino, index = some ipath → w.dir ipath = some ino → ¬ SideloadAborts (w.data ino)) :
    (session env path index p out ids w).1 ≠ .stop .abort := by
  have key : wp (session env path index p out ids) (fun _ _ => True) (fun s _ => s ≠ .abort) w := by
    unfold session
    refine wp_bind (wp_mono (wp_localNew he w) ?_ ?_)
    · intro r w1 h
      have hd : w1.data = w.data := by rcases h.1 with h | ⟨_, _, h, _⟩ <;> exact h.data
      cases r with
      | none => exact wp_pure trivial
      | some l =>
        obtain ⟨h1, h2, h3, _⟩ := h.2.1 l rfl
        simp only
        subst h2
        refine wp_bind (wp_mono (askAll_sound hlib ids l out w1 he h3 (by rw [hd])) ?_ ?_)
        · intro x w2 hx
          exact wp_pure trivial
        · intro s w2 hx
          rcases hx.1 with h | ⟨h, h'⟩
          · subst h; simp
          · have := hbig _ h1
            have := (C57_estimate_zero l.p _ ha this.1).1 h'
            omega
    · intro s w1 h
      rcases h.2 with ⟨h, _⟩ | ⟨h, h'⟩
      · subst h; simp
      · rcases h' with ⟨i, h1, h2⟩ | ⟨ip, i, h1, h2, h3⟩
        · have := hbig _ h1
          have := (C57_estimate_zero p _ ha this.1).1 h2
          omega
        · exact absurd h3 (hidx ip i h1 h2)
  intro e
  exact wp_stopped key (eq_pair_of_fst e) rfl

/-- **C57**: an index without entries, or with an entry of length 0, also aborts. -/
theorem C57_refuted_index :
    (session exEnv (str "s") (some (str "i")) exP (List.replicate 64 0) exIds
      (storeWorld (encode 10 20 50 []) exSys)).1 = .stop .abort ∧
    (session exEnv (str "s") (some (str "i")) exP (List.replicate 64 0) exIds
      (storeWorld (encode 10 20 50 [(0, List.replicate 32 1)]) exSys)).1 = .stop .abort := by
  constructor <;> decide +kernel

/-- Not vacuous: the 60 byte file of the examples is large enough; one byte is not. -/
example : 10 * exP.avg ≤ 12 * exFile.length ∧ 12 * 1 < 10 * exP.avg := by decide

end Csn.Props
