import Verif.Proof.Avail
import Verif.Proof.Blame
import Verif.Props.SyncEx
/-
C36: synchronisation succeeds when all chunks are available.
-/
namespace Csn.Props
open Csn Spec Proof

/-- **C36 (part)**: a run whose arguments are usable, for an index whose chunks fit the buffer and can all be had, either is
killed or ends successfully with every region on the target.  Any amount of interrupted and short system calls is covered,
and up to nine transient network failures in a row.  Missing for the full statement: a store with a side-loaded index that
describes something outside its file is not counted as a source of chunks (it may be among the stores); and no store may have
data with the hash, but not the length, that the index demands. -/
theorem C36_available_partial {env : Env} {w w' : World} {ipath tpath : Bytes} {stores : List Bytes} {segs : List Seg} {ti ii n : Nat} {p : Params} {o : Res Bool}
    (hsc : Scene env w ipath tpath stores) (hu : Usable env w ipath tpath stores) (ht : w.dir tpath = some ti)
    (hii : w.dir ipath = some ii) (hwf : WellFormed (w.data ii) p.min p.avg p.max n) (hd : Describes w ipath segs)
    (hfit : ∀ s ∈ segs, s.len ≠ 0 ∧ s.len ≤ env.bufMax) (heven : ∀ s ∈ segs, ∀ s' ∈ segs, s.id = s'.id → s.len = s'.len)
    (hcl : NoClash env w tpath stores segs) (hblk : w.kind ti = .blk → total segs ≤ (w.data ti).length) (h63 : total segs < 2 ^ 63)
    (hO : Obtainable env w tpath ti p stores segs) (hrun : csnMain env (ipath :: tpath :: stores) w = (o, w')) :
    o = .stop .killed ∨ o = .ok true ∧ ∀ s ∈ segs, Matches env.H (w'.data ti) s := by
  have h := run_avail hsc hu hd ht hii hwf hfit heven hcl hblk h63 hO
  cases o with
  | stop s => left; rw [wp_stopped h hrun]
  | ok b =>
    obtain ⟨h1, pre, post, h2⟩ := wp_ok h hrun
    refine Or.inr ⟨by rw [h1], fun s hs => ?_⟩
    have e := h2.split
    rw [List.append_nil] at e
    exact h2.ver trivial s (e ▸ hs) (hfit s hs).1

/-- **C36, the other way round**: when csn can start, chunks have lengths the buffer can hold, neighbouring regions with the same
ID the same length and the target enough room, a run that fails has just been told by the chain that a chunk - the first one
not on the target - is not there or has another length.  A run does not stop otherwise, except by being killed. -/
theorem C36_blame {env : Env} {w w' : World} {ipath tpath : Bytes} {stores : List Bytes} {segs : List Seg} {ti : Nat} {o : Res Bool}
    (hsc : Scene env w ipath tpath stores) (hu : Usable env w ipath tpath stores) (ht : w.dir tpath = some ti) (hd : Describes w ipath segs)
    (hfit : ∀ s ∈ segs, s.len ≠ 0 ∧ s.len ≤ env.bufMax) (hreg : Regular segs) (hblk : w.kind ti = .blk → total segs ≤ (w.data ti).length)
    (h63 : total segs < 2 ^ 63) (hrun : csnMain env (ipath :: tpath :: stores) w = (o, w')) :
    o = .stop .killed ∨ (o = .ok true ∧ ∀ s ∈ segs, Matches env.H (w'.data ti) s) ∨
      o = .ok false ∧ ∃ a s b l n, segs = a ++ s :: b ∧ (∀ x ∈ a, Matches env.H (w'.data ti) x) ∧ w'.log = w.log ++ l ++ [.answer s.id n] ∧ n ≠ some s.len := by
  have h := run_blame hsc hu hd ht hfit hreg hblk h63
  cases o with
  | stop s => left; rw [wp_stopped h hrun]
  | ok b =>
    rcases wp_ok h hrun with ⟨h1, pre, post, h2⟩ | ⟨h1, a, s, b, l, n, h2, h3, h4, h5⟩
    · refine Or.inr (Or.inl ⟨by rw [h1], fun s hs => ?_⟩)
      have e := h2.split
      rw [List.append_nil] at e
      exact h2.ver hreg s (e ▸ hs) (hfit s hs).1
    · exact Or.inr (Or.inr ⟨by rw [h1], a, s, b, l, n, h2, fun x hx => h3 hreg x hx (hfit x (by rw [h2]; simp [hx])).1, h4, h5⟩)

/-- **C36**: if, moreover, the chain returns every chunk it is asked for, with the length the index demands, the run is killed or
ends successfully with every region on the target.  This is about whatever the stores of the chain returned in this run; what
stores have to return is `C36_available_partial`. -/
theorem C36_every_chunk_returned {env : Env} {w w' : World} {ipath tpath : Bytes} {stores : List Bytes} {segs : List Seg} {ti : Nat} {o : Res Bool} {evs : List Event}
    (hsc : Scene env w ipath tpath stores) (hu : Usable env w ipath tpath stores) (ht : w.dir tpath = some ti) (hd : Describes w ipath segs)
    (hfit : ∀ s ∈ segs, s.len ≠ 0 ∧ s.len ≤ env.bufMax) (hreg : Regular segs) (hblk : w.kind ti = .blk → total segs ≤ (w.data ti).length)
    (h63 : total segs < 2 ^ 63) (hrun : csnMain env (ipath :: tpath :: stores) w = (o, w')) (hlog : w'.log = w.log ++ evs)
    (hret : ∀ id n, .answer id n ∈ evs → ∀ s ∈ segs, s.id = id → n = some s.len) :
    o = .stop .killed ∨ o = .ok true ∧ ∀ s ∈ segs, Matches env.H (w'.data ti) s := by
  rcases C36_blame hsc hu ht hd hfit hreg hblk h63 hrun with h | h | ⟨_, a, s, b, l, n, h2, _, h4, h5⟩
  · exact Or.inl h
  · exact Or.inr h
  · rw [hlog, List.append_assoc] at h4
    have := List.append_cancel_left h4
    exact absurd (hret s.id n (by rw [this]; simp) s (by rw [h2]; simp) rfl) h5

/-! A case of C36: a chunk from a local store, one from a server and the first one again. -/

def mixIdx : Bytes := exIdx [exC1, exC3, exC1]

def mixSegs : List Seg := [⟨0, 50, syncEnv.H exC1⟩, ⟨50, 20, syncEnv.H exC3⟩, ⟨70, 50, syncEnv.H exC1⟩]

theorem mixIdx_wf : WellFormed mixIdx 10 20 50 3 := encode_wellFormed ⟨by decide, by decide, by decide, by decide, by decide⟩

/-- A server that has one chunk. -/
def serveC3 (url : Bytes) : CurlRun :=
  if url = chunkUrl (str "http://h") false (syncEnv.H exC3) then ⟨[[0x28, 0xb5, 0x2f, 0xfd] ++ exC3], 0, some 200⟩ else ⟨[], 0, some 404⟩

/-- The network is unreachable at first. -/
def mixWorld : World := { syncWorld mixIdx [] [] manySys with net := [fun _ => ⟨[], 7, none⟩, serveC3, serveC3] }

theorem mix_chunks : Chunking 10 50 15 exFile [exC1, exC2] := by
  refine .cut (n := 50) (cs := [exC2]) ⟨⟨by decide, by decide +kernel, Or.inl (by decide)⟩, ?_⟩ (.last (by decide +kernel) ?_)
  · rintro m hm ⟨h1, _, h2⟩
    have : m = 48 ∨ m = 49 := by omega
    rcases h2 with h2 | ⟨_, h2⟩
    · omega
    · rcases this with rfl | rfl
      · exact absurd h2 (by decide +kernel)
      · exact absurd h2 (by decide +kernel)
  · rintro n ⟨h1, h2, _⟩
    have : (exFile.drop 50).length = 10 := by decide +kernel
    omega

theorem mix_local : LocalArg (str "t") (str "s") (str "s") none := ⟨by decide, by decide, by decide, rfl⟩

theorem mix_base {base : Bytes} {frag : Option Bytes} (h : BaseOf (str "http://h") base frag) : base = str "http://h" ∧ frag = none := by
  obtain ⟨whole, h1, h2⟩ := h
  cases frag with
  | some f =>
    exact absurd (show (0x23 : UInt8) ∈ str "http://h" by rw [h1.1]; simp) (by decide)
  | none =>
    refine ⟨?_, rfl⟩
    rcases h2 with h2 | h2
    · have := congrArg List.getLast? (h1.1.trans h2)
      simp only [List.getLast?_append, List.getLast?_singleton, Option.some_or] at this
      exact absurd this (by decide)
    · rw [← h2.1, h1.1]

theorem mix_key {P : Bytes → Bytes → Prop} {key : Option Bytes} (h : ParamsKey P [] key) : key = none := by
  generalize hx : ([] : Bytes) = x at h
  cases h with
  | empty => rfl
  | last spec k _ _ => exact absurd (congrArg List.length hx) (by simp [str])
  | more spec k rest key _ _ _ => exact absurd (congrArg List.length hx) (by simp)

theorem serve_cases (url : Bytes) : serveC3 url = ⟨[[0x28, 0xb5, 0x2f, 0xfd] ++ exC3], 0, some 200⟩ ∨ serveC3 url = ⟨[], 0, some 404⟩ := by
  unfold serveC3
  split
  · exact Or.inl rfl
  · exact Or.inr rfl

theorem serve_polite (url : Bytes) : Polite 24 (serveC3 url) := by
  rcases serve_cases url with h | h <;> rw [h]
  · exact ⟨rfl, ⟨200, rfl, Or.inl (by decide)⟩, by simp [exC3], by decide⟩
  · exact ⟨rfl, ⟨404, rfl, Or.inr (Or.inl rfl)⟩, by simp, by simp⟩

theorem mix_answers : Answers 24 mixWorld.net (str "http://h") false := by
  refine ⟨?_, ?_, by decide⟩
  · intro g hg id _
    simp only [mixWorld, List.mem_cons, List.not_mem_nil, or_false] at hg
    rcases hg with rfl | rfl | rfl
    · exact Or.inl ⟨rfl, by unfold TransientCode; simp⟩
    · exact Or.inr (serve_polite _)
    · exact Or.inr (serve_polite _)
  · intro id _ a b c e _
    have := congrArg List.length e
    simp [mixWorld] at this
    omega

theorem mix_hosts : Hosts syncEnv mixWorld.net (str "http://h") none ⟨50, 20, syncEnv.H exC3⟩ := by
  refine ⟨exC3, _, _, rfl, by decide, toy_frame exC3, by decide, ?_⟩
  intro g hg hn
  simp only [mixWorld, List.mem_cons, List.not_mem_nil, or_false] at hg
  have hs : serveC3 (chunkUrl (str "http://h") false (syncEnv.H exC3)) = ⟨[[0x28, 0xb5, 0x2f, 0xfd] ++ exC3], 0, some 200⟩ := by
    unfold serveC3
    rw [if_pos rfl]
  rcases hg with rfl | rfl | rfl
  · exact absurd ⟨rfl, by unfold TransientCode; simp⟩ hn
  · simp only [Option.isSome_none, hs]
    exact ⟨trivial, by simp [unmask]⟩
  · simp only [Option.isSome_none, hs]
    exact ⟨trivial, by simp [unmask]⟩

theorem mixScene : Scene syncEnv mixWorld (str "i") (str "t") [str "s", str "http://h"] := by
  have h0 : Scene syncEnv (syncWorld mixIdx [] [] manySys) (str "i") (str "t") [str "s"] := syncWorld_scene mixIdx_wf _ (by simp) (by simp)
  refine ⟨h0.lib, h0.sane, ?_, h0.apart, ?_, fun _ => h0.scan ⟨str "s", by simp, str "s", none, mix_local⟩, by decide⟩
  · intro f hf url x hx
    simp only [mixWorld, List.mem_cons, List.not_mem_nil, or_false] at hf
    rcases hf with rfl | rfl | rfl
    · simp at hx
    · exact ((serve_polite url).frags x hx).2
    · exact ((serve_polite url).frags x hx).2
  · intro arg ha path index hl i hi
    simp only [List.mem_cons, List.not_mem_nil, or_false] at ha
    rcases ha with rfl | rfl
    · exact h0.own _ (by simp) path index hl i hi
    · exact absurd (by decide) hl.2.1

theorem mixUsable : Usable syncEnv mixWorld (str "i") (str "t") [str "s", str "http://h"] where
  clean := show Clean manySys from ⟨by decide +kernel, by decide +kernel⟩
  mem := List.not_mem_nil
  files := by
    intro path i h
    have e1 : exFile.length < 2 ^ 56 := by decide +kernel
    have e2 : mixIdx.length < 2 ^ 56 := by decide +kernel
    simp only [mixWorld, syncWorld] at h ⊢
    split
    · exact e1
    · split
      · exact e2
      · split
        · exact Nat.two_pow_pos 56
        · split <;> exact Nat.two_pow_pos 56
  given := by simp
  kcapi := by decide +kernel
  target := ⟨3, rfl⟩
  index := by
    refine ⟨2, 10, 20, 50, 3, rfl, by simp [mixWorld, syncWorld], mixIdx_wf, by decide, ?_⟩
    intro arg ha path idx hl
    simp only [List.mem_cons, List.not_mem_nil, or_false] at ha
    rcases ha with rfl | rfl
    · obtain ⟨rfl, rfl⟩ := localArg_eq hl mix_local
      refine ⟨⟨1, rfl, by simp [mixWorld, syncWorld], ?_⟩, by intro _ _ _ _ _ _ h; cases h⟩
      show 10 * 20 ≤ 12 * exFile.length
      decide +kernel
    · exact absurd (by decide) hl.2.1
  urls := by
    intro arg ha hh
    simp only [List.mem_cons, List.not_mem_nil, or_false] at ha
    rcases ha with rfl | rfl
    · exact absurd hh.2 (by decide)
    · exact ⟨by decide, str "http://h", none, none, ⟨rfl, by decide⟩, .empty⟩

theorem mix_describes : Describes mixWorld (str "i") mixSegs := by
  refine ⟨2, 10, 20, 50, 3, rfl, mixIdx_wf, ?_⟩
  show mixSegs = delivered 0 (tableEntries mixIdx 3)
  decide +kernel

/-- The hash function of the examples tells the marked chunks apart from everything else. -/
theorem mark_eq {d : Bytes} : (syncEnv.H d = syncEnv.H exC1 → d = exC1) ∧ (syncEnv.H d = syncEnv.H exC3 → d = exC3) := by
  have h1 : syncEnv.H exC1 = UInt8.ofNat 0 :: List.replicate 31 0 := by decide +kernel
  have h3 : syncEnv.H exC3 = UInt8.ofNat 2 :: List.replicate 31 0 := by decide +kernel
  rw [h1, h3]
  show (UInt8.ofNat ([exC1, exC2, exC3].findIdx (· == d)) :: List.replicate 31 0 = _ → _) ∧ (UInt8.ofNat ([exC1, exC2, exC3].findIdx (· == d)) :: List.replicate 31 0 = _ → _)
  simp only [List.findIdx_cons, List.findIdx_nil, List.cons.injEq, and_true]
  by_cases e1 : exC1 = d
  · subst e1
    refine ⟨fun _ => rfl, fun h => ?_⟩
    simp at h
  · have b1 : (exC1 == d) = false := by simpa using e1
    by_cases e2 : exC2 = d
    · have b2 : (exC2 == d) = true := by simpa using e2
      simp [b1, b2]
    · have b2 : (exC2 == d) = false := by simpa using e2
      by_cases e3 : exC3 = d
      · subst e3
        simp [b1, b2]
      · have b3 : (exC3 == d) = false := by simpa using e3
        simp [b1, b2, b3]

theorem mix_obtainable : Obtainable syncEnv mixWorld (str "t") 3 ⟨10, 20, 50⟩ [str "s", str "http://h"] mixSegs := by
  have loc : ∀ o n, Source syncEnv mixWorld (str "t") ⟨10, 20, 50⟩ (str "s") ⟨o, n, syncEnv.H exC1⟩ := fun o n =>
    .scan (str "s") none 1 mix_local (by intro _ _ e; cases e) rfl ⟨15, [exC1, exC2], exC1, by decide, mix_chunks, by simp, rfl⟩
  have web : Source syncEnv mixWorld (str "t") ⟨10, 20, 50⟩ (str "http://h") ⟨50, 20, syncEnv.H exC3⟩ := by
    refine .web 24 ⟨by decide, by decide⟩ (fun base frag key h1 h2 => ?_)
    obtain ⟨rfl, rfl⟩ := mix_base h1
    have := mix_key h2
    subst this
    exact ⟨mix_answers, mix_hosts⟩
  intro a s b e
  right; right
  have hs : s ∈ mixSegs := by rw [e]; simp
  simp only [mixSegs, List.mem_cons, List.not_mem_nil, or_false] at hs
  rcases hs with rfl | rfl | rfl
  · exact ⟨str "s", by simp, loc _ _⟩
  · exact ⟨str "http://h", by simp, web⟩
  · exact ⟨str "s", by simp, loc _ _⟩

/-- All hypotheses of `C36_available_partial` hold here ... -/
example (o : Res Bool) (w' : World) (h : csnMain syncEnv [str "i", str "t", str "s", str "http://h"] mixWorld = (o, w')) :
    o = .stop .killed ∨ o = .ok true ∧ ∀ s ∈ mixSegs, Matches syncEnv.H (w'.data 3) s := by
  refine C36_available_partial (p := ⟨10, 20, 50⟩) mixScene mixUsable rfl (ii := 2) rfl mixIdx_wf mix_describes ?_ ?_ ?_ (by intro e; cases e) (by decide) mix_obtainable h
  · decide
  · decide +kernel
  · intro s hs d _ hd
    simp only [mixSegs, List.mem_cons, List.not_mem_nil, or_false] at hs
    rcases hs with rfl | rfl | rfl
    · rw [mark_eq.1 hd]; decide +kernel
    · rw [mark_eq.2 hd]; decide
    · rw [mark_eq.1 hd]; decide +kernel

/-- ... and the run is not killed. -/
example : (csnMain syncEnv [str "i", str "t", str "s", str "http://h"] mixWorld).1 = .ok true ∧
    (csnMain syncEnv [str "i", str "t", str "s", str "http://h"] mixWorld).2.data 3 = exC1 ++ exC3 ++ exC1 := ⟨by decide +kernel, by decide +kernel⟩

/-- The hypotheses of `C36_blame` hold as well, and for `C36_every_chunk_returned` these are the answers. -/
example (o : Res Bool) (w' : World) (evs : List Event) (h : csnMain syncEnv [str "i", str "t", str "s", str "http://h"] mixWorld = (o, w'))
    (hlog : w'.log = mixWorld.log ++ evs) (hret : ∀ id n, .answer id n ∈ evs → ∀ s ∈ mixSegs, s.id = id → n = some s.len) :
    o = .stop .killed ∨ o = .ok true ∧ ∀ s ∈ mixSegs, Matches syncEnv.H (w'.data 3) s :=
  C36_every_chunk_returned mixScene mixUsable rfl mix_describes (by decide) (regular_of_even (by decide +kernel)) (by intro e; cases e) (by decide) h hlog hret

def answeredIn : List Event → List (Id × Option Nat)
  | [] => []
  | .answer id n :: r => (id, n) :: answeredIn r
  | _ :: r => answeredIn r

example : answeredIn (csnMain syncEnv [str "i", str "t", str "s", str "http://h"] mixWorld).2.log =
    [(syncEnv.H exC1, some 50), (syncEnv.H exC3, some 20), (syncEnv.H exC1, some 50)] := by decide +kernel

/-- Without the server the run fails at the second region. -/
example : let r := csnMain syncEnv [str "i", str "t", str "s"] { mixWorld with net := [] }
    r.1 = .ok false ∧ r.2.data 3 = exC1 ∧ r.2.log.getLast? = some (.answer (syncEnv.H exC3) (some 0)) := ⟨by decide +kernel, by decide +kernel, by decide +kernel⟩

/-! Another case: two chunks that scanning the store's file would not find, but that the index beside it lists. -/

def sideFile : Bytes := exC3 ++ exC1

def sideIdx : Bytes := exIdx [exC1, exC3]

theorem sideIdx_wf : WellFormed sideIdx 10 20 50 2 := encode_wellFormed ⟨by decide, by decide, by decide, by decide, by decide⟩

def sideCar : Bytes := exIdx [exC3, exC1]

theorem sideCar_wf : WellFormed sideCar 10 20 50 2 := encode_wellFormed ⟨by decide, by decide, by decide, by decide, by decide⟩

def sideWorld : World := { syncWorld sideIdx [] sideCar manySys with data := fun i => if i = 1 then sideFile else (syncWorld sideIdx [] sideCar manySys).data i }

def sideSegs : List Seg := [⟨0, 50, syncEnv.H exC1⟩, ⟨50, 20, syncEnv.H exC3⟩]

theorem side_local : LocalArg (str "t") (str "s:b") (str "s") (some (str "b")) := ⟨by decide, by decide, by decide, by decide⟩

theorem sideScene : Scene syncEnv sideWorld (str "i") (str "t") [str "s:b"] := by
  have h0 : Scene syncEnv (syncWorld sideIdx [] sideCar manySys) (str "i") (str "t") [str "s:b"] := syncWorld_scene sideIdx_wf _ (by simp) (by simp)
  refine ⟨h0.lib, h0.sane, h0.short, h0.apart, h0.own, fun h i p n hi hw => ?_, h0.few⟩
  have e : sideWorld.dir (str "i") = some 2 := rfl
  rw [e] at hi
  cases hi
  exact h0.scan h 2 p n rfl hw

theorem sideUsable : Usable syncEnv sideWorld (str "i") (str "t") [str "s:b"] where
  clean := show Clean manySys from ⟨by decide +kernel, by decide +kernel⟩
  mem := List.not_mem_nil
  files := by
    intro path i h
    have e0 : sideFile.length < 2 ^ 56 := by decide +kernel
    have e1 : exFile.length < 2 ^ 56 := by decide +kernel
    have e2 : sideIdx.length < 2 ^ 56 := by decide +kernel
    have e3 : sideCar.length < 2 ^ 56 := by decide +kernel
    simp only [sideWorld, syncWorld] at h ⊢
    split
    · exact e0
    · split
      · exact e2
      · split
        · exact Nat.two_pow_pos 56
        · split
          · exact e3
          · exact Nat.two_pow_pos 56
  given := by simp
  kcapi := by decide +kernel
  target := ⟨3, rfl⟩
  index := by
    refine ⟨2, 10, 20, 50, 2, rfl, by simp [sideWorld, syncWorld], sideIdx_wf, by decide, ?_⟩
    intro arg ha path idx hl
    simp only [List.mem_cons, List.not_mem_nil, or_false] at ha
    subst ha
    obtain ⟨rfl, rfl⟩ := localArg_eq hl side_local
    refine ⟨⟨1, rfl, by simp [sideWorld, syncWorld], ?_⟩, ?_⟩
    · show 10 * 20 ≤ 12 * sideFile.length
      decide +kernel
    · intro ip i mi av ma n e hi hw
      cases e
      have e : sideWorld.dir (str "b") = some 4 := rfl
      rw [e] at hi
      cases hi
      obtain ⟨_, _, _, rfl⟩ := wellFormed_unique hw sideCar_wf
      refine ⟨by decide, ?_⟩
      show ∀ s ∈ delivered 0 (tableEntries sideCar 2), s.len ≠ 0
      decide +kernel
  urls := by
    intro arg ha hh
    simp only [List.mem_cons, List.not_mem_nil, or_false] at ha
    subst ha
    exact absurd hh.2 (by decide)

theorem side_describes : Describes sideWorld (str "i") sideSegs := by
  refine ⟨2, 10, 20, 50, 2, rfl, sideIdx_wf, ?_⟩
  show sideSegs = delivered 0 (tableEntries sideIdx 2)
  decide +kernel

theorem side_source {o n : Nat} {id : Id} (h : id = syncEnv.H exC1 ∨ id = syncEnv.H exC3) : Source syncEnv sideWorld (str "t") ⟨10, 20, 50⟩ (str "s:b") ⟨o, n, id⟩ := by
  refine .listed (str "s") (str "b") 1 (delivered 0 (tableEntries sideCar 2)) side_local
    ⟨4, 2, rfl, by simp [sideWorld, syncWorld], sideCar_wf, rfl⟩ rfl ?_ ?_ (Or.inl ?_)
  · show ∀ y ∈ delivered 0 (tableEntries sideCar 2), y.off + y.len ≤ sideFile.length ∧ y.len ≤ syncEnv.bufMax
    decide +kernel
  · rcases h with rfl | rfl
    · show ∃ x ∈ delivered 0 (tableEntries sideCar 2), x.id = syncEnv.H exC1
      decide +kernel
    · show ∃ x ∈ delivered 0 (tableEntries sideCar 2), x.id = syncEnv.H exC3
      decide +kernel
  · show ∀ y ∈ delivered 0 (tableEntries sideCar 2), (slice sideFile y.off y.len).length = y.len ∧ syncEnv.H (slice sideFile y.off y.len) = y.id
    decide +kernel

/-- All hypotheses of `C36_available_partial` hold here ... -/
example (o : Res Bool) (w' : World) (h : csnMain syncEnv [str "i", str "t", str "s:b"] sideWorld = (o, w')) :
    o = .stop .killed ∨ o = .ok true ∧ ∀ s ∈ sideSegs, Matches syncEnv.H (w'.data 3) s := by
  refine C36_available_partial (p := ⟨10, 20, 50⟩) sideScene sideUsable rfl (ii := 2) rfl sideIdx_wf side_describes ?_ ?_ ?_ (by intro e; cases e) (by decide) ?_ h
  · decide
  · decide +kernel
  · intro s hs d _ hd
    simp only [sideSegs, List.mem_cons, List.not_mem_nil, or_false] at hs
    rcases hs with rfl | rfl
    · rw [mark_eq.1 hd]; decide +kernel
    · rw [mark_eq.2 hd]; decide
  · intro a s b e
    right; right
    have hs : s ∈ sideSegs := by rw [e]; simp
    simp only [sideSegs, List.mem_cons, List.not_mem_nil, or_false] at hs
    refine ⟨str "s:b", by simp, ?_⟩
    rcases hs with rfl | rfl
    · exact side_source (Or.inl rfl)
    · exact side_source (Or.inr rfl)

/-- ... and the run is not killed; without the index beside the store's file it would fail. -/
example : (csnMain syncEnv [str "i", str "t", str "s:b"] sideWorld).1 = .ok true ∧
    (csnMain syncEnv [str "i", str "t", str "s:b"] sideWorld).2.data 3 = exC1 ++ exC3 ∧
    (csnMain syncEnv [str "i", str "t", str "s"] sideWorld).1 = .ok false := ⟨by decide +kernel, by decide +kernel, by decide +kernel⟩

end Csn.Props
