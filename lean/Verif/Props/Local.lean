import Verif.Proof.LocalNew
import Verif.Props.Caibx
/-
C15 .. C18, C57: local stores.
-/
namespace Csn.Props
open Csn Spec Proof

/-- What a user of a store gets for one ID. -/
inductive Answer where
  | data (d : Bytes)
  | notFound
  | failed
  deriving DecidableEq, Repr

/-- Interpretation of a return value together with the output buffer. -/
def answer (r : Option Nat) (out : Bytes) : Answer :=
  match r with
  | none => .failed
  | some 0 => .notFound
  | some n => .data (out.take n)

/-- Ask a local store for a list of IDs, reusing one buffer, until it fails (a failed store is not
asked again, C14). -/
def askAll (env : LEnv) : Loc → Bytes → List Id → M (List (Id × Answer) × Loc)
  | l, _, [] => pure ([], l)
  | l, out, id :: ids => do
    let (r, l, out) ← localGet env 2 l id out
    match r with
    | none => return ([(id, .failed)], l)
    | some n => do
      let (as, l) ← askAll env l out ids
      return ((id, answer (some n) out) :: as, l)

/-- The life of a local store: creation and a sequence of lookups.  `none`: creation failed. -/
def session (env : LEnv) (path : Bytes) (index : Option Bytes) (p : Params) (out : Bytes) (ids : List Id) :
    M (Option (List (Id × Answer) × Loc)) := do
  match ← localNew env path index p with
  | none => return none
  | some l => do
    let r ← askAll env l out ids
    return some r

/-- How often file `ino` was scanned, according to the log. -/
def scans (log : List Event) : Nat := (log.filter (fun e => match e with | .scan _ => true | _ => false)).length

theorem scans_append (a b : List Event) : scans (a ++ b) = scans a + scans b := by simp [scans]

/-! ### C16 -/

/-- Answers whose data hashes to the ID, is not empty and fits the buffer. -/
def SoundAnswers (H : Bytes → Id) (max : Nat) (as : List (Id × Answer)) : Prop :=
  ∀ id d, (id, Answer.data d) ∈ as → H d = id ∧ d ≠ [] ∧ d.length ≤ max

theorem askAll_sound {env : LEnv} (hlib : env.lib.Conforms) {f : Bytes} {d : Nat} (ids : List Id) :
    ∀ (l : Loc) (out : Bytes) (w : World), ScanEnv env.disc env.bufsiz l.p d → LocLive env f l → w.data l.ino = f →
    wp (askAll env l out ids)
      (fun r w' => SoundAnswers env.H out.length r.1 ∧ w'.data = w.data)
      (fun s w' => (s = .killed ∨ s = .abort ∧ chunkEstimate l.p f.length = 0) ∧ w'.data = w.data) w := by
  induction ids with
  | nil =>
    intro l out w he hl hf
    exact wp_pure ⟨by intro id d h; simp at h, rfl⟩
  | cons id ids ih =>
    intro l out w he hl hf
    unfold askAll
    refine wp_bind (wp_mono (wp_localGet hlib he hl (fuel := 0) hf) ?_ ?_)
    · intro res w1 h
      obtain ⟨r, l1, out1⟩ := res
      obtain ⟨hres, hq⟩ := h
      have hd : w1.data = w.data := by rcases hq with h | ⟨h, _⟩ <;> exact h.data
      have hino := hres.ino
      have hpar := hres.par
      have hlen := hres.len
      simp only at hino hpar hlen ⊢
      cases r with
      | none => exact wp_pure ⟨by intro id' d h; simp at h, hd⟩
      | some n =>
        simp only
        obtain ⟨h1, h2, h3⟩ := hres.live n rfl
        refine wp_bind (wp_mono (ih l1 out1 w1 (by rw [hpar]; exact he) h1 (by rw [hino, hd]; exact hf)) ?_ ?_)
        · intro x w2 hx
          refine wp_pure ⟨?_, by rw [hx.2, hd]⟩
          intro id' d' hin
          rcases List.mem_cons.1 hin with hin | hin
          · simp only [Prod.mk.injEq] at hin
            obtain ⟨e1, e2⟩ := hin
            subst e1
            unfold answer at e2
            cases n with
            | zero => simp at e2
            | succ n =>
              simp only [Answer.data.injEq] at e2
              subst e2
              have := (h3 (by omega)).1
              simp only at this
              refine ⟨this, ?_, ?_⟩
              · intro e
                have := congrArg List.length e
                simp only [List.length_take, List.length_nil] at this
                omega
              · simp only [List.length_take]; omega
          · have := hx.1 id' d' hin
            rw [hlen] at this; exact this
        · intro s w2 hx
          rw [hpar] at hx
          exact ⟨hx.1, by rw [hx.2, hd]⟩
    · intro s w1 h
      refine ⟨h.1, ?_⟩
      rcases h.2 with h | h <;> exact h.data

/-- **C16**: whatever bytes the side-loaded index contains (and also without one), all data a local
store ever returns hashes to the ID it was asked for, is not empty and fits the buffer; no file is
modified, in any outcome. -/
theorem C16_local_data_hashes_to_id (env : LEnv) (hlib : env.lib.Conforms) (path : Bytes) (index : Option Bytes)
    (p : Params) {d : Nat} (he : ScanEnv env.disc env.bufsiz p d) (out : Bytes) (ids : List Id) (w : World) :
    (∀ as l w', session env path index p out ids w = (.ok (some (as, l)), w') →
      ∀ id dat, (id, Answer.data dat) ∈ as → env.H dat = id ∧ dat ≠ [] ∧ dat.length ≤ out.length) ∧
    (session env path index p out ids w).2.data = w.data := by
  have key : wp (session env path index p out ids)
      (fun r w' => (∀ x, r = some x → SoundAnswers env.H out.length x.1) ∧ w'.data = w.data)
      (fun _ w' => w'.data = w.data) w := by
    unfold session
    refine wp_bind (wp_mono (wp_localNew he w) ?_ ?_)
    · intro r w1 h
      have hd : w1.data = w.data := by rcases h.1 with h | ⟨_, _, h, _⟩ <;> exact h.data
      cases r with
      | none => exact wp_pure ⟨by simp, hd⟩
      | some l =>
        obtain ⟨h1, h2, h3, _⟩ := h.2.1 l rfl
        simp only
        subst h2
        refine wp_bind (wp_mono (askAll_sound hlib ids l out w1 he h3 (by rw [hd])) ?_ ?_)
        · intro x w2 hx
          exact wp_pure ⟨by intro y hy; injection hy with hy; subst hy; exact hx.1, by rw [hx.2, hd]⟩
        · intro s w2 hx
          rw [hx.2, hd]
    · intro s w1 h
      rcases h.1 with h | ⟨_, _, h⟩ <;> exact h.data
  constructor
  · intro as l w' e
    exact (wp_ok key e).1 _ rfl
  · unfold wp at key
    split at key
    · next e => rw [e]; exact key.2
    · next e => rw [e]; exact key

/-! ### C18 -/

theorem wp_localGet_allValid {env : LEnv} (hlib : env.lib.Conforms) {l : Loc} {f : Bytes}
    (hl : LocLive env f l) (hv : AllValid l) {fuel : Nat} {id : Id} {out : Bytes} {w : World}
    (hf : w.data l.ino = f) :
    wp (localGet env (fuel + 1) l id out)
      (fun res w' => AllValid res.2.1 ∧ Quiet w w' []) (fun s w' => s = .killed ∧ Quiet w w' []) w := by
  obtain ⟨idx, h1, h2, h3⟩ := hl
  obtain ⟨idx', h1', hv⟩ := hv
  rw [h1] at h1'
  injection h1' with e
  subst e
  apply wp_localGet_valid hlib h1 h2 (fun e he => ⟨h3 e he, hv e he⟩) hf
  · intro idx' _ hp _; exact ⟨⟨idx', rfl, fun e he => hv e (hp.mem_iff.1 he)⟩, Quiet.refl w⟩
  · intro idx' e r _ hp _ _ _ _ hr _ _
    exact ⟨⟨idx', rfl, fun e he => hv e (hp.mem_iff.1 he)⟩, Quiet.ofSys hr.1⟩
  · intro idx' e r k _ hp _ _ hr _ _
    exact ⟨⟨idx', rfl, fun e he => hv e (hp.mem_iff.1 he)⟩, Quiet.ofSys hr⟩
  · intro e _ _ _ _; exact ⟨rfl, Quiet.ofSys List.nil_suffix⟩

/-- The number of scans since log `l0` is at most 1, and after a scan everything is validated. -/
theorem askAll_scans {env : LEnv} (hlib : env.lib.Conforms) {f : Bytes} {d : Nat} (ids : List Id) :
    ∀ (l : Loc) (out : Bytes) (w : World) (k : Nat), ScanEnv env.disc env.bufsiz l.p d → LocLive env f l →
    w.data l.ino = f → scans w.log ≤ k + 1 → (scans w.log ≤ k ∨ AllValid l) →
    wp (askAll env l out ids) (fun _ w' => scans w'.log ≤ k + 1)
      (fun s w' => (s = .killed ∨ s = .abort) ∧ scans w'.log ≤ k + 1) w := by
  induction ids with
  | nil => intro l out w k _ _ _ h _; exact wp_pure h
  | cons id ids ih =>
    intro l out w k he hl hf hs hcase
    unfold askAll
    have hget : wp (localGet env 2 l id out) (fun res w1 => LocRes env f l id out res ∧ w1.data = w.data ∧
        scans w1.log ≤ k + 1 ∧ (res.1 ≠ none → scans w1.log ≤ k ∨ AllValid res.2.1))
        (fun s w1 => (s = .killed ∨ s = .abort) ∧ scans w1.log ≤ k + 1) w := by
      have g := wp_localGet hlib he hl (fuel := 0) (id := id) (out := out) hf
      rcases hcase with hcase | hcase
      · refine wp_mono g ?_ ?_
        · intro res w1 h
          rcases h.2 with q | ⟨q, hv⟩
          · refine ⟨h.1, q.data, ?_, fun _ => Or.inl ?_⟩ <;>
            · rw [q.log]; simp [scans] at *; omega
          · refine ⟨h.1, q.data, ?_, fun hr => Or.inr (hv hr)⟩
            rw [q.log, scans_append]; simp [scans] at *; omega
        · intro s w1 h
          refine ⟨by rcases h.1 with h | h; exact Or.inl h; exact Or.inr h.1, ?_⟩
          rcases h.2 with q | q
          · rw [q.log]; simp [scans] at *; omega
          · rw [q.log, scans_append]; simp [scans] at *; omega
      · refine wp_mono (wp_and g (wp_localGet_allValid hlib hl hcase (fuel := 1) (id := id) (out := out) hf)) ?_ ?_
        · intro res w1 h
          have q := h.2.2
          exact ⟨h.1.1, q.data, by rw [q.log]; simpa using hs, fun _ => Or.inr h.2.1⟩
        · intro s w1 h
          exact ⟨Or.inl h.2.1, by rw [h.2.2.log]; simpa using hs⟩
    refine wp_bind (wp_mono hget ?_ (fun s w1 h => h))
    intro res w1 h
    obtain ⟨r, l1, out1⟩ := res
    obtain ⟨hres, hd, hs1, hv1⟩ := h
    have hino := hres.ino
    have hpar := hres.par
    simp only at hino hpar ⊢
    cases r with
    | none => exact wp_pure hs1
    | some n =>
      simp only
      obtain ⟨h1, _, _⟩ := hres.live n rfl
      refine wp_bind (wp_mono (ih l1 out1 w1 k (by rw [hpar]; exact he) h1 (by rw [hino, hd]; exact hf) hs1
        (hv1 (by simp))) ?_ (fun s w2 h => h))
      intro x w2 hx
      exact wp_pure hx

/-- **C18**: one lookup in a local store (in any state `LocLive` describes; every store ever created
is in such a state, see `C18_store_scanned_at_most_once`) ends by itself with an answer, or is
killed, or trips the assertion of C57; it never needs a third pass (`diverge`), never has undefined
behaviour, and scans the store's file at most once. -/
theorem C18_lookup_ends_with_at_most_one_rescan (env : LEnv) (hlib : env.lib.Conforms) (l : Loc) {d : Nat}
    (he : ScanEnv env.disc env.bufsiz l.p d) (w : World) (hl : LocLive env (w.data l.ino) l) (id : Id) (out : Bytes) :
    ((∃ r w', localGet env 2 l id out w = (.ok r, w')) ∨
     (∃ w', localGet env 2 l id out w = (.stop .killed, w')) ∨
     (∃ w', localGet env 2 l id out w = (.stop .abort, w') ∧ chunkEstimate l.p (w.data l.ino).length = 0)) ∧
    scans (localGet env 2 l id out w).2.log ≤ scans w.log + 1 := by
  have g := wp_localGet hlib he hl (fuel := 0) (id := id) (out := out) (w := w) rfl
  unfold wp at g
  split at g
  · next a w' e =>
    rw [e]
    refine ⟨Or.inl ⟨a, w', rfl⟩, ?_⟩
    rcases g.2 with q | ⟨q, _⟩
    · simp [q.log]
    · simp only; rw [q.log, scans_append]; simp [scans]
  · next s w' e =>
    rw [e]
    refine ⟨?_, ?_⟩
    · rcases g.1 with h | ⟨h, h'⟩
      · subst h; exact Or.inr (Or.inl ⟨w', rfl⟩)
      · subst h; exact Or.inr (Or.inr ⟨w', rfl, h'⟩)
    · rcases g.2 with q | q
      · simp [q.log]
      · simp only; rw [q.log, scans_append]; simp [scans]

/-- **C18**: over its whole life, from creation through any sequence of lookups, a local store scans
its file at most once, with or without a side-loaded index, in every outcome; and the run never
diverges or has undefined behaviour. -/
theorem C18_store_scanned_at_most_once (env : LEnv) (hlib : env.lib.Conforms) (path : Bytes) (index : Option Bytes)
    (p : Params) {d : Nat} (he : ScanEnv env.disc env.bufsiz p d) (out : Bytes) (ids : List Id) (w : World) :
    scans (session env path index p out ids w).2.log ≤ scans w.log + 1 ∧
    (session env path index p out ids w).1 ≠ .stop .diverge ∧ (session env path index p out ids w).1 ≠ .stop .ub := by
  have key : wp (session env path index p out ids) (fun _ w' => scans w'.log ≤ scans w.log + 1)
      (fun s w' => (s = .killed ∨ s = .abort) ∧ scans w'.log ≤ scans w.log + 1) w := by
    unfold session
    refine wp_bind (wp_mono (wp_localNew he w) ?_ ?_)
    · intro r w1 h
      have hd : w1.data = w.data := by rcases h.1 with h | ⟨_, _, h, _⟩ <;> exact h.data
      have hs : scans w1.log ≤ scans w.log + 1 := by
        rcases h.1 with q | ⟨_, _, q, _⟩
        · rw [q.log]; simp
        · rw [q.log, scans_append]; simp [scans]
      cases r with
      | none => exact wp_pure hs
      | some l =>
        obtain ⟨h1, h2, h3, _⟩ := h.2.1 l rfl
        subst h2
        simp only
        refine wp_bind (wp_mono (askAll_scans hlib ids l out w1 (scans w.log) he h3 (by rw [hd]) hs ?_) ?_
          (fun s w2 h => h))
        · rcases h.1 with q | ⟨_, _, _, hv⟩
          · left; rw [q.log]; simp
          · right; exact hv l rfl
        · intro x w2 hx; exact wp_pure hx
    · intro s w1 h
      refine ⟨by rcases h.2 with h | h; exact Or.inl h.1; exact Or.inr h.1, ?_⟩
      rcases h.1 with q | ⟨_, _, q⟩
      · rw [q.log]; simp
      · rw [q.log, scans_append]; simp [scans]
  unfold wp at key
  split at key
  · next e => rw [e]; exact ⟨key, by simp, by simp⟩
  · next s w' e =>
    rw [e]
    refine ⟨key.2, ?_, ?_⟩ <;> · rcases key.1 with h | h <;> simp [h]

end Csn.Props
