import Verif.Proof.RepAll
/-
C81: failures are reported, and only failures.
-/
namespace Csn.Props
open Csn

/-- The programs with their command lines. -/
inductive Program where
  | main (a : Rep.Args)
  | tool (a : Rep.ToolArgs)
  | patchdd

/-- A run of a program that is given the answers `ans`. -/
def Program.run (p : Program) (ans : List Bool) : Res Bool × Rep.PS :=
  match p with
  | .main a => Rep.main a (atStart ans)
  | .tool a => Rep.tool a (atStart ans)
  | .patchdd => Rep.patchdd (atStart ans)

theorem start_ok (ans : List Bool) : Rep.Ok (atStart ans) :=
  ⟨fun _ h => (nomatch h), fun h => (nomatch h), fun ⟨_, h, _⟩ => (nomatch h)⟩

theorem told_lower {cur : Level} (h : AtLeast .warn cur) {out : List Rep.Line} (ht : ToldAt .warn out) : ToldAt cur out := by
  obtain ⟨l, hl, x, hx, he, a, b, h1, h2⟩ := ht
  refine ⟨l, hl, x, hx, he, ?_⟩
  have hv : x.level = .warn ∨ x.level = .err := by
    simp only [severities] at h1
    rcases a with _ | ⟨a1, _ | ⟨a2, _ | ⟨a3, _ | ⟨a4, a⟩⟩⟩⟩ <;> simp at h1
    obtain ⟨_, _, rfl⟩ := h1
    simpa using h2
  rcases hv with hv | hv
  · rw [hv]; exact h
  · rw [hv]
    obtain ⟨c, d, h3, h4⟩ := h
    refine ⟨c, d, h3, ?_⟩
    simp only [severities] at h3
    rcases c with _ | ⟨a1, _ | ⟨a2, _ | ⟨a3, _ | ⟨a4, a⟩⟩⟩⟩ <;> simp at h3
    · obtain ⟨rfl, rfl⟩ := h3; simp
    · obtain ⟨_, rfl, rfl⟩ := h3; simp
    · obtain ⟨_, _, rfl, rfl⟩ := h3; simp
    · obtain ⟨_, _, _, rfl, rfl⟩ := h3; simp

/-- What a triple says about a run. -/
theorem hoare_run {m : Rep.P Bool} {q : Bool → Rep.PS → Prop} (h : Rep.Hoare Rep.Ok m q) (ans : List Bool) :
    (∀ b, (m (atStart ans)).1 = .ok b → q b (m (atStart ans)).2) ∧
    ((m (atStart ans)).1 = .stop .abort → Rep.Bad (m (atStart ans)).2) ∧
    (∀ e, (m (atStart ans)).1 = .stop e → e ≠ .killed → Rep.Ok (m (atStart ans)).2) := by
  have := h _ (start_ok ans)
  revert this
  rcases m (atStart ans) with ⟨r, s⟩
  cases r with
  | ok a => exact fun h => ⟨fun b hb => (by injection hb with hb; rw [← hb]; exact h), fun h => (nomatch h), fun _ h => (nomatch h)⟩
  | stop e =>
    cases e
    all_goals intro h
    all_goals refine ⟨fun _ h => (nomatch h), fun he => ?_, fun e' he hk => ?_⟩
    all_goals first
      | (cases he; done)
      | exact h
      | exact Rep.bad_ok h
      | (injection he with he; exact absurd he.symm hk)

theorem post_ok {m : Rep.P Bool} (h : Rep.Hoare Rep.Ok m (Rep.post Rep.Fin)) (ans : List Bool) (hk : (m (atStart ans)).1 ≠ .stop .killed) :
    Rep.Ok (m (atStart ans)).2 := by
  have := hoare_run h ans
  cases hr : (m (atStart ans)).1 with
  | ok b =>
    have := this.1 b hr
    cases b
    · exact this.1
    · exact this
  | stop e => exact this.2.2 e hr (fun he => hk (by rw [hr, he]))

theorem program_hoare (p : Program) (hp : p ≠ .tool (.crypt true)) :
    ∃ m : Rep.P Bool, (∀ ans, p.run ans = m (atStart ans)) ∧ Rep.Hoare Rep.Ok m (Rep.post Rep.Fin) := by
  cases p with
  | main a => exact ⟨_, fun _ => rfl, Rep.h_main a⟩
  | tool a => exact ⟨_, fun _ => rfl, Rep.h_tool a (fun h => hp (by rw [h]))⟩
  | patchdd => exact ⟨_, fun _ => rfl, Rep.h_patchdd⟩

/-- **C81** (partial: not for csn-tool reading names from standard input): in every run that is not killed, if something went wrong then a
warning or an error was printed (with any log level but ERR), and if one was printed then something went wrong, or a usage text was printed. -/
theorem C81_reported_partial (p : Program) (hp : p ≠ .tool (.crypt true)) (ans : List Bool) (hk : (p.run ans).1 ≠ .stop .killed) (cur : Level)
    (hc : AtLeast .warn cur) :
    ((p.run ans).2.wrong = true → ToldAt cur (p.run ans).2.out) ∧
    (ToldAt .warn (p.run ans).2.out → (p.run ans).2.wrong = true ∨ Rep.Line.usage ∈ (p.run ans).2.out) := by
  obtain ⟨m, hm, h⟩ := program_hoare p hp
  simp only [hm] at hk ⊢
  have := post_ok h ans hk
  exact ⟨fun hw => told_lower hc (this.2.1 hw), this.2.2⟩

/-- **C81** (unsuccessful ends): a run that exits with EXIT_FAILURE or by an assertion has printed an error (with every log level) or a usage text.
-/
theorem C81_failure (p : Program) (ans : List Bool) (h : (p.run ans).1 = .ok false ∨ (p.run ans).1 = .stop .abort) :
    ToldAt .err (p.run ans).2.out ∨ Rep.Line.usage ∈ (p.run ans).2.out := by
  by_cases hp : p = .tool (.crypt true)
  · subst hp
    have := hoare_run Rep.h_toolList ans
    rcases h with h | h
    · exact (this.1 false h).2
    · exact .inl (this.2.1 h).2
  · obtain ⟨m, hm, hh⟩ := program_hoare p hp
    simp only [hm] at h ⊢
    have := hoare_run hh ans
    rcases h with h | h
    · exact (this.1 false h).2
    · exact .inl (this.2.1 h).2

/-- **C81** (partial, names from standard input): csn-tool has reported all that went wrong if it does not succeed; and a warning or an
error is printed only if something went wrong, or together with the usage text. -/
theorem C81_list_partial (ans : List Bool) (hk : ((Program.tool (.crypt true)).run ans).1 ≠ .stop .killed) (cur : Level) (hc : AtLeast .warn cur) :
    let r := (Program.tool (.crypt true)).run ans
    (r.1 ≠ .ok true → r.2.wrong = true → ToldAt cur r.2.out) ∧ (ToldAt .warn r.2.out → r.2.wrong = true ∨ Rep.Line.usage ∈ r.2.out) := by
  intro r
  have := hoare_run Rep.h_toolList ans
  have key : (r.1 ≠ .ok true → Rep.Ok r.2) ∧ (ToldAt .warn r.2.out → r.2.wrong = true ∨ Rep.Line.usage ∈ r.2.out) := by
    cases hr : r.1 with
    | ok b =>
      have := this.1 b hr
      cases b
      · exact ⟨fun _ => this.1, this.1.2.2⟩
      · exact ⟨fun h => absurd rfl h, this.2⟩
    | stop e =>
      have := this.2.2 e hr (fun he => hk (by rw [← he]; exact hr))
      exact ⟨fun _ => this, this.2.2⟩
  exact ⟨fun h hw => told_lower hc ((key.1 h).2.1 hw), key.2⟩

/-- **C81** refuted as it stands: csn-tool reads its list of names from standard input, a read fails, and it exits with EXIT_SUCCESS without
having printed anything. -/
theorem C81_refuted : ∃ ans, ((Program.tool (.crypt true)).run ans).1 = .ok true ∧ ((Program.tool (.crypt true)).run ans).2.wrong = true ∧
    ((Program.tool (.crypt true)).run ans).2.out = [] :=
  ⟨[true, false, true, true, true, true, false], by decide +kernel⟩

/-- Everything printed is one of the messages in the source or a usage text. -/
theorem C81_known (p : Program) (ans : List Bool) (hk : (p.run ans).1 ≠ .stop .killed) :
    ∀ l ∈ (p.run ans).2.out, l = .usage ∨ ∃ x ∈ logSites, l = .note x.file x.first := by
  by_cases hp : p = .tool (.crypt true)
  · subst hp
    have := hoare_run Rep.h_toolList ans
    cases hr : ((Program.tool (.crypt true)).run ans).1 with
    | ok b =>
      have := this.1 b hr
      cases b
      · exact this.1.1
      · exact this.1
    | stop e => exact (this.2.2 e hr (fun he => hk (by rw [hr, he]))).1
  · obtain ⟨m, hm, h⟩ := program_hoare p hp
    simp only [hm] at hk ⊢
    exact (post_ok h ans hk).1

/-! ### Cases -/

/-- Answers for csn with one HTTP store and one local store, up to the request for the only chunk: all goes well, the target does not have
the chunk. -/
def upToRequest : List Bool :=
  [true, true, true, true, true, true, true, true, true, true, true, true, true, true, true, true, true, true, true, true, true, true, true,
    true, true, true, true, true, true, true, -- index, target, chain
    true, true, true, true, true, true, true, true, true, true, true, true, true, -- HTTP store
    true, true, false, true, true, true, true, true, false, true, true, false, true, -- local store
    true, true, false, true, true, true, true, true, false, false, true, true, true, false, true, true, false, false, true, true, true, true]

/-- The server's data is not the chunk; the local store has it. -/
def badServer : List Bool :=
  upToRequest ++ [true, true, false, true, true, true, false, false, true, true, true, true, true, true, true, true, false]

/-- The server's data is the chunk. -/
def goodServer : List Bool :=
  upToRequest ++ [true, true, false, true, true, true, true, true, true, true, true, true, false]

/-- csn with an HTTP store and a local store. -/
def twoStores : Program := .main (.csn (some [.http, .loc]))

-- the server's data is wrong: the run succeeds, with a warning
example : (twoStores.run badServer).1 = .ok true ∧ (twoStores.run badServer).2.wrong = true ∧
    .note "store-http.c" 370 ∈ (twoStores.run badServer).2.out := by decide +kernel

example : ToldAt .info (twoStores.run badServer).2.out :=
  (C81_reported_partial twoStores (by simp [twoStores]) badServer (by decide +kernel) .info ⟨[.debug], [.warn, .err], rfl, by simp⟩).1 (by decide +kernel)

-- nothing goes wrong: no warning
example : (twoStores.run goodServer).1 = .ok true ∧ (twoStores.run goodServer).2.wrong = false ∧ Rep.Line.usage ∉ (twoStores.run goodServer).2.out := by
  decide +kernel

example : ¬ ToldAt .warn (twoStores.run goodServer).2.out := fun h =>
  ((C81_reported_partial twoStores (by simp [twoStores]) goodServer (by decide +kernel) .info ⟨[.debug], [.warn, .err], rfl, by simp⟩).2 h).elim
    (by decide +kernel) (by decide +kernel)

-- unsuccessful ends: the index cannot be opened; patchdd with a target that is too small; an assertion; a usage text
example : ((Program.main (.csn (some [.loc]))).run [true, true, true, false]).1 = .ok false := by decide +kernel
example : (Program.patchdd.run [true, false, true, true, true, true, true, true, false]).1 = .ok false := by decide +kernel
example : ((Program.main (.csn none)).run [true, false]).1 = .stop .abort := by decide +kernel
example : ((Program.tool .nothing).run [true]).1 = .ok false ∧ ((Program.tool .nothing).run [true]).2.out = [.usage] := by decide +kernel

-- names from standard input: the second name is not that of a chunk
example : ((Program.tool (.crypt true)).run [true, false, true, true, true, true, true, false, true, true, true, false, true, true, true, true, false, false]).1 =
    .ok false := by decide +kernel

end Csn.Props
