import Verif.Model.Sha
/-
C67: descriptors and socket address of the kernel hash interface.
-/
namespace Csn.Props
open Csn

/-- A new descriptor has a number that is not in use. -/
def NewNumbers (e : KEnv) : Prop := ∀ l, e.fresh l ∉ l

/-- A character array of size `n` holds the C string `s`: the string, a NUL byte and nothing but NUL bytes. -/
def HoldsText (a : Bytes) (n : Nat) (s : Bytes) : Prop := a.length = n ∧ s.length < n ∧ ∃ k, a = s ++ 0 :: List.replicate k 0

theorem charArray_holds {n : Nat} {s : Bytes} (h : s.length < n) : HoldsText (charArray n s) n s := by
  refine ⟨by simp [charArray]; omega, h, n - s.length - 1, ?_⟩
  unfold charArray
  rw [List.take_of_length_le (by omega), show n - s.length = (n - s.length - 1) + 1 by omega, List.replicate_succ]
  simp

theorem erase_head {e : KEnv} (he : NewNumbers e) (l : List Nat) : (e.fresh (e.fresh l :: l) :: e.fresh l :: l).erase (e.fresh l) = e.fresh (e.fresh l :: l) :: l := by
  have h := he (e.fresh l :: l)
  simp only [List.mem_cons, not_or] at h
  rw [List.erase_cons_tail (by simpa using h.1), List.erase_cons_head]

theorem init_eq (e : KEnv) (driver : Option Bytes) (st : KFds) : shaKcapiInit e driver st =
    if e.socket = false then (false, none, st)
    else if (driver.getD (str "sha256")).length ≥ 64 then (false, none, st)
    else if e.bind (charArray 14 (str "hash")) (charArray 64 (driver.getD (str "sha256"))) = false then
      (false, some (charArray 14 (str "hash"), charArray 64 (driver.getD (str "sha256"))), st)
    else if e.accept = false then (false, some (charArray 14 (str "hash"), charArray 64 (driver.getD (str "sha256"))), st)
    else (true, some (charArray 14 (str "hash"), charArray 64 (driver.getD (str "sha256"))),
      ⟨(e.fresh (e.fresh st.opened :: st.opened) :: e.fresh st.opened :: st.opened).erase (e.fresh st.opened), some (e.fresh (e.fresh st.opened :: st.opened))⟩) := by
  unfold shaKcapiInit
  cases driver <;> simp

/-- **C67** (failure): a failed `sha_kcapi_init` leaves open exactly the descriptors that were open before, and hashing goes
on as before. -/
theorem C67_failure (e : KEnv) (driver : Option Bytes) (st : KFds) (a : Option (Bytes × Bytes)) (st' : KFds)
    (h : shaKcapiInit e driver st = (false, a, st')) : st' = st := by
  rw [init_eq] at h
  split at h
  · simp at h; exact h.2.symm
  · split at h
    · simp at h; exact h.2.symm
    · split at h
      · simp at h; exact h.2.symm
      · split at h
        · simp at h; exact h.2.symm
        · simp at h

/-- **C67** (success): a successful `sha_kcapi_init` asks the kernel for a hash with the given driver, "sha256" if none is
given, the name being shorter than the field; it leaves one more descriptor open, the one used for hashing. -/
theorem C67_success (e : KEnv) (he : NewNumbers e) (driver : Option Bytes) (st : KFds) (a : Option (Bytes × Bytes)) (st' : KFds)
    (h : shaKcapiInit e driver st = (true, a, st')) :
    ∃ ty name fd, a = some (ty, name) ∧ e.bind ty name = true ∧ HoldsText ty 14 (str "hash") ∧ HoldsText name 64 (driver.getD (str "sha256")) ∧
      fd ∉ st.opened ∧ st' = ⟨fd :: st.opened, some fd⟩ := by
  rw [init_eq] at h
  split at h
  · simp at h
  · split at h
    · simp at h
    · next hlen =>
      split at h
      · simp at h
      · next hb =>
        split at h
        · simp at h
        · simp only [Prod.mk.injEq, true_and] at h
          refine ⟨_, _, e.fresh (e.fresh st.opened :: st.opened), h.1.symm, by simpa using hb, charArray_holds (by decide), charArray_holds (by omega), ?_, ?_⟩
          · have := he (e.fresh st.opened :: st.opened)
            simp only [List.mem_cons, not_or] at this
            exact this.2
          · rw [← h.2, erase_head he]

/-- **C67** (end): `sha_kcapi_deinit` closes that descriptor and only that; without kernel hashing it does nothing. -/
theorem C67_deinit (e : KEnv) (he : NewNumbers e) (driver : Option Bytes) (l : List Nat) (a : Option (Bytes × Bytes)) (ok : Bool) (st' : KFds)
    (h : shaKcapiInit e driver ⟨l, none⟩ = (ok, a, st')) : shaKcapiDeinit st' = ⟨l, none⟩ := by
  cases ok with
  | false => rw [C67_failure e driver _ a st' h]; rfl
  | true =>
    obtain ⟨_, _, fd, _, _, _, _, _, rfl⟩ := C67_success e he driver _ a st' h
    simp [shaKcapiDeinit]

/-- The kernel's side in an example: descriptors are numbered upwards, only "sha256" is known. -/
def someKernel : KEnv :=
  { socket := true, accept := true, bind := fun ty name => ty.take 4 == str "hash" && name.take 7 == str "sha256" ++ [0]
    fresh := fun l => l.foldl max 2 + 1 }

theorem someKernel_new : NewNumbers someKernel := by
  intro l hm
  have key : ∀ (l : List Nat) (a : Nat), a ≤ l.foldl max a ∧ ∀ x ∈ l, x ≤ l.foldl max a := by
    intro l
    induction l with
    | nil => intro a; simp
    | cons y l ih =>
      intro a
      have := ih (max a y)
      simp only [List.foldl_cons, List.mem_cons, forall_eq_or_imp]
      exact ⟨by omega, by omega, this.2⟩
  have := (key l 2).2 _ hm
  simp only [someKernel] at this
  omega

/-- Cases: success with the default, an unknown driver, a name of 64 characters. -/
example : (shaKcapiInit someKernel none ⟨[0, 1, 2], none⟩).1 = true ∧ (shaKcapiInit someKernel none ⟨[0, 1, 2], none⟩).2.2 = ⟨[4, 0, 1, 2], some 4⟩ ∧
    (shaKcapiInit someKernel (some (str "sha256-neon")) ⟨[0, 1, 2], none⟩).1 = false ∧
    (shaKcapiInit someKernel (some (List.replicate 64 0x61)) ⟨[0, 1, 2], none⟩).1 = false := by decide +kernel

/-- Not claimed: a second successful initialisation without `sha_kcapi_deinit` loses the first descriptor. -/
example : (shaKcapiDeinit (shaKcapiInit someKernel none (shaKcapiInit someKernel none ⟨[0, 1, 2], none⟩).2.2).2.2).opened = [4, 0, 1, 2] := by decide +kernel

end Csn.Props
