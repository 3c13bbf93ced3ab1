import Verif.Props.Defined
import Verif.Props.SyncEx
import Verif.Proof.RoomTarget
import Verif.Proof.Casync
/-
C95: whole runs with the discriminator as it is computed.
-/
namespace Csn.Props
open Csn Spec Proof

attribute [local irreducible] Double.one unit Double.roundD Double.disc Double.discFused Double.k1 Double.k2 discOf

/-- What a well-formed index file has are accepted parameters. -/
theorem wellFormed_params {f : Bytes} {p : Params} {n : Nat} (h : WellFormed f p.min p.avg p.max n) : paramsSet p.min p.avg p.max = some p := by
  obtain ⟨h1, h2, h3⟩ := h.mono
  unfold paramsSet
  rw [if_neg (by simp; omega), if_neg (by simp; omega)]

/-- C95: with average sizes between 2 and 9324556 the condition about the discriminator in the claims about runs is met by the formula as it is computed. -/
theorem C95_scene (fused : Bool) {env : Env} {w : World} {ipath tpath : Bytes} {stores : List Bytes}
    (hdisc : env.disc = fun a => if fused then Double.discFused a else Double.disc a) (hb : 0 < env.bufsiz)
    (hav : ∀ i mi av ma n, w.dir ipath = some i → WellFormed (w.data i) mi av ma n → 2 ≤ av ∧ av ≤ 9324556)
    (lib : env.lib.Conforms) (sane : Sane env) (short : ShortFrags w.net) (apart : ∀ i, w.dir ipath = some i → w.dir tpath ≠ some i)
    (own : ∀ arg ∈ stores, ∀ path index, LocalArg tpath arg path index → ∀ i, w.dir path = some i → w.dir tpath ≠ some i)
    (few : stores.length < 2 ^ 57) : Scene env w ipath tpath stores where
  lib := lib
  sane := sane
  short := short
  apart := apart
  own := own
  few := few
  scan := fun _ i p n hi hwf => by
    rw [hdisc]
    exact (C95_usable fused env.bufsiz p (wellFormed_params hwf) hb).2 (hav i _ _ _ n hi hwf)

theorem yields_storeScan_none {env : LEnv} {l : Loc} (hd : env.disc l.p.avg = none) : Yields (storeScan env l) (fun r => r.1 = false) := by
  unfold storeScan
  refine Yields.any (fun _ => Yields.any (fun a => ?_))
  cases a with
  | none => exact Yields.pure' rfl
  | some size =>
    refine Yields.any (fun a => ?_)
    cases a with
    | none => exact Yields.pure' rfl
    | some idx =>
      refine Yields.bind' (P := fun _ => False) (fun w => ?_) (fun _ h => h.elim)
      unfold wp scanInto scanFd
      simp only [hd]

theorem yields_localNew_none {env : LEnv} {path : Bytes} {p : Params} (hd : env.disc p.avg = none) : Yields (localNew env path none p) (fun r => r = none) := by
  unfold localNew
  refine Yields.any (fun a => Yields.ite (Yields.pure' rfl) (Yields.any (fun a => ?_)))
  cases a with
  | none => exact Yields.pure' rfl
  | some ino =>
    refine Yields.bind' (yields_storeScan_none (l := ⟨ino, .null, p⟩) hd) (fun r hr => ?_)
    obtain ⟨ok, l⟩ := r
    cases hr
    exact Yields.pure' rfl

theorem yields_makeStore_none {env : Env} {tpath arg path : Bytes} {n : Nat} {p : Params} {t : Tgt} (hd : env.disc p.avg = none)
    (ha : LocalArg tpath arg path none) : Yields (makeStore env tpath n p t arg) (fun r => r = none) := by
  obtain ⟨h1, h2, h3, h4⟩ := ha
  dsimp only at h4
  subst h4
  have hs : streq arg tpath = false := by
    unfold streq
    simpa using h1
  have hh : startswith arg (str "http") = false := by
    cases h : startswith arg (str "http") with
    | false => rfl
    | true => exact absurd ((startswith_prefix _ _).1 h) h2
  have ht : arg.takeWhile (· != 0x3a) = arg := takeWhile_all _ _ h3
  unfold makeStore
  rw [hs, hh]
  simp only [Bool.false_eq_true, if_false, ht, Nat.lt_irrefl]
  refine Yields.bind' (yields_localNew_none (env := env.toLEnv) hd) (fun r hr => ?_)
  subst hr
  exact Yields.pure' rfl

theorem yields_appendAll_none {env : Env} {tpath arg path : Bytes} {n : Nat} {p : Params} (hd : env.disc p.avg = none)
    (ha : LocalArg tpath arg path none) : ∀ (stores : List Bytes) (t : Tgt) (c : Chain Store), arg ∈ stores →
      Yields (appendAll env tpath n p t c stores) (fun r => r.1 = false)
  | [], _, _, h => by cases h
  | a :: as, t, c, h => by
    unfold appendAll
    by_cases he : a = arg
    · subst he
      refine Yields.bind' (P := fun r => r.1 = false) ?_ (fun r hr => ?_)
      · unfold appendStore
        refine Yields.bind' (yields_makeStore_none hd ha) (fun r hr => ?_)
        subst hr
        exact Yields.pure' rfl
      · obtain ⟨ok, t', c'⟩ := r
        cases hr
        exact Yields.pure' rfl
    · refine Yields.any (fun r => ?_)
      obtain ⟨ok, t', c'⟩ := r
      cases ok with
      | false => exact Yields.pure' rfl
      | true =>
        refine yields_appendAll_none hd ha as t' c' ?_
        rcases List.mem_cons.1 h with h | h
        · exact absurd h.symm he
        · exact h

/-- C95: with an index whose average size is above 9324556 csn never succeeds if a local store is given without an index of its own. -/
theorem C95_no_scan (fused : Bool) {env : Env} {w w' : World} {ipath tpath arg path : Bytes} {stores : List Bytes} {o : Res Bool}
    (hdisc : env.disc = fun a => if fused then Double.discFused a else Double.disc a)
    (hav : ∀ i mi av ma n, w.dir ipath = some i → WellFormed (w.data i) mi av ma n → 9324556 < av)
    (hmem : arg ∈ stores) (ha : LocalArg tpath arg path none)
    (hrun : csnMain env (ipath :: tpath :: stores) w = (o, w')) : o ≠ .ok true := by
  have hcsn : wp (csn env (ipath :: tpath :: stores)) (fun r _ => r = none) (fun _ _ => True) w := by
    cases stores with
    | nil => cases hmem
    | cons s ss =>
      unfold csn
      dsimp only
      split
      · exact wp_pure rfl
      · refine wp_bind (wp_mono (Q := fun r _ => ∀ i p n t, r = some (i, p, n, t) → env.disc p.avg = none) (S := fun _ _ => True) ?_ ?_ (fun _ _ h => h))
        · unfold openBoth
          refine wp_bind (wp_openPath ?_ ?_ ?_)
          · intro r1 _
            cases hd : w.dir ipath with
            | none => exact wp_pure (by simp)
            | some ino =>
              refine wp_bind (wp_caibxLoadHeader ?_ ?_ ?_)
              · intro r2 p n _ _ hwf
                have hlt := hav ino _ _ _ n hd hwf
                have hnone : env.disc p.avg = none := by
                  have h32 := hwf.mono
                  have := C95_value fused p.avg (by omega)
                  rw [if_neg (by omega)] at this
                  rw [hdisc]
                  exact this
                refine wp_bind (wp_true _ (fun a w3 => ?_))
                cases a with
                | none => exact wp_pure (by simp)
                | some t =>
                  refine wp_pure ?_
                  rintro i p' n' t' e
                  cases e
                  exact hnone
              · intro r _ _
                exact wp_pure (by simp)
              · intro _; trivial
          · intro r _ _
            exact wp_pure (by simp)
          · intro _; trivial
        · intro a w2 hq
          cases a with
          | none => exact wp_pure rfl
          | some x =>
            obtain ⟨iino, p, n, t⟩ := x
            refine wp_bind (wp_true _ (fun a w3 => ?_))
            cases a with
            | none => exact wp_pure rfl
            | some c =>
              refine wp_bind (wp_mono (yields_appendAll_none (hq _ _ _ _ rfl) ha (s :: ss) t c hmem w3) ?_ (fun _ _ h => h))
              rintro ⟨ok, t', c'⟩ w4 h
              cases h
              exact wp_pure rfl
  have hmain : wp (csnMain env (ipath :: tpath :: stores)) (fun r _ => r = false) (fun _ _ => True) w := by
    unfold csnMain
    refine wp_bind (wp_mono hcsn ?_ (fun _ _ h => h))
    intro a w1 h
    subst h
    exact wp_pure rfl
  unfold wp at hmain
  rw [hrun] at hmain
  rintro rfl
  cases hmain

def discEnv : Env := { syncEnv with disc := fun a => if false then Double.discFused a else Double.disc a }

def vastIdx : Bytes := encode 10 9324557 9324558 [(50, syncEnv.H exC1), (10, syncEnv.H exC2)]

/-- With such an index the store can be used if it has an index of its own, but not without. -/
example : WellFormed vastIdx 10 9324557 9324558 2 ∧ LocalArg (str "t") (str "s") (str "s") none ∧
    (csnMain discEnv [str "i", str "t", str "s"] (syncWorld vastIdx (List.replicate 70 9) vastIdx manySys)).1 ≠ .ok true ∧
    (csnMain discEnv [str "i", str "t", str "s:b"] (syncWorld vastIdx (List.replicate 70 9) vastIdx manySys)).1 = .ok true :=
  ⟨encode_wellFormed ⟨by decide, by decide, by decide, by decide, by decide⟩, ⟨by decide, by decide, by decide, rfl⟩, by decide +kernel, by decide +kernel⟩

/-- A run with the average size 20 and the formula as it is computed. -/
example : (csnMain discEnv [str "i", str "t", str "s"] okWorld).1 = .ok true := by decide +kernel

end Csn.Props
