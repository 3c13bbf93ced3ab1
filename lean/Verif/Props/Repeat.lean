import Verif.Props.SyncEx
/-
C69, C70: comparing and repeating synchronisations.
-/
namespace Csn.Props
open Csn Spec Proof

/-! ### C69 -/

/-- Two files that contain the same verified regions are equal as far as these reach, or two different pieces of them
have the same length and hash. -/
theorem agree_or_collide {H : Bytes → Id} {f g : Bytes} {segs : List Seg} : ∀ (n : Nat) (done rest : List Seg), done.length = n → segs = done ++ rest →
    (∀ a s b, segs = a ++ s :: b → s.off = total a) → (∀ s ∈ segs, Verified H f s) → (∀ s ∈ segs, Verified H g s) →
    f.take (total done) = g.take (total done) ∨ ∃ a b, a <:+: f ∧ b <:+: g ∧ a ≠ b ∧ a.length = b.length ∧ H a = H b
  | 0, done, rest, hn, _, _, _, _ => by
    rw [List.length_eq_zero_iff.1 hn]; simp [total_nil]
  | n + 1, done, rest, hn, he, ho, hf, hg => by
    rcases List.eq_nil_or_concat done with h | ⟨a, s, h⟩
    · rw [h] at hn; simp at hn
    · rw [List.concat_eq_append] at h
      subst h
      have he' : segs = a ++ s :: rest := by rw [he, List.append_assoc]; rfl
      rcases agree_or_collide n a (s :: rest) (by simpa using hn) he' ho hf hg with h1 | h1
      · have hof := ho _ _ _ he'
        have hs : s ∈ segs := by rw [he']; simp
        by_cases hl : s.len = 0
        · left
          rw [total_append, total_cons, total_nil, hl]
          simpa using h1
        · obtain ⟨f1, f2⟩ := hf s hs hl
          obtain ⟨g1, g2⟩ := hg s hs hl
          by_cases heq : slice f s.off s.len = slice g s.off s.len
          · left
            rw [total_append, total_cons, total_nil, Nat.add_zero, List.take_add, List.take_add, h1]
            rw [hof] at heq
            unfold slice at heq
            rw [heq]
          · right
            refine ⟨_, _, ?_, ?_, heq, by rw [f1, g1], by rw [f2, g2]⟩
            · exact (List.take_prefix _ _).isInfix.trans (List.drop_suffix _ _).isInfix
            · exact (List.take_prefix _ _).isInfix.trans (List.drop_suffix _ _).isInfix
      · exact Or.inr h1

/-- What a successful run leaves. -/
theorem success_regions {env : Env} {w w' : World} {ipath tpath : Bytes} {stores : List Bytes} (hsc : Scene env w ipath tpath stores)
    (hrun : csnMain env (ipath :: tpath :: stores) w = (.ok true, w')) {segs : List Seg} (hd : Describes w ipath segs) (hreg : Regular segs) :
    ∃ ti, w.dir tpath = some ti ∧ (∀ s ∈ segs, Verified env.H (w'.data ti) s) ∧ ∀ a s b, segs = a ++ s :: b → s.off = total a := by
  rcases run_cases hsc hrun with ⟨h1, _⟩ | ⟨ti, segs', h1, h2, _, ⟨pre, post, rest, m, d, hs, h3⟩, _⟩
  · exact absurd rfl h1
  · rw [← Describes.unique hd h2] at hs
    obtain ⟨rfl, rfl, rfl⟩ := h3 rfl
    have e := hs.split
    rw [List.append_nil] at e
    refine ⟨ti, h1, fun s h => hs.ver (Describes.unique hd h2 ▸ hreg) s (e ▸ h), fun a s b hh => ?_⟩
    exact (hs.offs (Describes.segsOk hd) (e ▸ hh)).1

/-- **C69**: the index decides the result.  After two successful runs with the same index - on different machines, with different
stores, servers and schedules, whatever the targets held before and whether the runs resumed earlier ones - the targets
are equal as far as the image reaches; otherwise two different pieces of them, of the same length, have the same hash.
(Neighbouring entries with the same ID must have the same length, see C27.) -/
theorem C69_index_decides (env env2 : Env) (hH : env2.H = env.H) (w w1 w2 w3 : World) (ipath tpath ipath2 tpath2 : Bytes) (stores stores2 : List Bytes)
    (hsc : Scene env w ipath tpath stores) (hrun : csnMain env (ipath :: tpath :: stores) w = (.ok true, w1))
    (hsc2 : Scene env2 w2 ipath2 tpath2 stores2) (hrun2 : csnMain env2 (ipath2 :: tpath2 :: stores2) w2 = (.ok true, w3))
    (segs : List Seg) (hd : Describes w ipath segs) (hd2 : Describes w2 ipath2 segs) (hreg : Regular segs) :
    ∃ ti ti2, w.dir tpath = some ti ∧ w2.dir tpath2 = some ti2 ∧
      ((w1.data ti).take (total segs) = (w3.data ti2).take (total segs) ∨
        ∃ a b, a <:+: w1.data ti ∧ b <:+: w3.data ti2 ∧ a ≠ b ∧ a.length = b.length ∧ env.H a = env.H b) := by
  obtain ⟨ti, h1, h2, h3⟩ := success_regions hsc hrun hd hreg
  obtain ⟨ti2, g1, g2, _⟩ := success_regions hsc2 hrun2 hd2 hreg
  rw [hH] at g2
  exact ⟨ti, ti2, h1, g1, agree_or_collide _ segs [] rfl (by simp) h3 h2 g2⟩

/-! ### C70 -/

/-- Bytes written according to a log. -/
def written (evs : List Event) : Nat := ((writesOf evs).map (fun e => e.2.length)).sum

/-- Runs of csn, one after the other, with an index that describes `segs` and on the same target, which holds `f` before the
first and `g` after the last; each may have ended in any way, including being killed, but no system call failed.  Environment,
stores, servers, file names and other files may differ from run to run.  For each run, `runs` gives how many bytes it
wrote and how often it queried the chain. -/
inductive Attempts (H : Bytes → Id) (segs : List Seg) : Bytes → Bytes → List (Nat × Nat) → Prop
  | none (f : Bytes) : Attempts H segs f f []
  | run {g : Bytes} {more : List (Nat × Nat)} (env : Env) (hH : env.H = H) (w w' : World) (ipath tpath : Bytes) (stores : List Bytes)
      (hsc : Scene env w ipath tpath stores) (hd : Describes w ipath segs) (ti : Nat) (ht : w.dir tpath = some ti)
      (hclean : Clean w.sys) (hlen : (w.data ti).length < 2 ^ 63) (o : Res Bool)
      (hrun : csnMain env (ipath :: tpath :: stores) w = (o, w')) (evs : List Event) (hlog : w'.log = w.log ++ evs)
      (next : Attempts H segs (w'.data ti) g more) :
      Attempts H segs (w.data ti) g ((written evs, (queriesOf evs).length) :: more)

theorem contig_written {a b : Nat} {evs : List Event} (h : Contig a (writesOf evs) b) : a + written evs = b := by
  unfold written
  revert h
  generalize writesOf evs = ws
  intro h
  induction ws generalizing a with
  | nil => simpa [Contig] using h
  | cons x ws ih =>
    obtain ⟨o, d⟩ := x
    have := ih h.2.2
    simp only [List.map_cons, List.sum_cons]
    omega

theorem runs_length_le (l : List Id) : (runs l).length ≤ l.length := by
  match l with
  | [] => simp [runs]
  | [a] => simp [runs]
  | a :: b :: r =>
    have := runs_length_le (b :: r)
    simp only [runs]
    split
    · simp only [List.length_cons] at this ⊢; omega
    · simp only [List.length_cons] at this ⊢; omega

/-- The first entries that match stay the first entries that match; what is written and queried is charged to them, to the
last entry of each run, and to the rest. -/
theorem attempts_cost {H : Bytes → Id} {segs : List Seg} (hreg : Regular segs) (hz : ∀ s ∈ segs, s.len ≠ 0) {M : Nat} (hM : ∀ s ∈ segs, s.len ≤ M)
    {f g : Bytes} {l : List (Nat × Nat)} (h : Attempts H segs f g l) : ∀ (p r : List Seg), segs = p ++ r → (∀ s ∈ p, Matches H f s) →
    (∀ x, r.head? = some x → ¬ Matches H f x) →
    ∃ p' r', segs = p' ++ r' ∧ (∀ s ∈ p', Matches H g s) ∧ (∀ x, r'.head? = some x → ¬ Matches H g x) ∧ p <+: p' ∧
      (l.map (·.1)).sum + total p ≤ total p' + l.length * (M - 1) ∧ (l.map (·.2)).sum + p.length ≤ p'.length + l.length ∧
      l.countP (fun x => M ≤ x.1) * (if M = 0 then 0 else 1) + p.length ≤ p'.length := by
  induction h with
  | none f => exact fun p r h1 h2 h3 => ⟨p, r, h1, h2, h3, List.prefix_refl _, by simp, by simp, by simp⟩
  | @run g more env hH w w' ipath tpath stores hsc hd ti ht hclean hlen o hrun evs hlog next ih =>
    intro p r h1 h2 h3
    subst hH
    obtain ⟨pre, post, rest, m, d, hs, _⟩ := run_shape hsc hrun hd ht
    obtain ⟨evs', l1, _, l3, l4, _⟩ := hs.log
    have : evs' = evs := by rw [hlog] at l1; exact (List.append_cancel_left l1).symm
    subst this
    have hw := contig_written l3
    have hq : (queriesOf evs').length ≤ post.length + (rest.take m).length := by
      rw [l4]
      refine Nat.le_trans (runs_length_le _) ?_
      simp
    have hMn : (more.length + 1) * (M - 1) = more.length * (M - 1) + (M - 1) := Nat.succ_mul _ _
    simp only [List.map_cons, List.sum_cons, List.length_cons, List.countP_cons, decide_eq_true_eq]
    rcases Shape.resumed hs (Describes.segsOk hd) hclean hlen h1 h2 h3 with ⟨rfl, h5, rfl, _⟩ | ⟨rfl, rfl⟩
    · have hdata : w'.data ti = w.data ti := by
        apply List.ext_getElem?
        intro pos
        by_cases hp : pos < total pre
        · exact hs.frame pos (Or.inl hp)
        · exact hs.frame pos (Or.inr (by simp; omega))
      rw [hdata] at ih
      obtain ⟨p', r', g1, g2, g3, g4, g5, g6, g7⟩ := ih p r h1 h2 h3
      rw [h5] at hq
      simp only [List.length_nil, List.append_nil] at hq hw
      refine ⟨p', r', g1, g2, g3, g4, by omega, by omega, ?_⟩
      have hw0 : written evs' = 0 := by omega
      by_cases hM0 : M = 0
      · simp only [hM0, if_true] at g7 ⊢; omega
      · rw [if_neg (by omega)]; exact g7
    · obtain ⟨p1, r1, e1, e2, e3⟩ := split_matching (Matches env.H (w'.data ti)) segs
      have hver : ∀ s ∈ p ++ post, Matches env.H (w'.data ti) s := fun s hss =>
        hs.ver hreg s hss (hz s (by rw [hs.split]; exact List.mem_append_left _ hss))
      have hpp : p ++ post <+: p1 := by
        rcases List.prefix_or_prefix_of_prefix (show p ++ post <+: segs from ⟨rest, hs.split.symm⟩) (show p1 <+: segs from ⟨r1, e1.symm⟩) with h | h
        · exact h
        · obtain ⟨t, hh⟩ := h
          cases t with
          | nil => rw [← hh]; simp
          | cons x t =>
            exfalso
            have h4 : p1 ++ x :: t <+: p1 ++ r1 := by rw [hh, ← e1]; exact ⟨rest, hs.split.symm⟩
            rw [List.prefix_append_right_inj] at h4
            obtain ⟨u, hu⟩ := h4
            exact e3 x (by rw [← hu]; rfl) (hver x (by rw [← hh]; simp))
      obtain ⟨p', r', g1, g2, g3, g4, g5, g6, g7⟩ := ih p1 r1 e1 e2 e3
      obtain ⟨t, ht⟩ := hpp
      have ht1 : total p1 = total p + total post + total t := by rw [← ht, total_append, total_append]
      have ht2 : p1.length = p.length + post.length + t.length := by rw [← ht, List.length_append, List.length_append]
      have ht3 : total (p ++ post) = total p + total post := total_append _ _
      have hdl : d.length ≤ M - 1 := by
        by_cases hd0 : d = []
        · simp [hd0]
        · obtain ⟨_, seg, rest', c, e, _, _, e4, _⟩ := hs.part hd0
          have := hM seg (by rw [h1, e]; simp)
          omega
      have hm1 : (rest.take m).length ≤ 1 := by
        have := hs.one
        simp only [List.length_take]
        omega
      refine ⟨p', r', g1, g2, g3, List.IsPrefix.trans ⟨post ++ t, by rw [← List.append_assoc]; exact ht⟩ g4, by omega, by omega, ?_⟩
      by_cases hM0 : M = 0
      · simp only [hM0, if_true] at g7 ⊢; omega
      · simp only [if_neg hM0, Nat.mul_one] at g7 ⊢
        split
        · next hb =>
          have : post ≠ [] := by
            intro hn
            have : total post = 0 := by rw [hn]; exact total_nil
            omega
          have := List.length_pos_iff.2 this
          omega
        · omega

/-- **C70**: what interruptions cost.  However often a synchronisation is interrupted and started again, the runs together
write less than the image plus one chunk for each run, and query the chain at most once per entry plus once for each run;
what matches at the start (the first `k` entries) is not written again.  Entries that match at some point match from then on. -/
theorem C70_cost_of_interruptions {H : Bytes → Id} {segs : List Seg} (hreg : Regular segs) (hz : ∀ s ∈ segs, s.len ≠ 0) (M : Nat) (hM : ∀ s ∈ segs, s.len ≤ M)
    {f g : Bytes} {l : List (Nat × Nat)} (h : Attempts H segs f g l) (k : Nat) (hk : ∀ s ∈ segs.take k, Matches H f s) :
    (l.map (·.1)).sum + total (segs.take k) ≤ total segs + l.length * (M - 1) ∧
    (l.map (·.2)).sum + (segs.take k).length ≤ segs.length + l.length ∧ ∀ s ∈ segs.take k, Matches H g s := by
  obtain ⟨p, r, e1, e2, e3⟩ := split_matching (Matches H f) segs
  obtain ⟨p', r', g1, g2, g3, g4, g5, g6, _⟩ := attempts_cost hreg hz hM h p r e1 e2 e3
  have t1 : total segs = total p' + total r' := by rw [g1, total_append]
  have t2 : segs.length = p'.length + r'.length := by rw [g1, List.length_append]
  have hkp : segs.take k <+: p := by
    rcases List.prefix_or_prefix_of_prefix (List.take_prefix k segs) (show p <+: segs from ⟨r, e1.symm⟩) with h | h
    · exact h
    · obtain ⟨t, hh⟩ := h
      cases t with
      | nil => rw [← hh]; simp
      | cons x t =>
        exfalso
        have h4 : p ++ x :: t <+: p ++ r := by rw [hh, ← e1]; exact List.take_prefix _ _
        rw [List.prefix_append_right_inj] at h4
        obtain ⟨u, hu⟩ := h4
        exact e3 x (by rw [← hu]; rfl) (hk x (by rw [← hh]; simp))
  obtain ⟨t, ht⟩ := hkp
  have t3 : total p = total (segs.take k) + total t := by rw [← ht, total_append]
  have t4 : p.length = (segs.take k).length + t.length := by rw [← ht, List.length_append]
  refine ⟨by omega, by omega, fun s hs => g2 s (g4.subset ?_)⟩
  rw [← ht]
  exact List.mem_append_left _ hs

/-- **C70**, progress: of the runs, at most as many as there are entries write as much as the longest chunk - so if every
run gets that far, whatever interrupts it then, there are at most that many runs that do not find everything in place. -/
theorem C70_progress {H : Bytes → Id} {segs : List Seg} (hreg : Regular segs) (hz : ∀ s ∈ segs, s.len ≠ 0) (M : Nat) (hM : ∀ s ∈ segs, s.len ≤ M) (hM0 : M ≠ 0)
    {f g : Bytes} {l : List (Nat × Nat)} (h : Attempts H segs f g l) :
    l.countP (fun x => M ≤ x.1) ≤ segs.length ∧ (l.countP (fun x => M ≤ x.1) = segs.length → ∀ s ∈ segs, Matches H g s) := by
  obtain ⟨p, r, e1, e2, e3⟩ := split_matching (Matches H f) segs
  obtain ⟨p', r', g1, g2, g3, g4, g5, g6, g7⟩ := attempts_cost hreg hz hM h p r e1 e2 e3
  rw [if_neg hM0, Nat.mul_one] at g7
  have t2 : segs.length = p'.length + r'.length := by rw [g1, List.length_append]
  refine ⟨by omega, fun hc s hs => g2 s ?_⟩
  have : r' = [] := List.length_eq_zero_iff.1 (by omega)
  rw [g1, this, List.append_nil] at hs
  exact hs

/-! ### Cases -/

theorem okIdxRegular : Regular [⟨0, 50, syncEnv.H exC1⟩, ⟨50, 10, syncEnv.H exC2⟩] := by
  intro a x y b e hid
  match a with
  | [] =>
    simp only [List.nil_append, List.cons.injEq] at e
    obtain ⟨rfl, rfl, _⟩ := e
    exact absurd hid (by decide +kernel)
  | [_] => simp at e
  | _ :: _ :: _ => simp at e

theorem okDescribes (target : Bytes) (sys : List Sys) : Describes (syncWorld (exIdx [exC1, exC2]) target [] sys) (str "i")
    [⟨0, 50, syncEnv.H exC1⟩, ⟨50, 10, syncEnv.H exC2⟩] := okSegs ▸ syncWorld_describes okIdx_wf

/-- Another start: the second chunk is already somewhere in the target, which is larger. -/
def otherTarget : Bytes := exC1 ++ List.replicate 70 9

/-- A case of `C69_index_decides`: two runs from different targets with different stores. -/
example : ∃ w w1 w2 w3, Scene syncEnv w (str "i") (str "t") [str "s"] ∧ csnMain syncEnv [str "i", str "t", str "s"] w = (.ok true, w1) ∧
    Scene syncEnv w2 (str "i") (str "t") [str "t", str "s"] ∧ csnMain syncEnv [str "i", str "t", str "t", str "s"] w2 = (.ok true, w3) ∧
    Describes w (str "i") [⟨0, 50, syncEnv.H exC1⟩, ⟨50, 10, syncEnv.H exC2⟩] ∧ Describes w2 (str "i") [⟨0, 50, syncEnv.H exC1⟩, ⟨50, 10, syncEnv.H exC2⟩] ∧
    w1.data 3 ≠ w3.data 3 ∧ (w1.data 3).take 60 = (w3.data 3).take 60 :=
  ⟨okWorld, (exRun ["s"] okWorld).2, syncWorld (exIdx [exC1, exC2]) otherTarget [] manySys,
    (exRun ["t", "s"] (syncWorld (exIdx [exC1, exC2]) otherTarget [] manySys)).2, okScene, okRun.1,
    syncWorld_scene okIdx_wf _ (by simp) (by simp), pair_eq (by decide +kernel), okDescribes _ _, okDescribes _ _, by decide +kernel, by decide +kernel⟩

/-- What the killed run of `okAttempts` leaves. -/
def cutTarget : Bytes := exC1 ++ exC2.take 5 ++ List.replicate 15 9

def cutSys : List Sys := manySys.take 21 ++ [.some 4]

def cutWorld : World := syncWorld (exIdx [exC1, exC2]) (List.replicate 70 9) [] cutSys

def secondWorld : World := syncWorld (exIdx [exC1, exC2]) cutTarget [] manySys

theorem cutRun : (exRun ["s"] cutWorld).1 = .stop .killed ∧ (exRun ["s"] cutWorld).2.data 3 = cutTarget ∧ written (exRun ["s"] cutWorld).2.log = 55 ∧
    (queriesOf (exRun ["s"] cutWorld).2.log).length = 2 := ⟨by decide +kernel, by decide +kernel, by decide +kernel, by decide +kernel⟩

theorem secondRun : (exRun ["s"] secondWorld).1 = .ok true ∧ (exRun ["s"] secondWorld).2.data 3 = exC1 ++ exC2 ++ List.replicate 10 9 ∧
    written (exRun ["s"] secondWorld).2.log = 10 ∧ (queriesOf (exRun ["s"] secondWorld).2.log).length = 1 :=
  ⟨by decide +kernel, by decide +kernel, by decide +kernel, by decide +kernel⟩

/-- A case of C70: the first run is killed while writing the second chunk, the next one finishes. -/
theorem okAttempts : Attempts syncEnv.H [⟨0, 50, syncEnv.H exC1⟩, ⟨50, 10, syncEnv.H exC2⟩] (List.replicate 70 9)
    (exC1 ++ exC2 ++ List.replicate 10 9) [(55, 2), (10, 1)] := by
  have h2 := Attempts.run (H := syncEnv.H) syncEnv rfl secondWorld (exRun ["s"] secondWorld).2 (str "i") (str "t") [str "s"]
    (syncWorld_scene okIdx_wf _ (by simp) (by simp)) (okDescribes _ _) 3 rfl ⟨by decide +kernel, by decide +kernel⟩ (by decide +kernel) (.ok true)
    (pair_eq secondRun.1) (exRun ["s"] secondWorld).2.log (List.nil_append _).symm (.none _)
  rw [secondRun.2.1, secondRun.2.2.1, secondRun.2.2.2, show secondWorld.data 3 = (exRun ["s"] cutWorld).2.data 3 from cutRun.2.1.symm] at h2
  have h1 := Attempts.run (H := syncEnv.H) syncEnv rfl cutWorld (exRun ["s"] cutWorld).2 (str "i") (str "t") [str "s"]
    (syncWorld_scene okIdx_wf _ (by simp) (by simp)) (okDescribes _ _) 3 rfl ⟨by decide +kernel, by decide +kernel⟩ (by decide +kernel) (.stop .killed)
    (pair_eq cutRun.1) (exRun ["s"] cutWorld).2.log (List.nil_append _).symm h2
  rw [cutRun.2.2.1, cutRun.2.2.2] at h1
  exact h1

/-- ... for which the hypotheses and the bounds of `C70_cost_of_interruptions` and `C70_progress` are met: 65 bytes written,
where 60 + 2 * 49 are allowed; one run wrote 50 bytes or more. -/
example : ((([(55, 2), (10, 1)] : List (Nat × Nat)).map (·.1)).sum = 65) ∧ ([(55, 2), (10, 1)] : List (Nat × Nat)).countP (fun x => 50 ≤ x.1) = 1 ∧
    (∀ s ∈ ([⟨0, 50, syncEnv.H exC1⟩, ⟨50, 10, syncEnv.H exC2⟩] : List Seg), s.len ≠ 0 ∧ s.len ≤ 50) := ⟨rfl, rfl, by simp⟩

end Csn.Props
