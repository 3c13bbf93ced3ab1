import Verif.Spec.ToolRace
import Verif.Proof.PatchRace
/-
Runs of Model/Patchdd are runs of Model/PatchRace in which nobody else changes the files (C90).
-/
namespace Csn.PatchRace
open Csn Csn.Props Csn.Proof
open Csn.Spec (slice)
open Csn.Race (contents_append coherent_append)

/-- The history in which process 0 takes these steps, alone. -/
def lone (evs : List Ev) : Trace := (evs.flatMap patchAccesses).map (Prod.mk 0)

theorem lone_append (a b : List Ev) : lone (a ++ b) = lone a ++ lone b := by simp [lone]

theorem contents_puts : ∀ (d : Bytes) (f : Bytes) (off : Nat), contents f ((byBytes Acc.put off d).map (Prod.mk 0)) = writeAt f off d ∧
    Coherent f ((byBytes Acc.put off d).map (Prod.mk 0))
  | [], _, _ => ⟨rfl, trivial⟩
  | b :: d, f, off => by
    have h := contents_puts d (writeAt f off [b]) (off + 1)
    refine ⟨?_, h.2⟩
    show contents (writeAt f off [b]) ((byBytes Acc.put (off + 1) d).map (Prod.mk 0)) = _
    rw [h.1]
    exact writeAt_append f off [b] d

theorem contents_gets : ∀ (d : Bytes) (f : Bytes) (off : Nat), (∀ i x, d[i]? = some x → f[off + i]? = some x) →
    contents f ((byBytes Acc.get off d).map (Prod.mk 0)) = f ∧ Coherent f ((byBytes Acc.get off d).map (Prod.mk 0))
  | [], _, _, _ => ⟨rfl, trivial⟩
  | b :: d, f, off, h => by
    have h' := contents_gets d f (off + 1) fun i x hx => by
      have := h (i + 1) x (by simpa using hx)
      rwa [Nat.add_comm i 1, ← Nat.add_assoc] at this
    exact ⟨h'.1, h 0 b rfl, h'.2⟩

/-- The steps lead from the files of one world to those of the other. -/
structure SoFar (src dst : Nat) (w w' : World) (evs : List Ev) : Prop where
  coherent : Coherent (w.data dst) (lone evs)
  data : contents (w.data dst) (lone evs) = w'.data dst
  others : ∀ i, i ≠ dst → w'.data i = w.data i
  source : src ≠ dst → ∀ off d, .src off d ∈ evs → ∀ (i : Nat) (x : UInt8), d[i]? = some x → (w.data src)[off + i]? = some x

theorem SoFar.trans {src dst : Nat} {w w' w'' : World} {a b : List Ev} (h1 : SoFar src dst w w' a) (h2 : SoFar src dst w' w'' b) : SoFar src dst w w'' (a ++ b) where
  coherent := by rw [lone_append, coherent_append, h1.data]; exact ⟨h1.coherent, h2.coherent⟩
  data := by rw [lone_append, contents_append, h1.data, h2.data]
  others i hi := by rw [h2.others i hi, h1.others i hi]
  source hne off d hm i x hx := by
    rcases List.mem_append.1 hm with hm | hm
    · exact h1.source hne off d hm i x hx
    · rw [← h1.others src hne]; exact h2.source hne off d hm i x hx

theorem sofar_nil {src dst : Nat} {w w' : World} (h : w'.data = w.data) : SoFar src dst w w' [] :=
  ⟨trivial, by rw [h]; rfl, fun _ _ => by rw [h], fun _ _ _ hm => by simp at hm⟩

theorem slice_some {f : Bytes} {off n i : Nat} {x : UInt8} (h : (slice f off n)[i]? = some x) : f[off + i]? = some x := by
  unfold slice at h
  rw [List.getElem?_take] at h
  split at h
  · rwa [List.getElem?_drop] at h
  · cases h

theorem sofar_src {src dst off n : Nat} {w w' : World} (h : w'.data = w.data) : SoFar src dst w w' [.src off (slice (w.data src) off n)] :=
  ⟨trivial, by rw [h]; rfl, fun _ _ => by rw [h], fun _ o d hm i x hx => by
    simp at hm
    obtain ⟨rfl, rfl⟩ := hm
    exact slice_some hx⟩

theorem sofar_dst {src dst off n : Nat} {w w' : World} (h : w'.data = w.data) : SoFar src dst w w' [.dst off (slice (w.data dst) off n)] := by
  have := contents_gets (slice (w.data dst) off n) (w.data dst) off fun i x hx => slice_some hx
  refine ⟨?_, ?_, fun _ _ => by rw [h], fun _ o d hm => by simp at hm⟩
  · unfold lone; simpa [patchAccesses] using this.2
  · rw [h]; unfold lone; simpa [patchAccesses] using this.1

theorem sofar_put {src dst off : Nat} {d : Bytes} {ok : Bool} {w : World} {evs : List (Nat × Bytes)} {r : List Sys} :
    SoFar src dst w (wrote w dst off d evs r) [.put off d ok] := by
  have := contents_puts d (w.data dst) off
  refine ⟨?_, ?_, fun i hi => if_neg hi, fun _ o d hm => by simp at hm⟩
  · unfold lone; simpa [patchAccesses] using this.2
  · unfold lone
    show _ = if dst = dst then writeAt (w.data dst) off d else w.data dst
    rw [if_pos rfl]
    simpa [patchAccesses] using this.1

theorem fit_self {n : Nat} {d : Bytes} (h : d.length = n) : fit n d = d := by
  unfold fit
  rw [List.take_append_of_le_length (by omega), List.take_of_length_le (by omega)]

/-- The loop can do the same. -/
def LoopSame (T size src dst fuel off : Nat) (w : World) (x : Res Bool) (w' : World) : Prop :=
  ∃ ans evs, (∀ rest, ∃ rest', loop T size fuel off (ans ++ rest) = (x, evs, rest') ∧ (x = .ok true → rest' = rest)) ∧ SoFar src dst w w' evs

theorem loop_src {T size fuel off : Nat} (h : off < size) {s : Bytes} (rest : List Ans) :
    loop T size (fuel + 1) off (.data (some s) :: .data none :: rest) = (.ok false, [.src off (fit (min (size - off) T) s)], rest) ∧
    loop T size (fuel + 1) off (.data (some s) :: .cut 0 :: rest) = (.stop .killed, [.src off (fit (min (size - off) T) s)], .cut 0 :: rest) := by
  constructor <;> (unfold loop; rw [if_pos h])

theorem same_loop {T size src dst : Nat} : ∀ (fuel off m : Nat) (w : World), wp (patchLoop T src dst size fuel off m)
    (fun o w' => LoopSame T size src dst fuel off w (.ok o.isSome) w')
    (fun s w' => s = .diverge ∨ LoopSame T size src dst fuel off w (.stop .killed) w') w
  | 0, off, m, w => by
    unfold patchLoop
    by_cases h : off < size
    · rw [if_pos h]; exact Or.inl rfl
    · rw [if_neg h]
      exact wp_pure ⟨[], [], fun rest => ⟨rest, by unfold loop; rw [if_neg h]; rfl, fun _ => rfl⟩, sofar_nil rfl⟩
  | fuel + 1, off, m, w => by
    unfold patchLoop
    by_cases h : off < size
    · rw [if_pos h]
      generalize hn : min (size - off) T = n
      refine wp_bind (wp_preadall (fun r _ g1 _ => ?_) (fun r k _ _ _ => ?_) (fun _ => ?_))
      · simp only
        refine wp_bind (wp_preadall (fun r' _ g3 _ => ?_) (fun r' k _ _ _ => ?_) (fun _ => ?_))
        · simp only at g3 ⊢
          generalize ha : slice (w.data src) off n = a at g1
          generalize hb : slice (w.data dst) off n = b at g3
          have hs : SoFar src dst w { w with sys := r' } [.src off a, .dst off b] := by
            rw [← ha, ← hb]
            exact SoFar.trans (sofar_src (w := w) (w' := { w with sys := r }) rfl) (sofar_dst (w := { w with sys := r }) (w' := { w with sys := r' }) rfl)
          refine wp_bind (wp_pwriteall (fun r evs _ _ _ _ => ?_) (fun r evs k _ _ _ _ _ _ => ?_) (fun r evs k s _ _ _ _ _ _ => ?_))
          · simp only [Bool.not_true, Bool.false_eq_true, if_false]
            refine wp_mono (same_loop fuel (off + n) (m + memcmpOffset a b) _) ?_ ?_
            · rintro o w' ⟨ans, evs, h1, h2⟩
              refine ⟨.data (some a) :: .data (some b) :: .wrote true 0 :: ans, _, fun rest => ?_, SoFar.trans hs (SoFar.trans (sofar_put (ok := true)) h2)⟩
              obtain ⟨rest', e1, e2⟩ := h1 rest
              refine ⟨rest', ?_, e2⟩
              unfold loop
              rw [if_pos h]
              simp only [List.cons_append, hn, fit_self g1, fit_self g3, e1]
              rfl
            · rintro s w' (hd | ⟨ans, evs, h1, h2⟩)
              · exact Or.inl hd
              · refine Or.inr ⟨.data (some a) :: .data (some b) :: .wrote true 0 :: ans, _, fun rest => ?_, SoFar.trans hs (SoFar.trans (sofar_put (ok := true)) h2)⟩
                obtain ⟨rest', e1, e2⟩ := h1 rest
                refine ⟨rest', ?_, e2⟩
                unfold loop
                rw [if_pos h]
                simp only [List.cons_append, hn, fit_self g1, fit_self g3, e1]
                rfl
          · simp only [Bool.not_false, if_true]
            refine wp_pure ⟨[.data (some a), .data (some b), .wrote false k], _, fun rest => ⟨rest, ?_, nofun⟩, SoFar.trans hs (sofar_put (ok := false))⟩
            unfold loop
            rw [if_pos h]
            simp only [List.cons_append, hn, fit_self g1, fit_self g3]
            rfl
          · refine Or.inr ⟨[.data (some a), .data (some b), .cut k], _, fun rest => ⟨rest, ?_, nofun⟩, SoFar.trans hs (sofar_put (ok := false))⟩
            unfold loop
            rw [if_pos h]
            simp only [List.cons_append, hn, fit_self g1, fit_self g3]
            rfl
        · refine wp_pure ⟨[.data (some (slice (w.data src) off n)), .data none], _, fun rest => ⟨rest, ?_, nofun⟩, sofar_src (off := off) (n := n) rfl⟩
          have := (loop_src (T := T) (fuel := fuel) h (s := slice (w.data src) off n) rest).1
          rwa [hn, fit_self g1] at this
        · refine Or.inr ⟨[.data (some (slice (w.data src) off n)), .cut 0], _, fun rest => ⟨.cut 0 :: rest, ?_, nofun⟩, sofar_src (off := off) (n := n) rfl⟩
          have := (loop_src (T := T) (fuel := fuel) h (s := slice (w.data src) off n) rest).2
          rwa [hn, fit_self g1] at this
      · refine wp_pure ⟨[.data none], [], fun rest => ⟨rest, ?_, nofun⟩, sofar_nil rfl⟩
        unfold loop; rw [if_pos h]; rfl
      · refine Or.inr ⟨[.cut 0], [], fun rest => ⟨.cut 0 :: rest, ?_, nofun⟩, sofar_nil rfl⟩
        unfold loop; rw [if_pos h]; rfl
    · rw [if_neg h]
      exact wp_pure ⟨[], [], fun rest => ⟨rest, by unfold loop; rw [if_neg h]; rfl, fun _ => rfl⟩, sofar_nil rfl⟩

/-- patchdd can do the same. -/
def PatchSame (T : Nat) (args : List Bytes) (w : World) (x : Res Bool) (w' : World) : Prop :=
  ∃ ans evs, main T ans = (x, evs) ∧ ∀ a b rest src dst, args = a :: b :: rest → w.dir a = some src → w.dir b = some dst → SoFar src dst w w' evs

theorem same_none {T : Nat} {args : List Bytes} {w w' : World} (x : Res Bool) (h : w'.data = w.data) (hx : x = .ok false ∨ x = .stop .killed) : PatchSame T args w x w' := by
  rcases hx with rfl | rfl
  · exact ⟨[.opened false], [], rfl, fun _ _ _ _ _ _ _ _ => sofar_nil h⟩
  · exact ⟨[], [], rfl, fun _ _ _ _ _ _ _ _ => sofar_nil h⟩

theorem sofar_sized {src dst n : Nat} {w w' : World} (h : w'.data = w.data) : SoFar src dst w w' [.sized n] :=
  ⟨trivial, by rw [h]; rfl, fun _ _ => by rw [h], fun _ _ _ hm => by simp at hm⟩

theorem sofar_flushed {src dst : Nat} {w w' : World} (h : w'.data = w.data) : SoFar src dst w w' [.flushed] :=
  ⟨trivial, by rw [h]; rfl, fun _ _ => by rw [h], fun _ _ _ hm => by simp at hm⟩

theorem same_main {T : Nat} (args : List Bytes) (w : World) : wp (patchdd T args) (fun o w' => PatchSame T args w (.ok o) w')
    (fun s w' => s = .diverge ∨ PatchSame T args w (.stop .killed) w') w := by
  unfold patchdd
  match args with
  | [] => exact wp_pure (same_none _ rfl (Or.inl rfl))
  | [_] => exact wp_pure (same_none _ rfl (Or.inl rfl))
  | a :: b :: rest =>
    simp only
    split
    · exact wp_pure (same_none _ rfl (Or.inl rfl))
    · refine wp_bind (wp_openPath (fun r1 _ => ?_) (fun r1 _ _ => wp_pure (same_none _ rfl (Or.inl rfl))) (fun _ => Or.inr (same_none _ rfl (Or.inr rfl))))
      cases ha : w.dir a with
      | none => exact wp_pure (same_none _ rfl (Or.inl rfl))
      | some src =>
        simp only
        refine wp_bind (wp_openPath (fun r2 _ => ?_) (fun r2 _ _ => wp_pure (same_none _ rfl (Or.inl rfl))) (fun _ => Or.inr (same_none _ rfl (Or.inr rfl))))
        simp only
        cases hb : w.dir b with
        | none => exact wp_pure (same_none _ rfl (Or.inl rfl))
        | some dst =>
          simp only
          refine wp_bind (wp_fdSize (fun r3 _ _ => ?_) (fun r3 _ _ => wp_pure (same_none _ rfl (Or.inl rfl))) (fun _ => Or.inr (same_none _ rfl (Or.inr rfl))))
          simp only
          refine wp_bind (wp_fdSize (fun r4 _ _ => ?_) (fun r4 _ _ => wp_pure (same_none _ rfl (Or.inl rfl))) (fun _ => Or.inr (same_none _ rfl (Or.inr rfl))))
          simp only
          split
          · exact wp_pure (same_none _ rfl (Or.inl rfl))
          · next hle =>
            have hone : ∀ a' b' rest' src' dst', a :: b :: rest = a' :: b' :: rest' → w.dir a' = some src' → w.dir b' = some dst' → src' = src ∧ dst' = dst := by
              intro a' b' rest' src' dst' e h1 h2
              simp at e
              obtain ⟨rfl, rfl, -⟩ := e
              rw [ha] at h1; rw [hb] at h2
              cases h1; cases h2
              exact ⟨rfl, rfl⟩
            refine wp_bind (wp_mono (same_loop (T := T) (src := src) (dst := dst) ((w.data src).length + 1) 0 0 { w with sys := r4 }) ?_ ?_)
            · rintro o w1 ⟨ans, evs, h1, h2⟩
              have h2' : SoFar src dst w w1 (.sized (w.data src).length :: evs) :=
                SoFar.trans (a := [.sized (w.data src).length]) (sofar_sized (w' := { w with sys := r4 }) rfl) h2
              have hmain : ∀ tail rest', loop T (w.data src).length ((w.data src).length + 1) 0 (ans ++ tail) = (.ok o.isSome, evs, rest') →
                  main T (Ans.opened true :: .opened true :: .size (some (w.data src).length) :: .size (some (w.data dst).length) :: (ans ++ tail)) =
                  match o.isSome with
                  | true => ((finish rest').1, .sized (w.data src).length :: evs ++ (finish rest').2)
                  | false => (.ok false, .sized (w.data src).length :: evs) := by
                intro tail rest' hl
                show (if (w.data dst).length < (w.data src).length then _ else _) = _
                rw [if_neg hle, hl]
                cases o.isSome <;> rfl
              cases o with
              | none =>
                obtain ⟨rest', e1, -⟩ := h1 []
                refine wp_pure ⟨_, _, hmain [] rest' e1, fun a' b' rest' src' dst' e e1 e2 => ?_⟩
                obtain ⟨rfl, rfl⟩ := hone _ _ _ _ _ e e1 e2
                exact h2'
              | some sk =>
                simp only
                have hfin : ∀ tail, main T (Ans.opened true :: .opened true :: .size (some (w.data src).length) :: .size (some (w.data dst).length) :: (ans ++ tail)) =
                    ((finish tail).1, .sized (w.data src).length :: evs ++ (finish tail).2) := by
                  intro tail
                  obtain ⟨rest', e1, e2⟩ := h1 tail
                  have := hmain tail rest' e1
                  rwa [e2 rfl] at this
                refine wp_bind (wp_sysOk (fun r5 _ => ?_) (fun r5 _ _ => ?_) (fun _ => ?_))
                · simp only [Bool.not_true, Bool.false_eq_true, if_false]
                  refine wp_bind (wp_emit (wp_bind (wp_emit (wp_pure ?_))))
                  refine ⟨_, _, hfin [.synced true], fun a' b' rest' src' dst' e e1 e2 => ?_⟩
                  obtain ⟨rfl, rfl⟩ := hone _ _ _ _ _ e e1 e2
                  exact SoFar.trans h2' (sofar_flushed rfl)
                · simp only [Bool.not_false, if_true]
                  refine wp_pure ⟨_, _, hfin [.synced false], fun a' b' rest' src' dst' e e1 e2 => ?_⟩
                  obtain ⟨rfl, rfl⟩ := hone _ _ _ _ _ e e1 e2
                  exact SoFar.trans h2' (sofar_nil rfl)
                · refine Or.inr ⟨_, _, hfin [], fun a' b' rest' src' dst' e e1 e2 => ?_⟩
                  obtain ⟨rfl, rfl⟩ := hone _ _ _ _ _ e e1 e2
                  exact SoFar.trans h2' (sofar_nil rfl)
            · rintro s w1 (hd | ⟨ans, evs, h1, h2⟩)
              · exact Or.inl hd
              · obtain ⟨rest', e1, -⟩ := h1 []
                refine Or.inr ⟨Ans.opened true :: .opened true :: .size (some (w.data src).length) :: .size (some (w.data dst).length) :: (ans ++ []),
                  .sized (w.data src).length :: evs, ?_, fun a' b' rest' src' dst' e e1 e2 => ?_⟩
                · show (if (w.data dst).length < (w.data src).length then _ else _) = _
                  rw [if_neg hle, e1]
                · obtain ⟨rfl, rfl⟩ := hone _ _ _ _ _ e e1 e2
                  exact SoFar.trans (a := [.sized (w.data src').length]) (sofar_sized (w' := { w with sys := r4 }) rfl) h2

end Csn.PatchRace
