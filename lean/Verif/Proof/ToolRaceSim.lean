import Verif.Proof.ToolRace
import Verif.Proof.ToolRun
/-
The runs of Model/Tool are among those of Model/ToolRace (C89).
-/
namespace Csn.ToolRace
open Csn Csn.Props Csn.Proof

theorem writeAt_end (d : Bytes) (b : UInt8) : writeAt d d.length [b] = d ++ [b] := by
  unfold writeAt
  simp

theorem set_set (f : Files) (o a b : Bytes) : (f.set o a).set o b = f.set o b := by
  funext p
  unfold Files.set
  split <;> rfl

theorem set_self {f : Files} {o d : Bytes} (h : f o = some d) : f.set o d = f := by
  funext p
  unfold Files.set
  split
  · next e => rw [e, h]
  · rfl

/-- Writing a file from its end on. -/
theorem filesAfter_puts (p : Nat) (o : Bytes) : ∀ (d base : Bytes) (f : Files), f o = some base →
    filesAfter f ((byBytes (FAcc.put o) base.length d).map (Prod.mk p)) = f.set o (base ++ d) ∧ Truthful f ((byBytes (FAcc.put o) base.length d).map (Prod.mk p))
  | [], base, f, h => by
    rw [List.append_nil, set_self h]
    exact ⟨rfl, trivial⟩
  | b :: d, base, f, h => by
    have hs : (f.set o (base ++ [b])) o = some (base ++ [b]) := by unfold Files.set; rw [if_pos rfl]
    have := filesAfter_puts p o d (base ++ [b]) (f.set o (base ++ [b])) hs
    rw [set_set, List.append_assoc, List.length_append] at this
    have hw : writeAt ((f o).getD []) base.length [b] = base ++ [b] := by rw [h]; exact writeAt_end base b
    simp only [byBytes, List.map_cons, filesAfter, Truthful, hw]
    exact this

/-- The accesses of steps, all done by one process. -/
def alone (evs : List Ev) : List (Nat × FAcc) := (evs.flatMap fileAccesses).map (Prod.mk 0)

theorem alone_append (a b : List Ev) : alone (a ++ b) = alone a ++ alone b := by simp [alone]

/-- The steps tell the truth about the files `f`, and leave `f'`. -/
def Moves (f : Files) (evs : List Ev) (f' : Files) : Prop := Truthful f (alone evs) ∧ filesAfter f (alone evs) = f'

theorem Moves.append {f g k : Files} {a b : List Ev} (h1 : Moves f a g) (h2 : Moves g b k) : Moves f (a ++ b) k := by
  unfold Moves
  rw [alone_append, truthful_append, filesAfter_append, h1.2]
  exact ⟨⟨h1.1, h2.1⟩, h2.2⟩

theorem moves_nil (f : Files) : Moves f [] f := ⟨trivial, rfl⟩
theorem moves_look (f : Files) (o : Bytes) : Moves f [.look o (f o).isSome] f := ⟨⟨rfl, trivial⟩, rfl⟩
theorem moves_got {f : Files} {i d : Bytes} (h : f i = some d) : Moves f [.got i d] f := ⟨⟨h, trivial⟩, rfl⟩
theorem moves_made {f : Files} {o d : Bytes} {ok : Bool} : Moves f [.made o, .put o d ok] (f.set o d) := by
  have hs : (f.set o []) o = some [] := by unfold Files.set; rw [if_pos rfl]
  have := filesAfter_puts 0 o d [] (f.set o []) hs
  rw [set_set, List.nil_append, List.length_nil] at this
  unfold Moves alone
  simp only [List.flatMap_cons, List.flatMap_nil, fileAccesses, List.append_nil, List.cons_append, List.nil_append, List.map_cons, Truthful, filesAfter]
  exact ⟨this.2, this.1⟩

theorem filesOf_sysMem {w w' : World} (h : SysMem w w') : filesOf w' = filesOf w := by
  rw [h.same]; rfl

theorem filesOf_made {T : Tool} {out e : Bytes} {w w' : World} {k : Nat} (h : Made T out e w w' k) (hd : out ≠ str "-") (hn : w.dir out = none) (hf : Fresh w) :
    filesOf w' = (filesOf w).set out (e.take k) := by
  obtain ⟨h1, h2, h3, -⟩ := h.file hd
  have hk := h.keeps hn
  funext p
  show (w'.dir p).map w'.data = if p = out then some (e.take k) else (w.dir p).map w.data
  by_cases hp : p = out
  · rw [if_pos hp, hp, h1, Option.map_some, h2]
  · rw [if_neg hp, h3 p hp]
    cases hx : w.dir p with
    | none => rfl
    | some i =>
      rw [Option.map_some, Option.map_some, hk.data i (hf p i hx) (fun h => hd h.1)]

theorem wp_encryptOne_there {T : Tool} {ec : EncCtx} {input out : Bytes} {output : Option Bytes} {id : Id} {w : World} (h1 : chunkIdFromPath input = some id)
    (h2 : output.or (derivedOutput input) = some out) (h3 : (w.dir out).isSome = true) (he : w.sys.head? ≠ some .err) :
    wp (encryptOne T ec input output) (fun a _ => a.1 = true) (fun _ _ => True) w := by
  unfold encryptOne
  rw [h1]
  simp only
  rw [h2]
  simp only
  refine wp_bind (wp_accessOk (fun r hr hd => ?_) (fun r hr hd => ?_) trivial)
  · simp only [if_true]
    exact wp_pure rfl
  · rcases hd with hd | hd
    · rw [hd] at h3; cases h3
    · exact absurd hd he

/-- The result of a conversion, whatever ended the process. -/
def outcome : Res (Bool × EncCtx) → Res Bool
  | .ok a => .ok a.1
  | .stop _ => .stop .killed

/-- What a conversion in Model/Tool does, one in Model/ToolRace does as well. -/
def SameOne (conv : Id → Bytes → Bytes) (input : Bytes) (output : Option Bytes) (x : Res Bool) (w w' : World) : Prop :=
  ∃ ans evs, Moves (filesOf w) evs (filesOf w') ∧ ((x = .ok true ∧ ∀ rest, one conv input output (ans ++ rest) = (.ok true, evs, rest)) ∨
    (x ≠ .ok true ∧ ∃ r, one conv input output ans = (x, evs, r)))

theorem one_look {conv : Id → Bytes → Bytes} {input out : Bytes} {output : Option Bytes} {id : Id} (h1 : chunkIdFromPath input = some id)
    (h2 : output.or (derivedOutput input) = some out) (ans : List Ans) : one conv input output ans = look (conv id) input out ans := by
  unfold one
  rw [h1]
  simp only
  rw [h2]

theorem same_one {T : Tool} {ec : EncCtx} {input : Bytes} {output : Option Bytes} {w : World} (hf : Fresh w) (he : w.sys.head? ≠ some .err)
    (hout : output ≠ some (str "-")) :
    SameOne (convBuf ec.key) input output (outcome (encryptOne T ec input output w).1) w (encryptOne T ec input output w).2 := by
  cases hid : chunkIdFromPath input with
  | none =>
    have : encryptOne T ec input output w = (.ok (false, ec), w) := by unfold encryptOne; rw [hid]; rfl
    rw [this]
    exact ⟨[], [], moves_nil _, Or.inr ⟨by simp [outcome], [], by unfold one; rw [hid]; rfl⟩⟩
  | some id =>
    cases ho : output.or (derivedOutput input) with
    | none =>
      have : encryptOne T ec input output w = (.ok (false, ec), w) := by unfold encryptOne; rw [hid]; simp only; rw [ho]; rfl
      rw [this]
      exact ⟨[], [], moves_nil _, Or.inr ⟨by simp [outcome], [], by unfold one; rw [hid]; simp only; rw [ho]; rfl⟩⟩
    | some out =>
      have hdash : out ≠ str "-" := by
        cases output with
        | none => exact derived_not_dash ho
        | some o => intro e; subst e; exact hout ho
      have hst : streq out (str "-") = false := by simpa [streq] using hdash
      have hw := wp_encryptOne (T := T) (ec := ec) (input := input) (output := output) (w := w)
      have ht := fun h => wp_encryptOne_there (T := T) (ec := ec) hid ho h he
      unfold wp at hw ht
      generalize encryptOne T ec input output w = y at hw ht ⊢
      obtain ⟨r, w'⟩ := y
      -- nothing was done
      have stay : ∀ x : Res Bool, x = .ok false ∨ x = .stop .killed → w.dir out = none → SysMem w w' → SameOne (convBuf ec.key) input output x w w' := by
        intro x hx hn hs
        have hm : Moves (filesOf w) [.look out false] (filesOf w') := by
          have := moves_look (filesOf w) out
          rw [filesOf_sysMem hs]
          have e : (filesOf w out).isSome = false := by simp [filesOf, hn]
          rw [e] at this
          exact this
        rcases hx with rfl | rfl
        · exact ⟨[.there false, .cipher false], _, hm, Or.inr ⟨by simp, [], by rw [one_look hid ho]; rfl⟩⟩
        · exact ⟨[.there false], _, hm, Or.inr ⟨by simp, [], by rw [one_look hid ho]; rfl⟩⟩
      have gone : ∀ x : Res Bool, x = .stop .killed → SysMem w w' → SameOne (convBuf ec.key) input output x w w' := by
        rintro x rfl hs
        exact ⟨[], [], by rw [filesOf_sysMem hs]; exact moves_nil _, Or.inr ⟨by simp, [], by rw [one_look hid ho]; rfl⟩⟩
      -- the file was made
      have made : ∀ (i k : Nat) (ok : Bool), w.dir out = none → w.dir input = some i → Made T out (convBuf ec.key id (w.data i)) w w' k →
          Moves (filesOf w) [.look out false, .got input (w.data i), .made out, .put out ((convBuf ec.key id (w.data i)).take k) ok] (filesOf w') := by
        intro i k ok hn hi hm
        have h1 := moves_look (filesOf w) out
        have e : (filesOf w out).isSome = false := by simp [filesOf, hn]
        rw [e] at h1
        have h2 := moves_got (f := filesOf w) (i := input) (d := w.data i) (by simp [filesOf, hi])
        rw [filesOf_made hm hdash hn hf]
        exact (h1.append h2).append moves_made
      cases r with
      | ok a =>
        obtain ⟨ok, ec'⟩ := a
        simp only at hw ht
        obtain ⟨-, -, hw⟩ := hw
        rcases hw with ⟨hs, hd⟩ | ⟨id', out', i, g1, g2, g3, g4, -, g6⟩
        · cases ok with
          | true =>
            obtain ⟨id', out', g1, g2, g3⟩ := hd rfl
            rw [ho] at g2
            cases g2
            refine ⟨[.there true], [.look out true], ?_, Or.inl ⟨rfl, fun rest => by rw [one_look hid ho]; rfl⟩⟩
            have := moves_look (filesOf w) out
            rw [filesOf_sysMem hs]
            have e : (filesOf w out).isSome = true := by simp [filesOf, g3]
            rw [e] at this
            exact this
          | false =>
            refine stay _ (Or.inl rfl) ?_ hs
            cases hdo : w.dir out with
            | none => rfl
            | some j => have := ht (by rw [hdo]; rfl); cases this
        · rw [ho] at g2
          cases g2
          rw [hid] at g1
          cases g1
          have hn := g3.resolve_right he
          obtain ⟨k, hk, hok, hm⟩ := g6 hn
          cases ok with
          | true =>
            refine ⟨[.there false, .cipher true, .input (some (w.data i)), .cipher true, .opened true, .wrote true 0], _, made i k true hn g4 hm, Or.inl ⟨rfl, fun rest => ?_⟩⟩
            rw [one_look hid ho, hok rfl, List.take_of_length_le (by rw [convBuf_length]; exact Nat.le_refl _)]
            simp [look, load, emit, hst]
          | false =>
            refine ⟨[.there false, .cipher true, .input (some (w.data i)), .cipher true, .opened true, .wrote false k], _, made i k false hn g4 hm, Or.inr ⟨by simp [outcome], [], ?_⟩⟩
            rw [one_look hid ho]
            simp [look, load, emit, hst, outcome]
      | stop s =>
        simp only at hw ht
        obtain ⟨-, hw⟩ := hw
        rcases hw with hs | ⟨id', out', i, g1, g2, g3, g4, -, g6⟩
        · exact gone _ rfl hs
        · rw [ho] at g2
          cases g2
          rw [hid] at g1
          cases g1
          have hn := g3.resolve_right he
          obtain ⟨k, hk, hm⟩ := g6 hn
          refine ⟨[.there false, .cipher true, .input (some (w.data i)), .cipher true, .opened true, .cut k], _, made i k false hn g4 hm, Or.inr ⟨by simp [outcome], [], ?_⟩⟩
          rw [one_look hid ho]
          simp [look, load, emit, hst, outcome]

theorem bind_at {α β : Type} (m : M α) (f : α → M β) (w : World) :
    (m >>= f) w = match m w with | (.ok a, w') => f a w' | (.stop s, w') => (.stop s, w') := rfl

theorem same_list {T : Tool} : ∀ (ls : List Bytes) (ec : EncCtx) (w : World), Fresh w → Sys.err ∉ w.sys →
    ∃ ans evs, many (convBuf ec.key) (ls.map fun l => (chomp (cstr l), none)) ans = (orKilled (cryptLines T ec ls w).1, evs) ∧
      Moves (filesOf w) evs (filesOf (cryptLines T ec ls w).2)
  | [], ec, w, _, _ => ⟨[], [], rfl, moves_nil _⟩
  | l :: ls, ec, w, hf, he => by
    have h1 := same_one (T := T) (ec := ec) (input := chomp (cstr l)) (output := none) hf (head_not_err he) (by simp)
    have h2 := wp_encryptOne_keeps (T := T) (ec := ec) (input := chomp (cstr l)) (output := none) hf (head_not_err he)
    unfold wp at h2
    have hb : cryptLines T ec (l :: ls) w = (encryptOne T ec (chomp (cstr l)) none >>= fun a => if !a.1 then (return false : M Bool) else cryptLines T a.2 ls) w := by
      conv => lhs; unfold cryptLines
    rw [hb]
    obtain ⟨ans, evs, hm, hx⟩ := h1
    rw [bind_at]
    generalize encryptOne T ec (chomp (cstr l)) none w = y at h2 hm hx ⊢
    obtain ⟨r, w'⟩ := y
    cases r with
    | stop s =>
      simp only [outcome] at hx h2 hm ⊢
      rcases hx with ⟨hx, -⟩ | ⟨-, r, hx⟩
      · cases hx
      · refine ⟨ans, evs, ?_, hm⟩
        simp only [List.map_cons, many, hx, orKilled]
    | ok a =>
      obtain ⟨ok, ec'⟩ := a
      simp only [outcome] at hx h2 hm ⊢
      cases ok with
      | false =>
        rcases hx with ⟨hx, -⟩ | ⟨-, r, hx⟩
        · cases hx
        · refine ⟨ans, evs, ?_, hm⟩
          simp only [List.map_cons, many, hx]
          rfl
      | true =>
        rcases hx with ⟨-, hx⟩ | ⟨hx, -⟩
        · obtain ⟨k1, k2, k3, k4⟩ := h2
          obtain ⟨ans', evs', g1, g2⟩ := same_list ls ec' w' k3 (fun h => he (k2.subset h))
          rw [k1] at g1
          refine ⟨ans ++ ans', evs ++ evs', ?_, hm.append g2⟩
          simp only [List.map_cons, many, hx, g1]
          rfl
        · exact absurd rfl hx

end Csn.ToolRace
