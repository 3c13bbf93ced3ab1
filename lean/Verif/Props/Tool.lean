import Verif.Proof.ToolRun
import Verif.Proof.HttpNewOk
/-
C46-C49: csn-tool.
-/
namespace Csn.Props
open Csn Spec Proof

/-! ### Examples -/

/-- A chunk name: the digits 00112233 eight times. -/
def tName : Bytes := (List.replicate 8 (str "00112233")).flatten ++ str ".cacnk"
def tId : Id := (List.replicate 8 [0x00, 0x11, 0x22, 0x33]).flatten
/-- A name that is accepted as well. -/
def tOdd : Bytes := (List.replicate 8 (str "00112233")).flatten ++ str "~~~~.cacnk"
def tKey : Bytes := List.replicate 32 0x4f
def tSpec : Bytes := str "key:" ++ (List.replicate 32 (str "4F")).flatten

def tTool (stdin : Bytes) : Tool := ⟨fun _ => none, stdin, 5, 0, false⟩

def tWorld (sys : List Sys) : World where
  data := fun i => if i = 1 then [1, 2, 3, 4, 5] else if i = 2 then [9] else []
  kind := fun _ => .reg
  dir := fun p => if p = str "d/" ++ tName then some 1 else if p = tOdd then some 1 else if p = str "there" then some 2 else none
  next := 6
  sys := sys
  mem := []
  net := []
  log := []

theorem tWorld_fresh (sys : List Sys) : Fresh (tWorld sys) := by
  intro p i h
  simp only [tWorld] at h ⊢
  split at h
  · cases h; omega
  · split at h
    · cases h; omega
    · split at h
      · cases h; omega
      · cases h

theorem tName_chunk : ChunkName tName tId :=
  ⟨_, by decide +kernel, (parseHex_iff (n := 32) (by decide +kernel) _).mp (by decide +kernel), Or.inl rfl⟩

/-! ### C46 -/

/-- C46: without explicit output path a name ending in .cacnk is converted to one with .enc appended and back; every
path that is short enough to have a derived name is derived again from it. -/
theorem C46_derived_name (p : Bytes) :
    (∀ q, derivedOutput p = some q → (Twins p q ∨ Twins q p) ∧ derivedOutput q = some p) ∧
    (∀ q, Twins p q → p.length ≤ 4091 → derivedOutput p = some q) ∧
    (∀ q, Twins q p → p.length ≤ 4095 → derivedOutput p = some q) := by
  refine ⟨fun q h => ⟨?_, derived_back h⟩, fun q h hl => (derivedOutput_iff p q).2 (Or.inl ⟨h, hl⟩), fun q h hl => (derivedOutput_iff p q).2 (Or.inr ⟨h, hl⟩)⟩
  rcases (derivedOutput_iff p q).1 h with ⟨h1, _⟩ | ⟨h1, _⟩
  · exact Or.inl h1
  · exact Or.inr h1

example : derivedOutput (str "d/" ++ tName) = some (str "d/" ++ tName ++ str ".enc") ∧ derivedOutput (str "d/" ++ tName ++ str ".enc") = some (str "d/" ++ tName) := by
  decide +kernel

theorem twins_chunk {p q name : Bytes} {id : Id} (h : Twins p q ∨ Twins q p) (hl : LastPart p name) (hc : ChunkName name id) :
    ∃ name', LastPart q name' ∧ ChunkName name' id := by
  obtain ⟨h1, dir, h2, h3⟩ := hl
  obtain ⟨hex, c1, c2, c3⟩ := hc
  have hno : ∀ t : Bytes, 0x2f ∉ t → 0x2f ∉ hex ++ t := by
    intro t ht hm
    rcases List.mem_append.1 hm with hm | hm
    · rcases c3 with c3 | c3 <;> exact h1 (by rw [c3]; exact List.mem_append_left _ hm)
    · exact ht hm
  have hp : p = dir ++ hex ++ str ".cacnk" ∨ p = dir ++ hex ++ str ".cacnk.enc" := by
    rcases c3 with c3 | c3
    · left; rw [h2, c3, List.append_assoc]
    · right; rw [h2, c3, List.append_assoc]
  have key : q = dir ++ hex ++ str ".cacnk" ∨ q = dir ++ hex ++ str ".cacnk.enc" := by
    rcases h with ⟨x, e1, e2⟩ | ⟨x, e1, e2⟩
    · right
      rcases hp with hp | hp
      · rw [e2, List.append_cancel_right (e1.symm.trans hp)]
      · exfalso
        have := ends_cacnk_enc (dir ++ hex)
        rw [← hp, e1] at this
        exact this (drop_suffix _ _ _ cacnk_len.symm)
    · left
      rcases hp with hp | hp
      · exfalso
        have := ends_cacnk_enc x
        rw [← e2, hp] at this
        exact this (drop_suffix _ _ _ cacnk_len.symm)
      · rw [e1, List.append_cancel_right (e2.symm.trans hp)]
  rcases key with key | key
  · exact ⟨hex ++ str ".cacnk", ⟨hno _ (by decide), dir, by rw [key, List.append_assoc], h3⟩, hex, c1, c2, Or.inl rfl⟩
  · exact ⟨hex ++ str ".cacnk.enc", ⟨hno _ (by decide), dir, by rw [key, List.append_assoc], h3⟩, hex, c1, c2, Or.inr rfl⟩

/-- C46: the name derived from a chunk's name denotes the same chunk.  Missing from the full claim: the other names that
are accepted, see `C46_refuted`. -/
theorem C46_same_id_partial (p q name : Bytes) (id : Id) (hl : LastPart p name) (hc : ChunkName name id) (hd : derivedOutput p = some q) :
    chunkIdFromPath p = some id ∧ chunkIdFromPath q = some id := by
  refine ⟨(chunkIdFromPath_iff p id).2 ⟨name, hl, Or.inl hc⟩, ?_⟩
  obtain ⟨n', h1, h2⟩ := twins_chunk ((C46_derived_name p).1 q hd).1 hl hc
  exact (chunkIdFromPath_iff q id).2 ⟨n', h1, Or.inl h2⟩

example : chunkIdFromPath (str "d/" ++ tName) = some tId ∧ chunkIdFromPath (str "d/" ++ tName ++ str ".enc") = some tId := by decide +kernel

/-- C46 is false: a name with four additional characters is accepted, the name derived from it is not, so that the
output cannot be converted back. -/
theorem C46_refuted : ∃ p q id, chunkIdFromPath p = some id ∧ derivedOutput p = some q ∧ chunkIdFromPath q = none :=
  ⟨tOdd, tOdd ++ str ".enc", tId, by decide +kernel, by decide +kernel, by decide +kernel⟩

/-! ### C49 -/

/-- C49: exactly which paths are accepted, and for which chunk: the last component is 64 hex digits and then .cacnk or
.cacnk.enc, or, too much of the claim, four arbitrary characters and .cacnk. -/
theorem C49_accepted_partial (path : Bytes) (id : Id) :
    chunkIdFromPath path = some id ↔ ∃ name, LastPart path name ∧ (ChunkName name id ∨ OddName name id) :=
  chunkIdFromPath_iff path id

/-- C49: any other input is refused without any effect. -/
theorem C49_refused (T : Tool) (ec : EncCtx) (input : Bytes) (output : Option Bytes) (w : World)
    (h : ∀ name id, LastPart input name → ¬ ChunkName name id ∧ ¬ OddName name id) :
    ∃ ec', encryptOne T ec input output w = (.ok (false, ec'), w) := by
  have : chunkIdFromPath input = none := by
    cases hc : chunkIdFromPath input with
    | none => rfl
    | some id =>
      obtain ⟨n, h1, h2⟩ := (chunkIdFromPath_iff input id).1 hc
      exact (h2.elim (h n id h1).1 (h n id h1).2).elim
  refine ⟨ec, ?_⟩
  unfold encryptOne
  rw [this]
  rfl

/-- No path without a slash of this length is accepted. -/
example (T : Tool) (ec : EncCtx) (w : World) : ∃ ec', encryptOne T ec (str "chunk.cacnk") none w = (.ok (false, ec'), w) :=
  C49_refused T ec _ none w (fun name id h => by
    have hn : name = str "chunk.cacnk" := lastPart_unique h (lastPart_baseName _)
    subst hn
    constructor
    · rintro ⟨hex, h1, _, h3 | h3⟩ <;>
      · have := congrArg List.length h3
        rw [List.length_append, h1] at this
        simp [str] at this
    · rintro ⟨hex, four, h1, _, _, h3⟩
      have := congrArg List.length h3
      rw [List.length_append, List.length_append, h1] at this
      simp [str] at this
      omega)

/-- C49 is false: a file that has not the name of a chunk is accepted. -/
theorem C49_refuted : ∃ path id, chunkIdFromPath path = some id ∧ ∀ name id', LastPart path name → ¬ ChunkName name id' := by
  refine ⟨tOdd, tId, by decide +kernel, ?_⟩
  rintro name id' h ⟨hex, h1, h2, h3⟩
  have hn : name = tOdd := lastPart_unique h (show LastPart tOdd tOdd from ⟨by decide +kernel, [], rfl, Or.inl rfl⟩)
  subst hn
  rcases h3 with h3 | h3
  · have := congrArg List.length h3
    rw [List.length_append, h1] at this
    exact absurd this (by decide +kernel)
  · have := congrArg (List.drop 64) h3
    rw [List.drop_left' h1] at this
    exact absurd this (by decide +kernel)

/-! ### C47 -/

/-- C47: no file that exists is modified by a conversion, wherever it stops, provided the call that checks whether the
output exists does not fail for another reason.  With output to standard output, what is behind that is excepted. -/
theorem C47_one_file_partial (T : Tool) (ec : EncCtx) (input : Bytes) (output : Option Bytes) (w : World) (hf : Fresh w) (he : w.sys.head? ≠ some .err)
    (path : Bytes) (ino : Nat) (hp : w.dir path = some ino) (hi : output = some (str "-") → ino ≠ T.out) :
    (encryptOne T ec input output w).2.dir path = some ino ∧ (encryptOne T ec input output w).2.data ino = w.data ino ∧
      (encryptOne T ec input output w).2.kind ino = w.kind ino := by
  have h := wp_encryptOne_keeps (T := T) (ec := ec) (input := input) (output := output) hf he
  have hk : Keeps (fun i => output = some (str "-") ∧ i = T.out) w (encryptOne T ec input output w).2 := by
    unfold wp at h
    generalize encryptOne T ec input output w = x at h ⊢
    obtain ⟨r, w'⟩ := x
    cases r with
    | ok a => exact h.2.2.2
    | stop s => exact h
  exact ⟨hk.dir _ _ hp, hk.data ino (hf _ _ hp) (fun h => hi h.1 h.2), hk.kind ino (hf _ _ hp)⟩

theorem wp_doCrypt_keeps (T : Tool) (args : List Bytes) (w : World) (hf : Fresh w) (he : Sys.err ∉ w.sys) :
    wp (doCrypt T args) (fun _ w' => Keeps (fun i => args[2]? = some (str "-") ∧ i = T.out) w w')
      (fun _ w' => Keeps (fun i => args[2]? = some (str "-") ∧ i = T.out) w w') w := by
  unfold doCrypt
  cases args with
  | nil => exact wp_pure (Keeps.refl _ _)
  | cons spec rest =>
    simp only
    split
    · exact wp_pure (Keeps.refl _ _)
    · refine wp_bind (wp_mono wp_parseKeyspec (fun a w1 h => ?_) (fun s w1 h => h.2.keeps))
      obtain ⟨h1, _, _⟩ := h
      cases a with
      | none => exact wp_pure h1.keeps
      | some key =>
        have he1 : Sys.err ∉ w1.sys := fun h => he (h1.sys.subset h)
        cases rest with
        | nil =>
          refine wp_mono (wp_cryptLines (w0 := w1) (key := key) _ _ w1 rfl (h1.fresh hf) he1 (Keeps.refl _ _) ?_) (fun a w2 h => ?_) (fun s w2 h => ?_)
          · intro q o h1 h2; rw [h1] at h2; cases h2
          · exact h1.keeps.trans (h.1.mono (fun _ h => h.elim))
          · exact h1.keeps.trans (h.mono (fun _ h => h.elim))
        | cons input output =>
          simp only
          have hP : ∀ i, (output.head? = some (str "-") ∧ i = T.out) → ((spec :: input :: output)[2]? = some (str "-") ∧ i = T.out) := by
            intro i h
            refine ⟨?_, h.2⟩
            rw [← h.1]
            simp [List.head?_eq_getElem?]
          refine wp_bind (wp_mono (wp_encryptOne_keeps (h1.fresh hf) (head_not_err he1)) (fun a w2 h => ?_) (fun s w2 h => ?_))
          · obtain ⟨ok, ec'⟩ := a
            exact wp_pure (h1.keeps.trans (h.2.2.2.mono hP))
          · exact h1.keeps.trans (h.mono hP)

/-- C47: no file that exists is modified by a run, whatever the arguments and wherever it stops.  Missing from the full
claim: runs in which a system call fails, see `C47_refuted`; what standard output is directed to is excepted if that is
the output. -/
theorem C47_no_file_modified_partial (T : Tool) (args : List Bytes) (w : World) (hf : Fresh w) (he : Sys.err ∉ w.sys)
    (path : Bytes) (ino : Nat) (hp : w.dir path = some ino) (hi : args[3]? = some (str "-") → ino ≠ T.out) :
    (toolMain T args w).2.dir path = some ino ∧ (toolMain T args w).2.data ino = w.data ino ∧ (toolMain T args w).2.kind ino = w.kind ino := by
  have h : wp (toolMain T args) (fun _ w' => Keeps (fun i => args[3]? = some (str "-") ∧ i = T.out) w w')
      (fun _ w' => Keeps (fun i => args[3]? = some (str "-") ∧ i = T.out) w w') w := by
    unfold toolMain
    cases args with
    | nil => exact wp_pure (Keeps.refl _ _)
    | cons cmd rest =>
      simp only
      split
      · exact wp_pure (Keeps.refl _ _)
      · split
        · exact wp_doCrypt_keeps T rest w hf he
        · exact wp_pure (Keeps.refl _ _)
  have hk : Keeps (fun i => args[3]? = some (str "-") ∧ i = T.out) w (toolMain T args w).2 := by
    unfold wp at h
    generalize toolMain T args w = x at h ⊢
    obtain ⟨r, w'⟩ := x
    cases r <;> exact h
  exact ⟨hk.dir _ _ hp, hk.data ino (hf _ _ hp) (fun h => hi h.1 h.2), hk.kind ino (hf _ _ hp)⟩

/-- The output exists: nothing happens. -/
example : (toolMain (tTool []) [str "crypt", tSpec, tOdd, str "there"] (tWorld (List.replicate 9 (.some 99)))).1 = .ok true ∧
    (toolMain (tTool []) [str "crypt", tSpec, tOdd, str "there"] (tWorld (List.replicate 9 (.some 99)))).2.data 2 = [9] := by decide +kernel

/-- The process is killed while writing: nothing but the new file has changed. -/
example : (toolMain (tTool []) [str "crypt", tSpec, str "d/" ++ tName] (tWorld (List.replicate 5 (.some 2) ++ [.some 1, .some 1]))).1 = .stop .killed ∧
    (toolMain (tTool []) [str "crypt", tSpec, str "d/" ++ tName] (tWorld (List.replicate 5 (.some 2) ++ [.some 1, .some 1]))).2.data 1 = [1, 2, 3, 4, 5] := by
  decide +kernel

/-- C47 is false: if `access` fails for an existing file, that is truncated and overwritten. -/
theorem C47_refuted : ∃ (T : Tool) (args : List Bytes) (w : World) (path : Bytes) (ino : Nat), Fresh w ∧ w.dir path = some ino ∧
    ino ≠ T.out ∧ (toolMain T args w).1 = .ok true ∧ (toolMain T args w).2.data ino ≠ w.data ino :=
  ⟨tTool [], [str "crypt", tSpec, str "d/" ++ tName, str "there"], tWorld (.err :: List.replicate 9 (.some 99)), str "there", 2,
    tWorld_fresh _, by decide +kernel, by decide, by decide +kernel, by decide +kernel⟩

/-! ### C48 -/

theorem toolMain_crypt (T : Tool) (rest : List Bytes) : toolMain T (str "crypt" :: rest) = doCrypt T rest := by
  have h1 : (streq (str "crypt") (str "-h") || streq (str "crypt") (str "--help")) = false := by decide
  have h2 : streq (str "crypt") (str "crypt") = true := by decide
  unfold toolMain
  simp only [h1, h2, Bool.false_eq_true, if_false, if_true]

/-- C48: if the conversion of one file is reported as successful, then the key is the one specified, the ID the one of
the name, and unless the output existed already it holds the conversion of the whole input.  `out`: the output, given or
derived.  Missing from the full claim: outputs that existed (`C48_refuted`) and inputs of 4 GiB and more, of which
everything from the length modulo 2^32 on is copied as it is. -/
theorem C48_one_file_partial (T : Tool) (spec input : Bytes) (output : Option Bytes) (w w' : World) (hf : Fresh w)
    (h : toolMain T (str "crypt" :: spec :: input :: output.toList) w = (.ok true, w')) :
    ∃ key id out, KeyOf T.getenv w spec key ∧ (∃ name, LastPart input name ∧ (ChunkName name id ∨ OddName name id)) ∧
      (output = some out ∨ output = none ∧ (Twins input out ∨ Twins out input)) ∧
      (w.dir out = none → ∃ i e, w.dir input = some i ∧ e.length = (w.data i).length ∧
        (if out = str "-" then Patched (w.data T.out) T.pos e (w'.data T.out)
          else ∃ o, w'.dir out = some o ∧ w'.data o = e ∧ w'.data i = w.data i) ∧
        ((w.data i).length < 2 ^ 32 → Converted key id (w.data i) e) ∧
        ∀ k, (w.data i).length % 2 ^ 32 ≤ k → e[k]? = (w.data i)[k]?) := by
  have hrule : wp (toolMain T (str "crypt" :: spec :: input :: output.toList)) (fun ok w' => ok = true →
      ∃ key id out, KeyOf T.getenv w spec key ∧ chunkIdFromPath input = some id ∧ output.or (derivedOutput input) = some out ∧
        (w.dir out = none → ∃ i w1, w.dir input = some i ∧ SysMem w w1 ∧ Made T out (convBuf key id (w.data i)) w1 w' (w.data i).length)) (fun _ _ => True) w := by
    rw [toolMain_crypt]
    unfold doCrypt
    simp only
    split
    · exact wp_pure (by simp)
    · refine wp_bind (wp_mono wp_parseKeyspec (fun a w1 h => ?_) (fun s w1 h => trivial))
      obtain ⟨h1, h2, _⟩ := h
      cases a with
      | none => exact wp_pure (by simp)
      | some key =>
        have hhead : output.toList.head? = output := by cases output <;> rfl
        simp only [hhead]
        refine wp_bind (wp_mono wp_encryptOne (fun a w2 h => ?_) (fun s w2 h => trivial))
        obtain ⟨ok, ec'⟩ := a
        refine wp_pure (fun hok => ?_)
        simp only at hok h
        subst hok
        have hkey : KeyOf T.getenv w spec key := (specKey_iff _ _ _ _).mp (h2 key rfl)
        obtain ⟨g1, g2, ⟨g3, g4⟩ | ⟨id, out, i, g4, g5, g6, g7, g8, g9⟩⟩ := h
        · obtain ⟨id, out, k1, k2, k3⟩ := g4 rfl
          refine ⟨key, id, out, hkey, k1, k2, fun hn => ?_⟩
          rw [h1.same] at k3
          have k3' : (w.dir out).isSome = true := k3
          rw [hn] at k3'; cases k3'
        · have hd1 : w1.dir = w.dir := by rw [h1.same]
          have hd2 : w1.data = w.data := by rw [h1.same]
          refine ⟨key, id, out, hkey, g4, g5, fun hn => ?_⟩
          obtain ⟨k, k1, k2, k3⟩ := g9 (by rw [hd1]; exact hn)
          have := k2 rfl
          subst this
          rw [hd1] at g7
          rw [hd2] at k3
          exact ⟨i, w1, g7, h1, k3⟩
  unfold wp at hrule
  rw [h] at hrule
  obtain ⟨key, id, out, h1, h2, h3, h4⟩ := hrule rfl
  refine ⟨key, id, out, h1, (chunkIdFromPath_iff input id).1 h2, ?_, ?_⟩
  · cases output with
    | some o => left; exact h3
    | none =>
      right
      refine ⟨rfl, ((C46_derived_name input).1 out h3).1⟩
  · intro hn
    obtain ⟨i, w1, g1, g2, g3⟩ := h4 hn
    have hd1 : w1.dir = w.dir := by rw [g2.same]
    have hd2 : w1.data = w.data := by rw [g2.same]
    have hl := convBuf_length key id (w.data i)
    refine ⟨i, convBuf key id (w.data i), g1, hl, ?_, convBuf_small, fun k hk => convBuf_tail hk⟩
    split
    · rename_i hdash
      rcases g3 with ⟨_, evs, m, _, e⟩ | ⟨e, _⟩
      · rw [← hl, List.take_length] at e
        have : w'.data T.out = writeAt (w1.data T.out) T.pos (convBuf key id (w.data i)) := by
          rw [e]
          show (if T.out = T.out then _ else _) = _
          rw [if_pos rfl]
        rw [this, hd2]
        exact writeAt_patched _ _ _
      · exact absurd hdash e
    · rename_i hdash
      obtain ⟨f1, f2, _, _⟩ := g3.file hdash
      have hk := g3.keeps (by rw [hd1]; exact hn)
      refine ⟨w1.next, f1, by rw [f2, ← hl]; exact List.take_length, ?_⟩
      rw [hk.data i ((g2.fresh hf) input i (by rw [hd1]; exact g1)) (fun h => hdash h.1), hd2]

/-- An encryption to a derived name, with short reads and writes. -/
example : (toolMain (tTool []) [str "crypt", tSpec, str "d/" ++ tName] (tWorld (List.replicate 11 (.some 1)))).1 = .ok true ∧
    (toolMain (tTool []) [str "crypt", tSpec, str "d/" ++ tName] (tWorld (List.replicate 11 (.some 1)))).2.dir (str "d/" ++ tName ++ str ".enc") = some 6 ∧
    (toolMain (tTool []) [str "crypt", tSpec, str "d/" ++ tName] (tWorld (List.replicate 11 (.some 1)))).2.data 6 =
      (List.range 5).map (fun i => UInt8.ofNat (i + 1) ^^^ xchacha tKey (tId.take 24) i) := by
  decide +kernel

/-- C48: if paths are read from standard input and success is reported, then every line names a chunk whose twin exists,
and unless that existed before the run it holds the conversion of the chunk; nothing else has been created.  Missing: as
for one file, and runs in which a system call fails. -/
theorem C48_list_partial (T : Tool) (spec : Bytes) (w w' : World) (hf : Fresh w) (he : Sys.err ∉ w.sys)
    (h : toolMain T [str "crypt", spec] w = (.ok true, w')) :
    ∃ key ls, KeyOf T.getenv w spec key ∧ InputLines T.stdin ls ∧
      (∀ l ∈ ls, ∃ t p name id q o, CText l t ∧ CutAtBreak t p ∧ LastPart p name ∧ (ChunkName name id ∨ OddName name id) ∧
        (Twins p q ∨ Twins q p) ∧ w'.dir q = some o ∧
        (w.dir q = none → ∃ i, w'.dir p = some i ∧ (w'.data o).length = (w'.data i).length ∧
          ((w'.data i).length < 2 ^ 32 → Converted key id (w'.data i) (w'.data o)))) ∧
      ∀ q o, w.dir q = none → w'.dir q = some o → ∃ p, Twins p q ∨ Twins q p := by
  have hrule : wp (toolMain T [str "crypt", spec]) (fun ok w' => ok = true →
      ∃ key, KeyOf T.getenv w spec key ∧ Outs key w w' ∧
        ∀ l ∈ fgetsLines [] T.stdin, ∃ id q, chunkIdFromPath (chomp (cstr l)) = some id ∧ derivedOutput (chomp (cstr l)) = some q ∧ (w'.dir q).isSome = true)
      (fun _ _ => True) w := by
    rw [toolMain_crypt]
    unfold doCrypt
    simp only
    split
    · exact wp_pure (by simp)
    · refine wp_bind (wp_mono wp_parseKeyspec (fun a w1 h => ?_) (fun s w1 h => trivial))
      obtain ⟨h1, h2, _⟩ := h
      cases a with
      | none => exact wp_pure (by simp)
      | some key =>
        have hkey : KeyOf T.getenv w spec key := (specKey_iff _ _ _ _).mp (h2 key rfl)
        refine wp_mono (wp_cryptLines (w0 := w1) (key := key) _ _ w1 rfl (h1.fresh hf) (fun h => he (h1.sys.subset h)) (Keeps.refl _ _) ?_)
          (fun ok w2 h hok => ?_) (fun s w2 h => trivial)
        · intro q o h1 h2; rw [h1] at h2; cases h2
        · obtain ⟨g1, _, g3⟩ := h.2 hok
          refine ⟨key, hkey, ?_, g3⟩
          intro q o hq ho
          exact g1 q o (by rw [h1.same]; exact hq) ho
  unfold wp at hrule
  rw [h] at hrule
  obtain ⟨key, h1, h2, h3⟩ := hrule rfl
  obtain ⟨l1, l2, l3⟩ := fgetsLines_spec T.stdin [] (by simp) (by simp)
  refine ⟨key, fgetsLines [] T.stdin, h1, ⟨l1, l2, l3⟩, ?_, ?_⟩
  · intro l hl
    obtain ⟨id, q, g1, g2, g3⟩ := h3 l hl
    obtain ⟨o, ho⟩ := Option.isSome_iff_exists.1 g3
    obtain ⟨name, n1, n2⟩ := (chunkIdFromPath_iff _ _).1 g1
    refine ⟨cstr l, chomp (cstr l), name, id, q, o, cstr_text l, chomp_cut _, n1, n2, ((C46_derived_name _).1 q g2).1, ho, ?_⟩
    intro hq
    obtain ⟨p, id', i, k1, k2, k3, k4, k5⟩ := h2 q o hq ho
    have hp : p = chomp (cstr l) := by
      have a := derived_back k1
      rw [derived_back g2] at a
      exact (Option.some.inj a).symm
    subst hp
    rw [g1] at k2
    cases k2
    refine ⟨i, k3, by rw [k4, convBuf_length], fun hs => by rw [k4]; exact convBuf_small hs⟩
  · intro q o hq ho
    obtain ⟨p, _, _, k1, _⟩ := h2 q o hq ho
    exact ⟨p, ((C46_derived_name p).1 q k1).1⟩

/-- Two lines, the second without line feed and naming the file that the first one makes. -/
example : (toolMain (tTool (str "d/" ++ tName ++ [13, 10] ++ str "d/" ++ tName ++ str ".enc")) [str "crypt", tSpec] (tWorld (List.replicate 7 (.some 9)))).1 = .ok true ∧
    (toolMain (tTool (str "d/" ++ tName ++ [13, 10] ++ str "d/" ++ tName ++ str ".enc")) [str "crypt", tSpec] (tWorld (List.replicate 7 (.some 9)))).2.data 6 =
      (List.range 5).map (fun i => UInt8.ofNat (i + 1) ^^^ xchacha tKey (tId.take 24) i) := by
  decide +kernel

/-- C48, conversely: if nothing fails, the key specification denotes a key and the input is a nonempty chunk below 4 GiB,
then the conversion is reported as successful (or killed). -/
theorem C48_succeeds (T : Tool) (spec input : Bytes) (output : Option Bytes) (w w' : World) (r : Res Bool) (key name : Bytes) (id : Id) (out : Bytes) (i : Nat)
    (hkey : KeyOf T.getenv w spec key) (hname : LastPart input name) (hc : ChunkName name id)
    (hout : output = some out ∨ output = none ∧ derivedOutput input = some out) (hcl : Clean w.sys) (hm : AllMem w.mem)
    (hsm : ∀ path ino, w.dir path = some ino → (w.data ino).length < 2 ^ 62)
    (hi : w.dir input = some i) (hk : w.kind i ≠ .other) (hl : (w.data i).length < 2 ^ 32) (h0 : w.data i ≠ [])
    (hT : out = str "-" → w.kind T.out ≠ .blk ∧ T.pos < 2 ^ 62)
    (h : toolMain T (str "crypt" :: spec :: input :: output.toList) w = (r, w')) : r = .ok true ∨ r = .stop .killed := by
  have hrule : wp (toolMain T (str "crypt" :: spec :: input :: output.toList)) (fun ok _ => ok = true) (fun s _ => s = .killed) w := by
    rw [toolMain_crypt]
    unfold doCrypt
    simp only
    rw [if_neg (by
      rintro (h | h | h)
      · cases output <;> simp at h
      · obtain ⟨s, hs, _⟩ := hkey
        cases hs <;> exact absurd h (by simp [streq, str])
      · obtain ⟨s, hs, _⟩ := hkey
        cases hs <;> exact absurd h (by simp [streq, str]))]
    refine wp_bind (wp_mono (wp_and (C43_keyspec T.getenv spec w) ((MemSuf.parseKeyspec T.getenv spec).wp wp_parseKeyspec)) (fun a w1 h => ?_) (fun s w1 h => h.1.1))
    obtain ⟨⟨_, _, h2⟩, ⟨h1, _, _⟩, hmem⟩ := h
    have := h2 hcl hm hsm key hkey
    subst this
    have hhead : output.toList.head? = output := by cases output <;> rfl
    simp only [hhead]
    have hdd : w1.dir = w.dir ∧ w1.data = w.data ∧ w1.kind = w.kind := by rw [h1.same]; exact ⟨rfl, rfl, rfl⟩
    obtain ⟨d1, d2, d3⟩ := hdd
    refine wp_bind (wp_mono (wp_encryptOne_ok (id := id) (out := out) (i := i) ((chunkIdFromPath_iff _ _).2 ⟨name, hname, Or.inl hc⟩) ?_ (hcl.suffix h1.sys) (AllMem.suffix hm hmem)
      (by rw [d1]; exact hi) (by rw [d3]; exact hk) (by rw [d2]; exact hl) (Or.inl (by rw [d2]; exact h0)) (by rw [d3]; exact hT)) (fun a w2 h => ?_) (fun s w2 h => h))
    · rcases hout with rfl | ⟨rfl, hd⟩
      · rfl
      · exact hd
    · obtain ⟨ok, ec'⟩ := a
      exact wp_pure h
  unfold wp at hrule
  rw [h] at hrule
  cases r with
  | ok a => left; rw [hrule]
  | stop s => right; rw [hrule]

example (sys : List Sys) (hc : Clean sys) : (toolMain (tTool []) [str "crypt", tSpec, str "d/" ++ tName] (tWorld sys)).1 = .ok true ∨
    (toolMain (tTool []) [str "crypt", tSpec, str "d/" ++ tName] (tWorld sys)).1 = .stop .killed :=
  C48_succeeds (tTool []) tSpec (str "d/" ++ tName) none (tWorld sys) (toolMain (tTool []) [str "crypt", tSpec, str "d/" ++ tName] (tWorld sys)).2 _
    tKey tName tId (str "d/" ++ tName ++ str ".enc") 1
    ⟨_, .key _, by decide +kernel, (parseHex_iff (n := 32) (by decide +kernel) _).mp (by decide +kernel)⟩
    (show LastPart _ tName from ⟨by decide +kernel, str "d/", rfl, Or.inr (by decide)⟩) tName_chunk (Or.inr ⟨rfl, by decide +kernel⟩) hc (by intro b hb; cases hb)
    (by
      intro p i _
      simp only [tWorld]
      split
      · simp
      · split <;> simp)
    rfl (by simp [tWorld]) (by simp [tWorld]) (by simp [tWorld]) (fun h => absurd h (by decide +kernel)) rfl

/-- C48 is false: after a run that was killed while writing, the next one reports success, but the output is only part of
the conversion. -/
theorem C48_refuted : ∃ (T : Tool) (args : List Bytes) (w : World) (more : List Sys) (q : Bytes) (o i : Nat), Fresh w ∧ w.dir q = none ∧
    (toolMain T args w).1 = .stop .killed ∧
    (toolMain T args { (toolMain T args w).2 with sys := more }).1 = .ok true ∧
    (toolMain T args { (toolMain T args w).2 with sys := more }).2.dir q = some o ∧
    w.dir (str "d/" ++ tName) = some i ∧ args = [str "crypt", tSpec, str "d/" ++ tName, q] ∧
    ((toolMain T args { (toolMain T args w).2 with sys := more }).2.data o).length < (w.data i).length :=
  ⟨tTool [], [str "crypt", tSpec, str "d/" ++ tName, str "new"], tWorld (List.replicate 5 (.some 2) ++ [.some 1, .some 1]), List.replicate 9 (.some 99), str "new", 6, 1,
    tWorld_fresh _, by decide +kernel, by decide +kernel, by decide +kernel, by decide +kernel, by decide +kernel, rfl, by decide +kernel⟩

end Csn.Props
