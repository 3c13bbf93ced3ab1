import Verif.Props.Avail
import Verif.Props.Tool
import Verif.Spec.Publish
/-
C77: what csn-tool publishes csn reproduces.
-/
namespace Csn.Props
open Csn Spec Proof

/-! ### The lines of standard input -/

theorem first_line {l rest : Bytes} {ls : List Bytes} (hl : l.length ≤ 4094) (h0 : 0x0a ∉ l) (h : InputLines (l ++ 0x0a :: rest) ls) :
    ∃ ls', ls = (l ++ [0x0a]) :: ls' ∧ InputLines rest ls' := by
  obtain ⟨h1, h2, h3⟩ := h
  cases ls with
  | nil => simp at h1
  | cons x ls =>
    simp only [List.flatten_cons] at h1
    obtain ⟨hx0, hx1, hx2⟩ := h2 x (by simp)
    have hx : x = l ++ [0x0a] := by
      by_cases hlen : x.length ≤ l.length
      · -- the piece ends within the line
        have hpre : x <+: l := by
          have : x <+: l ++ 0x0a :: rest := ⟨ls.flatten, h1⟩
          exact List.prefix_of_prefix_length_le this (List.prefix_append _ _) hlen
        cases ls with
        | nil =>
          have := congrArg List.length h1
          simp at this
          omega
        | cons y ls =>
          rcases h3 x (by simp [List.dropLast]) with h | h
          · exact absurd (hpre.subset (List.mem_of_getLast? h)) h0
          · omega
      · have hpre : l ++ [0x0a] <+: x := by
          have a : x <+: l ++ 0x0a :: rest := ⟨ls.flatten, h1⟩
          have b : l ++ [0x0a] <+: l ++ 0x0a :: rest := ⟨rest, by simp⟩
          exact List.prefix_of_prefix_length_le b a (by simp; omega)
        obtain ⟨t, ht⟩ := hpre
        cases t with
        | nil => simpa using ht.symm
        | cons c t =>
          exfalso
          apply hx2
          rw [← ht, List.dropLast_append_of_ne_nil (by simp)]
          simp
    subst hx
    refine ⟨ls, rfl, ?_, fun y hy => h2 y (by simp [hy]), fun y hy => ?_⟩
    · have : l ++ 0x0a :: rest = (l ++ [0x0a]) ++ rest := by simp
      rw [this] at h1
      exact List.append_cancel_left h1
    · refine h3 y ?_
      cases ls with
      | nil => simp at hy
      | cons z ls => simpa [List.dropLast] using Or.inr hy

theorem all_lines : ∀ (ps : List Bytes) (ls : List Bytes), (∀ p ∈ ps, p.length ≤ 4094 ∧ 0x0a ∉ p) →
    InputLines (ps.map (· ++ [0x0a])).flatten ls → ∀ p ∈ ps, p ++ [0x0a] ∈ ls
  | [], _, _, _ => by simp
  | p :: ps, ls, hp, h => by
    have e : ((p :: ps).map (· ++ [0x0a])).flatten = p ++ 0x0a :: (ps.map (· ++ [0x0a])).flatten := by simp
    rw [e] at h
    obtain ⟨ls', rfl, h'⟩ := first_line (hp p (by simp)).1 (hp p (by simp)).2 h
    intro q hq
    rcases List.mem_cons.1 hq with rfl | hq
    · simp
    · exact List.mem_cons_of_mem _ (all_lines ps ls' (fun r hr => hp r (by simp [hr])) h' q hq)

/-! ### Names of chunk files -/

theorem hexString_mem {id : Id} {c : UInt8} (h : c ∈ hexString id) : c ∈ str "0123456789abcdef" := by
  unfold hexString at h
  obtain ⟨b, _, hb⟩ := List.mem_flatMap.mp h
  have hx : ∀ n, n < 256 → (str "0123456789abcdef").getD (n / 16) 0 ∈ str "0123456789abcdef" ∧
    (str "0123456789abcdef").getD (n % 16) 0 ∈ str "0123456789abcdef" := by decide +kernel
  obtain ⟨h1, h2⟩ := hx b.toNat b.toNat_lt
  simp only [List.mem_cons, List.not_mem_nil, or_false] at hb
  rcases hb with hb | hb
  · rw [hb]; exact h1
  · rw [hb]; exact h2

/-- Characters of a chunk's path: those of the directory, and harmless ones. -/
theorem chunkUrl_mem {root : Bytes} {id : Id} {c : UInt8} (h : c ∈ chunkUrl root false id) : c ∈ root ∨ c ∈ str "0123456789abcdef/.kn" := by
  have e : ∀ x ∈ str "0123456789abcdef" ++ str "/" ++ str ".cacnk", x ∈ str "0123456789abcdef/.kn" := by decide
  unfold chunkUrl at h
  simp only [List.mem_append, Bool.false_eq_true, if_false, List.not_mem_nil, or_false] at h
  rcases h with ((((h | h) | h) | h) | h) | h
  · exact Or.inl h
  · exact Or.inr (e c (by simp [h]))
  · exact Or.inr (e c (by simp [hexString_mem (List.mem_of_mem_take h)]))
  · exact Or.inr (e c (by simp [h]))
  · exact Or.inr (e c (by simp [hexString_mem h]))
  · exact Or.inr (e c (by simp [h]))

theorem chunkUrl_length (root : Bytes) (id : Id) (hid : id.length = 32) : (chunkUrl root false id).length = root.length + 76 := by
  unfold chunkUrl
  have h1 : (str "/").length = 1 := by decide
  have h2 : (str ".cacnk").length = 6 := by decide
  simp only [List.length_append, List.length_take, hexString_length, hid, h1, h2, Bool.false_eq_true, if_false, List.length_nil]
  omega

theorem chunkUrl_last (root : Bytes) (id : Id) (hid : id.length = 32) : ∃ name, LastPart (chunkUrl root false id) name ∧ ChunkName name id := by
  refine ⟨hexString id ++ str ".cacnk", ⟨?_, root ++ str "/" ++ (hexString id).take 4 ++ str "/", ?_, Or.inr ?_⟩, hexString id, ?_, hexOf_hexString id, Or.inl rfl⟩
  · intro h
    rcases List.mem_append.1 h with h | h
    · exact absurd (hexString_mem h) (by decide)
    · exact absurd h (by decide)
  · unfold chunkUrl
    simp
  · rw [List.getLast?_append]
    rfl
  · rw [hexString_length, hid]

theorem chunkUrl_twins (root : Bytes) (id : Id) : Twins (chunkUrl root false id) (chunkUrl root true id) := by
  refine ⟨root ++ str "/" ++ (hexString id).take 4 ++ str "/" ++ hexString id, by simp [chunkUrl], ?_⟩
  have : str ".cacnk.enc" = str ".cacnk" ++ str ".enc" := by decide
  simp [chunkUrl, this]

/-! ### The encrypted files -/

/-- `csn-tool crypt`, given the paths of the chunk files in the directory `root`, leaves the encrypted files beside them. -/
theorem crypt_stock {env : Env} {T : Tool} {spec root : Bytes} {w w' : World} {cs : List Bytes} {key : Bytes} (hf : Fresh w) (he : Sys.err ∉ w.sys)
    (hroot : root.length ≤ 4015 ∧ 0 ∉ root ∧ 0x0a ∉ root ∧ 0x0d ∉ root) (hids : ∀ c ∈ cs, (env.H c).length = 32)
    (hstock : ∀ c ∈ cs, Stocked env w root c) (hnew : ∀ c ∈ cs, w.dir (chunkUrl root true (env.H c)) = none)
    (hin : T.stdin = (cs.map (fun c => chunkUrl root false (env.H c) ++ [0x0a])).flatten) (hkey : KeyOf T.getenv w spec key)
    (hrun : toolMain T [str "crypt", spec] w = (.ok true, w')) :
    ∀ c ∈ cs, ∃ i o I, w.dir (chunkUrl root false (env.H c)) = some i ∧ (w.data i).length < 2 ^ 32 ∧ (w.data i).take 4 = [0x28, 0xb5, 0x2f, 0xfd] ∧
      FrameOf env.zstd (w.data i) c I ∧ w'.dir (chunkUrl root true (env.H c)) = some o ∧ Converted key (env.H c) (w.data i) (w'.data o) := by
  obtain ⟨key', ls, h1, h2, h3, _⟩ := C48_list_partial T spec w w' hf he hrun
  have := keyOf_unique _ _ hkey h1
  subst this
  intro c hc
  obtain ⟨i, I, s1, s2, s3, s4⟩ := hstock c hc
  have hid := hids c hc
  have hin' : T.stdin = ((cs.map (fun c => chunkUrl root false (env.H c))).map (· ++ [0x0a])).flatten := by
    rw [hin, List.map_map]; rfl
  rw [hin'] at h2
  have hplain : ∀ x ∈ chunkUrl root false (env.H c), x ≠ 0 ∧ x ≠ 0x0a ∧ x ≠ 0x0d := by
    intro x hx
    rcases chunkUrl_mem hx with hx | hx
    · exact ⟨fun e => hroot.2.1 (e ▸ hx), fun e => hroot.2.2.1 (e ▸ hx), fun e => hroot.2.2.2 (e ▸ hx)⟩
    · exact (show ∀ x ∈ str "0123456789abcdef/.kn", x ≠ 0 ∧ x ≠ 0x0a ∧ x ≠ 0x0d by decide) x hx
  have hl : chunkUrl root false (env.H c) ++ [0x0a] ∈ ls := by
    refine all_lines _ ls ?_ h2 _ (List.mem_map.2 ⟨c, hc, rfl⟩)
    intro p hp
    obtain ⟨c', hc', rfl⟩ := List.mem_map.1 hp
    refine ⟨by rw [chunkUrl_length _ _ (hids c' hc')]; omega, fun hx => ?_⟩
    rcases chunkUrl_mem hx with hx | hx
    · exact hroot.2.2.1 hx
    · exact absurd hx (by decide)
  obtain ⟨t, p, name, id, q, o, g1, g2, g3, g4, g5, g6, g7⟩ := h3 _ hl
  have ht : t = chunkUrl root false (env.H c) ++ [0x0a] := by
    refine ctext_unique g1 ⟨fun h => ?_, Or.inl rfl⟩
    rcases List.mem_append.1 h with h | h
    · exact (hplain _ h).1 rfl
    · exact absurd h (by decide)
  subst ht
  have hp : p = chunkUrl root false (env.H c) := by
    refine cut_unique g2 (Or.inr ⟨[0x0a], [], by simp, by simp, ?_, by simp, ?_⟩)
    · intro x hx
      rw [List.mem_singleton.1 hx]
      exact Or.inr rfl
    · intro x hx hb
      have := hplain x (List.mem_of_getLast? hx)
      rcases hb with hb | hb
      · exact this.2.2 hb
      · exact this.2.1 hb
  subst hp
  obtain ⟨name', n1, n2⟩ := chunkUrl_last root (env.H c) hid
  have hid' : id = env.H c := by
    have a := (chunkIdFromPath_iff _ _).2 ⟨name, g3, g4⟩
    have b := (chunkIdFromPath_iff _ _).2 ⟨name', n1, Or.inl n2⟩
    rw [a] at b
    exact Option.some.inj b
  subst hid'
  have hq : q = chunkUrl root true (env.H c) := by
    rcases g5 with h | h
    · obtain ⟨x, e1, e2⟩ := h
      obtain ⟨y, f1, f2⟩ := chunkUrl_twins root (env.H c)
      have : x = y := List.append_cancel_right (e1.symm.trans f1)
      rw [e2, f2, this]
    · obtain ⟨x, _, e2⟩ := h
      obtain ⟨y, f1, _⟩ := chunkUrl_twins root (env.H c)
      have := congrArg List.getLast? (e2.symm.trans f1)
      exact absurd this (by simp [str])
  subst hq
  obtain ⟨j, k1, k2, k3⟩ := g7 (hnew c hc)
  have keep := C47_no_file_modified_partial T [str "crypt", spec] w hf he _ _ s1 (by simp)
  rw [hrun] at keep
  have : j = i := Option.some.inj (k1.symm.trans keep.1)
  subst this
  rw [keep.2.1] at k3
  exact ⟨j, o, I, s1, s2, s3, s4, g6, k3 s2⟩

theorem unmask_converted {key : Bytes} {id : Id} {f e : Bytes} {ks : Nat → UInt8} (hks : ∀ i, i < 2 ^ 38 → ks i = xchacha key (id.take 24) i)
    (hf : f.length < 2 ^ 32) (h : Converted key id f e) : unmask (some ks) e = f := by
  apply List.ext_getElem?
  intro i
  unfold unmask
  simp only [List.getElem?_mapIdx, h i]
  by_cases hi : i < f.length
  · rw [List.getElem?_eq_getElem hi]
    simp only [Option.map_some]
    rw [hks i (by omega), UInt8.xor_assoc, UInt8.xor_self, UInt8.xor_zero]
  · rw [List.getElem?_eq_none (by omega)]
    rfl

/-! ### The run of csn -/

theorem placed_mem : ∀ (cs : List (Nat × Id)) (o : Nat) (x : Nat × Nat × Id), x ∈ placed o cs → (x.2.1, x.2.2) ∈ cs
  | [], _, _, h => by simp [placed] at h
  | (l, i) :: cs, o, x, h => by
    simp only [placed, List.mem_cons] at h
    rcases h with rfl | h
    · simp
    · exact List.mem_cons_of_mem _ (placed_mem cs _ x h)

theorem total_placed {H : Bytes → Id} : ∀ (cs : List Bytes) (o : Nat),
    total ((placed o (cs.map (fun c => (c.length, H c)))).map (fun x => (⟨x.1, x.2.1, x.2.2⟩ : Seg))) = cs.flatten.length
  | [], _ => rfl
  | c :: cs, o => by
    have := total_placed (H := H) cs (o + c.length)
    simp only [total] at this ⊢
    simp only [List.map_cons, placed, List.sum_cons, List.flatten_cons, List.length_append]
    rw [this]

/-- If every chunk of the image can be had from the store `arg`, the image is reproduced. -/
theorem image_had {env : Env} {w w' : World} {ipath tpath arg : Bytes} {stores : List Bytes} {ti ii mi av ma : Nat} {cs : List Bytes} {o : Res Bool}
    (hsc : Scene env w ipath tpath stores) (hu : Usable env w ipath tpath stores) (ht : w.dir tpath = some ti) (hii : w.dir ipath = some ii)
    (hidx : w.data ii = encode mi av ma (cs.map (fun c => (c.length, env.H c)))) (henc : Encodable mi av ma (cs.map (fun c => (c.length, env.H c))))
    (hfit : ∀ c ∈ cs, c.length ≤ env.bufMax) (hdis : Distinct env w tpath stores cs)
    (hblk : w.kind ti = .blk → cs.flatten.length ≤ (w.data ti).length) (h63 : cs.flatten.length < 2 ^ 63) (harg : arg ∈ stores)
    (hsrc : ∀ c ∈ cs, ∀ off, Source env w tpath ⟨mi, av, ma⟩ arg ⟨off, c.length, env.H c⟩)
    (hrun : csnMain env (ipath :: tpath :: stores) w = (o, w')) : o = .stop .killed ∨ o = .ok true ∧ cs.flatten <+: w'.data ti := by
  have hwf := encode_wellFormed henc
  rw [← hidx] at hwf
  have hseg : delivered 0 (tableEntries (w.data ii) (cs.map (fun c => (c.length, env.H c))).length) =
      (placed 0 (cs.map (fun c => (c.length, env.H c)))).map (fun x => (⟨x.1, x.2.1, x.2.2⟩ : Seg)) := by
    rw [delivered_ascending 0 _ (by rw [hidx, encode_entries henc]; exact ascending_ends 0 _ (fun c hc => (henc.lens c hc).2)) (tableEntries_lt _ _),
      hidx, encode_entries henc, consecutive_ends]
  have hmem : ∀ s ∈ (placed 0 (cs.map (fun c => (c.length, env.H c)))).map (fun x => (⟨x.1, x.2.1, x.2.2⟩ : Seg)), ∃ c ∈ cs, s.len = c.length ∧ s.id = env.H c := by
    intro s hs
    obtain ⟨x, hx, rfl⟩ := List.mem_map.1 hs
    obtain ⟨c, hc, e⟩ := List.mem_map.1 (placed_mem _ _ _ hx)
    simp only [Prod.mk.injEq] at e
    exact ⟨c, hc, e.1.symm, e.2.symm⟩
  have htot := total_placed (H := env.H) cs 0
  have h1 : ∀ s ∈ (placed 0 (cs.map (fun c => (c.length, env.H c)))).map (fun x => (⟨x.1, x.2.1, x.2.2⟩ : Seg)), s.len ≠ 0 ∧ s.len ≤ env.bufMax := by
    intro s hs
    obtain ⟨c, hc, e1, _⟩ := hmem s hs
    rw [e1]
    exact ⟨Nat.pos_iff_ne_zero.1 (henc.lens (c.length, env.H c) (List.mem_map.2 ⟨c, hc, rfl⟩)).1, hfit c hc⟩
  have h2 : ∀ s ∈ (placed 0 (cs.map (fun c => (c.length, env.H c)))).map (fun x => (⟨x.1, x.2.1, x.2.2⟩ : Seg)),
      ∀ s' ∈ (placed 0 (cs.map (fun c => (c.length, env.H c)))).map (fun x => (⟨x.1, x.2.1, x.2.2⟩ : Seg)), s.id = s'.id → s.len = s'.len := by
    intro s hs s' hs' e
    obtain ⟨c, hc, e1, e2⟩ := hmem s hs
    obtain ⟨c', hc', e1', e2'⟩ := hmem s' hs'
    rw [e1, e1', hdis c' hc' c (Or.inl ⟨c, hc, rfl⟩) (by rw [← e2, ← e2', e])]
  have h3 : NoClash env w tpath stores ((placed 0 (cs.map (fun c => (c.length, env.H c)))).map (fun x => (⟨x.1, x.2.1, x.2.2⟩ : Seg))) := by
    intro s hs d hd e
    obtain ⟨c, hc, e1, e2⟩ := hmem s hs
    rw [e2] at hd e
    rw [e1, hdis c hc d (Or.inr hd) e]
  have h4 : Obtainable env w tpath ti ⟨mi, av, ma⟩ stores ((placed 0 (cs.map (fun c => (c.length, env.H c)))).map (fun x => (⟨x.1, x.2.1, x.2.2⟩ : Seg))) := by
    intro a s b e
    obtain ⟨c, hc, e1, e2⟩ := hmem s (by rw [e]; simp)
    refine Or.inr (Or.inr ⟨arg, harg, ?_⟩)
    have := hsrc c hc s.off
    rw [← e1, ← e2] at this
    exact this
  rcases C36_available_partial (p := ⟨mi, av, ma⟩) hsc hu ht hii hwf ⟨ii, mi, av, ma, _, hii, hwf, hseg.symm⟩ h1 h2 h3 (by rw [htot]; exact hblk) (by rw [htot]; exact h63) h4 hrun
    with h | ⟨rfl, _⟩
  · exact Or.inl h
  · obtain ⟨ti', h1, h2⟩ := C28_image_partial env w w' ipath tpath stores hsc mi av ma cs ii hii hidx henc (fun c hc d hd => hdis c hc d (Or.inl hd)) hrun
    rw [ht] at h1
    cases h1
    exact Or.inr ⟨rfl, h2⟩

/-! ### What a URL denotes is unique -/

theorem cut_last {x : UInt8} : ∀ {a a' b b' : Bytes}, a ++ x :: b = a' ++ x :: b' → x ∉ b → x ∉ b' → a = a' ∧ b = b'
  | [], [], _, _, e, _, _ => by simpa using e
  | [], y :: a', b, b', e, h, _ => by
    simp only [List.nil_append, List.cons_append, List.cons.injEq] at e
    exact absurd (by rw [e.2]; simp) h
  | y :: a, [], b, b', e, _, h => by
    simp only [List.nil_append, List.cons_append, List.cons.injEq] at e
    exact absurd (by rw [← e.2]; simp) h
  | y :: a, y' :: a', b, b', e, h, h' => by
    simp only [List.cons_append, List.cons.injEq] at e
    obtain ⟨e1, e2⟩ := cut_last e.2 h h'
    exact ⟨by rw [e.1, e1], e2⟩

theorem cut_first {x : UInt8} : ∀ {a a' b b' : Bytes}, a ++ x :: b = a' ++ x :: b' → x ∉ a → x ∉ a' → a = a' ∧ b = b'
  | [], [], _, _, e, _, _ => by simpa using e
  | [], y :: a', b, b', e, _, h => by
    simp only [List.nil_append, List.cons_append, List.cons.injEq] at e
    exact absurd (by rw [e.1]; simp) h
  | y :: a, [], b, b', e, h, _ => by
    simp only [List.nil_append, List.cons_append, List.cons.injEq] at e
    exact absurd (by rw [e.1]; simp) h
  | y :: a, y' :: a', b, b', e, h, h' => by
    simp only [List.cons_append, List.cons.injEq] at e
    simp only [List.mem_cons, not_or] at h h'
    obtain ⟨e1, e2⟩ := cut_first e.2 h.2 h'.2
    exact ⟨by rw [e.1, e1], e2⟩

theorem fragOf_unique {arg whole whole' : Bytes} {frag frag' : Option Bytes} (h : FragOf arg whole frag) (h' : FragOf arg whole' frag') :
    whole = whole' ∧ frag = frag' := by
  cases frag with
  | none =>
    cases frag' with
    | none => exact ⟨h.1.symm.trans h'.1, rfl⟩
    | some f => exact absurd (by rw [h'.1]; simp) h.2
  | some f =>
    cases frag' with
    | none => exact absurd (by rw [h.1]; simp) h'.2
    | some f' =>
      obtain ⟨e1, e2⟩ := cut_last (h.1.symm.trans h'.1) h.2 h'.2
      exact ⟨e1, by rw [e2]⟩

theorem baseOf_unique {arg base base' : Bytes} {frag frag' : Option Bytes} (h : BaseOf arg base frag) (h' : BaseOf arg base' frag') :
    base = base' ∧ frag = frag' := by
  obtain ⟨wh, h1, h2⟩ := h
  obtain ⟨wh', h1', h2'⟩ := h'
  obtain ⟨rfl, rfl⟩ := fragOf_unique h1 h1'
  refine ⟨?_, rfl⟩
  rcases h2 with h2 | ⟨h2, h3⟩
  · rcases h2' with h2' | ⟨_, h3'⟩
    · exact List.append_cancel_right (h2.symm.trans h2')
    · exact absurd h2 (h3' _)
  · rcases h2' with h2' | ⟨h2', _⟩
    · exact absurd h2' (h3 _)
    · exact h2.symm.trans h2'

theorem paramsKey_unique {P : Bytes → Bytes → Prop} (hP : ∀ s k k', P s k → P s k' → k = k') {frag : Bytes} {k k' : Option Bytes}
    (h : ParamsKey P frag k) (h' : ParamsKey P frag k') : k = k' := by
  have h0 : ∀ x : Bytes, [] ≠ str "encrypt=" ++ x := fun x e => absurd (congrArg List.length e) (by simp [str])
  induction h generalizing k' with
  | empty =>
    generalize hx : ([] : Bytes) = x at h'
    cases h' with
    | empty => rfl
    | last spec k _ _ => exact absurd hx (h0 _)
    | more spec k rest key _ _ _ => exact absurd (hx.trans (List.append_assoc _ _ _)) (h0 _)
  | last spec k h1 h2 =>
    generalize hx : str "encrypt=" ++ spec = x at h'
    cases h' with
    | empty => exact absurd hx.symm (h0 _)
    | last spec' k' _ h2' =>
      have := List.append_cancel_left hx
      subst this
      rw [hP _ _ _ h2 h2']
    | more spec' k' rest key _ _ _ =>
      rw [List.append_assoc] at hx
      exact absurd (by rw [List.append_cancel_left hx]; simp) h1
  | more spec k rest key h1 h2 _ ih =>
    generalize hx : str "encrypt=" ++ spec ++ 0x2c :: rest = x at h'
    cases h' with
    | empty => exact absurd (hx.symm.trans (List.append_assoc _ _ _)) (h0 _)
    | last spec' k' h1' _ =>
      rw [List.append_assoc] at hx
      exact absurd (by rw [← List.append_cancel_left hx]; simp) h1'
    | more spec' k' rest' key' h1' h2' h3' =>
      rw [List.append_assoc, List.append_assoc] at hx
      obtain ⟨rfl, rfl⟩ := cut_first (List.append_cancel_left hx) h1 h1'
      rw [ih h3', hP _ _ _ h2 h2']

theorem url_unique {env : Env} {w : World} {arg base base' : Bytes} {frag frag' : Option Bytes} {k k' : Option Bytes} (hb : BaseOf arg base frag)
    (hk : ParamsKey (KeyOf env.getenv w) (frag.getD []) k) (hb' : BaseOf arg base' frag') (hk' : ParamsKey (SpecKey env.getenv w) (frag'.getD []) k') :
    base' = base ∧ k' = k := by
  obtain ⟨rfl, rfl⟩ := baseOf_unique hb hb'
  exact ⟨rfl, paramsKey_unique (fun _ => keyOf_unique) (ParamsKey.imp (fun s k hh => (specKey_iff _ _ _ _).mp hh) hk') hk⟩

/-- **C77**: chunk files, encrypted by `csn-tool crypt`, on a server give the image back.

A directory `root` has the compressed chunks of an image, the concatenation of `cs`; `csn-tool crypt` is given their paths on
standard input and reports success, and a server makes the result available below a URL.  Then a run of csn, with the index file of
the image and that URL with the same key among the stores, is killed or ends successfully with the image on the target. -/
theorem C77_encrypted {env : Env} {T : Tool} {wT wT' w w' : World} {spec root key ipath tpath arg base : Bytes} {frag : Option Bytes} {stores cs : List Bytes} {ti ii mi av ma B : Nat} {o : Res Bool}
    -- csn-tool
    (hf : Fresh wT) (he : Sys.err ∉ wT.sys) (hroot : root.length ≤ 4015 ∧ 0 ∉ root ∧ 0x0a ∉ root ∧ 0x0d ∉ root)
    (hstock : ∀ c ∈ cs, Stocked env wT root c) (hnew : ∀ c ∈ cs, wT.dir (chunkUrl root true (env.H c)) = none)
    (hin : T.stdin = (cs.map (fun c => chunkUrl root false (env.H c) ++ [0x0a])).flatten) (hkey : KeyOf T.getenv wT spec key)
    (htool : toolMain T [str "crypt", spec] wT = (.ok true, wT'))
    -- the server
    (harg : arg ∈ stores) (hhttp : HttpArg tpath arg) (hks : env.ks = encryptStream)
    (hb : BaseOf arg base frag) (hk : ParamsKey (KeyOf env.getenv w) (frag.getD []) (some key)) (hm : Mirrors env wT' root w.net base true cs)
    (han : Answers B w.net base true)
    -- csn
    (hsc : Scene env w ipath tpath stores) (hu : Usable env w ipath tpath stores) (ht : w.dir tpath = some ti) (hii : w.dir ipath = some ii)
    (hidx : w.data ii = encode mi av ma (cs.map (fun c => (c.length, env.H c)))) (henc : Encodable mi av ma (cs.map (fun c => (c.length, env.H c))))
    (hfit : ∀ c ∈ cs, c.length ≤ env.bufMax) (hdis : Distinct env w tpath stores cs)
    (hblk : w.kind ti = .blk → cs.flatten.length ≤ (w.data ti).length) (h63 : cs.flatten.length < 2 ^ 63)
    (hrun : csnMain env (ipath :: tpath :: stores) w = (o, w')) : o = .stop .killed ∨ o = .ok true ∧ cs.flatten <+: w'.data ti := by
  have hids : ∀ c ∈ cs, (env.H c).length = 32 := fun c hc => henc.ids (c.length, env.H c) (List.mem_map.2 ⟨c, hc, rfl⟩)
  have hfiles := crypt_stock hf he hroot hids hstock hnew hin hkey htool
  refine image_had hsc hu ht hii hidx henc hfit hdis hblk h63 harg ?_ hrun
  intro c hc off
  obtain ⟨i, j, I, _, f2, f3, f4, f5, f6⟩ := hfiles c hc
  refine .web B hhttp (fun base' frag' k' hb' hk' => ?_)
  obtain ⟨rfl, rfl⟩ := url_unique hb hk hb' hk'
  refine ⟨han, c, wT.data i, I, rfl, rfl, f4, f3, fun g hg hn => ?_⟩
  obtain ⟨m1, j', m2, m3⟩ := hm c hc g hg hn
  rw [f5] at m2
  cases m2
  refine ⟨m1, ?_⟩
  simp only [Option.map_some, Option.isSome_some]
  rw [m3]
  refine unmask_converted (fun n hn => ?_) f2 f6
  rw [hks, xchacha_take]
  exact encryptStream_eq _ _ _ hn

/-- **C77**, without encryption: the directory is served as it is. -/
theorem C77_plain {env : Env} {wT w w' : World} {root ipath tpath arg base : Bytes} {frag : Option Bytes} {stores cs : List Bytes} {ti ii mi av ma B : Nat} {o : Res Bool}
    (hstock : ∀ c ∈ cs, Stocked env wT root c) (harg : arg ∈ stores) (hhttp : HttpArg tpath arg)
    (hb : BaseOf arg base frag) (hk : ParamsKey (KeyOf env.getenv w) (frag.getD []) none) (hm : Mirrors env wT root w.net base false cs)
    (han : Answers B w.net base false)
    (hsc : Scene env w ipath tpath stores) (hu : Usable env w ipath tpath stores) (ht : w.dir tpath = some ti) (hii : w.dir ipath = some ii)
    (hidx : w.data ii = encode mi av ma (cs.map (fun c => (c.length, env.H c)))) (henc : Encodable mi av ma (cs.map (fun c => (c.length, env.H c))))
    (hfit : ∀ c ∈ cs, c.length ≤ env.bufMax) (hdis : Distinct env w tpath stores cs)
    (hblk : w.kind ti = .blk → cs.flatten.length ≤ (w.data ti).length) (h63 : cs.flatten.length < 2 ^ 63)
    (hrun : csnMain env (ipath :: tpath :: stores) w = (o, w')) : o = .stop .killed ∨ o = .ok true ∧ cs.flatten <+: w'.data ti := by
  refine image_had hsc hu ht hii hidx henc hfit hdis hblk h63 harg ?_ hrun
  intro c hc off
  obtain ⟨i, I, f1, _, f3, f4⟩ := hstock c hc
  refine .web B hhttp (fun base' frag' k' hb' hk' => ?_)
  obtain ⟨rfl, rfl⟩ := url_unique hb hk hb' hk'
  refine ⟨han, c, wT.data i, I, rfl, rfl, f4, f3, fun g hg hn => ?_⟩
  obtain ⟨m1, j', m2, m3⟩ := hm c hc g hg hn
  rw [f1] at m2
  cases m2
  exact ⟨m1, m3⟩

end Csn.Props
