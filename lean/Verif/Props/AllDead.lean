import Verif.Props.Dead
/-
C96: runs in which all servers are out of order.
-/
namespace Csn.Props
open Csn Spec Proof

instance (tpath arg : Bytes) : Decidable (HttpArg tpath arg) := by unfold HttpArg; infer_instance

/-- How many of the stores are URLs. -/
def urlStores (tpath : Bytes) (stores : List Bytes) : Nat := stores.countP (fun a => decide (HttpArg tpath a))

/-- Total of `g` over the numbers of the URL stores, which are counted from `i` on. -/
def overUrls (tpath : Bytes) (g : Nat → Nat) : Nat → List Bytes → Nat
  | _, [] => 0
  | i, a :: l => (if HttpArg tpath a then g i else 0) + overUrls tpath g (i + 1) l

theorem overUrls_add (tpath : Bytes) (g g' : Nat → Nat) : ∀ (i : Nat) (l : List Bytes), overUrls tpath (fun k => g k + g' k) i l = overUrls tpath g i l + overUrls tpath g' i l
  | _, [] => rfl
  | i, a :: l => by
    simp only [overUrls, overUrls_add tpath g g' (i + 1) l]
    split <;> omega

theorem overUrls_one {tpath arg : Bytes} (ha : HttpArg tpath arg) (j : Nat) : ∀ (i : Nat) (l : List Bytes), i ≤ j → l[j - i]? = some arg →
    1 ≤ overUrls tpath (fun k => if j = k then 1 else 0) i l
  | _, [], _, h => by simp at h
  | i, a :: l, hi, h => by
    by_cases hj : j = i
    · subst hj
      rw [Nat.sub_self, List.getElem?_cons_zero, Option.some.injEq] at h
      subst h
      simp only [overUrls, if_pos ha, if_true]
      omega
    · rw [show j - i = j - (i + 1) + 1 by omega, List.getElem?_cons_succ] at h
      have := overUrls_one ha j (i + 1) l (by omega) h
      simp only [overUrls]
      omega

theorem overUrls_le {tpath : Bytes} {g : Nat → Nat} {B : Nat} : ∀ (i : Nat) (l : List Bytes), (∀ k a, l[k]? = some a → HttpArg tpath a → g (i + k) ≤ B) →
    overUrls tpath g i l ≤ B * urlStores tpath l
  | _, [], _ => by simp [overUrls]
  | i, a :: l, h => by
    have ih := overUrls_le (i + 1) l (fun k x hx hh => by
      have := h (k + 1) x (by simpa using hx) hh
      rw [show i + 1 + k = i + (k + 1) by omega]
      exact this)
    unfold urlStores at ih ⊢
    simp only [overUrls, List.countP_cons]
    split
    · next ha =>
      have := h 0 a (by simp) ha
      rw [if_pos (by simp [ha]), Nat.mul_add, Nat.mul_one]
      simp only [Nat.add_zero] at this
      omega
    · next ha =>
      rw [if_neg (by simp [ha])]
      simpa using ih

/-- Questions to URL stores. -/
def urlAsks (tpath : Bytes) (stores : List Bytes) (l : List Event) : Nat := overUrls tpath (fun k => timesAsked k l) 0 stores

theorem urlAsks_append (tpath : Bytes) (stores : List Bytes) (a b : List Event) : urlAsks tpath stores (a ++ b) = urlAsks tpath stores a + urlAsks tpath stores b := by
  unfold urlAsks
  rw [← overUrls_add]
  congr 1
  funext k
  exact timesAsked_append k a b

theorem urlAsks_ask {tpath arg : Bytes} {stores : List Bytes} {j : Nat} (h : stores[j]? = some arg) (ha : HttpArg tpath arg) (id : Id) (l : List Event) :
    1 + urlAsks tpath stores l ≤ urlAsks tpath stores (.ask j id :: l) := by
  have := overUrls_one ha j 0 stores (Nat.zero_le _) (by simpa using h)
  unfold urlAsks
  simp only [timesAsked]
  rw [overUrls_add]
  omega

theorem OnSchedule.urls {getenv : Bytes → Option Bytes} {w : World} {tpath : Bytes} {stores : List Bytes} {f : Event → Nat} {B : Nat} (hf : ∀ e, isNet e = false → f e = 0)
    (hB : ∀ url, sumOf f (retrySchedule url) ≤ B) : ∀ (n : Nat) (l : List Event), l.length ≤ n → OnSchedule (StoreUrl getenv w tpath stores) l → sumOf f l ≤ B * urlAsks tpath stores l
  | 0, l, hl, _ => by
    have : l = [] := List.length_eq_zero_iff.1 (by omega)
    subst this; simp [sumOf]
  | n + 1, l, hl, h => by
    rcases List.eq_nil_or_concat l with rfl | ⟨l, e, rfl⟩
    · simp [sumOf]
    · rw [List.concat_eq_append] at hl h ⊢
      rw [List.length_append, List.length_singleton] at hl
      cases he : isNet e with
      | false =>
        have := OnSchedule.urls hf hB n l (by omega) (fun a x b hx => h a x (b ++ [e]) (by simp [hx]))
        have hm : B * urlAsks tpath stores l ≤ B * urlAsks tpath stores (l ++ [e]) := Nat.mul_le_mul_left _ (by rw [urlAsks_append]; omega)
        rw [sumOf_append, show sumOf f [e] = 0 by simp [sumOf, hf e he]]
        omega
      | true =>
        obtain ⟨a1, k, id, a2, url, rfl, h1, ⟨arg, _, _, _, u1, u2, _⟩, h2⟩ := h l e [] (by simp) he
        have hi := OnSchedule.urls hf hB n a1 (by simp only [List.length_append, List.length_cons] at hl; omega) (fun a x b hx => h a x (b ++ .ask k id :: a2 ++ [e]) (by simp [hx]))
        have h3 := Nat.le_trans (sumOf_prefix f h2) (hB url)
        rw [sumOf_filter hf] at h3
        have e1 : sumOf f (a1 ++ .ask k id :: a2 ++ [e]) = sumOf f a1 + sumOf f (a2 ++ [e]) := by
          rw [List.append_assoc, List.cons_append, sumOf_append]
          congr 1
          simp [sumOf, hf (.ask k id) rfl]
        have e2 : urlAsks tpath stores a1 + 1 ≤ urlAsks tpath stores (a1 ++ .ask k id :: a2 ++ [e]) := by
          rw [List.append_assoc, List.cons_append, urlAsks_append]
          have := urlAsks_ask u1 u2 id (a2 ++ [e])
          omega
        have e3 := Nat.mul_le_mul_left B e2
        rw [Nat.mul_add] at e3
        omega

/-- **C96**: if the servers of all URL stores are out of order all the time, a run of csn or casync makes at most 110 requests and
waits at most 578.6 seconds for each of the stores that are URLs, altogether, whatever the length of the index. -/
theorem C96_all_down {env : Env} {posix : Bool} {argv0 tpath : Bytes} {args stores : List Bytes} {w w' : World} {o : Res Bool}
    (hn : NamesTarget posix argv0 args tpath stores)
    (hd : ∀ arg ∈ stores, HttpArg tpath arg → ∀ base frag key, BaseOf arg base frag → ParamsKey (KeyOf env.getenv w) (frag.getD []) key → Dead w.net base key.isSome)
    (hrun : appMain env posix argv0 args w = (o, w')) :
    ∃ evs, w'.log = w.log ++ evs ∧ requestsIn evs ≤ 110 * urlStores tpath stores ∧ waitedIn evs ≤ 578600000 * urlStores tpath stores := by
  obtain ⟨evs, h1, h2⟩ := C64_on_schedule hn hrun
  have h3 : urlAsks tpath stores evs ≤ 11 * urlStores tpath stores := by
    refine overUrls_le 0 stores (fun k arg hk ha => ?_)
    obtain ⟨evs', e, h4, _⟩ := C96_given_up hn hk ha (hd arg (List.mem_of_getElem? hk) ha) hrun
    rw [h1] at e
    rw [List.append_cancel_left e, Nat.zero_add]
    exact h4
  have g1 := fun f B hf hB => OnSchedule.urls (f := f) (B := B) hf hB _ evs (Nat.le_refl _) h2
  refine ⟨evs, h1, Nat.le_trans (g1 _ 10 ?_ ?_) (by omega), Nat.le_trans (g1 _ 52600000 ?_ ?_) (by omega)⟩
  · intro e he; cases e <;> first | rfl | cases he
  · intro url
    simp [sumOf, retrySchedule, List.range, List.range.loop]
  · intro e he; cases e <;> first | rfl | cases he
  · intro url
    simp [sumOf, retrySchedule, List.range, List.range.loop, backoff]

/-! ### A case: two servers that are not reached, and a local store -/

def twoWorld : World := { deadWorld with net := List.replicate 230 (fun _ => ⟨[], 7, none⟩) }

def twoRun : Res Bool × World := appMain syncEnv false (str "csn") [str "i", str "t", str "http://h", str "https://g", str "s"] twoWorld

theorem twoWorld_dead (base : Bytes) (enc : Bool) : Dead twoWorld.net base enc := by
  intro g hg id _
  rw [List.eq_of_mem_replicate hg]
  exact Or.inl ⟨rfl, by simp, by simp⟩

attribute [local irreducible] appMain in
example : ∃ evs, twoRun.2.log = twoWorld.log ++ evs ∧ requestsIn evs ≤ 220 ∧ waitedIn evs ≤ 1157200000 := by
  have h := C96_all_down (.csn (str "i") (str "t") [str "http://h", str "https://g", str "s"] (by decide +kernel))
    (fun _ _ _ _ _ _ _ _ => twoWorld_dead _ _) (show appMain syncEnv false (str "csn") [str "i", str "t", str "http://h", str "https://g", str "s"] twoWorld = (twoRun.1, twoRun.2) from rfl)
  rw [show urlStores (str "t") [str "http://h", str "https://g", str "s"] = 2 by decide] at h
  exact h

/-- The bounds are reached. -/
example : twoRun.1 = .ok true ∧ requestsIn twoRun.2.log = 220 ∧ waitedIn twoRun.2.log = 1157200000 := by
  refine ⟨?_, ?_, ?_⟩ <;> decide +kernel

end Csn.Props
