import Verif.Spec.Log
import Verif.Props.Ui
/-
C65: what the log calls of the tools print.
-/
namespace Csn.Props
open Csn Csn.Spec

theorem decLoop_eq : ∀ (fuel n : Nat) (acc : Bytes) (acc' : List Char), acc = acc'.map (fun c => c.toNat.toUInt8) →
    decLoop fuel n acc = (Nat.toDigitsCore 10 fuel n acc').map (fun c => c.toNat.toUInt8) := by
  intro fuel
  induction fuel with
  | zero => intro n acc acc' h; simpa [decLoop, Nat.toDigitsCore] using h
  | succ fuel ih =>
    intro n acc acc' h
    have hd : UInt8.ofNat (0x30 + n % 10) = (Nat.digitChar (n % 10)).toNat.toUInt8 := by
      have : n % 10 < 10 := Nat.mod_lt _ (by omega)
      generalize n % 10 = k at this
      match k, this with
      | 0, _ | 1, _ | 2, _ | 3, _ | 4, _ | 5, _ | 6, _ | 7, _ | 8, _ | 9, _ => decide
    simp only [decLoop, Nat.toDigitsCore]
    by_cases h0 : n / 10 = 0
    · rw [if_pos h0, if_pos h0, List.map_cons, h, hd]
    · rw [if_neg h0, if_neg h0]
      apply ih
      rw [List.map_cons, h, hd]

theorem fmtDec_eq (n : Nat) : fmtDec n = decimal n := by
  unfold fmtDec decimal str
  rw [decLoop_eq (n + 1) n [] [] rfl]
  simp [toString, Nat.repr, Nat.toDigits]

theorem vfprintf_plain (ren : Bytes → LogArg → Bytes) (f : Bytes) (as : List LogArg) : ∀ p : Bytes, (0x25 : UInt8) ∉ p →
    vfprintf ren none (p ++ f) as = (vfprintf ren none f as).map (p ++ ·) := by
  intro p
  induction p with
  | nil => intro _; simp
  | cons c p ih =>
    intro h
    simp only [List.mem_cons, not_or] at h
    rw [List.cons_append, vfprintf, if_neg (by simpa using fun e => h.1 e.symm), ih h.2]
    simp [Option.map_map, Function.comp_def]

theorem vfprintf_end (ren : Bytes → LogArg → Bytes) (as : List LogArg) (g : Bytes) (h : (0x25 : UInt8) ∉ g) :
    vfprintf ren none g as = some g := by
  have := vfprintf_plain ren [] as g h
  simpa [vfprintf] using this

theorem shows_eq {ren : Bytes → LogArg → Bytes} {sp : Bytes} {a : LogArg} {t : Bytes} (h : Shows ren sp a t) : printArg ren sp a = t := by
  cases h with
  | text s => rfl
  | other a h => cases a with
    | str s => exact absurd rfl (h s)
    | _ => rfl

theorem vfprintf_conv (ren : Bytes → LogArg → Bytes) {sp : Bytes} {a : LogArg} (h : (sp, a.kind) ∈ conversions) (f : Bytes) (as : List LogArg) :
    vfprintf ren none (0x25 :: sp ++ f) (a :: as) = (vfprintf ren none f as).map (printArg ren sp a ++ ·) := by
  generalize hk : a.kind = k at h
  simp only [conversions, List.mem_cons, List.not_mem_nil, or_false, Prod.mk.injEq] at h
  rcases h with h | h | h | h | h | h | h | h | h | h | h | h | h | h | h <;> obtain ⟨rfl, rfl⟩ := h <;>
    simp [str, vfprintf, isModifier, convKind, hk]

theorem vfprintf_renders {ren : Bytes → LogArg → Bytes} {f : Bytes} {as : List LogArg} {o : Bytes} (h : Renders ren f as o) (g : Bytes)
    (hg : (0x25 : UInt8) ∉ g) : vfprintf ren none (f ++ g) as = some (o ++ g) := by
  induction h with
  | nil as => simpa using vfprintf_end ren as g hg
  | char c f as o hc _ ih => rw [List.cons_append, vfprintf, if_neg (by simpa using hc), ih]; rfl
  | percent f as o _ ih => simp [vfprintf, ih]
  | conv sp a t f as o hm hs _ ih =>
    rw [show 0x25 :: sp ++ f ++ g = 0x25 :: sp ++ (f ++ g) by simp, vfprintf_conv ren hm, ih, shows_eq hs]
    simp

theorem lastIdx_split (dir file : Bytes) (hfile : (0x2f : UInt8) ∉ file) : lastIdx 0x2f (dir ++ 0x2f :: file) = some dir.length := by
  unfold lastIdx
  have : (dir ++ 0x2f :: file).reverse.findIdx? (· == 0x2f) = some file.length := by
    rw [List.findIdx?_eq_some_iff_getElem]
    refine ⟨by simp, ?_, ?_⟩
    · simp
    · intro j hj
      have : (dir ++ 0x2f :: file).reverse[j]? = file.reverse[j]? := by
        rw [List.reverse_append, List.reverse_cons, List.append_assoc, List.getElem?_append_left (by simpa using hj)]
      rw [List.getElem?_eq_getElem (by simp; omega), List.getElem?_eq_getElem (by simpa using hj)] at this
      injection this with this
      rw [this]
      have := List.getElem_mem (l := file.reverse) (n := j) (by simpa using hj)
      simp only [List.mem_reverse] at this
      intro e
      exact hfile (by simpa using (beq_iff_eq.1 e) ▸ this)
  rw [this]
  simp

/-- A directory prefix of a path: empty or ending with a slash. -/
def DirPart (dir : Bytes) : Prop := dir = [] ∨ ∃ d, dir = d ++ [0x2f]

theorem logFile_split {dir file : Bytes} (hdir : DirPart dir) (hfile : (0x2f : UInt8) ∉ file) : logFile (dir ++ file) = file := by
  rcases hdir with rfl | ⟨d, rfl⟩
  · have : lastIdx 0x2f file = none := by
      unfold lastIdx
      have : file.reverse.findIdx? (· == 0x2f) = none := by
        rw [List.findIdx?_eq_none_iff]
        intro x hx
        simp only [List.mem_reverse] at hx
        simp only [beq_eq_false_iff_ne, ne_eq]
        exact fun e => hfile (e ▸ hx)
      rw [this]
    unfold logFile
    rw [List.nil_append, this]
  · unfold logFile
    rw [List.append_assoc, List.singleton_append, lastIdx_split d file hfile]
    simp

theorem uLog_eq (ren : Bytes → LogArg → Bytes) (threshold : Level) (tty : Bool) (level : Level) {dir file : Bytes} (hdir : DirPart dir)
    (hfile : (0x2f : UInt8) ∉ file) (func : Bytes) (line : Nat) (format : Bytes) (args : List LogArg) (hs : AtLeast level threshold) :
    uLog ren threshold tty level (dir ++ file) func line format args =
      vfprintf ren none ((lineStart tty level file func line ++ format ++ lineEnd tty).take 127) args := by
  have hl : (checkLevel threshold level == false) = false := by
    have := atLeast_iff.1 hs
    unfold checkLevel
    rw [if_neg (by omega)]; rfl
  unfold uLog
  rw [if_neg (by simp [hl]), logFile_split hdir hfile]
  simp only [fmtDec_eq, logBuf]
  cases tty with
  | true =>
    have : decimal (colorMap level) = decimal (labels level).2 := by cases level <;> rfl
    simp only [lineStart, lineEnd, if_true, this]
    simp [str]
  | false =>
    have : levelMap level = str (labels level).1 := by cases level <;> rfl
    simp only [lineStart, lineEnd, this]
    simp [str]

theorem decLoop_digits : ∀ (fuel n : Nat) (acc : Bytes), (0x25 : UInt8) ∉ acc → (0x25 : UInt8) ∉ decLoop fuel n acc := by
  intro fuel
  induction fuel with
  | zero => intro n acc h; exact h
  | succ fuel ih =>
    intro n acc h
    have h' : (0x25 : UInt8) ∉ UInt8.ofNat (0x30 + n % 10) :: acc := by
      simp only [List.mem_cons, not_or]
      refine ⟨?_, h⟩
      have : n % 10 < 10 := Nat.mod_lt _ (by omega)
      generalize n % 10 = k at this
      match k, this with
      | 0, _ | 1, _ | 2, _ | 3, _ | 4, _ | 5, _ | 6, _ | 7, _ | 8, _ | 9, _ => decide
    simp only [decLoop]
    split
    · exact h'
    · exact ih _ _ h'

theorem decimal_digits (n : Nat) : (0x25 : UInt8) ∉ decimal n := by
  rw [← fmtDec_eq]; exact decLoop_digits _ _ _ (by simp)

theorem decimal_short {n : Nat} (h : n < 1000) : (decimal n).length ≤ 3 := by
  rw [← fmtDec_eq]
  unfold fmtDec
  match n with
  | 0 => decide
  | 1 => decide
  | n + 2 =>
    simp only [decLoop]
    repeat' split
    all_goals first | simp; done | skip
    all_goals (exfalso; omega)

theorem lineStart_plain (tty : Bool) (level : Level) {file func : Bytes} (hpf : (0x25 : UInt8) ∉ file) (hpn : (0x25 : UInt8) ∉ func) (line : Nat) :
    (0x25 : UInt8) ∉ lineStart tty level file func line := by
  have hd := decimal_digits line
  have hl : (0x25 : UInt8) ∉ str (labels level).1 ∧ (0x25 : UInt8) ∉ decimal (labels level).2 :=
    ⟨by cases level <;> decide, decimal_digits _⟩
  unfold lineStart
  split
  · simp only [List.mem_append, List.mem_cons, not_or]
    exact ⟨⟨⟨⟨⟨⟨⟨⟨⟨by decide, by decide⟩, hl.2⟩, by decide⟩, hpf⟩, by decide⟩, hpn⟩, by decide⟩, hd⟩, by decide⟩
  · simp only [List.mem_append, not_or]
    exact ⟨⟨⟨⟨⟨⟨⟨hl.1, by decide⟩, hpf⟩, by decide⟩, hpn⟩, by decide⟩, hd⟩, by decide⟩

/-- **C65** (single calls): a message of sufficient severity whose format, together with what is put around it, has at most
127 bytes is printed as one complete line, for all arguments. -/
theorem C65_line (ren : Bytes → LogArg → Bytes) (threshold : Level) (tty : Bool) (level : Level) {dir file : Bytes} (hdir : DirPart dir)
    (hfile : (0x2f : UInt8) ∉ file) (func : Bytes) (hpf : (0x25 : UInt8) ∉ file) (hpn : (0x25 : UInt8) ∉ func) (line : Nat)
    (format : Bytes) (args : List LogArg) (msg : Bytes) (hr : Renders ren format args msg)
    (hfit : (lineStart tty level file func line ++ format ++ lineEnd tty).length < 128) :
    (AtLeast level threshold → uLog ren threshold tty level (dir ++ file) func line format args =
      some (lineStart tty level file func line ++ msg ++ lineEnd tty)) ∧
    (¬ AtLeast level threshold → uLog ren threshold tty level (dir ++ file) func line format args = some []) := by
  constructor
  · intro hs
    rw [uLog_eq ren threshold tty level hdir hfile func line format args hs, List.take_of_length_le (by omega), List.append_assoc, List.append_assoc,
      vfprintf_plain, vfprintf_renders hr]
    · rfl
    · unfold lineEnd; split <;> decide
    · exact lineStart_plain tty level hpf hpn line
  · intro hs
    unfold uLog
    have : checkLevel threshold level = false := by
      rw [atLeast_iff] at hs
      unfold checkLevel
      rw [if_pos (by omega)]
    rw [if_pos (by simp [this])]

/-- Check of a format against the types of the arguments, with the part of a conversion read so far. -/
def formatOk : Option Bytes → Bytes → List ArgKind → Bool
  | none, [], ks => ks.isEmpty
  | some _, [], _ => false
  | none, c :: f, ks => if c == 0x25 then formatOk (some []) f ks else formatOk none f ks
  | some sp, c :: f, ks =>
    if c == 0x25 && sp.isEmpty then formatOk none f ks
    else
      match ks with
      | [] => false
      | k :: ks' => if conversions.contains (sp ++ [c], k) then formatOk none f ks' else formatOk (some (sp ++ [c])) f (k :: ks')

theorem shows_any (ren : Bytes → LogArg → Bytes) (sp : Bytes) (a : LogArg) : ∃ t, Shows ren sp a t := by
  cases a with
  | str s => exact ⟨s, .text s⟩
  | _ => exact ⟨_, .other _ (by simp)⟩

theorem formatOk_renders (ren : Bytes → LogArg → Bytes) : ∀ (f : Bytes) (st : Option Bytes) (ks : List ArgKind), formatOk st f ks = true →
    ∀ args : List LogArg, args.map LogArg.kind = ks → ∃ o, Renders ren (match st with | none => f | some sp => 0x25 :: sp ++ f) args o := by
  intro f
  induction f with
  | nil =>
    intro st ks h args hk
    cases st with
    | none => exact ⟨[], .nil _⟩
    | some sp => simp [formatOk] at h
  | cons c f ih =>
    intro st ks h args hk
    cases st with
    | none =>
      simp only [formatOk] at h
      by_cases hc : c = 0x25
      · subst hc
        rw [if_pos (by rfl)] at h
        simpa using ih (some []) ks h args hk
      · rw [if_neg (by simpa using hc)] at h
        obtain ⟨o, ho⟩ := ih none ks h args hk
        exact ⟨c :: o, .char c f args o hc ho⟩
    | some sp =>
      simp only [formatOk] at h
      by_cases hc : (c == 0x25 && sp.isEmpty) = true
      · rw [if_pos hc] at h
        simp only [Bool.and_eq_true, beq_iff_eq, List.isEmpty_iff] at hc
        obtain ⟨rfl, rfl⟩ := hc
        obtain ⟨o, ho⟩ := ih none ks h args hk
        exact ⟨_, .percent f args o ho⟩
      · rw [if_neg hc] at h
        cases args with
        | nil => simp at hk; subst hk; simp at h
        | cons a as =>
          simp only [List.map_cons] at hk
          subst hk
          simp only at h
          by_cases hm : conversions.contains (sp ++ [c], a.kind) = true
          · rw [if_pos hm] at h
            obtain ⟨o, ho⟩ := ih none _ h as rfl
            obtain ⟨t, ht⟩ := shows_any ren (sp ++ [c]) a
            have := Renders.conv (sp ++ [c]) a t f as o (by simpa using hm) ht ho
            exact ⟨t ++ o, by simpa using this⟩
          · rw [if_neg hm] at h
            obtain ⟨o, ho⟩ := ih (some (sp ++ [c])) _ h (a :: as) rfl
            exact ⟨o, by simpa using ho⟩

/-- The call that does not fit (store-local.c:70-73). -/
def isLong (s : LogSite) : Bool := s.file == "store-local.c" && s.first == 70

/-- What has to be checked for an entry of the table. -/
def siteOk (s : LogSite) : Bool :=
  formatOk none (lit s.format) s.kinds && !(lit s.file).contains 0x2f && !(lit s.file).contains 0x25 && !(lit s.func).contains 0x25 &&
    decide (s.last < 1000) && (isLong s || decide ((lit s.file).length + (lit s.func).length + (lit s.format).length < 104))

theorem sites_ok : logSites.all siteOk = true := by decide +kernel

theorem lineStart_length (tty : Bool) (level : Level) (file func : Bytes) {line : Nat} (h : line < 1000) :
    (lineStart tty level file func line).length + (lineEnd tty).length ≤ 24 + file.length + func.length := by
  have := decimal_short h
  have hc : (decimal (labels level).2).length ≤ 3 := decimal_short (by cases level <;> decide)
  have hl : (str (labels level).1).length = 3 := by cases level <;> rfl
  unfold lineStart lineEnd
  cases tty with
  | true =>
    simp only [if_true, List.length_append, List.length_cons]
    rw [show (str "[38;5;").length = 6 from rfl, show (str "m").length = 1 from rfl, show (str ":").length = 1 from rfl,
      show (str "\t").length = 1 from rfl, show (str "[0m\n").length = 4 from rfl]
    omega
  | false =>
    simp only [if_false, Bool.false_eq_true, List.length_append, hl]
    rw [show (str " ").length = 1 from rfl, show (str ":").length = 1 from rfl, show (str "\n").length = 1 from rfl]
    omega

/-- **C65** (all calls but one): every log call of the tools other than the one in store-local.c:70-73 prints, whenever its
level is shown, one complete line with file, function, line and the message with all its arguments, whatever these are, and
prints nothing otherwise; there is no undefined behaviour. -/
theorem C65_sites_partial (s : LogSite) (hs : s ∈ logSites) (hne : ¬ (s.file = "store-local.c" ∧ s.first = 70))
    (ren : Bytes → LogArg → Bytes) (threshold : Level) (tty : Bool) (dir : Bytes) (hdir : DirPart dir) (line : Nat) (hline : line ≤ s.last)
    (args : List LogArg) (hargs : args.map LogArg.kind = s.kinds) :
    ∃ msg, Renders ren (lit s.format) args msg ∧
      (AtLeast s.level threshold → uLog ren threshold tty s.level (dir ++ lit s.file) (lit s.func) line (lit s.format) args =
        some (lineStart tty s.level (lit s.file) (lit s.func) line ++ msg ++ lineEnd tty)) ∧
      (¬ AtLeast s.level threshold → uLog ren threshold tty s.level (dir ++ lit s.file) (lit s.func) line (lit s.format) args = some []) := by
  have hok := List.all_eq_true.1 sites_ok s hs
  simp only [siteOk, Bool.and_eq_true, Bool.or_eq_true, decide_eq_true_eq, Bool.not_eq_true', isLong, beq_iff_eq] at hok
  obtain ⟨⟨⟨⟨⟨h1, h2⟩, h3⟩, h4⟩, h5⟩, h6⟩ := hok
  have h6 := h6.resolve_left hne
  obtain ⟨msg, hm⟩ := formatOk_renders ren (lit s.format) none s.kinds h1 args hargs
  refine ⟨msg, hm, C65_line ren threshold tty s.level hdir (by simpa using h2) (lit s.func) (by simpa using h3) (by simpa using h4) line
    (lit s.format) args msg hm ?_⟩
  have := lineStart_length tty s.level (lit s.file) (lit s.func) (line := line) (by omega)
  simp only [List.length_append]
  omega

theorem cut_message (ren : Bytes → LogArg → Bytes) (p q : Bytes) (hp : (0x25 : UInt8) ∉ p) (hq : (0x25 : UInt8) ∉ q) {a b c : BitVec 32} {as : List LogArg} :
    vfprintf ren none (p ++ (0x25 :: str "u" ++ (str " / " ++ (0x25 :: str "u" ++ (str " / " ++ (0x25 :: str "u" ++ q)))))) (.w4 a :: .w4 b :: .w4 c :: as) =
      some (p ++ (ren (str "u") (.w4 a) ++ str " / " ++ ren (str "u") (.w4 b) ++ str " / " ++ ren (str "u") (.w4 c)) ++ q) := by
  have hm : ∀ v : BitVec 32, (str "u", (LogArg.w4 v).kind) ∈ conversions := fun v => by simp [conversions, LogArg.kind]
  rw [vfprintf_plain ren _ _ _ hp, vfprintf_conv ren (hm a), vfprintf_plain ren _ _ _ (by decide), vfprintf_conv ren (hm b),
    vfprintf_plain ren _ _ _ (by decide), vfprintf_conv ren (hm c), vfprintf_end ren _ _ hq]
  simp [printArg]

/-- **C65 refuted** in general: the remaining call, which reports both sets of chunker parameters when a side-loaded index does
not match, is cut off by the buffer: the chosen parameters are missing, the line is not ended and on a terminal the colour is
not reset, whatever the arguments. -/
theorem C65_refuted : ∃ s ∈ logSites, s.file = "store-local.c" ∧ s.first = 70 ∧ ∀ (ren : Bytes → LogArg → Bytes) (threshold : Level) (a b c d e f : BitVec 32),
    (∃ msg, Renders ren (lit s.format) [.w4 a, .w4 b, .w4 c, .w4 d, .w4 e, .w4 f] msg) ∧
    [LogArg.w4 a, .w4 b, .w4 c, .w4 d, .w4 e, .w4 f].map LogArg.kind = s.kinds ∧
    let numbers := ren (str "u") (.w4 a) ++ str " / " ++ ren (str "u") (.w4 b) ++ str " / " ++ ren (str "u") (.w4 c)
    uLog ren threshold false s.level (lit s.file) (lit s.func) 70 (lit s.format) [.w4 a, .w4 b, .w4 c, .w4 d, .w4 e, .w4 f] =
      some (str "ERR store-local.c:store_sideload_index:70 chunker parameter mismatch between sideload index (" ++ numbers ++ str ")and chosen parameters") ∧
    uLog ren threshold true s.level (lit s.file) (lit s.func) 70 (lit s.format) [.w4 a, .w4 b, .w4 c, .w4 d, .w4 e, .w4 f] =
      some (0x1b :: str "[38;5;196mstore-local.c:store_sideload_index:70\tchunker parameter mismatch between sideload index (" ++ numbers ++ str ")and chosen par") := by
  refine ⟨⟨"store-local.c", 70, 73, "store_sideload_index", .err, "chunker parameter mismatch between sideload index (%u / %u / %u)and chosen parameters (%u / %u / %u)", [.w4, .w4, .w4, .w4, .w4, .w4]⟩,
    by decide +kernel, rfl, rfl, ?_⟩
  intro ren threshold a b c d e f
  have hs : AtLeast .err threshold := atLeast_iff.2 (Nat.zero_le _)
  refine ⟨formatOk_renders ren _ none [.w4, .w4, .w4, .w4, .w4, .w4] (by decide +kernel) _ rfl, rfl, ?_, ?_⟩
  · have := uLog_eq ren threshold false .err (dir := []) (.inl rfl) (file := lit "store-local.c") (by decide +kernel) (lit "store_sideload_index") 70
      (lit "chunker parameter mismatch between sideload index (%u / %u / %u)and chosen parameters (%u / %u / %u)")
      [.w4 a, .w4 b, .w4 c, .w4 d, .w4 e, .w4 f] hs
    rw [List.nil_append] at this
    rw [this, show (lineStart false .err (lit "store-local.c") (lit "store_sideload_index") 70 ++
        lit "chunker parameter mismatch between sideload index (%u / %u / %u)and chosen parameters (%u / %u / %u)" ++ lineEnd false).take 127 =
      str "ERR store-local.c:store_sideload_index:70 chunker parameter mismatch between sideload index (" ++
        (0x25 :: str "u" ++ (str " / " ++ (0x25 :: str "u" ++ (str " / " ++ (0x25 :: str "u" ++ str ")and chosen parameters"))))) by decide +kernel,
      cut_message ren _ _ (by decide +kernel) (by decide +kernel)]
  · have := uLog_eq ren threshold true .err (dir := []) (.inl rfl) (file := lit "store-local.c") (by decide +kernel) (lit "store_sideload_index") 70
      (lit "chunker parameter mismatch between sideload index (%u / %u / %u)and chosen parameters (%u / %u / %u)")
      [.w4 a, .w4 b, .w4 c, .w4 d, .w4 e, .w4 f] hs
    rw [List.nil_append] at this
    rw [this, show (lineStart true .err (lit "store-local.c") (lit "store_sideload_index") 70 ++
        lit "chunker parameter mismatch between sideload index (%u / %u / %u)and chosen parameters (%u / %u / %u)" ++ lineEnd true).take 127 =
      0x1b :: str "[38;5;196mstore-local.c:store_sideload_index:70\tchunker parameter mismatch between sideload index (" ++
        (0x25 :: str "u" ++ (str " / " ++ (0x25 :: str "u" ++ (str " / " ++ (0x25 :: str "u" ++ str ")and chosen par"))))) by decide +kernel,
      cut_message ren _ _ (by decide +kernel) (by decide +kernel)]

/-- A case of `C65_sites_partial`: the warning for a missing chunk (store.c:59), on a terminal. -/
example : ∃ s ∈ logSites, s.file = "store.c" ∧ s.first = 59 ∧ AtLeast s.level .info ∧
    uLog (fun _ _ => []) .info true s.level (str "/build/store.c") (lit s.func) 59 (lit s.format) [.str (str "c0ffee")] =
      some (0x1b :: str "[38;5;202mstore.c:store_chain_get_chunk:59\tchunk c0ffee not found in any store" ++ 0x1b :: str "[0m\n") :=
  ⟨⟨"store.c", 59, 59, "store_chain_get_chunk", .warn, "chunk %s not found in any store", [.str]⟩, by decide +kernel, rfl, rfl,
    atLeast_iff.2 (by decide), by decide +kernel⟩

end Csn.Props
