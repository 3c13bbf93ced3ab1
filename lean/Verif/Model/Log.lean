import Verif.Model.Ui
import Verif.Model.Http
/-
Model of the output functions of log.c, with a table of the places that call `_u_log`.
-/
namespace Csn

/-- How an argument travels through `...` on the platforms the tools run on (LP64): 32-bit integer, 64-bit integer, string,
other pointer. -/
inductive ArgKind where
  | w4 | w8 | str | ptr
  deriving DecidableEq, Repr

/-- An argument of `_u_log` (log.c:52). -/
inductive LogArg where
  | w4 (v : BitVec 32) | w8 (v : BitVec 64) | str (s : Bytes) | ptr (v : BitVec 64)
  deriving DecidableEq, Repr

/-- The type of an argument (for log.c:99, which cannot see it). -/
def LogArg.kind : LogArg → ArgKind
  | .w4 _ => .w4 | .w8 _ => .w8 | .str _ => .str | .ptr _ => .ptr

/-- vfprintf (log.c:99): characters between `%` and the conversion character: flags and width digits, length modifiers. -/
def isModifier (c : UInt8) : Bool := (0x30 ≤ c && c ≤ 0x39) || c == 0x6c || c == 0x7a || c == 0x6a

/-- vfprintf (log.c:99): the argument a conversion with modifiers `sp` and conversion character `c` takes; `none` if this is
not a conversion. -/
def convKind (sp : Bytes) (c : UInt8) : Option ArgKind :=
  if c == 0x73 then (if sp.isEmpty then some .str else none)
  else if c == 0x70 then (if sp.isEmpty then some .ptr else none)
  else if (str "duxoc").contains c then (if sp.any (fun x => !(0x30 ≤ x && x ≤ 0x39)) then some .w8 else some .w4)
  else none

/-- vfprintf (log.c:99): print one argument.  `ren` is how the C library prints numbers and pointers for the conversion whose
characters after `%` are given. -/
def printArg (ren : Bytes → LogArg → Bytes) (conv : Bytes) : LogArg → Bytes
  | .str s => s
  | a => ren conv a

/-- vfprintf (log.c:99): the text printed for a format; the first argument is the part of a conversion read so far, if any.
`none` is undefined behaviour: an unknown or incomplete conversion, an argument that is missing or of another type. -/
def vfprintf (ren : Bytes → LogArg → Bytes) : Option Bytes → Bytes → List LogArg → Option Bytes
  | none, [], _ => some []
  | some _, [], _ => none
  | none, c :: f, as =>
    if c == 0x25 then vfprintf ren (some []) f as else (vfprintf ren none f as).map (c :: ·)
  | some sp, c :: f, as =>
    if c == 0x25 && sp.isEmpty then (vfprintf ren none f as).map (c :: ·)
    else if isModifier c then vfprintf ren (some (sp ++ [c])) f as
    else
      match as with
      | [] => none
      | a :: as =>
        if convKind sp c == some a.kind then (vfprintf ren none f as).map (printArg ren (sp ++ [c]) a ++ ·) else none

/-- `%d` of a non-negative number (log.c:74-76, 86-88), `fuel` at least the number of its digits. -/
def decLoop : Nat → Nat → Bytes → Bytes
  | 0, _, acc => acc
  | fuel + 1, n, acc =>
    let acc := UInt8.ofNat (0x30 + n % 10) :: acc
    if n / 10 = 0 then acc else decLoop fuel (n / 10) acc

/-- `%d` of a non-negative number (log.c:74-76, 86-88). -/
def fmtDec (n : Nat) : Bytes := decLoop (n + 1) n []

/-- log.c:67-72 `color_map` with log.c:39-42. -/
def colorMap : Level → Nat
  | .err => 196 | .warn => 202 | .info => 40 | .debug => 75

/-- log.c:79-84 `level_map`. -/
def levelMap : Level → Bytes
  | .err => str "ERR" | .warn => str "WRN" | .info => str "INF" | .debug => str "DBG"

/-- log.c:59-63: the part of the path after the last slash. -/
def logFile (path : Bytes) : Bytes :=
  match lastIdx 0x2f path with
  | some i => path.drop (i + 1)
  | none => path

/-- log.c:65 `sizeof(buf)` -/
def logBuf : Nat := 128

/-- log.c:52-101 `_u_log`: the bytes written to stderr; `none` is undefined behaviour.  `threshold` and `tty` are the static
variables `loglevel` and `is_tty`.  `snprintf` stores at most 127 characters and does not fail (log.c:92 is not reached).
All strings are C strings: no NUL bytes. -/
def uLog (ren : Bytes → LogArg → Bytes) (threshold : Level) (tty : Bool) (level : Level) (path func : Bytes) (line : Nat)
    (format : Bytes) (args : List LogArg) : Option Bytes :=
  if checkLevel threshold level == false then some []
  else
    let file := logFile path
    let whole :=
      if tty then
        0x1b :: str "[38;5;" ++ fmtDec (colorMap level) ++ str "m" ++ file ++ str ":" ++ func ++ str ":" ++ fmtDec line ++ [0x09]
          ++ format ++ 0x1b :: str "[0m" ++ [0x0a]
      else levelMap level ++ str " " ++ file ++ str ":" ++ func ++ str ":" ++ fmtDec line ++ str " " ++ format ++ [0x0a]
    let buf := whole.take (logBuf - 1)
    vfprintf ren none buf args

/-- `%x`, `fuel` at least the number of digits (for log.c:119). -/
def hexLoop : Nat → Nat → Bytes → Bytes
  | 0, _, acc => acc
  | fuel + 1, n, acc =>
    let acc := hexDigit (n % 16) :: acc
    if n / 16 = 0 then acc else hexLoop fuel (n / 16) acc

/-- `%04zx` (log.c:119): leading zeros up to four digits. -/
def fmt04x (n : Nat) : Bytes :=
  let d := hexLoop (n + 1) n []
  List.replicate (4 - d.length) 0x30 ++ d

/-- `%s` of the array `buff` (log.c:116, 140): the bytes before the first NUL.  Reading a byte that was never written or one
behind the array is undefined behaviour (`none`). -/
def printBuff : List (Option UInt8) → Option Bytes
  | [] => none
  | none :: _ => none
  | some c :: r => if c == 0 then some [] else (printBuff r).map (c :: ·)

/-- A store to `buff` (log.c:126-130); outside the array is undefined behaviour (`none`). -/
def setBuff (buff : List (Option UInt8)) (i : Nat) (c : UInt8) : Option (List (Option UInt8)) :=
  if i < buff.length then some (buff.set i (some c)) else none

/-- log.c:110-131: the loop over the data, from index `i`: what is printed, and `buff` afterwards.  `i` does not wrap: the data
has less than 2^64 bytes. -/
def dumpLoop : Bytes → Nat → List (Option UInt8) → Option (Bytes × List (Option UInt8))
  | [], _, buff => some ([], buff)
  | c :: rest, i, buff => do
    let start ←
      if i % 16 = 0 then
        if i ≠ 0 then (printBuff buff).map (fun t => str "  " ++ t ++ str "\n" ++ (str "  " ++ fmt04x i ++ str " "))
        else some (str "  " ++ fmt04x i ++ str " ")
      else some []
    let buff ← setBuff buff (i % 16) (if c < 0x20 || c > 0x7e then 0x2e else c)
    let buff ← setBuff buff (i % 16 + 1) 0
    let (out, buff) ← dumpLoop rest (i + 1) buff
    some (start ++ (str " " ++ hex2 c) ++ out, buff)

/-- log.c:133-137: pad the last line, `fuel` at least 16. -/
def padLoop : Nat → Nat → Bytes
  | 0, _ => []
  | fuel + 1, i => if i % 16 ≠ 0 then str "   " ++ padLoop fuel (i + 1) else []

/-- log.c:103-141 `hexdump`: what is printed on stdout, `none` for undefined behaviour.  `buff` starts indeterminate. -/
def hexdump (data : Bytes) : Option Bytes := do
  let (out, buff) ← dumpLoop data 0 (List.replicate 17 none)
  let t ← printBuff buff
  some (out ++ padLoop 16 data.length ++ (str "  " ++ t ++ str "\n"))

/-- The bytes of a C string literal (UTF-8), for the table below. -/
def lit (s : String) : Bytes := s.toByteArray.data.toList

/-- A place that calls `_u_log`: `__FILE__` without directories, the lines the call extends over (`__LINE__` is one of them),
`__func__`, the level, the format and the types of the arguments. -/
structure LogSite where
  file : String
  first : Nat
  last : Nat
  func : String
  level : Level
  format : String
  kinds : List ArgKind
  deriving DecidableEq

/-- All calls of `_u_log` in the files compiled into the tools: `u_log`, `u_log_errno` (log.h:18-24, which appends `": %s"`
and the text for errno), `u_assert`, `u_assert_se`, `u_assert_not_reached`, `u_notnull`, `checked` (utils.h:20-45, 106-111),
`curl_checked_setopt` (store-http.c:37-45); every entry names file and lines.  The `PRI` macros are those of an LP64 platform;
NDEBUG is not set.  `u_log_errno` is never called with a null format. -/
def logSites : List LogSite := [
  ⟨"caibx.c", 27, 27, "load_section_header", .err, "assertion failed: %s", [.str]⟩,
  ⟨"caibx.c", 28, 28, "load_section_header", .err, "assertion failed: %s", [.str]⟩,
  ⟨"caibx.c", 29, 29, "load_section_header", .err, "assertion failed: %s", [.str]⟩,
  ⟨"caibx.c", 32, 32, "load_section_header", .debug, "checked statement failed", []⟩,
  ⟨"caibx.c", 42, 42, "load_index_header", .err, "assertion failed: %s", [.str]⟩,
  ⟨"caibx.c", 45, 45, "load_index_header", .debug, "checked statement failed", []⟩,
  ⟨"caibx.c", 48, 48, "load_index_header", .err, "unexpected magic: %lx", [.w8]⟩,
  ⟨"caibx.c", 53, 53, "load_index_header", .warn, "unexpected index header length %lu", [.w8]⟩,
  ⟨"caibx.c", 55, 55, "load_index_header", .err, "index header length %luis too short", [.w8]⟩,
  ⟨"caibx.c", 60, 60, "load_index_header", .debug, "checked statement failed", []⟩,
  ⟨"caibx.c", 65, 65, "load_index_header", .err, "unsupported feature set: 0x%016lx", [.w8]⟩,
  ⟨"caibx.c", 75, 75, "load_index_header", .err, "incompatible chunker params given in file", []⟩,
  ⟨"caibx.c", 85, 85, "validate_table_header", .err, "assertion failed: %s", [.str]⟩,
  ⟨"caibx.c", 89, 89, "validate_table_header", .debug, "checked statement failed", []⟩,
  ⟨"caibx.c", 92, 93, "validate_table_header", .err, "invalid table magic, expected %016lx, got %016lx", [.w8, .w8]⟩,
  ⟨"caibx.c", 98, 98, "validate_table_header", .warn, "unexpected table size: %lu", [.w8]⟩,
  ⟨"caibx.c", 105, 105, "validate_table_footer", .err, "assertion failed: %s", [.str]⟩,
  ⟨"caibx.c", 109, 109, "validate_table_footer", .err, "failed to seek to end of chunk table: %s", [.str]⟩,
  ⟨"caibx.c", 114, 114, "validate_table_footer", .debug, "checked statement failed", []⟩,
  ⟨"caibx.c", 118, 118, "validate_table_footer", .err, "chunk table footer has invalid zero fill: 0x%lx", [.w8]⟩,
  ⟨"caibx.c", 123, 123, "validate_table_footer", .err, "chunk table footer has invalid zero fill: 0x%lx", [.w8]⟩,
  ⟨"caibx.c", 128, 129, "validate_table_footer", .err, "invalid index offset in footer, expected 0x%x, got 0x%lx", [.w4, .w8]⟩,
  ⟨"caibx.c", 136, 137, "validate_table_footer", .err, "invalid size in footer, expected %lu, got %lu", [.w8, .w8]⟩,
  ⟨"caibx.c", 142, 143, "validate_table_footer", .err, "invalid magic in footer, expected 0x%lx, got 0x%lx", [.w8, .w8]⟩,
  ⟨"caibx.c", 152, 152, "caibx_load_header", .err, "assertion failed: %s", [.str]⟩,
  ⟨"caibx.c", 153, 153, "caibx_load_header", .err, "assertion failed: %s", [.str]⟩,
  ⟨"caibx.c", 154, 154, "caibx_load_header", .err, "assertion failed: %s", [.str]⟩,
  ⟨"caibx.c", 157, 157, "caibx_load_header", .debug, "checked statement failed", []⟩,
  ⟨"caibx.c", 160, 160, "caibx_load_header", .err, "input index is too short (%jd bytes)", [.w8]⟩,
  ⟨"caibx.c", 165, 165, "caibx_load_header", .err, "got a fractional number of table entries", []⟩,
  ⟨"caibx.c", 171, 171, "caibx_load_header", .debug, "checked statement failed", []⟩,
  ⟨"caibx.c", 173, 173, "caibx_load_header", .debug, "checked statement failed", []⟩,
  ⟨"caibx.c", 174, 174, "caibx_load_header", .debug, "checked statement failed", []⟩,
  ⟨"caibx.c", 175, 175, "caibx_load_header", .debug, "checked statement failed", []⟩,
  ⟨"caibx.c", 177, 179, "caibx_load_header", .debug, "index has sizes %u / %u / %u and %zu entries", [.w4, .w4, .w4, .w8]⟩,
  ⟨"caibx.c", 187, 187, "caibx_iterate_entries", .err, "assertion failed: %s", [.str]⟩,
  ⟨"caibx.c", 188, 188, "caibx_iterate_entries", .err, "assertion failed: %s", [.str]⟩,
  ⟨"caibx.c", 189, 189, "caibx_iterate_entries", .err, "assertion failed: %s", [.str]⟩,
  ⟨"caibx.c", 194, 194, "caibx_iterate_entries", .debug, "checked statement failed", []⟩,
  ⟨"caibx.c", 200, 200, "caibx_iterate_entries", .err, "reading entry %zu failed", [.w8]⟩,
  ⟨"caibx.c", 213, 214, "caibx_iterate_entries", .warn, "chunk %s is too short: %lu < %u", [.str, .w8, .w4]⟩,
  ⟨"caibx.c", 217, 218, "caibx_iterate_entries", .warn, "chunk %s is too big : %lu > %u", [.str, .w8, .w4]⟩,
  ⟨"caibx.c", 228, 228, "caibx_iterate_entries", .warn, "skipping chunk %s", [.str]⟩,
  ⟨"chunk.c", 12, 12, "chunk_format_id", .err, "assertion failed: %s", [.str]⟩,
  ⟨"chunk.h", 16, 16, "chunk_calculate_id", .err, "assertion failed: %s", [.str]⟩,
  ⟨"chunker.c", 82, 83, "chunker_params_set", .err, "non-monotonic chunk size parameters: %lu / %lu / %lu", [.w8, .w8, .w8]⟩,
  ⟨"chunker.c", 90, 91, "chunker_params_set", .err, "unreasonably large chunk size parameters: %lu / %lu / %lu", [.w8, .w8, .w8]⟩,
  ⟨"chunker.c", 113, 113, "chunker_init", .err, "assertion failed: %s", [.str]⟩,
  ⟨"chunker.c", 147, 147, "chunker_scan", .err, "assertion failed: %s", [.str]⟩,
  ⟨"chunker.c", 148, 148, "chunker_scan", .err, "assertion failed: %s", [.str]⟩,
  ⟨"chunker.c", 209, 209, "chunker_get_id", .err, "assertion failed: %s", [.str]⟩,
  ⟨"chunker.c", 210, 210, "chunker_get_id", .err, "assertion failed: %s", [.str]⟩,
  ⟨"chunker.c", 218, 218, "chunker_scan_fd", .err, "assertion failed: %s", [.str]⟩,
  ⟨"chunker.c", 219, 219, "chunker_scan_fd", .err, "assertion failed: %s", [.str]⟩,
  ⟨"chunker.c", 225, 225, "chunker_scan_fd", .err, "initializing chunker failed", []⟩,
  ⟨"chunker.c", 232, 232, "chunker_scan_fd", .debug, "checked statement failed", []⟩,
  ⟨"chunker.c", 243, 243, "chunker_scan_fd", .err, "error at offset %lu while chunking: %s", [.w8, .str]⟩,
  ⟨"csn-bench.c", 26, 26, "bench_hash", .err, "kcapi init failed", []⟩,
  ⟨"csn-bench.c", 30, 30, "bench_hash", .info, "kcapi enabled with driver '%s'", [.str]⟩,
  ⟨"csn-bench.c", 37, 37, "bench_hash", .err, "failed to allocate buffer", []⟩,
  ⟨"csn-bench.c", 54, 54, "bench_hash", .err, "assertion failed: %s", [.str]⟩,
  ⟨"csn-bench.c", 62, 62, "bench_hash", .err, "assertion failed: %s", [.str]⟩,
  ⟨"csn-bench.c", 102, 102, "bench_chunker", .err, "assertion failed: %s", [.str]⟩,
  ⟨"csn-bench.c", 124, 124, "bench_chunker", .err, "assertion failed: %s", [.str]⟩,
  ⟨"csn-tool.c", 22, 22, "chunk_id_from_path", .err, "chunk basename '%s' has wrong length, expected 70 or 74, got %zu", [.str, .w8]⟩,
  ⟨"csn-tool.c", 27, 27, "chunk_id_from_path", .err, "chunk basename '%s' does not end with '.cacnk' or '.cacnk.enc'", [.str]⟩,
  ⟨"csn-tool.c", 44, 44, "encrypt_one", .err, "failed to derive chunk id from path", []⟩,
  ⟨"csn-tool.c", 53, 53, "encrypt_one", .err, "input path too long", []⟩,
  ⟨"csn-tool.c", 62, 62, "encrypt_one", .err, "input path too long", []⟩,
  ⟨"csn-tool.c", 70, 70, "encrypt_one", .err, "unsupported input path format", []⟩,
  ⟨"csn-tool.c", 80, 80, "encrypt_one", .err, "encrypt_restart failed", []⟩,
  ⟨"csn-tool.c", 87, 87, "encrypt_one", .err, "failed to load source chunk", []⟩,
  ⟨"csn-tool.c", 92, 92, "encrypt_one", .err, "encrypting chunk failed", []⟩,
  ⟨"csn-tool.c", 103, 103, "encrypt_one", .err, "failed to create output file: %s", [.str]⟩,
  ⟨"csn-tool.c", 109, 109, "encrypt_one", .err, "failed to write to output file", []⟩,
  ⟨"csn-tool.c", 136, 136, "do_crypt", .err, "failed to parse keyspec", []⟩,
  ⟨"csn-tool.c", 142, 142, "do_crypt", .err, "encrypt_init failed", []⟩,
  ⟨"encrypt.c", 91, 91, "encrypt_init", .err, "failed to create EVP_CIPHER_CTX", []⟩,
  ⟨"encrypt.c", 112, 112, "encrypt_restart", .err, "EVP_CIPHER_CTX_reset failed", []⟩,
  ⟨"encrypt.c", 117, 117, "encrypt_restart", .err, "EVP_CipherInit failed", []⟩,
  ⟨"encrypt.c", 157, 157, "encrypt_parse_keyspec", .err, "could not retrieve environment variable '%s'", [.str]⟩,
  ⟨"encrypt.c", 170, 170, "encrypt_parse_keyspec", .err, "unknown keyspec used in '%s'", [.str]⟩,
  ⟨"encrypt.c", 175, 175, "encrypt_parse_keyspec", .err, "encryption key must be exactly 64 hex characters, but is %zu long", [.w8]⟩,
  ⟨"encrypt.c", 180, 180, "encrypt_parse_keyspec", .err, "decoding encryption key failed", []⟩,
  ⟨"index.c", 9, 9, "index_init", .err, "assertion failed: %s", [.str]⟩,
  ⟨"index.c", 10, 10, "index_init", .err, "assertion failed: %s", [.str]⟩,
  ⟨"index.c", 13, 13, "index_init", .err, "%s is NULL", [.str]⟩,
  ⟨"index.c", 24, 24, "index_cleanup", .err, "assertion failed: %s", [.str]⟩,
  ⟨"index.c", 31, 31, "index_insert", .err, "assertion failed: %s", [.str]⟩,
  ⟨"index.c", 32, 32, "index_insert", .err, "assertion failed: %s", [.str]⟩,
  ⟨"index.c", 33, 33, "index_insert", .err, "assertion failed: %s", [.str]⟩,
  ⟨"index.c", 35, 35, "index_insert", .err, "assertion failed: %s", [.str]⟩,
  ⟨"index.c", 41, 42, "index_insert", .debug, "index %p exceeded designated space of %zu entries", [.ptr, .w8]⟩,
  ⟨"index.c", 47, 48, "index_insert", .err, "increasing size of entries array of index %p to %zu entries failed: %s", [.ptr, .w8, .str]⟩,
  ⟨"index.c", 79, 79, "index_sort", .err, "assertion failed: %s", [.str]⟩,
  ⟨"index.c", 89, 89, "index_query", .err, "assertion failed: %s", [.str]⟩,
  ⟨"index.c", 90, 90, "index_query", .err, "assertion failed: %s", [.str]⟩,
  ⟨"log.c", 33, 33, "u_log_init", .warn, "unknown loglevel '%s'", [.str]⟩,
  ⟨"main.c", 41, 42, "entry_cb", .err, "chunk length (%u) at offset %lu exceeds buffer size (%zu)", [.w4, .w8, .w8]⟩,
  ⟨"main.c", 60, 60, "entry_cb", .err, "result size %zd does not match expected length %u", [.w8, .w4]⟩,
  ⟨"main.c", 69, 69, "entry_cb", .err, "failed to store chunk to target", []⟩,
  ⟨"main.c", 93, 93, "append_store_from_arg", .err, "creating store from target failed", []⟩,
  ⟨"main.c", 99, 99, "append_store_from_arg", .err, "creating HTTP store from '%s' failed", [.str]⟩,
  ⟨"main.c", 111, 111, "append_store_from_arg", .err, "creating local store from '%s' failed", [.str]⟩,
  ⟨"main.c", 117, 117, "append_store_from_arg", .err, "appending store '%s' to store chain failed", [.str]⟩,
  ⟨"main.c", 135, 135, "csn", .err, "kcapi init failed", []⟩,
  ⟨"main.c", 139, 139, "csn", .debug, "kcapi enabled with driver '%s'", [.str]⟩,
  ⟨"main.c", 144, 144, "csn", .err, "opening index '%s' failed: %s", [.str, .str]⟩,
  ⟨"main.c", 149, 149, "csn", .err, "loading caibx header failed", []⟩,
  ⟨"main.c", 156, 156, "csn", .err, "creating target failed", []⟩,
  ⟨"main.c", 162, 162, "csn", .err, "creating storechain failed", []⟩,
  ⟨"main.c", 212, 212, "casync", .err, "opening index '%s' failed: %s", [.str, .str]⟩,
  ⟨"main.c", 217, 217, "casync", .err, "loading caibx header failed", []⟩,
  ⟨"main.c", 224, 224, "casync", .err, "creating target failed", []⟩,
  ⟨"main.c", 231, 231, "casync", .err, "creating storechain failed", []⟩,
  ⟨"main.c", 290, 290, "main", .err, "unimplemented app variant '%s'", [.str]⟩,
  ⟨"main.c", 295, 295, "main", .err, "initializing synchronization process failed", []⟩,
  ⟨"main.c", 300, 300, "main", .info, "init finished after %u seconds", [.w4]⟩,
  ⟨"main.c", 303, 303, "main", .info, "starting synchronization", []⟩,
  ⟨"main.c", 306, 306, "main", .err, "iterating entries failed", []⟩,
  ⟨"main.c", 311, 311, "main", .info, "synchronization finished after %u seconds", [.w4]⟩,
  ⟨"main.c", 313, 313, "main", .info, "skipped prefix of %zu chunks", [.w8]⟩,
  ⟨"patchdd.c", 39, 39, "main", .err, "opening source '%s' failed: %s", [.str, .str]⟩,
  ⟨"patchdd.c", 45, 45, "main", .err, "opening destination '%s' failed: %s", [.str, .str]⟩,
  ⟨"patchdd.c", 50, 50, "main", .debug, "checked statement failed", []⟩,
  ⟨"patchdd.c", 51, 51, "main", .debug, "checked statement failed", []⟩,
  ⟨"patchdd.c", 54, 55, "main", .err, "target size (%llu) is smaller than source size (%llu)", [.w8, .w8]⟩,
  ⟨"patchdd.c", 60, 61, "main", .info, "target size (%llu) is larger than source size (%llu)", [.w8, .w8]⟩,
  ⟨"patchdd.c", 96, 96, "main", .err, "fsync on target failed: %s", [.str]⟩,
  ⟨"sha.c", 30, 30, "sha_kcapi_init", .err, "creating AF_ALG socket failed: %s", [.str]⟩,
  ⟨"sha.c", 43, 43, "sha_kcapi_init", .err, "driver name too long", []⟩,
  ⟨"sha.c", 52, 52, "sha_kcapi_init", .err, "binding to AF_ALG socket failed: %s", [.str]⟩,
  ⟨"sha.c", 59, 59, "sha_kcapi_init", .err, "accepting hash instance socket failed: %s", [.str]⟩,
  ⟨"sha.c", 95, 95, "sha_once", .err, "send to kcapi failed: %s", [.str]⟩,
  ⟨"sha.c", 110, 110, "sha_once", .err, "recv from kcapi failed: %s", [.str]⟩,
  ⟨"sha.c", 113, 113, "sha_once", .err, "received unexpected number of bytes: %zd", [.w8]⟩,
  ⟨"sha.c", 120, 120, "sha_once", .err, "kcapi operation failed, disabling", []⟩,
  ⟨"store-http.c", 71, 72, "decode_buffer_absorb", .err, "incrementing decode buffer size %zu by %zu overflows", [.w8, .w8]⟩,
  ⟨"store-http.c", 78, 78, "decode_buffer_absorb", .err, "increasing decode buffer to %zu bytes failed", [.w8]⟩,
  ⟨"store-http.c", 81, 81, "decode_buffer_absorb", .debug, "increased decode buffer to %zu bytes", [.w8]⟩,
  ⟨"store-http.c", 92, 92, "decode_buffer_absorb", .err, "decryption failed", []⟩,
  ⟨"store-http.c", 115, 115, "handle_data", .warn, "data does not have zstd magic number", []⟩,
  ⟨"store-http.c", 120, 120, "handle_data", .err, "assertion failed: %s", [.str]⟩,
  ⟨"store-http.c", 137, 137, "handle_data", .err, "zstd decompression failed with error: %s", [.str]⟩,
  ⟨"store-http.c", 141, 142, "handle_data", .debug, "decompression consumed %zu out of %zu available bytes and produced %zu", [.w8, .w8, .w8]⟩,
  ⟨"store-http.c", 155, 155, "get_response_code", .err, "getting response code failed: %s", [.str]⟩,
  ⟨"store-http.c", 164, 164, "store_http_data_cb", .err, "assertion failed: %s", [.str]⟩,
  ⟨"store-http.c", 171, 171, "store_http_data_cb", .debug, "got response code %ld, failing request", [.w8]⟩,
  ⟨"store-http.c", 215, 215, "set_url", .err, "assertion failed: %s", [.str]⟩,
  ⟨"store-http.c", 223, 223, "set_url", .err, "setting up curl option %d failed: %s", [.w4, .str]⟩,
  ⟨"store-http.c", 248, 251, "retried_curl_easy_perform", .warn, "connection failed (%s%s%s), retrying %d more times", [.str, .str, .str, .w4]⟩,
  ⟨"store-http.c", 263, 263, "increase_error_counter", .warn, "increasing error counter to %d", [.w4]⟩,
  ⟨"store-http.c", 266, 266, "increase_error_counter", .err, "error counter exceeded %d, killing store", [.w4]⟩,
  ⟨"store-http.c", 282, 282, "store_http_get_chunk", .err, "setting request URL failed", []⟩,
  ⟨"store-http.c", 289, 289, "store_http_get_chunk", .err, "failed to re-initialize encryption", []⟩,
  ⟨"store-http.c", 301, 301, "store_http_get_chunk", .err, "setting up curl option %d failed: %s", [.w4, .str]⟩,
  ⟨"store-http.c", 303, 303, "store_http_get_chunk", .debug, "trying to fetch chunk from '%s'", [.str]⟩,
  ⟨"store-http.c", 309, 309, "store_http_get_chunk", .warn, "transient transfer failure, increasing error counter", []⟩,
  ⟨"store-http.c", 319, 319, "store_http_get_chunk", .err, "curl_easy_perform failed: %s", [.str]⟩,
  ⟨"store-http.c", 326, 326, "store_http_get_chunk", .err, "getting response code failed", []⟩,
  ⟨"store-http.c", 331, 331, "store_http_get_chunk", .debug, "got %ld from server", [.w8]⟩,
  ⟨"store-http.c", 336, 336, "store_http_get_chunk", .warn, "got unexpected HTTP response code %ld, increasing error counter", [.w8]⟩,
  ⟨"store-http.c", 347, 348, "store_http_get_chunk", .warn, "request for '%s' was successful, but response data was invalid", [.str]⟩,
  ⟨"store-http.c", 354, 355, "store_http_get_chunk", .warn, "decode buffer still contains %zu bytes at end of request", [.w8]⟩,
  ⟨"store-http.c", 370, 371, "store_http_get_chunk", .warn, "chunk id mismatch (expected %s, got %s)", [.str, .str]⟩,
  ⟨"store-http.c", 410, 410, "store_handle_params", .err, "parsing encryption config failed", []⟩,
  ⟨"store-http.c", 415, 415, "store_handle_params", .err, "failed to initialize encryption context", []⟩,
  ⟨"store-http.c", 421, 421, "store_handle_params", .err, "unhandled store parameters: %s", [.str]⟩,
  ⟨"store-http.c", 438, 438, "store_http_new", .err, "assertion failed: %s", [.str]⟩,
  ⟨"store-http.c", 441, 441, "store_http_new", .err, "initializing curl failed", []⟩,
  ⟨"store-http.c", 447, 447, "store_http_new", .err, "%s is NULL", [.str]⟩,
  ⟨"store-http.c", 450, 450, "store_http_new", .err, "%s is NULL", [.str]⟩,
  ⟨"store-http.c", 456, 456, "store_http_new", .err, "failed to parse store parameters", []⟩,
  ⟨"store-http.c", 471, 471, "store_http_new", .err, "%s is NULL", [.str]⟩,
  ⟨"store-http.c", 478, 478, "store_http_new", .err, "%s is NULL", [.str]⟩,
  ⟨"store-http.c", 480, 481, "store_http_new", .err, "setting up curl option %d failed: %s", [.w4, .str]⟩,
  ⟨"store-http.c", 483, 484, "store_http_new", .err, "setting up curl option %d failed: %s", [.w4, .str]⟩,
  ⟨"store-http.c", 486, 487, "store_http_new", .err, "setting up curl option %d failed: %s", [.w4, .str]⟩,
  ⟨"store-http.c", 489, 490, "store_http_new", .err, "setting up curl option %d failed: %s", [.w4, .str]⟩,
  ⟨"store-http.c", 492, 493, "store_http_new", .err, "setting up curl option %d failed: %s", [.w4, .str]⟩,
  ⟨"store-http.c", 496, 496, "store_http_new", .err, "%s is NULL", [.str]⟩,
  ⟨"store-local.c", 40, 40, "store_insert_index", .err, "inserting chunk at offset %lu failed", [.w8]⟩,
  ⟨"store-local.c", 56, 56, "store_sideload_index", .err, "opening index for sideloading failed: %s", [.str]⟩,
  ⟨"store-local.c", 63, 63, "store_sideload_index", .err, "parsing caibx header failed", []⟩,
  ⟨"store-local.c", 70, 73, "store_sideload_index", .err, "chunker parameter mismatch between sideload index (%u / %u / %u)and chosen parameters (%u / %u / %u)", [.w4, .w4, .w4, .w4, .w4, .w4]⟩,
  ⟨"store-local.c", 79, 79, "store_sideload_index", .err, "initializing index failed", []⟩,
  ⟨"store-local.c", 89, 89, "store_sideload_index", .err, "sideload iteration aborted", []⟩,
  ⟨"store-local.c", 107, 107, "store_scan", .debug, "checked statement failed", []⟩,
  ⟨"store-local.c", 110, 110, "store_scan", .debug, "initializing index with an estimated %zu chunks", [.w8]⟩,
  ⟨"store-local.c", 112, 112, "store_scan", .err, "initializing index failed", []⟩,
  ⟨"store-local.c", 142, 143, "store_local_get_chunk", .err, "output buffer to small (%zu) to contain cunk of size %u", [.w8, .w4]⟩,
  ⟨"store-local.c", 148, 148, "store_local_get_chunk", .err, "reading chunk failed", []⟩,
  ⟨"store-local.c", 165, 166, "store_local_get_chunk", .err, "chunk validation failure at offset %lu (chunk length %u)", [.w8, .w4]⟩,
  ⟨"store-local.c", 169, 169, "store_local_get_chunk", .err, " expected chunk id: %s", [.str]⟩,
  ⟨"store-local.c", 172, 172, "store_local_get_chunk", .err, " got chunk id: %s", [.str]⟩,
  ⟨"store-local.c", 174, 174, "store_local_get_chunk", .err, "rescanning store '%s'", [.str]⟩,
  ⟨"store-local.c", 178, 178, "store_local_get_chunk", .err, "rescanning store failed", []⟩,
  ⟨"store-local.c", 196, 196, "store_local_new", .err, "assertion failed: %s", [.str]⟩,
  ⟨"store-local.c", 200, 200, "store_local_new", .err, "%s is NULL", [.str]⟩,
  ⟨"store-local.c", 204, 204, "store_local_new", .err, "opening store at '%s' failed: %s", [.str, .str]⟩,
  ⟨"store-local.c", 215, 215, "store_local_new", .info, "trying to sideload index '%s' for store '%s'", [.str, .str]⟩,
  ⟨"store-local.c", 218, 218, "store_local_new", .info, "sideloading succeeded", []⟩,
  ⟨"store-local.c", 222, 222, "store_local_new", .warn, "sideloading index failed, falling back to scanning", []⟩,
  ⟨"store-local.c", 225, 225, "store_local_new", .info, "scanning store '%s'", [.str]⟩,
  ⟨"store-local.c", 227, 227, "store_local_new", .err, "scanning store '%s' failed", [.str]⟩,
  ⟨"store-local.c", 230, 230, "store_local_new", .info, "scanning store finished", []⟩,
  ⟨"store.c", 44, 45, "store_chain_get_chunk", .debug, "store '%s' has failed, deactivating it", [.str]⟩,
  ⟨"store.c", 52, 53, "store_chain_get_chunk", .debug, "chunk %s found in store '%s'", [.str, .str]⟩,
  ⟨"store.c", 59, 59, "store_chain_get_chunk", .warn, "chunk %s not found in any store", [.str]⟩,
  ⟨"store.c", 68, 69, "store_chain_free", .info, "%u queries received by %s", [.w4, .str]⟩,
  ⟨"store.c", 71, 73, "store_chain_free", .info, "    %u answered by store %s", [.w4, .str]⟩,
  ⟨"store.c", 89, 89, "store_chain_new", .err, "%s is NULL", [.str]⟩,
  ⟨"store.c", 98, 98, "store_chain_new", .err, "%s is NULL", [.str]⟩,
  ⟨"store.c", 121, 121, "store_chain_append", .err, "%s is NULL", [.str]⟩,
  ⟨"target.c", 24, 24, "target_add_chunk", .warn, "inserting chunk into index failed", []⟩,
  ⟨"target.c", 33, 33, "target_check_chunk", .warn, "reading chunk failed", []⟩,
  ⟨"target.c", 60, 61, "target_get_chunk", .err, "output buffer to small (%zu) to contain cunk of size %u", [.w8, .w4]⟩,
  ⟨"target.c", 66, 66, "target_get_chunk", .err, "reading chunk failed", []⟩,
  ⟨"target.c", 75, 75, "target_write", .err, "assertion failed: %s", [.str]⟩,
  ⟨"target.c", 76, 76, "target_write", .err, "assertion failed: %s", [.str]⟩,
  ⟨"target.c", 81, 81, "target_write", .err, "writing %zu bytes to target failed: %s", [.w8, .str]⟩,
  ⟨"target.c", 92, 92, "target_new", .err, "assertion failed: %s", [.str]⟩,
  ⟨"target.c", 96, 96, "target_new", .err, "%s is NULL", [.str]⟩,
  ⟨"target.c", 100, 100, "target_new", .err, "opening target '%s' failed: %s", [.str, .str]⟩,
  ⟨"target.c", 128, 128, "target_as_store", .debug, "initializing index with an estimated %zu chunks", [.w8]⟩,
  ⟨"target.c", 130, 130, "target_as_store", .err, "initializing index failed", []⟩,
  ⟨"ui.c", 16, 16, "show_progress", .err, "assertion failed: %s", [.str]⟩,
  ⟨"utils.c", 27, 27, "blockdevice_size", .err, "getting device block size failed: %s", [.str]⟩,
  ⟨"utils.c", 32, 32, "blockdevice_size", .err, "getting device block count failed: %s", [.str]⟩,
  ⟨"utils.c", 44, 44, "blockdevice_size", .err, "getting block device size failed: %s", [.str]⟩,
  ⟨"utils.c", 67, 67, "readall", .err, "read failed: %s", [.str]⟩,
  ⟨"utils.c", 70, 70, "readall", .err, "short read, expected %zu, got %zu", [.w8, .w8]⟩,
  ⟨"utils.c", 92, 92, "preadall", .err, "read failed: %s", [.str]⟩,
  ⟨"utils.c", 95, 95, "preadall", .err, "short read, expected %zu, got %zu", [.w8, .w8]⟩,
  ⟨"utils.c", 118, 118, "writeall", .err, "write failed: %s", [.str]⟩,
  ⟨"utils.c", 122, 122, "writeall", .err, "assertion failed: %s", [.str]⟩,
  ⟨"utils.c", 142, 142, "pwriteall", .err, "write failed: %s", [.str]⟩,
  ⟨"utils.c", 146, 146, "pwriteall", .err, "assertion failed: %s", [.str]⟩,
  ⟨"utils.c", 157, 157, "fd_size", .err, "assertion failed: %s", [.str]⟩,
  ⟨"utils.c", 158, 158, "fd_size", .err, "assertion failed: %s", [.str]⟩,
  ⟨"utils.c", 163, 163, "fd_size", .err, "stat failed: %s", [.str]⟩,
  ⟨"utils.c", 172, 172, "fd_size", .err, "unsupported file type: 0%o", [.w4]⟩,
  ⟨"utils.c", 186, 186, "slurp_file", .err, "opening '%s' failed: %s", [.str, .str]⟩,
  ⟨"utils.c", 192, 192, "slurp_file", .err, "getting file size of '%s' failed", [.str]⟩,
  ⟨"utils.c", 199, 199, "slurp_file", .err, "could not allocate %zu bytes: %s", [.w8, .str]⟩,
  ⟨"utils.c", 204, 204, "slurp_file", .err, "reading file '%s' failed", [.str]⟩,
  ⟨"utils.c", 230, 230, "time_monotonic", .err, "assertion failed: %s", [.str]⟩,
  ⟨"utils.c", 253, 253, "parse_hex", .err, "invalid hex nibble '%c'", [.w4]⟩]

end Csn
