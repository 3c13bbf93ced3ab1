import Verif.Model.Log
/-
What a log call is expected to print.
-/
namespace Csn.Spec
open Csn

/-- The conversions used in log messages (what stands between `%` and the end of the conversion) with the type of the argument
each takes. -/
def conversions : List (Bytes × ArgKind) :=
  [(str "d", .w4), (str "u", .w4), (str "x", .w4), (str "o", .w4), (str "c", .w4), (str "ld", .w8), (str "lu", .w8), (str "lx", .w8),
    (str "016lx", .w8), (str "llu", .w8), (str "zu", .w8), (str "zd", .w8), (str "jd", .w8), (str "s", .str), (str "p", .ptr)]

/-- Text of an argument: strings as they are, anything else as the C library prints it. -/
inductive Shows (ren : Bytes → LogArg → Bytes) (conv : Bytes) : LogArg → Bytes → Prop where
  | text (s) : Shows ren conv (.str s) s
  | other (a) : (∀ s, a ≠ .str s) → Shows ren conv a (ren conv a)

/-- The message `msg` is the format with every conversion replaced by the text of its argument, in order, and `%%` by `%`. -/
inductive Renders (ren : Bytes → LogArg → Bytes) : Bytes → List LogArg → Bytes → Prop where
  | nil (as) : Renders ren [] as []
  | char (c f as o) : c ≠ 0x25 → Renders ren f as o → Renders ren (c :: f) as (c :: o)
  | percent (f as o) : Renders ren f as o → Renders ren (0x25 :: 0x25 :: f) as (0x25 :: o)
  | conv (sp a t f as o) : (sp, a.kind) ∈ conversions → Shows ren sp a t → Renders ren f as o →
      Renders ren (0x25 :: sp ++ f) (a :: as) (t ++ o)

/-- Decimal notation. -/
def decimal (n : Nat) : Bytes := str (toString n)

/-- Label and colour of a level. -/
def labels : Level → String × Nat
  | .err => ("ERR", 196) | .warn => ("WRN", 202) | .info => ("INF", 40) | .debug => ("DBG", 75)

/-- What precedes the message on its line. -/
def lineStart (tty : Bool) (level : Level) (file func : Bytes) (line : Nat) : Bytes :=
  if tty then 0x1b :: str "[38;5;" ++ decimal (labels level).2 ++ str "m" ++ file ++ str ":" ++ func ++ str ":" ++ decimal line ++ str "\t"
  else str (labels level).1 ++ str " " ++ file ++ str ":" ++ func ++ str ":" ++ decimal line ++ str " "

/-- What follows the message: the colour is reset, the line ended. -/
def lineEnd (tty : Bool) : Bytes := if tty then 0x1b :: str "[0m\n" else str "\n"

/-- Hexadecimal notation with at least four digits. -/
def offsetText (n : Nat) : Bytes :=
  let d := str (String.ofList (Nat.toDigits 16 n))
  List.replicate (4 - d.length) 0x30 ++ d

/-- A byte as a blank and two hexadecimal digits. -/
def byteText (b : UInt8) : Bytes := [0x20, (str "0123456789abcdef").getD (b.toNat / 16) 0, (str "0123456789abcdef").getD (b.toNat % 16) 0]

/-- A byte as a printable ASCII character, a dot for all others. -/
def asciiText (b : UInt8) : UInt8 := if 0x20 ≤ b ∧ b ≤ 0x7e then b else 0x2e

/-- A row of a hex dump: the offset, the bytes, blanks up to sixteen bytes, the characters. -/
def rowText (off : Nat) (row : Bytes) : Bytes :=
  str "  " ++ offsetText off ++ str " " ++ row.flatMap byteText ++ List.replicate (3 * (16 - row.length)) 0x20 ++ str "  " ++
    row.map asciiText ++ str "\n"

/-- A hex dump: rows of sixteen bytes, the last one possibly shorter but not empty. -/
inductive Dump : Nat → Bytes → Bytes → Prop where
  | last (off row) : row ≠ [] → row.length ≤ 16 → Dump off row (rowText off row)
  | more (off row rest o) : row.length = 16 → Dump (off + 16) rest o → Dump off (row ++ rest) (rowText off row ++ o)

end Csn.Spec
