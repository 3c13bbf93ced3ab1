import Verif.Spec.Text
import Verif.Model.Msg
/-
Vocabulary for what messages tell about keys.
-/
namespace Csn.Spec
open Csn

/-- The text of a key: 64 hex digits. -/
def KeyText (t : Bytes) : Prop := ∃ k, k.length = 32 ∧ HexOf t k

/-- The contents of a key file: a key, and line breaks. -/
def KeyFile (d : Bytes) : Prop := ∃ t u, d = t ++ u ∧ KeyText t ∧ ∀ c ∈ u, LineBreak c

/-- Surroundings that differ in nothing but keys in environment variables and files. -/
structure SameButKeys (e e' : Msg.Ext) : Prop where
  getenv : ∀ v, e.getenv v = e'.getenv v ∨ ∃ t t', e.getenv v = some t ∧ e'.getenv v = some t' ∧ KeyText t ∧ KeyText t'
  file : ∀ p, e.file p = e'.file p ∨ ∃ d d', e.file p = .data d ∧ e'.file p = .data d' ∧ KeyFile d ∧ KeyFile d'

/-- What `m` says, given the answers of the calls it makes. -/
def said {α : Type} (m : Msg.X α) (answers : List (Option Bytes)) : List Msg.Note := (m (answers, [])).2.2

/-- How messages are printed: numbers (`ren`), on a terminal or not, the directory in `__FILE__` and the line in `__LINE__`. -/
structure Style where
  ren : Bytes → LogArg → Bytes
  tty : Bool
  dir : Bytes
  line : LogSite → Nat
  dirPart : dir = [] ∨ ∃ d, dir = d ++ [0x2f]
  inCall : ∀ s, line s ≤ s.last

/-- `out` is the text of one of the messages, at the default level: the place is one that calls `_u_log` (`logSites`). -/
def Printed (y : Style) (notes : List Msg.Note) (out : Bytes) : Prop :=
  ∃ n ∈ notes, ∃ s ∈ logSites, s.file = n.file ∧ s.first = n.line ∧ n.args.map LogArg.kind = s.kinds ∧
    uLog y.ren .info y.tty s.level (y.dir ++ lit s.file) (lit s.func) (y.line s) (lit s.format) n.args = some out

end Csn.Spec
