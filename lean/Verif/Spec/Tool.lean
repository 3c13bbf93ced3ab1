import Verif.Model.Base
import Verif.Spec.Text
import Verif.Spec.ChaCha
/-
Names of chunk files and what converting one means.
-/
namespace Csn.Spec
open Csn

/-- `name` is the last component of `path`. -/
def LastPart (path name : Bytes) : Prop :=
  0x2f ∉ name ∧ ∃ dir, path = dir ++ name ∧ (dir = [] ∨ dir.getLast? = some 0x2f)

/-- `name` is the name of the chunk `id`, encrypted or not. -/
def ChunkName (name : Bytes) (id : Id) : Prop :=
  ∃ hex, hex.length = 64 ∧ HexOf hex id ∧ (name = hex ++ str ".cacnk" ∨ name = hex ++ str ".cacnk.enc")

/-- A name that is not a chunk's, but is taken for one: four arbitrary characters follow the digits. -/
def OddName (name : Bytes) (id : Id) : Prop :=
  ∃ hex four, hex.length = 64 ∧ HexOf hex id ∧ four.length = 4 ∧ name = hex ++ four ++ str ".cacnk"

/-- The names of a plain and an encrypted file that belong together. -/
def Twins (p q : Bytes) : Prop := ∃ x, p = x ++ str ".cacnk" ∧ q = x ++ str ".cacnk.enc"

/-- `e` is the encryption (and so the decryption) of `d`: XChaCha20 with the ID's first 24 bytes as nonce. -/
def Converted (key : Bytes) (id : Id) (d e : Bytes) : Prop :=
  ∀ i, e[i]? = (d[i]?).map (· ^^^ xchacha key (id.take 24) i)

/-- How `fgets` with a buffer of 4096 bytes cuts its input: pieces that end at a line feed or are 4095 bytes long, except
possibly the last one; line feeds only at their ends. -/
def InputLines (input : Bytes) (ls : List Bytes) : Prop :=
  ls.flatten = input ∧
    (∀ l ∈ ls, l ≠ [] ∧ l.length ≤ 4095 ∧ 0x0a ∉ l.dropLast) ∧
    ∀ l ∈ ls.dropLast, l.getLast? = some 0x0a ∨ l.length = 4095

end Csn.Spec
