import Verif.Spec.Avail
import Verif.Spec.Tool
/-
A directory of chunk files and a server that makes it available.
-/
namespace Csn.Spec
open Csn

/-- The directory `root` has the file of chunk `c`: compressed, with less than 4 GiB. -/
def Stocked (env : Env) (w : World) (root c : Bytes) : Prop :=
  ∃ i I, w.dir (chunkUrl root false (env.H c)) = some i ∧ (w.data i).length < 2 ^ 32 ∧ (w.data i).take 4 = [0x28, 0xb5, 0x2f, 0xfd] ∧
    FrameOf env.zstd (w.data i) c I

/-- The server below `base` makes the files of the directory `root` available, as far as they are those of the chunks `cs` (the
encrypted ones if `enc`): its complete answers are their contents. -/
def Mirrors (env : Env) (w : World) (root : Bytes) (net : List (Bytes → CurlRun)) (base : Bytes) (enc : Bool) (cs : List Bytes) : Prop :=
  ∀ c ∈ cs, ∀ g ∈ net, ¬ Glitch (g (chunkUrl base enc (env.H c))) → (g (chunkUrl base enc (env.H c))).http = some 200 ∧
    ∃ o, w.dir (chunkUrl root enc (env.H c)) = some o ∧ (g (chunkUrl base enc (env.H c))).frags.flatten = w.data o

/-- No other data that matters has the ID of one of the chunks `cs`: data of a chunk's length, and what the stores could return. -/
def Distinct (env : Env) (w : World) (tpath : Bytes) (stores : List Bytes) (cs : List Bytes) : Prop :=
  ∀ c ∈ cs, ∀ d, (∃ c' ∈ cs, d.length = c'.length) ∨ Held env w tpath stores (env.H c) d → env.H d = env.H c → d = c

end Csn.Spec
