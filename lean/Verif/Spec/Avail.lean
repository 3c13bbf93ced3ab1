import Verif.Model.Http
import Verif.Spec.Http
import Verif.Spec.Args
import Verif.Spec.Chunking
import Verif.Spec.Sync
import Verif.Proof.HttpNew
/-
When a chunk is available from a store argument.
-/
namespace Csn.Spec
open Csn

/-- A download attempt that fails transiently before anything was received. -/
def Glitch (r : CurlRun) : Prop := r.frags = [] ∧ TransientCode r.code

/-- A complete answer that does not put the store in question: redirections aside, a body or "no such chunk".  It has at
most `B` bytes. -/
structure Polite (B : Nat) (r : CurlRun) : Prop where
  code : r.code = 0
  status : ∃ c, r.http = some c ∧ (c < 400 ∨ c = 404 ∨ c = 410)
  frags : ∀ x ∈ r.frags, x ≠ [] ∧ x.length < 2 ^ 32
  size : r.frags.flatten.length ≤ B

/-- Whatever chunk is asked for, the server below `base` answers politely, after at most nine glitches in a row; altogether
the network delivers less than 4 EiB. -/
structure Answers (B : Nat) (net : List (Bytes → CurlRun)) (base : Bytes) (enc : Bool) : Prop where
  each : ∀ g ∈ net, ∀ id : Id, id.length = 32 → Glitch (g (chunkUrl base enc id)) ∨ Polite B (g (chunkUrl base enc id))
  rare : ∀ id : Id, id.length = 32 → ∀ a b c, net = a ++ b ++ c → (∀ g ∈ b, Glitch (g (chunkUrl base enc id))) → b.length ≤ 9
  size : B * net.length < 2 ^ 62

/-- The server has the chunk `s`: its complete answers are the compressed chunk, encrypted with the store's key. -/
def Hosts (env : Env) (net : List (Bytes → CurlRun)) (base : Bytes) (key : Option Bytes) (s : Seg) : Prop :=
  ∃ c f I, env.H c = s.id ∧ c.length = s.len ∧ FrameOf env.zstd f c I ∧ f.take 4 = [0x28, 0xb5, 0x2f, 0xfd] ∧
    ∀ g ∈ net, ¬ Glitch (g (chunkUrl base key.isSome s.id)) → (g (chunkUrl base key.isSome s.id)).http = some 200 ∧
      unmask (key.map (fun k => env.ks k s.id)) (g (chunkUrl base key.isSome s.id)).frags.flatten = f

/-- A local store with chunk sizes `p` takes over the index behind `ipath`: it is a readable index file with these chunk
sizes.  It lists the regions `xs`. -/
def Sidecar (w : World) (p : Params) (ipath : Bytes) (xs : List Seg) : Prop :=
  ∃ j n, w.dir ipath = some j ∧ w.kind j ≠ .other ∧ WellFormed (w.data j) p.min p.avg p.max n ∧ xs = delivered 0 (tableEntries (w.data j) n)

/-- A chunk with ID `id` results from applying the chunking rule, with the parameters `p`, to `f`. -/
def Found (env : Env) (p : Params) (f : Bytes) (id : Id) : Prop :=
  ∃ d cs c, env.disc p.avg = some d ∧ Chunking p.min p.max d f cs ∧ c ∈ cs ∧ env.H c = id

/-- The store `arg` has a chunk with ID and length of `s`: it is a local store, scanned with the parameters of the index; or
a local store with an index of its own that lists the chunk, all the listed regions being within the file and not larger than
the buffer, and either that index is right about all of them, or scanning finds the chunk as well; or an HTTP store whose server has
it. -/
inductive Source (env : Env) (w : World) (tpath : Bytes) (p : Params) (arg : Bytes) (s : Seg) : Prop
  | scan (path : Bytes) (index : Option Bytes) (i : Nat) : LocalArg tpath arg path index → (∀ ip xs, index = some ip → ¬ Sidecar w p ip xs) →
      w.dir path = some i → Found env p (w.data i) s.id → Source env w tpath p arg s
  | listed (path ip : Bytes) (i : Nat) (xs : List Seg) : LocalArg tpath arg path (some ip) → Sidecar w p ip xs → w.dir path = some i →
      (∀ y ∈ xs, y.off + y.len ≤ (w.data i).length ∧ y.len ≤ env.bufMax) → (∃ x ∈ xs, x.id = s.id) →
      (∀ y ∈ xs, Matches env.H (w.data i) y) ∨ Found env p (w.data i) s.id → Source env w tpath p arg s
  | web (B : Nat) : HttpArg tpath arg →
      (∀ base frag key, BaseOf arg base frag → ParamsKey (Proof.SpecKey env.getenv w) (frag.getD []) key →
        Answers B w.net base key.isSome ∧ Hosts env w.net base key s) → Source env w tpath p arg s

/-- Data that a store among `stores` could return when asked for `id`: part of the file of a local store, or what an HTTP
store makes of answers of the network. -/
inductive Held (env : Env) (w : World) (tpath : Bytes) (stores : List Bytes) (id : Id) : Bytes → Prop
  | file (arg path : Bytes) (index : Option Bytes) (i o n : Nat) : arg ∈ stores → LocalArg tpath arg path index → w.dir path = some i →
      Held env w tpath stores id (slice (w.data i) o n)
  | web (arg : Bytes) (frag : Option Bytes) (h h' : Http) (v v' : World) (out out' : Bytes) (n : Nat) : arg ∈ stores → HttpArg tpath arg →
      BaseOf arg h.base frag → ParamsKey (Proof.SpecKey env.getenv w) (frag.getD []) h.key → v.net <:+ w.net → v.mem <:+ w.mem →
      httpGet env h id out v = (.ok (some n, h', out'), v') → Held env w tpath stores id (out'.take n)

/-- No store has data of another length with a chunk's ID. -/
def NoClash (env : Env) (w : World) (tpath : Bytes) (stores : List Bytes) (segs : List Seg) : Prop :=
  ∀ s ∈ segs, ∀ d, Held env w tpath stores s.id d → env.H d = s.id → d.length = s.len

/-- Every region of the index can be had: it and all regions before it are on the target already; or the target is one of
the stores and an earlier region has the same ID; or some store has the chunk. -/
def Obtainable (env : Env) (w : World) (tpath : Bytes) (ti : Nat) (p : Params) (stores : List Bytes) (segs : List Seg) : Prop :=
  ∀ a s b, segs = a ++ s :: b → (∀ x ∈ a ++ [s], Matches env.H (w.data ti) x) ∨ (tpath ∈ stores ∧ ∃ x ∈ a, x.id = s.id) ∨
    ∃ arg ∈ stores, Source env w tpath p arg s

end Csn.Spec
