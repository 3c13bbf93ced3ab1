import Verif.Model.Base
/-
Vocabulary for HTTP downloads: attempts, waiting times, URLs, compressed frames.
-/
namespace Csn.Spec
open Csn

/-- One download attempt: what the server did and the result code curl reported. -/
structure Attempt where
  run : CurlRun
  code : Nat

/-- curl reports the server's result, or 23 if the receiver refused a part of the body. -/
def Attempt.Possible (a : Attempt) : Prop := a.code = a.run.code ∨ a.code = 23 ∧ a.run.frags ≠ []

/-- CURLE_COULDNT_RESOLVE_HOST, CURLE_COULDNT_CONNECT, CURLE_OPERATION_TIMEDOUT -/
def TransientCode (c : Nat) : Prop := c = 6 ∨ c = 7 ∨ c = 28

instance (c : Nat) : Decidable (TransientCode c) := by unfold TransientCode; infer_instance

/-- `d` combined with a key stream. -/
def unmask (ks : Option (Nat → UInt8)) (d : Bytes) : Bytes :=
  match ks with
  | none => d
  | some k => d.mapIdx (fun i x => x ^^^ k i)

/-- Waiting time after failed attempt number `i` (from 0), in microseconds. -/
def backoff (i : Nat) : Nat := min (200000 * 2 ^ i) 10000000

/-- The log of attempts number `i`, `i + 1`, … for `url`. -/
def attemptLog (url : Bytes) : Nat → List Attempt → List Event
  | _, [] => []
  | i, a :: as => (.http url :: if TransientCode a.code then [.sleep (backoff i)] else []) ++ attemptLog url (i + 1) as

/-- Total waiting time in a log. -/
def slept (log : List Event) : Nat := (log.map (fun e => match e with | .sleep us => us | _ => 0)).sum

/-- `as` are consecutive attempts: all but the last are transient failures. -/
def Consecutive (as : List Attempt) : Prop :=
  (∀ a ∈ as, a.Possible) ∧ ∀ a ∈ as.dropLast, TransientCode a.code

/-- What a request was, judged by curl's final result code, the final HTTP status and whether body data
was passed to the decompressor without an error. -/
inductive Verdict where
  /-- unrecovered failure: transient after all retries, or a status from 400 on other than 404 and 410 -/
  | counted
  /-- curl failed in another way, or has no status -/
  | broken
  /-- the server does not have the chunk -/
  | missing
  /-- no usable data -/
  | invalid
  /-- the response was processed completely -/
  | processed
  deriving DecidableEq, Repr

def verdict (code : Nat) (http : Option Nat) (accepted : Bool) : Verdict :=
  if TransientCode code then .counted
  else if code ≠ 0 ∧ code ≠ 23 then .broken
  else match http with
    | none => .broken
    | some c =>
      if c = 404 ∨ c = 410 then .missing
      else if 400 ≤ c then .counted
      else if accepted then .processed else .invalid

/-- The error counter after a request. -/
def errAfter (e : Nat) : Verdict → Nat
  | .counted => e + 1
  | .processed => 0
  | _ => e

/-- Number of `counted` requests since the last `processed` one. -/
def failuresSince (vs : List Verdict) : Nat := ((vs.reverse.takeWhile (· ≠ .processed)).filter (· = .counted)).length

/-- The attempts of one request follow the retry policy: at most ten, all but the last one transient
failures, and fewer than ten only if the last one is not a transient failure. -/
structure Policy (as : List Attempt) : Prop where
  consecutive : Consecutive as
  most : as.length ≤ 10
  enough : ∀ a, as.getLast? = some a → TransientCode a.code → as.length = 10

/-- 64 lower-case hex digits. -/
def hexString (id : List UInt8) : List UInt8 :=
  id.flatMap (fun b => [(str "0123456789abcdef").getD (b.toNat / 16) 0, (str "0123456789abcdef").getD (b.toNat % 16) 0])

/-- URL of a chunk. -/
def chunkUrl (base : Bytes) (encrypted : Bool) (id : List UInt8) : Bytes :=
  base ++ str "/" ++ (hexString id).take 4 ++ str "/" ++ hexString id ++ str ".cacnk" ++ (if encrypted then str ".enc" else [])

/-- `arg` is `whole`, or `whole` followed by a `#` and the fragment. -/
def FragOf (arg whole : Bytes) : Option Bytes → Prop
  | none => arg = whole ∧ 0x23 ∉ arg
  | some f => arg = whole ++ 0x23 :: f ∧ 0x23 ∉ f

/-- `base` is `arg` without fragment and without one trailing slash; `frag` is the fragment. -/
def BaseOf (arg base : Bytes) (frag : Option Bytes) : Prop :=
  ∃ whole, FragOf arg whole frag ∧
    (whole = base ++ [0x2f] ∨ whole = base ∧ ∀ b, whole ≠ b ++ [0x2f])

/-- The parameter list `frag` of a URL, a comma separated list of `encrypt=SPEC` with an optional comma at
the end, configures `key`: the last one given.  `P` tells which key a specification denotes. -/
inductive ParamsKey (P : Bytes → Bytes → Prop) : Bytes → Option Bytes → Prop where
  | empty : ParamsKey P [] none
  | last (spec k : Bytes) : 0x2c ∉ spec → P spec k → ParamsKey P (str "encrypt=" ++ spec) (some k)
  | more (spec k rest : Bytes) (key : Option Bytes) : 0x2c ∉ spec → P spec k → ParamsKey P rest key →
      ParamsKey P (str "encrypt=" ++ spec ++ 0x2c :: rest) (some (key.getD k))

/-- `f` is a compressed frame of `c` for the decompressor `zstd` (a function of the earlier calls since
its initialisation, the output room and the input): fed with the frame piece by piece, with room for
the rest of `c`, it never fails, consumes and produces the frame's and chunk's bytes in order, and when
it has been given all of the frame it has consumed all of it and produced all of `c`.  `I` relates the
calls so far to the positions in `f` and `c`. -/
structure FrameOf (zstd : List (Nat × Bytes) → Nat → Bytes → Option (Nat × Bytes)) (f c : Bytes)
    (I : List (Nat × Bytes) → Nat → Nat → Prop) : Prop where
  init : I [] 0 0
  step : ∀ hist i o x room, I hist i o → x ≠ [] → x <+: f.drop i → c.length - o ≤ room →
    ∃ k p, zstd hist room x = some (k, p) ∧ k ≤ x.length ∧ p <+: c.drop o ∧
      I (hist ++ [(room, x)]) (i + k) (o + p.length) ∧ (x = f.drop i → k = x.length ∧ p = c.drop o)

/-- Number of body bytes in the answers of the attempts `used` to get `url`. -/
def bodyBytes (url : Bytes) (used : List (Bytes → CurlRun)) : Nat := (used.map (fun f => (f url).frags.flatten.length)).sum

/-- `FrameOf`, and the decompressor leaves at most `K` bytes of what it is given unread. -/
structure Prompt (zstd : List (Nat × Bytes) → Nat → Bytes → Option (Nat × Bytes)) (f c : Bytes)
    (I : List (Nat × Bytes) → Nat → Nat → Prop) (K : Nat) : Prop extends FrameOf zstd f c I where
  prompt : ∀ hist i o x room k p, I hist i o → x ≠ [] → x <+: f.drop i → c.length - o ≤ room →
    zstd hist room x = some (k, p) → x.length ≤ k + K

end Csn.Spec
