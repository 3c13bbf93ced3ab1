import Verif.Model.Tool
/-
Model of csn-tool's conversions (csn-tool.c:38-163) in a directory that other processes use at the same time.  Model/Tool assumes
that only csn-tool changes files; here everything that depends on files is an answer, and the run is described by what it does
to them.

Not modelled here: how the key is read and how OpenSSL encrypts (Model/Encrypt, Model/Evp): `conv` is the conversion of a chunk
with the key of the run.  A file is read at one instant.
-/
namespace Csn.ToolRace

/-- What the rest of the machine decides. -/
inductive Ans where
  /-- `access` finds the output -/
  | there (b : Bool)
  /-- `encrypt_restart` or `encrypt_do` succeeds -/
  | cipher (ok : Bool)
  /-- what `slurp_file` reads, or `none` if it fails -/
  | input (d : Option Bytes)
  /-- `open` succeeds -/
  | opened (ok : Bool)
  /-- `writeall` succeeds; if not, the number of bytes written -/
  | wrote (ok : Bool) (k : Nat)
  /-- the process ends in `writeall`, after `k` bytes were written -/
  | cut (k : Nat)
  deriving DecidableEq, Repr

/-- What csn-tool does to files. -/
inductive Ev where
  /-- `access` (csn-tool.c:76) -/
  | look (path : Bytes) (b : Bool)
  /-- the input was read (86) -/
  | got (path : Bytes) (d : Bytes)
  /-- the output was created or emptied (100) -/
  | made (path : Bytes)
  /-- the data, or if writing failed a part of it, was written from the start of the file on (108) -/
  | put (path : Bytes) (d : Bytes) (ok : Bool)
  deriving DecidableEq, Repr

/-- csn-tool.c:98-113: the output. -/
def emit (o buf : Bytes) (ans : List Ans) : Res Bool × List Ev × List Ans :=
  if streq o (str "-") then
    match ans with
    | .wrote ok _ :: r => (.ok ok, [], r)
    | r => (.stop .killed, [], r)
  else
    match ans with
    | .opened false :: r => (.ok false, [], r)
    | .opened true :: .wrote true _ :: r => (.ok true, [.made o, .put o buf true], r)
    | .opened true :: .wrote false k :: r => (.ok false, [.made o, .put o (buf.take k) false], r)
    | .opened true :: .cut k :: r => (.stop .killed, [.made o, .put o (buf.take k) false], r)
    | .opened true :: r => (.stop .killed, [.made o], r)
    | r => (.stop .killed, [], r)

/-- csn-tool.c:86-96: read the input and convert it. -/
def load (conv : Bytes → Bytes) (input o : Bytes) (ans : List Ans) : Res Bool × List Ev × List Ans :=
  match ans with
  | .input none :: r => (.ok false, [], r)
  | .input (some d) :: .cipher false :: r => (.ok false, [.got input d], r)
  | .input (some d) :: .cipher true :: r =>
    match emit o (conv d) r with
    | (x, evs, r) => (x, .got input d :: evs, r)
  | .input (some d) :: r => (.stop .killed, [.got input d], r)
  | r => (.stop .killed, [], r)

/-- csn-tool.c:76-84: nothing is done if the output is there. -/
def look (conv : Bytes → Bytes) (input o : Bytes) (ans : List Ans) : Res Bool × List Ev × List Ans :=
  match ans with
  | .there true :: r => (.ok true, [.look o true], r)
  | .there false :: .cipher false :: r => (.ok false, [.look o false], r)
  | .there false :: .cipher true :: r =>
    match load conv input o r with
    | (x, evs, r) => (x, .look o false :: evs, r)
  | .there false :: r => (.stop .killed, [.look o false], r)
  | r => (.stop .killed, [], r)

/-- csn-tool.c:38-122 `encrypt_one`; `false` is -1. -/
def one (conv : Id → Bytes → Bytes) (input : Bytes) (output : Option Bytes) (ans : List Ans) : Res Bool × List Ev × List Ans :=
  match chunkIdFromPath input with
  | none => (.ok false, [], ans)
  | some id =>
    match output.or (derivedOutput input) with
    | none => (.ok false, [], ans)
    | some o => look (conv id) input o ans

/-- csn-tool.c:148-163: the files of a list (without outputs), or the one on the command line. -/
def many (conv : Id → Bytes → Bytes) : List (Bytes × Option Bytes) → List Ans → Res Bool × List Ev
  | [], _ => (.ok true, [])
  | (input, output) :: items, ans =>
    match one conv input output ans with
    | (.ok true, evs, r) =>
      match many conv items r with
      | (x, evs') => (x, evs ++ evs')
    | (x, evs, _) => (x, evs)

end Csn.ToolRace
