import Verif.Model.Chunker
import Verif.Model.Sha
/-
Model of csn-bench.c and of its random number generator test/xorshift32.c.
-/
namespace Csn

/-- test/xorshift32.c:6-14 `xorshift32`: the new state, which is also the result. -/
def xorshift32 (x : BitVec 32) : BitVec 32 :=
  let x := x ^^^ x <<< 13
  let x := x ^^^ x >>> 17
  x ^^^ x <<< 5

/-- test/xorshift32.c:20-24: the loop of `xorshift32_fill`, one word per iteration, stored little-endian. -/
def xorshiftLoop : Nat → BitVec 32 → Bytes × BitVec 32
  | 0, x => ([], x)
  | n + 1, x =>
    let y := xorshift32 x
    let (rest, z) := xorshiftLoop n y
    ((List.range 4).map (fun i => UInt8.ofNat ((y >>> (8 * i)).toNat)) ++ rest, z)

/-- test/xorshift32.c:16-25 `xorshift32_fill`: the bytes stored and the new state; a length that is not a multiple of four
fails the assertion. -/
def xorshiftFill (x : BitVec 32) (len : Nat) : Res (Bytes × BitVec 32) :=
  if len % 4 ≠ 0 then .stop .abort else .ok (xorshiftLoop (len / 4) x)

/-- `struct timespec` as used in csn-bench.c:11-18. -/
structure Timespec where
  sec : Int
  nsec : Int
  deriving DecidableEq, Repr

/-- csn-bench.c:11-18 `time_delta_ms`.  The seconds are subtracted as `time_t` (64 bits, no overflow for readings of one
clock) and converted to `uint64_t`; the nanoseconds are subtracted and divided as `int`. -/
def timeDeltaMs (start fin : Timespec) : BitVec 64 :=
  let ret := BitVec.ofInt 64 (fin.sec - start.sec)
  let ret := ret * 1000
  ret + BitVec.ofInt 64 ((fin.nsec - start.nsec).tdiv 1000000)

/-- A line printed by a benchmark (csn-bench.c:69, 131): block size, iterations, milliseconds; the rate is computed from
these. -/
structure BenchLine where
  size : Nat
  count : Nat
  delta : BitVec 64
  deriving DecidableEq, Repr

/-- csn-bench.c:55-65: hash blocks of `size` bytes until ten seconds have passed.  The list are the results of
`clock_gettime` (`none`: failure, the assertion fails); when it ends, the process is killed.  `sha_once`'s result is ignored
and has no effect. -/
def hashRound (size : Nat) (start : Timespec) : Nat → List (Option Timespec) → Res (Nat × Timespec × List (Option Timespec))
  | _, [] => .stop .killed
  | count, t :: clock =>
    if size % 4 ≠ 0 then .stop .abort
    else
      let count := count + 100
      match t with
      | none => .stop .abort
      | some fin => if fin.sec - start.sec ≥ 10 then .ok (count, fin, clock) else hashRound size start count clock

/-- csn-bench.c:44-72: the rounds of `bench_hash`. -/
def hashRounds : Nat → Nat → List (Option Timespec) → Res (List BenchLine)
  | 0, _, _ => .ok []
  | n + 1, size, clock =>
    match clock with
    | [] => .stop .killed
    | none :: _ => .stop .abort
    | some start :: clock =>
      match hashRound size start 0 clock with
      | .stop s => .stop s
      | .ok (count, fin, clock) =>
        match hashRounds n (size / 4) clock with
        | .stop s => .stop s
        | .ok lines => .ok (⟨size, count, timeDeltaMs start fin⟩ :: lines)

/-- csn-bench.c:20-75 `bench_hash`: exit status and lines.  `kcapi`: the result of `sha_kcapi_init` if CSN_KCAPI_DRIVER is
set; `alloc`: whether the allocation succeeds. -/
def benchHash (kcapi : Option Bool) (alloc : Bool) (clock : List (Option Timespec)) : Res (Nat × List BenchLine) :=
  if kcapi = some false then .ok (1, [])
  else if alloc = false then .ok (1, [])
  else
    match hashRounds 3 (65536 * 4) clock with
    | .stop s => .stop s
    | .ok lines => .ok (0, lines)

/-- csn-bench.c:106-120: cut one filled buffer into chunks; the result are the data of the chunks (of which the ID is
computed) and the chunker.  The buffer holds `buf_fill` bytes; a chunk longer than that would make `memmove` access memory
outside (undefined).  Every chunk takes at least one byte, so the length is enough fuel. -/
def benchScan (p : Params) (d : Nat) : Nat → Chunker → Bytes → Res (List Bytes × Chunker)
  | fuel, c, buf =>
    if buf.length = 0 then .ok ([], c)
    else
      match fuel with
      | 0 => .stop .diverge
      | fuel + 1 =>
        match chunkerScan p d c buf with
        | .stop s => .stop s
        | .ok (none, c) => .ok ([], c)
        | .ok (some n, c) =>
          if n > buf.length then .stop .ub
          else
            match benchScan p d fuel c.reset (buf.drop n) with
            | .stop s => .stop s
            | .ok (chunks, c') => .ok (c.sha :: chunks, c')

/-- csn-bench.c:103-127: the loop of `bench_chunker`; `size` is `buf_sz`. -/
def chunkerRound (p : Params) (d size : Nat) (start : Timespec) :
    Chunker → BitVec 32 → Nat → List (Option Timespec) → Res (Nat × Timespec × List Bytes)
  | _, _, _, [] => .stop .killed
  | c, rng, count, t :: clock =>
    match xorshiftFill rng size with
    | .stop s => .stop s
    | .ok (buf, rng) =>
      match benchScan p d buf.length c buf with
      | .stop s => .stop s
      | .ok (chunks, c) =>
        let count := count + 1
        match t with
        | none => .stop .abort
        | some fin =>
          if fin.sec - start.sec ≥ 10 then .ok (count, fin, chunks)
          else
            match chunkerRound p d size start c rng count clock with
            | .stop s => .stop s
            | .ok (count, fin, more) => .ok (count, fin, chunks ++ more)

/-- csn-bench.c:79 `buf_sz`. -/
def chunkerBuf : Nat := 1024 * 1024

/-- csn-bench.c:77-134 `bench_chunker`: exit status, line and the chunks found.  The result of `malloc` is not checked:
`memset` on a null pointer is undefined.  `chunker_params_set` succeeds for these constants; `disc` is the discriminator
formula, which is not used with the default average size. -/
def benchChunker (disc : Nat → Option Nat) (alloc : Bool) (clock : List (Option Timespec)) : Res (Nat × BenchLine × List Bytes) :=
  if alloc = false then .stop .ub
  else
    match xorshiftFill 0xdeadbeef#32 chunkerBuf, paramsSet (65536 / 4) 65536 (65536 * 4) with
    | .ok (_, rng), some p =>
      match disc p.avg, clock with
      | some d, some start :: clock =>
        match chunkerRound p d chunkerBuf start Chunker.init rng 0 clock with
        | .stop s => .stop s
        | .ok (count, fin, chunks) => .ok (0, ⟨chunkerBuf, count, timeDeltaMs start fin⟩, chunks)
      | some _, none :: _ => .stop .abort
      | some _, [] => .stop .killed
      | none, _ => .stop .ub
    | _, _ => .stop .ub

/-- csn-bench.c:136-143 `benchmarks`: the names. -/
inductive Benchmark where
  | hash | chunker
  deriving DecidableEq, Repr

/-- csn-bench.c:136-143 `benchmarks`, in order. -/
def benchmarks : List (Bytes × Benchmark) := [(str "hash", .hash), (str "chunker", .chunker)]

/-- What csn-bench does: print the usage text on stderr or stdout and exit with a status, or run a benchmark, whose status
becomes the exit status. -/
inductive BenchAction where
  | usage (stderr : Bool) (status : Nat)
  | run (b : Benchmark)
  deriving DecidableEq, Repr

/-- csn-bench.c:145-156 `usage`. -/
def benchUsage (error : Bool) : BenchAction := .usage error (if error then 1 else 0)

/-- csn-bench.c:168-172: the search in the table. -/
def benchLookup (arg : Bytes) : List (Bytes × Benchmark) → BenchAction
  | [] => benchUsage false
  | (name, b) :: r => if streq name arg then .run b else benchLookup arg r

/-- csn-bench.c:158-173 `main`; `argv` without the program name. -/
def benchMain (argv : List Bytes) : BenchAction :=
  match argv with
  | [] => benchUsage true
  | a :: _ => if streq a (str "-h") || streq a (str "--help") then benchUsage false else benchLookup a benchmarks

end Csn
