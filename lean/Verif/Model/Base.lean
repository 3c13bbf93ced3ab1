/-
Execution model shared by all modelled functions: worlds, schedules, outcomes.
See DESIGN.md ("Execution model").
-/
namespace Csn

/-- Byte strings (C: `uint8_t *` with a length). -/
abbrev Bytes := List UInt8

/-- Chunk IDs (chunk.h:9, `uint8_t id[CHUNK_ID_LEN]`).  The model does not fix the
length to 32; statements that need it carry it as a hypothesis. -/
abbrev Id := Bytes

/-- C strings without their terminating NUL; used for literals in the model. -/
def str (s : String) : Bytes := s.toList.map (fun c => c.toNat.toUInt8)

/-- Result of one system call on a file, chosen by the environment.
`eintr`: -1 with EINTR.  `err`: -1 with any other errno.  `zero`: returns 0.
`some k`: success; data transfers move at most `k+1` bytes. -/
inductive Sys where
  | eintr
  | err
  | zero
  | some (k : Nat)
  deriving DecidableEq, Repr

/-- What one `curl_easy_perform` (store-http.c:242) does: the body fragments handed to
the write callback, the result code if the callback never aborts, and the response code
(`none`: curl_easy_getinfo fails). -/
structure CurlRun where
  frags : List Bytes
  code : Nat
  http : Option Nat
  deriving DecidableEq, Repr

/-- Observable events, in chronological order in `World.log`. -/
inductive Event where
  /-- one successful `write`/`pwrite` of exactly these bytes at this position of an inode -/
  | write (ino off : Nat) (d : Bytes)
  /-- `store_chain_get_chunk` was called for an ID -/
  | query (id : Id)
  /-- sub-store number `k` of the chain was asked for an ID -/
  | ask (k : Nat) (id : Id)
  /-- sub-store number `k` of the chain has failed and is deactivated (the message of store.c:44-45) -/
  | failed (k : Nat)
  /-- `store_chain_get_chunk` returned (none: -1) for an ID (the messages of store.c:52-53 and 59) -/
  | answer (id : Id) (r : Option Nat)
  /-- the number of skipped chunks printed by csn and casync (main.c:313), of skipped bytes printed by patchdd (patchdd.c:103) -/
  | skipped (n : Nat)
  /-- the statistics printed by `store_chain_free` (store.c:68-73): queries, and hits of each store (none: memory that was
  never written) -/
  | stats (queries : Nat) (hits : List (Option Nat))
  /-- one `curl_easy_perform` for a URL -/
  | http (url : Bytes)
  /-- `usleep` -/
  | sleep (us : Nat)
  /-- `fsync` succeeded -/
  | fsync (ino : Nat)
  /-- a file was created -/
  | create (ino : Nat)
  /-- a local store was (re)scanned -/
  | scan (ino : Nat)
  deriving DecidableEq, Repr

/-- File types that `fd_size` (utils.c:155) distinguishes. -/
inductive Kind where
  | reg
  | blk
  | other
  deriving DecidableEq, Repr

/-- State of the outside world.  `sys`, `mem` and `net` are the schedules. -/
structure World where
  data : Nat → Bytes
  kind : Nat → Kind
  dir : Bytes → Option Nat
  next : Nat
  sys : List Sys
  mem : List Bool
  net : List (Bytes → CurlRun)
  log : List Event

/-- Abnormal ends of the process. -/
inductive Stop where
  /-- a schedule ran out: the process was killed / power was cut here -/
  | killed
  /-- failed `u_assert` (utils.h:20) -/
  | abort
  /-- undefined behaviour of the C program -/
  | ub
  /-- the fuel of the `goto restart` loop ran out (proved unreachable) -/
  | diverge
  /-- `exit(EXIT_FAILURE)` in the middle of a function -/
  | exit
  deriving DecidableEq, Repr

inductive Res (α : Type) where
  | ok (a : α)
  | stop (s : Stop)
  deriving DecidableEq, Repr

/-- A computation: the world is available afterwards in every case, also after a stop. -/
def M (α : Type) := World → Res α × World

namespace M
variable {α β : Type}

def pure (a : α) : M α := fun w => (.ok a, w)

def bind (m : M α) (f : α → M β) : M β := fun w =>
  match m w with
  | (.ok a, w') => f a w'
  | (.stop s, w') => (.stop s, w')

instance : Monad M where
  pure := pure
  bind := bind

def stop (s : Stop) : M α := fun w => (.stop s, w)

/-- Append an event to the log. -/
def emit (e : Event) : M Unit := fun w => (.ok (), { w with log := w.log ++ [e] })

/-- Take the next system call result; the process is killed if there is none. -/
def sysNext : M Sys := fun w =>
  match w.sys with
  | [] => (.stop .killed, w)
  | s :: r => (.ok s, { w with sys := r })

/-- A system call that only succeeds or fails (open, fstat, lseek, fsync, ioctl).  The code
does not retry these, so every failure, whatever the errno, is `err`; all other items mean
success. -/
def sysOk : M Bool := do
  match ← sysNext with
  | .err => return false
  | _ => return true

end M

/-- Next allocation result.  An exhausted allocation schedule means success. -/
def memNext (mem : List Bool) : Bool × List Bool :=
  match mem with
  | [] => (true, [])
  | b :: r => (b, r)

/-- An allocation of `n` bytes: requests above PTRDIFF_MAX always fail. -/
def allocPure (n : Nat) (mem : List Bool) : Bool × List Bool :=
  let (b, r) := memNext mem
  (b && decide (n < 2 ^ 63), r)

/-- malloc/calloc/realloc of `n` bytes; `false` is NULL. -/
def M.alloc (n : Nat) : M Bool := fun w =>
  let (b, r) := allocPure n w.mem
  (.ok b, { w with mem := r })

end Csn
