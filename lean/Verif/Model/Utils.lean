import Verif.Model.Base
/-
Model of utils.c / utils.h.
-/
namespace Csn

/-- utils.h:51-58 `rol32`. -/
def rol32 (x : BitVec 32) (n : Nat) : BitVec 32 :=
  let n := n % 32
  if n = 0 then x else (x <<< n) ||| (x >>> (32 - n))

/-- utils.h:73-82 `unp64le`, reading at `data[off..off+8)`.  Bytes outside the list read as 0;
callers use `ld64le` below, which makes such reads undefined behaviour. -/
def unp64le (data : Bytes) (off : Nat) : Nat :=
  let d (i : Nat) : Nat := (data.getD (off + i) 0).toNat
  (d 7 <<< 56) ||| (d 6 <<< 48) ||| (d 5 <<< 40) ||| (d 4 <<< 32) |||
  (d 3 <<< 24) ||| (d 2 <<< 16) ||| (d 1 <<< 8) ||| (d 0 <<< 0)

/-- `unp64le(&buf[off])` on a buffer of which exactly the bytes `buf` have been filled: reading
outside is undefined behaviour. -/
def ld64le (buf : Bytes) (off : Nat) : M Nat :=
  if off + 8 ≤ buf.length then M.pure (unp64le buf off) else M.stop .ub

/-- `&buf[off]` used as `n` bytes; reading outside the filled part is undefined behaviour. -/
def ldBytes (buf : Bytes) (off n : Nat) : M Bytes :=
  if off + n ≤ buf.length then M.pure ((buf.drop off).take n) else M.stop .ub

/-- utils.h:84-90 `unp32le`. -/
def unp32le (data : Bytes) (off : Nat) : BitVec 32 :=
  let d (i : Nat) : BitVec 32 := BitVec.ofNat 32 (data.getD (off + i) 0).toNat
  (d 3 <<< 24) ||| (d 2 <<< 16) ||| (d 1 <<< 8) ||| (d 0 <<< 0)

/-- utils.h:92-98 `p32le`. -/
def p32le (v : BitVec 32) : Bytes :=
  [ UInt8.ofNat ((v >>> 0) &&& 0xff#32).toNat, UInt8.ofNat ((v >>> 8) &&& 0xff#32).toNat,
    UInt8.ofNat ((v >>> 16) &&& 0xff#32).toNat, UInt8.ofNat ((v >>> 24) &&& 0xff#32).toNat ]

/-- `&buf[k]` .. write `d` at position `k` of a buffer (memcpy / read into buffer).  The
model's buffers keep their length as long as `k + d.length` is at most the length. -/
def bufWrite (buf : Bytes) (k : Nat) (d : Bytes) : Bytes :=
  buf.take k ++ d ++ buf.drop (k + d.length)

/-- Kernel side of `pwrite` on a regular file: extend with zeros up to the offset,
then overwrite.  Writing nothing changes nothing. -/
def writeAt (f : Bytes) (off : Nat) (d : Bytes) : Bytes :=
  if d.isEmpty then f
  else (f ++ List.replicate (off - f.length) 0).take off ++ d ++ f.drop (off + d.length)

/-- Outcome of the exact-length helpers. `ok`/`fail` = C return value 0 / -1, with the data
transferred so far and the rest of the schedule. -/
inductive IoRes where
  | ok
  | fail
  | stop (s : Stop)
  deriving DecidableEq, Repr

/-- utils.c:55-78 `readall` and utils.c:80-104 `preadall`: both loops transfer at the current
position and advance; the position is the fd offset in one case and the argument in the
other.  `f` is the file content, `off` the position, `got` the bytes already in the buffer
(most recent last).  Recursion is over the schedule: one item per loop iteration.
A request whose end does not fit in `off_t` fails with EINVAL: Linux checks offset plus count
(here always `off + len`, the loop keeps the sum) before transferring anything. -/
def readLoop (f : Bytes) (off len : Nat) (got : Bytes) : List Sys → IoRes × Bytes × List Sys
  | [] => if got.length < len then (.stop .killed, got, []) else (.ok, got, [])
  | s :: r =>
    if got.length < len then
      match s with
      | .eintr => readLoop f off len got r
      | .err => (.fail, got, r)
      | .zero => (.fail, got, r)
      | .some k =>
        if off + len ≥ 2 ^ 63 then (.fail, got, r)
        else
          let d := (f.drop (off + got.length)).take (min (k + 1) (len - got.length))
          if d.isEmpty then (.fail, got, r)
          else readLoop f off len (got ++ d) r
    else (.ok, got, s :: r)

/-- utils.c:106-153 `writeall` / `pwriteall`.  `done` bytes have been written.  The file
content is threaded through.  Block devices (`blk`) have a fixed size: writes are cut at the
end and fail with ENOSPC behind it.  As for reads, a request ending at 2^63 or later fails.  A result of 0 trips `u_assert(ret != 0)` (122, 146). -/
def writeLoop (blk : Bool) (off : Nat) (d : Bytes) (done : Nat) (f : Bytes) (evs : List (Nat × Bytes)) :
    List Sys → IoRes × Bytes × List (Nat × Bytes) × List Sys
  | [] => if done < d.length then (.stop .killed, f, evs, []) else (.ok, f, evs, [])
  | s :: r =>
    if done < d.length then
      match s with
      | .eintr => writeLoop blk off d done f evs r
      | .err => (.fail, f, evs, r)
      | .zero => (.stop .abort, f, evs, r)
      | .some k =>
        if off + d.length ≥ 2 ^ 63 then (.fail, f, evs, r)
        else
          let room := if blk then f.length - (off + done) else d.length
          let n := min (min (k + 1) (d.length - done)) room
          if n = 0 then (.fail, f, evs, r)
          else
            let piece := (d.drop done).take n
            writeLoop blk off d (done + n) (writeAt f (off + done) piece)
              (evs ++ [(off + done, piece)]) r
    else (.ok, f, evs, s :: r)

/-- utils.c:55-104: read exactly `len` bytes at `off` of inode `ino`.  Returns whether it
succeeded and the bytes that reached the caller's buffer (also on failure). -/
def preadall (ino off len : Nat) : M (Bool × Bytes) := fun w =>
  match readLoop (w.data ino) off len [] w.sys with
  | (.ok, got, r) => (.ok (true, got), { w with sys := r })
  | (.fail, got, r) => (.ok (false, got), { w with sys := r })
  | (.stop s, _, r) => (.stop s, { w with sys := r })

/-- utils.c:55-78: as `preadall`, at the descriptor's position, which the caller tracks. -/
def readall (ino pos len : Nat) : M (Bool × Bytes) := preadall ino pos len

/-- utils.c:130-153 (and 106-128 with the position tracked by the caller). -/
def pwriteall (ino : Nat) (d : Bytes) (off : Nat) : M Bool := fun w =>
  match writeLoop (w.kind ino = .blk) off d 0 (w.data ino) [] w.sys with
  | (res, f, evs, r) =>
    let w' := { w with
      data := fun i => if i = ino then f else w.data i
      sys := r
      log := w.log ++ evs.map (fun e => Event.write ino e.1 e.2) }
    match res with
    | .ok => (.ok true, w')
    | .fail => (.ok false, w')
    | .stop s => (.stop s, w')

/-- utils.c:155-177 `fd_size` (with blockdevice_size, 39-50).  fstat and the ioctl are one
schedule item.  Sizes are below 2^63 (`off_t`). -/
def fdSize (ino : Nat) : M (Option Nat) := do
  if !(← M.sysOk) then return none
  let w ← (fun w => (.ok w, w) : M World)
  match w.kind ino with
  | .reg => return some (w.data ino).length
  | .blk => return some (w.data ino).length
  | .other => return none

/-- `lseek(fd, pos, SEEK_SET)`: the position itself is tracked by the caller. -/
def lseek (pos : Nat) : M Bool := do
  if !(← M.sysOk) then return false
  return decide (pos < 2 ^ 63)

/-- `open(path, O_RDONLY)` / `open(path, O_RDWR)`: never creates a file. -/
def openPath (path : Bytes) : M (Option Nat) := do
  if !(← M.sysOk) then return none
  (fun w => (.ok (w.dir path), w) : M (Option Nat))

/-- utils.c:235-246 `nibble`.  `c |= 0x20` on the unsigned byte value; bytes ≥ 0x80 (negative
as signed `char`) fail both range checks either way. -/
def nibble (c : UInt8) : Option Nat :=
  if 0x30 ≤ c ∧ c ≤ 0x39 then some (c.toNat - 0x30)
  else
    let c := c ||| 0x20
    if 0x61 ≤ c ∧ c ≤ 0x66 then some (c.toNat - 0x61 + 10)
    else none

/-- utils.c:248-266 `parse_hex`: the bytes written to `out` in order (also on failure), and
whether it succeeded.  `acc` is the completed output, `cur` the byte that an odd digit will
complete. -/
def parseHexGo (acc : Bytes) : Option Nat → Bytes → Bool × Bytes
  | none, [] => (true, acc)
  | some hi, [] => (true, acc ++ [UInt8.ofNat (hi <<< 4)])
  | none, c :: r =>
    match nibble c with
    | none => (false, acc)
    | some n => parseHexGo acc (some n) r
  | some hi, c :: r =>
    match nibble c with
    | none => (false, acc ++ [UInt8.ofNat (hi <<< 4)])
    | some n => parseHexGo (acc ++ [UInt8.ofNat ((hi <<< 4) ||| n)]) none r

def parseHex (s : Bytes) : Bool × Bytes := parseHexGo [] none s

/-- `*p == '\r' || *p == '\n'` (utils.c:276, 279). -/
def isNl (c : UInt8) : Bool := c == 13 || c == 10

/-- utils.c:275-284: the two nested loops of `chomp` as one pass; `pos` is `p - s`, `q` the
start of the last line-break run seen, `inRun` tells whether the inner loop (279-280) is
active. -/
def chompLoop (pos : Nat) (q : Option Nat) (inRun : Bool) : Bytes → Option Nat
  | [] => q
  | c :: r =>
    if isNl c then chompLoop (pos + 1) (if inRun then q else some pos) true r
    else chompLoop (pos + 1) q false r

/-- utils.c:268-288 `chomp`. -/
def chomp (s : Bytes) : Bytes :=
  match chompLoop 0 none false s with
  | none => s
  | some q => s.take q

/-- strcmp equality (utils.h:47 `streq`). -/
def streq (a b : Bytes) : Bool := a == b

/-- utils.h:49 `startswith`. -/
def startswith (a b : Bytes) : Bool := a.take b.length == b

/-- A C string seen through `char *`: everything up to the first NUL. -/
def cstr (b : Bytes) : Bytes := b.takeWhile (· != 0)

/-- utils.c:179-224 `slurp_file`: open, size, allocate, read everything; for a text, a NUL is put behind it.  The result is the
buffer.  Writing behind the end of the buffer is undefined. -/
def slurpFile (path : Bytes) (text : Bool) : M (Option Bytes) := do
  match ← openPath path with
  | none => return none
  | some ino =>
    match ← fdSize ino with
    | none => return none
    | some size =>
      let cap := if text then size + 1 else size
      if !(← M.alloc cap) then return none
      else if cap < size then M.stop .ub
      else
        match ← readall ino 0 size with
        | (true, d) =>
          if text then
            if size < cap then return some (d ++ [0]) else M.stop .ub
          else return some d
        | (false, _) => return none

end Csn
