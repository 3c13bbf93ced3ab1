import Verif.Model.Utils
/-
Model of chunker.c / chunker.h.
-/
namespace Csn

/-- chunker.c:11-76 `buzhash_table`. -/
def buzhashTable : List (BitVec 32) := [
  0x458be752, 0xc10748cc, 0xfbbcdbb8, 0x6ded5b68, 0xb10a82b5, 0x20d75648,
  0xdfc5665f, 0xa8428801, 0x7ebf5191, 0x841135c7, 0x65cc53b3, 0x280a597c,
  0x16f60255, 0xc78cbc3e, 0x294415f5, 0xb938d494, 0xec85c4e6, 0xb7d33edc,
  0xe549b544, 0xfdeda5aa, 0x882bf287, 0x3116737c, 0x05569956, 0xe8cc1f68,
  0x0806ac5e, 0x22a14443, 0x15297e10, 0x50d090e7, 0x4ba60f6f, 0xefd9f1a7,
  0x5c5c885c, 0x82482f93, 0x9bfd7c64, 0x0b3e7276, 0xf2688e77, 0x8fad8abc,
  0xb0509568, 0xf1ada29f, 0xa53efdfe, 0xcb2b1d00, 0xf2a9e986, 0x6463432b,
  0x95094051, 0x5a223ad2, 0x9be8401b, 0x61e579cb, 0x1a556a14, 0x5840fdc2,
  0x9261ddf6, 0xcde002bb, 0x52432bb0, 0xbf17373e, 0x7b7c222f, 0x2955ed16,
  0x9f10ca59, 0xe840c4c9, 0xccabd806, 0x14543f34, 0x1462417a, 0x0d4a1f9c,
  0x087ed925, 0xd7f8f24c, 0x7338c425, 0xcf86c8f5, 0xb19165cd, 0x9891c393,
  0x325384ac, 0x0308459d, 0x86141d7e, 0xc922116a, 0xe2ffa6b6, 0x53f52aed,
  0x2cd86197, 0xf5b9f498, 0xbf319c8f, 0xe0411fae, 0x977eb18c, 0xd8770976,
  0x9833466a, 0xc674df7f, 0x8c297d45, 0x8ca48d26, 0xc49ed8e2, 0x7344f874,
  0x556f79c7, 0x6b25eaed, 0xa03e2b42, 0xf68f66a4, 0x8e8b09a2, 0xf2e0e62a,
  0x0d3a9806, 0x9729e493, 0x8c72b0fc, 0x160b94f6, 0x450e4d3d, 0x7a320e85,
  0xbef8f0e1, 0x21d73653, 0x4e3d977a, 0x1e7b3929, 0x1cc6c719, 0xbe478d53,
  0x8d752809, 0xe6d8c2c6, 0x275f0892, 0xc8acc273, 0x4cc21580, 0xecc4a617,
  0xf5f7be70, 0xe795248a, 0x375a2fe9, 0x425570b6, 0x8898dcf8, 0xdc2d97c4,
  0x0106114b, 0x364dc22f, 0x1e0cad1f, 0xbe63803c, 0x5f69fac2, 0x4d5afa6f,
  0x1bc0dfb5, 0xfb273589, 0x0ea47f7b, 0x3c1c2b50, 0x21b2a932, 0x6b1223fd,
  0x2fe706a8, 0xf9bd6ce2, 0xa268e64e, 0xe987f486, 0x3eacf563, 0x1ca2018c,
  0x65e18228, 0x2207360a, 0x57cf1715, 0x34c37d2b, 0x1f8f3cde, 0x93b657cf,
  0x31a019fd, 0xe69eb729, 0x8bca7b9b, 0x4c9d5bed, 0x277ebeaf, 0xe0d8f8ae,
  0xd150821c, 0x31381871, 0xafc3f1b0, 0x927db328, 0xe95effac, 0x305a47bd,
  0x426ba35b, 0x1233af3f, 0x686a5b83, 0x50e072e5, 0xd9d3bb2a, 0x8befc475,
  0x487f0de6, 0xc88dff89, 0xbd664d5e, 0x971b5d18, 0x63b14847, 0xd7d3c1ce,
  0x7f583cf3, 0x72cbcb09, 0xc0d0a81c, 0x7fa3429b, 0xe9158a1b, 0x225ea19a,
  0xd8ca9ea3, 0xc763b282, 0xbb0c6341, 0x020b8293, 0xd4cd299d, 0x58cfa7f8,
  0x91b4ee53, 0x37e4d140, 0x95ec764c, 0x30f76b06, 0x5ee68d24, 0x679c8661,
  0xa41979c2, 0xf2b61284, 0x4fac1475, 0x0adb49f9, 0x19727a23, 0x15a7e374,
  0xc43a18d5, 0x3fb1aa73, 0x342fc615, 0x924c0793, 0xbee2d7f0, 0x8a279de9,
  0x4aa2d70c, 0xe24dd37f, 0xbe862c0b, 0x177c22c2, 0x5388e5ee, 0xcd8a7510,
  0xf901b4fd, 0xdbc13dbc, 0x6c0bae5b, 0x64efe8c7, 0x48b02079, 0x80331a49,
  0xca3d8ae6, 0xf3546190, 0xfed7108b, 0xc49b941b, 0x32baf4a9, 0xeb833a4a,
  0x88a3f1a5, 0x3a91ce0a, 0x3cc27da1, 0x7112e684, 0x4a3096b1, 0x3794574c,
  0xa3c8b6f3, 0x1d213941, 0x6e0a2e00, 0x233479f1, 0x0f4cd82f, 0x6093edd2,
  0x5d7d209e, 0x464fe319, 0xd4dcac9e, 0x0db845cb, 0xfb5e4bc3, 0xe0256ce1,
  0x09fb4ed1, 0x0914be1e, 0xa5bdb2c3, 0xc6eb57bb, 0x30320350, 0x3f397e91,
  0xa67791bc, 0x86bc0e2c, 0xefa0a7e2, 0xe9ff7543, 0xe733612c, 0xd185897b,
  0x329e5388, 0x91dd236b, 0x2ecb0d93, 0xf4d82a3d, 0x35b5c03f, 0xe4e606f0,
  0x05b21843, 0x37b45964, 0x5eff22f4, 0x6027f4cc, 0x77178b3c, 0xae507131,
  0x7bf7cabc, 0xf9c18d66, 0x593ade65, 0xd95ddf11]

/-- `buzhash_table[b]`. -/
def buz (b : UInt8) : BitVec 32 := buzhashTable.getD b.toNat 0

/-- chunker.h:13-15 `struct chunker_params`. -/
structure Params where
  min : Nat
  avg : Nat
  max : Nat
  deriving DecidableEq, Repr

/-- chunker.c:78-99 `chunker_params_set`: `none` is -1. -/
def paramsSet (min avg max : Nat) : Option Params :=
  if !(min < avg && avg < max) then none
  else if min > 2 ^ 32 - 1 || avg > 2 ^ 32 - 1 || max > 2 ^ 32 - 1 then none
  else some ⟨min, avg, max⟩

/-- chunker.h:17-28 `struct chunker` without the constant fields `params` and
`discriminator`, which the functions below take as arguments.  `sha` is the data the SHA-256
context has absorbed. -/
structure Chunker where
  h : BitVec 32
  chunkSize : Nat
  windowFill : Nat
  window : Bytes
  sha : Bytes
  deriving DecidableEq, Repr

/-- chunker.h:11. -/
def windowSize : Nat := 48

/-- chunker.c:101-108 `chunker_reset`: the window contents are kept. -/
def Chunker.reset (c : Chunker) : Chunker :=
  { c with h := 0, chunkSize := 0, windowFill := 0, sha := [] }

/-- chunker.c:111-124 `chunker_init` apart from the discriminator; the window of the
stack-allocated `struct chunker` (221) is uninitialised, here any 48 bytes would do; zeros
are used, and bytes are only read after having been written. -/
def Chunker.init : Chunker := ⟨0, 0, 0, List.replicate 48 0, []⟩

/-- chunker.c:110 the discriminator formula, as an exact rational number truncated to an
integer: `none` where the quotient is negative or has denominator zero (conversion of an
out-of-range float to `size_t` is undefined).  The C code evaluates it in double precision;
the model functions take the discriminator as a parameter `d`. -/
def discExact (avg : Nat) : Option Nat :=
  if 133237515000000000 > 14288885200 * avg then
    some (avg * 100000000000000000 / (133237515000000000 - 14288885200 * avg))
  else none

/-- chunker.c:126-143 `chunker_shall_break`.  `d` is the discriminator; the default average
size uses the compile-time constant 0xc17f (118, 138).  Modulo zero is undefined. -/
def shallBreak (p : Params) (d : Nat) (c : Chunker) : Res Bool :=
  if c.chunkSize ≥ p.max then .ok true
  else if c.chunkSize < p.min then .ok false
  else
    let d := if p.avg = 65536 then 0xc17f else d
    if d = 0 then .stop .ub
    else .ok (c.h.toNat % d = d - 1)

/-- chunker.c:170-171: initial hash of a full window. -/
def initHash (window : Bytes) : BitVec 32 :=
  (List.range 48).foldl (fun h i => h ^^^ rol32 (buz (window.getD i 0)) (48 - i - 1)) 0

/-- chunker.c:180-194: one iteration of the rolling loop without the break test. -/
def rollStep (c : Chunker) (idx : Nat) (b : UInt8) : Chunker :=
  { c with
    h := rol32 c.h 1 ^^^ rol32 (buz (c.window.getD idx 0)) 48 ^^^ buz b
    chunkSize := c.chunkSize + 1
    window := c.window.set idx b }

/-- chunker.c:189-191. -/
def nextIdx (idx : Nat) : Nat := if idx + 1 = 48 then 0 else idx + 1

/-- chunker.c:179-204: the rolling loop.  `consumed` counts all bytes consumed in this call.
The SHA update at 197/202 covers the bytes consumed by this loop (`seen`). -/
def rollLoop (p : Params) (d : Nat) (c : Chunker) (idx consumed : Nat) (seen : Bytes) :
    Bytes → Res (Option Nat × Chunker)
  | [] => .ok (none, { c with sha := c.sha ++ seen })
  | b :: r =>
    let c' := rollStep c idx b
    match shallBreak p d c' with
    | .stop s => .stop s
    | .ok true => .ok (some (consumed + 1), { c' with sha := c'.sha ++ (seen ++ [b]) })
    | .ok false => rollLoop p d c' (nextIdx idx) (consumed + 1) (seen ++ [b]) r

/-- chunker.c:174-204: the part of `chunker_scan` behind the window fill. -/
def scanTail (p : Params) (d : Nat) (c : Chunker) (consumed : Nat) (buf : Bytes) :
    Res (Option Nat × Chunker) :=
  match shallBreak p d c with
  | .stop s => .stop s
  | .ok true => .ok (some consumed, c)
  | .ok false => rollLoop p d c (c.chunkSize % 48) consumed [] buf

/-- chunker.c:145-205 `chunker_scan`.  `none` is the return value (size_t)-1. -/
def chunkerScan (p : Params) (d : Nat) (c : Chunker) (buf : Bytes) : Res (Option Nat × Chunker) :=
  if c.windowFill < 48 then
    let toCopy := min buf.length (48 - c.windowFill)
    let piece := buf.take toCopy
    let c1 : Chunker := { c with
      window := bufWrite c.window c.windowFill piece
      sha := c.sha ++ piece
      windowFill := c.windowFill + toCopy
      chunkSize := c.chunkSize + toCopy }
    if c1.windowFill < 48 then .ok (none, c1)
    else scanTail p d { c1 with h := c1.h ^^^ initHash c1.window } toCopy (buf.drop toCopy)
  else scanTail p d c 0 buf

/-- A chunk as reported to a callback: offset, length, ID. -/
structure Seg where
  off : Nat
  len : Nat
  id : Id
  deriving DecidableEq, Repr

/-- Result of a callback with state `σ`: return value 0, return value -1, or a stop. -/
inductive CbRes (σ : Type) where
  | ok (s : σ)
  | fail (s : σ)
  | stop (x : Stop) (s : σ)

/-- Outcome of a scan: return value 0, -1, or a stop. -/
inductive ScanRes where
  | ok
  | fail
  | stop (s : Stop)
  deriving DecidableEq, Repr

/-- chunker.c:248-270: handle the bytes of one `read`.  `offset`/`last` are the running
offset and the last boundary; `len` is passed to the callback as `uint32_t`.  Every chunk is
at least one byte long so `fuel` = number of bytes suffices (out of fuel = `diverge`). -/
def scanBuf {σ : Type} (H : Bytes → Id) (p : Params) (d : Nat) (cb : σ → Seg → CbRes σ) :
    Nat → Chunker → Nat → Nat → σ → Bytes → ScanRes × Chunker × Nat × Nat × σ
  | fuel, c, offset, last, s, buf =>
    if buf.length = 0 then (.ok, c, offset, last, s)
    else match fuel with
    | 0 => (.stop .diverge, c, offset, last, s)
    | fuel + 1 =>
      match chunkerScan p d c buf with
      | .stop x => (.stop x, c, offset, last, s)
      | .ok (none, c') => (.ok, c', offset + buf.length, last, s)
      | .ok (some n, c') =>
        let offset := offset + n
        match cb s ⟨last, (offset - last) % 2 ^ 32, H c'.sha⟩ with
        | .stop x s' => (.stop x, c', offset, last, s')
        | .fail s' => (.fail, c', offset, last, s')
        | .ok s' => scanBuf H p d cb fuel c'.reset offset offset s' (buf.drop n)

/-- chunker.c:235-280: the read loop and the leftover chunk.  `pos` is the descriptor's
position (always equal to `offset` in reachable states, kept separately), `bufsiz` is BUFSIZ.
Recursion over the schedule. -/
def scanLoop {σ : Type} (H : Bytes → Id) (p : Params) (d bufsiz : Nat)
    (cb : σ → Seg → CbRes σ) (f : Bytes) :
    Chunker → Nat → Nat → Nat → σ → List Sys → ScanRes × σ × List Sys
  | _, _, _, _, s, [] => (.stop .killed, s, [])
  | c, pos, offset, last, s, x :: r =>
    match x with
    | .eintr => scanLoop H p d bufsiz cb f c pos offset last s r
    | .err => (.fail, s, r)
    | _ =>
      let got : Bytes := match x with
        | .some k => (f.drop pos).take (min (k + 1) bufsiz)
        | _ => []
      if got.isEmpty then
        if offset ≠ last then
          match cb s ⟨last, (offset - last) % 2 ^ 32, H c.sha⟩ with
          | .stop y s' => (.stop y, s', r)
          | .fail s' => (.fail, s', r)
          | .ok s' => (.ok, s', r)
        else (.ok, s, r)
      else
        match scanBuf H p d cb got.length c offset last s got with
        | (.stop y, _, _, _, s') => (.stop y, s', r)
        | (.fail, _, _, _, s') => (.fail, s', r)
        | (.ok, c', offset', last', s') =>
          scanLoop H p d bufsiz cb f c' (pos + got.length) offset' last' s' r

/-- chunker.c:215-281 `chunker_scan_fd` on a file with contents `f`.  The first schedule item
is the `lseek` (232; fails on `err`).  `disc` is the discriminator formula; `none` is UB in `chunker_init`
(119). -/
def scanFd {σ : Type} (H : Bytes → Id) (disc : Nat → Option Nat) (bufsiz : Nat) (p : Params)
    (cb : σ → Seg → CbRes σ) (f : Bytes) (s : σ) (sys : List Sys) : ScanRes × σ × List Sys :=
  match disc p.avg with
  | none => (.stop .ub, s, sys)
  | some d =>
    match sys with
    | [] => (.stop .killed, s, [])
    | .err :: r => (.fail, s, r)
    | _ :: r => scanLoop H p d bufsiz cb f Chunker.init 0 0 0 s r

end Csn
