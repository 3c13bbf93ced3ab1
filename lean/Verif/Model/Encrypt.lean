import Verif.Model.Utils
/-
Model of encrypt.c.
-/
namespace Csn

/-- encrypt.c:38-42 `QUARTERROUND` on four variables. -/
def quarterRound (a b c d : BitVec 32) : BitVec 32 × BitVec 32 × BitVec 32 × BitVec 32 :=
  let a := a + b
  let d := rol32 (d ^^^ a) 16
  let c := c + d
  let b := rol32 (b ^^^ c) 12
  let a := a + b
  let d := rol32 (d ^^^ a) 8
  let c := c + d
  let b := rol32 (b ^^^ c) 7
  (a, b, c, d)

/-- encrypt.c:47-50: the sixteen variables `t0` .. `t15`, as a list. -/
abbrev Words := List (BitVec 32)

/-- `QUARTERROUND(ti, tj, tk, tl)`. -/
def qrAt (t : Words) (i j k l : Nat) : Words :=
  let (a, b, c, d) := quarterRound (t.getD i 0) (t.getD j 0) (t.getD k 0) (t.getD l 0)
  (((t.set i a).set j b).set k c).set l d

/-- encrypt.c:53-60: one iteration of the loop, two rounds. -/
def doubleRound (t : Words) : Words :=
  let t := qrAt t 0 4 8 12
  let t := qrAt t 1 5 9 13
  let t := qrAt t 2 6 10 14
  let t := qrAt t 3 7 11 15
  let t := qrAt t 0 5 10 15
  let t := qrAt t 1 6 11 12
  let t := qrAt t 2 7 8 13
  qrAt t 3 4 9 14

def iter {α : Type} (f : α → α) : Nat → α → α
  | 0, x => x
  | n + 1, x => iter f n (f x)

/-- encrypt.c:44-66 `chacha20_rounds`. -/
def chacha20Rounds (t : Words) : Words := iter doubleRound 10 t

/-- encrypt.c:18-22 `unp32le_buf`. -/
def unp32leBuf (src : Bytes) (off size : Nat) : Words :=
  (List.range size).map (fun i => unp32le src (off + i * 4))

/-- encrypt.c:24-28 `p32le_buf`. -/
def p32leBuf (src : Words) : Bytes := src.flatMap p32le

/-- encrypt.c:68-83 `hchacha20`.  Reads outside `key` and `nonce` are 0 in the model; all callers
pass 32 and 16 bytes. -/
def hchacha20 (key nonce : Bytes) : Bytes :=
  let block := unp32leBuf (str "expand 32-byte k") 0 4 ++ unp32leBuf key 0 8 ++ unp32leBuf nonce 0 4
  let block := chacha20Rounds block
  p32leBuf (block.take 4) ++ p32leBuf ((block.drop 12).take 4)

/-- OpenSSL's `EVP_chacha20` block `n` for a 32 byte key and a 16 byte IV (not part of the
repository): the IV's first two words are a 64 bit counter, the other two the nonce. -/
def evpBlock (key iv : Bytes) (n : Nat) : Bytes :=
  let ctr := (unp32le iv 0).toNat + 2 ^ 32 * (unp32le iv 4).toNat + n
  let input := unp32leBuf (str "expand 32-byte k") 0 4 ++ unp32leBuf key 0 8 ++
    [BitVec.ofNat 32 ctr, BitVec.ofNat 32 (ctr / 2 ^ 32), unp32le iv 8, unp32le iv 12]
  p32leBuf (List.zipWith (· + ·) input (chacha20Rounds input))

/-- Byte `i` of OpenSSL's ChaCha20 key stream. -/
def evpByte (key iv : Bytes) (i : Nat) : UInt8 := (evpBlock key iv (i / 64)).getD (i % 64) 0

/-- encrypt.c:104-109: the IV built from the nonce: eight zero bytes and the nonce's last eight
bytes. -/
def ctrNonce (nonce : Bytes) : Bytes := List.replicate 8 0 ++ (nonce.drop 16).take 8

/-- encrypt.c:100-128 `encrypt_restart`: the key stream it selects, by byte position.  The OpenSSL
calls are assumed not to fail. -/
def encryptStream (key nonce : Bytes) : Nat → UInt8 :=
  evpByte (hchacha20 key (nonce.take 16)) (ctrNonce nonce)

/-- XOR data with a key stream from position `pos` on. -/
def xorFrom (ks : Nat → UInt8) (pos : Nat) : Bytes → Bytes
  | [] => []
  | b :: r => (b ^^^ ks pos) :: xorFrom ks (pos + 1) r

/-- encrypt.c:137-143 `encrypt_do` on `len = d.length` bytes: `none` is -1, otherwise the bytes that
are written to `out`; the key stream position advances by their number.  EVP_Cipher takes an
`unsigned int`, so the length is taken modulo 2^32.  `evp0`: whether EVP_Cipher's result for length
0 is nonzero (OpenSSL 3 returns the number of bytes, which the code takes for a failure).  Other
failures are in Model/Evp. -/
def encryptDo (ks : Nat → UInt8) (evp0 : Bool) (pos : Nat) (d : Bytes) : Option Bytes :=
  let n := d.length % 2 ^ 32
  if n = 0 ∧ evp0 = false then none
  else some (xorFrom ks pos (d.take n))

/-- encrypt.h `struct encrypt_ctx`: the key and the state of the OpenSSL cipher, a key stream and the position
in it (OpenSSL keeps the unused rest of a block between calls); `none` before the first restart. -/
structure EncCtx where
  key : Bytes
  cipher : Option ((Nat → UInt8) × Nat)

/-- encrypt.c:87-98 `encrypt_init`.  EVP_CIPHER_CTX_new is assumed not to fail. -/
def encryptInit (key : Bytes) : EncCtx := ⟨key, none⟩

/-- encrypt.c:100-128 `encrypt_restart`. -/
def encryptRestart (c : EncCtx) (nonce : Bytes) : EncCtx := { c with cipher := some (encryptStream c.key nonce, 0) }

/-- encrypt.c:137-143 `encrypt_do` on a context: the bytes written to `out`.  EVP_Cipher without an initialised
cipher fails. -/
def encryptDoCtx (c : EncCtx) (evp0 : Bool) (d : Bytes) : Option Bytes × EncCtx :=
  match c.cipher with
  | none => (none, c)
  | some (ks, pos) =>
    match encryptDo ks evp0 pos d with
    | none => (none, c)
    | some o => (some o, { c with cipher := some (ks, pos + o.length) })

/-- encrypt.c:145-195 `encrypt_parse_keyspec`: `some key` is success.  The key buffer has exactly 32
bytes; 64 digits fill it exactly.  A text without NUL would be read beyond its end (undefined).  Wiping is not modelled. -/
def parseKeyspec (getenv : Bytes → Option Bytes) (spec : Bytes) : M (Option Bytes) := do
  let check (s : Bytes) : Option Bytes :=
    if s.length ≠ 64 then none
    else match parseHex s with
      | (true, k) => some k
      | (false, _) => none
  if startswith spec (str "key:") then return check (spec.drop 4)
  else if startswith spec (str "env:") then
    match getenv (spec.drop 4) with
    | none => return none
    | some s => return check s
  else if startswith spec (str "file:") then
    match ← slurpFile (spec.drop 5) true with
    | none => return none
    | some d => if d.contains 0 then return check (chomp (cstr d)) else M.stop .ub
  else return none

end Csn
