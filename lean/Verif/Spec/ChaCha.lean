/-
ChaCha20 (RFC 8439), HChaCha20 and XChaCha20 (draft-irtf-cfrg-xchacha-03), written from the documents.
-/
namespace Csn.Spec

/-- The sixteen words of a ChaCha state. -/
abbrev State := Nat → BitVec 32

def State.put (s : State) (i : Nat) (v : BitVec 32) : State := fun j => if j = i then v else s j

/-- "a += b; d ^= a; d <<<= n" on the words with these numbers (RFC 8439 section 2.1). -/
def qrStep (s : State) (a b d n : Nat) : State :=
  let s := s.put a (s a + s b)
  s.put d ((s d ^^^ s a).rotateLeft n)

/-- QUARTERROUND (section 2.2) -/
def qround (s : State) (a b c d : Nat) : State :=
  let s := qrStep s a b d 16
  let s := qrStep s c d b 12
  let s := qrStep s a b d 8
  qrStep s c d b 7

/-- The eight quarter rounds of inner_block (section 2.3.1): columns, then diagonals. -/
def innerBlock (s : State) : State :=
  [(0, 4, 8, 12), (1, 5, 9, 13), (2, 6, 10, 14), (3, 7, 11, 15),
   (0, 5, 10, 15), (1, 6, 11, 12), (2, 7, 8, 13), (3, 4, 9, 14)].foldl (fun s (a, b, c, d) => qround s a b c d) s

/-- Ten times inner_block. -/
def rounds20 (s : State) : State := (List.range 10).foldl (fun s _ => innerBlock s) s

/-- The little-endian number in bytes `4 * k` to `4 * k + 3`. -/
def leWord (d : List UInt8) (k : Nat) : BitVec 32 :=
  BitVec.ofNat 32 ((d.getD (4 * k) 0).toNat + 256 * (d.getD (4 * k + 1) 0).toNat + 65536 * (d.getD (4 * k + 2) 0).toNat +
    16777216 * (d.getD (4 * k + 3) 0).toNat)

/-- Byte `i` of a word, least significant first. -/
def leByte (v : BitVec 32) (i : Nat) : UInt8 := UInt8.ofNat (v.toNat / 256 ^ i % 256)

/-- The constants and the key: words 0 to 11 of the state. -/
def keyed (key : List UInt8) (rest : Nat → BitVec 32) : State := fun i =>
  if i = 0 then 0x61707865 else if i = 1 then 0x3320646e else if i = 2 then 0x79622d32 else if i = 3 then 0x6b206574
  else if i < 12 then leWord key (i - 4) else rest (i - 12)

/-- Byte `i` (below 64) of chacha20_block(key, counter, nonce) with a 12 byte nonce (section 2.3.1). -/
def chachaBlock (key : List UInt8) (counter : Nat) (nonce : List UInt8) (i : Nat) : UInt8 :=
  let s := keyed key (fun j => if j = 0 then BitVec.ofNat 32 counter else leWord nonce (j - 1))
  leByte (rounds20 s (i / 4) + s (i / 4)) (i % 4)

/-- HChaCha20 with a 16 byte nonce (draft, section 2.2): words 0 to 3 and 12 to 15 of the state after the
rounds. -/
def hchacha (key nonce : List UInt8) : List UInt8 :=
  let s := rounds20 (keyed key (leWord nonce))
  [0, 1, 2, 3, 12, 13, 14, 15].flatMap (fun i => (List.range 4).map (leByte (s i)))

/-- Byte `i` of the XChaCha20 key stream with a 24 byte nonce and the block counter starting at 0 (draft, section
2.3). -/
def xchacha (key nonce : List UInt8) (i : Nat) : UInt8 :=
  chachaBlock (hchacha key (nonce.take 16)) (i / 64) ([0, 0, 0, 0] ++ (nonce.drop 16).take 8) (i % 64)

end Csn.Spec
