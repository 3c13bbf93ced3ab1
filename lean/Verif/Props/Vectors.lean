import Verif.Model.Bench
import Verif.Props.Encrypt
import Verif.Props.Feed
/-
The vectors of the repository's own unit tests (test/chunker_test.c, test/encrypt_test.c), evaluated in the model.  These are
tests of the model, not proofs about it; they tie its definitions to values computed by other implementations.
-/
namespace Csn.Vectors
open Csn Csn.Props

/-- The chunk size parameters of test/chunker_test.c:18-22. -/
def testParams : Params := ⟨65536 / 4, 65536, 65536 * 4⟩

/-- The data of test/chunker_test.c:360-363: 128 bytes of the generator with seed 0xAFFED00F. -/
def testData : Bytes := (xorshiftLoop 32 0xAFFED00F#32).1

/-- test/chunker_test.c `partial_window_feed`: the rolling hash behind the data, for the eight ways it is fed there. -/
example : [[testData], [[], testData, []], [testData.take 1, testData.drop 1], [testData.take 47, testData.drop 47],
    [testData.take 47, (testData.drop 47).take 1, testData.drop 48],
    [testData.take 47, (testData.drop 47).take 1, (testData.drop 48).take 1, testData.drop 49],
    [testData.take 48, (testData.drop 48).take 1, testData.drop 49], [testData.take 48, testData.drop 48]].map
    (fun ps => match scanPieces testParams 0 Chunker.init ps with | .ok (none, c) => some c.h | _ => none) =
    List.replicate 8 (some 0xec7de6d0#32) := by decide +kernel

/-- test/chunker_test.c `discriminator`. -/
example : discExact testParams.avg = some 0xc17f := by decide

/-- test/encrypt_test.c `test_hchacha20_draft_irtf_cfrg_xchacha_03`. -/
example : hchacha20 ((List.range 32).map UInt8.ofNat) [
    0x00, 0x00, 0x00, 0x09, 0x00, 0x00, 0x00, 0x4a, 0x00, 0x00, 0x00, 0x00, 0x31, 0x41, 0x59, 0x27] =
  [
    0x82, 0x41, 0x3b, 0x42, 0x27, 0xb2, 0x7b, 0xfe, 0xd3, 0x0e, 0x42, 0x50, 0x8a, 0x87, 0x7d, 0x73,
    0xa0, 0xf9, 0xe4, 0xd5, 0x8a, 0x74, 0xa8, 0x53, 0xc1, 0x2e, 0xc4, 0x13, 0x26, 0xd3, 0xec, 0xdc] := by decide +kernel

/-- test/encrypt_test.c:37-41, the plain text. -/
def plaintext : Bytes := [
    84, 104, 101, 32, 100, 104, 111, 108, 101, 32, 40, 112, 114, 111, 110, 111, 117, 110, 99, 101, 100, 32, 34, 100, 111,
    108, 101, 34, 41, 32, 105, 115, 32, 97, 108, 115, 111, 32, 107, 110, 111, 119, 110, 32, 97, 115, 32, 116, 104, 101, 32,
    65, 115, 105, 97, 116, 105, 99, 32, 119, 105, 108, 100, 32, 100, 111, 103, 44, 32, 114, 101, 100, 32, 100, 111, 103, 44,
    32, 97, 110, 100, 32, 119, 104, 105, 115, 116, 108, 105, 110, 103, 32, 100, 111, 103, 46, 32, 73, 116, 32, 105, 115, 32,
    97, 98, 111, 117, 116, 32, 116, 104, 101, 32, 115, 105, 122, 101, 32, 111, 102, 32, 97, 32, 71, 101, 114, 109, 97, 110,
    32, 115, 104, 101, 112, 104, 101, 114, 100, 32, 98, 117, 116, 32, 108, 111, 111, 107, 115, 32, 109, 111, 114, 101, 32,
    108, 105, 107, 101, 32, 97, 32, 108, 111, 110, 103, 45, 108, 101, 103, 103, 101, 100, 32, 102, 111, 120, 46, 32, 84,
    104, 105, 115, 32, 104, 105, 103, 104, 108, 121, 32, 101, 108, 117, 115, 105, 118, 101, 32, 97, 110, 100, 32, 115, 107,
    105, 108, 108, 101, 100, 32, 106, 117, 109, 112, 101, 114, 32, 105, 115, 32, 99, 108, 97, 115, 115, 105, 102, 105, 101,
    100, 32, 119, 105, 116, 104, 32, 119, 111, 108, 118, 101, 115, 44, 32, 99, 111, 121, 111, 116, 101, 115, 44, 32, 106,
    97, 99, 107, 97, 108, 115, 44, 32, 97, 110, 100, 32, 102, 111, 120, 101, 115, 32, 105, 110, 32, 116, 104, 101, 32, 116,
    97, 120, 111, 110, 111, 109, 105, 99, 32, 102, 97, 109, 105, 108, 121, 32, 67, 97, 110, 105, 100, 97, 101, 46]

/-- test/encrypt_test.c:43-46 -/
def key : Bytes := (List.range 32).map (fun i => UInt8.ofNat (0x80 + i))

/-- test/encrypt_test.c:48-51 -/
def nonce : Bytes := [
    0x40, 0x41, 0x42, 0x43, 0x44, 0x45, 0x46, 0x47, 0x48, 0x49, 0x4a, 0x4b, 0x4c, 0x4d, 0x4e, 0x4f,
    0x50, 0x51, 0x52, 0x53, 0x54, 0x55, 0x56, 0x58]

/-- test/encrypt_test.c:54-74 -/
def outShould : Bytes := [
    0x45, 0x59, 0xab, 0xba, 0x4e, 0x48, 0xc1, 0x61, 0x02, 0xe8, 0xbb, 0x2c, 0x05, 0xe6, 0x94, 0x7f,
    0x50, 0xa7, 0x86, 0xde, 0x16, 0x2f, 0x9b, 0x0b, 0x7e, 0x59, 0x2a, 0x9b, 0x53, 0xd0, 0xd4, 0xe9,
    0x8d, 0x8d, 0x64, 0x10, 0xd5, 0x40, 0xa1, 0xa6, 0x37, 0x5b, 0x26, 0xd8, 0x0d, 0xac, 0xe4, 0xfa,
    0xb5, 0x23, 0x84, 0xc7, 0x31, 0xac, 0xbf, 0x16, 0xa5, 0x92, 0x3c, 0x0c, 0x48, 0xd3, 0x57, 0x5d,
    0x4d, 0x0d, 0x2c, 0x67, 0x3b, 0x66, 0x6f, 0xaa, 0x73, 0x10, 0x61, 0x27, 0x77, 0x01, 0x09, 0x3a,
    0x6b, 0xf7, 0xa1, 0x58, 0xa8, 0x86, 0x42, 0x92, 0xa4, 0x1c, 0x48, 0xe3, 0xa9, 0xb4, 0xc0, 0xda,
    0xec, 0xe0, 0xf8, 0xd9, 0x8d, 0x0d, 0x7e, 0x05, 0xb3, 0x7a, 0x30, 0x7b, 0xbb, 0x66, 0x33, 0x31,
    0x64, 0xec, 0x9e, 0x1b, 0x24, 0xea, 0x0d, 0x6c, 0x3f, 0xfd, 0xdc, 0xec, 0x4f, 0x68, 0xe7, 0x44,
    0x30, 0x56, 0x19, 0x3a, 0x03, 0xc8, 0x10, 0xe1, 0x13, 0x44, 0xca, 0x06, 0xd8, 0xed, 0x8a, 0x2b,
    0xfb, 0x1e, 0x8d, 0x48, 0xcf, 0xa6, 0xbc, 0x0e, 0xb4, 0xe2, 0x46, 0x4b, 0x74, 0x81, 0x42, 0x40,
    0x7c, 0x9f, 0x43, 0x1a, 0xee, 0x76, 0x99, 0x60, 0xe1, 0x5b, 0xa8, 0xb9, 0x68, 0x90, 0x46, 0x6e,
    0xf2, 0x45, 0x75, 0x99, 0x85, 0x23, 0x85, 0xc6, 0x61, 0xf7, 0x52, 0xce, 0x20, 0xf9, 0xda, 0x0c,
    0x09, 0xab, 0x6b, 0x19, 0xdf, 0x74, 0xe7, 0x6a, 0x95, 0x96, 0x74, 0x46, 0xf8, 0xd0, 0xfd, 0x41,
    0x5e, 0x7b, 0xee, 0x2a, 0x12, 0xa1, 0x14, 0xc2, 0x0e, 0xb5, 0x29, 0x2a, 0xe7, 0xa3, 0x49, 0xae,
    0x57, 0x78, 0x20, 0xd5, 0x52, 0x0a, 0x1f, 0x3f, 0xb6, 0x2a, 0x17, 0xce, 0x6a, 0x7e, 0x68, 0xfa,
    0x7c, 0x79, 0x11, 0x1d, 0x88, 0x60, 0x92, 0x0b, 0xc0, 0x48, 0xef, 0x43, 0xfe, 0x84, 0x48, 0x6c,
    0xcb, 0x87, 0xc2, 0x5f, 0x0a, 0xe0, 0x45, 0xf0, 0xcc, 0xe1, 0xe7, 0x98, 0x9a, 0x9a, 0xa2, 0x20,
    0xa2, 0x8b, 0xdd, 0x48, 0x27, 0xe7, 0x51, 0xa2, 0x4a, 0x6d, 0x5c, 0x62, 0xd7, 0x90, 0xa6, 0x63,
    0x93, 0xb9, 0x31, 0x11, 0xc1, 0xa5, 0x5d, 0xd7, 0x42, 0x1a, 0x10, 0x18, 0x49, 0x74, 0xc7, 0xc5]

/-- The first `n` blocks of the key stream that `encrypt_restart` selects (`encryptStream` is this stream by byte position). -/
def blocks (key nonce : Bytes) (n : Nat) : Bytes := (List.range n).flatMap (evpBlock (hchacha20 key (nonce.take 16)) (ctrNonce nonce))

/-- test/encrypt_test.c `test_xchacha20_draft_irtf_cfrg_xchacha_03`. -/
example : List.zipWith (· ^^^ ·) plaintext (blocks key nonce 5) = outShould := by decide +kernel

/-- test/encrypt_test.c `test_design_doc_test_vector`, the key stream for a chunk ID (the last eight bytes are not used). -/
example : blocks ((List.range 32).map UInt8.ofNat) [
    0x8a, 0x39, 0xd2, 0xab, 0xd3, 0x99, 0x9a, 0xb7, 0x3c, 0x34, 0xdb, 0x24, 0x76, 0x84, 0x9c, 0xdd,
    0xf3, 0x03, 0xce, 0x38, 0x9b, 0x35, 0x82, 0x68, 0x50, 0xf9, 0xa7, 0x00, 0x58, 0x9b, 0x4a, 0x90] 2 =
  [
    0xc0, 0x6f, 0x4f, 0xf7, 0x95, 0x39, 0xc7, 0xc3, 0x4f, 0xc4, 0x9a, 0x77, 0xbe, 0x48, 0x21, 0x7b,
    0xb6, 0x9f, 0xfd, 0xc3, 0x78, 0x76, 0x61, 0xca, 0x7a, 0xe4, 0x88, 0x12, 0xc9, 0xe0, 0x28, 0x3e,
    0xf3, 0x9d, 0x9b, 0x3d, 0x51, 0xf4, 0xf7, 0xfd, 0xcf, 0xa9, 0x9e, 0xea, 0xd7, 0xa3, 0x80, 0x12,
    0x9a, 0xcb, 0x33, 0x1f, 0x5b, 0x6d, 0x39, 0xe8, 0x4b, 0x09, 0x0b, 0x57, 0x39, 0x01, 0x08, 0x29,
    0x81, 0x7c, 0x56, 0x33, 0x01, 0x5b, 0x44, 0x41, 0xe2, 0x29, 0x80, 0x93, 0x24, 0xcd, 0xea, 0x57,
    0x39, 0xdf, 0xf8, 0xa5, 0x5d, 0xcc, 0xd7, 0x33, 0xa2, 0xe7, 0x41, 0x36, 0xb9, 0x26, 0xbe, 0x36,
    0xf0, 0x4a, 0xf4, 0x22, 0x58, 0x77, 0x9e, 0x01, 0xc1, 0x20, 0x5d, 0x8b, 0x00, 0xa5, 0xcb, 0x9b,
    0x20, 0x2d, 0xf3, 0x13, 0xeb, 0xc4, 0x73, 0xf7, 0xa5, 0xfc, 0x28, 0xef, 0xc3, 0xc6, 0xb6, 0x91] := by decide +kernel

end Csn.Vectors
