import Verif.Model.Tool
/-
csn-tool with an OpenSSL that may fail.  In Model/Encrypt and Model/Tool its functions do what they should; here their
results are given.
-/
namespace Csn

/-- What OpenSSL does in one conversion: whether EVP_CIPHER_CTX_reset (encrypt.c:111) and EVP_CipherInit (encrypt.c:116) succeed,
whether EVP_Cipher (encrypt.c:139) does its work and, if not, its result and the buffer it leaves. -/
structure Evp where
  reset : Bool
  init : Bool
  works : Bool
  code : Int
  left : Bytes → Bytes

namespace Evp

/-- encrypt.c:87-98 `encrypt_init`; `new`: whether EVP_CIPHER_CTX_new returns a context. -/
def initialise (new : Bool) (key : Bytes) : Option EncCtx :=
  if !new then none else some (encryptInit key)

/-- encrypt.c:100-128 `encrypt_restart`.  What state a failing call leaves the cipher in does not matter: no caller in csn-tool uses it
again. -/
def restart (E : Evp) (c : EncCtx) (nonce : Bytes) : Bool × EncCtx :=
  if !E.reset then (false, c)
  else if !E.init then (false, c)
  else (true, encryptRestart c nonce)

/-- encrypt.c:137-143 `encrypt_do` in place: the buffer afterwards.  The result of EVP_Cipher is compared with 0 only.  When it works it
is 0 only for empty data (see `encryptDo`). -/
def crypt (E : Evp) (c : EncCtx) (evp0 : Bool) (buf : Bytes) : Option Bytes × EncCtx :=
  if E.works then
    match encryptDoCtx c evp0 buf with
    | (none, c) => (none, c)
    | (some o, c) => (some (o ++ buf.drop o.length), c)
  else if E.code = 0 then (none, c)
  else (some (E.left buf), c)

/-- csn-tool.c:38-122 `encrypt_one`; `false` is -1.  As `encryptOne`. -/
def one (T : Tool) (E : Evp) (ec : EncCtx) (input : Bytes) (output : Option Bytes) : M (Bool × EncCtx) :=
  match chunkIdFromPath input with
  | none => return (false, ec)
  | some id =>
    match output.or (derivedOutput input) with
    | none => return (false, ec)
    | some out => do
      if ← accessOk out then return (true, ec)
      match restart E ec id with
      | (false, ec) => return (false, ec)
      | (true, ec) =>
        match ← slurpFile input false with
        | none => return (false, ec)
        | some buf =>
          match crypt E ec T.evp0 buf with
          | (none, ec) => return (false, ec)
          | (some buf, ec) =>
            if streq out (str "-") then
              return (← pwriteall T.out buf T.pos, ec)
            else
              match ← openCreat out with
              | none => return (false, ec)
              | some ino => return (← pwriteall ino buf 0, ec)

/-- csn-tool.c:148-154: the loop over the input lines; `E` gives OpenSSL's results for each of them. -/
def lines (T : Tool) (E : Nat → Evp) (k : Nat) (ec : EncCtx) : List Bytes → M Bool
  | [] => return true
  | l :: r => do
    let (ok, ec) ← one T (E k) ec (chomp (cstr l)) none
    if !ok then return false
    lines T E (k + 1) ec r

/-- csn-tool.c:124-169 `do_crypt`, without `argv[0]`. -/
def doCrypt (T : Tool) (new : Bool) (E : Nat → Evp) (args : List Bytes) : M Bool :=
  match args with
  | [] => return false
  | spec :: rest => do
    if rest.length > 2 ∨ streq spec (str "-h") = true ∨ streq spec (str "--help") = true then return false
    match ← parseKeyspec T.getenv spec with
    | none => return false
    | some key =>
      match initialise new key with
      | none => return false
      | some ec =>
        match rest with
        | [] => lines T E 0 ec (fgetsLines [] T.stdin)
        | input :: output => do
          let (ok, _) ← one T (E 0) ec input output.head?
          return ok

end Evp
end Csn
