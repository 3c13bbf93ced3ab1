import Verif.Model.Encrypt
/-
What the tools leave of a key in their memory.

Only buffers of the program itself are modelled: registers, what the compiler spills, OpenSSL's own memory and the text of keys
given on the command line or in the environment are not.  A buffer keeps its contents after it was freed or its function has
returned.
-/
namespace Csn.Wipe

/-- The buffers that see key material: `block` of hchacha20 (encrypt.c:72), `subkey` and `ctr_nonce` of encrypt_restart (encrypt.c:104,
107), `key` of the caller of encrypt_parse_keyspec (csn-tool.c:134, store-http.c:408), `key` in `struct encrypt_ctx`
(encrypt.h:7), the buffer with the contents of a key file (encrypt.c:161). -/
structure Mem where
  block : Bytes
  subkey : Bytes
  nonce : Bytes
  key : Bytes
  ctx : Bytes
  text : Bytes
  deriving DecidableEq, Repr

/-- encrypt.c:30-36 `crypto_wipe` of the first `n` bytes. -/
def wipe (n : Nat) (b : Bytes) : Bytes := List.replicate (min n b.length) 0 ++ b.drop n

/-- encrypt.c:68-83 `hchacha20` with `out` = `subkey`, `key` = `ctx->key`.  (64, the size of `block`, is `sizeof` in `WIPE_BUFFER`.) -/
def hchacha (nonce : Bytes) (m : Mem) : Mem :=
  let block := unp32leBuf (str "expand 32-byte k") 0 4 ++ unp32leBuf m.ctx 0 8 ++ unp32leBuf nonce 0 4
  let m := { m with block := p32leBuf block }
  let block := chacha20Rounds block
  let m := { m with block := p32leBuf block }
  let m := { m with subkey := p32leBuf (block.take 4) ++ p32leBuf ((block.drop 12).take 4) }
  { m with block := wipe 64 m.block }

/-- encrypt.c:100-128 `encrypt_restart`; `reset` and `init` are the results of the two OpenSSL calls. -/
def restart (reset init : Bool) (nonce : Bytes) (m : Mem) : Bool × Mem :=
  let m := hchacha (nonce.take 16) m
  let m := { m with nonce := ctrNonce nonce }
  let ok := if !reset then false else if !init then false else true
  let m := { m with subkey := wipe 32 m.subkey }
  let m := { m with nonce := wipe 16 m.nonce }
  (ok, m)

/-- encrypt.c:87-98 `encrypt_init`; `new` says whether there is a cipher context. -/
def init (new : Bool) (m : Mem) : Bool × Mem :=
  if !new then (false, m) else (true, { m with ctx := m.key })

/-- encrypt.c:130-135 `encrypt_close` (32 of the bytes wiped are the key). -/
def close (m : Mem) : Mem := { m with ctx := wipe 32 m.ctx }

/-- Where the text of a key comes from (encrypt.c:152-172): the command line or environment, or a file; `none` if there is no such
thing; `broken` if reading the file fails after the given bytes (utils.c:203-206). -/
inductive Source where
  | given (text : Option Bytes)
  | file (contents : Option Bytes)
  | broken (read : Bytes)
  deriving DecidableEq, Repr

/-- encrypt.c:174-184: `key` after the attempt to decode the text.  `parse_hex` writes as far as it gets. -/
def decode (s : Bytes) (m : Mem) : Bool × Mem :=
  if s.length ≠ 64 then (false, m)
  else
    match parseHex s with
    | (true, k) => (true, { m with key := k ++ m.key.drop k.length })
    | (false, k) =>
      let m := { m with key := k ++ m.key.drop k.length }
      (false, { m with key := wipe 32 m.key })

/-- utils.c:268-288 `chomp` on a buffer: a NUL is put where the string is to end. -/
def chompBuf (b : Bytes) : Bytes :=
  match chompLoop 0 none false (cstr b) with
  | none => b
  | some q => b.set q 0

/-- encrypt.c:145-195 `encrypt_parse_keyspec`. -/
def keyspec (src : Source) (m : Mem) : Bool × Mem :=
  match src with
  | .given none => (false, m)
  | .given (some s) => decode s m
  | .file none => (false, m)
  | .broken d => (false, { m with text := d })
  | .file (some d) =>
    let m := { m with text := d ++ [0] } -- slurp_file with `text`
    let m := { m with text := chompBuf m.text }
    let r := decode (cstr m.text) m
    (r.1, { r.2 with text := wipe (cstr r.2.text).length r.2.text })

/-- csn-tool.c:38-122 `encrypt_one`: `encrypt_restart` may not be reached at all. -/
structure One where
  reached : Bool
  reset : Bool
  init : Bool
  nonce : Bytes
  deriving DecidableEq, Repr

/-- The keys in one conversion (csn-tool.c:79) or one chunk (store-http.c:288). -/
def one (o : One) (m : Mem) : Mem := if o.reached then (restart o.reset o.init o.nonce m).2 else m

/-- The loop of do_crypt (csn-tool.c:146-163); for a store, one restart for each chunk. -/
def ones : List One → Mem → Mem
  | [], m => m
  | o :: r, m => ones r (one o m)

/-- csn-tool.c:124-169 `do_crypt` (with a usable number of arguments): the conversions made are given. -/
def doCrypt (src : Source) (new : Bool) (l : List One) (m : Mem) : Mem :=
  let r := keyspec src m
  if !r.1 then r.2
  else
    let r := init new r.2
    if !r.1 then r.2
    else close (ones l r.2)

/-- store-http.c:396-432 `store_handle_params`; `ctx` is that in `struct store_http`.  A parameter is `encrypt=` or unknown. -/
def params : List (Option (Source × Bool)) → Mem → Bool × Mem
  | [], m => (true, m)
  | none :: _, m => (false, m)
  | some (src, new) :: r, m =>
    let k := keyspec src m
    if !k.1 then (false, k.2)
    else
      let k := init new k.2
      if !k.1 then (false, k.2) else params r k.2

/-- A store from store_http_new to store_http_free (store-http.c:436-513, 379-394): `rest` says whether the constructor succeeds after
the parameters, `l` are the restarts for the chunks asked for. -/
def httpLife (ps : List (Option (Source × Bool))) (rest : Bool) (l : List One) (m : Mem) : Mem :=
  let r := params ps m
  if !r.1 then r.2
  else if !rest then r.2
  else if ps = [] then r.2 -- not `encrypted`
  else close (ones l r.2)

end Csn.Wipe
