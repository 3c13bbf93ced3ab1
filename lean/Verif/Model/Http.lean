import Verif.Model.Local
import Verif.Model.Encrypt
/-
Model of store-http.c.
-/
namespace Csn

/-- The whole environment of the programs, beyond the parameters of local stores. -/
structure Env extends LEnv where
  /-- `sizeof(buf)` in main.c:37 (262144) -/
  bufMax : Nat
  /-- ZSTD_decompressStream as a function of the calls since ZSTD_initDStream (output room and
  input of each), the output room and the input: `none` is an error, otherwise the number of
  consumed bytes and the produced bytes -/
  zstd : List (Nat × Bytes) → Nat → Bytes → Option (Nat × Bytes)
  /-- key stream for a key and a nonce (`encryptStream`, or any other) -/
  ks : Bytes → Bytes → Nat → UInt8
  /-- see `encryptDo` -/
  evp0 : Bool
  getenv : Bytes → Option Bytes
  /-- CSN_KCAPI_DRIVER: unset, or whether sha_kcapi_init succeeds (main.c:133) -/
  kcapi : Option Bool

/-- store-http.c:18-35 `struct store_http`.  Of the decode buffer only the size survives a
request. -/
structure Http where
  base : Bytes
  key : Option Bytes
  err : Nat
  size : Nat
  deriving DecidableEq, Repr

/-- store-http.c:47-51 -/
inductive HState where
  | started
  | streaming
  | failed
  deriving DecidableEq, Repr

/-- store-http.c:53-61 `struct http_request_ctx` together with the state of decompressor, decode
buffer (`fill`: its filled part, `size`: its allocated size) and cipher (`kpos`) during a request. -/
structure Req where
  st : HState
  hist : List (Nat × Bytes)
  written : Nat
  out : Bytes
  fill : Bytes
  size : Nat
  kpos : Nat
  deriving DecidableEq, Repr

/-- store-http.c:63-102 `decode_buffer_absorb`; all sizes modulo 2^64. -/
def absorb (env : Env) (ks : Option (Nat → UInt8)) (r : Req) (data : Bytes) : M (Bool × Req) := do
  let room := (r.size + 2 ^ 64 - r.fill.length) % 2 ^ 64
  let grown : Option Nat ←
    if room < data.length then do
      let newSize := (r.size + data.length) % 2 ^ 64
      if newSize < r.size then pure none
      else if !(← M.alloc newSize) then pure none
      else pure (some newSize)
    else pure (some r.size)
  match grown with
  | none => return (false, r)
  | some size =>
    let r := { r with size := size }
    match ks with
    | some k =>
      match encryptDo k env.evp0 r.kpos data with
      | none => return (false, r)
      | some d =>
        -- fewer bytes written than `len`: the rest of the buffer is uninitialised
        if d.length < data.length then M.stop .ub
        else if r.fill.length + data.length > size then M.stop .ub
        else return (true, { r with fill := r.fill ++ d, kpos := r.kpos + d.length })
    | none =>
      if r.fill.length + data.length > size then M.stop .ub
      else return (true, { r with fill := r.fill ++ data })

/-- store-http.c:104 -/
def zstdMagic : Bytes := [0x28, 0xb5, 0x2f, 0xfd]

/-- store-http.c:106-147 `handle_data`: `none` is -1. -/
def handleData (env : Env) (r : Req) (data : Bytes) : M (Option Nat × Req) := do
  let run (r : Req) : M (Option Nat × Req) := do
    if r.st ≠ .streaming then M.stop .abort
    let room := r.out.length - r.written
    match env.zstd r.hist room data with
    | none => return (none, { r with hist := r.hist ++ [(room, data)] })
    | some (k, o) =>
      -- a decompressor violating its contract would write or claim too much
      if o.length > room ∨ k > data.length then M.stop .ub
      else return (some k, { r with
        hist := r.hist ++ [(room, data)]
        written := r.written + o.length
        out := bufWrite r.out r.written o })
  if r.st = .started then
    if data.length < 4 then return (some 0, r)
    else if data.take 4 = zstdMagic then run { r with st := .streaming }
    else return (none, r)
  else run r

/-- store-http.c:162-208 `store_http_data_cb`: the returned number of bytes.  `http` is what
get_response_code (149-160) gives. -/
def dataCb (env : Env) (ks : Option (Nat → UInt8)) (http : Option Nat) (r : Req) (frag : Bytes) : M (Nat × Req) := do
  let fail (r : Req) : M (Nat × Req) := return (0, { r with st := .failed })
  if r.st = .started ∧ http ≠ some 200 then fail r
  else if r.st = .failed then return (0, r)
  else if r.fill ≠ [] ∨ ks.isSome then do
    match ← absorb env ks r frag with
    | (false, r) => fail r
    | (true, r) =>
      match ← handleData env r r.fill with
      | (none, r) => fail r
      | (some k, r) => return (frag.length, { r with fill := r.fill.drop k })
  else do
    match ← handleData env r frag with
    | (none, r) => fail r
    | (some k, r) =>
      if k < frag.length then
        match ← absorb env ks r (frag.drop k) with
        | (false, r) => fail r
        | (true, r) => return (frag.length, r)
      else return (frag.length, r)

/-- The write callback protocol of curl: fragments are delivered until the callback returns
something else than their length; the first component tells whether that happened. -/
def deliver (env : Env) (ks : Option (Nat → UInt8)) (http : Option Nat) : Req → List Bytes → M (Bool × Req)
  | r, [] => return (false, r)
  | r, f :: fs => do
    let (n, r) ← dataCb env ks http r f
    if n ≠ f.length then return (true, r) else deliver env ks http r fs

/-- One `curl_easy_perform` (store-http.c:242): takes the next network schedule item; an aborted
transfer results in CURLE_WRITE_ERROR (23). -/
def perform (env : Env) (ks : Option (Nat → UInt8)) (url : Bytes) (r : Req) : M (Nat × Option Nat × Req) := do
  M.emit (.http url)
  let run ← (fun w => match w.net with
    | [] => (.stop .killed, w)
    | f :: n => (.ok (f url), { w with net := n }) : M CurlRun)
  let (aborted, r) ← deliver env ks run.http r run.frags
  return (if aborted then 23 else run.code, run.http, r)

/-- store-http.c:228-233 `curl_is_transient_error`: CURLE_COULDNT_CONNECT (7),
CURLE_COULDNT_RESOLVE_HOST (6), CURLE_OPERATION_TIMEDOUT (28). -/
def transient (code : Nat) : Bool := code == 7 || code == 6 || code == 28

/-- store-http.c:235-258 `retried_curl_easy_perform`; `wait` is `wait_us`, `n` is `remaining - 1`. -/
def retried (env : Env) (ks : Option (Nat → UInt8)) (url : Bytes) : Nat → Nat → Req → M (Nat × Option Nat × Req)
  | n, wait, r => do
    let (code, http, r) ← perform env ks url r
    if !transient code then return (code, http, r)
    else
      M.emit (.sleep wait)
      match n with
      | 0 => return (code, http, r)
      | n + 1 => retried env ks url n (min (2 * wait) 10000000) r

/-- One hex digit as printed by "%02x". -/
def hexDigit (n : Nat) : UInt8 := if n < 10 then UInt8.ofNat (0x30 + n) else UInt8.ofNat (0x61 + (n - 10))

/-- sprintf "%02x" -/
def hex2 (b : UInt8) : Bytes := [hexDigit (b.toNat / 16), hexDigit (b.toNat % 16)]

/-- chunk.c:9-13 `chunk_format_id`, CHUNK_ID_LEN = 32 (chunk.h); IDs are 32 bytes. -/
def formatId (id : Id) : Bytes := id.flatMap hex2

/-- store-http.c:210-226 `set_url`: the string in `url_buf`.  `id[0]`, `id[1]` exist. -/
def urlOf (h : Http) (id : Id) : Bytes :=
  h.base ++ str "/" ++ hex2 (id.getD 0 0) ++ hex2 (id.getD 1 0) ++ str "/" ++ formatId id ++ str ".cacnk" ++
    (if h.key.isSome then str ".enc" else [])

/-- store-http.c:260-271 `increase_error_counter`: `none` is -1. -/
def increaseErr (h : Http) : Option Nat × Http :=
  let h := { h with err := (h.err + 1) % 2 ^ 32 }
  (if h.err > 10 then none else some 0, h)

/-- store-http.c:297-376: what `store_http_get_chunk` makes of curl's result. -/
def httpJudge (env : Env) (h : Http) (id : Id) (code : Nat) (http : Option Nat) (r : Req) : Option Nat × Http × Bytes :=
  let h := { h with size := r.size }
  if transient code then
    let (res, h) := increaseErr h
    (res, h, r.out)
  else if code ≠ 0 ∧ code ≠ 23 then (none, h, r.out)
  else
    match http with
    | none => (none, h, r.out)
    | some c =>
      if c = 404 ∨ c = 410 then (some 0, h, r.out)
      else if c ≥ 400 then
        let (res, h) := increaseErr h
        (res, h, r.out)
      else if r.st = .started ∨ r.st = .failed then (some 0, h, r.out)
      else
        let h := { h with err := 0 }
        if env.H (r.out.take r.written) ≠ id then (some 0, h, r.out)
        else (some r.written, h, r.out)

/-- store-http.c:273-377 `store_http_get_chunk`.  The url buffer (470) has
`strlen(base) + CHUNK_SUFFIX_MAX_LEN + 1` bytes with CHUNK_SUFFIX_MAX_LEN = 80 (434); writing more is
undefined.  `curl_easy_setopt(CURLOPT_URL)` copies the string and fails if that allocation fails. -/
def httpGet (env : Env) (h : Http) (id : Id) (out : Bytes) : M (Option Nat × Http × Bytes) := do
  let url := urlOf h id
  if url.length + 1 > h.base.length + 80 + 1 then M.stop .ub
  if !(← M.alloc (url.length + 1)) then return (none, h, out)
  let ks := h.key.map (fun k => env.ks k id)
  let r : Req := ⟨.started, [], 0, out, [], h.size, 0⟩
  let (code, http, r) ← retried env ks url 9 200000 r
  return httpJudge env h id code http r

/-- store-http.c:396-432 `store_handle_params`: the parameters split at commas.  As in the C loop, an
empty rest ends the processing, and a later key replaces an earlier one. -/
def handleParams (env : Env) : Nat → Bytes → Option Bytes → M (Bool × Option Bytes)
  | 0, _, key => return (true, key)
  | fuel + 1, p, key =>
    if p = [] then return (true, key)
    else do
      let word := p.takeWhile (· != 0x2c)
      let rest := p.drop (word.length + 1)
      let next := word.length < p.length
      if startswith word (str "encrypt=") then
        match ← parseKeyspec env.getenv (word.drop 8) with
        | none => return (false, key)
        | some k =>
          if !(← M.alloc 256) then return (false, key)
          if next then handleParams env fuel rest (some k) else return (true, some k)
      else return (false, key)

/-- Position of the last occurrence of a byte (`strrchr`). -/
def lastIdx (c : UInt8) (s : Bytes) : Option Nat :=
  match s.reverse.findIdx? (· == c) with
  | none => none
  | some i => some (s.length - 1 - i)

/-- store-http.c:465-466: strip one trailing slash. -/
def stripSlash (s : Bytes) : Bytes :=
  match lastIdx 0x2f s with
  | some i => if i + 1 = s.length then s.take i else s
  | none => s

/-- store-http.c:436-513 `store_http_new`.  The library initialisations that allocate (curl, zstd)
are one allocation each; setting constant options does not fail. -/
def httpNew (env : Env) (url : Bytes) : M (Option Http) := do
  if !(← M.alloc 1024) then return none
  if !(← M.alloc (url.length + 1)) then return none
  let (ok, key, tmp) ← match lastIdx 0x23 url with
    | some i => do
      let (ok, key) ← handleParams env (url.length + 1) (url.drop (i + 1)) none
      pure (ok, key, url.take i)
    | none => pure (true, none, url)
  if !ok then return none
  let base := stripSlash tmp
  if !(← M.alloc (base.length + 80 + 1)) then return none
  if !(← M.alloc 1) then return none
  if !(← M.alloc 1) then return none
  return some ⟨base, key, 0, 0⟩

end Csn
