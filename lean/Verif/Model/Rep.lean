import Verif.Model.Log
/-
What the tools report.  The functions here follow the C functions only as far as failures and messages go.  Everything else a
function decides on (contents of files, results of calls) is an *answer* taken from a list, as in Model/Rsc; the process is killed
when the answers run out.  Messages are named by their place (`logSites`), without arguments.  Left out are the results nobody looks
at (close, usleep, isatty, printf, ZSTD_initDStream, the SHA-256 functions used by the chunker) and assertions that always hold.
-/
namespace Csn.Rep

/-- Something written to standard error: a message of `_u_log`, by file and first line of the call, or a usage text. -/
inductive Line where
  | note (file : String) (line : Nat)
  | usage
  deriving DecidableEq

/-- The process: answers still to come, whether something went wrong so far, what was written, whether the kernel's hash interface
is in use (sha.c:22). -/
structure PS where
  ans : List Bool
  wrong : Bool
  out : List Line
  kcapi : Bool
  deriving DecidableEq

def P (α : Type) := PS → Res α × PS

namespace P
variable {α β : Type}

def pure (a : α) : P α := fun s => (.ok a, s)

def bind (m : P α) (f : α → P β) : P β := fun s =>
  match m s with
  | (.ok a, s') => f a s'
  | (.stop e, s') => (.stop e, s')

instance : Monad P where
  pure := pure
  bind := bind

def stop (e : Stop) : P α := fun s => (.stop e, s)

end P

open P

/-- Something that is nobody's failure. -/
def ask : P Bool := fun s =>
  match s.ans with
  | [] => (.stop .killed, s)
  | b :: r => (.ok b, { s with ans := r })

/-- Something goes wrong. -/
def trouble : P Unit := fun s => (.ok (), { s with wrong := true })

/-- A call that can fail (system call, allocation, function of a library), or data that can be wrong: whether all is well. -/
def fine : P Bool := do
  if ← ask then return true
  else do
    trouble
    return false

/-- A call of `_u_log` (log.c:52). -/
def say (file : String) (line : Nat) : P Unit := fun s => (.ok (), { s with out := s.out ++ [.note file line] })

/-- A message that depends on something. -/
def sayMaybe (file : String) (line : Nat) : P Unit := do
  if ← ask then say file line

/-- A usage text on standard error. -/
def usage : P Unit := fun s => (.ok (), { s with out := s.out ++ [.usage] })

/-- utils.h:20-25 `u_assert_se`. -/
def assertAt (file : String) (line : Nat) : P Unit := do
  if ← ask then return ()
  else do
    trouble
    say file line
    stop .abort

/-- utils.h:40-45 `u_notnull` around an allocation. -/
def notNull (file : String) (line : Nat) : P Bool := do
  if ← fine then return true
  else do
    say file line
    return false

/-- Loops: as many rounds as there are answers, each of them takes one. -/
def looped {α : Type} (f : Nat → P α) : P α := fun s => f (s.ans.length + 1) s

/-! ### utils.c -/

/-- utils.c:55-78 `readall`, utils.c:80-104 `preadall`, with the lines of their messages. -/
def readLoop (failed short : Nat) : Nat → P Bool
  | 0 => stop .killed
  | n + 1 => do
    if ← ask then return true -- nothing (more) to read
    else if ← ask then readLoop failed short n -- EINTR
    else if ← fine then
      if ← fine then readLoop failed short n
      else do
        say "utils.c" short
        return false
    else do
      say "utils.c" failed
      return false

/-- utils.c:55-78 `readall`. -/
def readAll : P Bool := looped (readLoop 67 70)

/-- utils.c:80-104 `preadall`. -/
def preadAll : P Bool := looped (readLoop 92 95)

/-- utils.c:106-128 `writeall`, utils.c:130-153 `pwriteall`, with the lines of their messages. -/
def writeLoop (failed nul : Nat) : Nat → P Bool
  | 0 => stop .killed
  | n + 1 => do
    if ← ask then return true -- nothing (more) to write
    else if ← ask then writeLoop failed nul n -- EINTR
    else if ← fine then do
      assertAt "utils.c" nul
      writeLoop failed nul n
    else do
      say "utils.c" failed
      return false

/-- utils.c:106-128 `writeall`. -/
def writeAll : P Bool := looped (writeLoop 118 122)

/-- utils.c:130-153 `pwriteall`. -/
def pwriteAll : P Bool := looped (writeLoop 142 146)

/-- utils.c:155-177 `fd_size` with `blockdevice_size` (39-50, Linux). -/
def fdSize : P Bool := do
  if ← fine then
    if ← ask then return true -- a regular file
    else if ← fine then -- a block device
      if ← fine then return true
      else do
        say "utils.c" 44
        return false
    else do
      say "utils.c" 172
      return false
  else do
    say "utils.c" 163
    return false

/-- utils.c:179-224 `slurp_file`. -/
def slurpFile : P Bool := do
  if ← fine then
    if ← fdSize then
      if ← fine then
        if ← readAll then return true
        else do
          say "utils.c" 204
          return false
      else do
        say "utils.c" 199
        return false
    else do
      say "utils.c" 192
      return false
  else do
    say "utils.c" 186
    return false

/-- utils.c:226-233 `time_monotonic`. -/
def timeMonotonic : P Unit := assertAt "utils.c" 230

/-- utils.c:248-266 `parse_hex`. -/
def parseHex : P Bool := do
  if ← fine then return true
  else do
    say "utils.c" 253
    return false

/-! ### encrypt.c -/

/-- encrypt.c:174-186: the checks of a key. -/
def checkKey : P Bool := do
  if ← fine then
    if ← parseHex then return true
    else do
      say "encrypt.c" 180
      return false
  else do
    say "encrypt.c" 175
    return false

/-- encrypt.c:145-195 `encrypt_parse_keyspec`. -/
def parseKeyspec : P Bool := do
  if ← ask then checkKey -- "key:"
  else if ← ask then -- "env:"
    if ← fine then checkKey
    else do
      say "encrypt.c" 157
      return false
  else if ← fine then -- "file:"
    if ← slurpFile then checkKey else return false
  else do
    say "encrypt.c" 170
    return false

/-- encrypt.c:87-98 `encrypt_init`. -/
def encryptInit : P Bool := do
  if ← fine then return true
  else do
    say "encrypt.c" 91
    return false

/-- encrypt.c:100-128 `encrypt_restart`. -/
def encryptRestart : P Bool := do
  if ← fine then
    if ← fine then return true
    else do
      say "encrypt.c" 117
      return false
  else do
    say "encrypt.c" 112
    return false

/-- encrypt.c:137-143 `encrypt_do`.  A failure that EVP_Cipher reports with a negative number is not noticed (Model/Evp, C84); it is
left out here. -/
def encryptDo : P Bool := fine

/-! ### sha.c, chunk.h -/

/-- sha.c:24-71 `sha_kcapi_init`. -/
def kcapiInit : P Bool := do
  if ← fine then
    if ← fine then
      if ← fine then
        if ← fine then
          (fun s => (.ok true, { s with kcapi := true }) : P Bool)
        else do
          say "sha.c" 59
          return false
      else do
        say "sha.c" 52
        return false
    else do
      say "sha.c" 43
      return false
  else do
    say "sha.c" 30
    return false

/-- sha.c:119-124: the fallback. -/
def shaDisable : P Bool := do
  say "sha.c" 120
  fun s => fine { s with kcapi := false }

/-- sha.c:82-125 `sha_once`; interrupted calls are left out. -/
def shaOnce : P Bool := do
  if ← (fun s => (.ok s.kcapi, s) : P Bool) then
    if ← fine then
      if ← fine then
        if ← fine then return true
        else do
          say "sha.c" 113
          shaDisable
      else do
        say "sha.c" 110
        shaDisable
    else do
      say "sha.c" 95
      shaDisable
  else fine

/-- chunk.h:14-17 `chunk_calculate_id`. -/
def calculateId : P Unit := do
  if ← shaOnce then return ()
  else do
    say "chunk.h" 16
    stop .abort

/-! ### caibx.c -/

/-- utils.h:106-111 `checked` with `return -1`. -/
def checked (file : String) (line : Nat) (m : P Bool) : P Bool := do
  if ← m then return true
  else do
    say file line
    return false

/-- caibx.c:25-38 `load_section_header`. -/
def sectionHeader : P Bool := checked "caibx.c" 32 readAll

/-- chunker.c:78-99 `chunker_params_set`. -/
def paramsSet : P Bool := do
  if ← fine then
    if ← fine then return true
    else do
      say "chunker.c" 90
      return false
  else do
    say "chunker.c" 82
    return false

/-- caibx.c:59-80, `load_index_header` from the parameters on. -/
def indexParams : P Bool := do
  if ← checked "caibx.c" 60 readAll then
    if ← fine then
      if ← paramsSet then return true
      else do
        say "caibx.c" 75
        return false
    else do
      say "caibx.c" 65
      return false
  else return false

/-- caibx.c:40-81 `load_index_header`. -/
def indexHeader : P Bool := do
  if ← checked "caibx.c" 45 sectionHeader then
    if ← fine then
      if ← ask then indexParams -- the usual length
      else if ← ask then do -- longer
        trouble
        say "caibx.c" 53
        indexParams
      else do
        trouble
        say "caibx.c" 55
        return false
    else do
      say "caibx.c" 48
      return false
  else return false

/-- caibx.c:83-101 `validate_table_header`. -/
def tableHeader : P Bool := do
  if ← checked "caibx.c" 89 sectionHeader then
    if ← fine then
      if ← fine then return true
      else do
        say "caibx.c" 98
        return true
    else do
      say "caibx.c" 92
      return false
  else return false

/-- caibx.c:116-147: the fields of the footer, with the lines of the messages about them. -/
def footerFields : List Nat → P Bool
  | [] => return true
  | l :: r => do
    if ← fine then footerFields r
    else do
      say "caibx.c" l
      return false

/-- caibx.c:103-148 `validate_table_footer`. -/
def tableFooter : P Bool := do
  if ← fine then
    if ← checked "caibx.c" 114 readAll then footerFields [118, 123, 128, 136, 142] else return false
  else do
    say "caibx.c" 109
    return false

/-- caibx.c:171-181, the end of `caibx_load_header`. -/
def headerParts : P Bool := do
  if ← checked "caibx.c" 171 fine then
    if ← checked "caibx.c" 173 indexHeader then
      if ← checked "caibx.c" 174 tableHeader then
        if ← checked "caibx.c" 175 tableFooter then do
          say "caibx.c" 177
          return true
        else return false
      else return false
    else return false
  else return false

/-- caibx.c:150-182 `caibx_load_header`. -/
def loadHeader : P Bool := do
  if ← checked "caibx.c" 157 fdSize then
    if ← fine then
      if ← fine then headerParts
      else do
        say "caibx.c" 165
        return false
    else do
      say "caibx.c" 160
      return false
  else return false

/-- caibx.c:205-231: the checks of an entry's length; the result is whether it is skipped. -/
def entryLength : P Bool := do
  if ← ask then return false -- nothing special
  else if ← ask then do
    trouble
    say "caibx.c" 213
    return false
  else do
    trouble
    say "caibx.c" 217
    if ← ask then return false
    else do
      say "caibx.c" 228
      return true

/-- caibx.c:196-237: the loop over the entries. -/
def entryLoop {σ : Type} (cb : σ → P (Bool × σ)) : Nat → σ → P (Bool × σ)
  | 0, _ => stop .killed
  | n + 1, x => do
    if ← ask then return (true, x) -- no more entries
    else if ← readAll then
      if ← entryLength then entryLoop cb n x
      else
        let r ← cb x
        if r.1 then entryLoop cb n r.2 else return (false, r.2)
    else do
      say "caibx.c" 200
      return (false, x)

/-- caibx.c:184-240 `caibx_iterate_entries`. -/
def iterate {σ : Type} (cb : σ → P (Bool × σ)) (x : σ) : P (Bool × σ) := do
  if ← checked "caibx.c" 194 fine then looped (fun n => entryLoop cb n x) else return (false, x)

/-! ### index.c -/

/-- index.c:7-20 `index_init`. -/
def indexInit : P Bool := do
  assertAt "index.c" 10
  notNull "index.c" 13

/-- index.c:29-67 `index_insert`. -/
def indexInsert : P Bool := do
  assertAt "index.c" 32
  assertAt "index.c" 35
  if ← ask then return true -- there is room
  else do
    say "index.c" 41
    if ← fine then return true
    else do
      say "index.c" 47
      return false

/-! ### chunker.c, store-local.c -/

/-- store-local.c:33-47 `store_insert_index`. -/
def storeInsert : P Bool := do
  if ← indexInsert then return true
  else do
    say "store-local.c" 40
    return false

/-- chunker.c:248-270: the boundaries in what was read; `store_insert_index` is called for each of them. -/
def boundaries : Nat → P Bool
  | 0 => stop .killed
  | n + 1 => do
    if ← ask then return true
    else if ← storeInsert then boundaries n else return false

/-- chunker.c:235-280: the read loop, and the leftover chunk. -/
def scanLoop : Nat → P Bool
  | 0 => stop .killed
  | n + 1 => do
    if ← ask then scanLoop n -- EINTR
    else if ← fine then
      if ← ask then -- end of the file
        if ← ask then storeInsert else return true
      else if ← looped boundaries then scanLoop n else return false
    else do
      say "chunker.c" 243
      return false

/-- chunker.c:215-281 `chunker_scan_fd`.  chunker_init does not fail. -/
def scanFd : P Bool := do
  if ← checked "chunker.c" 232 fine then looped scanLoop else return false

/-- store-local.c:103-128 `store_scan`. -/
def storeScan : P Bool := do
  if ← checked "store-local.c" 107 fdSize then do
    say "store-local.c" 110
    if ← indexInit then scanFd
    else do
      say "store-local.c" 112
      return false
  else return false

/-- store-local.c:49-101 `store_sideload_index`. -/
def sideload : P Bool := do
  if ← fine then
    if ← loadHeader then
      if ← fine then
        if ← indexInit then
          let r ← iterate (fun _ : Unit => do return (← storeInsert, ())) ()
          if r.1 then return true
          else do
            say "store-local.c" 89
            return false
        else do
          say "store-local.c" 79
          return false
      else do
        say "store-local.c" 70
        return false
    else do
      say "store-local.c" 63
      return false
  else do
    say "store-local.c" 56
    return false

/-- store-local.c:225-236, the end of `store_local_new`. -/
def localScan : P Bool := do
  say "store-local.c" 225
  if ← storeScan then do
    say "store-local.c" 230
    return true
  else do
    say "store-local.c" 227
    return false

/-- store-local.c:193-237 `store_local_new`. -/
def localNew : P Bool := do
  if ← notNull "store-local.c" 200 then
    if ← fine then
      if ← ask then do -- with an index
        say "store-local.c" 215
        if ← sideload then do
          say "store-local.c" 218
          return true
        else do
          say "store-local.c" 222
          localScan
      else localScan
    else do
      say "store-local.c" 204
      return false
  else return false

/-- What a store returns: failure, nothing, or data (a negative value, 0, a positive value). -/
inductive Got where
  | fail
  | nothing
  | data
  deriving DecidableEq

/-- store-local.c:130-183 `store_local_get_chunk`. -/
def localGet : Nat → P Got
  | 0 => stop .killed
  | n + 1 => do
    if ← ask then return .nothing
    else if ← fine then
      if ← preadAll then
        if ← ask then return .data -- validated
        else do
          calculateId
          if ← fine then return .data
          else do
            say "store-local.c" 165
            say "store-local.c" 169
            say "store-local.c" 172
            say "store-local.c" 174
            if ← storeScan then localGet n
            else do
              say "store-local.c" 178
              return .fail
      else do
        say "store-local.c" 148
        return .fail
    else do
      say "store-local.c" 142
      return .fail

/-! ### store-http.c -/

/-- store-http.c:396-432 `store_handle_params`. -/
def handleParams : Nat → P Bool
  | 0 => stop .killed
  | n + 1 => do
    if ← ask then return true -- no more parameters
    else if ← fine then
      if ← parseKeyspec then
        if ← encryptInit then handleParams n
        else do
          say "store-http.c" 415
          return false
      else do
        say "store-http.c" 410
        return false
    else do
      say "store-http.c" 421
      return false

/-- store-http.c:480-493: the options of curl, by the lines of the messages about them. -/
def setOptions : List Nat → P Bool
  | [] => return true
  | l :: r => do
    if ← fine then setOptions r
    else do
      say "store-http.c" l
      return false

/-- store-http.c:471-498, `store_http_new` from the URL buffer on. -/
def httpHandles : P Bool := do
  if ← notNull "store-http.c" 471 then
    if ← notNull "store-http.c" 478 then
      if ← setOptions [480, 483, 486, 489, 492] then notNull "store-http.c" 496 else return false
    else return false
  else return false

/-- store-http.c:436-513 `store_http_new`. -/
def httpNew : P Bool := do
  if ← fine then
    if ← notNull "store-http.c" 447 then
      if ← notNull "store-http.c" 450 then
        if ← ask then httpHandles -- no parameters
        else if ← looped handleParams then httpHandles
        else do
          say "store-http.c" 456
          return false
      else return false
    else return false
  else do
    say "store-http.c" 441
    return false

/-- store-http.c:63-102 `decode_buffer_absorb`. -/
def absorbInto : P Bool := do
  if ← ask then return true -- not encrypted
  else if ← encryptDo then return true
  else do
    say "store-http.c" 92
    return false

/-- store-http.c:63-102 `decode_buffer_absorb`. -/
def absorb : P Bool := do
  if ← ask then absorbInto -- there is room
  else if ← fine then
    if ← fine then do
      say "store-http.c" 81
      absorbInto
    else do
      say "store-http.c" 78
      return false
  else do
    say "store-http.c" 71
    return false

/-- store-http.c:47-51 `enum http_request_state`. -/
inductive Req where
  | started
  | streaming
  | failed
  deriving DecidableEq

/-- store-http.c:120-147, the end of `handle_data`. -/
def decompress : P (Bool × Req) := do
  if ← fine then do
    say "store-http.c" 141
    return (true, .streaming)
  else do
    say "store-http.c" 137
    return (false, .streaming)

/-- store-http.c:106-148 `handle_data`, in state STARTED or STREAMING. -/
def handleData (st : Req) : P (Bool × Req) := do
  if st = .started then
    if ← ask then return (true, .started) -- less than four bytes
    else if ← fine then decompress
    else do
      say "store-http.c" 115
      return (false, .started)
  else decompress

/-- store-http.c:150-160 `get_response_code`. -/
def responseCode : P Bool := do
  if ← fine then return true
  else do
    say "store-http.c" 155
    return false

/-- store-http.c:177-203, the end of `store_http_data_cb`: the data goes through the buffer, or directly with the rest kept. -/
def dataCbRest (st : Req) : P Req := do
  if ← ask then
    if ← absorb then
      let r ← handleData st
      if r.1 then return r.2 else return .failed
    else return .failed
  else
    let r ← handleData st
    if r.1 then
      if ← ask then return r.2
      else if ← absorb then return r.2 else return .failed
    else return .failed

/-- store-http.c:162-208 `store_http_data_cb`: the new state. -/
def dataCb (st : Req) : P Req := do
  if st = .started then
    if ← responseCode then
      if ← ask then dataCbRest st -- 200
      else do
        say "store-http.c" 171
        return .failed
    else do
      say "store-http.c" 171
      return .failed
  else if st = .failed then return .failed
  else dataCbRest st

/-- What curl does during one `curl_easy_perform` (store-http.c:242): any number of calls of the write callback. -/
def fragments : Nat → Req → P Req
  | 0, _ => stop .killed
  | n + 1, st => do
    if ← ask then return st
    else
      let st' ← dataCb st
      fragments n st'

/-- The result of curl_easy_perform (store-http.c:228-233 and 318). -/
inductive Curl where
  | ok
  | transient
  | other
  deriving DecidableEq

/-- store-http.c:235-258 `retried_curl_easy_perform`, with `remaining` tries left. -/
def perform : Nat → Req → P (Curl × Req)
  | 0, st => return (.transient, st)
  | n + 1, st => do
    let st ← looped (fun k => fragments k st)
    if ← ask then return (.ok, st) -- CURLE_OK, or CURLE_WRITE_ERROR
    else do
      trouble
      if ← ask then return (.other, st)
      else do
        say "store-http.c" 248
        perform n st

/-- store-http.c:260-271 `increase_error_counter`. -/
def increaseErr : P Got := do
  say "store-http.c" 263
  if ← ask then return .nothing
  else do
    say "store-http.c" 266
    return .fail

/-- store-http.c:357-376, the end of `store_http_get_chunk`. -/
def judgeData : P Got := do
  calculateId
  if ← fine then return .data
  else do
    say "store-http.c" 370
    return .nothing

/-- store-http.c:323-376: what is made of a transfer that curl completed. -/
def judge (st : Req) : P Got := do
  if ← responseCode then
    if ← ask then do -- 404, 410
      say "store-http.c" 331
      return .nothing
    else if ← fine then
      if st = .streaming then
        if ← fine then judgeData
        else do
          say "store-http.c" 354
          judgeData
      else do
        trouble
        say "store-http.c" 347
        return .nothing
    else do
      say "store-http.c" 336
      increaseErr
  else do
    say "store-http.c" 326
    return .fail

/-- store-http.c:301-376, `store_http_get_chunk` from the request on.  Of `curl_easy_perform` the callbacks matter. -/
def request : P Got := do
  if ← fine then do
    say "store-http.c" 303
    let r ← perform 10 .started
    match r.1 with
    | .transient => do
      say "store-http.c" 309
      increaseErr
    | .other => do
      say "store-http.c" 319
      return .fail
    | .ok => judge r.2
  else do
    say "store-http.c" 301
    return .fail

/-- store-http.c:210-226 `set_url`. -/
def setUrl : P Bool := do
  if ← fine then return true
  else do
    say "store-http.c" 223
    return false

/-- store-http.c:273-377 `store_http_get_chunk`.  The result of ZSTD_initDStream is not used. -/
def httpGet : P Got := do
  if ← setUrl then
    if ← ask then request -- not encrypted
    else if ← encryptRestart then request
    else do
      say "store-http.c" 289
      return .fail
  else do
    say "store-http.c" 282
    return .fail

/-! ### target.c, store.c -/

/-- target.c:14-26 `target_add_chunk`. -/
def targetAdd : P Unit := do
  if ← ask then return () -- not queryable, or known
  else if ← indexInsert then return ()
  else say "target.c" 24

/-- target.c:28-44 `target_check_chunk`: whether it returns 1. -/
def targetCheck : P Bool := do
  if ← preadAll then do
    calculateId
    if ← ask then do
      targetAdd
      return true
    else return false
  else do
    say "target.c" 33
    return false

/-- target.c:46-71 `target_get_chunk`. -/
def targetGet : P Got := do
  if ← ask then return .nothing
  else if ← fine then
    if ← preadAll then return .data
    else do
      say "target.c" 66
      return .fail
  else do
    say "target.c" 60
    return .fail

/-- target.c:73-88 `target_write`. -/
def targetWrite : P Bool := do
  if ← pwriteAll then do
    targetAdd
    return true
  else do
    say "target.c" 81
    return false

/-- target.c:90-121 `target_new`. -/
def targetNew : P Bool := do
  if ← notNull "target.c" 96 then
    if ← fine then return true
    else do
      say "target.c" 100
      return false
  else return false

/-- target.c:123-136 `target_as_store`. -/
def targetAsStore : P Bool := do
  if ← ask then return true
  else do
    say "target.c" 128
    if ← indexInit then return true
    else do
      say "target.c" 130
      return false

/-- The stores of a chain. -/
inductive Store where
  | target
  | loc
  | http
  deriving DecidableEq

/-- store.h:18-21 `store_get_chunk` for the stores of a chain. -/
def storeGet : Store → P Got
  | .target => targetGet
  | .loc => looped localGet
  | .http => httpGet

/-- store.c:35-61: the stores from some position on, with whether they are active; the result is whether data was found. -/
def subsGet : List (Store × Bool) → P (Bool × List (Store × Bool))
  | [] => do
    trouble
    say "store.c" 59
    return (false, [])
  | (s, false) :: r => do
    let x ← subsGet r
    return (x.1, (s, false) :: x.2)
  | (s, true) :: r => do
    match ← storeGet s with
    | .data => do
      say "store.c" 52
      return (true, (s, true) :: r)
    | .nothing => do
      let x ← subsGet r
      return (x.1, (s, true) :: x.2)
    | .fail => do
      say "store.c" 44
      let x ← subsGet r
      return (x.1, (s, false) :: x.2)

/-- store.c:83-111 `store_chain_new`. -/
def chainNew : P Bool := do
  if ← notNull "store.c" 89 then notNull "store.c" 98 else return false

/-- store.c:113-134 `store_chain_append`. -/
def chainAppend : P Bool := do
  if ← ask then return true else notNull "store.c" 121

/-- store.c:70-73. -/
def served : List (Store × Bool) → P Unit
  | [] => return ()
  | _ :: r => do
    say "store.c" 71
    served r

/-- store.c:64-81 `store_chain_free`. -/
def chainFree (subs : List (Store × Bool)) : P Unit := do
  say "store.c" 68
  served subs

/-! ### main.c -/

/-- main.c:67-71. -/
def storeWrite (subs : List (Store × Bool)) : P (Bool × List (Store × Bool)) := do
  if ← targetWrite then return (true, subs)
  else do
    say "main.c" 69
    return (false, subs)

/-- main.c:57-71: fetching and writing.  `none`: the variable `store` is a null pointer. -/
def storeChunk (subs : Option (List (Store × Bool))) : P (Bool × List (Store × Bool)) := do
  match subs with
  | none => stop .ub
  | some subs =>
    if ← ask then storeWrite subs -- the last chunk again
    else
      let x ← subsGet subs
      if x.1 then
        if ← fine then storeWrite x.2
        else do
          say "main.c" 60
          return (false, x.2)
      else if ← ask then storeWrite x.2 -- no data, for an entry of length 0
      else do
        trouble
        say "main.c" 60
        return (false, x.2)

/-- main.c:32-84 `entry_cb`; the state: `store`, `resuming`.  The progress bar is not a message. -/
def entryCb (x : Option (List (Store × Bool)) × Bool) : P (Bool × (Option (List (Store × Bool)) × Bool)) := do
  if x.2 then
    if ← fine then
      if ← targetCheck then return (true, x)
      else
        let r ← storeChunk x.1
        return (r.1, (some r.2, false))
    else do
      say "main.c" 41
      return (false, x)
  else
    let r ← storeChunk x.1
    return (r.1, (some r.2, false))

/-- main.c:90-114: the store of an argument, with the line of the message about its failure. -/
def makeStore : Store → P Bool
  | .target => do
    if ← targetAsStore then return true
    else do
      say "main.c" 93
      return false
  | .http => do
    if ← httpNew then return true
    else do
      say "main.c" 99
      return false
  | .loc => do
    if ← localNew then return true
    else do
      say "main.c" 111
      return false

/-- main.c:86-122 `append_store_from_arg`. -/
def appendStore (s : Store) : P Bool := do
  if ← makeStore s then
    if ← chainAppend then return true
    else do
      say "main.c" 117
      return false
  else return false

/-- What becomes of the arguments: the program goes on with a chain (or without one, after `-h`), fails, or exits at once. -/
inductive Begin where
  | go (subs : Option (List (Store × Bool)))
  | fail
  | exit
  deriving DecidableEq

/-- main.c:166-173. -/
def csnStores : List Store → List (Store × Bool) → P Begin
  | [], subs => return .go (some subs)
  | s :: r, subs => do
    if ← appendStore s then csnStores r (subs ++ [(s, true)]) else return .fail

/-- main.c:142-164 and 210-233, with the lines of the messages: index, target, chain. -/
def openAll (l₁ l₂ l₃ l₄ : Nat) : P Bool := do
  if ← fine then
    if ← loadHeader then
      if ← targetNew then
        if ← chainNew then return true
        else do
          say "main.c" l₄
          return false
      else do
        say "main.c" l₃
        return false
    else do
      say "main.c" l₂
      return false
  else do
    say "main.c" l₁
    return false

/-- main.c:142-173. -/
def csnIndex (stores : List Store) : P Begin := do
  if ← openAll 144 149 156 162 then csnStores stores [] else return .fail

/-- main.c:124-174 `csn`, with stores `stores` (`none`: too few arguments); the first answer: CSN_KCAPI_DRIVER is not set. -/
def csn (stores : Option (List Store)) : P Begin := do
  match stores with
  | none => do
    usage
    return .fail
  | some stores =>
    if ← ask then csnIndex stores
    else if ← kcapiInit then do
      say "main.c" 139
      csnIndex stores
    else do
      say "main.c" 135
      return .fail

/-- What getopt_long (main.c:236) returns. -/
inductive Opt where
  | help
  | store (s : Store)
  | seedOutput
  | unknown
  deriving DecidableEq

/-- main.c:235-267; `extract`: what follows the options is as it should be. -/
def casyncOpts (extract : Bool) : List Opt → List (Store × Bool) → P Begin
  | [], subs => do
    if extract then return .go (some subs)
    else do
      usage
      return .exit
  | .help :: _, _ => do
    usage
    return .go none
  | .store s :: r, subs => do
    if ← appendStore s then casyncOpts extract r (subs ++ [(s, true)]) else return .fail
  | .seedOutput :: r, subs => casyncOpts extract r subs
  | .unknown :: _, _ => do
    usage
    return .exit

/-- main.c:189-268 `casync`; `opts` is `none` with too few arguments. -/
def casync (opts : Option (List Opt × Bool)) : P Begin := do
  match opts with
  | none => do
    usage
    return .exit
  | some (opts, extract) =>
    if ← openAll 212 217 224 231 then casyncOpts extract opts [] else return .fail

/-- The command lines: of csn, of casync, of a program with another name. -/
inductive Args where
  | csn (stores : Option (List Store))
  | casync (opts : Option (List Opt × Bool))
  | other
  deriving DecidableEq

/-- main.c:305-317: the synchronisation; the result tells EXIT_SUCCESS from EXIT_FAILURE. -/
def sync (subs : Option (List (Store × Bool))) : P Bool := do
  let r ← iterate entryCb (subs, true)
  if r.1 then do
    timeMonotonic
    say "main.c" 311
    sayMaybe "main.c" 313
    match r.2.1 with
    | none => stop .ub
    | some subs => do
      chainFree subs
      return true
  else do
    say "main.c" 306
    return false

/-- main.c:294-317, after the arguments. -/
def main₂ : Begin → P Bool
  | .exit => return false
  | .fail => do
    say "main.c" 295
    return false
  | .go subs => do
    timeMonotonic
    say "main.c" 300
    say "main.c" 303
    sync subs

/-- log.c:14-34 `u_log_init`. -/
def logInit : P Unit := do
  if ← fine then return ()
  else say "log.c" 33

/-- main.c:270-318 `main`. -/
def main (a : Args) : P Bool := do
  logInit
  timeMonotonic
  match a with
  | .csn stores => main₂ (← csn stores)
  | .casync opts => main₂ (← casync opts)
  | .other => do
    trouble
    say "main.c" 290
    return false

/-! ### csn-tool.c -/

/-- csn-tool.c:12-36 `chunk_id_from_path`. -/
def chunkId : P Bool := do
  if ← fine then
    if ← fine then parseHex
    else do
      say "csn-tool.c" 27
      return false
  else do
    say "csn-tool.c" 22
    return false

/-- csn-tool.c:49-73: the name of the output; the answers say which of the two suffixes the input has. -/
def outName : P Bool := do
  if ← ask then return true -- given
  else if ← ask then
    if ← fine then return true
    else do
      say "csn-tool.c" 53
      return false
  else if ← fine then
    if ← fine then return true
    else do
      say "csn-tool.c" 62
      return false
  else do
    say "csn-tool.c" 70
    return false

/-- csn-tool.c:107-121, `encrypt_one` with an open output. -/
def convertOut : P Bool := do
  if ← writeAll then return true
  else do
    say "csn-tool.c" 109
    return false

/-- csn-tool.c:75-121, `encrypt_one` from the test for the output on. -/
def convert : P Bool := do
  if ← ask then return true -- the output exists
  else if ← encryptRestart then
    if ← slurpFile then
      if ← encryptDo then
        if ← ask then convertOut -- "-"
        else if ← fine then convertOut
        else do
          say "csn-tool.c" 103
          return false
      else do
        say "csn-tool.c" 92
        return false
    else do
      say "csn-tool.c" 87
      return false
  else do
    say "csn-tool.c" 80
    return false

/-- csn-tool.c:38-122 `encrypt_one`. -/
def encryptOne : P Bool := do
  if ← chunkId then
    if ← outName then convert else return false
  else do
    say "csn-tool.c" 44
    return false

/-- csn-tool.c:148-154: the loop over the lines of standard input.  fgets returns NULL at the end and when reading fails; reading
is `fine` or not. -/
def cryptLines : Nat → P Bool
  | 0 => stop .killed
  | n + 1 => do
    if ← fine then
      if ← ask then return true -- the end
      else if ← encryptOne then cryptLines n else return false
    else return true

/-- csn-tool.c:124-169 `do_crypt`; `list`: the names are read from standard input. -/
def doCrypt (list : Bool) : P Bool := do
  if ← ask then do
    usage
    return false
  else if ← parseKeyspec then
    if ← encryptInit then
      if list then looped cryptLines else encryptOne
    else do
      say "csn-tool.c" 142
      return false
  else do
    say "csn-tool.c" 136
    return false

/-- The command lines of csn-tool: no command, `-h` or `--help`, the command `crypt`, another command. -/
inductive ToolArgs where
  | nothing
  | help
  | crypt (list : Bool)
  | other
  deriving DecidableEq

/-- csn-tool.c:179-207 `usage` and `main`.  The usage text is on standard output if `error` is not set. -/
def tool (a : ToolArgs) : P Bool := do
  logInit
  match a with
  | .nothing => do
    usage
    return false
  | .help => return true
  | .crypt list => doCrypt list
  | .other => return true

/-! ### patchdd.c -/

/-- patchdd.c:73-94: the copy loop. -/
def patchLoop : Nat → P Bool
  | 0 => stop .killed
  | n + 1 => do
    if ← ask then return true
    else if ← preadAll then
      if ← preadAll then
        if ← pwriteAll then patchLoop n else return false
      else return false
    else return false

/-- patchdd.c:52-106, from the sizes on. -/
def patchSizes : P Bool := do
  if ← fine then do
    sayMaybe "patchdd.c" 60
    timeMonotonic
    if ← looped patchLoop then
      if ← fine then do
        timeMonotonic
        return true
      else do
        say "patchdd.c" 96
        return false
    else return false
  else do
    say "patchdd.c" 54
    return false

/-- patchdd.c:26-107 `main`. -/
def patchdd : P Bool := do
  logInit
  if ← ask then do
    usage
    return false
  else if ← fine then
    if ← fine then
      if ← checked "patchdd.c" 50 fdSize then
        if ← checked "patchdd.c" 51 fdSize then patchSizes else return false
      else return false
    else do
      say "patchdd.c" 45
      return false
  else do
    say "patchdd.c" 39
    return false

end Csn.Rep
