import Verif.Model.Base
/-
What the tools take from the system and give back: descriptors and heap blocks.

The functions here follow the C functions only as far as opening, closing, allocating and freeing go.  Everything else a
function decides on (contents of files, results of other calls) is an *answer* taken from a list, so that a statement for
all answers covers all data, and all results of the calls.  The process is killed when the answers run out.  What the
functions do with data is modelled in the other files.
-/
namespace Csn.Rsc

/-- The process: open descriptors, the variable `kcapi_fd` (sha.c:22), the descriptor of the target, live heap blocks, the number of the next block, how many
descriptors and blocks there were at most, and the answers still to come. -/
structure RS where
  fds : List Nat
  kfd : Option Nat
  tfd : Option Nat
  mem : List Nat
  next : Nat
  peak : Nat
  peakMem : Nat
  ans : List Bool
  deriving DecidableEq, Repr

def R (α : Type) := RS → Res α × RS

namespace R
variable {α β : Type}

def pure (a : α) : R α := fun s => (.ok a, s)

def bind (m : R α) (f : α → R β) : R β := fun s =>
  match m s with
  | (.ok a, s') => f a s'
  | (.stop e, s') => (.stop e, s')

instance : Monad R where
  pure := pure
  bind := bind

def stop (e : Stop) : R α := fun s => (.stop e, s)

/-- Something the resources do not depend on. -/
def ask : R Bool := fun s =>
  match s.ans with
  | [] => (.stop .killed, s)
  | b :: r => (.ok b, { s with ans := r })

end R

open R

/-- The lowest number that is not an open descriptor. -/
def lowest (fds : List Nat) : Nat := ((List.range (fds.length + 1)).find? (fun n => !fds.contains n)).getD 0

/-- open(2), socket(2), accept(2): the lowest number that is free; or failure. -/
def openFd : R (Option Nat) := do
  if ← ask then
    fun s => (.ok (some (lowest s.fds)), { s with fds := lowest s.fds :: s.fds, peak := max s.peak (s.fds.length + 1) })
  else return none

/-- close(2).  Closing a number that is not open is an error of the program; the model treats it like undefined behaviour. -/
def close (fd : Nat) : R Unit := fun s =>
  if fd ∈ s.fds then (.ok (), { s with fds := s.fds.erase fd }) else (.stop .ub, s)

/-- malloc(3), calloc(3), strdup(3), curl_easy_init, ZSTD_createDStream, EVP_CIPHER_CTX_new: a new block, or NULL. -/
def alloc : R (Option Nat) := do
  if ← ask then
    fun s => (.ok (some s.next), { s with mem := s.next :: s.mem, next := s.next + 1, peakMem := max s.peakMem (s.mem.length + 1) })
  else return none

/-- free(3) and the functions that release what the functions named at `alloc` return; nothing happens for NULL. -/
def free : Option Nat → R Unit
  | none => return ()
  | some p => fun s => if p ∈ s.mem then (.ok (), { s with mem := s.mem.erase p }) else (.stop .ub, s)

/-- Reading or writing a block. -/
def use : Option Nat → R Unit
  | none => stop .ub
  | some p => fun s => if p ∈ s.mem then (.ok (), s) else (.stop .ub, s)

/-- realloc(3): a new block instead of the old one; or NULL, and the old block stays. -/
def realloc : Option Nat → R (Option Nat)
  | none => alloc
  | some p => do
    use (some p)
    if ← ask then
      fun s => (.ok (some s.next), { s with mem := s.next :: s.mem.erase p, next := s.next + 1 })
    else return none

/-- Loops over data: `body` is repeated as often as the answers say; `false` as its result ends the loop with a failure; without
that the answers decide about the result.  Every round takes an answer. -/
def iterLoop {σ : Type} (body : σ → R (Bool × σ)) : Nat → σ → R (Bool × σ)
  | 0, _ => stop .killed
  | n + 1, s => do
    if ← ask then
      let r ← body s
      if r.1 then iterLoop body n r.2 else return (false, r.2)
    else
      return (← ask, s)

def iterate {σ : Type} (body : σ → R (Bool × σ)) (s : σ) : R (Bool × σ) := fun st => iterLoop body (st.ans.length + 1) s st

/-! ### utils.c, encrypt.c, csn-tool.c -/

/-- utils.c:179-224 `slurp_file`. -/
def slurpFile : R (Option Nat) := do
  match ← openFd with
  | none => return none
  | some fd =>
    if ← ask then -- fd_size succeeds
      match ← alloc with
      | none => do close fd; return none
      | some buf =>
        if ← ask then do close fd; return some buf -- readall succeeds
        else do free (some buf); close fd; return none
    else do close fd; return none

/-- encrypt.c:145-195 `encrypt_parse_keyspec`.  The first answer says whether the key is read from a file; the last one whether it is
acceptable (for an unknown scheme or a missing environment variable it is not). -/
def parseKeyspec : R Bool := do
  if ← ask then
    match ← slurpFile with
    | none => return false
    | some buf => do
      use (some buf)
      let ok ← ask
      free (some buf)
      return ok
  else ask

/-- encrypt.c:87-98 `encrypt_init`: the cipher context, if there is one. -/
def encryptInit : R (Option Nat) := alloc

/-- encrypt.c:130-135 `encrypt_close`. -/
def encryptClose (cipher : Option Nat) : R Unit := free cipher

/-- utils.c:106-128 `writeall`, which aborts if write(2) returns 0. -/
def writeAll : R Bool := do
  if ← ask then stop .abort else ask

/-- csn-tool.c:115-121, from label `out_fd` on: everything but descriptor 1 is closed. -/
def encryptOut (fd buf : Nat) (ok : Bool) : R Bool := do
  if fd = 1 then do free (some buf); return ok
  else do close fd; free (some buf); return ok

/-- csn-tool.c:38-122 `encrypt_one`. -/
def encryptOne : R Bool := do
  if ← ask then return false -- 42-73: not the name of a chunk, or too long
  else if ← ask then return true -- 75-76: the output exists
  else if ← ask then return false -- 79-82: encrypt_restart fails
  else
    match ← slurpFile with
    | none => return false
    | some buf => do
      use (some buf)
      if ← ask then do free (some buf); return false -- 91-94: encrypt_do fails
      else if ← ask then encryptOut 1 buf (← writeAll) -- the output is "-"
      else
        match ← openFd with
        | none => do free (some buf); return false
        | some fd => encryptOut fd buf (← writeAll)

/-- csn-tool.c:124-169 `do_crypt`, for one file or (`list`) for the names on standard input. -/
def doCrypt (list : Bool) : R Bool := do
  if ← ask then return false -- 128-132: wrong number of arguments
  else if ← parseKeyspec then
    match ← encryptInit with
    | none => return false
    | some c =>
      if list then do
        let r ← iterate (fun _ : Unit => do return (← encryptOne, ())) ()
        encryptClose (some c)
        return r.1
      else do
        let ok ← encryptOne
        encryptClose (some c)
        return ok
  else return false

/-! ### sha.c -/

/-- sha.c:24-71 `sha_kcapi_init`. -/
def kcapiInit : R Bool := do
  match ← openFd with
  | none => return false
  | some alg =>
    if ← ask then -- the name is short enough and bind succeeds
      match ← openFd with -- accept
      | none => do close alg; return false
      | some fd => do
        fun s => (.ok (), { s with kfd := some fd })
        close alg
        return true
    else do close alg; return false

/-- sha.c:82-125 `sha_once`: after a failure of the kernel's interface its descriptor is closed (`sha_kcapi_deinit`, 73-80). -/
def shaOnce : R Unit := do
  match ← (fun s => (.ok s.kfd, s) : R (Option Nat)) with
  | none => return ()
  | some fd =>
    if ← ask then return ()
    else do
      close fd
      fun s => (.ok (), { s with kfd := none })

/-! ### index.c -/

/-- index.c:7-20 `index_init`: success, and the array. -/
def indexInit : R (Bool × Option Nat) := do
  if ← ask then stop .abort -- u_assert(expected_size > 0)
  else
    match ← alloc with
    | none => return (false, none)
    | some b => return (true, some b)

/-- index.c:29-67 `index_insert`: success, and the array. -/
def indexInsert (ents : Option Nat) : R (Bool × Option Nat) := do
  if ents = none then stop .abort -- u_assert(idx->entries)
  else if ← ask then stop .abort -- u_assert(len != 0)
  else if ← ask then -- the array is full
    match ← realloc ents with
    | none => return (false, ents)
    | some b => do use (some b); return (true, some b)
  else do use ents; return (true, ents)

/-- index.c:87-100 `index_query`: whether there is an entry. -/
def indexQuery (ents : Option Nat) : R Bool := do
  use ents
  ask

/-! ### store-local.c -/

/-- store-local.c:17-24 `struct store_local`: its block, the descriptor, the array of the index. -/
structure Loc where
  blk : Nat
  fd : Nat
  ents : Option Nat
  deriving DecidableEq, Repr

/-- store-local.c:33-47 `store_insert_index`, preceded by the computation of the identifier, if there is one (when scanning). -/
def insertIndex (l : Loc) : R (Bool × Loc) := do
  shaOnce
  let r ← indexInsert l.ents
  return (r.1, { l with ents := r.2 })

/-- store-local.c:49-101 `store_sideload_index`. -/
def sideload (l : Loc) : R (Bool × Loc) := do
  match ← openFd with
  | none => return (false, l)
  | some fd =>
    if ← ask then -- the header is usable and the parameters are the same
      let r ← indexInit
      if r.1 then
        let i ← iterate insertIndex { l with ents := r.2 }
        if i.1 then do close fd; return (true, i.2)
        else do free i.2.ents; close fd; return (false, i.2)
      else do close fd; return (false, { l with ents := r.2 })
    else do close fd; return (false, l)

/-- store-local.c:103-128 `store_scan`. -/
def scan (l : Loc) : R (Bool × Loc) := do
  if ← ask then -- fd_size succeeds
    let r ← indexInit
    if r.1 then iterate insertIndex { l with ents := r.2 }
    else return (false, { l with ents := r.2 })
  else return (false, l)

/-- What a store returns: failure, nothing, or data (a negative value, 0, a positive value). -/
inductive Got where
  | fail
  | nothing
  | data
  deriving DecidableEq, Repr

/-- store-local.c:130-183 `store_local_get_chunk`.  Here nothing limits the number of rescans (C18 does). -/
def localGet : Nat → Loc → R (Got × Loc)
  | 0, _ => stop .killed
  | n + 1, l => do
    if ← indexQuery l.ents then
      if ← ask then return (.fail, l) -- too long, or not readable
      else if ← ask then return (.data, l) -- validated
      else do
        shaOnce
        if ← ask then return (.data, l) -- the identifier is right
        else do
        free l.ents -- index_cleanup
        let r ← scan l
        if r.1 then localGet n r.2 else return (.fail, r.2)
    else return (.nothing, l)

/-- store-local.c:185-191 `store_local_free`. -/
def localFree (l : Loc) : R Unit := do
  free l.ents
  free (some l.blk)

/-- store-local.c:225-236, the end of `store_local_new`. -/
def localScanned (l : Loc) : R (Option Loc) := do
  let r ← scan l
  if r.1 then return some r.2
  else do free (some l.blk); return none

/-- store-local.c:193-237 `store_local_new`, with or without an index to side-load. -/
def localNew (side : Bool) : R (Option Loc) := do
  match ← alloc with
  | none => return none
  | some blk =>
    match ← openFd with
    | none => do free (some blk); return none
    | some fd =>
      if side then
        let r ← sideload ⟨blk, fd, none⟩
        if r.1 then return some r.2 else localScanned r.2
      else localScanned ⟨blk, fd, none⟩

/-! ### store-http.c -/

/-- store-http.c:18-35 `struct store_http`: its block, base URL, URL buffer, curl handle, decompressor, decode buffer, and the
cipher context if it is `encrypted`. -/
structure Http where
  blk : Nat
  base : Nat
  url : Nat
  curl : Nat
  zstd : Nat
  dec : Option Nat
  enc : Option Nat
  deriving DecidableEq, Repr

/-- store-http.c:396-432 `store_handle_params`, for `n` parameters: the cipher context last created, or failure. -/
def handleParams : Nat → Option Nat → R (Option (Option Nat))
  | 0, enc => return some enc
  | n + 1, _ => do
    if ← ask then -- "encrypt="
      if ← parseKeyspec then
        match ← encryptInit with
        | none => return none
        | some c => handleParams n (some c)
      else return none
    else return none

/-- store-http.c:500-512, what is released after a failure of `curl_easy_setopt` or `ZSTD_createDStream`. -/
def httpErr (curl url base hs : Nat) : R (Option Http) := do
  free (some curl)
  free (some url)
  free (some base)
  free (some hs)
  return none

/-- store-http.c:436-513 `store_http_new`, for a URL with `n` parameters.  The resources of `curl_global_init`, which are never
given back, are not counted. -/
def httpNew (n : Nat) : R (Option Http) := do
  if ← ask then return none -- curl_global_init fails
  else
    match ← alloc with
    | none => return none
    | some hs =>
      match ← alloc with -- strdup
      | none => do free (some hs); return none
      | some tmp =>
        match ← handleParams n none with
        | none => do free (some tmp); free (some hs); return none
        | some enc =>
          match ← alloc with -- url_buf
          | none => do free (some tmp); free (some hs); return none
          | some url =>
            match ← alloc with -- curl_easy_init
            | none => do free (some url); free (some tmp); free (some hs); return none
            | some curl =>
              if ← ask then httpErr curl url tmp hs -- one of curl_easy_setopt fails
              else
                match ← alloc with -- ZSTD_createDStream
                | none => httpErr curl url tmp hs
                | some z => return some ⟨hs, tmp, url, curl, z, none, enc⟩

/-- store-http.c:63-102 `decode_buffer_absorb`, called for a fragment; whether the buffer grows is an answer. -/
def absorb (h : Http) : R (Bool × Http) := do
  if ← ask then
    match ← realloc h.dec with
    | none => return (false, h)
    | some b => return (true, { h with dec := some b })
  else return (true, h)

/-- store-http.c:273-377 `store_http_get_chunk`, with all the calls of the write callback. -/
def httpGet (h : Http) : R (Got × Http) := do
  use (some h.url)
  use (some h.curl)
  use (some h.zstd)
  let r ← iterate absorb h
  shaOnce
  if ← ask then return (.fail, r.2)
  else if ← ask then return (.nothing, r.2)
  else return (.data, r.2)

/-- store-http.c:379-394 `store_http_free`. -/
def httpFree (h : Http) : R Unit := do
  free (some h.base)
  free (some h.url)
  free h.dec
  free (some h.zstd)
  free (some h.curl)
  encryptClose h.enc
  free (some h.blk)

/-! ### target.c, store.c -/

/-- target.h:9-15 `struct target`: its block, the descriptor, the array of the index if it is `queryable`. -/
structure Tgt where
  blk : Nat
  fd : Nat
  ents : Option Nat
  deriving DecidableEq, Repr

/-- target.c:90-121 `target_new`. -/
def targetNew : R (Option Tgt) := do
  match ← alloc with
  | none => return none
  | some blk =>
    match ← openFd with
    | none => do free (some blk); return none
    | some fd => do
      fun s => (.ok (), { s with tfd := some fd })
      return some ⟨blk, fd, none⟩

/-- target.c:123-136 `target_as_store`. -/
def targetAsStore (t : Tgt) : R (Bool × Tgt) := do
  if t.ents.isSome then return (true, t)
  else
    let r ← indexInit
    if r.1 then return (true, { t with ents := r.2 }) else return (false, t)

/-- target.c:14-26 `target_add_chunk`. -/
def targetAdd (t : Tgt) : R Tgt := do
  if t.ents = none then return t
  else if ← indexQuery t.ents then return t
  else
    let r ← indexInsert t.ents
    return { t with ents := r.2 }

/-- target.c:46-71 `target_get_chunk`. -/
def targetGet (t : Tgt) : R Got := do
  if t.ents = none then return .nothing
  else if ← indexQuery t.ents then
    if ← ask then return .fail else return .data
  else return .nothing

inductive Store where
  | target
  | loc (l : Loc)
  | http (h : Http)
  deriving DecidableEq, Repr

/-- store.c:17-24 `struct store_chain`: its block, the array, and for each store whether it is active. -/
structure Chain where
  blk : Nat
  arr : Nat
  subs : List (Store × Bool)
  deriving DecidableEq, Repr

/-- store.c:83-111 `store_chain_new`. -/
def chainNew : R (Option Chain) := do
  match ← alloc with
  | none => return none
  | some blk =>
    match ← alloc with
    | none => do free (some blk); return none
    | some arr => return some ⟨blk, arr, []⟩

/-- store.c:113-134 `store_chain_append`. -/
def chainAppend (c : Chain) (s : Store) : R (Bool × Chain) := do
  if ← ask then -- no slot is left
    match ← realloc (some c.arr) with
    | none => return (false, c)
    | some a => return (true, { c with arr := a, subs := c.subs ++ [(s, true)] })
  else do
    use (some c.arr)
    return (true, { c with subs := c.subs ++ [(s, true)] })

/-- store.h:18-21 `store_get_chunk` for the stores of a chain. -/
def storeGet (t : Tgt) : Store → R (Got × Store)
  | .target => do return (← targetGet t, .target)
  | .loc l => do
    let r ← (fun st => localGet (st.ans.length + 1) l st : R (Got × Loc))
    return (r.1, .loc r.2)
  | .http h => do
    let r ← httpGet h
    return (r.1, .http r.2)

/-- store.c:35-57, the loop of `store_chain_get_chunk`. -/
def subsGet (t : Tgt) : List (Store × Bool) → R (Got × List (Store × Bool))
  | [] => return (.nothing, [])
  | (s, false) :: r => do
    let x ← subsGet t r
    return (x.1, (s, false) :: x.2)
  | (s, true) :: r => do
    let g ← storeGet t s
    match g.1 with
    | .data => return (.data, (g.2, true) :: r)
    | .nothing => do
      let x ← subsGet t r
      return (x.1, (g.2, true) :: x.2)
    | .fail => do
      let x ← subsGet t r
      return (x.1, (g.2, false) :: x.2)

/-- store.c:26-62 `store_chain_get_chunk`. -/
def chainGet (t : Tgt) (c : Chain) : R (Got × Chain) := do
  use (some c.arr)
  let x ← subsGet t c.subs
  return (x.1, { c with subs := x.2 })

/-- store.h:23-27 `store_free`; the target is not freed. -/
def storeFree : Store → R Unit
  | .target => return ()
  | .loc l => localFree l
  | .http h => httpFree h

/-- store.c:76-77. -/
def subsFree : List (Store × Bool) → R Unit
  | [] => return ()
  | (s, _) :: r => do
    storeFree s
    subsFree r

/-- store.c:64-81 `store_chain_free`. -/
def chainFree (c : Chain) : R Unit := do
  subsFree c.subs
  free (some c.arr)
  free (some c.blk)

/-! ### main.c -/

/-- What a store argument denotes (main.c:90-114): the target, a URL with a number of parameters, a file with or without an index. -/
inductive Arg where
  | target
  | url (params : Nat)
  | file (side : Bool)
  deriving DecidableEq, Repr

/-- main.c:86-122 `append_store_from_arg`. -/
def appendArg (t : Tgt) (c : Chain) : Arg → R (Option (Tgt × Chain))
  | .target => do
    let r ← targetAsStore t
    if r.1 then
      let x ← chainAppend c .target
      if x.1 then return some (r.2, x.2) else return none
    else return none
  | .url n => do
    match ← httpNew n with
    | none => return none
    | some h =>
      let x ← chainAppend c (.http h)
      if x.1 then return some (t, x.2) else return none
  | .file side => do
    match ← localNew side with
    | none => return none
    | some l =>
      let x ← chainAppend c (.loc l)
      if x.1 then return some (t, x.2) else return none

/-- main.c:166-169 (235-255 for `casync`). -/
def appendArgs : Tgt → Chain → List Arg → R (Option (Tgt × Chain))
  | t, c, [] => return some (t, c)
  | t, c, a :: r => do
    match ← appendArg t c a with
    | none => return none
    | some x => appendArgs x.1 x.2 r

/-- main.c:142-173, `csn` from opening the index on, or `casync` (main.c:189-268) for a command line without `-h` it accepts.  The
result: the descriptor of the index, target and chain. -/
def startIndex (args : List Arg) : R (Option (Nat × Tgt × Chain)) := do
  match ← openFd with
  | none => return none
  | some ifd =>
    if ← ask then -- the header is usable
      match ← targetNew with
      | none => return none
      | some t =>
        match ← chainNew with
        | none => return none
        | some c =>
          match ← appendArgs t c args with
          | none => return none
          | some x => return some (ifd, x)
    else return none

/-- main.c:124-174 `csn` (after the number of arguments was checked); `kc` says whether `CSN_KCAPI_DRIVER` is set (never for
`casync`). -/
def start (kc : Bool) (args : List Arg) : R (Option (Nat × Tgt × Chain)) := do
  if kc then
    if ← kcapiInit then startIndex args else return none
  else startIndex args

/-- main.c:32-84 `entry_cb`.  The answers say whether the entry is checked and matches, whether something fails before a chunk is
fetched, whether the chunk is the one in the buffer. -/
def entryCb (x : Tgt × Chain) : R (Bool × (Tgt × Chain)) := do
  shaOnce
  if ← ask then -- resuming, and the region matches
    let t ← targetAdd x.1
    return (true, (t, x.2))
  else if ← ask then -- too long
    return (false, x)
  else if ← ask then -- the last chunk again
    if ← ask then
      let t ← targetAdd x.1
      return (true, (t, x.2))
    else return (false, x) -- writing fails
  else
    let g ← chainGet x.1 x.2
    if ← ask then -- the chain returned what is needed and it could be written
      let t ← targetAdd x.1
      return (true, (t, g.2))
    else return (false, (x.1, g.2))

/-- main.c:285-308, a run up to the end of the synchronisation: the descriptor of the index, target and chain, if it succeeds. -/
def sync (kc : Bool) (args : List Arg) : R (Option (Nat × Tgt × Chain)) := do
  match ← start kc args with
  | none => return none
  | some x =>
    let r ← iterate entryCb x.2
    if r.1 then return some (x.1, r.2) else return none

/-- main.c:270-318 `main`: whether it exits with success. -/
def run (kc : Bool) (args : List Arg) : R Bool := do
  match ← sync kc args with
  | none => return false
  | some x => do
    chainFree x.2.2
    return true

/-! ### patchdd.c -/

/-- patchdd.c:36-47: the descriptors of source and destination. -/
def patchddOpen : R (Option (Nat × Nat)) := do
  match ← openFd with
  | none => return none
  | some src =>
    match ← openFd with
    | none => return none
    | some dst => return some (src, dst)

end Csn.Rsc
