# Formal model of casync-nano (csn, casync front end, csn-tool, patchdd)

This directory contains a Lean 4 model of the C code in `/repo` and proofs
about it.  The code was read as text; nothing in `/repo` was built or run.

* `properties.jsonl`: the properties (C01 ...), in English.
* `lean/Verif/Model/*.lean`: the model, function by function, each definition
  citing the C file and lines and naming every simplification.
* `lean/Verif/Spec/*.lean`: small independent specifications.
* `lean/Verif/Proof/*.lean`: helper lemmas.
* `lean/Verif/Props/*.lean`: the property theorems, each with a concrete
  non-trivial example meeting its hypotheses.
* `MANIFEST.json`: property -> theorem names.
* `seeded/LOG.jsonl`: log of seeded bugs tried against the theorems.

## Trusted base

* Lean's kernel and the axioms `propext`, `Classical.choice`, `Quot.sound`.  No
  own axioms, no `sorry`, no `native_decide`, no `bv_decide`.  `#print axioms`
  gives: no axiom at all for C06_default_discriminator, C55_refuted and C81_refuted; only
  `propext` for C09_refuted, C74_close, C82_refuted_side and C82_refuted_target; `propext` and `Quot.sound` for
  C01_rule_is_deterministic, C06_discriminator_range, C06_refuted_*,
  C11_index_is_multimap, C12_*, C13_first_hit_wins,
  C14_failed_store_not_asked_again, C35_target_fails, C45_chomp_partial, C54_*,
  C55_range, C55_proportion_partial, C55_patchdd_partial, C57_estimate_zero,
  C57_refuted, C68_fill, C68_refuted_memory, C71_refuted, C72_*refuted,
  C73_*refuted, C78_determined, C81_*_partial, C82_refuted, C88_digest, C88_may_refuse, C92_concat, C92_windows, C92_made, C92_image, C92_zeros, C93_index, C95_powers, C95_machines_differ, C95_division; all three for every other theorem of the
  manifest.
* The reading of the C code into the model (comments give file and lines).
  `Props/Vectors` evaluates the model on the vectors of the repository's unit
  tests for the chunker and the encryption (test/chunker_test.c,
  test/encrypt_test.c); these are tests of the reading, not proofs.
* The environment model described next: what system calls, curl, zstd, OpenSSL,
  qsort/bsearch, getopt_long and basename do is assumed, not verified.
* Assertions (`u_assert`) are assumed to be compiled in.  With NDEBUG the runs
  that the model ends with `abort` would continue in undefined behaviour.
* Specifications: `Spec/*.lean`.  They import `Model/Base` for the types; the
  exceptions (`Spec/Avail`, `Spec/Chunking`, `Spec/Http`) also refer to
  environment parameters, and `Spec/Avail` to `httpGet` in one *hypothesis*
  (which data a server can make the store return).

## Execution model

* A run is a function `World -> Result x World`.  The world has file contents
  by inode, a directory, a *system call schedule*, an *allocation schedule*, a
  *network schedule* and an event log (writes, queries, stores asked, their failures,
  answers, requests, sleeps, fsyncs, the statistics printed at the end).
* System call schedule: a finite list; every file system call takes the next
  item: `eintr`, `err`, `zero` (returns 0), or `some k` (transfers up to k+1
  bytes).  An empty schedule means **the process is killed here**.  As the
  schedule is universally quantified, the theorems range over all short reads
  and writes, interrupted calls, I/O errors and crash points.
* Allocation schedule: every allocation takes the next Boolean; `false` is
  NULL.
* Network schedule: every `curl_easy_perform` takes the next item, a function
  from URL to (body fragments, curl result, HTTP status).  Universally
  quantified, so servers are adversarial and may change over time.
* Outcomes: `ok`, `killed`, `abort` (u_assert), `ub` (undefined behaviour),
  `diverge` (fuel of the one `goto restart` loop; proved unreachable).
* Buffers are carried explicitly, so stale contents are visible.
* 64/32 bit wrap-around is explicit where the C code can reach it.

Parameters of the model (all universally quantified in theorems, with the
stated contract as hypothesis where one is needed):

* SHA-256: a function `H : Bytes -> Id`, length 32 where that matters.  A
  context is the list of bytes hashed so far.  Collision freedom is never
  assumed; C28 has an explicit hypothesis about the image at hand.
* zstd: a streaming decoder that consumes at most its input and produces at
  most its output room; completeness theorems use a "faithful frame" contract.
* OpenSSL ChaCha20: concrete function (RFC 8439 block function, 64-bit
  counter as in OpenSSL) in the encryption properties; arbitrary keystream in
  the HTTP store.
* qsort / bsearch: any functions meeting the C standard's contract.
* the float formula for the discriminator: `disc : Nat -> Option Nat`
  (`none` = conversion out of range, which is UB), plus three instances: exact
  rational arithmetic (`discExact`), and IEEE 754 doubles without and with
  contraction (`Double.disc`, `Double.discFused`, C95).

Remarks on the environment:

* `M.sysOk` (open, fstat, lseek, fsync, ioctl): only the item `err` is a
  failure, every other item means success; these calls are not retried by the
  code, so the kind of failure does not matter.
* Reading an integer or bytes outside the part of a buffer that was filled is
  undefined behaviour in the model (`ld64le`, `ldBytes`), although the C
  buffers are larger; this is stronger than what C demands.
* `Sane env`: the decompressor consumes at most its input and produces at most
  its room.  `FrameOf zstd f c I`: fed with the frame `f` in pieces it produces
  `c` (independently of the fragmentation); `I` is an invariant of its state.
* `Scene env w ipath tpath stores`: what is assumed of every run: conforming
  qsort/bsearch, a sane decompressor, fragments below 4 GiB, less than 2^57
  stores, if there are local stores a positive discriminator for the index'
  parameters (C06), and that neither the index nor a local store is the target
  file itself under another name.
* SHA-256 of the whole-run model is a pure function; sha.c's fallback is
  modelled and analysed separately (C54), its effect on the loop in Model/Race (C88).
* getopt_long, basename: modelled after their manual pages.

What is modelled, by file: caibx.c, chunk.c, chunker.c, csn-tool.c, encrypt.c,
index.c, main.c (both front ends), patchdd.c, store-http.c, store-local.c,
store.c, target.c, ui.c, utils.c completely as far as effects on files,
network, exit status and undefined behaviour go; log.c, sha.c and csn-bench.c
(with test/xorshift32.c) completely, but on their own: the log calls are not
part of the model of a run (the table `logSites` lists them), neither is the
kernel's hash interface beyond its result.

Eight further models look at the same functions from another side and share no
state with the model of a run.  Model/Rsc: descriptors and heap blocks of csn,
csn-tool crypt and patchdd, function by function; contents, lengths and results
of all calls are arbitrary answers, descriptors get the lowest free number,
closing, freeing or using something that is not there is an outcome of its own
(C71-C73).  Model/Wipe: the buffers that hold keys or what keys were made from,
which keep their contents after they were freed (C74).  Model/Msg: the messages of
the code that handles keys, with arbitrary answers of the calls it makes (C80).
Model/Rep: all messages of csn, casync, csn-tool and patchdd, by their place in
the source; everything the code decides on is an arbitrary answer, and each
answer that is a failure is marked as such (C81).  Model/Race: the loop over the
regions with target, chain and stores, where every read of a file gives arbitrary
bytes (C82, C87, C88); C82_covers (Proof/RaceSim) shows that all runs of Model/Main
are among its runs.  Model/Evp: csn-tool with given results of the OpenSSL functions (C84).
Model/ToolRace: csn-tool's conversions with arbitrary answers (C89); C89_covers
(Proof/ToolRaceSim) shows that the runs of Model/Tool over lists are among its runs.
Model/PatchRace: patchdd with arbitrary answers (C90); C90_covers
(Proof/PatchRaceSim) shows that the runs of Model/Patchdd are among its runs.

Not modelled: the text on stdout other than the progress bar, hexdump and the
numbers of skipped chunks and bytes,
locale, how the C library prints numbers in log messages, the rate printed by
csn-bench, `usleep` accuracy, curl internals, TLS, signals other than as EINTR
or kill, concurrent modification of files by other processes during a run
(except in Model/Race, for C82, C87, C88 and C90, in Model/ToolRace, for C89, and in
Model/PatchRace, for C90),
symbolic and hard links beyond several names for one file, file permissions,
descriptors and memory held inside libcurl, zstd and OpenSSL (their handles are
blocks in Model/Rsc), resources of casync after `-h` and of csn-bench.

## Findings (code versus stated property)

For each of these the model follows the code; the full property is refuted by
a theorem with a concrete witness and the rest is proved as `_partial`.

1. main.c:57-71: for a repeated consecutive ID neither the length is compared
   nor anything is fetched: an index whose entries repeat an ID with another
   length makes csn write wrong bytes and exit 0 (C27, C58); a length above
   256 KiB reads past the buffer (UB).  A zero-length entry with an
   unavailable ID is accepted and arms the same path.
2. caibx.c:227-230: entries longer than UINT32_MAX, including all entries with
   a decreasing offset, are skipped with a warning; csn exits 0 without
   writing them (C09, C27).
3. A local store that is the same file as the target under another name keeps
   its validated scan while the file is being overwritten: stale entries are
   returned without check (C27 needs store inode != target inode; C82_run says what
   still holds then).
4. index.c:10: a local store much smaller than the average chunk size (or a
   side-load index without entries) trips an assertion (C57, C17).
5. store-local.c:141-150: a side-loaded entry that lies behind the end of the
   store or is larger than the buffer makes the whole store fail instead of
   discarding the index (C17).
6. store-local.c:176-180: failing rescan leaves a freed index which is freed
   again at exit.
7. chunker.c:110: average size 1 gives discriminator 0 (division by zero);
   from 9324557 on the float result is negative (UB conversion) (C06).
8. store-http.c:235-258: retries do not reset decoder/decryption/output state;
   a retry after a partial body cannot succeed (C23).
9. main.c:238-240: `casync --help INDEX TARGET` continues with a NULL store
   (C39).
10. sha.c:119-124: after a partial kernel transfer the fallback hashes only
    the unsent rest (C54).
11. utils.c:268-288: chomp cuts at the last line-break run even if it is not at
    the end (C45).
12. csn-tool.c:75-76, 100-111: an interrupted run leaves a partial output file
    that later runs report as success (C48); names of the form 64 hex + 4
    arbitrary characters + .cacnk are accepted (C49).
13. csn never flushes the target (C56).
14. main.c:80: `100 * ++handled_entries` wraps at 2^32 (C55).
15. store-http.c:235-258 waits also after the tenth attempt: 52.6 s of waiting in
    total instead of the 42.6 s between ten attempts (C22).
16. encrypt.c:137 passes the length as `unsigned int`: csn-tool converts only the
    length modulo 4 GiB and writes the rest unchanged, i.e. as plain text (C40,
    C48).
17. A side-load index without entries, or one whose only entries are empty,
    trips the assertion of index_init / index_insert (C57); so does an index
    without entries if the target is a store, before a later unusable store
    could be reported (C37).
18. After a success with an index as in finding 1 a second run may fail (C33).
19. sha.c: when receiving the digest fails, the fallback hashes nothing at all,
    since all data has been sent (C54).  The driver name is chosen by the user;
    nothing checks that the driver computes SHA-256.
20. encrypt.c:145 with utils.c:268: a key file `<64 digits>\n<anything without
    line break>` is accepted (C43, C45).
21. csn-tool: a failing `access` is taken for "does not exist" and an existing
    output is truncated (C47); an unknown command exits with success; a read
    error on standard input ends the list like its end, with success.
22. casync ignores CSN_KCAPI_DRIVER; `casync --help` alone exits with failure;
    with two or more further words `store` stays NULL and is dereferenced, even
    if the target is in sync (`store_free(NULL)`); casync accepts an empty list
    of stores, csn does not; index and target names that begin with "-" are
    taken for options; local store names that begin with "http" are taken for
    URLs by both (C38, C39).
23. target.c:46-71: a read error on the target disables it as a store, after
    which chunks that are on the target are fetched again (C35).  Memory
    failures do not matter there: `target_as_store` reserves one slot per entry
    of the index.
24. log.c:66: format strings are cut to 127 characters; the only message that can
    be cut (store-local.c:70) loses its end, nothing else.
25. main.c:58 with store.c: data with the right hash but another length than the
    index demands ends the run, even if a later store has the chunk (hence
    `NoClash` in C36).
26. store.c:113-134: when casync's chain grows, `realloc` leaves the new
    sub-stores' `hits` uninitialised, and nothing sets it; the number printed at
    the end for such a store is arbitrary (C63).  The chain grows when stores
    are given as `--store=X`, in one word each, from the third on.
27. log.c:65: log messages are assembled in a buffer of 128 bytes, format and
    position included; the message of store-local.c:70 for a side-load index
    with other chunker parameters needs 143 (154 on a terminal), so the second
    half, the line end and the colour reset are missing (C65).
28. log.c:140: hexdump of no data prints an uninitialised array (C66; the
    function is never called).
29. csn-bench.c:172: an unknown benchmark prints the usage text and exits with
    status 0; csn-bench.c:80: malloc is not checked (C68).
30. csn-tool.c:116: with standard output closed, the output file gets
    descriptor 1 and is taken for standard output: it is not closed (C71).
31. main.c: index, target and local stores are never closed and the target is
    not freed; store-http.c:396: each `encrypt=` parameter after the first loses
    a cipher context; failing store_local_new and store_http_new keep a
    descriptor, an array or a cipher context (C72).
32. Started with descriptors 1 and 2 closed, csn opens the target as descriptor
    2 and writes its messages into it, possibly with exit status 0; patchdd with
    0 and 1 closed prints its statistics into the destination, behind the fsync
    (C73).
33. csn-tool.c:134, store-http.c:408: `key` is not wiped; store-http.c:510: a
    failing constructor frees the store with the key; encrypt.c:190: only the
    text up to the cut is wiped; utils.c:218: a partly read key file is freed as
    it is (C74).
34. csn-tool.c:207: an unknown command exits with status 0 (C75).
35. store-local.c:147, store.c:43: one entry of a side-loaded index beyond the
    end of the file makes the store fail for good; the other chunks in it are then
    downloaded, or the run fails though everything is there (C76).
36. store-http.c:473, store.c:71: the name of a store on the network is its
    argument, so a key given as `#encrypt=key:...` is printed by the statistics
    at the end of every run; main.c:99 prints the whole argument too (C80).
37. csn-tool.c:148: a failed read of the list of names is taken for its end:
    csn-tool exits with EXIT_SUCCESS and prints nothing (C81).
38. store-local.c:152, target.c:65-70: data of an entry once known to be right, and
    all data read back from the target, is handed out without being compared; if
    another process changes the file in between, csn writes wrong data and exits
    with EXIT_SUCCESS (C82).
39. patchdd.c:103-105: for an empty source the percentage is 0.0/0, so "nan%" is
    printed (C83; floating point numbers are not modelled).
40. encrypt.c:139: EVP_Cipher reports failures with a number <= 0 (-1 in OpenSSL
    3), but only 0 is noticed; csn-tool would then store the chunk in clear under
    the name of the encrypted file and exit with EXIT_SUCCESS (C84).
41. store-http.c:63-102, 162-208: data that the decompressor leaves unread is kept
    without limit, and ZSTD_decompressStream (called once per fragment) returns at
    the end of a frame: a server that sends many small frames makes csn use as much
    memory as it likes.  Neither the size of the body nor the size of the frame is
    compared with the size of the chunk wanted (C85).
42. main.c:57-64, store.c:58-61: "found nowhere" and "found, zero bytes" are the same
    result, so an empty region is accepted if no store has its chunk but refused if
    one has: an additional store can make a run fail (C86; the other side of 1).
43. sha.c:119-124 (see 10): the stores then accept data that merely ends with the chunk;
    only the comparison of lengths in main.c:61 keeps it out (C88).  Right data is
    refused, which ends the run if no other store has the chunk.
44. csn-tool.c:76 and 100: between the test for the output and its creation another
    process may have made it; O_TRUNC then empties it, and bytes that the other one
    still writes come after a hole.  An output that is being written looks finished
    to every other run (C89).
45. patchdd.c:51-91: the source is not locked and its size is taken once; if it changes
    while patchdd runs, the destination gets a mixture, and patchdd reports success (C90).
46. chunker.c:110: the value depends on whether the compiler contracts the product and
    the sum (CMakeLists.txt sets neither -std nor -ffp-contract), so for average sizes
    near 9.3 MB machines can cut differently; from 9309388 on the discriminator is
    larger than every hash and all chunks have the maximal size (C95).

## Proof methods

| id | modelled | proof |
|----|----------|-------|
| C01-C05 | chunker.c completely | simulation between ring-window scanner and declarative first-cut rule; induction over the read schedule |
| C06 | chunker_init, shall_break | refutation at avg=1; partial: positive discriminator implies no UB, progress |
| C07-C10 | caibx.c completely, unp64le | byte-level decision procedure versus declarative predicate; encoder/decoder round trip |
| C11-C12 | index.c completely | refinement to multimap under any qsort/bsearch |
| C13-C14 | store.c | induction over the sub-store list with event log; whole runs by an invariant relating the log to the active flags (Proof/Turns) |
| C63 | store.c, main.c:312-317 | invariant relating counters to the log (Proof/Stats) |
| C65, C66 | log.c completely, a table of all 248 log calls | the format parser against a relation between format, arguments and text; the table is checked entry by entry by the kernel, arguments stay universally quantified |
| C67 | sha_kcapi_init, sha_kcapi_deinit | case analysis over the results of the system calls |
| C69, C70 | sequences of runs of main.c | the state of the target after each run (`Shape`, from C27-C32); induction over the runs, charging writes and queries to the matching prefix |
| C68 | csn-bench.c, xorshift32.c | induction over the clock readings; the chunker's specification of C01 |
| C64 | whole runs of csn and casync | `ChainInv`: an invariant of the chain kept by each query holds over whole runs (Proof/Walk); instance for the network events in the log (Proof/Net) |
| C15-C18 | store-local.c | invariant "validated entries hash correctly", at most one restart |
| C19-C26 | store-http.c, curl callback protocol | invariants over callback sequence; faithful-frame contract for completeness |
| C27-C37, C56, C58 | main.c entry_cb, target.c, all stores together | loop invariant over index entries, all outcomes of all schedules |
| C38-C39 | append_store_from_arg, csn, casync | decision logic |
| C40-C43 | encrypt.c | xor algebra; equality with RFC/draft specification |
| C44-C45 | parse_hex, nibble, chomp, chunk_format_id | string induction |
| C46-C49 | csn-tool.c encrypt_one | decision logic and file effects |
| C50-C52 | patchdd.c | loop invariant |
| C53 | utils.c I/O helpers | induction over schedule |
| C54 | sha.c sha_once | refutation and partial |
| C55, C59 | ui.c, log.c | arithmetic, decision logic |
| C71-C73 | descriptors and blocks of csn, csn-tool, patchdd (Model/Rsc) | separation: each function has a specification in terms of the descriptors and blocks it owns, for any others around it; induction over entries, stores and requests |
| C74 | key buffers (Model/Wipe) | induction over conversions and parameters; sizes of buffers |
| C75 | csn-tool.c main, do_crypt | decision logic |
| C76 | as C36 | chain invariant: what was asked, for which chunks and when |
| C77 | csn-tool and csn | composition of the theorems for csn-tool, HTTP stores and csn; uniqueness of what input lines and URLs denote |
| C78 | chunker | simulation between chunker states and the data given since the last reset |
| C79 | csn, casync, patchdd | `Ind`: a relation between the runs in two worlds, kept by every operation on allowed paths and files and by sequencing |
| C80 | messages about keys: encrypt.c, construction of HTTP stores, statistics, csn-tool | `Sim`: two programs that ask and say the same; `Tells`: what a program has said when it returns; every message is shown to be in the table of C65 |
| C81 | messages of csn, casync, csn-tool, patchdd | Hoare triples with five states (all reported, due, warned, error printed, usage printed), one rule per kind of statement, levels looked up in the table of C65; functions that leave reporting to their callers have a triple of their own |
| C82 | main loop, target, chain, local stores, verdict of HTTP stores, with arbitrary reads | triples over the events so far, for all answers; invariant: events are right, each store is scanned again at most once and has only validated entries afterwards, the buffer holds the last chunk; step-by-step simulation of Model/Main (Proof/RaceSim) |
| C83 | patchdd with its count | part of the loop invariant of C50-C52 (count and bytes written make up the position); the written positions and the skipped ones are a permutation of all |
| C84 | csn-tool and encrypt.c with given results of OpenSSL (Model/Evp) | equality with the other model when all works; case analysis and induction over the list otherwise |
| C85 | HTTP stores (Model/Http) | weakest preconditions with the size of the buffer; for frames together with the invariant of C21; the refutation by induction over the fragments |
| C96 | main loop, chain, HTTP stores as in C35 and C36; schedule of network results per attempt | the schedule only shrinks, so what is assumed of it at the start holds at each question; invariant of the chain: the error counter of the store is the number of times it was asked, as long as it is active, and stays at most ten; requests and waiting per question from the retry schedule of C35; conversely the counter never exceeds the number of questions, and a store fails only when it is at its limit |
| C95 | the macro in doubles (Model/Double), the scan as in C01 | rounding: the model's algorithm gives the nearest double, which is unique; monotone; relative error 2^-53 per operation, summed up for the denominator and the quotient; single numbers (the ends of the ranges) by evaluation in the kernel |
| C94 | csn-tool as in C46-C49; names of outputs from the command line and the lines (Spec/ToolOut) | a relation between worlds (names kept, changes and new names only in a set) that is transitive, shown for every call in all its outcomes; for the contents the cases of the write loop |
| C93 | limits as plain arithmetic (Spec/Room) | invariant of index_insert in all its outcomes, carried through the callback of the scan (C05) and the count of chunks of a chunking; for the target an index made for n entries with room for the entries left, through entry_cb, with a predicate on results that does not mention the state of the machine |
| C92 | the chunks of the end-to-end tests (Spec/TestImage) | a first cut depends on the bytes up to it only; three hash values computed by the kernel and the 256 windows of the comment; the window at every position of a piece |
| C91 | the scan and whole runs of csn, unchanged; chunk boundaries of two files (Spec/Edits) | a cut depends only on the bytes before it in the chunk and, for the hash, on the last 48; induction over the chunking; then C05, C36 and C76, and counting the chunks between two positions |
| C90 | patchdd with arbitrary answers (Model/PatchRace), and any number of processes running it or csn (Model/Race) | the rounds of a run, by induction over the loop; then induction over the history as for C87; the simulation of Model/Patchdd by induction over its loop |
| C89 | encrypt_one and the loop over the list with arbitrary answers (Model/ToolRace), run by any number of processes | what a run does before and after each step, by induction over its list; then splitting the history at the access in question, and at the last creation of an output; two histories as counterexamples |
| C88 | sha_once, and the loop of Model/Race with digests that may be those of an end of the data | the invariant of C82 with a weaker notion of accepted data; the comparison of lengths makes up for it |
| C87 | the loop of Model/Race, run by any number of processes | induction over the history: bytes finished by a process are right and stay right as all writes so far are right, so what it reads back from the target is right |
| C86 | csn | simulation between the runs with and without the store: equal up to the chain, or a chunk was looked for in vain and the store asked; a separate invariant of successful runs |
| C61-C62 | csn, casync, patchdd, csn-tool | `Closed`: a property of programs that holds for the primitive operations and is kept by sequencing holds for whole programs; instances for schedule independence, logging, bounded calls, no divergence |

## Status per property

Generated by `tools/design.py` from `properties.jsonl` and `MANIFEST.json`.

| id | property | code | theorems (`Csn.Props.`) | status |
|----|----------|------|----------|--------|
| C01 | Chunk boundaries depend only on content and parameters | chunker.c:chunker_scan, chunker.c:chunker_scan_fd, chunker.c:chunker_shall_break, utils.h:rol32 | C01_scan_reports_spec_chunks, C01_rule_is_deterministic, C01_scan_independent_of_schedule, C01_scan_succeeds | proved. For every accepted parameter set with a positive discriminator (see C06). |
| C02 | Chunks tile the file | chunker.c:chunker_scan_fd | C02_chunks_tile_file | proved.  |
| C03 | Chunk size bounds | chunker.c:chunker_shall_break, chunker.c:chunker_scan | C03_chunk_size_upper_bound, C03_chunk_size_lower_bound | proved.  |
| C04 | A scanned chunk's ID is the SHA-256 of exactly its bytes | chunker.c:chunker_scan, chunker.c:chunker_get_id, chunker.c:chunker_reset | C04_chunk_id_is_digest | proved.  |
| C05 | Chunking resynchronises after a common boundary | chunker.c:chunker_reset, chunker.c:chunker_scan_fd | C05_resynchronisation | proved.  |
| C06 | Scanning has defined behaviour for every parameter set an index file can carry | chunker.c:chunker_init, chunker.c:CA_CHUNKER_DISCRIMINATOR_FROM_AVG, chunker.c:chunker_params_set | C06_scan_defined_partial, C06_discriminator_range, C06_refuted_division_by_zero, C06_refuted_float_conversion, C06_default_discriminator | partial. Refuted for average sizes 1 (division by zero) and >= 9324557 (float conversion); proved for positive discriminators. C95_defined says exactly for which parameters scans are defined, with the formula in floating point arithmetic. |
| C07 | The index loader accepts exactly the well-formed files | caibx.c:caibx_load_header, caibx.c:load_index_header, caibx.c:validate_table_header, caibx.c:validate_table_footer, chunker.c:chunker_params_set | C07_accepted_is_wellformed, C07_wellformed_is_accepted, C07_malformed_is_rejected | proved.  |
| C08 | Index files round-trip | caibx.c:caibx_iterate_entries, utils.h:unp64le | C08_index_round_trip | proved.  |
| C09 | Iterating an index delivers every entry | caibx.c:caibx_iterate_entries | C09_every_entry_delivered_partial, C09_refuted | partial. Refuted: entries of 4 GiB or more, including those with a decreasing end offset, are skipped silently (caibx.c:227). Proved for ascending tables. |
| C10 | Reading an index is memory-safe and total | caibx.c:caibx_load_header, caibx.c:caibx_iterate_entries | C10_loading_is_safe, C10_iterating_is_safe | proved. Reads outside the filled part of a buffer are undefined behaviour in the model. |
| C11 | Chunk index behaves like a multimap | index.c:index_insert, index.c:index_query, index.c:index_sort | C11_index_is_multimap, C11_insertions_succeed | proved. For any qsort and bsearch meeting the C standard's contract (Lib.Conforms). |
| C12 | Chunk index never writes out of bounds | index.c:index_init, index.c:index_insert | C12_index_bounds, C12_index_grows | proved.  |
| C13 | Stores are consulted in command-line order and the first hit wins | store.c:store_chain_get_chunk, store.c:store_chain_append | C13_first_hit_wins, C13_appended_in_order, C13_whole_run | proved. For any stores, including ones that change behaviour over time; C13_whole_run: on the log of whole runs of csn and casync every answer comes from the first store that delivers, or after all working stores were asked. |
| C14 | A failed store is never consulted again | store.c:store_chain_get_chunk | C14_failed_store_not_asked_again, C14_whole_run | proved. For single chains with arbitrary stores, and on the log of whole runs of csn and casync without any assumption. |
| C15 | A scanned local store answers exactly the chunks of its file | store-local.c:store_scan, store-local.c:store_local_get_chunk | C15_scanned_store_is_exact, C15_scanned_store_answers | proved. Reads that report the end of the file too early are excluded; everything else (errors, short reads, EINTR, kills) is covered. |
| C16 | A side-loaded index can never make a local store return wrong data | store-local.c:store_sideload_index, store-local.c:store_local_get_chunk | C16_local_data_hashes_to_id | proved.  |
| C17 | A wrong side-loaded index is discarded | store-local.c:store_sideload_index, store-local.c:store_local_get_chunk, store-local.c:store_local_new | C17_unusable_index_ignored_partial, C17_wrong_entry_discards_index_partial, C17_refuted_entry_beyond_end, C17_refuted_incomplete_index | partial. Refuted: an index entry beyond the end of the store file makes the store fail for good, and an incomplete index hides chunks. Proved for unusable indices and for entries whose region exists but does not match. |
| C18 | A local store lookup rescans at most once and always ends | store-local.c:store_local_get_chunk | C18_lookup_ends_with_at_most_one_rescan, C18_store_scanned_at_most_once | proved. Stronger: over its whole life a store scans its file at most once. |
| C19 | HTTP data is only accepted when it hashes to the chunk ID | store-http.c:store_http_get_chunk, store-http.c:handle_data | C19_http_data_hashes_to_id | proved. For the whole life of a store; decompressors within their buffer contract (Sane); fragments below 4 GiB. |
| C20 | HTTP body processing stays inside its buffers | store-http.c:decode_buffer_absorb, store-http.c:store_http_data_cb, store-http.c:handle_data | C20_http_stays_in_buffers, C20_decode_buffer_invariant | proved.  |
| C21 | The way a response body is split does not matter | store-http.c:store_http_data_cb, store-http.c:handle_data, store-http.c:decode_buffer_absorb | C21_fragmentation_irrelevant | proved. FrameOf states what the decompressor has to do with pieces of a frame; memory must suffice. |
| C22 | Retry policy of HTTP downloads | store-http.c:retried_curl_easy_perform, store-http.c:curl_is_transient_error | C22_retry_policy_partial, C22_total_wait_refuted | partial. Refuted: the code also waits after the tenth attempt, 52.6 s in total. Everything else is proved. |
| C23 | A retried download succeeds if a later attempt delivers the chunk | store-http.c:retried_curl_easy_perform, store-http.c:store_http_get_chunk | C23_retry_succeeds_partial, C23_mid_body_refuted | partial. Refuted for failures in the middle of a body: nothing is reset before the next attempt. Proved for failures before any body data. |
| C24 | HTTP store error accounting | store-http.c:increase_error_counter, store-http.c:store_http_get_chunk | C24_error_accounting | proved. A response counts as processed completely when the decompressor accepted all of it, even if the result is not the chunk. |
| C25 | Chunk URL layout | store-http.c:set_url, store-http.c:store_http_new, chunk.c:chunk_format_id | C25_url_layout | proved.  |
| C26 | Encrypted stores are transparent | store-http.c:decode_buffer_absorb, encrypt.c:encrypt_restart, encrypt.c:encrypt_do | C26_encrypted_like_plain, C26_same_outcome | proved. Both for complete frames in different fragmentations, and for arbitrary responses with the same fragmentation. |
| C27 | Integrity of a successful synchronisation | main.c:entry_cb, main.c:main, target.c:target_write, target.c:target_check_chunk, store.c:store_chain_get_chunk | C27_integrity_partial, C27_refuted | partial. Refuted: an entry repeating the ID of the one before with another length is written unchecked. Proved when neighbouring entries with the same ID have the same length, the table ascends (C09) and no local store is the target under another name (C28_refuted). |
| C28 | The target holds the image | main.c:entry_cb | C28_image_partial, C28_refuted | partial. Refuted when a local store is the target under another path. Proved for all other stores, servers and schedules. |
| C29 | Nothing outside the image is modified | main.c:entry_cb, target.c:target_write, utils.c:pwriteall | C29_frame | proved. For stores and index that are not the target itself under another name. |
| C30 | Crash consistency of the target | main.c:entry_cb, target.c:target_write, utils.c:pwriteall | C30_crash_consistency_partial, C30_refuted | partial. Refuted with C27's index. Proved when neighbouring entries with the same ID have the same length; every stop point is covered. |
| C31 | Resumption skips exactly the verified prefix | main.c:entry_cb, target.c:target_check_chunk | C31_resumption_partial, C31_any_schedule_partial, C31_refuted | partial. Refuted: with a read error on the target a matching region is written again. Proved for runs without failing system calls; for any schedule, C31_any_schedule_partial says what is skipped, queried and written. |
| C32 | Interrupted synchronisation makes forward progress | main.c:entry_cb | C32_forward_progress_partial, C32_refuted | partial. Refuted with C27's index. Proved when neighbouring entries with the same ID have the same length and the entries before k are not empty. |
| C33 | Synchronising twice is a no-op | main.c:entry_cb | C33_second_run_partial, C33_refuted | partial. Refuted with C27's index: the second run even fails. Proved when neighbouring entries with the same ID have the same length and no entry is empty. |
| C34 | Consecutive repetitions of a chunk are fetched once | main.c:entry_cb | C34_repetitions_fetched_once | proved.  |
| C35 | With the target as first store no chunk is fetched twice from elsewhere | target.c:target_add_chunk, target.c:target_get_chunk, target.c:target_as_store | C35_no_refetch, C35_clean, C35_target_fails | proved. For every run, as long as the target has not failed as a store; it fails only if a read of it fails or offsets reach 2^63. Also that no later store is asked for an ID twice. A run with a failing read of the target is given, in which a chunk is fetched again. |
| C36 | Synchronisation succeeds when all chunks are available | main.c:entry_cb, store.c:store_chain_get_chunk | C36_available_partial, C36_blame, C36_every_chunk_returned, C36_available_refuted | proved. C36_every_chunk_returned and C36_blame: if csn can start (arguments usable, system calls and allocations do not fail, block device large enough), a run only fails when the chain has just failed to return the first chunk not on the target with the length demanded; a run in which the chain returns what it is asked for succeeds. Neighbouring regions with the same ID must have the same length (a chain cannot return both). C36_available_partial says from contents of stores when chunks are returned: chunks found by scanning a local store or through its side-loaded index, hosted by a politely answering HTTP server (up to nine transient failures in a row) or already on the target; it assumes no store has data with a chunk's hash but another length. |
| C37 | A failing start leaves everything untouched | main.c:csn, target.c:target_new, main.c:append_store_from_arg | C37_failing_start_partial, C37_too_few_arguments, C37_abort_refuted | partial. Nothing is modified and there is no success; but another store may make the run abort instead of failing (refuted). |
| C38 | Store argument classification | main.c:append_store_from_arg | C38_kinds, C38_target, C38_http, C38_local, C38_chain | proved. Arguments are C strings. Includes that the chain csn builds has one store per argument, in order, made from it. |
| C39 | The casync front end is equivalent to csn | main.c:casync, main.c:csn | C39_equivalent_partial, C39_identical_partial, C39_hits_refuted, C39_kcapi_refuted, C39_no_store, C39_help_alone, C39_help_refuted, C39_never_succeeds, C39_only_extract, C39_dispatch | partial. Refuted: csn uses CSN_KCAPI_DRIVER, casync does not; --help with further words goes on without a store and dereferences NULL. Also, casync may print an uninitialised number as hits of a store. Proved as equality of result and effects up to these numbers for every command line with stores, unless csn cannot use the kernel driver; exactly if there are not more stores than initial slots. The behaviour of getopt_long is modelled, not part of the repository. |
| C40 | Chunk encryption is its own inverse | encrypt.c:encrypt_do, encrypt.c:encrypt_restart | C40_involution_partial, C40_huge_refuted | partial. Refuted for inputs of 4 GiB and more (length truncated to 32 bits). Proved below; OpenSSL 3 refuses empty input. |
| C41 | Chunk encryption can be streamed | encrypt.c:encrypt_do, encrypt.c:encrypt_restart | C41_streaming_partial | partial. Proved for inputs below 4 GiB; larger ones are truncated (C40_huge_refuted). |
| C42 | Chunk encryption is XChaCha20 | encrypt.c:hchacha20, encrypt.c:chacha20_rounds, encrypt.c:encrypt_restart | C42_xchacha20, C42_keystream | proved. Against a specification written from RFC 8439 and the XChaCha draft, which reproduces their test vectors; OpenSSL's ChaCha20 itself is modelled, not verified. |
| C43 | Key specification parsing | encrypt.c:encrypt_parse_keyspec, utils.c:parse_hex | C43_keyspec | proved. A key file's text is cut at its last line break, see C45. |
| C44 | Chunk IDs round-trip through their textual form | chunk.c:chunk_format_id, utils.c:parse_hex, utils.c:nibble | C44_id_text | proved.  |
| C45 | Only trailing line breaks are removed from key files and path lists | utils.c:chomp | C45_chomp_refuted, C45_chomp_partial | partial. Refuted: a text with an inner line break and none at the end is cut off. Proved for all other texts. |
| C46 | csn-tool's derived output name is an involution | csn-tool.c:encrypt_one, csn-tool.c:chunk_id_from_path | C46_derived_name, C46_same_id_partial, C46_refuted | partial. The derived name is proved to be an involution always. Refuted: names with four extra characters before .cacnk are accepted, their derived names are not. Same ID proved for chunk names. |
| C47 | csn-tool never modifies an existing file | csn-tool.c:encrypt_one | C47_one_file_partial, C47_no_file_modified_partial, C47_refuted | partial. Refuted when the existence check fails for another reason than absence. Proved for every run without failing calls (and one conversion with any failure but that one) and every stop point. Symbolic links and concurrent changes are not modelled. |
| C48 | csn-tool success means the output is the conversion of the input | csn-tool.c:encrypt_one | C48_one_file_partial, C48_list_partial, C48_succeeds, C48_refuted, C48_existing_partial | partial. Refuted: an output left incomplete by a killed run is taken for a success later. Proved for outputs that did not exist and inputs below 4 GiB, for single files and lists; an existing regular output is as before or holds the conversion; conversely success is proved when nothing fails. |
| C49 | csn-tool only accepts chunk file names | csn-tool.c:chunk_id_from_path | C49_accepted_partial, C49_refused, C49_refuted | partial. Refuted: four arbitrary characters between digits and .cacnk are accepted. The exact set of accepted names is proved. |
| C50 | patchdd copies the source over the destination's start | patchdd.c:main, patchdd.c:memcmp_offset | C50_copies, C50_too_small, C50_succeeds | proved. For every positive transfer size (the code's is 1 MiB); includes that patchdd succeeds when nothing fails. |
| C51 | patchdd writes only behind the first difference of a block | patchdd.c:main, patchdd.c:memcmp_offset | C51_writes_from_first_difference, C51_second_run | proved. In terms of positions covered by writes, as the kernel may split a write. |
| C52 | patchdd crash consistency and durability | patchdd.c:main | C52_crash_consistency, C52_durable | proved. Durability against a specification of what a power cut may leave (Spec/Durable). |
| C53 | Exact-length I/O helpers under any schedule | utils.c:readall, utils.c:preadall, utils.c:writeall, utils.c:pwriteall | C53_read_exact, C53_read_failure_has_cause, C53_read_succeeds, C53_write_prefix, C53_write_exact, C53_write_succeeds | proved.  |
| C54 | Hashing is independent of the backend | sha.c:sha_once | C54_digest_partial, C54_early_failure_partial, C54_disabled_for_good, C54_refuted | partial. Refuted: when the kernel interface fails after a transfer, only the unsent rest is hashed. Proved when the call does not disable the interface, and for failures before any transfer. |
| C55 | Progress display | ui.c:show_progress, main.c:entry_cb | C55_drawing, C55_range, C55_proportion_partial, C55_refuted, C55_patchdd_partial, C55_shown | partial. Refuted from 42949673 entries on (32 bit product). Range, drawing and when it is shown are proved always, the rest below that size. |
| C56 | Success is durable | main.c:main, target.c:target_write | C56_everything_may_be_lost, C56_nothing_to_do_partial, C56_refuted | partial. Refuted: nothing is ever flushed, so after any run a power cut may leave the old contents. Proved only for a target already in sync. |
| C57 | Local stores of any size can be used | store-local.c:store_scan, index.c:index_init | C57_estimate_zero, C57_refuted, C57_large_stores_do_not_abort_partial, C57_refuted_index | partial. Refuted: files below 10/12 of an average chunk, and side-load indices without entries or with an empty entry, abort the program. Proved for all other files. |
| C58 | Only verified data is ever written to the target | main.c:entry_cb, target.c:target_write | C58_only_verified_data_partial, C58_refuted | partial. Refuted with C27's index; the hash is proved when neighbouring entries with the same ID have the same length, everything else always. |
| C59 | Log level filtering | log.c:check_loglevel, log.c:u_log_init | C59_filtering | proved.  |
| C60 | Runs are free of undefined behaviour | main.c:entry_cb, main.c:main, store-local.c:local_get_chunk, store-local.c:local_free | C60_no_undefined_behaviour_partial, C60_overread_refuted, C60_double_free_refuted | partial. Refuted: over-read with C27's index, double free after a failing rescan. Proved without such indices and, if a local store is given together with an index that is wrong about it, without failing system calls or allocations. |
| C61 | Interrupted calls and short transfers make no difference | utils.c:readall, utils.c:preadall, utils.c:writeall, utils.c:pwriteall, chunker.c:chunker_scan_fd, main.c:main, patchdd.c:main, csn-tool.c:main | C61_one_outcome, C61_runs_agree, C61_one_outcome_patchdd, C61_one_outcome_tool, C61_enough_calls | proved. For csn, casync, patchdd and csn-tool. Assumes BUFSIZ is not zero. Together with C62: enough calls lead to the one outcome unless a server is waited for until a kill. |
| C62 | Every run comes to an end | main.c:main, store-local.c:local_get_chunk, chunker.c:chunker_scan_fd, patchdd.c:main, csn-tool.c:main | C62_app_ends, C62_patchdd_ends, C62_tool_ends | proved. The number may depend on the start. Assumes that the C library's qsort permutes its array (csn, casync) and that patchdd's transfer size is not zero. A wait for a server ends when the network schedule says so. |
| C63 | Final statistics | store.c:store_chain_free, store.c:store_chain_get_chunk, store.c:store_chain_append, main.c:main | C63_csn, C63_casync_partial, C63_casync_exact_partial, C63_otherwise, C63_skipped, C63_refuted | partial. Refuted: casync prints uninitialised counters for stores behind the initial slots. Proved for csn and for the other counters of casync, without assumptions on files, servers and schedules; the number of skipped chunks for start conditions as in C31. |
| C64 | Network use | store-http.c:retried_curl_easy_perform, store-http.c:store_http_get_chunk, store-http.c:set_url, store.c:store_chain_get_chunk, main.c:append_store_from_arg, main.c:main | C64_on_schedule, C64_offline, C64_totals | proved. No assumptions on files, servers and schedules. What libcurl does within one transfer (name lookup, redirects) is not modelled. |
| C65 | Log messages are complete lines | log.c:_u_log | C65_line, C65_sites_partial, C65_refuted | partial. Refuted: the message for a side-load index with other parameters (store-local.c:70) does not fit the buffer; half of it, the line end and the colour reset are lost. Proved for the other 247 calls and all arguments, and in general for messages that fit. How numbers are printed is a parameter; the table of calls is part of the model. |
| C66 | Hex dumps | log.c:hexdump | C66_rows_partial, C66_refuted | partial. Refuted for empty data (prints an uninitialised array); proved for all other data. The function is never called. |
| C67 | Setting up the kernel hash interface | sha.c:sha_kcapi_init, sha.c:sha_kcapi_deinit | C67_failure, C67_success, C67_deinit | proved. Initialising twice without sha_kcapi_deinit loses a descriptor; the tools do not do that. |
| C68 | csn-bench | csn-bench.c:main, csn-bench.c:bench_hash, csn-bench.c:bench_chunker, csn-bench.c:time_delta_ms | C68_delta, C68_hash, C68_fill, C68_chunker_partial, C68_refuted_memory, C68_arguments_partial, C68_refuted_status | partial. Refuted: an unknown benchmark ends with status 0, and the chunker benchmark does not check malloc. The rest is proved. The rate, a floating point number, is not modelled. |
| C69 | The index decides the result | main.c:entry_cb, main.c:main, target.c:target_check_chunk | C69_index_decides | proved. For all pairs of successful runs whose indices describe the same regions; condition on neighbouring equal IDs as in C27, and stores that are the target under another name are excluded (Scene.own). |
| C70 | What interruptions cost | main.c:entry_cb, target.c:target_check_chunk, target.c:target_write | C70_cost_of_interruptions, C70_progress | proved. Over an inductively defined sequence of runs of any length; conditions on the index as in C32. Failing system calls are excluded (a failing read ends skipping, C31_refuted). |
| C71 | csn-tool gives back what it takes | csn-tool.c:do_crypt, csn-tool.c:encrypt_one, utils.c:slurp_file, encrypt.c:encrypt_parse_keyspec | C71_crypt_partial, C71_closed_output, C71_slurp, C71_keyspec, C71_refuted | partial. Refuted: with standard output closed the output file gets descriptor 1 and is not closed. Proved if standard output is open; otherwise nothing but descriptor 1 is left over. In a model in which all data are arbitrary answers. |
| C72 | Resources of csn | main.c:main, main.c:csn, main.c:entry_cb, store.c:store_chain_get_chunk, store.c:store_chain_free, store-local.c:store_local_get_chunk, store-local.c:store_local_new, store-http.c:store_http_new, store-http.c:store_http_free, target.c:target_new, index.c:index_insert | C72_sync_partial, C72_end_partial, C72_refuted, C72_double_free_refuted, C72_local_new_refuted, C72_http_new_refuted | partial. Refuted: index, target and local stores are never closed, the target is not freed, cipher contexts of repeated encrypt= parameters are lost, a failing rescan leads to a double free at the end, failing constructors keep descriptors and blocks. Proved: the bounds, no misuse up to the end of the synchronisation, and exactly what is left at the end if no local store failed. |
| C73 | Messages do not end up in the target | main.c:csn, target.c:target_new, patchdd.c:main, log.c:_u_log | C73_streams_partial, C73_patchdd_partial, C73_refuted, C73_patchdd_refuted | partial. Refuted: csn started with descriptors 1 and 2 closed opens the target as descriptor 2 and writes its messages to it; patchdd with 0 and 1 closed prints its results to the destination. Proved if the standard streams are open. |
| C74 | Keys do not stay in memory | encrypt.c:hchacha20, encrypt.c:encrypt_restart, encrypt.c:encrypt_close, encrypt.c:encrypt_parse_keyspec, csn-tool.c:do_crypt, store-http.c:store_handle_params, store-http.c:store_http_new, store-http.c:store_http_free | C74_restart, C74_close, C74_keyspec_partial, C74_crypt_partial, C74_store_partial, C74_refuted, C74_store_refuted, C74_file_refuted | partial. Refuted: `key` of do_crypt (csn-tool.c:134) and of store_handle_params is never wiped; a store whose constructor fails is freed with the key; text behind an inner line break or NUL of a key file and partly read key files are not wiped. Proved for all other buffers. OpenSSL's memory, registers and the command line are not modelled. |
| C75 | Wrong usage of csn-tool fails without effects | csn-tool.c:main, csn-tool.c:do_crypt, csn-tool.c:usage | C75_usage_partial, C75_refuted | partial. Refuted: a command that does not exist prints the usage text and exits with status 0. Absence of effects is proved for all unusable command lines, the exit status for the others. |
| C76 | Only missing chunks are fetched | store.c:store_chain_get_chunk, store-local.c:store_local_get_chunk, target.c:target_store_get_chunk, store-http.c:store_http_get_chunk, main.c:entry_cb | C76_only_missing_partial, C76_once_partial, C76_downloads_partial, C76_refuted | partial. Refuted: a local store is given up when an entry of its side-loaded index lies beyond the end of its file, and chunks it has are then looked for elsewhere. Proved if stores that count as having a chunk have no such entries, system calls and allocations do not fail, chunks with the same ID have the same length, and no store has data with a chunk's hash but another length. |
| C77 | What csn-tool publishes, csn reproduces | csn-tool.c:do_crypt, csn-tool.c:encrypt_one, encrypt.c:encrypt_do, store-http.c:store_http_get_chunk, store-http.c:store_handle_params, main.c:main | C77_encrypted, C77_plain | proved. Composition of C48, C49, C26, C36 and C28 through the files and the server's answers. No data of a chunk's length, and no data a store could return, may have a chunk's ID without being the chunk. The decompressor is any function with the behaviour `FrameOf` on the chunk files; the key stream is the one of the model of encrypt.c (C42). |
| C78 | What a caller of the chunker may rely on | chunker.c:chunker_scan, chunker.c:chunker_reset, chunker.c:chunker_get_id, chunker.c:chunker_shall_break, chunker.c:chunker_init | C78_answers, C78_determined, C78_stuck_until_reset, C78_pieces | proved. chunker_get_id is always followed by a reset, as in all callers (an ID may be taken once per chunk; what OpenSSL does with a finished context is not modelled). Assumes a positive discriminator (C06). |
| C79 | Other files make no difference and are left alone | main.c:main, main.c:csn, main.c:casync, main.c:append_store_from_arg, store-local.c:store_local_new, store-http.c:store_handle_params, encrypt.c:encrypt_parse_keyspec, target.c:target_new, patchdd.c:main | C79_other_files, C79_other_files_patchdd | proved. Files that libraries read on their own (certificates, configuration) are outside the model; environment variables are parameters of the model. csn-tool is left out: with a list of names its files are named by the list. |
| C80 | Messages do not reveal keys | store.c:store_chain_free, store-http.c:store_http_new, store-http.c:store_handle_params, encrypt.c:encrypt_parse_keyspec, encrypt.c:encrypt_init, encrypt.c:encrypt_restart, csn-tool.c:do_crypt, csn-tool.c:encrypt_one, main.c:append_store_from_arg, utils.c:slurp_file, utils.c:parse_hex | C80_stores_partial, C80_crypt_partial, C80_refuted, C80_refused, C80_rejected | partial. Refuted: the name of a store is its argument, so a key given as `#encrypt=key:...` is printed by the statistics at the end of every run; the whole argument is also printed if the store cannot be set up. Proved for keys taken from files and environment variables, for the messages of encrypt.c, of the construction of stores and their statistics, and of csn-tool. Messages of requests are not part of this model; none of them has access to the key (they print the base URL, which has no parameters, and store names at level debug). |
| C81 | Failures are reported, and only failures | main.c:main, main.c:csn, main.c:casync, main.c:entry_cb, caibx.c:caibx_load_header, caibx.c:caibx_iterate_entries, chunker.c:chunker_scan_fd, store-local.c:store_local_new, store-local.c:store_local_get_chunk, store-http.c:store_http_get_chunk, store-http.c:store_http_data_cb, store-http.c:store_http_new, store.c:store_chain_get_chunk, target.c:target_write, target.c:target_check_chunk, csn-tool.c:do_crypt, csn-tool.c:encrypt_one, patchdd.c:main, utils.c:slurp_file, sha.c:sha_once | C81_reported_partial, C81_failure, C81_list_partial, C81_refuted, C81_known | partial. Refuted for csn-tool with names from standard input: fgets returns a null pointer at the end of the input and when a read fails, so a failed read ends the list silently and the exit status is EXIT_SUCCESS. Proved for everything else; C81_failure (unsuccessful ends) for all programs. Data that is merely not wanted (404 and 410, a target chunk that differs while resuming) is no failure; results that the code does not look at (close, usleep, ZSTD_initDStream, the SHA-256 functions of the chunker) are outside the model, and so are a write to stderr that fails and a negative result of EVP_Cipher (C84). |
| C82 | Files that other processes change | main.c:entry_cb, store.c:store_chain_get_chunk, store-local.c:store_local_get_chunk, store-local.c:store_scan, target.c:target_get_chunk, target.c:target_check_chunk, target.c:target_write, store-http.c:store_http_get_chunk | C82_writes_partial, C82_trusted, C82_http, C82_order, C82_success, C82_rescan, C82_no_ub, C82_refuted, C82_refuted_side, C82_refuted_target, C82_covers, C82_run | partial. Refuted: data of a scanned seed file, of a seed file whose index entry was checked once, and of the target as a store is not compared again, so a file that changes in between makes csn write wrong data and report success. Proved: everything else; the hashes for chunks that were compared, in particular for all runs with HTTP stores only. In a model of the loop in which every read of a file gives arbitrary bytes; C82_covers shows that every run of the model of the whole program, killed or not, is one of these, with the same writes, and C82_run draws the conclusion for it, for local stores that are the target under another name as well. |
| C83 | What patchdd reports | patchdd.c:main, patchdd.c:memcmp_offset | C83_printed_iff_success, C83_count, C83_all_skipped | proved. The percentage and the elapsed time printed beside the number are not modelled (the percentage of an empty source is 0.0/0, printed as nan). |
| C84 | csn-tool when OpenSSL fails | encrypt.c:encrypt_init, encrypt.c:encrypt_restart, encrypt.c:encrypt_do, csn-tool.c:encrypt_one, csn-tool.c:do_crypt | C84_same, C84_one_partial, C84_list_partial, C84_broken_partial, C84_refuted | partial. Refuted: EVP_Cipher returns a number <= 0 (documented) or -1 (OpenSSL 3) when it fails, encrypt_do looks for 0 only; csn-tool then stores the chunk unencrypted under the name of the encrypted one and succeeds. Proved for failures reported with 0; C84_same connects the model with that of C46-C49. On the side of csn such data is refused like any wrong data (C19, C82_http). |
| C85 | Memory used for downloads | store-http.c:decode_buffer_absorb, store-http.c:store_http_data_cb, store-http.c:handle_data, store-http.c:store_http_get_chunk | C85_twice_the_body_partial, C85_frames_partial, C85_refuted | partial. Refuted: ZSTD_decompressStream returns at the end of a frame, and handle_data calls it once per fragment, so a body of many small frames accumulates in the decode buffer, which has no limit and is not given back. Proved: both bounds. |
| C86 | One more store never hurts | store.c:store_chain_get_chunk, store.c:store_chain_new, store.c:store_chain_append, main.c:append_store_from_arg, main.c:csn, main.c:entry_cb, main.c:main | C86_same, C86_unused, C86_success, C86_empty_region | proved. Without the condition on empty regions it is wrong (C86_empty_region): csn accepts that nobody has the chunk of an empty region, but a store that has one for its ID makes the run fail. The additional store has no key, and memory does not run out: reading a key and allocations would take from the schedules. |
| C87 | Several runs on the same target help each other | main.c:entry_cb, target.c:target_check_chunk, target.c:target_get_chunk, target.c:target_write, store.c:store_chain_get_chunk | C87_writes, C87_stays, C87_success, C87_remote | proved. In the model of C82 (arbitrary reads), with the accesses of all processes to the target in one history in which reads deliver what is there. Indices as in C58 (neighbours with the same ID have the same length), no collisions within a region's length. Local stores must be right when they hand out something (C82 says when they compare); C87_remote is without local stores. |
| C88 | A failing kernel hash interface lets no wrong data through | sha.c:sha_once, chunk.h:chunk_calculate_id, target.c:target_check_chunk, store-local.c:store_local_get_chunk, store-http.c:store_http_get_chunk, main.c:entry_cb | C88_digest, C88_once, C88_writes, C88_success, C88_no_ub, C88_may_refuse | proved. In the model of C82, with the digests as further answers of the machine; C88_digest and C88_once say that sha_once gives no others (the driver computes SHA-256). The loop of the model may get any number of wrong digests. C87 holds for such runs, too. The condition on shorter data is needed (example with noZeros); what is longer and ends with the chunk is taken by the stores and refused by the comparison of lengths in main.c:61. That right data may be refused: C88_may_refuse. |
| C89 | Several runs of csn-tool in the same directory | csn-tool.c:encrypt_one, csn-tool.c:do_crypt, utils.c:writeall, utils.c:slurp_file | C89_bytes, C89_kept, C89_parts, C89_others, C89_success_partial, C89_lists, C89_covers, C89_refuted | partial. Refuted in the last point, in two ways: a run that looked for the output before another run created it empties the other's finished file, and if it then fails or is killed, the output is incomplete although the other run reported success (there is no O_EXCL and no rename); and a run that finds an output which another run is still writing reports success at once. Proved: the other points, and the last one if no run that created the output failed or was killed. In a model in which everything that depends on files is an answer, with the accesses of all processes in one history; C89_covers shows that the runs of the model of C46-C49 are among these. access reports the truth (a failing access is a missing file for csn-tool, which then overwrites it), inputs are read at one instant, and no input is the output of another conversion. |
| C90 | patchdd when other processes change its files; csn and patchdd on the same target | patchdd.c:main, patchdd.c:memcmp_offset, main.c:csn, utils.c:preadall, utils.c:pwriteall | C90_rounds, C90_source, C90_success, C90_writes, C90_stays, C90_csn, C90_patchdd, C90_covers | proved. In a model of patchdd in which everything that depends on files is an answer, with the accesses to the target of all processes, csn's as in C87, in one history. C90_covers shows that the runs of the model of C50-C52 are among these. For the second part the sources must not change and have nothing but bytes of the image; an example shows that patchdd reports success with a mixture of two images if its source changes. Single bytes of the target are read and written atomically. |
| C91 | What an edit costs | chunker.c:chunker_scan, chunker.c:chunker_scan_fd, store-local.c:store_local_new, store-local.c:store_local_get_chunk, store.c:store_chain_get_chunk, main.c:csn | C91_before, C91_meet, C91_asked, C91_few, C91_update | proved. The old version is a store without an index of its own, so that it is scanned with the parameters of the index (with an index beside it C76 applies). That there is a boundary where the common end starts is a hypothesis about the two files; C91_meet says when it arises. It need not arise at all: without a cut by the hash chunks of maximal size follow each other in both versions. Conditions on the machine as in C36 and C76. |
| C92 | Images that are made of chunks | chunker.c:chunker_scan, chunker.c:chunker_shall_break, chunker.c:chunker_scan_fd, store-local.c:store_local_get_chunk, test/e2e/csn_test.py:Chunk.make | C92_concat, C92_windows, C92_made, C92_image, C92_zeros, C92_scan, C92_store | proved. The comment in the test says a window of one byte and zeros never cuts; proved for all bytes (C92_windows), although it is not needed, because the minimal size is larger than the window. A store smaller than ten twelfths of the average size is excluded (C57). |
| C93 | Memory used for chunk indices | index.c:index_init, index.c:index_insert, store-local.c:store_scan, store-local.c:store_sideload_index, store-local.c:store_local_get_chunk, target.c:target_add_chunk, target.c:target_as_store, main.c:entry_cb | C93_index, C93_new, C93_store, C93_limit, C93_target, C93_help | proved. What the index occupies at a time; while it grows, realloc may hold the old and the new block. For a local store the file must not change (nor may another process change it) between creation and the last request. C93_target speaks of the state after any number of entries, so of every moment between two entries, also in runs that are killed. |
| C94 | What csn-tool can do to the files when calls fail | csn-tool.c:main, csn-tool.c:do_crypt, csn-tool.c:encrypt_one, utils.c:slurp_file, utils.c:writeall | C94_modified, C94_made, C94_left | proved. C47 without its condition that no call fails. The last point (C94_left) is for one conversion into a file that is regular or missing; C94_modified and C94_made are for all runs. As in C46-C49 there are no symbolic links and no other processes (C89). |
| C95 | The discriminator in floating point arithmetic | chunker.c:CA_CHUNKER_DISCRIMINATOR_FROM_AVG, chunker.c:chunker_init, chunker.c:chunker_shall_break, chunker.c:chunker_params_set | C95_division, C95_conversion, C95_defined, C95_scene, C95_no_scan, C95_rounding, C95_value, C95_monotone, C95_usable, C95_close, C95_powers, C95_default, C95_uncut, C95_machines_differ | proved. Doubles as multiples of 2^-1074, rounding to nearest, ties to even (Spec/Double says what that is, without an algorithm); size_t has 64 bits. Not modelled: other rounding modes, x87 arithmetic with more bits, overflow (no value here is near it). C95_usable gives the hypotheses of all scan theorems (ScanEnv) and C95_scene those of the theorems about runs (Scene), so these hold with the formula as computed. C95_close bounds the difference; that there is none at all for averages up to 9115536 was seen by trying all of them outside Lean, which is not a proof. |
| C96 | A server that is out of order is asked eleven times at most | store-http.c:retried_curl_easy_perform, store-http.c:increase_error_counter, store-http.c:store_http_get_chunk, store.c:store_chain_get_chunk | C96_all_down, C96_each, C96_given_up, C96_patient, C96_exactly | proved. The promise of the manual page (a store is disabled after a number of transient failures). Waiting is what the program sleeps; the time curl itself takes is not modelled. That all attempts at the server fail is a hypothesis about the schedule of network results of that store's URL only; results for other URLs are arbitrary. That such a store does no harm if another one has the chunks is contained in C36, which asks nothing of the stores that are not the source. C96_patient supposes that memory suffices (the store fails at once if the URL cannot be copied); other errors of curl, such as a certificate that is not accepted, are not borne even once (example). |
