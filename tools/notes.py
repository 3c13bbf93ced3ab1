NOTES.update({
    "C11": ("proved", "For any qsort and bsearch meeting the C standard's contract (Lib.Conforms)."),
    "C12": ("proved", ""),
    "C15": ("proved", "Reads that report the end of the file too early are excluded; everything else (errors, short reads, EINTR, kills) is covered."),
    "C16": ("proved", ""),
    "C17": ("partial", "Refuted: an index entry beyond the end of the store file makes the store fail for good, and an incomplete index hides chunks. Proved for unusable indices and for entries whose region exists but does not match."),
    "C18": ("proved", "Stronger: over its whole life a store scans its file at most once."),
    "C57": ("partial", "Refuted: files below 10/12 of an average chunk, and side-load indices without entries or with an empty entry, abort the program. Proved for all other files."),
    "C13": ("proved", "For any stores, including ones that change behaviour over time; C13_whole_run: on the log of whole runs of csn and casync every answer comes from the first store that delivers, or after all working stores were asked."),
    "C14": ("proved", "For single chains with arbitrary stores, and on the log of whole runs of csn and casync without any assumption."),
    "C19": ("proved", "For the whole life of a store; decompressors within their buffer contract (Sane); fragments below 4 GiB."),
    "C20": ("proved", ""),
    "C21": ("proved", "FrameOf states what the decompressor has to do with pieces of a frame; memory must suffice."),
    "C22": ("partial", "Refuted: the code also waits after the tenth attempt, 52.6 s in total. Everything else is proved."),
    "C23": ("partial", "Refuted for failures in the middle of a body: nothing is reset before the next attempt. Proved for failures before any body data."),
    "C24": ("proved", "A response counts as processed completely when the decompressor accepted all of it, even if the result is not the chunk."),
    "C25": ("proved", ""),
    "C26": ("proved", "Both for complete frames in different fragmentations, and for arbitrary responses with the same fragmentation."),
    "C40": ("partial", "Refuted for inputs of 4 GiB and more (length truncated to 32 bits). Proved below; OpenSSL 3 refuses empty input."),
    "C41": ("partial", "Proved for inputs below 4 GiB; larger ones are truncated (C40_huge_refuted)."),
    "C42": ("proved", "Against a specification written from RFC 8439 and the XChaCha draft, which reproduces their test vectors; OpenSSL's ChaCha20 itself is modelled, not verified."),
    "C43": ("proved", "A key file's text is cut at its last line break, see C45."),
    "C44": ("proved", ""),
    "C45": ("partial", "Refuted: a text with an inner line break and none at the end is cut off. Proved for all other texts."),
    "C27": ("partial", "Refuted: an entry repeating the ID of the one before with another length is written unchecked. Proved when neighbouring entries with the same ID have the same length, the table ascends (C09) and no local store is the target under another name (C28_refuted)."),
    "C28": ("partial", "Refuted when a local store is the target under another path. Proved for all other stores, servers and schedules."),
    "C29": ("proved", "For stores and index that are not the target itself under another name."),
    "C30": ("partial", "Refuted with C27's index. Proved when neighbouring entries with the same ID have the same length; every stop point is covered."),
    "C31": ("partial", "Refuted: with a read error on the target a matching region is written again. Proved for runs without failing system calls; for any schedule, C31_any_schedule_partial says what is skipped, queried and written."),
    "C32": ("partial", "Refuted with C27's index. Proved when neighbouring entries with the same ID have the same length and the entries before k are not empty."),
    "C33": ("partial", "Refuted with C27's index: the second run even fails. Proved when neighbouring entries with the same ID have the same length and no entry is empty."),
    "C34": ("proved", ""),
    "C37": ("partial", "Nothing is modified and there is no success; but another store may make the run abort instead of failing (refuted)."),
    "C56": ("partial", "Refuted: nothing is ever flushed, so after any run a power cut may leave the old contents. Proved only for a target already in sync."),
    "C58": ("partial", "Refuted with C27's index; the hash is proved when neighbouring entries with the same ID have the same length, everything else always."),
    "C60": ("partial", "Refuted: over-read with C27's index, double free after a failing rescan. Proved without such indices and, if a local store is given together with an index that is wrong about it, without failing system calls or allocations."),
    "C50": ("proved", "For every positive transfer size (the code's is 1 MiB); includes that patchdd succeeds when nothing fails."),
    "C51": ("proved", "In terms of positions covered by writes, as the kernel may split a write."),
    "C52": ("proved", "Durability against a specification of what a power cut may leave (Spec/Durable)."),
    "C54": ("partial", "Refuted: when the kernel interface fails after a transfer, only the unsent rest is hashed. Proved when the call does not disable the interface, and for failures before any transfer."),
    "C55": ("partial", "Refuted from 42949673 entries on (32 bit product). Range, drawing and when it is shown are proved always, the rest below that size."),
    "C59": ("proved", ""),
    "C46": ("partial", "The derived name is proved to be an involution always. Refuted: names with four extra characters before .cacnk are accepted, their derived names are not. Same ID proved for chunk names."),
    "C47": ("partial", "Refuted when the existence check fails for another reason than absence. Proved for every run without failing calls (and one conversion with any failure but that one) and every stop point. Symbolic links and concurrent changes are not modelled."),
    "C48": ("partial", "Refuted: an output left incomplete by a killed run is taken for a success later. Proved for outputs that did not exist and inputs below 4 GiB, for single files and lists; an existing regular output is as before or holds the conversion; conversely success is proved when nothing fails."),
    "C49": ("partial", "Refuted: four arbitrary characters between digits and .cacnk are accepted. The exact set of accepted names is proved."),
    "C38": ("proved", "Arguments are C strings. Includes that the chain csn builds has one store per argument, in order, made from it."),
    "C39": ("partial", "Refuted: csn uses CSN_KCAPI_DRIVER, casync does not; --help with further words goes on without a store and dereferences NULL. Also, casync may print an uninitialised number as hits of a store. Proved as equality of result and effects up to these numbers for every command line with stores, unless csn cannot use the kernel driver; exactly if there are not more stores than initial slots. The behaviour of getopt_long is modelled, not part of the repository."),
    "C35": ("proved", "For every run, as long as the target has not failed as a store; it fails only if a read of it fails or offsets reach 2^63. Also that no later store is asked for an ID twice. A run with a failing read of the target is given, in which a chunk is fetched again."),
    "C36": ("proved", "C36_every_chunk_returned and C36_blame: if csn can start (arguments usable, system calls and allocations do not fail, block device large enough), a run only fails when the chain has just failed to return the first chunk not on the target with the length demanded; a run in which the chain returns what it is asked for succeeds. Neighbouring regions with the same ID must have the same length (a chain cannot return both). C36_available_partial says from contents of stores when chunks are returned: chunks found by scanning a local store or through its side-loaded index, hosted by a politely answering HTTP server (up to nine transient failures in a row) or already on the target; it assumes no store has data with a chunk's hash but another length."),
    "C63": ("partial", "Refuted: casync prints uninitialised counters for stores behind the initial slots. Proved for csn and for the other counters of casync, without assumptions on files, servers and schedules; the number of skipped chunks for start conditions as in C31."),
    "C61": ("proved", "For csn, casync, patchdd and csn-tool. Assumes BUFSIZ is not zero. Together with C62: enough calls lead to the one outcome unless a server is waited for until a kill."),
    "C62": ("proved", "The number may depend on the start. Assumes that the C library's qsort permutes its array (csn, casync) and that patchdd's transfer size is not zero. A wait for a server ends when the network schedule says so."),
    "C64": ("proved", "No assumptions on files, servers and schedules. What libcurl does within one transfer (name lookup, redirects) is not modelled."),
    "C65": ("partial", "Refuted: the message for a side-load index with other parameters (store-local.c:70) does not fit the buffer; half of it, the line end and the colour reset are lost. Proved for the other 247 calls and all arguments, and in general for messages that fit. How numbers are printed is a parameter; the table of calls is part of the model."),
    "C66": ("partial", "Refuted for empty data (prints an uninitialised array); proved for all other data. The function is never called."),
    "C67": ("proved", "Initialising twice without sha_kcapi_deinit loses a descriptor; the tools do not do that."),
    "C68": ("partial", "Refuted: an unknown benchmark ends with status 0, and the chunker benchmark does not check malloc. The rest is proved. The rate, a floating point number, is not modelled."),
    "C69": ("proved", "For all pairs of successful runs whose indices describe the same regions; condition on neighbouring equal IDs as in C27, and stores that are the target under another name are excluded (Scene.own)."),
    "C70": ("proved", "Over an inductively defined sequence of runs of any length; conditions on the index as in C32. Failing system calls are excluded (a failing read ends skipping, C31_refuted)."),
    "C71": ("partial", "Refuted: with standard output closed the output file gets descriptor 1 and is not closed. Proved if standard output is open; otherwise nothing but descriptor 1 is left over. In a model in which all data are arbitrary answers."),
    "C72": ("partial", "Refuted: index, target and local stores are never closed, the target is not freed, cipher contexts of repeated encrypt= parameters are lost, a failing rescan leads to a double free at the end, failing constructors keep descriptors and blocks. Proved: the bounds, no misuse up to the end of the synchronisation, and exactly what is left at the end if no local store failed."),
    "C73": ("partial", "Refuted: csn started with descriptors 1 and 2 closed opens the target as descriptor 2 and writes its messages to it; patchdd with 0 and 1 closed prints its results to the destination. Proved if the standard streams are open."),
    "C74": ("partial", "Refuted: `key` of do_crypt (csn-tool.c:134) and of store_handle_params is never wiped; a store whose constructor fails is freed with the key; text behind an inner line break or NUL of a key file and partly read key files are not wiped. Proved for all other buffers. OpenSSL's memory, registers and the command line are not modelled."),
    "C75": ("partial", "Refuted: a command that does not exist prints the usage text and exits with status 0. Absence of effects is proved for all unusable command lines, the exit status for the others."),
    "C76": ("partial", "Refuted: a local store is given up when an entry of its side-loaded index lies beyond the end of its file, and chunks it has are then looked for elsewhere. Proved if stores that count as having a chunk have no such entries, system calls and allocations do not fail, chunks with the same ID have the same length, and no store has data with a chunk's hash but another length."),
    "C77": ("proved", "Composition of C48, C49, C26, C36 and C28 through the files and the server's answers. No data of a chunk's length, and no data a store could return, may have a chunk's ID without being the chunk. The decompressor is any function with the behaviour `FrameOf` on the chunk files; the key stream is the one of the model of encrypt.c (C42)."),
    "C78": ("proved", "chunker_get_id is always followed by a reset, as in all callers (an ID may be taken once per chunk; what OpenSSL does with a finished context is not modelled). Assumes a positive discriminator (C06)."),
    "C79": ("proved", "Files that libraries read on their own (certificates, configuration) are outside the model; environment variables are parameters of the model. csn-tool is left out: with a list of names its files are named by the list."),
    "C80": ("partial", "Refuted: the name of a store is its argument, so a key given as `#encrypt=key:...` is printed by the statistics at the end of every run; the whole argument is also printed if the store cannot be set up. Proved for keys taken from files and environment variables, for the messages of encrypt.c, of the construction of stores and their statistics, and of csn-tool. Messages of requests are not part of this model; none of them has access to the key (they print the base URL, which has no parameters, and store names at level debug)."),
    "C81": ("partial", "Refuted for csn-tool with names from standard input: fgets returns a null pointer at the end of the input and when a read fails, so a failed read ends the list silently and the exit status is EXIT_SUCCESS. Proved for everything else; C81_failure (unsuccessful ends) for all programs. Data that is merely not wanted (404 and 410, a target chunk that differs while resuming) is no failure; results that the code does not look at (close, usleep, ZSTD_initDStream, the SHA-256 functions of the chunker) are outside the model, and so are a write to stderr that fails and a negative result of EVP_Cipher (C84)."),
    "C82": ("partial", "Refuted: data of a scanned seed file, of a seed file whose index entry was checked once, and of the target as a store is not compared again, so a file that changes in between makes csn write wrong data and report success. Proved: everything else; the hashes for chunks that were compared, in particular for all runs with HTTP stores only. In a model of the loop in which every read of a file gives arbitrary bytes; C82_covers shows that every run of the model of the whole program, killed or not, is one of these, with the same writes, and C82_run draws the conclusion for it, for local stores that are the target under another name as well."),
    "C83": ("proved", "The percentage and the elapsed time printed beside the number are not modelled (the percentage of an empty source is 0.0/0, printed as nan)."),
    "C84": ("partial", "Refuted: EVP_Cipher returns a number <= 0 (documented) or -1 (OpenSSL 3) when it fails, encrypt_do looks for 0 only; csn-tool then stores the chunk unencrypted under the name of the encrypted one and succeeds. Proved for failures reported with 0; C84_same connects the model with that of C46-C49. On the side of csn such data is refused like any wrong data (C19, C82_http)."),
    "C85": ("partial", "Refuted: ZSTD_decompressStream returns at the end of a frame, and handle_data calls it once per fragment, so a body of many small frames accumulates in the decode buffer, which has no limit and is not given back. Proved: both bounds."),
    "C86": ("proved", "Without the condition on empty regions it is wrong (C86_empty_region): csn accepts that nobody has the chunk of an empty region, but a store that has one for its ID makes the run fail. The additional store has no key, and memory does not run out: reading a key and allocations would take from the schedules."),
    "C87": ("proved", "In the model of C82 (arbitrary reads), with the accesses of all processes to the target in one history in which reads deliver what is there. Indices as in C58 (neighbours with the same ID have the same length), no collisions within a region's length. Local stores must be right when they hand out something (C82 says when they compare); C87_remote is without local stores."),
    "C88": ("proved", "In the model of C82, with the digests as further answers of the machine; C88_digest and C88_once say that sha_once gives no others (the driver computes SHA-256). The loop of the model may get any number of wrong digests. C87 holds for such runs, too. The condition on shorter data is needed (example with noZeros); what is longer and ends with the chunk is taken by the stores and refused by the comparison of lengths in main.c:61. That right data may be refused: C88_may_refuse."),
    "C89": ("partial", "Refuted in the last point, in two ways: a run that looked for the output before another run created it empties the other's finished file, and if it then fails or is killed, the output is incomplete although the other run reported success (there is no O_EXCL and no rename); and a run that finds an output which another run is still writing reports success at once. Proved: the other points, and the last one if no run that created the output failed or was killed. In a model in which everything that depends on files is an answer, with the accesses of all processes in one history; C89_covers shows that the runs of the model of C46-C49 are among these. access reports the truth (a failing access is a missing file for csn-tool, which then overwrites it), inputs are read at one instant, and no input is the output of another conversion."),
    "C90": ("proved", "In a model of patchdd in which everything that depends on files is an answer, with the accesses to the target of all processes, csn's as in C87, in one history. C90_covers shows that the runs of the model of C50-C52 are among these. For the second part the sources must not change and have nothing but bytes of the image; an example shows that patchdd reports success with a mixture of two images if its source changes. Single bytes of the target are read and written atomically."),
    "C91": ("proved", "The old version is a store without an index of its own, so that it is scanned with the parameters of the index (with an index beside it C76 applies). That there is a boundary where the common end starts is a hypothesis about the two files; C91_meet says when it arises. It need not arise at all: without a cut by the hash chunks of maximal size follow each other in both versions. Conditions on the machine as in C36 and C76."),
    "C92": ("proved", "The comment in the test says a window of one byte and zeros never cuts; proved for all bytes (C92_windows), although it is not needed, because the minimal size is larger than the window. A store smaller than ten twelfths of the average size is excluded (C57)."),
    "C93": ("proved", "What the index occupies at a time; while it grows, realloc may hold the old and the new block. For a local store the file must not change (nor may another process change it) between creation and the last request. C93_target speaks of the state after any number of entries, so of every moment between two entries, also in runs that are killed."),
    "C94": ("proved", "C47 without its condition that no call fails. The last point (C94_left) is for one conversion into a file that is regular or missing; C94_modified and C94_made are for all runs. As in C46-C49 there are no symbolic links and no other processes (C89)."),
    "C95": ("proved", "Doubles as multiples of 2^-1074, rounding to nearest, ties to even (Spec/Double says what that is, without an algorithm); size_t has 64 bits. Not modelled: other rounding modes, x87 arithmetic with more bits, overflow (no value here is near it). C95_usable gives the hypotheses of all scan theorems (ScanEnv) and C95_scene those of the theorems about runs (Scene), so these hold with the formula as computed. C95_close bounds the difference; that there is none at all for averages up to 9115536 was seen by trying all of them outside Lean, which is not a proof."),
    "C96": ("proved", "The promise of the manual page (a store is disabled after a number of transient failures). Waiting is what the program sleeps; the time curl itself takes is not modelled. That all attempts at the server fail is a hypothesis about the schedule of network results of that store's URL only; results for other URLs are arbitrary. That such a store does no harm if another one has the chunks is contained in C36, which asks nothing of the stores that are not the source. C96_patient supposes that memory suffices (the store fails at once if the URL cannot be copied); other errors of curl, such as a certificate that is not accepted, are not borne even once (example)."),
})
