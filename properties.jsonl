{"id": "C01", "title": "Chunk boundaries depend only on content and parameters", "statement": "Scanning a file for chunks reports exactly the chunks of casync's content-defined chunking rule: a chunk ends at the first position that is at least 48 bytes into the chunk and either has reached the maximum size or has reached the minimum size and has a buzhash of the last 48 bytes congruent to d-1 modulo the discriminator d. The result does not depend on how read() splits the file or on EINTR.", "quantifier": "every file content, every accepted chunker parameter set, every schedule of short and interrupted reads", "why_tests_cant": "the set of contents and of read fragmentations is infinite; tests check one pseudo-random stream with one fragmentation", "anchors": ["chunker.c:chunker_scan", "chunker.c:chunker_scan_fd", "chunker.c:chunker_shall_break", "utils.h:rol32"]}
{"id": "C02", "title": "Chunks tile the file", "statement": "When a scan succeeds, the reported chunks are non-empty, start where the previous one ended, begin at offset 0 and end at the end of the file: their concatenation is the file.", "quantifier": "every file content, parameter set and read schedule", "why_tests_cant": "one missed leftover or off-by-one needs a particular alignment of file size, window size and read size", "anchors": ["chunker.c:chunker_scan_fd"]}
{"id": "C03", "title": "Chunk size bounds", "statement": "Every chunk a scan reports is at most max(max_size,48) bytes long and every chunk but the last is at least max(min_size,48) bytes long.", "quantifier": "every file content, parameter set and read schedule", "why_tests_cant": "the extreme cases need specific data at specific positions", "anchors": ["chunker.c:chunker_shall_break", "chunker.c:chunker_scan"]}
{"id": "C04", "title": "A scanned chunk's ID is the SHA-256 of exactly its bytes", "statement": "For every reported chunk (offset, len, id), id is the SHA-256 digest of the len bytes of the file starting at offset.", "quantifier": "every file content, parameter set and read schedule", "why_tests_cant": "hash context updates are spread over several code paths whose combination depends on fragmentation", "anchors": ["chunker.c:chunker_scan", "chunker.c:chunker_get_id", "chunker.c:chunker_reset"]}
{"id": "C05", "title": "Chunking resynchronises after a common boundary", "statement": "If two files agree from some position on and that position is a chunk boundary in both, then all chunks after it are the same (same lengths and IDs) in both files.", "quantifier": "every pair of files sharing a suffix that begins at a chunk boundary of both", "why_tests_cant": "this is a relation between all pairs of inputs", "anchors": ["chunker.c:chunker_reset", "chunker.c:chunker_scan_fd"]}
{"id": "C06", "title": "Scanning has defined behaviour for every parameter set an index file can carry", "statement": "For every parameter set the index loader accepts, scanning a local store terminates without undefined behaviour (no division by zero, no out-of-range float conversion) and each scanner call makes progress.", "quantifier": "every accepted (min, avg, max) and every file content", "why_tests_cant": "parameters come from an untrusted-format file; the failing values are isolated points of a 96-bit space", "anchors": ["chunker.c:chunker_init", "chunker.c:CA_CHUNKER_DISCRIMINATOR_FROM_AVG", "chunker.c:chunker_params_set"]}
{"id": "C07", "title": "The index loader accepts exactly the well-formed files", "statement": "Loading a .caibx succeeds exactly when the file is 104+40n bytes long, carries the index and table magics, a header length of at least 48, only the supported feature bits, sizes with min<avg<max<2^32, and a correct footer; it then reports exactly those sizes and n. Otherwise it reports an error.", "quantifier": "every byte string as index file, every schedule of short and interrupted reads", "why_tests_cant": "acceptance is a predicate over all byte strings", "anchors": ["caibx.c:caibx_load_header", "caibx.c:load_index_header", "caibx.c:validate_table_header", "caibx.c:validate_table_footer", "chunker.c:chunker_params_set"]}
{"id": "C08", "title": "Index files round-trip", "statement": "An index written in the casync layout from sizes (min,avg,max) and chunks (len_i,id_i) is read back as exactly those sizes and, in order, the segments (offset_i,len_i,id_i) with offset_i the sum of the earlier lengths.", "quantifier": "every valid parameter set and every list of chunks with 0 < len < 2^32 and total below 2^64", "why_tests_cant": "needs every list length and every 64-bit field value", "anchors": ["caibx.c:caibx_iterate_entries", "utils.h:unp64le"]}
{"id": "C09", "title": "Iterating an index delivers every entry", "statement": "If iterating an index reports success, every table entry was handed to the consumer exactly once, in file order, with offset equal to the end of the previous entry and length equal to the difference of end offsets.", "quantifier": "every index file content and every consumer", "why_tests_cant": "silent skips only show for entries whose 64-bit difference exceeds 32 bits or runs backwards", "anchors": ["caibx.c:caibx_iterate_entries"]}
{"id": "C10", "title": "Reading an index is memory-safe and total", "statement": "For an arbitrary byte string used as index, loading and iterating it always ends and never performs undefined behaviour or trips an assertion by itself.", "quantifier": "every byte string and every read schedule", "why_tests_cant": "adversarial inputs are unbounded", "anchors": ["caibx.c:caibx_load_header", "caibx.c:caibx_iterate_entries"]}
{"id": "C11", "title": "Chunk index behaves like a multimap", "statement": "After any interleaving of insertions and lookups on a chunk index, looking up an ID returns an entry inserted with that ID (offset and length as inserted) if there is one, and nothing otherwise.", "quantifier": "every finite history of insertions and lookups, any conforming qsort and bsearch", "why_tests_cant": "the lazily re-sorted array depends on the whole history of operations", "anchors": ["index.c:index_insert", "index.c:index_query", "index.c:index_sort"]}
{"id": "C12", "title": "Chunk index never writes out of bounds", "statement": "In every history of operations the number of entries never exceeds the allocated space, and each insertion writes inside the allocation, which grows when full.", "quantifier": "every history of insertions from every positive initial size", "why_tests_cant": "growth happens at history-dependent sizes", "anchors": ["index.c:index_init", "index.c:index_insert"]}
{"id": "C13", "title": "Stores are consulted in command-line order and the first hit wins", "statement": "Querying the store chain asks the still-active stores in the order they were appended, stops at the first one that returns data, returns its answer, and reports 'not found' if none does.", "quantifier": "every list of stores, every behaviour of each store, every query sequence", "why_tests_cant": "stores' answers are arbitrary and history dependent", "anchors": ["store.c:store_chain_get_chunk", "store.c:store_chain_append"]}
{"id": "C14", "title": "A failed store is never consulted again", "statement": "Once a store reports failure it is not asked for any later chunk, and the other stores keep being asked.", "quantifier": "every history of queries and failures", "why_tests_cant": "needs all histories", "anchors": ["store.c:store_chain_get_chunk"]}
{"id": "C15", "title": "A scanned local store answers exactly the chunks of its file", "statement": "A local store that scanned its (unchanging) file returns, for a chunk ID, data with that SHA-256 of the recorded length if the file's chunking contains the ID, and reports 'not found' if it does not.", "quantifier": "every file content, parameter set, query sequence and schedule", "why_tests_cant": "depends on chunking of arbitrary content and arbitrary query order", "anchors": ["store-local.c:store_scan", "store-local.c:store_local_get_chunk"]}
{"id": "C16", "title": "A side-loaded index can never make a local store return wrong data", "statement": "Whatever bytes the side-loaded index contains, data a local store returns for an ID always hashes to that ID (file unchanged during the run).", "quantifier": "every index file content, every store content, every query sequence and schedule", "why_tests_cant": "a forged or stale index is an adversarial input", "anchors": ["store-local.c:store_sideload_index", "store-local.c:store_local_get_chunk"]}
{"id": "C17", "title": "A wrong side-loaded index is discarded", "statement": "If a side-loaded index does not match the store (bit rot, wrong file, wrong parameters, malformed), it is discarded and the store behaves as if only the scan had been used.", "quantifier": "every index file content, every store content, every query sequence", "why_tests_cant": "the ways in which an index can be wrong are unbounded", "anchors": ["store-local.c:store_sideload_index", "store-local.c:store_local_get_chunk", "store-local.c:store_local_new"]}
{"id": "C18", "title": "A local store lookup rescans at most once and always ends", "statement": "Every lookup in a local store finishes after at most one rescan of the store.", "quantifier": "every store state reachable from creation, every query", "why_tests_cant": "the retry loop is an unbounded goto", "anchors": ["store-local.c:store_local_get_chunk"]}
{"id": "C19", "title": "HTTP data is only accepted when it hashes to the chunk ID", "statement": "Whatever a server sends (any status codes, bodies, fragmentation, failures, decompressor output), a chunk returned by an HTTP store hashes to the requested ID and fits the output buffer.", "quantifier": "every server behaviour, every decompressor respecting its buffer contract, every history of requests", "why_tests_cant": "the server is adversarial", "anchors": ["store-http.c:store_http_get_chunk", "store-http.c:handle_data"]}
{"id": "C20", "title": "HTTP body processing stays inside its buffers", "statement": "While processing a response, writes to the decode buffer stay inside its allocation, the decode buffer's fill never exceeds its size, and the decompressor never gets more output room than the caller's buffer has left.", "quantifier": "every sequence of body fragments and every history of requests", "why_tests_cant": "buffer state carries over between requests", "anchors": ["store-http.c:decode_buffer_absorb", "store-http.c:store_http_data_cb", "store-http.c:handle_data"]}
{"id": "C21", "title": "The way a response body is split does not matter", "statement": "If a server answers 200 with a body that is a zstd frame of a chunk that hashes to the ID and fits the buffer, the HTTP store returns exactly that chunk for every split of the body into fragments.", "quantifier": "every chunk, every fragmentation of the body, every prior history of the store", "why_tests_cant": "exponentially many fragmentations", "anchors": ["store-http.c:store_http_data_cb", "store-http.c:handle_data", "store-http.c:decode_buffer_absorb"]}
{"id": "C22", "title": "Retry policy of HTTP downloads", "statement": "A chunk download makes between 1 and 10 attempts, stops at the first attempt that is not a transient failure, and waits between attempts 200 ms doubling up to 10 s, so at most 42.6 s in total.", "quantifier": "every sequence of attempt outcomes", "why_tests_cant": "all outcome sequences", "anchors": ["store-http.c:retried_curl_easy_perform", "store-http.c:curl_is_transient_error"]}
{"id": "C23", "title": "A retried download succeeds if a later attempt delivers the chunk", "statement": "If transient failures are followed, within the retry budget, by an attempt that delivers the whole chunk, the store returns the chunk.", "quantifier": "every prefix of transient failures, including ones in the middle of the body", "why_tests_cant": "the failure point inside the body is arbitrary", "anchors": ["store-http.c:retried_curl_easy_perform", "store-http.c:store_http_get_chunk"]}
{"id": "C24", "title": "HTTP store error accounting", "statement": "The error counter equals the number of unrecovered failures (transient after all retries, or HTTP status >= 400 other than 404/410) since the last response that was processed completely; the store reports failure when it exceeds 10; 404 and 410 do not count.", "quantifier": "every sequence of requests and server behaviours", "why_tests_cant": "counter depends on the whole history", "anchors": ["store-http.c:increase_error_counter", "store-http.c:store_http_get_chunk"]}
{"id": "C25", "title": "Chunk URL layout", "statement": "The requested URL is the base URL without fragment and without one trailing slash, followed by '/' + first four hex digits + '/' + 64 lower-case hex digits + '.cacnk' (+ '.enc' when encrypted), and it always fits the URL buffer.", "quantifier": "every base URL and every chunk ID", "why_tests_cant": "string building over unbounded inputs", "anchors": ["store-http.c:set_url", "store-http.c:store_http_new", "chunk.c:chunk_format_id"]}
{"id": "C26", "title": "Encrypted stores are transparent", "statement": "Fetching an encrypted chunk from a store configured with the right key yields the same result as fetching the plain chunk from an unencrypted store, for every fragmentation.", "quantifier": "every key, ID, chunk and fragmentation", "why_tests_cant": "decryption state is split over callbacks", "anchors": ["store-http.c:decode_buffer_absorb", "encrypt.c:encrypt_restart", "encrypt.c:encrypt_do"]}
{"id": "C27", "title": "Integrity of a successful synchronisation", "statement": "If csn exits successfully, then for every entry of the index file the target's bytes at the entry's offset and length hash to the entry's chunk ID, regardless of the target's previous contents, the stores' and servers' behaviour, and short or interrupted system calls.", "quantifier": "every index, initial target, store contents, server behaviour, command line and schedule", "why_tests_cant": "security property against adversarial stores and corrupt files", "anchors": ["main.c:entry_cb", "main.c:main", "target.c:target_write", "target.c:target_check_chunk", "store.c:store_chain_get_chunk"]}
{"id": "C28", "title": "The target holds the image", "statement": "If the index describes an image (list of chunks) and no other data of the same lengths has the same chunk IDs, then after csn exits successfully the target starts with exactly that image.", "quantifier": "every image cut into chunks and every environment", "why_tests_cant": "all images and environments", "anchors": ["main.c:entry_cb"]}
{"id": "C29", "title": "Nothing outside the image is modified", "statement": "At every moment of a run, including after a crash or failure, all bytes of the target behind the image end are unchanged and no file other than the target is modified.", "quantifier": "every run and every stop point", "why_tests_cant": "needs all stop points of all runs", "anchors": ["main.c:entry_cb", "target.c:target_write", "utils.c:pwriteall"]}
{"id": "C30", "title": "Crash consistency of the target", "statement": "At every stop point of a run the target consists of: the regions of the first k entries, all hashing to their IDs; the region of entry k, holding a prefix of verified data for that ID over the old contents; and the old contents everywhere behind.", "quantifier": "every run and every stop point (kill, power cut with ordered writes, I/O failure, assertion)", "why_tests_cant": "crash points cannot be enumerated by tests", "anchors": ["main.c:entry_cb", "target.c:target_write", "utils.c:pwriteall"]}
{"id": "C31", "title": "Resumption skips exactly the verified prefix", "statement": "A run neither rewrites nor queries the stores for the longest prefix of entries whose regions of the target already hash to their IDs, and from the first non-matching entry on it writes every entry.", "quantifier": "every index and initial target", "why_tests_cant": "every prefix length and content", "anchors": ["main.c:entry_cb", "target.c:target_check_chunk"]}
{"id": "C32", "title": "Interrupted synchronisation makes forward progress", "statement": "If a run is stopped after it has begun writing entry k or a later one, a following run with the same index (with no read errors) writes nothing below the start of entry k and asks no store for the entries before k.", "quantifier": "every pair of runs and every stop point of the first", "why_tests_cant": "relates all crash points of one run to all behaviours of the next", "anchors": ["main.c:entry_cb"]}
{"id": "C33", "title": "Synchronising twice is a no-op", "statement": "Running csn again on a target that a successful run produced succeeds (absent read errors), issues no write and queries no store.", "quantifier": "every successful run", "why_tests_cant": "all runs", "anchors": ["main.c:entry_cb"]}
{"id": "C34", "title": "Consecutive repetitions of a chunk are fetched once", "statement": "Within the not-skipped part of the index, the store chain is queried exactly once per maximal run of consecutive entries with the same ID (for a run that succeeds).", "quantifier": "every index and environment", "why_tests_cant": "all index shapes", "anchors": ["main.c:entry_cb"]}
{"id": "C35", "title": "With the target as first store no chunk is fetched twice from elsewhere", "statement": "If the target is given as the first store, then in any run no later store is asked for a chunk ID that was already written to or verified on the target.", "quantifier": "every index and environment without read failures on the target", "why_tests_cant": "all repetition patterns", "anchors": ["target.c:target_add_chunk", "target.c:target_get_chunk", "target.c:target_as_store"]}
{"id": "C36", "title": "Synchronisation succeeds when all chunks are available", "statement": "If system calls do not fail, every chunk of the index has length 1..256 KiB and every chunk is returned by some active store, then the run ends successfully with the image on the target.", "quantifier": "every index, store arrangement and (error-free) schedule", "why_tests_cant": "completeness over all inputs", "anchors": ["main.c:entry_cb", "store.c:store_chain_get_chunk"]}
{"id": "C37", "title": "A failing start leaves everything untouched", "statement": "If the index cannot be loaded, the target does not exist or a store cannot be set up, csn exits with failure, no file is modified and the target is not created.", "quantifier": "every command line and file system state", "why_tests_cant": "all failure causes and states", "anchors": ["main.c:csn", "target.c:target_new", "main.c:append_store_from_arg"]}
{"id": "C38", "title": "Store argument classification", "statement": "A store argument equal to the target path denotes the target; otherwise one starting with 'http' denotes an HTTP store; otherwise it is a local path, cut at the first colon, with the rest as side-load index.", "quantifier": "every argument string", "why_tests_cant": "all strings", "anchors": ["main.c:append_store_from_arg"]}
{"id": "C39", "title": "The casync front end is equivalent to csn", "statement": "'casync --store S1 --seed S2 ... extract INDEX TARGET' behaves exactly like 'csn INDEX TARGET S1 S2 ...', with --seed-output ignored, and 'casync --help' only prints help.", "quantifier": "every list of options and every environment", "why_tests_cant": "all command lines", "anchors": ["main.c:casync", "main.c:csn"]}
{"id": "C40", "title": "Chunk encryption is its own inverse", "statement": "Encrypting twice with the same key and chunk ID gives back the input, and length is preserved.", "quantifier": "every key, ID and data", "why_tests_cant": "all data", "anchors": ["encrypt.c:encrypt_do", "encrypt.c:encrypt_restart"]}
{"id": "C41", "title": "Chunk encryption can be streamed", "statement": "Processing data in pieces after one restart gives the same result as processing it in one call, and every restart with the same nonce produces the same keystream whatever was processed before.", "quantifier": "every split of every input, every earlier history", "why_tests_cant": "all splits", "anchors": ["encrypt.c:encrypt_do", "encrypt.c:encrypt_restart"]}
{"id": "C42", "title": "Chunk encryption is XChaCha20", "statement": "The keystream is that of XChaCha20 (draft-irtf-cfrg-xchacha-03) with the user key, the first 24 bytes of the chunk ID as nonce and block counter starting at 0; the subkey derivation is HChaCha20.", "quantifier": "every key and ID", "why_tests_cant": "test vectors check single points", "anchors": ["encrypt.c:hchacha20", "encrypt.c:chacha20_rounds", "encrypt.c:encrypt_restart"]}
{"id": "C43", "title": "Key specification parsing", "statement": "A key specification is accepted exactly when it has a known scheme whose source exists and yields exactly 64 hex digits; the key is the 32 bytes these digits denote.", "quantifier": "every key specification, environment and file system", "why_tests_cant": "all strings", "anchors": ["encrypt.c:encrypt_parse_keyspec", "utils.c:parse_hex"]}
{"id": "C44", "title": "Chunk IDs round-trip through their textual form", "statement": "Formatting an ID gives 64 lower-case hex digits; parsing that (in any letter case) gives the ID back; strings with any non-hex character are rejected; parsing n digits writes exactly ceil(n/2) bytes.", "quantifier": "every ID and every string", "why_tests_cant": "all strings", "anchors": ["chunk.c:chunk_format_id", "utils.c:parse_hex", "utils.c:nibble"]}
{"id": "C45", "title": "Only trailing line breaks are removed from key files and path lists", "statement": "Reading a key file or a path line removes the trailing line break and nothing else.", "quantifier": "every string", "why_tests_cant": "the misbehaviour needs an inner line break and no trailing one", "anchors": ["utils.c:chomp"]}
{"id": "C46", "title": "csn-tool's derived output name is an involution", "statement": "Without explicit output path, X.cacnk is converted to X.cacnk.enc and X.cacnk.enc to X.cacnk; converting the derived name derives the original name again and both denote the same chunk ID.", "quantifier": "every accepted input path", "why_tests_cant": "all paths", "anchors": ["csn-tool.c:encrypt_one", "csn-tool.c:chunk_id_from_path"]}
{"id": "C47", "title": "csn-tool never modifies an existing file", "statement": "No file that exists when csn-tool crypt processes a path is modified or replaced.", "quantifier": "every invocation, file system state and stop point", "why_tests_cant": "all states and crash points", "anchors": ["csn-tool.c:encrypt_one"]}
{"id": "C48", "title": "csn-tool success means the output is the conversion of the input", "statement": "If csn-tool crypt reports success for an input then the output file holds the encryption (decryption) of the input under the key and the chunk ID taken from the file name.", "quantifier": "every key, path, content, schedule and earlier history including crashes", "why_tests_cant": "depends on earlier interrupted runs", "anchors": ["csn-tool.c:encrypt_one"]}
{"id": "C49", "title": "csn-tool only accepts chunk file names", "statement": "An input path is accepted exactly if its last component is 64 hex digits followed by .cacnk or .cacnk.enc.", "quantifier": "every path string", "why_tests_cant": "all strings", "anchors": ["csn-tool.c:chunk_id_from_path"]}
{"id": "C50", "title": "patchdd copies the source over the destination's start", "statement": "If patchdd succeeds, the destination consists of the source followed by the destination's old bytes behind the source's length; it fails without any write if the destination is smaller.", "quantifier": "every source, destination and schedule", "why_tests_cant": "all contents and sizes", "anchors": ["patchdd.c:main", "patchdd.c:memcmp_offset"]}
{"id": "C51", "title": "patchdd writes only behind the first difference of a block", "statement": "Each write of patchdd covers exactly the rest of a 1 MiB block from its first differing byte; identical blocks are not written, so patching twice writes nothing the second time.", "quantifier": "every source and destination", "why_tests_cant": "all contents", "anchors": ["patchdd.c:main", "patchdd.c:memcmp_offset"]}
{"id": "C52", "title": "patchdd crash consistency and durability", "statement": "At every stop point each byte of the destination is either its old value or the source's byte, and after success all data has been flushed to stable storage.", "quantifier": "every run and stop point", "why_tests_cant": "crash points", "anchors": ["patchdd.c:main"]}
{"id": "C53", "title": "Exact-length I/O helpers under any schedule", "statement": "The read/write helpers either transfer exactly the requested bytes at exactly the requested position or report failure; EINTR and short transfers never change the result; at every stop point a write helper has written exactly a prefix of its data.", "quantifier": "every file, offset, length and every sequence of system call results", "why_tests_cant": "all sequences of partial results", "anchors": ["utils.c:readall", "utils.c:preadall", "utils.c:writeall", "utils.c:pwriteall"]}
{"id": "C54", "title": "Hashing is independent of the backend", "statement": "The digest returned for data is its SHA-256, whether user-space or kernel crypto is used and even when the kernel interface fails and hashing falls back to user space.", "quantifier": "every data and every sequence of kernel interface results", "why_tests_cant": "failure points inside a transfer are arbitrary", "anchors": ["sha.c:sha_once"]}
{"id": "C55", "title": "Progress display", "statement": "The displayed percentage is between 0 and 100, never decreases, reaches 100 when the last entry is handled, drawing the bar stays inside its buffer, and it is drawn exactly when standard output is a terminal and debug messages are off.", "quantifier": "every number of entries", "why_tests_cant": "overflow only for very large indices", "anchors": ["ui.c:show_progress", "main.c:entry_cb"]}
{"id": "C56", "title": "Success is durable", "statement": "When csn reports success, the image is on stable storage.", "quantifier": "every run followed by a power cut", "why_tests_cant": "needs a power cut after exit", "anchors": ["main.c:main", "target.c:target_write"]}
{"id": "C57", "title": "Local stores of any size can be used", "statement": "Any regular file or block device, however small, can be given as local store without aborting the run.", "quantifier": "every file size and parameter set", "why_tests_cant": "boundary depends on size/average ratio", "anchors": ["store-local.c:store_scan", "index.c:index_init"]}
{"id": "C58", "title": "Only verified data is ever written to the target", "statement": "Every write csn issues to the target carries a piece of a chunk whose contents hash to the ID of the index entry covering that range.", "quantifier": "every run, including failing and interrupted ones", "why_tests_cant": "adversarial stores, every stop point", "anchors": ["main.c:entry_cb", "target.c:target_write"]}
{"id": "C59", "title": "Log level filtering", "statement": "A message is printed exactly if its severity is at least the configured threshold; unknown LOGLEVEL values leave the default 'info'.", "quantifier": "every level and every value of LOGLEVEL", "why_tests_cant": "all strings", "anchors": ["log.c:check_loglevel", "log.c:u_log_init"]}
{"id": "C60", "title": "Runs are free of undefined behaviour", "statement": "No run of csn, whatever the index, the stores, the servers and the results of system calls, reads or writes outside its buffers, uses or frees memory twice, or has other undefined behaviour.", "quantifier": "every run, including failing and interrupted ones", "why_tests_cant": "needs adversarial indices combined with I/O errors at particular calls", "anchors": ["main.c:entry_cb", "main.c:main", "store-local.c:local_get_chunk", "store-local.c:local_free"]}
{"id": "C61", "title": "Interrupted calls and short transfers make no difference", "statement": "From every start there is one outcome such that every run without failing system calls, however its reads and writes are split or interrupted, ends with exactly this result, these files, the same requests to servers and the same sequence of effects, or is killed after a part of them; a killed run leaves the files with exactly the bytes written so far.", "quantifier": "every start, command line, and every pattern of interrupts, short reads and short writes", "why_tests_cant": "short reads, short writes and EINTR are practically never produced by a test system", "anchors": ["utils.c:readall", "utils.c:preadall", "utils.c:writeall", "utils.c:pwriteall", "chunker.c:chunker_scan_fd", "main.c:main", "patchdd.c:main", "csn-tool.c:main"]}
{"id": "C62", "title": "Every run comes to an end", "statement": "From every start there is a number of system calls after which csn, casync, patchdd and csn-tool have ended, whatever these calls return; no program is caught in an endless loop.", "quantifier": "every start, command line and every sequence of results of system calls (interrupted ones not counted)", "why_tests_cant": "an endless loop may depend on one particular result of one call", "anchors": ["main.c:main", "store-local.c:local_get_chunk", "chunker.c:chunker_scan_fd", "patchdd.c:main", "csn-tool.c:main"]}
{"id": "C63", "title": "Final statistics", "statement": "A successful run prints at its end, and only there, how many queries the chain received, how many of them each store answered, and how many leading chunks were skipped; these numbers are exactly what happened in the run. A run that does not succeed prints none.", "quantifier": "every command line, files, servers and schedule", "why_tests_cant": "counters must be compared with what happened in every kind of run; uninitialised memory is often zero", "anchors": ["store.c:store_chain_free", "store.c:store_chain_get_chunk", "store.c:store_chain_append", "main.c:main"]}
{"id": "C64", "title": "Network use", "statement": "csn and casync use the network only while a store given as a URL is asked for a chunk; all requests are then for this chunk below this URL, at most ten with the waiting time of the retry schedule between them. Nothing is requested while starting up, and nothing at all if no store is a URL.", "quantifier": "every command line, files, servers and schedule, including failing and interrupted runs", "why_tests_cant": "absence of requests and their number over whole runs cannot be established by sampling", "anchors": ["store-http.c:retried_curl_easy_perform", "store-http.c:store_http_get_chunk", "store-http.c:set_url", "store.c:store_chain_get_chunk", "main.c:append_store_from_arg", "main.c:main"]}
{"id": "C65", "title": "Log messages are complete lines", "statement": "Every log call whose level is shown prints exactly one complete line: level (or its colour on a terminal), file, function, line number and the message with all its arguments, the colour being reset and the line ended; no argument causes undefined behaviour.", "quantifier": "every log call of the tools, all arguments, terminal or not, every threshold", "why_tests_cant": "messages are assembled in a fixed buffer that cuts silently; needs every call, most of them in error paths", "anchors": ["log.c:_u_log"]}
{"id": "C66", "title": "Hex dumps", "statement": "hexdump prints the data in rows of sixteen bytes, each with its offset, the bytes in hexadecimal, blanks for missing bytes and the printable characters.", "quantifier": "data of every length and content", "why_tests_cant": "boundary lengths and uninitialised memory that usually looks harmless", "anchors": ["log.c:hexdump"]}
{"id": "C67", "title": "Setting up the kernel hash interface", "statement": "A failed sha_kcapi_init leaves the process with the descriptors it had and with the hash it used; a successful one asks for a hash with the given driver name (default sha256, refused if it does not fit) and leaves exactly one more descriptor, which sha_kcapi_deinit closes.", "quantifier": "every driver name and every combination of failing calls", "why_tests_cant": "needs failures of socket, bind and accept on a kernel with AF_ALG", "anchors": ["sha.c:sha_kcapi_init", "sha.c:sha_kcapi_deinit"]}
{"id": "C68", "title": "csn-bench", "statement": "csn-bench runs the benchmark asked for and fails if there is none of that name; the hash benchmark reports 256, 64 and 16 KiB blocks, the chunker benchmark cuts the generated data into the chunks of the chunking rule; times are right up to a millisecond and never zero; there is no undefined behaviour.", "quantifier": "all arguments, all clock readings, with and without memory", "why_tests_cant": "depends on time and on allocation failure", "anchors": ["csn-bench.c:main", "csn-bench.c:bench_hash", "csn-bench.c:bench_chunker", "csn-bench.c:time_delta_ms"]}
{"id": "C69", "title": "The index decides the result", "statement": "After two successful runs with the same index, on different machines, with different stores, servers and previous contents of the target, the targets are equal as far as the image reaches, or two different pieces of them of the same length have the same hash.", "quantifier": "all pairs of successful runs (neighbouring entries with the same ID being equally long)", "why_tests_cant": "compares all pairs of runs", "anchors": ["main.c:entry_cb", "main.c:main", "target.c:target_check_chunk"]}
{"id": "C70", "title": "What interruptions cost", "statement": "However often a synchronisation is interrupted and restarted, the runs together write less than the image plus one chunk per run and query the chain at most once per entry plus once per run; entries that match once match from then on; at most as many runs as there are entries write as much as the longest chunk.", "quantifier": "all sequences of runs with one index on one target, each stopped anywhere, no system call failing (index without empty entries and with equal lengths for neighbouring equal IDs)", "why_tests_cant": "unboundedly many runs with arbitrary kill points", "anchors": ["main.c:entry_cb", "target.c:target_check_chunk", "target.c:target_write"]}
{"id": "C71", "title": "csn-tool gives back what it takes", "statement": "Whatever the key specification, the names and the files are and whichever calls fail, csn-tool's crypt command leaves the open descriptors and allocated blocks as it found them, needs at most one descriptor and two blocks at a time however long the list of names is, and never closes, frees or uses anything after it was given back.", "quantifier": "all key specifications, lists of any length, all files, all combinations of failing calls, all kill points", "why_tests_cant": "leaks and double frees hide in error paths; lists are unbounded", "anchors": ["csn-tool.c:do_crypt", "csn-tool.c:encrypt_one", "utils.c:slurp_file", "encrypt.c:encrypt_parse_keyspec"]}
{"id": "C72", "title": "Resources of csn", "statement": "The number of descriptors and heap blocks csn uses at a time depends on the stores given only, not on the number of chunks, requests or failures; nothing is closed, freed or used after it was given back; at the end every descriptor is closed and every block freed.", "quantifier": "all store arguments, indices and stores of any size, all server behaviour, all combinations of failing calls, all kill points", "why_tests_cant": "leaks per chunk show only in very long runs; double frees only after rare failures", "anchors": ["main.c:main", "main.c:csn", "main.c:entry_cb", "store.c:store_chain_get_chunk", "store.c:store_chain_free", "store-local.c:store_local_get_chunk", "store-local.c:store_local_new", "store-http.c:store_http_new", "store-http.c:store_http_free", "target.c:target_new", "index.c:index_insert"]}
{"id": "C73", "title": "Messages do not end up in the target", "statement": "Messages and the progress bar are never written to the target of csn or the destination of patchdd: these never get the number of a standard stream, whichever descriptors are open at the start.", "quantifier": "all sets of open descriptors, all store arguments, all combinations of failing calls, all kill points", "why_tests_cant": "test environments start programs with open standard streams", "anchors": ["main.c:csn", "target.c:target_new", "patchdd.c:main", "log.c:_u_log"]}
{"id": "C74", "title": "Keys do not stay in memory", "statement": "When csn-tool crypt is done, when a key specification was parsed and when a store on the network was freed, none of the buffers they used holds the key, a key derived from it or the text of a key file.", "quantifier": "all keys, key files, lists of files, parameters of stores, all failures of OpenSSL, reads and allocations", "why_tests_cant": "tests do not look at memory after it was given back", "anchors": ["encrypt.c:hchacha20", "encrypt.c:encrypt_restart", "encrypt.c:encrypt_close", "encrypt.c:encrypt_parse_keyspec", "csn-tool.c:do_crypt", "store-http.c:store_handle_params", "store-http.c:store_http_new", "store-http.c:store_http_free"]}
{"id": "C75", "title": "Wrong usage of csn-tool fails without effects", "statement": "When csn-tool is called with arguments that its usage texts do not allow, nothing is opened, read or written, and the exit status is not zero (except for a request for help).", "quantifier": "all command lines and states of the file system", "why_tests_cant": "infinitely many command lines", "anchors": ["csn-tool.c:main", "csn-tool.c:do_crypt", "csn-tool.c:usage"]}
{"id": "C76", "title": "Only missing chunks are fetched", "statement": "A store is asked for a chunk, and a server is sent a request for it, only if none of the stores listed before it has the chunk; with the target among the stores, those after it are asked for a chunk at most once.", "quantifier": "all indices, targets, lists of stores, contents of local stores and of their indices, and servers; runs ending in any way, no system call failing", "why_tests_cant": "what a store has depends on its whole contents; unboundedly many chunks and stores", "anchors": ["store.c:store_chain_get_chunk", "store-local.c:store_local_get_chunk", "target.c:target_store_get_chunk", "store-http.c:store_http_get_chunk", "main.c:entry_cb"]}
{"id": "C77", "title": "What csn-tool publishes, csn reproduces", "statement": "When a directory has the compressed chunks of an image (each below 4 GiB, none encrypted yet), csn-tool crypt is given their paths on standard input and reports success, and a server makes the result available, then csn with the index file of the image and the server's URL with the same key among its stores ends successfully with the image on the target, or is killed. Likewise without encryption.", "quantifier": "all images, divisions into chunks that fit the buffer, keys, compressed forms, directories, fragmentations and schedules; up to nine transient network failures in a row; any other stores that are usable", "why_tests_cant": "crosses two programs and a server; unboundedly many images", "anchors": ["csn-tool.c:do_crypt", "csn-tool.c:encrypt_one", "encrypt.c:encrypt_do", "store-http.c:store_http_get_chunk", "store-http.c:store_handle_params", "main.c:main"]}
{"id": "C78", "title": "What a caller of the chunker may rely on", "statement": "For every sequence of scans, resets and ID queries on one chunker: a scan reports the first position, in the data given since the last reset, at which the chunk rule cuts, and consumes the buffer up to there, or there is none and it consumes the whole buffer; after a boundary it consumes nothing until it is reset; after a reset it behaves like a new chunker whatever was fed before; the answers do not depend on how data is divided into buffers, and the ID is the digest of exactly the consumed data.", "quantifier": "all sequences of calls, buffers of any size including empty ones, parameters with a positive discriminator", "why_tests_cant": "the chunker keeps window, hash and digest state between calls; only eight ways of feeding one buffer are tested", "anchors": ["chunker.c:chunker_scan", "chunker.c:chunker_reset", "chunker.c:chunker_get_id", "chunker.c:chunker_shall_break", "chunker.c:chunker_init"]}
{"id": "C79", "title": "Other files make no difference and are left alone", "statement": "The result of csn, casync and patchdd, everything they write and every request they send depend only on files whose paths are part of an argument (besides the servers' answers and the outcomes of system calls); no other file is changed.", "quantifier": "all command lines, all pairs of worlds that agree in the files named by the arguments, all schedules of system calls, allocation failures and server answers, all kill points", "why_tests_cant": "a relation between all pairs of file systems", "anchors": ["main.c:main", "main.c:csn", "main.c:casync", "main.c:append_store_from_arg", "store-local.c:store_local_new", "store-http.c:store_handle_params", "encrypt.c:encrypt_parse_keyspec", "target.c:target_new", "patchdd.c:main"]}
{"id": "C80", "title": "Messages do not reveal keys", "statement": "Nothing that csn or csn-tool prints, at the default level, tells anything about a key that was accepted: with any other accepted key the messages are the same.", "quantifier": "all keys, all ways to give a key, all arguments, all outcomes of calls to the system and the libraries, all places in the code that print", "why_tests_cant": "a relation between runs with different keys, over all error paths", "anchors": ["store.c:store_chain_free", "store-http.c:store_http_new", "store-http.c:store_handle_params", "encrypt.c:encrypt_parse_keyspec", "encrypt.c:encrypt_init", "encrypt.c:encrypt_restart", "csn-tool.c:do_crypt", "csn-tool.c:encrypt_one", "main.c:append_store_from_arg", "utils.c:slurp_file", "utils.c:parse_hex"]}
{"id": "C81", "title": "Failures are reported, and only failures", "statement": "If a system call, an allocation or a library function that the code relies on fails, or if data from an index, a store, a server or an argument is refused, then csn, casync, csn-tool and patchdd print a warning or an error (at every log level but ERR), and without such an event they print none. A run that ends unsuccessfully has printed an error, at every log level, or a usage text.", "quantifier": "all command lines, all outcomes of all calls and all results of checks on data, in every order, all log levels", "why_tests_cant": "each of some 200 messages belongs to an error path of its own, and later stages may go on after a failure", "anchors": ["main.c:main", "main.c:csn", "main.c:casync", "main.c:entry_cb", "caibx.c:caibx_load_header", "caibx.c:caibx_iterate_entries", "chunker.c:chunker_scan_fd", "store-local.c:store_local_new", "store-local.c:store_local_get_chunk", "store-http.c:store_http_get_chunk", "store-http.c:store_http_data_cb", "store-http.c:store_http_new", "store.c:store_chain_get_chunk", "target.c:target_write", "target.c:target_check_chunk", "csn-tool.c:do_crypt", "csn-tool.c:encrypt_one", "patchdd.c:main", "utils.c:slurp_file", "sha.c:sha_once"]}
{"id": "C82", "title": "Files that other processes change", "statement": "Whatever other processes do to the target, the seed files and their indices while csn runs: every chunk csn writes hashes to the ID of its region, a run that succeeds has written every region or found it with the right contents, in the order of the index, no local store is scanned more than once after its creation, and there is no undefined behaviour.", "quantifier": "all changes to files at any time, all stores and servers, all outcomes of calls, indices in which neighbouring regions with the same ID have the same length", "why_tests_cant": "needs changes to a file between two particular system calls", "anchors": ["main.c:entry_cb", "store.c:store_chain_get_chunk", "store-local.c:store_local_get_chunk", "store-local.c:store_scan", "target.c:target_get_chunk", "target.c:target_check_chunk", "target.c:target_write", "store-http.c:store_http_get_chunk"]}
{"id": "C83", "title": "What patchdd reports", "statement": "patchdd prints the number of skipped bytes if and only if it succeeds, once and after the flush of the destination; the number and the bytes written make up the size of the source, it is the number of positions without a difference at them or before them in their block, and it is the size of the source if and only if the destination started with the source before and nothing was written.", "quantifier": "all sources, destinations, block sizes, arguments, schedules of short reads and writes, failures and kill points", "why_tests_cant": "sums over all blocks of files of any size", "anchors": ["patchdd.c:main", "patchdd.c:memcmp_offset"]}
{"id": "C84", "title": "csn-tool when OpenSSL fails", "statement": "If OpenSSL cannot create, reset or initialise the cipher or fails to encrypt, csn-tool does not report success for this chunk and writes nothing and creates no file for it; in a successful run over a list every conversion was done with a working cipher or had an output already.", "quantifier": "all arguments, lists, files, schedules, and results of the OpenSSL functions in each conversion", "why_tests_cant": "failures of the library cannot be provoked by input; all combinations over lists of any length", "anchors": ["encrypt.c:encrypt_init", "encrypt.c:encrypt_restart", "encrypt.c:encrypt_do", "csn-tool.c:encrypt_one", "csn-tool.c:do_crypt"]}
{"id": "C85", "title": "Memory used for downloads", "statement": "The memory that a request to an HTTP store takes for data received but not yet decompressed is bounded, whatever the server sends; it is at most twice the data received (or what an earlier request took), and if the server sends what it should, a few bytes more than twice the data that libcurl hands over at a time.", "quantifier": "all servers, bodies, fragmentations, decompressors, keys, failing attempts and allocation failures", "why_tests_cant": "needs servers that send unlimited data", "anchors": ["store-http.c:decode_buffer_absorb", "store-http.c:store_http_data_cb", "store-http.c:handle_data", "store-http.c:store_http_get_chunk"]}
{"id": "C86", "title": "One more store never hurts", "statement": "If csn succeeds with an index that has no empty regions, it also succeeds with one more HTTP store given last, with the same files; even the requests are the same. More generally, if no chunk is looked for in vain, however the run ends, the store makes no difference, and a store given last that is not asked for anything can be left out.", "quantifier": "all command lines, files, servers, schedules of system calls and kill points; unlimited memory; the additional store is a URL without parameters", "why_tests_cant": "a relation between two runs, over all runs", "anchors": ["store.c:store_chain_get_chunk", "store.c:store_chain_new", "store.c:store_chain_append", "main.c:append_store_from_arg", "main.c:csn", "main.c:entry_cb", "main.c:main"]}
{"id": "C87", "title": "Several runs on the same target help each other", "statement": "If several csn processes work on the same target at the same time for the same image (their indices may differ in the way the image is divided), every byte any of them writes is the one of the image, so what is right stays right; as soon as one of them has succeeded, the target holds all regions of its index, whatever the others have done and will do. This holds even if runs take chunks from the target itself, which are not compared.", "quantifier": "any number of processes, all interleavings of their single byte accesses to the target, all stores (local seed files must not change), all answers of servers, failures and kill points", "why_tests_cant": "needs all interleavings of concurrent processes", "anchors": ["main.c:entry_cb", "target.c:target_check_chunk", "target.c:target_get_chunk", "target.c:target_write", "store.c:store_chain_get_chunk"]}
{"id": "C88", "title": "A failing kernel hash interface lets no wrong data through", "statement": "Whatever the kernel's hash interface does, a process gets at most one wrong digest, which is the one of an end of the data; csn writes nothing else for a region than the region of the image or what a store handed out without comparing, leaves nothing else as it is, and with HTTP stores only success means that every region was written or found as it is in the image. Right data may be refused because of the failure.", "quantifier": "all points at which the interface fails, all data, servers, files that change, failures and kill points; no other data that is not longer than a region has its ID", "why_tests_cant": "failures of the kernel interface in the middle of a transfer cannot be provoked by input", "anchors": ["sha.c:sha_once", "chunk.h:chunk_calculate_id", "target.c:target_check_chunk", "store-local.c:store_local_get_chunk", "store-http.c:store_http_get_chunk", "main.c:entry_cb"]}
{"id": "C89", "title": "Several runs of csn-tool in the same directory", "statement": "If several csn-tool processes convert files of the same directory with the same key at the same time, every byte any of them writes to an output is the one that belongs there, an output that was there before stays as it is, no other file is made or changed, and at every moment an output contains nothing but bytes that belong there and zeros; when a process has reported success, all its outputs are complete in the end.", "quantifier": "any number of processes, lists of files, all interleavings of their single accesses to files, all failures and kill points", "why_tests_cant": "needs all interleavings of concurrent processes", "anchors": ["csn-tool.c:encrypt_one", "csn-tool.c:do_crypt", "utils.c:writeall", "utils.c:slurp_file"]}
{"id": "C90", "title": "patchdd when other processes change its files; csn and patchdd on the same target", "statement": "Whatever other processes do to its files, patchdd works block after block and writes nothing but bytes it has just read from the source, at the same position and from the block's first difference on; when it reports success, every position of the source was written with what was read from the source there, or the same was read from both files, and the destination was flushed. If any number of csn and patchdd processes work on the same target for the same image, every byte one of them writes is the image's, and as soon as one of them has reported success, the target has all regions of its index, or all of its source, and keeps them.", "quantifier": "all contents and changes of files, any number of processes, all interleavings of their single accesses to the target, all failures and kill points", "why_tests_cant": "needs all interleavings of concurrent processes", "anchors": ["patchdd.c:main", "patchdd.c:memcmp_offset", "main.c:csn", "utils.c:preadall", "utils.c:pwriteall"]}
{"id": "C91", "title": "What an edit costs", "statement": "Chunks that end before the first byte in which two versions of a file differ are the same in both; behind an edit, as soon as a chunk in the one version that ends because of the hash spans the start of a chunk in the other that is at least the minimal size and a hash window before that end, both have a boundary there and the same chunks from there on. So if csn is run for the new version with the old one as a local store, later stores are only asked for chunks between the maximal chunk size before the edit and the place where both versions have a boundary again; their number is bounded by the length of that part and the two sizes, not by the length of the file; and if the stores have these chunks, the run ends with the new version on the target, unless it is killed.", "quantifier": "all pairs of versions u m t and u m' t with boundaries at t, index parameters, store lists, schedules of system calls, answers of servers, kill points", "why_tests_cant": "a relation between the chunkings of two files of any length and whole runs", "anchors": ["chunker.c:chunker_scan", "chunker.c:chunker_scan_fd", "store-local.c:store_local_new", "store-local.c:store_local_get_chunk", "store.c:store_chain_get_chunk", "main.c:csn"]}
{"id": "C92", "title": "Images that are made of chunks", "statement": "A file that is put together from pieces each of which ends exactly where the chunker would cut is divided into these pieces again. The pieces of the end-to-end tests are such pieces with the default parameters, for every size and first byte the tests allow, so a scan of an image made of them reports exactly these and a local store with this image answers exactly these. A file of zeros of any length is divided into chunks of the maximal size, which are all the same, and one shorter chunk at most.", "quantifier": "all lists of pieces, sizes from 16 KiB to 256 KiB, first bytes, lengths, read schedules and hash functions", "why_tests_cant": "the tests rely on it for the sizes they use", "anchors": ["chunker.c:chunker_scan", "chunker.c:chunker_shall_break", "chunker.c:chunker_scan_fd", "store-local.c:store_local_get_chunk", "test/e2e/csn_test.py:Chunk.make"]}
{"id": "C93", "title": "Memory used for chunk indices", "statement": "An index never has room for more than what it was made for, or a fifth more than the entries inserted, and one (48 bytes each). So a local store that was scanned takes memory in proportion to its file divided by the minimal chunk size (0.4 percent with the default sizes), one with an index file 48 bytes for each of the entries listed there, however long it is used and whatever is asked; the index of the target has room for exactly the entries of the index file and never grows.", "quantifier": "all files, index files, parameters, histories of insertions and lookups, allocation failures, schedules of system calls, both front ends, any part of a run", "why_tests_cant": "the bound has to hold for files of every size and for histories of any length", "anchors": ["index.c:index_init", "index.c:index_insert", "store-local.c:store_scan", "store-local.c:store_sideload_index", "store-local.c:store_local_get_chunk", "target.c:target_add_chunk", "target.c:target_as_store", "main.c:entry_cb"]}
{"id": "C94", "title": "What csn-tool can do to the files when calls fail", "statement": "Whatever its arguments and standard input are, whichever calls fail and wherever the run ends, csn-tool changes no file other than its outputs: the name given, the other form of the chunk given, or the other forms of the chunks in the list (or what standard output goes to, if the output is -). Every name keeps its file, new names are outputs, and no file gets a second name. After a single conversion the output is missing as before, has its old contents, or holds the beginning of the conversion of the input and nothing else.", "quantifier": "all arguments, lists, file systems, schedules of system calls with errors at any place, kill points", "why_tests_cant": "failing calls at every place of runs of any length", "anchors": ["csn-tool.c:main", "csn-tool.c:do_crypt", "csn-tool.c:encrypt_one", "utils.c:slurp_file", "utils.c:writeall"]}
{"id": "C95", "title": "The discriminator in floating point arithmetic", "statement": "The formula of chunker.c:110, evaluated in IEEE 754 doubles, with every operation rounded or with product and sum contracted to one operation, has a defined value exactly for average sizes up to 9324556; it is usable (not zero) exactly from 2 to 9324556, never falls when the average size grows, is casync's 0xc17f for the default size, is the exact value for the powers of two up to 8 MiB, and up to 8 MiB differs from the exact value by one at most and only if that is within 2^-20 of an integer. From 9309388 on no chunk ends because of the hash. Scans with accepted parameters are free of undefined behaviour exactly if the average size is between 2 and 9324556 or the maximal size is at most 48; with the average size 1 (division by zero) otherwise every file of at least 48 bytes leads there, with a larger average size (conversion) every scan; csn never succeeds then if a local store without an index of its own is given. For some accepted average sizes machines that contract divide the same file differently than machines that do not.", "quantifier": "all average sizes an index file can carry, both ways of evaluation; all files and read schedules", "why_tests_cant": "the result of floating point arithmetic on all average sizes and on other machines", "anchors": ["chunker.c:CA_CHUNKER_DISCRIMINATOR_FROM_AVG", "chunker.c:chunker_init", "chunker.c:chunker_shall_break", "chunker.c:chunker_params_set"]}
{"id": "C96", "title": "A server that is out of order is asked eleven times at most", "statement": "In every run of csn and casync each question to an HTTP store leads to at most ten requests and at most 52.6 s of waiting between them. If the server of a store given as a URL is out of order all the time (cannot be reached, or answers every request with an error status other than 404 and 410), the store is asked for at most eleven chunks in the whole run, however many the index has and whatever the other stores do: at most 110 requests and 578.6 s of waiting are spent on it. All three numbers are reached, in a run that succeeds because of a store behind it. Conversely, if every attempt at the server is a transient failure or ends with a status, errors included, the store is not taken out of use before it was asked eleven times; so a server that is out of order in these ways is given up after exactly eleven questions. If all servers are out of order, the whole run makes at most 110 requests and waits at most 578.6 s per URL among the stores.", "quantifier": "all command lines, indices, stores and network behaviour of the other servers", "why_tests_cant": "a server that is down for a whole run on an index with many chunks, and the sum of all the waiting", "anchors": ["store-http.c:retried_curl_easy_perform", "store-http.c:increase_error_counter", "store-http.c:store_http_get_chunk", "store.c:store_chain_get_chunk"]}
