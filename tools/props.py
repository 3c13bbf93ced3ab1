#!/usr/bin/env python3
# Generates /verif/properties.jsonl.  Pure documentation tooling, not part of the proof.
import json
P=[]
def p(id,title,statement,quantifier,why,anchors):
    P.append(dict(id=id,title=title,statement=statement,quantifier=quantifier,why_tests_cant=why,anchors=anchors))

p("C01","Chunk boundaries depend only on content and parameters",
"Scanning a file for chunks reports exactly the chunks of casync's content-defined chunking rule: a chunk ends at the first position that is at least 48 bytes into the chunk and either has reached the maximum size or has reached the minimum size and has a buzhash of the last 48 bytes congruent to d-1 modulo the discriminator d. The result does not depend on how read() splits the file or on EINTR.",
"every file content, every accepted chunker parameter set, every schedule of short and interrupted reads",
"the set of contents and of read fragmentations is infinite; tests check one pseudo-random stream with one fragmentation",
["chunker.c:chunker_scan","chunker.c:chunker_scan_fd","chunker.c:chunker_shall_break","utils.h:rol32"])
p("C02","Chunks tile the file",
"When a scan succeeds, the reported chunks are non-empty, start where the previous one ended, begin at offset 0 and end at the end of the file: their concatenation is the file.",
"every file content, parameter set and read schedule","one missed leftover or off-by-one needs a particular alignment of file size, window size and read size",
["chunker.c:chunker_scan_fd"])
p("C03","Chunk size bounds",
"Every chunk a scan reports is at most max(max_size,48) bytes long and every chunk but the last is at least max(min_size,48) bytes long.",
"every file content, parameter set and read schedule","the extreme cases need specific data at specific positions",
["chunker.c:chunker_shall_break","chunker.c:chunker_scan"])
p("C04","A scanned chunk's ID is the SHA-256 of exactly its bytes",
"For every reported chunk (offset, len, id), id is the SHA-256 digest of the len bytes of the file starting at offset.",
"every file content, parameter set and read schedule","hash context updates are spread over several code paths whose combination depends on fragmentation",
["chunker.c:chunker_scan","chunker.c:chunker_get_id","chunker.c:chunker_reset"])
p("C05","Chunking resynchronises after a common boundary",
"If two files agree from some position on and that position is a chunk boundary in both, then all chunks after it are the same (same lengths and IDs) in both files.",
"every pair of files sharing a suffix that begins at a chunk boundary of both","this is a relation between all pairs of inputs",
["chunker.c:chunker_reset","chunker.c:chunker_scan_fd"])
p("C06","Scanning has defined behaviour for every parameter set an index file can carry",
"For every parameter set the index loader accepts, scanning a local store terminates without undefined behaviour (no division by zero, no out-of-range float conversion) and each scanner call makes progress.",
"every accepted (min, avg, max) and every file content","parameters come from an untrusted-format file; the failing values are isolated points of a 96-bit space",
["chunker.c:chunker_init","chunker.c:CA_CHUNKER_DISCRIMINATOR_FROM_AVG","chunker.c:chunker_params_set"])
p("C07","The index loader accepts exactly the well-formed files",
"Loading a .caibx succeeds exactly when the file is 104+40n bytes long, carries the index and table magics, a header length of at least 48, only the supported feature bits, sizes with min<avg<max<2^32, and a correct footer; it then reports exactly those sizes and n. Otherwise it reports an error.",
"every byte string as index file, every schedule of short and interrupted reads","acceptance is a predicate over all byte strings",
["caibx.c:caibx_load_header","caibx.c:load_index_header","caibx.c:validate_table_header","caibx.c:validate_table_footer","chunker.c:chunker_params_set"])
p("C08","Index files round-trip",
"An index written in the casync layout from sizes (min,avg,max) and chunks (len_i,id_i) is read back as exactly those sizes and, in order, the segments (offset_i,len_i,id_i) with offset_i the sum of the earlier lengths.",
"every valid parameter set and every list of chunks with 0 < len < 2^32 and total below 2^64","needs every list length and every 64-bit field value",
["caibx.c:caibx_iterate_entries","utils.h:unp64le"])
p("C09","Iterating an index delivers every entry",
"If iterating an index reports success, every table entry was handed to the consumer exactly once, in file order, with offset equal to the end of the previous entry and length equal to the difference of end offsets.",
"every index file content and every consumer","silent skips only show for entries whose 64-bit difference exceeds 32 bits or runs backwards",
["caibx.c:caibx_iterate_entries"])
p("C10","Reading an index is memory-safe and total",
"For an arbitrary byte string used as index, loading and iterating it always ends and never performs undefined behaviour or trips an assertion by itself.",
"every byte string and every read schedule","adversarial inputs are unbounded",
["caibx.c:caibx_load_header","caibx.c:caibx_iterate_entries"])
p("C11","Chunk index behaves like a multimap",
"After any interleaving of insertions and lookups on a chunk index, looking up an ID returns an entry inserted with that ID (offset and length as inserted) if there is one, and nothing otherwise.",
"every finite history of insertions and lookups, any conforming qsort and bsearch","the lazily re-sorted array depends on the whole history of operations",
["index.c:index_insert","index.c:index_query","index.c:index_sort"])
p("C12","Chunk index never writes out of bounds",
"In every history of operations the number of entries never exceeds the allocated space, and each insertion writes inside the allocation, which grows when full.",
"every history of insertions from every positive initial size","growth happens at history-dependent sizes",
["index.c:index_init","index.c:index_insert"])
p("C13","Stores are consulted in command-line order and the first hit wins",
"Querying the store chain asks the still-active stores in the order they were appended, stops at the first one that returns data, returns its answer, and reports 'not found' if none does.",
"every list of stores, every behaviour of each store, every query sequence","stores' answers are arbitrary and history dependent",
["store.c:store_chain_get_chunk","store.c:store_chain_append"])
p("C14","A failed store is never consulted again",
"Once a store reports failure it is not asked for any later chunk, and the other stores keep being asked.",
"every history of queries and failures","needs all histories",
["store.c:store_chain_get_chunk"])
p("C15","A scanned local store answers exactly the chunks of its file",
"A local store that scanned its (unchanging) file returns, for a chunk ID, data with that SHA-256 of the recorded length if the file's chunking contains the ID, and reports 'not found' if it does not.",
"every file content, parameter set, query sequence and schedule","depends on chunking of arbitrary content and arbitrary query order",
["store-local.c:store_scan","store-local.c:store_local_get_chunk"])
p("C16","A side-loaded index can never make a local store return wrong data",
"Whatever bytes the side-loaded index contains, data a local store returns for an ID always hashes to that ID (file unchanged during the run).",
"every index file content, every store content, every query sequence and schedule","a forged or stale index is an adversarial input",
["store-local.c:store_sideload_index","store-local.c:store_local_get_chunk"])
p("C17","A wrong side-loaded index is discarded",
"If a side-loaded index does not match the store (bit rot, wrong file, wrong parameters, malformed), it is discarded and the store behaves as if only the scan had been used.",
"every index file content, every store content, every query sequence","the ways in which an index can be wrong are unbounded",
["store-local.c:store_sideload_index","store-local.c:store_local_get_chunk","store-local.c:store_local_new"])
p("C18","A local store lookup rescans at most once and always ends",
"Every lookup in a local store finishes after at most one rescan of the store.",
"every store state reachable from creation, every query","the retry loop is an unbounded goto",
["store-local.c:store_local_get_chunk"])
p("C19","HTTP data is only accepted when it hashes to the chunk ID",
"Whatever a server sends (any status codes, bodies, fragmentation, failures, decompressor output), a chunk returned by an HTTP store hashes to the requested ID and fits the output buffer.",
"every server behaviour, every decompressor respecting its buffer contract, every history of requests","the server is adversarial",
["store-http.c:store_http_get_chunk","store-http.c:handle_data"])
p("C20","HTTP body processing stays inside its buffers",
"While processing a response, writes to the decode buffer stay inside its allocation, the decode buffer's fill never exceeds its size, and the decompressor never gets more output room than the caller's buffer has left.",
"every sequence of body fragments and every history of requests","buffer state carries over between requests",
["store-http.c:decode_buffer_absorb","store-http.c:store_http_data_cb","store-http.c:handle_data"])
p("C21","The way a response body is split does not matter",
"If a server answers 200 with a body that is a zstd frame of a chunk that hashes to the ID and fits the buffer, the HTTP store returns exactly that chunk for every split of the body into fragments.",
"every chunk, every fragmentation of the body, every prior history of the store","exponentially many fragmentations",
["store-http.c:store_http_data_cb","store-http.c:handle_data","store-http.c:decode_buffer_absorb"])
p("C22","Retry policy of HTTP downloads",
"A chunk download makes between 1 and 10 attempts, stops at the first attempt that is not a transient failure, and waits between attempts 200 ms doubling up to 10 s, so at most 42.6 s in total.",
"every sequence of attempt outcomes","all outcome sequences",
["store-http.c:retried_curl_easy_perform","store-http.c:curl_is_transient_error"])
p("C23","A retried download succeeds if a later attempt delivers the chunk",
"If transient failures are followed, within the retry budget, by an attempt that delivers the whole chunk, the store returns the chunk.",
"every prefix of transient failures, including ones in the middle of the body","the failure point inside the body is arbitrary",
["store-http.c:retried_curl_easy_perform","store-http.c:store_http_get_chunk"])
p("C24","HTTP store error accounting",
"The error counter equals the number of unrecovered failures (transient after all retries, or HTTP status >= 400 other than 404/410) since the last response that was processed completely; the store reports failure when it exceeds 10; 404 and 410 do not count.",
"every sequence of requests and server behaviours","counter depends on the whole history",
["store-http.c:increase_error_counter","store-http.c:store_http_get_chunk"])
p("C25","Chunk URL layout",
"The requested URL is the base URL without fragment and without one trailing slash, followed by '/' + first four hex digits + '/' + 64 lower-case hex digits + '.cacnk' (+ '.enc' when encrypted), and it always fits the URL buffer.",
"every base URL and every chunk ID","string building over unbounded inputs",
["store-http.c:set_url","store-http.c:store_http_new","chunk.c:chunk_format_id"])
p("C26","Encrypted stores are transparent",
"Fetching an encrypted chunk from a store configured with the right key yields the same result as fetching the plain chunk from an unencrypted store, for every fragmentation.",
"every key, ID, chunk and fragmentation","decryption state is split over callbacks",
["store-http.c:decode_buffer_absorb","encrypt.c:encrypt_restart","encrypt.c:encrypt_do"])
p("C27","Integrity of a successful synchronisation",
"If csn exits successfully, then for every entry of the index file the target's bytes at the entry's offset and length hash to the entry's chunk ID, regardless of the target's previous contents, the stores' and servers' behaviour, and short or interrupted system calls.",
"every index, initial target, store contents, server behaviour, command line and schedule","security property against adversarial stores and corrupt files",
["main.c:entry_cb","main.c:main","target.c:target_write","target.c:target_check_chunk","store.c:store_chain_get_chunk"])
p("C28","The target holds the image",
"If the index describes an image (list of chunks) and no other data of the same lengths has the same chunk IDs, then after csn exits successfully the target starts with exactly that image.",
"every image cut into chunks and every environment","all images and environments",
["main.c:entry_cb"])
p("C29","Nothing outside the image is modified",
"At every moment of a run, including after a crash or failure, all bytes of the target behind the image end are unchanged and no file other than the target is modified.",
"every run and every stop point","needs all stop points of all runs",
["main.c:entry_cb","target.c:target_write","utils.c:pwriteall"])
p("C30","Crash consistency of the target",
"At every stop point of a run the target consists of: the regions of the first k entries, all hashing to their IDs; the region of entry k, holding a prefix of verified data for that ID over the old contents; and the old contents everywhere behind.",
"every run and every stop point (kill, power cut with ordered writes, I/O failure, assertion)","crash points cannot be enumerated by tests",
["main.c:entry_cb","target.c:target_write","utils.c:pwriteall"])
p("C31","Resumption skips exactly the verified prefix",
"A run neither rewrites nor queries the stores for the longest prefix of entries whose regions of the target already hash to their IDs, and from the first non-matching entry on it writes every entry.",
"every index and initial target","every prefix length and content",
["main.c:entry_cb","target.c:target_check_chunk"])
p("C32","Interrupted synchronisation makes forward progress",
"If a run is stopped after it has begun writing entry k or a later one, a following run with the same index (with no read errors) writes nothing below the start of entry k and asks no store for the entries before k.",
"every pair of runs and every stop point of the first","relates all crash points of one run to all behaviours of the next",
["main.c:entry_cb"])
p("C33","Synchronising twice is a no-op",
"Running csn again on a target that a successful run produced succeeds (absent read errors), issues no write and queries no store.",
"every successful run","all runs",
["main.c:entry_cb"])
p("C34","Consecutive repetitions of a chunk are fetched once",
"Within the not-skipped part of the index, the store chain is queried exactly once per maximal run of consecutive entries with the same ID (for a run that succeeds).",
"every index and environment","all index shapes",
["main.c:entry_cb"])
p("C35","With the target as first store no chunk is fetched twice from elsewhere",
"If the target is given as the first store, then in any run no later store is asked for a chunk ID that was already written to or verified on the target.",
"every index and environment without read failures on the target","all repetition patterns",
["target.c:target_add_chunk","target.c:target_get_chunk","target.c:target_as_store"])
p("C36","Synchronisation succeeds when all chunks are available",
"If system calls do not fail, every chunk of the index has length 1..256 KiB and every chunk is returned by some active store, then the run ends successfully with the image on the target.",
"every index, store arrangement and (error-free) schedule","completeness over all inputs",
["main.c:entry_cb","store.c:store_chain_get_chunk"])
p("C37","A failing start leaves everything untouched",
"If the index cannot be loaded, the target does not exist or a store cannot be set up, csn exits with failure, no file is modified and the target is not created.",
"every command line and file system state","all failure causes and states",
["main.c:csn","target.c:target_new","main.c:append_store_from_arg"])
p("C38","Store argument classification",
"A store argument equal to the target path denotes the target; otherwise one starting with 'http' denotes an HTTP store; otherwise it is a local path, cut at the first colon, with the rest as side-load index.",
"every argument string","all strings",
["main.c:append_store_from_arg"])
p("C39","The casync front end is equivalent to csn",
"'casync --store S1 --seed S2 ... extract INDEX TARGET' behaves exactly like 'csn INDEX TARGET S1 S2 ...', with --seed-output ignored, and 'casync --help' only prints help.",
"every list of options and every environment","all command lines",
["main.c:casync","main.c:csn"])
p("C40","Chunk encryption is its own inverse",
"Encrypting twice with the same key and chunk ID gives back the input, and length is preserved.",
"every key, ID and data","all data",
["encrypt.c:encrypt_do","encrypt.c:encrypt_restart"])
p("C41","Chunk encryption can be streamed",
"Processing data in pieces after one restart gives the same result as processing it in one call, and every restart with the same nonce produces the same keystream whatever was processed before.",
"every split of every input, every earlier history","all splits",
["encrypt.c:encrypt_do","encrypt.c:encrypt_restart"])
p("C42","Chunk encryption is XChaCha20",
"The keystream is that of XChaCha20 (draft-irtf-cfrg-xchacha-03) with the user key, the first 24 bytes of the chunk ID as nonce and block counter starting at 0; the subkey derivation is HChaCha20.",
"every key and ID","test vectors check single points",
["encrypt.c:hchacha20","encrypt.c:chacha20_rounds","encrypt.c:encrypt_restart"])
p("C43","Key specification parsing",
"A key specification is accepted exactly when it has a known scheme whose source exists and yields exactly 64 hex digits; the key is the 32 bytes these digits denote.",
"every key specification, environment and file system","all strings",
["encrypt.c:encrypt_parse_keyspec","utils.c:parse_hex"])
p("C44","Chunk IDs round-trip through their textual form",
"Formatting an ID gives 64 lower-case hex digits; parsing that (in any letter case) gives the ID back; strings with any non-hex character are rejected; parsing n digits writes exactly ceil(n/2) bytes.",
"every ID and every string","all strings",
["chunk.c:chunk_format_id","utils.c:parse_hex","utils.c:nibble"])
p("C45","Only trailing line breaks are removed from key files and path lists",
"Reading a key file or a path line removes the trailing line break and nothing else.",
"every string","the misbehaviour needs an inner line break and no trailing one",
["utils.c:chomp"])
p("C46","csn-tool's derived output name is an involution",
"Without explicit output path, X.cacnk is converted to X.cacnk.enc and X.cacnk.enc to X.cacnk; converting the derived name derives the original name again and both denote the same chunk ID.",
"every accepted input path","all paths",
["csn-tool.c:encrypt_one","csn-tool.c:chunk_id_from_path"])
p("C47","csn-tool never modifies an existing file",
"No file that exists when csn-tool crypt processes a path is modified or replaced.",
"every invocation, file system state and stop point","all states and crash points",
["csn-tool.c:encrypt_one"])
p("C48","csn-tool success means the output is the conversion of the input",
"If csn-tool crypt reports success for an input then the output file holds the encryption (decryption) of the input under the key and the chunk ID taken from the file name.",
"every key, path, content, schedule and earlier history including crashes","depends on earlier interrupted runs",
["csn-tool.c:encrypt_one"])
p("C49","csn-tool only accepts chunk file names",
"An input path is accepted exactly if its last component is 64 hex digits followed by .cacnk or .cacnk.enc.",
"every path string","all strings",
["csn-tool.c:chunk_id_from_path"])
p("C50","patchdd copies the source over the destination's start",
"If patchdd succeeds, the destination consists of the source followed by the destination's old bytes behind the source's length; it fails without any write if the destination is smaller.",
"every source, destination and schedule","all contents and sizes",
["patchdd.c:main","patchdd.c:memcmp_offset"])
p("C51","patchdd writes only behind the first difference of a block",
"Each write of patchdd covers exactly the rest of a 1 MiB block from its first differing byte; identical blocks are not written, so patching twice writes nothing the second time.",
"every source and destination","all contents",
["patchdd.c:main","patchdd.c:memcmp_offset"])
p("C52","patchdd crash consistency and durability",
"At every stop point each byte of the destination is either its old value or the source's byte, and after success all data has been flushed to stable storage.",
"every run and stop point","crash points",
["patchdd.c:main"])
p("C53","Exact-length I/O helpers under any schedule",
"The read/write helpers either transfer exactly the requested bytes at exactly the requested position or report failure; EINTR and short transfers never change the result; at every stop point a write helper has written exactly a prefix of its data.",
"every file, offset, length and every sequence of system call results","all sequences of partial results",
["utils.c:readall","utils.c:preadall","utils.c:writeall","utils.c:pwriteall"])
p("C54","Hashing is independent of the backend",
"The digest returned for data is its SHA-256, whether user-space or kernel crypto is used and even when the kernel interface fails and hashing falls back to user space.",
"every data and every sequence of kernel interface results","failure points inside a transfer are arbitrary",
["sha.c:sha_once"])
p("C55","Progress display",
"The displayed percentage is between 0 and 100, never decreases, reaches 100 when the last entry is handled, drawing the bar stays inside its buffer, and it is drawn exactly when standard output is a terminal and debug messages are off.",
"every number of entries","overflow only for very large indices",
["ui.c:show_progress","main.c:entry_cb"])
p("C56","Success is durable",
"When csn reports success, the image is on stable storage.",
"every run followed by a power cut","needs a power cut after exit",
["main.c:main","target.c:target_write"])
p("C57","Local stores of any size can be used",
"Any regular file or block device, however small, can be given as local store without aborting the run.",
"every file size and parameter set","boundary depends on size/average ratio",
["store-local.c:store_scan","index.c:index_init"])
p("C58","Only verified data is ever written to the target",
"Every write csn issues to the target carries a piece of a chunk whose contents hash to the ID of the index entry covering that range.",
"every run, including failing and interrupted ones","adversarial stores, every stop point",
["main.c:entry_cb","target.c:target_write"])
p("C59","Log level filtering",
"A message is printed exactly if its severity is at least the configured threshold; unknown LOGLEVEL values leave the default 'info'.",
"every level and every value of LOGLEVEL","all strings",
["log.c:check_loglevel","log.c:u_log_init"])
p("C60","Runs are free of undefined behaviour",
"No run of csn, whatever the index, the stores, the servers and the results of system calls, reads or writes outside its buffers, uses or frees memory twice, or has other undefined behaviour.",
"every run, including failing and interrupted ones","needs adversarial indices combined with I/O errors at particular calls",
["main.c:entry_cb","main.c:main","store-local.c:local_get_chunk","store-local.c:local_free"])
p("C61","Interrupted calls and short transfers make no difference",
"From every start there is one outcome such that every run without failing system calls, however its reads and writes are split or interrupted, ends with exactly this result, these files, the same requests to servers and the same sequence of effects, or is killed after a part of them; a killed run leaves the files with exactly the bytes written so far.",
"every start, command line, and every pattern of interrupts, short reads and short writes","short reads, short writes and EINTR are practically never produced by a test system",
["utils.c:readall","utils.c:preadall","utils.c:writeall","utils.c:pwriteall","chunker.c:chunker_scan_fd","main.c:main","patchdd.c:main","csn-tool.c:main"])
p("C62","Every run comes to an end",
"From every start there is a number of system calls after which csn, casync, patchdd and csn-tool have ended, whatever these calls return; no program is caught in an endless loop.",
"every start, command line and every sequence of results of system calls (interrupted ones not counted)","an endless loop may depend on one particular result of one call",
["main.c:main","store-local.c:local_get_chunk","chunker.c:chunker_scan_fd","patchdd.c:main","csn-tool.c:main"])
p("C63","Final statistics",
"A successful run prints at its end, and only there, how many queries the chain received, how many of them each store answered, and how many leading chunks were skipped; these numbers are exactly what happened in the run. A run that does not succeed prints none.",
"every command line, files, servers and schedule","counters must be compared with what happened in every kind of run; uninitialised memory is often zero",
["store.c:store_chain_free","store.c:store_chain_get_chunk","store.c:store_chain_append","main.c:main"])
p("C64","Network use",
"csn and casync use the network only while a store given as a URL is asked for a chunk; all requests are then for this chunk below this URL, at most ten with the waiting time of the retry schedule between them. Nothing is requested while starting up, and nothing at all if no store is a URL.",
"every command line, files, servers and schedule, including failing and interrupted runs","absence of requests and their number over whole runs cannot be established by sampling",
["store-http.c:retried_curl_easy_perform","store-http.c:store_http_get_chunk","store-http.c:set_url","store.c:store_chain_get_chunk","main.c:append_store_from_arg","main.c:main"])
p("C65","Log messages are complete lines",
"Every log call whose level is shown prints exactly one complete line: level (or its colour on a terminal), file, function, line number and the message with all its arguments, the colour being reset and the line ended; no argument causes undefined behaviour.",
"every log call of the tools, all arguments, terminal or not, every threshold","messages are assembled in a fixed buffer that cuts silently; needs every call, most of them in error paths",
["log.c:_u_log"])
p("C66","Hex dumps",
"hexdump prints the data in rows of sixteen bytes, each with its offset, the bytes in hexadecimal, blanks for missing bytes and the printable characters.",
"data of every length and content","boundary lengths and uninitialised memory that usually looks harmless",
["log.c:hexdump"])
p("C67","Setting up the kernel hash interface",
"A failed sha_kcapi_init leaves the process with the descriptors it had and with the hash it used; a successful one asks for a hash with the given driver name (default sha256, refused if it does not fit) and leaves exactly one more descriptor, which sha_kcapi_deinit closes.",
"every driver name and every combination of failing calls","needs failures of socket, bind and accept on a kernel with AF_ALG",
["sha.c:sha_kcapi_init","sha.c:sha_kcapi_deinit"])
p("C68","csn-bench",
"csn-bench runs the benchmark asked for and fails if there is none of that name; the hash benchmark reports 256, 64 and 16 KiB blocks, the chunker benchmark cuts the generated data into the chunks of the chunking rule; times are right up to a millisecond and never zero; there is no undefined behaviour.",
"all arguments, all clock readings, with and without memory","depends on time and on allocation failure",
["csn-bench.c:main","csn-bench.c:bench_hash","csn-bench.c:bench_chunker","csn-bench.c:time_delta_ms"])
p("C69","The index decides the result",
"After two successful runs with the same index, on different machines, with different stores, servers and previous contents of the target, the targets are equal as far as the image reaches, or two different pieces of them of the same length have the same hash.",
"all pairs of successful runs (neighbouring entries with the same ID being equally long)","compares all pairs of runs",
["main.c:entry_cb","main.c:main","target.c:target_check_chunk"])
p("C70","What interruptions cost",
"However often a synchronisation is interrupted and restarted, the runs together write less than the image plus one chunk per run and query the chain at most once per entry plus once per run; entries that match once match from then on; at most as many runs as there are entries write as much as the longest chunk.",
"all sequences of runs with one index on one target, each stopped anywhere, no system call failing (index without empty entries and with equal lengths for neighbouring equal IDs)","unboundedly many runs with arbitrary kill points",
["main.c:entry_cb","target.c:target_check_chunk","target.c:target_write"])
p("C71","csn-tool gives back what it takes",
"Whatever the key specification, the names and the files are and whichever calls fail, csn-tool's crypt command leaves the open descriptors and allocated blocks as it found them, needs at most one descriptor and two blocks at a time however long the list of names is, and never closes, frees or uses anything after it was given back.",
"all key specifications, lists of any length, all files, all combinations of failing calls, all kill points","leaks and double frees hide in error paths; lists are unbounded",
["csn-tool.c:do_crypt","csn-tool.c:encrypt_one","utils.c:slurp_file","encrypt.c:encrypt_parse_keyspec"])
p("C72","Resources of csn",
"The number of descriptors and heap blocks csn uses at a time depends on the stores given only, not on the number of chunks, requests or failures; nothing is closed, freed or used after it was given back; at the end every descriptor is closed and every block freed.",
"all store arguments, indices and stores of any size, all server behaviour, all combinations of failing calls, all kill points","leaks per chunk show only in very long runs; double frees only after rare failures",
["main.c:main","main.c:csn","main.c:entry_cb","store.c:store_chain_get_chunk","store.c:store_chain_free","store-local.c:store_local_get_chunk","store-local.c:store_local_new","store-http.c:store_http_new","store-http.c:store_http_free","target.c:target_new","index.c:index_insert"])
p("C73","Messages do not end up in the target",
"Messages and the progress bar are never written to the target of csn or the destination of patchdd: these never get the number of a standard stream, whichever descriptors are open at the start.",
"all sets of open descriptors, all store arguments, all combinations of failing calls, all kill points","test environments start programs with open standard streams",
["main.c:csn","target.c:target_new","patchdd.c:main","log.c:_u_log"])
p("C74","Keys do not stay in memory",
"When csn-tool crypt is done, when a key specification was parsed and when a store on the network was freed, none of the buffers they used holds the key, a key derived from it or the text of a key file.",
"all keys, key files, lists of files, parameters of stores, all failures of OpenSSL, reads and allocations","tests do not look at memory after it was given back",
["encrypt.c:hchacha20","encrypt.c:encrypt_restart","encrypt.c:encrypt_close","encrypt.c:encrypt_parse_keyspec","csn-tool.c:do_crypt","store-http.c:store_handle_params","store-http.c:store_http_new","store-http.c:store_http_free"])
p("C75","Wrong usage of csn-tool fails without effects",
"When csn-tool is called with arguments that its usage texts do not allow, nothing is opened, read or written, and the exit status is not zero (except for a request for help).",
"all command lines and states of the file system","infinitely many command lines",
["csn-tool.c:main","csn-tool.c:do_crypt","csn-tool.c:usage"])
p("C76","Only missing chunks are fetched",
"A store is asked for a chunk, and a server is sent a request for it, only if none of the stores listed before it has the chunk; with the target among the stores, those after it are asked for a chunk at most once.",
"all indices, targets, lists of stores, contents of local stores and of their indices, and servers; runs ending in any way, no system call failing","what a store has depends on its whole contents; unboundedly many chunks and stores",
["store.c:store_chain_get_chunk","store-local.c:store_local_get_chunk","target.c:target_store_get_chunk","store-http.c:store_http_get_chunk","main.c:entry_cb"])
p("C77","What csn-tool publishes, csn reproduces",
"When a directory has the compressed chunks of an image (each below 4 GiB, none encrypted yet), csn-tool crypt is given their paths on standard input and reports success, and a server makes the result available, then csn with the index file of the image and the server's URL with the same key among its stores ends successfully with the image on the target, or is killed. Likewise without encryption.",
"all images, divisions into chunks that fit the buffer, keys, compressed forms, directories, fragmentations and schedules; up to nine transient network failures in a row; any other stores that are usable","crosses two programs and a server; unboundedly many images",
["csn-tool.c:do_crypt","csn-tool.c:encrypt_one","encrypt.c:encrypt_do","store-http.c:store_http_get_chunk","store-http.c:store_handle_params","main.c:main"])
p("C78","What a caller of the chunker may rely on",
"For every sequence of scans, resets and ID queries on one chunker: a scan reports the first position, in the data given since the last reset, at which the chunk rule cuts, and consumes the buffer up to there, or there is none and it consumes the whole buffer; after a boundary it consumes nothing until it is reset; after a reset it behaves like a new chunker whatever was fed before; the answers do not depend on how data is divided into buffers, and the ID is the digest of exactly the consumed data.",
"all sequences of calls, buffers of any size including empty ones, parameters with a positive discriminator","the chunker keeps window, hash and digest state between calls; only eight ways of feeding one buffer are tested",
["chunker.c:chunker_scan","chunker.c:chunker_reset","chunker.c:chunker_get_id","chunker.c:chunker_shall_break","chunker.c:chunker_init"])
p("C79","Other files make no difference and are left alone",
"The result of csn, casync and patchdd, everything they write and every request they send depend only on files whose paths are part of an argument (besides the servers' answers and the outcomes of system calls); no other file is changed.",
"all command lines, all pairs of worlds that agree in the files named by the arguments, all schedules of system calls, allocation failures and server answers, all kill points","a relation between all pairs of file systems",
["main.c:main","main.c:csn","main.c:casync","main.c:append_store_from_arg","store-local.c:store_local_new","store-http.c:store_handle_params","encrypt.c:encrypt_parse_keyspec","target.c:target_new","patchdd.c:main"])
p("C80","Messages do not reveal keys",
"Nothing that csn or csn-tool prints, at the default level, tells anything about a key that was accepted: with any other accepted key the messages are the same.",
"all keys, all ways to give a key, all arguments, all outcomes of calls to the system and the libraries, all places in the code that print","a relation between runs with different keys, over all error paths",
["store.c:store_chain_free","store-http.c:store_http_new","store-http.c:store_handle_params","encrypt.c:encrypt_parse_keyspec","encrypt.c:encrypt_init","encrypt.c:encrypt_restart","csn-tool.c:do_crypt","csn-tool.c:encrypt_one","main.c:append_store_from_arg","utils.c:slurp_file","utils.c:parse_hex"])
p("C81","Failures are reported, and only failures",
"If a system call, an allocation or a library function that the code relies on fails, or if data from an index, a store, a server or an argument is refused, then csn, casync, csn-tool and patchdd print a warning or an error (at every log level but ERR), and without such an event they print none. A run that ends unsuccessfully has printed an error, at every log level, or a usage text.",
"all command lines, all outcomes of all calls and all results of checks on data, in every order, all log levels","each of some 200 messages belongs to an error path of its own, and later stages may go on after a failure",
["main.c:main","main.c:csn","main.c:casync","main.c:entry_cb","caibx.c:caibx_load_header","caibx.c:caibx_iterate_entries","chunker.c:chunker_scan_fd","store-local.c:store_local_new","store-local.c:store_local_get_chunk","store-http.c:store_http_get_chunk","store-http.c:store_http_data_cb","store-http.c:store_http_new","store.c:store_chain_get_chunk","target.c:target_write","target.c:target_check_chunk","csn-tool.c:do_crypt","csn-tool.c:encrypt_one","patchdd.c:main","utils.c:slurp_file","sha.c:sha_once"])
p("C82","Files that other processes change",
"Whatever other processes do to the target, the seed files and their indices while csn runs: every chunk csn writes hashes to the ID of its region, a run that succeeds has written every region or found it with the right contents, in the order of the index, no local store is scanned more than once after its creation, and there is no undefined behaviour.",
"all changes to files at any time, all stores and servers, all outcomes of calls, indices in which neighbouring regions with the same ID have the same length","needs changes to a file between two particular system calls",
["main.c:entry_cb","store.c:store_chain_get_chunk","store-local.c:store_local_get_chunk","store-local.c:store_scan","target.c:target_get_chunk","target.c:target_check_chunk","target.c:target_write","store-http.c:store_http_get_chunk"])
p("C83","What patchdd reports",
"patchdd prints the number of skipped bytes if and only if it succeeds, once and after the flush of the destination; the number and the bytes written make up the size of the source, it is the number of positions without a difference at them or before them in their block, and it is the size of the source if and only if the destination started with the source before and nothing was written.",
"all sources, destinations, block sizes, arguments, schedules of short reads and writes, failures and kill points","sums over all blocks of files of any size",
["patchdd.c:main","patchdd.c:memcmp_offset"])
p("C84","csn-tool when OpenSSL fails",
"If OpenSSL cannot create, reset or initialise the cipher or fails to encrypt, csn-tool does not report success for this chunk and writes nothing and creates no file for it; in a successful run over a list every conversion was done with a working cipher or had an output already.",
"all arguments, lists, files, schedules, and results of the OpenSSL functions in each conversion","failures of the library cannot be provoked by input; all combinations over lists of any length",
["encrypt.c:encrypt_init","encrypt.c:encrypt_restart","encrypt.c:encrypt_do","csn-tool.c:encrypt_one","csn-tool.c:do_crypt"])
p("C85","Memory used for downloads",
"The memory that a request to an HTTP store takes for data received but not yet decompressed is bounded, whatever the server sends; it is at most twice the data received (or what an earlier request took), and if the server sends what it should, a few bytes more than twice the data that libcurl hands over at a time.",
"all servers, bodies, fragmentations, decompressors, keys, failing attempts and allocation failures","needs servers that send unlimited data",
["store-http.c:decode_buffer_absorb","store-http.c:store_http_data_cb","store-http.c:handle_data","store-http.c:store_http_get_chunk"])
p("C86","One more store never hurts",
"If csn succeeds with an index that has no empty regions, it also succeeds with one more HTTP store given last, with the same files; even the requests are the same. More generally, if no chunk is looked for in vain, however the run ends, the store makes no difference, and a store given last that is not asked for anything can be left out.",
"all command lines, files, servers, schedules of system calls and kill points; unlimited memory; the additional store is a URL without parameters","a relation between two runs, over all runs",
["store.c:store_chain_get_chunk","store.c:store_chain_new","store.c:store_chain_append","main.c:append_store_from_arg","main.c:csn","main.c:entry_cb","main.c:main"])
p("C87","Several runs on the same target help each other",
"If several csn processes work on the same target at the same time for the same image (their indices may differ in the way the image is divided), every byte any of them writes is the one of the image, so what is right stays right; as soon as one of them has succeeded, the target holds all regions of its index, whatever the others have done and will do. This holds even if runs take chunks from the target itself, which are not compared.",
"any number of processes, all interleavings of their single byte accesses to the target, all stores (local seed files must not change), all answers of servers, failures and kill points","needs all interleavings of concurrent processes",
["main.c:entry_cb","target.c:target_check_chunk","target.c:target_get_chunk","target.c:target_write","store.c:store_chain_get_chunk"])
p("C88","A failing kernel hash interface lets no wrong data through",
"Whatever the kernel's hash interface does, a process gets at most one wrong digest, which is the one of an end of the data; csn writes nothing else for a region than the region of the image or what a store handed out without comparing, leaves nothing else as it is, and with HTTP stores only success means that every region was written or found as it is in the image. Right data may be refused because of the failure.",
"all points at which the interface fails, all data, servers, files that change, failures and kill points; no other data that is not longer than a region has its ID","failures of the kernel interface in the middle of a transfer cannot be provoked by input",
["sha.c:sha_once","chunk.h:chunk_calculate_id","target.c:target_check_chunk","store-local.c:store_local_get_chunk","store-http.c:store_http_get_chunk","main.c:entry_cb"])
p("C89","Several runs of csn-tool in the same directory",
"If several csn-tool processes convert files of the same directory with the same key at the same time, every byte any of them writes to an output is the one that belongs there, an output that was there before stays as it is, no other file is made or changed, and at every moment an output contains nothing but bytes that belong there and zeros; when a process has reported success, all its outputs are complete in the end.",
"any number of processes, lists of files, all interleavings of their single accesses to files, all failures and kill points","needs all interleavings of concurrent processes",
["csn-tool.c:encrypt_one","csn-tool.c:do_crypt","utils.c:writeall","utils.c:slurp_file"])
p("C90","patchdd when other processes change its files; csn and patchdd on the same target",
"Whatever other processes do to its files, patchdd works block after block and writes nothing but bytes it has just read from the source, at the same position and from the block's first difference on; when it reports success, every position of the source was written with what was read from the source there, or the same was read from both files, and the destination was flushed. If any number of csn and patchdd processes work on the same target for the same image, every byte one of them writes is the image's, and as soon as one of them has reported success, the target has all regions of its index, or all of its source, and keeps them.",
"all contents and changes of files, any number of processes, all interleavings of their single accesses to the target, all failures and kill points","needs all interleavings of concurrent processes",
["patchdd.c:main","patchdd.c:memcmp_offset","main.c:csn","utils.c:preadall","utils.c:pwriteall"])
p("C91","What an edit costs",
"Chunks that end before the first byte in which two versions of a file differ are the same in both; behind an edit, as soon as a chunk in the one version that ends because of the hash spans the start of a chunk in the other that is at least the minimal size and a hash window before that end, both have a boundary there and the same chunks from there on. So if csn is run for the new version with the old one as a local store, later stores are only asked for chunks between the maximal chunk size before the edit and the place where both versions have a boundary again; their number is bounded by the length of that part and the two sizes, not by the length of the file; and if the stores have these chunks, the run ends with the new version on the target, unless it is killed.",
"all pairs of versions u m t and u m' t with boundaries at t, index parameters, store lists, schedules of system calls, answers of servers, kill points","a relation between the chunkings of two files of any length and whole runs",
["chunker.c:chunker_scan","chunker.c:chunker_scan_fd","store-local.c:store_local_new","store-local.c:store_local_get_chunk","store.c:store_chain_get_chunk","main.c:csn"])
p("C92","Images that are made of chunks",
"A file that is put together from pieces each of which ends exactly where the chunker would cut is divided into these pieces again. The pieces of the end-to-end tests are such pieces with the default parameters, for every size and first byte the tests allow, so a scan of an image made of them reports exactly these and a local store with this image answers exactly these. A file of zeros of any length is divided into chunks of the maximal size, which are all the same, and one shorter chunk at most.",
"all lists of pieces, sizes from 16 KiB to 256 KiB, first bytes, lengths, read schedules and hash functions","the tests rely on it for the sizes they use",
["chunker.c:chunker_scan","chunker.c:chunker_shall_break","chunker.c:chunker_scan_fd","store-local.c:store_local_get_chunk","test/e2e/csn_test.py:Chunk.make"])
p("C93","Memory used for chunk indices",
"An index never has room for more than what it was made for, or a fifth more than the entries inserted, and one (48 bytes each). So a local store that was scanned takes memory in proportion to its file divided by the minimal chunk size (0.4 percent with the default sizes), one with an index file 48 bytes for each of the entries listed there, however long it is used and whatever is asked; the index of the target has room for exactly the entries of the index file and never grows.",
"all files, index files, parameters, histories of insertions and lookups, allocation failures, schedules of system calls, both front ends, any part of a run","the bound has to hold for files of every size and for histories of any length",
["index.c:index_init","index.c:index_insert","store-local.c:store_scan","store-local.c:store_sideload_index","store-local.c:store_local_get_chunk","target.c:target_add_chunk","target.c:target_as_store","main.c:entry_cb"])
p("C94","What csn-tool can do to the files when calls fail",
"Whatever its arguments and standard input are, whichever calls fail and wherever the run ends, csn-tool changes no file other than its outputs: the name given, the other form of the chunk given, or the other forms of the chunks in the list (or what standard output goes to, if the output is -). Every name keeps its file, new names are outputs, and no file gets a second name. After a single conversion the output is missing as before, has its old contents, or holds the beginning of the conversion of the input and nothing else.",
"all arguments, lists, file systems, schedules of system calls with errors at any place, kill points","failing calls at every place of runs of any length",
["csn-tool.c:main","csn-tool.c:do_crypt","csn-tool.c:encrypt_one","utils.c:slurp_file","utils.c:writeall"])
p("C95","The discriminator in floating point arithmetic",
"The formula of chunker.c:110, evaluated in IEEE 754 doubles, with every operation rounded or with product and sum contracted to one operation, has a defined value exactly for average sizes up to 9324556; it is usable (not zero) exactly from 2 to 9324556, never falls when the average size grows, is casync's 0xc17f for the default size, is the exact value for the powers of two up to 8 MiB, and up to 8 MiB differs from the exact value by one at most and only if that is within 2^-20 of an integer. From 9309388 on no chunk ends because of the hash. Scans with accepted parameters are free of undefined behaviour exactly if the average size is between 2 and 9324556 or the maximal size is at most 48; with the average size 1 (division by zero) otherwise every file of at least 48 bytes leads there, with a larger average size (conversion) every scan; csn never succeeds then if a local store without an index of its own is given. For some accepted average sizes machines that contract divide the same file differently than machines that do not.",
"all average sizes an index file can carry, both ways of evaluation; all files and read schedules","the result of floating point arithmetic on all average sizes and on other machines",
["chunker.c:CA_CHUNKER_DISCRIMINATOR_FROM_AVG","chunker.c:chunker_init","chunker.c:chunker_shall_break","chunker.c:chunker_params_set"])
p("C96","A server that is out of order is asked eleven times at most",
"In every run of csn and casync each question to an HTTP store leads to at most ten requests and at most 52.6 s of waiting between them. If the server of a store given as a URL is out of order all the time (cannot be reached, or answers every request with an error status other than 404 and 410), the store is asked for at most eleven chunks in the whole run, however many the index has and whatever the other stores do: at most 110 requests and 578.6 s of waiting are spent on it. All three numbers are reached, in a run that succeeds because of a store behind it. Conversely, if every attempt at the server is a transient failure or ends with a status, errors included, the store is not taken out of use before it was asked eleven times; so a server that is out of order in these ways is given up after exactly eleven questions. If all servers are out of order, the whole run makes at most 110 requests and waits at most 578.6 s per URL among the stores.",
"all command lines, indices, stores and network behaviour of the other servers","a server that is down for a whole run on an index with many chunks, and the sum of all the waiting",
["store-http.c:retried_curl_easy_perform","store-http.c:increase_error_counter","store-http.c:store_http_get_chunk","store.c:store_chain_get_chunk"])
with open("/verif/properties.jsonl","w") as f:
    for x in P: f.write(json.dumps(x)+"\n")
print(len(P))
