{"id": "C01", "title": "Range-batched decoding equals decoding each range separately", "statement": "Decoding a list of value ranges in one call returns, in the order the caller gave them, exactly the values that a full decode followed by slicing each range would return; how ranges are merged internally, their order, overlaps, duplicates and gaps never change a returned value.", "quantifier": "every list of ranges (any order, overlapping, touching, duplicated, empty), every field, every per-block decoder that returns the slice of the field it is asked for", "why_tests_cant": "The merge logic depends on the arrival order and relative position of arbitrarily many ranges; tests sample a handful of layouts.", "anchors": ["src/gribjump/compression/NumericCompressor.h: NumericDecompressor::decode(accessor, ranges)", "src/gribjump/compression/Range.cc: operator<<(BlockBuckets&, Block)"]}
{"id": "C02", "title": "Merged read blocks are minimal, disjoint and cover exactly the requested points", "statement": "After any sequence of range insertions the blocks to be read are in increasing order, pairwise disjoint and separated by a gap, every requested range lies inside exactly one block, and the blocks contain no point that no requested range covers.", "quantifier": "every sequence of range insertions with positive sizes, any order", "why_tests_cant": "It is an invariant over every insertion history; a single bad interleaving of overlaps would read too much, too little, or lose a range.", "anchors": ["src/gribjump/compression/Range.cc: operator<<(BlockBuckets&, Block)", "src/gribjump/compression/Range.h"]}
{"id": "C03", "title": "Partial decode of a simple-packed field agrees with full decode", "statement": "For a simple-packed field, decoding a range [o, o+n) reads only the bytes that hold those values and returns the same values as decoding the whole field and taking positions o..o+n-1, including when values straddle byte boundaries.", "quantifier": "every byte buffer, every bits-per-value the code supports, every in-bounds range", "why_tests_cant": "Bit alignment depends on (offset*bpv mod 8) and bpv jointly with arbitrary data; exhaustive testing is infeasible.", "anchors": ["src/gribjump/compression/compressors/Simple.cc: SimpleDecompressor::decode", "src/gribjump/compression/compressors/SimplePacking.cc: unpack, decode_array"]}
{"id": "C04", "title": "Simple packing returns the packed integers", "statement": "For each value, the integer read is the big-endian bpv-bit number stored at bit position i*bpv in the data section, and the returned value is (2^E * X + R) * 10^-D.", "quantifier": "every data section, every bits-per-value 0..64, every index", "why_tests_cant": "Needs agreement with the GRIB bit-layout definition for every width and alignment, including widths where the accumulator is nearly full.", "anchors": ["src/gribjump/compression/compressors/SimplePacking.cc: decode_array, unpack", "src/gribjump/compression/compressors/Simple.cc: decode"]}
{"id": "C05", "title": "The same scaling rule applies to every packing", "statement": "For every supported packing (simple and CCSDS) and every decimal scale factor D and binary scale factor E, a packed integer X decodes to (R + X*2^E) * 10^-D.", "quantifier": "every packing type, every integer scale factor (negative, zero, positive), every packed value", "why_tests_cant": "Test fields almost always have D = 0; a wrong sign or base is invisible there.", "anchors": ["src/gribjump/compression/compressors/Ccsds.cc: decode(accessor, range), decode(accessor)", "src/gribjump/compression/compressors/Simple.cc: decode", "src/gribjump/compression/NumericCompressor.h: codes_power"]}
{"id": "C06", "title": "CCSDS partial decode reads a window that holds the requested samples", "statement": "For a CCSDS-packed field and an in-bounds range, the byte window fetched and the relocated block offsets passed to the entropy decoder describe the same compressed blocks as in the whole message, so that the decoder returns the same samples as a whole-field decode sliced to the range; a range inside the field is never rejected.", "quantifier": "every list of block offsets, block size, sample width, every range inside the field", "why_tests_cant": "The window arithmetic has boundary cases (range starting/ending on a block boundary, last block, bit offsets not multiple of 8) that no sample of fields covers.", "anchors": ["src/gribjump/compression/compressors/Aec.cc: AecDecompressor::decode(accessor, range)", "src/gribjump/compression/compressors/Ccsds.cc: decode(accessor, range)"]}
{"id": "C07", "title": "Extraction from a field with missing values is position-correct", "statement": "Extracting intervals from a field with a bitmap returns for each requested grid point NaN if the bitmap marks it missing, and otherwise the value that full decoding assigns to that grid point; no value is shifted to a neighbouring point.", "quantifier": "every bitmap, every sorted non-overlapping list of intervals inside the field, every packed data array whose length is the number of present points", "why_tests_cant": "The mapping from grid points to packed positions is a running count over an arbitrary bitmap interleaved with arbitrary intervals.", "anchors": ["src/gribjump/jumper/Jumper.cc: extractMasked, calculateMaskedIntervals"]}
{"id": "C08", "title": "Grid-point to packed-position mapping", "statement": "The packed-array interval computed for a grid interval [b,e) begins at the number of present points before b and has as many entries as there are present points in [b,e).", "quantifier": "every bitmap, every sorted non-overlapping list of intervals inside the bitmap", "why_tests_cant": "Counts accumulate across all previous intervals and gaps; an error at one interval propagates only for particular bitmaps.", "anchors": ["src/gribjump/jumper/Jumper.cc: calculateMaskedIntervals"]}
{"id": "C09", "title": "Bitmap section decoding", "statement": "Reading the bitmap section of a message yields one flag per grid point, flag i being bit (7 - i mod 8) of byte i/8 of the section, for any number of grid points, and padding bits are ignored; a short read is reported as an error.", "quantifier": "every bitmap section and every number of points, multiple of eight or not", "why_tests_cant": "The bit order and the tail byte matter for every length and content.", "anchors": ["src/gribjump/jumper/Jumper.cc: readBitmap"]}
{"id": "C10", "title": "Returned presence masks match returned values", "statement": "The mask returned with each range has ceil(n/64) words, bit k of word j tells whether value 64*j+k is present (not NaN), and unused high bits are zero; decoding the words in the clients gives back exactly the presence flags.", "quantifier": "every bitmap slice length and content", "why_tests_cant": "Off-by-one at multiples of 64 and bit ordering must hold for every length.", "anchors": ["src/gribjump/jumper/Jumper.cc: toBitset, extractNoMask, extractMasked", "python/pygribjump/src/pygribjump/pygribjump.py: ExtractionResult.compute_bool_masks", "rust/crates/gribjump/src/result.rs: RangeView::is_valid"]}
{"id": "C11", "title": "Malformed interval lists are rejected", "statement": "An extraction whose intervals are empty, unsorted, overlapping, reversed (begin > end) or extend past the number of grid points is rejected with an error; no value is returned for it.", "quantifier": "every list of intervals and every field size", "why_tests_cant": "Rejection must hold for every malformed list, however it is malformed.", "anchors": ["src/gribjump/jumper/Jumper.cc: checkIntervals, extract"]}
{"id": "C12", "title": "Constant fields return the reference value at every present point", "statement": "For a field with zero bits per value, every requested present grid point returns the reference value and every missing point returns NaN.", "quantifier": "every bitmap, reference value and in-range interval list", "why_tests_cant": "Constant fields take a separate code path that tests exercise only without a bitmap.", "anchors": ["src/gribjump/jumper/Jumper.cc: extractConstant, extract"]}
{"id": "C13", "title": "Result shape mirrors the request", "statement": "A successful extraction returns one value array and one mask array per requested interval, in request order, the k-th having end_k - begin_k values.", "quantifier": "every field kind (constant, unmasked, masked), every accepted interval list", "why_tests_cant": "Shape must hold for every interval list and bitmap, across three code paths.", "anchors": ["src/gribjump/jumper/Jumper.cc: extract and callees", "src/gribjump/compression/NumericCompressor.h: decode"]}
{"id": "C14", "title": "The in-memory info cache is a bounded LRU map", "statement": "The cache never holds more than its capacity, a lookup returns the most recently stored value for the key or reports absence, storing evicts only the least recently used entry, and the entries present are exactly the capacity-many most recently used distinct keys.", "quantifier": "every sequence of put/get/exists/clear operations, every capacity >= 1", "why_tests_cant": "It is a property of every operation history.", "anchors": ["src/gribjump/info/LRUCache.h"]}
{"id": "C15", "title": "Metadata lookups return the metadata of the requested message", "statement": "Looking up message metadata for (file, offsets) returns, in the order asked, the metadata of exactly those messages of that file, whatever was cached before, through memory cache, index file or on-the-fly extraction.", "quantifier": "every history of lookups and insertions over every set of file paths and offsets", "why_tests_cant": "Depends on the history of the shared cache and on collisions between keys of different files.", "anchors": ["src/gribjump/info/InfoCache.cc: get, getCached, putCache, cachekey, cacheFilePath"]}
{"id": "C16", "title": "Index files round-trip", "statement": "Writing an index of message metadata to a file and loading it back yields the same offset-to-metadata map, also when the file was produced by appending several batches.", "quantifier": "every index content, every number of append batches", "why_tests_cant": "Ranges over all metadata values, all orders and sizes and duplicate keys across batches.", "anchors": ["src/gribjump/info/InfoCache.cc: IndexFile::encode, decode, appendToFile, toNewFile"]}
{"id": "C17", "title": "A crash while writing an index never corrupts the published index", "statement": "If the process stops at any point while a scan writes the index file of a data file, a later reader finds either the previous complete index or the new complete index.", "quantifier": "every crash point of the write sequence, every previous and new content", "why_tests_cant": "Crash points cannot be enumerated by unit tests.", "anchors": ["src/gribjump/info/InfoCache.cc: IndexFile::write, toNewFile, appendToFile"]}
{"id": "C18", "title": "Scanning is complete and idempotent", "statement": "After scanning offsets of a file the index holds metadata for every scanned offset and keeps all entries it had; the reported number is the number of offsets newly indexed; scanning the same offsets again changes nothing and reports 0.", "quantifier": "every prior index, every list of offsets", "why_tests_cant": "Quantifies over all prior index states and offset lists (including duplicates).", "anchors": ["src/gribjump/info/InfoCache.cc: InfoCache::scan"]}
{"id": "C19", "title": "Scan with merge disabled rebuilds the index from the data file", "statement": "Scanning a whole file without merging produces an index whose content is that of the data file now, whatever the index held before.", "quantifier": "every prior index content, every data file content", "why_tests_cant": "Stale entries only matter after a history in which the file changed.", "anchors": ["src/gribjump/info/InfoCache.cc: InfoCache::scan(path, mergeExisting), IndexFile::reload", "src/gribjump/info/InfoCache.h"]}
{"id": "C20", "title": "Message metadata round-trips through serialisation", "statement": "Serialising and deserialising message metadata of any packing type restores every field, so that extraction from cached metadata equals extraction from freshly extracted metadata.", "quantifier": "every metadata record of every supported packing type", "why_tests_cant": "A swapped pair of same-typed fields is invisible unless both values differ and both are compared.", "anchors": ["src/gribjump/info/JumpInfo.cc: encode, JumpInfo(Stream&)", "src/gribjump/info/CcsdsInfo.cc: encode, CcsdsInfo(Stream&)", "src/gribjump/info/InfoFactory.cc"]}
{"id": "C21", "title": "Remote requests and replies round-trip", "statement": "Every message of the client/server protocol (extract, scan, axes, forwarded extract and forwarded scan; requests and replies) decodes on the other side to what was sent, and decoding consumes exactly the bytes that encoding produced, so that consecutive messages stay in step.", "quantifier": "every request and reply value, every following stream content", "why_tests_cant": "Must hold for every payload, including empty lists, empty vectors and mask word counts.", "anchors": ["src/gribjump/remote/Protocol.cc", "src/gribjump/ExtractionData.cc"]}
{"id": "C22", "title": "Protocol version and request type are validated", "statement": "The server accepts a connection's request only if the client's protocol version equals its own and the request type is one of the five known types; anything else is rejected before any work is done.", "quantifier": "every version number and every request type number", "why_tests_cant": "All 2^16 x 2^16 headers.", "anchors": ["src/gribjump/remote/Protocol.cc: readRequestHeader", "src/gribjump/remote/GribJumpUser.cc: dispatchRequest, processRequest"]}
{"id": "C23", "title": "The work queue loses and duplicates nothing", "statement": "Every task submitted to the work queue is handed to exactly one worker exactly once, tasks of one request are handed out in submission order, and after shutdown the workers drain all queued tasks.", "quantifier": "every interleaving of submissions and worker pops, any number of requests and workers", "why_tests_cant": "All schedules.", "anchors": ["src/gribjump/remote/WorkQueue.cc: push, popNext"]}
{"id": "C24", "title": "Round-robin fairness", "statement": "When k requests have queued tasks, a request waits for at most k-1 tasks of other requests before its next task is handed out, whatever else is submitted in the meantime.", "quantifier": "every queue state reachable by submissions and pops, every later schedule", "why_tests_cant": "Fairness is a statement about all infinite-length schedules.", "anchors": ["src/gribjump/remote/WorkQueue.cc: push, popNext", "docs/gribjump/round-robin-scheduling.md"]}
{"id": "C25", "title": "A request waits for all its tasks and always terminates", "statement": "The call that waits for a request's tasks returns only when no task of the request is running or queued, and it does return once the workers have processed all queued tasks, also when some task fails.", "quantifier": "every number of tasks, every subset of failing tasks, every schedule of workers", "why_tests_cant": "Depends on the interleaving of failures, cancellation and workers.", "anchors": ["src/gribjump/Task.cc: Task::execute, TaskGroup::notify*, waitForTasks, cancelTasks"]}
{"id": "C26", "title": "No silent partial failure", "statement": "If any task of a request fails, the caller receives an error naming the failure and never a result; if no task fails every task was executed to completion exactly once.", "quantifier": "every schedule and every set of failures", "why_tests_cant": "All schedules, all failure subsets.", "anchors": ["src/gribjump/Task.cc: TaskGroup, TaskReport", "src/gribjump/LocalGribJump.cc", "src/gribjump/remote/RemoteGribJump.cc", "src/gribjump/remote/GribJumpUser.cc: processRequest"]}
{"id": "C27", "title": "Results come back in request order, one per request", "statement": "A successful extraction of n requests yields n results, the i-th being the extraction of the i-th request's field over the i-th request's ranges.", "quantifier": "every list of requests (any order, several per file, several files)", "why_tests_cant": "Requests are regrouped by file and sorted by offset; the permutation must be undone for every grouping.", "anchors": ["src/gribjump/Engine.cc: buildRequestMap, collectResults", "src/gribjump/LocalGribJump.cc: collect_results", "src/gribjump/remote/Request.cc: ExtractRequest::replyToClient"]}
{"id": "C28", "title": "Request canonicalisation identifies requests up to key order", "statement": "Two extraction requests that list the same key=value pairs in any order are identified with each other and with the catalogue entry carrying those pairs; requests that differ in some pair are kept apart.", "quantifier": "every list of key=value pairs, every permutation, every catalogue key", "why_tests_cant": "Depends on string ordering for arbitrary keys and on earlier requests in the same call.", "anchors": ["src/gribjump/Engine.cc: buildRequestMap", "src/gribjump/Lister.cc: fdbkeyToStr"]}
{"id": "C29", "title": "Missing fields are reported", "statement": "Unless missing data is explicitly allowed, an extraction for which some requested field is not in the catalogue fails with a data-not-found error.", "quantifier": "every list of requests, every catalogue listing", "why_tests_cant": "The check is a count comparison whose correctness depends on the listing's content.", "anchors": ["src/gribjump/Lister.cc: fileMap"]}
{"id": "C30", "title": "Grouping by file is a partition", "statement": "Regrouping requests by file puts every matched request in the group of its own file exactly once and creates no other entries.", "quantifier": "every listing order and any distribution of requests over files", "why_tests_cant": "All listings.", "anchors": ["src/gribjump/Lister.cc: fileMap, fileMapfromPaths, filesOffsets"]}
{"id": "C31", "title": "Forwarding sends every file to its server exactly once", "statement": "With forwarding enabled, each file is sent to the configured server of its own endpoint, no file is lost or sent twice, an unconfigured endpoint is an error, and the results received are stored in the items they belong to.", "quantifier": "every file map and every server configuration", "why_tests_cant": "All distributions of files over endpoints.", "anchors": ["src/gribjump/Forwarder.cc", "src/gribjump/remote/Protocol.cc: encodeForwardExtractRequest, decodeForwardExtractReply"]}
{"id": "C32", "title": "Message discovery in a file", "statement": "Scanning a file for messages finds the offset of every message, independent of how reads are chunked.", "quantifier": "every file content, every chunk size and read pattern", "why_tests_cant": "Markers can straddle any chunk boundary.", "anchors": ["src/gribjump/info/InfoExtractor.cc: findGRIBOffsets, offsets"]}
{"id": "C33", "title": "Every archived GRIB field is indexed at flush", "statement": "With the FDB plugin enabled, after flush returns, every GRIB field archived before it whose key matches the selection is in the index with its own offset; others are not.", "quantifier": "every sequence of archive and flush callbacks, every schedule of the indexing thread", "why_tests_cant": "Producer/consumer interleavings and histories.", "anchors": ["src/gribjump/info/InfoAggregator.cc", "src/gribjump/FDBPlugin.cc"]}
{"id": "C34", "title": "Selection matches a field iff all selected keys match", "statement": "A field is selected by the plugin iff for every key in the selection the field has the key and its value matches the configured pattern (an empty selection selects nothing); an invalid selection is rejected.", "quantifier": "every selection string, every field key", "why_tests_cant": "All selections and keys.", "anchors": ["src/gribjump/FDBPlugin.cc: parseConfig, matches"]}
{"id": "C35", "title": "The result iterator yields each result once, in order, then ends", "statement": "Iterating an extraction yields exactly the results in order and then reports completion forever; dumping after k steps yields the remaining ones.", "quantifier": "every result list, every interleaving of hasNext/next/dump calls", "why_tests_cant": "All call histories.", "anchors": ["src/gribjump/api/ExtractionIterator.h", "src/gribjump/gribjump_c.cc: gribjump_extractioniterator_next"]}
{"id": "C36", "title": "The C API never writes outside the caller's buffer", "statement": "Copying values or masks of a result into a caller-provided buffer of the stated size either copies all of them in order or fails; it never writes past the stated size.", "quantifier": "every result, every stated buffer size", "why_tests_cant": "All sizes, including too small ones.", "anchors": ["src/gribjump/gribjump_c.cc: gribjump_result_values, gribjump_result_mask"]}
{"id": "C37", "title": "Mask-based requests select exactly the masked points", "statement": "A request built from a boolean mask asks for sorted, non-empty, non-overlapping ranges covering exactly the True positions; the result's value at position j corresponds to the j-th True position.", "quantifier": "every boolean mask", "why_tests_cant": "All masks of all lengths.", "anchors": ["python/pygribjump/src/pygribjump/pygribjump.py: ExtractionRequest.from_mask, indices"]}
{"id": "C38", "title": "Per-message ranges survive flattening across the Rust bridge", "statement": "The per-message lists of ranges passed to the Rust file API arrive in C++ unchanged, for any number of messages and ranges including messages with no range.", "quantifier": "every list of (offset, ranges)", "why_tests_cant": "All nested list shapes.", "anchors": ["rust/crates/gribjump/src/request.rs: FileExtraction::to_cxx", "rust/crates/gribjump-sys/cpp/gribjump_bridge.cpp: extract_from_file"]}
{"id": "C39", "title": "Grid check guards values", "statement": "Unless grid checking is disabled, no value is returned for a request whose grid hash is absent or differs from the field's grid hash.", "quantifier": "every batch of requests, every hash", "why_tests_cant": "Must hold for every item in every batch.", "anchors": ["src/gribjump/Task.cc: FileExtractionTask::extract"]}
{"id": "C40", "title": "Extraction equals the reference decoder end to end", "statement": "For a simple-packed field (with or without bitmap, constant or not) with supported bit width, extraction of an accepted interval list returns exactly what decoding the complete message by the GRIB definition and slicing would return.", "quantifier": "every message content, every interval list inside the field", "why_tests_cant": "Composition of all layers over all inputs.", "anchors": ["src/gribjump/jumper/Jumper.cc", "src/gribjump/jumper/SimpleJumper.cc", "src/gribjump/compression/compressors/Simple.cc", "src/gribjump/compression/NumericCompressor.h"]}
{"id": "C41", "title": "A remote call returns what the server computed, or throws", "statement": "A remote extract, axes, scan, forwarded scan or forwarded extract call returns exactly what the server's engine computed for the same arguments, in request order; if the engine throws or its report holds errors, the caller gets a remote exception and never a partial or shifted result.", "quantifier": "every request, every behaviour of the server's engine", "why_tests_cant": "Must hold for every engine outcome and every message content.", "anchors": ["src/gribjump/remote/RemoteGribJump.cc", "src/gribjump/remote/GribJumpUser.cc: serve, processRequest, dispatchRequest", "src/gribjump/remote/Request.cc"]}
{"id": "C42", "title": "Extraction from a CCSDS-packed message equals slicing the whole decoded field", "statement": "For a CCSDS-packed field (with or without bitmap) that was indexed, extraction of an accepted interval list returns exactly the slices of the field obtained by decompressing the whole data section and applying the GRIB value formula, with NaN at missing points and masks telling which points are present.", "quantifier": "every message content, every entropy decoder behaviour that meets the libaec contract, every interval list inside the field", "why_tests_cant": "Composition of all layers over all inputs, including block boundaries that are not byte aligned.", "anchors": ["src/gribjump/jumper/Jumper.cc", "src/gribjump/jumper/CcsdsJumper.cc", "src/gribjump/info/CcsdsInfo.cc", "src/gribjump/compression/compressors/Ccsds.cc", "src/gribjump/compression/compressors/Aec.cc"]}
{"id": "C43", "title": "A broken connection never causes work or a partial result", "statement": "If the connection breaks, at any point, before a request has been received in full, the server starts no work for it; if it breaks before a reply has been received in full, the caller gets an exception and never a partial or shortened result.", "quantifier": "every request and reply, every point at which the connection can break or the peer can report an exception", "why_tests_cant": "Must hold at every cut point of every message.", "anchors": ["src/gribjump/remote/GribJumpUser.cc: serve, processRequest", "src/gribjump/remote/Request.cc", "src/gribjump/remote/RemoteGribJump.cc", "src/gribjump/ExtractionData.cc"]}
{"id": "C44", "title": "Whatever a client sends is answered", "statement": "For every sequence of items a client may send, well formed or not, the server does at most one piece of work and sends back an answer or an exception; it never reads memory outside what was received.", "quantifier": "every sequence of stream items", "why_tests_cant": "Malformed input is unbounded.", "anchors": ["src/gribjump/remote/GribJumpUser.cc: serve", "src/gribjump/remote/Request.cc", "src/gribjump/ExtractionData.cc: decodeRanges"]}
{"id": "C45", "title": "A damaged index file never yields wrong metadata", "statement": "Whatever happened to an index file (cut off at any point by a crash or a full disk, appended to afterwards, written by another format version, empty, not an index at all), loading it either throws or gives metadata that was recorded for the offset asked for, with every entry that was complete before the cut.", "quantifier": "every list of entries, every cut point, every later append, every version number", "why_tests_cant": "Every crash point of every file.", "anchors": ["src/gribjump/info/InfoCache.cc: IndexFile::decode, appendToFile, toNewFile, load, find"]}
{"id": "C46", "title": "A message yields the same values wherever it is stored", "statement": "Metadata and values obtained from a message do not depend on the file or offset it is stored at, nor on the bytes around it; the fallback that reads a message out of a remote store returns what extraction from a file holding the same message returns.", "quantifier": "every message, every two places holding it, every way a store may deliver it, every interval list", "why_tests_cant": "Ranges over all surrounding contents, offsets and delivery patterns.", "anchors": ["src/gribjump/Task.cc: InefficientFileExtractionTask::extract", "src/gribjump/info/InfoFactory.cc", "src/gribjump/info/JumpInfo.cc", "src/gribjump/jumper/Jumper.cc"]}
{"id": "C47", "title": "Extraction by file and offsets returns one result per offset, in order", "statement": "Extraction from a file by a list of offsets and a list of interval lists returns, at position k, the values of the intervals at position k in the message at offset k, or fails as a whole; wrong arguments (empty path, no offsets, lists of different length) are refused.", "quantifier": "every file, every list of offsets (repeated, unordered), every list of interval lists", "why_tests_cant": "Alignment must hold for every list and every failure position.", "anchors": ["src/gribjump/GribJump.cc: extract(path, offsets, ranges)", "src/gribjump/LocalGribJump.cc: extract", "src/gribjump/info/InfoExtractor.cc", "src/gribjump/jumper/JumperFactory.cc"]}
{"id": "C48", "title": "Metadata built at archive time equals metadata built by a scan", "statement": "The metadata built from archived bytes equals that built by scanning the file they were written to; unsupported editions give no metadata, unsupported packings give metadata from which every extraction is refused; building metadata never has undefined behaviour.", "quantifier": "every message, every file, every offset", "why_tests_cant": "Two code paths must agree on every message.", "anchors": ["src/gribjump/info/InfoFactory.cc", "src/gribjump/info/JumpInfo.cc", "src/gribjump/info/SimpleInfo.cc", "src/gribjump/info/CcsdsInfo.cc", "src/gribjump/info/UnsupportedInfo.cc", "src/gribjump/info/InfoExtractor.cc", "src/gribjump/jumper/JumperFactory.cc"]}
{"id": "C49", "title": "Extraction through the metadata cache equals extraction straight from the file", "statement": "Whatever lookups, scans, insertions, flushes, cache clears and growth of data files happened in whatever interleaving, an extraction that uses cached metadata has the outcome that reading the message's header anew would have; values once extracted stay those the file gives.", "quantifier": "every history and interleaving, every set of files and index files that agree with them", "why_tests_cant": "Unbounded histories of a shared cache.", "anchors": ["src/gribjump/info/InfoCache.cc", "src/gribjump/Task.cc: FileExtractionTask::extract", "src/gribjump/jumper/Jumper.cc"]}
{"id": "C50", "title": "A successful request returns the values of the one matching message, through all layers", "statement": "On a node with any history of cache use and growing files, a successful extraction call returns one result per request, in request order, and each is exactly what decoding the single matching message of the catalogue gives over the ranges asked for, for every schedule of the tasks.", "quantifier": "every history, catalogue, list of requests, schedule, file content", "why_tests_cant": "Composition of request matching, grouping, scheduling, cache, file access and decoding.", "anchors": ["src/gribjump/Engine.cc", "src/gribjump/Lister.cc", "src/gribjump/Task.cc", "src/gribjump/info/InfoCache.cc", "src/gribjump/info/InfoFactory.cc", "src/gribjump/jumper/Jumper.cc", "src/gribjump/LocalGribJump.cc"]}
{"id": "C51", "title": "A scan indexes what it was asked to, for every schedule, and reports the truth", "statement": "A scan of requests indexes exactly the listed messages (by files: all messages of every file holding one), of files all their messages. It keeps earlier entries, reports the number of messages newly indexed, reports zero when repeated, does each file as if it were the only one, and fails if and only if some file cannot be scanned. Forwarded, each responsible server is asked once with exactly its messages and the number is the sum of the answers; a message no server is responsible for is an error before any server is asked.", "quantifier": "every catalogue, list of requests or files, state of the indexes, interleaving of the workers, server configuration and server answer", "why_tests_cant": "Concurrent workers write index files and a shared counter; any interleaving and any failing subset.", "anchors": ["src/gribjump/Engine.cc: scan, scheduleScanTasks", "src/gribjump/Forwarder.cc: scan", "src/gribjump/Lister.cc: filesOffsets, URIs", "src/gribjump/Task.cc: FileScanTask, ForwardScanTask", "src/gribjump/GribJump.cc: scan", "src/gribjump/info/InfoCache.cc: scan"]}
{"id": "C52", "title": "A cluster of servers returns what the responsible server's files hold", "statement": "A client calls a node, which forwards extractions and scans to the servers configured for the fields' locations; every server has its own files, cache and history, and everything between them goes through the protocol. A successful extraction returns, in request order, exactly what decoding the matching message in the responsible server's file gives, checked against the grid hash there; the client succeeds exactly when the same call on the node does, with the same results. A forwarded scan indexes each listed message on the responsible server and reports how many were new.", "quantifier": "every number of servers, server map, history of every node, catalogue, list of requests, schedule on every node", "why_tests_cant": "Composition over processes; every distribution of fields over servers and every interleaving.", "anchors": ["src/gribjump/Forwarder.cc", "src/gribjump/Engine.cc: scheduleExtractionTasks", "src/gribjump/remote/Request.cc: ForwardedExtractRequest, ForwardedScanRequest", "src/gribjump/remote/RemoteGribJump.cc", "src/gribjump/remote/Protocol.cc", "src/gribjump/Task.cc"]}
{"id": "C53", "title": "64-bit arithmetic and limited memory never change extracted values", "statement": "For intervals of any magnitude, extraction on a machine with 64-bit sizes and limited memory returns exactly the values of the points asked for or fails; it never returns values of other points.", "quantifier": "every message, metadata record, interval list and memory size", "why_tests_cant": "Overflow shows only at magnitudes no test data reaches; all offsets, sizes and widths must be covered.", "anchors": ["src/gribjump/compression/Range.cc", "src/gribjump/compression/NumericCompressor.h", "src/gribjump/compression/compressors/Simple.cc", "src/gribjump/compression/compressors/Aec.cc", "src/gribjump/compression/compressors/Ccsds.cc", "src/gribjump/GribJumpDataAccessor.h", "src/gribjump/jumper/Jumper.cc: toRanges"]}
{"id": "C54", "title": "No interval list makes extraction do anything undefined", "statement": "Whatever intervals a caller gives, extraction returns as many values for each interval as it has points, or throws; it never reads or writes outside its buffers.", "quantifier": "every file content, metadata record, interval list and memory size", "why_tests_cant": "Memory safety for unbounded magnitudes of intervals, where sums and products wrap.", "anchors": ["src/gribjump/compression/Range.cc", "src/gribjump/compression/NumericCompressor.h", "src/gribjump/compression/compressors/SimplePacking.cc", "src/gribjump/compression/compressors/Aec.cc", "src/gribjump/jumper/Jumper.cc"]}
{"id": "C55", "title": "Acceptable requests never bring a server down", "statement": "A client that asks for intervals which run forward and, on fields with a bitmap, end inside the field, always gets an answer from the server (results or an error): whatever fails on the way, in whatever order the workers run, and whatever the listing, the files and other servers contain. The same holds for calls made in the same process.", "quantifier": "every request of every type, listing, metadata, file content, answer of another server, failing call and schedule of the workers", "why_tests_cant": "A crash needs one combination of request, failure and interleaving; a server must survive all of them.", "anchors": ["src/gribjump/remote/GribJumpUser.cc", "src/gribjump/remote/Request.cc", "src/gribjump/Engine.cc", "src/gribjump/Lister.cc", "src/gribjump/Forwarder.cc", "src/gribjump/Task.cc", "src/gribjump/remote/Protocol.cc"]}
{"id": "C56", "title": "Extracted values are as accurate as double precision allows", "statement": "The floating-point value returned for a grid point differs from the value the GRIB standard assigns to the stored integer only by rounding: by at most (|D|+3) x 2^-53 of its size for decimal scale factor D, by no more than half the spacing of doubles when D is 0, and never so as to reverse the order of two values of one field.", "quantifier": "every reference value, binary and decimal scale factor, packed integer of up to 53 bits, and every rounding to nearest", "why_tests_cant": "Tests compare a few fields with a tolerance; the accumulated error of repeated divisions by ten depends on the scale factor and the bits of the value.", "anchors": ["src/gribjump/compression/NumericCompressor.h: codes_power", "src/gribjump/compression/compressors/SimplePacking.cc: decode_array, unpack", "src/gribjump/compression/compressors/Ccsds.cc: decode_range_, decode_all_"]}
{"id": "C57", "title": "A Python user gets each result unpacked by its own request's ranges", "statement": "Iterating over an extraction in Python yields the results in request order, each once; the values, masks and boolean masks of a result are the arrays extracted for its own ranges, one per range; the dump functions give the same.", "quantifier": "every list of requests, ranges and results; every sequence of starting, continuing and restarting loops", "why_tests_cant": "A test loops once over a few results; here the pairing of results with shapes must hold for every way of iterating and every combination of range lengths, including those where a wrong split goes unnoticed.", "anchors": ["python/pygribjump/src/pygribjump/pygribjump.py: ExtractionIterator, ExtractionSingleIterator, ExtractionResult", "src/gribjump/gribjump_c.cc: gribjump_extractioniterator_next, extraction result values and mask accessors"]}
{"id": "C58", "title": "The ranges file means what it says", "statement": "A ranges file with one line of comma-separated 'start-end' ranges per request gives each request exactly the ranges of its line; one line applies to all requests; a wrong number of lines, a malformed range or a bound that does not fit is refused; no file makes the tool misbehave.", "quantifier": "every list of lists of ranges; every file content; every number of requests", "why_tests_cant": "A test reads a few well-formed files; the claim is about every number that can be written, the boundary at which it no longer fits, and arbitrary file content.", "anchors": ["src/gribjump/tools/ToolUtils.cc: parseRangesFile", "src/tools/gribjump-extract.cc: execute", "src/tools/gribjump-validate.cc: execute"]}
{"id": "C59", "title": "gribjump-extract prints each request's ranges with its values", "statement": "The extract tool prints, for every field asked for, the request, its own ranges and the values and masks extracted for them, in order.", "quantifier": "every list of requests, any expansion into fields, every ranges file, every extraction outcome", "why_tests_cant": "A test has requests of one field; expansion into several fields shifts the positions at which requests and ranges are looked up.", "anchors": ["src/tools/gribjump-extract.cc: execute"]}
{"id": "C60", "title": "gribjump-validate reports a match exactly if all values are right", "statement": "The validate tool reports that all values match if and only if every request names one field and every extracted value equals the one eccodes decodes at that point; it counts all points.", "quantifier": "every list of requests and ranges, every field content, every extraction outcome, right or wrong", "why_tests_cant": "A test runs the tool on correct results; that every single wrong value would be noticed, and that right ones never are reported wrong, is about all results.", "anchors": ["src/tools/gribjump-validate.cc: execute", "src/gribjump/tools/EccodesExtract.cc: eccodesExtract"]}
{"id": "C61", "title": "gribjump-scan-files indexes the files it is given", "statement": "Scanning files with the tool indexes every message of each of them; asked to skip files that have an index, it scans exactly the others; a missing file stops it before anything is scanned; a dry run changes nothing.", "quantifier": "every list of files, every set of existing files and index files, every interleaving of scan tasks, every cache configuration", "why_tests_cant": "A test scans a couple of files in one configuration; the claim ranges over file sets, configurations of the place of index files, and schedules.", "anchors": ["src/tools/gribjump-scan-files.cc: execute", "src/gribjump/GribJump.cc: scan"]}
{"id": "C62", "title": "What a Python user asks for is what the library is asked", "statement": "A request made from a dictionary, ranges and an optional grid hash is accepted exactly if there is at least one range and each has at least one point and bounds from 0 up to what fits; then the library receives a request that names the fields of the dictionary, those ranges and that hash, and the arrays the user unpacks are, request by request, the values of the matching field in those ranges. Helper conversions between ranges and text are inverse to each other.", "quantifier": "every dictionary of names and values, every list of integer ranges, every catalogue and node history", "why_tests_cant": "A test builds a few requests; whether every dictionary names the intended field, and where bounds stop fitting, is about all of them.", "anchors": ["python/pygribjump/src/pygribjump/pygribjump.py: ExtractionRequest, PathExtractionRequest, dic_to_request, list_to_rangestr, rangestr_to_list", "src/gribjump/gribjump_c.cc: gribjump_new_request"]}
{"id": "C63", "title": "Axes queries return what the catalogue lists", "statement": "For a text that is one request, an axes query returns exactly the names the catalogue lists and for each the set of its values, the same in C++, Python and Rust and on the node or through a server; an empty text or one that is several requests is refused.", "quantifier": "every dictionary or request text, every level, every listing", "why_tests_cant": "A test compares one listing; that no name or value is lost, doubled or changed on the way through the wire and the C interface is about all of them.", "anchors": ["src/gribjump/Lister.cc: FDBLister::axes", "src/gribjump/gribjump_c.cc: gribjump_axes_t", "python/pygribjump/src/pygribjump/pygribjump.py: GribJump.axes", "rust/crates/gribjump-sys/cpp/gribjump_bridge.cpp: axes"]}
{"id": "C64", "title": "A Rust user sees the results, validity and errors of the library", "statement": "Iterating in Rust yields the results once each and in order and then ends, however next and next_result are mixed; every range of a result has its values and flags, and the valid values are those of the points that are present; a request by file reaches the library as from Python; each kind of library error arrives as that kind with its message.", "quantifier": "every list of results, every sequence of calls, every field and bitmap, every error message", "why_tests_cant": "A test looks at a few small results and one error of each kind; the claim is about all call histories, lengths and messages.", "anchors": ["rust/crates/gribjump/src/iterator.rs", "rust/crates/gribjump/src/result.rs", "rust/crates/gribjump/src/request.rs", "rust/crates/gribjump/src/error.rs", "rust/crates/gribjump-sys/cpp/gribjump_bridge.h: trycatch", "rust/crates/gribjump-sys/cpp/gribjump_bridge.cpp"]}
{"id": "C65", "title": "Local and remote handles are interchangeable", "statement": "Which implementation a handle gets depends only on the configuration. For extractions, axes and scans, a call on a remote handle of a node gives what the same call on a local handle at that node gives: the same values, axes and counts, also when the node forwards to servers, and up to the arrays a Python user unpacks. Path-based calls on a remote handle are refused.", "quantifier": "every configuration, request list, catalogue, node history and set of servers", "why_tests_cant": "A test compares a few requests against one server on localhost; the claim is that moving from a local to a remote configuration changes nothing for any request.", "anchors": ["src/gribjump/GribJump.cc: GribJump::extract, GribJump::scan, GribJump::axes", "src/gribjump/GribJumpFactory.cc: GribJumpFactory::build", "src/gribjump/LocalGribJump.cc", "src/gribjump/remote/RemoteGribJump.cc", "src/gribjump/remote/RemoteGribJump.h"]}
{"id": "C66", "title": "A call's log context accompanies everything done for it", "statement": "A context that is not JSON is refused before anything is sent. Otherwise every request header sent for a call, by the user's handle or by a worker of any server in between, and every metrics line a server writes for it, carry exactly the context the user gave to that call, however calls share threads and workers. The context a task group refers to outlives its tasks.", "quantifier": "every number of users, threads, workers and servers and every interleaving of their steps", "why_tests_cant": "Contexts are thread-local and handed from thread to thread by reference; mix-ups appear only when users share workers in particular orders.", "anchors": ["src/gribjump/Metrics.h: LogContext, ContextManager", "src/gribjump/Metrics.cc: Metrics::report", "src/gribjump/Task.h: TaskGroup::context", "src/gribjump/Task.cc: ForwardExtractionTask::executeImpl, ForwardScanTask::executeImpl", "src/gribjump/remote/Protocol.cc: readRequestHeader", "src/gribjump/remote/RemoteGribJump.cc: sendHeader"]}
{"id": "C67", "title": "An exception carries the message of its own call", "statement": "When a call through the C or Python interface fails, the exception the user gets names the function and the message of that very call, however many threads use the library, and reporting errors is free of data races.", "quantifier": "every number of threads and every interleaving of their failing calls and of reading the error text", "why_tests_cant": "The error text is one variable shared by all threads; mix-ups need two failures within microseconds.", "anchors": ["src/gribjump/gribjump_c.cc: LAST_ERROR_STR, tryCatch, gribjump_error_string", "python/pygribjump/src/pygribjump/pygribjump.py: __check_error"]}
{"id": "C68", "title": "Settings have their documented values", "statement": "Every setting has the value its documentation says: environment variable, else resource, else entry of the configuration file, else default; which file is used is documented too; once read, a value never changes in the life of the process; a broken file, server map or log channel is refused and settles nothing. The number of workers is the number of threads set, a disabled cache uses no index files.", "quantifier": "every environment, configuration file, history of readings and change of the surroundings between them", "why_tests_cant": "There are twenty settings with four sources each, and values are memoised at different times; tests set a few of them once.", "anchors": ["src/gribjump/Config.cc: ConfigOptions, loadServerMap", "src/gribjump/Config.h: ConfigOptions", "src/gribjump/LibGribJump.cc: loadConfig, config", "src/gribjump/LogRouter.cc: configure, standardChannel, get", "src/gribjump/remote/WorkQueue.cc: WorkQueue", "src/gribjump/info/InfoCache.cc: InfoCache"]}
{"id": "C69", "title": "A well-formed request for fields that are there succeeds", "statement": "If every request names one field of the catalogue, the requests are well formed and different, and each field can be read and decoded in the ranges asked for when the call starts, then the call returns, with one result per request as the message has it: on the node itself, for a remote client, for requests by path, and through a node that forwards to other servers.", "quantifier": "every history of the node before the call, everything going on in its cache and files during the call, every schedule of tasks on the node and on the servers, all requests, ranges and files", "why_tests_cant": "A spurious failure needs an unlucky history: an evicted or half-written cache entry, a file that grows, a lookup overlapping a scan.", "anchors": ["src/gribjump/Engine.cc: extract, scheduleExtractionTasks", "src/gribjump/Task.cc: FileExtractionTask, InefficientFileExtractionTask, ForwardExtractionTask", "src/gribjump/info/InfoCache.cc: get", "src/gribjump/remote/RemoteGribJump.cc: extract, forwardExtract", "src/gribjump/Lister.cc: fileMap"]}
{"id": "C70", "title": "Nothing done with the metadata cache is undefined, and no metadata is made up", "statement": "Whatever lookups, scans, insertions, flushes and clearings happen, in whatever order and overlap, on whatever files: each returns or throws; a lookup that returns gives one piece of metadata per offset, and each is that of a message that was in some data file, or of an entry that was in an index file.", "quantifier": "every history of concurrent cache operations and changes of data files (growth, rewriting, truncation), every file name including colliding ones, every content of the index files without null entries, every schedule of scan tasks including cancelled ones", "why_tests_cant": "Undefined behaviour of a cache needs a particular overlap and particular contents of index files; a test sees a handful of both.", "anchors": ["src/gribjump/info/InfoCache.cc: get, scan, insert, flush, IndexFile", "src/gribjump/info/LRUCache.h: put, get", "src/gribjump/Engine.cc: scan, scheduleScanTasks", "src/gribjump/Task.cc: FileScanTask, ForwardScanTask", "src/gribjump/info/JumpInfo.cc: JumpInfo(Stream)"]}
{"id": "C71", "title": "Calls made at the same time do not disturb each other", "statement": "Any number of extraction calls share the worker threads of a process.  Each call returns; what it returns is what it would return alone; and if none of the calls alone is undefined, neither are all of them together.", "quantifier": "every number of workers, every number of calls by field or by path, forwarded or not, every interleaving of the threads of the calls and of the steps of the workers inside tasks, every failure of other calls", "why_tests_cant": "The mix-ups a shared queue could cause (a worker on the wrong call's items, a wait that ends early, an error charged to another call) depend on the timing of many threads.", "anchors": ["src/gribjump/Engine.cc: extract, scheduleExtractionTasks", "src/gribjump/Forwarder.cc: extract", "src/gribjump/Task.cc: Task, TaskGroup, FileExtractionTask, InefficientFileExtractionTask, ForwardExtractionTask", "src/gribjump/remote/WorkQueue.cc: workerLoop, popNext, push", "src/gribjump/LocalGribJump.cc: extract"]}
{"id": "C72", "title": "The metrics line of a connection says what happened to it", "statement": "A server writes exactly one metrics line for every connection.  It names no value twice, carries the context the client sent, the kind of its request and how much it asked for; it tells an error exactly if the client was sent an exception or went away before the end of the reply, and the first failed task and the number of failed tasks as the client was told them.  So a client that stays succeeds exactly if its line has neither.  A scan's line tells how many fields were added; every line lists the requests made to the FDB, even if listing failed.  Lines are told apart by their request numbers.  Recording changes neither the work done nor the reply.", "quantifier": "everything a client can send, cut off anywhere; every point at which it stops reading; every catalogue, data, configuration and schedule of the node; every sequence of connections shorter than 2^64", "why_tests_cant": "Disconnections at any item of a reply, failures of any task in any order, and malformed requests of any length: tests see a few of them.", "anchors": ["src/gribjump/Metrics.cc: Metrics::report, MetricsManager, ContextManager", "src/gribjump/Metrics.h: LogContext", "src/gribjump/remote/GribJumpUser.cc: serve, processRequest, dispatchRequest", "src/gribjump/remote/Request.cc: Request and derived constructors", "src/gribjump/Task.cc: TaskGroup::waitForTasks, TaskReport", "src/gribjump/Engine.cc: extract, scan", "src/gribjump/Lister.cc: fileMap, axes"]}
{"id": "C73", "title": "Index files are reproducible, and the tools show and make them as they say", "statement": "The order in which an index keeps its entries never shows in an answer.  Whatever lookups and scans are made, index files hold each message once, by offset, and two processes that index the same messages of a file leave the same index file, however the messages were divided among scans.  The dump tool prints exactly what a lookup would find in an index, by offset, and stops with an error at a path without a file.  The scan tool scans the requests of its command line or of its file, whole files by default as its help says, and refuses when given both or none.", "quantifier": "all histories of lookups, scans, insertions and flushes by any number of threads, all contents of index files, all divisions of messages into scans, all lists of paths and command lines", "why_tests_cant": "Equality of files over all interleavings and all divisions of the work cannot be sampled; tests compare answers, not the files, and never the order of entries.", "anchors": ["src/gribjump/info/InfoCache.cc: IndexFile::encode, appendToFile, print, InfoCache::scan, flush", "src/tools/gribjump-dump-info.cc: DumpInfo::execute", "src/tools/gribjump-scan.cc: Scan::execute"]}
{"id": "C74", "title": "A busy process gives every caller right values, and an answer", "statement": "In one process any number of calls run at once on the same workers, share the metadata cache and its index files with scans and with the plugin that indexes while data is archived, and read files that other processes are appending to.  Whatever the order of all these steps: a call that returns without error has one result per request, in order, with exactly the values of the field asked for; a call for fields that were there before it began is never harmed by what else goes on, and returns with all of them; and no step is undefined, as long as the intervals asked for run forward and end inside the field.", "quantifier": "all numbers of workers and calls, all requests, all histories of the whole process: steps of calls, workers, lookups, scans, insertions, flushes, clearing and growth of files, in any order, finite or infinite", "why_tests_cant": "The property is about interleavings of six kinds of concurrent activity over unbounded time; a test runs a few schedules of one or two of them.", "anchors": ["src/gribjump/Engine.cc: Engine::extract, scheduleExtractionTasks", "src/gribjump/Task.cc: TaskGroup, FileExtractionTask::extract", "src/gribjump/remote/WorkQueue.cc: WorkQueue", "src/gribjump/info/InfoCache.cc: InfoCache::get, scan, insert, flush", "src/gribjump/LocalGribJump.cc: LocalGribJump::extract"]}
{"id": "C75", "title": "Servers that forward to each other do not block each other", "statement": "Servers may forward parts of a request to other servers, or to themselves, as configured.  A call whose files are spread over any such servers returns, whatever else the servers are doing, as long as workers and threads keep running and no connection breaks; a server waiting for others never brings them, or itself, to a standstill; and no step on any server is undefined.", "quantifier": "all numbers of servers and workers, all ways in which requests forward to servers, all finite and infinite histories of all servers together", "why_tests_cant": "Whether servers block each other depends on which tasks the workers of several machines take at the same moment; a test cluster with one client does not meet these schedules.", "anchors": ["src/gribjump/Forwarder.cc: Forwarder::extract, Forwarder::scan", "src/gribjump/Task.cc: ForwardExtractionTask, ForwardScanTask, TaskGroup::waitForTasks", "src/gribjump/remote/RemoteGribJump.cc: RemoteGribJump::forwardExtract", "src/gribjump/remote/GribJumpUser.cc: GribJumpUser::serve", "src/gribjump/remote/WorkQueue.cc: WorkQueue", "src/gribjump/remote/Request.cc: ForwardedExtractRequest::execute", "docs/gribjump/gribjump_with_remotefdb.rst: Example GribJump server configuration"]}
{"id": "C76", "title": "Values are right while several servers serve clients and each other", "statement": "Several processes each serve their own clients and requests forwarded by the others, while data files grow, files are scanned, caches fill and connections break.  Whatever happens, a call that returns without an error has one result per request, in order, and each result is what decoding the one matching message gives in the files of the process responsible for it.", "quantifier": "all numbers of processes and workers, all ways in which calls are forwarded, all finite histories of all processes together", "why_tests_cant": "A forwarded request is worked on while both processes do other things; mixing up the results of two requests, or reading a file at the wrong moment, shows only in particular interleavings of several machines.", "anchors": ["src/gribjump/Task.cc: ForwardExtractionTask, FileExtractionTask, TaskGroup", "src/gribjump/remote/RemoteGribJump.cc: RemoteGribJump::forwardExtract", "src/gribjump/remote/Request.cc: ForwardedExtractRequest", "src/gribjump/Engine.cc: Engine::extract, Engine::scheduleExtractionTasks", "src/gribjump/remote/WorkQueue.cc: WorkQueue", "src/gribjump/info/InfoCache.cc: InfoCache::get"]}
{"id": "C77", "title": "Fields that are present are served by several servers together", "statement": "Several processes serve their clients and forward to each other.  If, when a client's call begins, each of its fields is listed once and is in the files of the process responsible for it, and no connection of the call breaks, then the call does not fail, whatever other clients, scans and growing files do meanwhile; it returns, with one right result per request, in order, as long as every process goes on working and keeps a worker that does not forward.", "quantifier": "all numbers of processes and workers, all finite histories for success and values, all fair infinite histories for termination", "why_tests_cant": "Success depends on what several machines do at once: a file scanned while it grows, a cache filled by another request, a reply read by the wrong task, workers that wait for each other.  No test enumerates the joint schedules of several servers, and termination has no finite witness.", "anchors": ["src/gribjump/Task.cc: ForwardExtractionTask, FileExtractionTask, TaskGroup::waitForTasks", "src/gribjump/remote/RemoteGribJump.cc: RemoteGribJump::forwardExtract", "src/gribjump/remote/Request.cc: ForwardedExtractRequest", "src/gribjump/Engine.cc: Engine::extract, Engine::scheduleExtractionTasks", "src/gribjump/remote/WorkQueue.cc: WorkQueue", "src/gribjump/info/InfoCache.cc: InfoCache::get"]}
{"id": "C78", "title": "Several servers do not crash, and overflow does not change values", "statement": "Processes serve clients and forward to each other, with 64-bit arithmetic and limited memory; connections break, files grow, scans run.  As long as clients ask for intervals that run forward and stay inside a field with a bitmap, no process reaches undefined behaviour, whatever order the steps come in; and a call that returns has the values of the messages, as if numbers had no bound.", "quantifier": "all numbers of processes and workers, all histories of steps and broken connections, all files and metadata", "why_tests_cant": "A wrapped index shows only for sizes no test file has, and a crash of one server only in a joint schedule with a reply of another; a test sees one schedule and small fields.", "anchors": ["src/gribjump/Task.cc: ForwardExtractionTask, FileExtractionTask, InefficientFileExtractionTask", "src/gribjump/remote/RemoteGribJump.cc: RemoteGribJump::forwardExtract", "src/gribjump/remote/Request.cc: ForwardedExtractRequest", "src/gribjump/jumper/Jumper.cc: Jumper::extract", "src/gribjump/jumper/SimpleJumper.cc: SimpleJumper::readValues", "src/gribjump/jumper/CcsdsJumper.cc: CcsdsJumper::readValues", "src/gribjump/Engine.cc: Engine::scheduleExtractionTasks"]}
{"id": "C79", "title": "Scans do not disturb extractions that share their workers, and count what was missing", "statement": "The tasks of scans and of extractions wait in one queue for one set of threads.  Whatever scans are going on, failing or waiting, an extraction returns the values of the messages, one of present fields succeeds and returns, and nothing becomes undefined.  A scan that returns gives the number of fields that it found without an entry in the index, all of which had one before it returned; a scan of readable files returns.", "quantifier": "all mixes of scans and extractions, all numbers of workers, all schedules, all histories of the files and index files", "why_tests_cant": "A scan and an extraction meet in the queue, in the cache and in the index files; which step of one falls between which steps of the other is up to the scheduler, and a test sees a few orders.", "anchors": ["src/gribjump/Task.cc: FileScanTask, ForwardScanTask", "src/gribjump/Engine.cc: Engine::scan", "src/gribjump/Forwarder.cc: Forwarder::scan", "src/gribjump/remote/WorkQueue.cc: WorkQueue::WorkQueue, WorkQueue::push", "src/gribjump/info/InfoCache.cc: InfoCache::scan", "src/gribjump/LocalGribJump.cc: LocalGribJump::scan"]}
{"id": "C80", "title": "Servers that forward scans and extractions to each other return what they should", "statement": "Servers work for clients and for each other; the tasks of scans and extractions, local and forwarded, share the workers of each server.  A scan that returns gives the sum, over the files it was asked to scan, of the number of fields that the server responsible for the file found without an entry in its index, all of which had one before that; extractions return the values of the messages in the files of the server responsible; nothing becomes undefined.", "quantifier": "all networks of servers, all mixes of scans and extractions of all clients, all schedules, all breaks of connections, all histories of the files", "why_tests_cant": "What one server counts depends on what all clients of all servers have scanned and extracted before, on the order in which the workers of several processes take tasks, and on when connections break.", "anchors": ["src/gribjump/Forwarder.cc: Forwarder::scan, Forwarder::extract", "src/gribjump/Task.cc: ForwardScanTask, ForwardExtractionTask", "src/gribjump/remote/RemoteGribJump.cc: RemoteGribJump::forwardScan, RemoteGribJump::forwardExtract", "src/gribjump/remote/Request.cc: ForwardedScanRequest, ForwardedExtractRequest", "src/gribjump/Engine.cc: Engine::scheduleScanTasks"]}
{"id": "C81", "title": "Scans and extractions among servers that forward both come to an end", "statement": "In a network of servers that forward scans and extractions to each other, nothing is begun at a server before it was sent; a scan whose files can be read returns a number and a call for fields that are there returns them, provided its connections hold and the servers its server can forward to, directly or not, keep working and always get to the requests of others; any other server may stop at any moment.", "quantifier": "all networks of servers, all mixes of scans and extractions, all infinite fair schedules, all histories of the files", "why_tests_cant": "Whether a call ends depends on the workers of several processes, each of which may wait for another; a test sees finitely many steps of one schedule.", "anchors": ["src/gribjump/Task.cc: TaskGroup::waitForTasks, ForwardScanTask, ForwardExtractionTask", "src/gribjump/Forwarder.cc: Forwarder::scan, Forwarder::extract", "src/gribjump/remote/WorkQueue.cc: WorkQueue", "src/gribjump/Engine.cc: Engine::scheduleScanTasks, Engine::extract"]}
{"id": "C82", "title": "Servers that share files, are killed and are replaced", "statement": "Several servers may work on the same data and index files, and a server may be killed at any step and another started in its place: all of them always see the same files; a server starts with nothing remembered; a server that was killed does nothing more; whatever was killed in the middle of a scan, a call that returns has exactly the values stored in the messages asked for, and a scan that returns counts the messages that were not in the index.", "quantifier": "all networks of servers, all sharings of files, all points at which servers are killed and started, all schedules and all histories of the files", "why_tests_cant": "A kill between two steps of a scan, with another process reading the same index, is a window a test cannot aim at, and the combinations of kills, starts and forwarded calls are unbounded.", "anchors": ["src/gribjump/info/InfoCache.cc: InfoCache, FileCache", "src/gribjump/Task.cc: FileScanTask, FileExtractionTask", "src/gribjump/Forwarder.cc: Forwarder::scan, Forwarder::extract", "src/gribjump/Engine.cc: Engine::scheduleScanTasks, Engine::extract"]}
{"id": "C83", "title": "Every call of the Rust client does what it says", "statement": "A Rust user who asks for fields, for a request that stands for several fields, for places in files or for messages of a file gets an iterator with one result per request, in order, and each result shows range by range the values and the mask stored in the message asked for; hashes reach the grid checks; with a server behind the handle the same comes back; a scan of files or of requests scans what was named and returns the number of messages that were not in the index.", "quantifier": "all requests, ranges, files and histories of a node, all schedules of its workers and all ways to advance the iterator", "why_tests_cant": "The calls cross two languages and the whole engine; tests on a few requests cannot tell that order, ranges and hashes survive for all of them, nor that the text of a request is used at all.", "anchors": ["rust/crates/gribjump/src/handle.rs: extract, extract_from_paths, extract_mars, extract_from_file, scan_paths, scan_requests", "rust/crates/gribjump-sys/cpp/gribjump_bridge.cpp: extract, extract_from_file, scan_requests", "src/gribjump/GribJump.cc: GribJump::extract, GribJump::scan"]}
{"id": "C84", "title": "A part of a field is that part of the whole field", "statement": "If the whole of a field can be extracted, then any sorted list of ranges of it can, and what comes back is range by range that part of the values and of the presence flags of the whole; two extractions agree at every point asked for in both, whatever else is asked for; a Python user who asks by mask or by index gets exactly what indexing the whole field with that mask or index gives.", "quantifier": "all messages of all packings, bit widths and bitmaps, all lists of ranges, masks and indices, all histories of a node and all schedules of its workers", "why_tests_cant": "Which bytes are read and which part of a compressed block is decoded depends on the ranges asked for; that no combination of ranges changes a value is a statement about all combinations.", "anchors": ["src/gribjump/jumper/SimpleJumper.cc: SimpleJumper::readValues", "src/gribjump/jumper/CcsdsJumper.cc: CcsdsJumper::readValues", "src/gribjump/jumper/Jumper.cc: Jumper::extract", "python/pygribjump/src/pygribjump/pygribjump.py: GribJump.extract_from_mask, GribJump.extract_from_indices, GribJump.extract_from_ranges, ExtractionRequest.from_mask, ExtractionRequest.from_indices"]}
{"id": "C85", "title": "The context a Python user gives arrives whole", "statement": "Whatever keys and values a Python user gives as the context of a call, encoding them never fails, and every request header and metrics line written for the call holds a JSON object in which each key the user gave has exactly the value given, and each key the user did not give has its default.", "quantifier": "all contexts (any texts, with quotes, control characters and characters outside ASCII), all defaults, all interleavings of threads, workers and servers", "why_tests_cant": "Escaping and ASCII encoding must work for every character, and the context of a call must not be mixed with that of another under any interleaving.", "anchors": ["python/pygribjump/src/pygribjump/pygribjump.py: merge_default_context, default_context, GribJump.extract, GribJump.axes", "src/gribjump/gribjump_c.cc: gribjump_extract, gribjump_axes", "src/gribjump/Metrics.h: LogContext, ContextManager"]}
{"id": "C86", "title": "Servers that are killed do not keep others from ending their work", "statement": "Servers share files, may be killed at any moment, be started late, never, or hang.  If the servers of a group forward only to each other, run from some moment on and keep working, then scans and calls of clients at these servers return, with a number and with the fields asked for, whatever happens to all other servers, also those that work on the same files; and no kill or start makes anything undefined.", "quantifier": "all networks of servers, all sharings of files, all points at which servers are killed and started, all infinite schedules that are fair to the servers of the group", "why_tests_cant": "A test sees finitely many steps of one schedule; a server killed in the middle of a scan of a shared file must not block or break any later call, at any point of any schedule.", "anchors": ["src/gribjump/Task.cc: TaskGroup::waitForTasks, FileScanTask, ForwardScanTask, ForwardExtractionTask", "src/gribjump/info/InfoCache.cc: InfoCache, FileCache", "src/gribjump/remote/WorkQueue.cc: WorkQueue", "src/gribjump/Forwarder.cc: Forwarder::scan, Forwarder::extract"]}
{"id": "C87", "title": "What was scanned can be extracted, also where metadata is not built on demand", "statement": "On a node told not to build metadata on demand, once a scan of messages is over, or the FDB plugin has flushed what it saw, every later extraction from those messages finds their metadata and succeeds with the values in the data; a message that nobody scanned is refused with an error.", "quantifier": "all histories of scans, extractions, plugin flushes, other processes and growing files before, during and after the scan; all index files that agree with the data; all schedules of an extraction", "why_tests_cant": "Whether an index entry survives depends on every later write to the index file, by any process, in any order.", "anchors": ["src/gribjump/info/InfoCache.cc: InfoCache::get, InfoCache::scan, FileCache::flush", "src/gribjump/info/InfoAggregator.cc: InfoAggregator::close", "src/gribjump/GribJumpException.h: JumpInfoExtractionDisabled"]}
{"id": "C88", "title": "Memory behind the objects of the Python client", "statement": "Whatever a Python user does with handles, requests, iterators, loops, results and arrays, in whatever order references are dropped and objects collected: nothing is used after it was freed, nothing is freed twice, nothing is written outside its buffer, every object of the library is freed by exactly one owner, and when the user holds nothing any more, nothing is left.", "quantifier": "all histories of calls, reads, loops, references dropped and collections, in any order and number", "why_tests_cant": "Use after free and leaks depend on the order in which references go and the collector runs, and need not be seen when they happen.", "anchors": ["python/pygribjump/src/pygribjump/pygribjump.py: GribJump.__init__, ExtractionRequest.__init__, ExtractionIterator, ExtractionSingleIterator, ExtractionResult, GribJump.axes", "src/gribjump/gribjump_c.cc: gribjump_extractioniterator_next, gribjump_extractioniterator_delete, gribjump_result_values, gribjump_result_mask, gribjump_delete_result"]}
{"id": "C89", "title": "Reading a result from Python any number of times", "statement": "Reading the values or the masks of a result, as a list of arrays or as one array, gives exactly what the library returned, however often, in whatever order and however late it is read, and the arrays stay as they are after everything else, the result included, was dropped and collected; a read that cannot be done is reported each time.", "quantifier": "all histories of reads, loops, references dropped and collections in which nobody writes to the arrays; all results", "why_tests_cant": "The arrays are views of a buffer that is filled on the first read; whether a later read or a collection changes what a view shows is a question about all orders of events.", "anchors": ["python/pygribjump/src/pygribjump/pygribjump.py: ExtractionResult.values, ExtractionResult.masks, ExtractionResult.values_flat, ExtractionResult.masks_flat, ExtractionResult._load_values, ExtractionResult._load_masks"]}
{"id": "C90", "title": "Threads that share Rust handles, iterators, results and views", "statement": "However many threads clone, share, send and drop handles, iterators, results and views of ranges: calls on a handle and its clones happen one at a time, a call that fails lets the next one in, the library's handle is destroyed with the last clone and not earlier, no object of the library is touched by two threads while one changes it, none is used after it is gone, an iterator sent between threads gives each result of its call once and in order, and a view shows the same values and mask words of its range on every thread for as long as it exists.", "quantifier": "all numbers of threads, all interleavings of what they can write in safe Rust with these types, all answers and errors of the library", "why_tests_cant": "Data races, lost locks and dangling slices depend on the interleaving; the types are declared safe to send by hand (unsafe impl), so the compiler does not check it.", "anchors": ["rust/crates/gribjump/src/handle.rs: GribJump, HandleInner, GribJump::extract", "rust/crates/gribjump/src/iterator.rs: ExtractionIterator::next", "rust/crates/gribjump/src/result.rs: ExtractionResult::range, RangeView", "rust/crates/gribjump-sys/cpp/gribjump_bridge.cpp: ExtractionResultHandle::try_convert_masks, masks_ptr, values_ptr"]}
{"id": "C91", "title": "What the printed text of an index says", "statement": "Two runs of the tool that shows index files print the same text only if they were given the same files and, at every offset of every file, the indexes hold the same metadata: nobody comparing two printouts is misled.", "quantifier": "all lists of index files, all entries whose texts have no comma or new line, all ways of printing a floating-point number without comma or new line", "why_tests_cant": "A field that is left out of the printout, or two that run into each other, shows only for entries that differ exactly there; tests compare printouts of a few entries.", "anchors": ["src/gribjump/info/JumpInfo.cc: JumpInfo::print", "src/gribjump/info/CcsdsInfo.cc: CcsdsInfo::print", "src/gribjump/info/SimpleInfo.cc: SimpleInfo::print", "src/gribjump/info/UnsupportedInfo.cc: UnsupportedInfo::print", "src/gribjump/info/InfoCache.cc: IndexFile::print", "src/tools/gribjump-dump-info.cc: DumpInfo::execute"]}
{"id": "C92", "title": "From archiving to extraction", "statement": "Once a flush of an FDB whose archived fields are indexed has returned, a process started afterwards extracts those fields, by request or by place, directly or through servers, whether or not it builds metadata on demand, and every value is the one that extraction from the archived bytes would give.", "quantifier": "all histories of archiving, indexing threads and flushes of any number of FDBs, all selected fields, all later histories of the reading process that leave the index entries in place, all schedules, all requests", "why_tests_cant": "It joins three programs that never run in one test (archiver, index files, server); a lost or stale entry shows only in some interleaving of the indexing thread, the flush and later rewrites.", "anchors": ["src/gribjump/FDBPlugin.cc: FDBPlugin::addFDB", "src/gribjump/info/InfoAggregator.cc: InfoAggregator::add, insert, flush", "src/gribjump/info/InfoCache.cc: InfoCache::flush, get", "src/gribjump/Task.cc: FileExtractionTask::extract", "src/gribjump/Engine.cc: Engine::extract"]}
{"id": "C93", "title": "Offsets survive their way through texts", "statement": "The offset a request names is turned into text and read back before the file is opened. Whatever offset is given, the process that opens the file reads at exactly that offset, or the call fails; it never reads at another one. Fragments of places from elsewhere are accepted exactly when they begin, after blanks and a sign, with digits of a number that fits 64 bits.", "quantifier": "all 64-bit and larger offsets, all fragments, all sets of requests, all schedules", "why_tests_cant": "The limits lie at 2^63, far beyond any file a test can have, and the texts accepted are an infinite set.", "anchors": ["src/gribjump/Engine.cc: Engine::buildRequestURIsMap", "src/gribjump/ExtractionItem.h: ExtractionItem::offset", "src/gribjump/URIHelper.h: URIHelper::offset", "src/gribjump/Task.cc: FileExtractionTask::executeImpl, extract"]}
{"id": "C94", "title": "Running processes see what others index", "statement": "When another process (a scan, or the flush of an archiving process) has written the metadata of messages to an index file, processes that were already running serve those messages without a restart: lookups that end afterwards are answered, whenever they began and even if the same client was refused before, and requests succeed with the values of the messages.", "quantifier": "all histories of the running process, all lookups under way, all writes by the other process, all later histories that leave the entries in place, all schedules and requests", "why_tests_cant": "It needs two processes and a refusal remembered, or an old view of the index kept, in some order of lookup, write, scan and answer; a test sees one order.", "anchors": ["src/gribjump/info/InfoCache.cc: InfoCache::get, getCached, putCache, scan", "src/gribjump/info/InfoCache.cc: IndexFile::load, appendToFile, flush", "src/gribjump/Task.cc: FileExtractionTask::extract"]}
{"id": "C95", "title": "What one process indexes, all processes over the same files serve", "statement": "Several processes have the same data and index files: servers, scanning tools, processes that archive through the plugin. Once one of them has archived and flushed, or scanned, messages of a file that nobody else is scanning at the time, every one of them answers lookups of those messages with their metadata, also lookups that had begun before, also in processes that are ended and started again, whatever all of them go on to do. Whatever any of them returns at any time is what the data say, and nothing is undefined.", "quantifier": "all numbers of processes, all interleavings of their lookups, scans, insertions, flushes and restarts, all growing data files, all index files that are right to begin with, all settings of each process", "why_tests_cant": "It is about every interleaving of several processes over shared files; a test runs one process, or one order of two.", "anchors": ["src/gribjump/info/InfoCache.cc: InfoCache::get, getCached, putCache, scan, insert, flush", "src/gribjump/info/InfoCache.cc: IndexFile::load, appendToFile, write, flush", "src/gribjump/info/InfoAggregator.cc: InfoAggregator", "src/tools/gribjump-scan-files.cc"]}
