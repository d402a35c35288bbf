# Formal model of gribjump: design

The subject is `/repo` (gribjump, C++ with Python and Rust bindings), read as text. The model and
proofs are in `lean/`. `properties.jsonl` lists the properties, `MANIFEST.json` maps each one to the
theorems that carry it, `seeded/LOG.jsonl` records the wrong-program experiments.

## Layout

* `Verif/Model/*.lean`: definitions that model the code, each with a comment citing file and lines.
* `Verif/Spec/*.lean`: small specifications, written without reference to the model's helpers.
* `Verif/Lemmas/*.lean`: helper lemmas.
* `Verif/Props/*.lean`: the property theorems, nothing else except non-vacuity examples.

## Conventions

* C++ functions become total Lean functions. An exception (`ASSERT`, `throw`) is a distinct outcome
  carrying a tag; undefined behaviour (out-of-range iterator, null dereference, `back()` of an empty
  list) is another distinct outcome. No theorem identifies the two with a normal result.
* Sizes and offsets are `Nat` unless the property concerns wrap-around; where 64-bit accumulators
  decide the result (`decode_array`) the model uses arithmetic modulo 2^64.  `Model/Machine.lean` repeats the
  extraction path with wrapping sizes and limited memory; C53 says when the two agree.
* Floating point is never computed. Values are kept abstract, or (scaling) the formula is taken over
  exact rationals. Rounding is out of scope and said so where it matters.
* Threads are modelled as arbitrary interleavings of the steps that the code makes atomic with a mutex
  or a compare-exchange. A theorem about schedules quantifies over every list of steps.
* `std::map` is an association list sorted or not, with the observable operations (find, insert that
  does not overwrite, operator[] that does); `std::sort` is a stable insertion sort where only the
  sorted permutation matters.

## Per-property plan

What is modelled, the shape of the proof, and where the code disagrees with the property (the named theorem
proves the disagreement on a concrete witness or in general).

| id | model | proof | disagreements |
|----|-------|-------|---------------|
| C01 | `Range`: bucket insertion, bucket decode, slice per range | refinement to `ranges.map (slice field)` | |
| C02 | `Range`: `operator<<` with its binary search | invariant by induction over insertions | |
| C03 | `Simple`: `decode_array`, window of `Simple::decode` | bit reader refined to an indexed big-endian read | |
| C04 | same, 64-bit accumulator | refinement for widths 1-58, 60, 64; exact law at every width | `C04_wide_values_truncated` (59, 61, 62, 63) |
| C05 | `Scaling`: `codes_power`, both formulas over rationals | equality | `C05_ccsds_wrong_for_nonzero_scale`: CCSDS computes (-10)^D |
| C06 | `Aec`: window arithmetic over a library with a contract | refinement to a slice of the whole decode | `C06_last_block_rejected` |
| C07 | `Jumper`: `extractMasked` | refinement to a per-point specification | |
| C08 | `Jumper`: `calculateMaskedIntervals` with std::merge | induction over the merged list | |
| C09 | `Jumper`: `readBitmap` | pointwise | |
| C10 | `Jumper`, `Client`: `toBitset`, Python and Rust readers | pointwise, round trip | |
| C11 | `Jumper`: `checkIntervals`, `extract` | decision logic | reversed and too-long intervals accepted or undefined |
| C12 | `Jumper`: `extractConstant` | pointwise | `C12_bitmap_ignored` |
| C13 | `Jumper`: three extraction paths | lengths | |
| C14 | `LRU` | refinement to a recency list | `C14_capacity_zero_undefined` |
| C15 | `InfoCache`, `CacheSystem`: lookups, scans, flushes, interleaved | invariant over histories | `C15_same_basename_confused`, `C15_digits_confused`, `C15_repeated_offset_rejected` |
| C16 | `InfoCache`: index file as a token stream | round trip by induction over batches | |
| C17 | `Crash`: file system steps | induction over crash prefixes, several writers | `C17_append_corrupts` |
| C18 | `InfoCache.scan` | statement on the final index | `C18_repeated_offset_counted_twice`, `C18_overlapping_scans_lose_entries`, `C18_null_entry_undefined` |
| C19 | `InfoCache.scanFile` | statement on the final index | `C19_old_entries_win`, `C19_stale_entry_kept` |
| C20 | `Codec`: metadata classes | round trip with any continuation | |
| C21 | `Codec`, `Protocol`: all messages | round trip with any continuation | |
| C22 | `Protocol`, `Server`: header, dispatcher | decision logic | |
| C23, C24 | `WorkQueue` | invariants, history, fairness measure, wake-ups | |
| C25, C26 | `TaskGroup` | invariants over all schedules; liveness under fair workers | `C25_cancelled_never_returns`, `C25_abandoned_request_fails` |
| C27, C30 | `Engine` | every schedule of tasks; permutation and lookup statements | |
| C28 | `Canon`: split, sort, join | order independence, injectivity, agreement with the catalogue | five witnesses in `Props/C28` |
| C29 | `Engine.fileMap` | decision in both directions | `C29_duplicate_masks_missing` |
| C31 | `Engine`: forwarding | partition, pointwise assignment | see `Props/C31` |
| C32 | `Discover`: block-wise search | refinement to the list of marker positions | `C32_last_message_dropped`, `C32_marker_inside_message_reported`, `C32_short_read_ends_search` |
| C33 | `Plugin`: aggregators, threads, cache | invariant over histories and schedules; completion | `C33_undelivered_location_terminates`, `C33_old_entry_wins` |
| C34 | `Plugin`: selection parser, matcher | decision logic | `C34_invalid_selection_used_later`, `C34_absent_name_throws`, `C34_doubled_sign_accepted` |
| C35 | `Client`: result iterator | refinement to list suffix | |
| C36 | `Client`: C API copies into buffers | memory statement | `C36_mask_overrun` |
| C37 | `Client`: Python ranges, masks, indices | pointwise | |
| C38 | `Client`: Rust flattening | round trip | |
| C39 | `Engine.gridCheck` | decision logic | the inefficient path does not check |
| C40, C42 | composition down to file bytes (simple, CCSDS) | refinement to the stored field | see C04, C05, C06, C12 |
| C41 | `Server`, `Protocol`: a whole remote call | composition of round trips | |
| C43 | `Server`, `Protocol` on a stream cut at any item | locality of every reader, closed under sequencing | |
| C44 | `Server` on arbitrary items | absence of undefined behaviour, closed under sequencing | `C44_short_ranges_undefined` |
| C45 | `InfoCache.decIndex` on cut, extended, foreign files | induction over entries and cut points | see C18 (`C18_null_entry_undefined`) |
| C46 | `Direct`: metadata and extraction at an offset, `slowExtract` | invariance under moving the message | `C46_chunks_give_wrong_values`, `C46_second_read_overwrites`, `C46_short_delivery_undetected` |
| C47 | `Direct`: `apiExtractPath`, `directLoop` | pointwise, composition with C40, C42 | |
| C48 | `Direct`: `buildInfo`, `infoOfMessage` | agreement of constructors, decision logic | `C48_constant_ccsds_message_fails` |
| C49 | `Service`: cache over files with bytes | invariant over histories | see C15 |
| C50 | `Engine` over `Service` and the store | discharges `Honest` | see C15, C29, C46 |
| C51 | `Scan`: files and offsets, tasks in two steps with any interleaving, counter, forwarding | invariant over steps; refinement to scanning each file alone | forwarding ignores `byfiles` |
| C52 | `Cluster`: forwarded requests on a server, nodes joined by the protocol | discharges the servers' part of `Honest`; equivalence of remote and local calls | `C52_empty_file_is_undefined` |
| C53 | `Machine`: buckets, decoders and reads with `size_t` that wraps and a limit on memory | simulation between machine and natural-number extraction | `C53_huge_interval_wrong_values` (byte positions wrap at 2^61 points) |
| C54 | same | no undefined outcome, by composition | `C54_backward_interval_undefined`; see C11 |
| C55 | `Engine`, `Cluster`, `Server`, `Machine` together | invariant of all interleavings with failing calls; no undefined outcome | `C55_past_the_end_crashes_node` |
| C56 | `Scaling` with a rounding after every operation (`Rounding`) | error propagation over any rounding to nearest; correct rounding at decimal factor 0 | `C56_not_always_closest`, `C56_ccsds_decimal_factor_wrong` |
| C57 | pygribjump's iterators and result objects over the C API model | induction over operation sequences; splitting a concatenation by its lengths | `C57_second_loop_uses_wrong_shapes`, `C57_second_loop_consequences` |
| C58 | `Tools`: ranges file parser (`stoi`, tokenizer, lines), pairing with requests | round trip with printed ranges; absence of undefined outcomes; what acceptance implies | `C58_junk_accepted`, `C58_minus_dropped` |
| C59 | `Tools`: gribjump-extract | loop invariant of the printing loop | `C59_several_fields_undefined` |
| C60 | `Tools`: gribjump-validate over eccodes values | decision in both directions | `C60_missing_point_reported_wrong` |
| C61 | `Tools`: gribjump-scan-files over `Scan` | selection is exact; composition with C51 | `C61_skip_looks_in_wrong_place` |
| C62 | `PyRequest`: Python request objects, dictionary and range texts, C request constructors | acceptance in both directions; composition with C28, C50, C57 | `C62_separators_in_values`, `C62_single_request_unchecked`, `C62_rangestr_not_always` |
| C63 | `Axes`: lister, C accessors, Python and Rust `axes` | exact result; composition with C41 | `C63_not_ascii`, `C63_nul_in_name` |
| C64 | `Rust`: iterator, results, requests, error classification | induction over call histories; composition with C10, C40, C62 | `C64_range_from_unchecked`, `C64_error_misread` |
| C65 | `Api`: factory selection, argument checks and dispatch of the public handle | composition of C22, C41, C50, C52, C57, C62, C63 | `C65_paths_need_local` |
| C66 | `Context`: thread-local contexts, groups referring to them, workers, headers and metrics lines of all nodes as one state machine | invariant over all schedules | — |
| C67 | `LastError`: the shared error text of the C interface and Python's exceptions | invariant over all interleavings | `C67_other_threads_message` |
| C68 | `Config`: file loading, log channels, server map, all settings and their memoisation, worker count, cache mode; table of the documentation in `Spec/Config` | case analysis against the table; settled values as an order preserved by all readings; invariant for queues without workers | `C68_environment_does_not_rescue`, `C68_no_workers`, `C68_negative_threads`, `C68_disabled_cache` |
| C69 | all of the above composed: engine, cache, files, store, protocol, servers | progress: every task step is defined and succeeds (`Lemmas/EngineAnswers`); every lookup answered since the call began is served, an invariant over all histories | C15 and C46 witnesses |
| C70 | `InfoCache`, `CacheSystem`, `LRU`, `Codec`, `Scan` | readers of index files are total; appending keeps what could be loaded and adds to it; invariant over all interleavings that supposes neither distinct names nor right indexes | `C70_no_capacity_undefined`, `C70_interrupted_flush_undefined` |
| C71 | `Execution` (`TaskGroup` and `Engine` together) | refinement: the items of a call after any shared execution are those of an interleaving of its own tasks; liveness by a measure on task bodies and by C25 | `C71_failing_call_hangs` |
| C72 | `Metrics` (`GribJumpUser::serve`, the request constructors, and all that the engine records) | refinement of `Server.serve`; invariants on what each step of a connection may record; induction over connections for the numbers | `C72_bad_context_no_line`, `C72_forwarded_scan_uncounted` |
| C73 | `IndexOrder`: the cache with maps iterated by key, gribjump-dump-info, gribjump-scan | simulation of `Sys.run` by `Sys.runO`; invariant on index files; sorted lists with the same content are equal | `C73_flushes_not_reproducible`, `C73_dump_undefined`, `C73_byfiles_not_default` |
| C74 | `Whole`: calls on the work queue (`Execution`), cache, index files and growing data files (`Service`) as one machine | every history is, for each call, a run in surroundings that tell what it met; these are honest (C50), up (C69) and steady (C55) | restrictions of C15, C46, C54 |
| C75 | `Fleet`: any number of work queues (`TaskGroup`), tasks that wait for requests on other servers | each server's part of a history is an execution of `TaskGroup`; liveness by induction on the rank of servers, or from a spare worker; deadlock as an invariant | `C75_single_worker_hangs`, `C75_documented_servers_hang`, `C75_failure_blocks_others` |
| C76 | `Net`: any number of processes (`Whole`), forwarding tasks send the encoded request and hear what the other process's request ends with | seen from one process a history is a history of `Whole` that hears what others answered; an answer is a forwarded request alone (C71, C52), whose values are what the files hold | restrictions of C15, C31, C46 |
| C77 | `Net` (as C76), with what the files of each process hold when a call begins | a forwarded request that arrives can be met because the call that sent it can (files only grow, C69); so every task is clean (C74 at each process); termination from C75 through a projection of `Net` to `Fleet` | restrictions of C15, C31, C47, C75 |
| C78 | `Net` (as C76) with `machineExtract` at every process | values: `HoldsAt` keeps the file as it was when a task read it, C53 turns machine results into exact ones, appends do not change them; definedness: what arrives, and what is answered, is well formed because the sender and the answerer run the same program (`arrived_files`, `heard_answered`), so each step is a step of C74 at one process | restrictions of C53, C55, C76 |
| C79 | `Mixed`: groups of `Whole` that are scans, with their tasks (`FileScanTask`: look-up and plan, then write, as two steps; `ForwardScanTask`), the shared counter, and workers that take either kind | refinement: forgetting the scans gives a history of `Whole` with scans by others (`view_run`), so C74 applies; termination by a second projection (scan tasks as tasks that finish in few steps); count by an invariant over the history (`MixScanInv`) | restrictions of C74; a failing scan never returns (`C79_failing_scan_hangs`, as C25, C71) |
| C80 | `Mesh`: the processes of `Net`, each with the queue of `Mixed`; scans are sent by `ForwardScanTask` and counted by `ForwardedScanRequest` at the other process | refinement: forgetting the scans gives a history of `Net` (`mesh_view_step`), so C76, C78 apply; for scans an invariant over the history says what every finished task has seen, once more at the process it was sent to (`mesh_counts`) | restrictions of C78 |
| C81 | infinite histories of `Mesh` | the groups of all processes refine a `Fleet` (`mesh_track`), so a call returns or has a task cancelled; a task of a scan fails only for a named reason (`mesh_broken_step`), none of which applies; extractions by C77 on the history without the scans | calls with a failed task (C79, C25), mutual waiting (C75); processes outside the set that a call can reach may do anything |
| C82 | `Shared`: `Mesh` with files shared by groups of processes, kill and start | every step of a shared history is a step of the process and an `elsewhere` event of the others (`shared_net_step`), so the invariants of `Mesh` carry over; killed processes keep a state that nobody reads | termination with kills; writes of an index are one step (C17 has them torn) |
| C83 | `RustCalls`: the methods of the Rust handle over `Handle` and `Around` | composition of C50, C51, C47, C38, C64 and C65; the listing of the catalogue depends on the keys of a request, not on its verb | violated for `scan_requests`: the text of a request becomes its verb and is not read (`C83_scan_requests_ignore_text`, `C83_scan_requests_scan_everything`) |
| C84 | `messageExtract` (C01, C21, C44), `PyCalls`: `extract_from_mask`, `extract_from_indices`, `extract_from_ranges` | the answer to one range over the whole field fixes the answers to all sorted lists of ranges (`PartAnswers`), for each packing; the runs of a mask list its true points (C37); `Spec/Select`: what indexing with a mask gives | CCSDS messages that are cut off, declare fewer values than points present or break libaec's contract |
| C85 | `PyContext`: `merge_default_context`, `json.dumps`, `encode('ascii')`, then `Context` (C66) | round trip of every character through escape and `Spec/Json` (a reader of JSON objects of texts), then of texts and dictionaries; everything written is printable ASCII, so C sees all of it | eckit's JSON reader is external (`valid`): it may refuse a text that is JSON |
| C86 | infinite histories of `Shared` | every step of `Shared` is a run of `Mesh` in which the sharers of the files take the write as a step of their own (`shared_unfolds`), so an infinite history unfolds into one of `Mesh` (`unroll`), fair to the same processes; C81 for a set of processes that forwards only to itself | calls with a failed task (C79, C25), mutual waiting (C75), calls forwarded to a process that is killed |
| C87 | the cache and node models (C15, C16, C69) with `lazy` false | an invariant of histories: the message is in the index or a scan under way will put it there, and no scan under way will leave it out (`Coming`); then a lookup succeeds, and C69's argument for an extraction needs only that lookups of its messages succeed (`Node.Runs`) | false for overlapping scans (witness); file names the cache confuses |
| C88 | `PyHeap`: two heaps (objects of the library; objects of Python, with owners made by `ffi.gc`, buffers, arrays and generators), steps of the user, the library and the collector | `Valid` (what is referred to or held lives and is of the right kind; one owner for each object of the library) and `AllOwned` are kept by every step; a rank argument empties a settled heap; with loops begun once, results stay paired with their own ranges (`Paired`); a request keeps the ranges it was made with until a call uses them (`MadeAs`) | false for a loop begun again (witness): writing past a buffer |
| C89 | `PyHeap` | buffers attached to a result are what the library wrote for it, arrays are views of them (`Faithful`); data objects stay as they are until collected (`PyMove.data`) | false after a failed read (witness); results paired with ranges of others (C57) |
| C90 | `RustShare`: handles with a clone count and a lock, iterators and results with an owner, the mask cache that `range` fills, views that remember which filling they point into; calls in two or three steps, so that they overlap; `race` and `dangling` are outcomes | an invariant in three parts (handles, iterators, results) kept by every step; results never change what they hold (`Holding`); what is left in an iterator (`IterLeft`) | nothing; Rust's ownership rules, `Arc` and `Mutex` are trusted |
| C91 | `DumpText`: the text that gribjump-dump-info prints, character by character; printing of a double is a parameter | fields are cut at the next comma, numbers have one decimal text, lines are cut at the new line, headings and entries begin differently; composed with `C73_dump` | the offsets of blocks are not printed (`C91_block_offsets_not_shown`); reference values as printed (`C91_reference_as_shown`) |
| C92 | the plugin (`Plugin`) and a node (`Service`, `Engine`) joined by the index files | C33 gives the entries, C48 that they are what a scan would build, so the files agree with the data (`C92_index_right`); then C87 for a node whose messages are indexed, and C46 for the values | names confused (C15), stale entries (C33), lost entries (C18) |
| C93 | `std::to_string` and `std::stoll` on fragments (`OffsetText`), and the engine with them | characterisation of the accepted texts by pieces; refinement: below 2^63 every step of every task is that of `Engine` (induction over the schedule), from 2^63 on the task fails | locale-dependent blanks |
| C94 | a node (`Service`, `CacheSystem`) and writes by another process (`elsewhere`) | after the write the index has the entries (induction over the files written), then the invariants of C87; refusals leave nothing in memory | scans under way in the running process (witness), C15, C18 |
| C95 | the caches of any number of processes over one set of files (`Together`), with restarts | invariant over all interleavings: caches right, files the same for all, entries in the index and in every scan under way; a step of one is a write by another for the rest (`Lemmas/Shared`) | a scan of the same file under way elsewhere (witness), C15, C18 |

Nothing in the list is declared "not applicable".

## Assumptions carried as hypotheses

* `AecContract`: libaec decodes block sequences deterministically, an interval's decoding depends only on its bits, and
  the offsets it reports are those of the intervals. A concrete codec meets it, so theorems using it are not vacuous.
* `Honest` (engine): the cache gives the metadata of the right message, the jumper the right values, a server what local
  extraction gives. C50 discharges the first two on the model of a node, C52 the last
  with servers that are nodes themselves.
* `Reader` (eccodes): parsing bytes at an offset gives a header or fails. `GoodMessage`/`SoundReader`: a header is read
  only from a complete message, does not depend on what follows it, and its offsets lie inside it.
* `Store` (FDB remote reads): any sequence of read sizes; the fresh buffer has any content.
* `Catalogue`: FDB lists each matching field once, at a path that belongs to one place.
* `ToldApart` (cache): no two data files in use share a cache key or index file name; necessary (C15 witnesses).
* `Rounding` (processor): an arithmetic operation on doubles returns a double closest to the exact result, if that does
  not overflow. `ieee_rounding` shows that round-to-nearest-even meets it. C05 uses exact rationals, C56 adds rounding;
  elsewhere values are opaque (any function of the packed integer).

## Modelled and not modelled

Modelled: `compression/` (ranges, simple and CCSDS decoding, scaling), `jumper/`, `info/` (metadata classes and codecs,
cache, LRU, index files, message search, aggregator), `Engine`, `Lister`, `Forwarder`, `Task`, `TaskGroup`-level
scheduling, `WorkQueue`, `remote/` messages, request header and dispatch, `ExtractionItem`, `FDBPlugin`, the result
iterator, extraction by file and offsets, the metadata factories, the store fallback, the C API copies, the Python range and mask helpers, Python request objects and request texts, the Rust flattening, the Rust iterator, results, requests and errors, axes queries in C++, C, Python and Rust,
scans, forwarded requests on the serving side, the extract, validate, scan, scan-files and dump-info tools after option parsing, the public handle and its implementations, log contexts, error texts, settings, metrics lines,
a whole process (calls, workers, cache, index files, growing data files) as one machine,
the work queues of servers that forward to each other, several whole processes that forward extractions and scans to each other,
writes of index files by other processes, processes that share files, are killed and are started, the calls of the Rust handle,
and the lifetimes of the objects of the Python client.

Not modelled: clock values in metrics lines, logging (other than channel selection), YAML parsing, options of the command-line tools, thread creation and sockets,
eccodes header parsing (a parameter, `Reader`), FDB listing, MARS language expansion, infinities and NaN.

## Trusted base

* Lean 4.33.0 kernel. Axioms: each theorem depends on a subset of `propext`, `Classical.choice`, `Quot.sound`
  (checked with `#print axioms` on every theorem of the manifest; no others occur).
* The reading of `/repo` that each definition's comment cites.
* External components assumed, not modelled: eckit (`Stream` typed encoding is a token stream in which
  each written item is read back as itself, `StringTools::split` and `Tokenizer` drop empty tokens, `Regex`, `PathName`,
  `URI`, `Queue`), eccodes/metkit header access, libaec (contract above), the FDB catalogue and callbacks, the C++ standard
  library, the operating system's rename, CPython (reference counting with a collector that may run at any time, `json`,
  generators), cffi (`ffi.gc`, `ffi.buffer`), numpy (`frombuffer`, `split`), Rust's ownership rules and the `cxx` bridge.
