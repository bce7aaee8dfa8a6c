# Design: machine-checked model of DABC

## How the model is organised

* `lean/Verif/<Area>.lean` – the model: small total functions that follow the C++ functions one by one.
  Each definition cites file and lines in `/repo`; the head of each file says what is simplified.
* `lean/Verif/Spec/<Area>.lean` – the specification in which the properties are stated. It does not use the helper functions
  of the model, only its inputs and observable results (call histories, byte contents, logs).
* `lean/Verif/<Area>Lemmas.lean` and other files – helper lemmas and invariants (nothing a reader has to trust or read).
* `lean/Verif/Props/<Area>.lean` – the property theorems `Cxx_…`, and beside them `example`s that show
  non-trivial cases which meet the hypotheses, and cases which the specification refuses.

Conventions:

* Undefined behaviour of C++ (access out of bounds, popping an empty queue, unsigned underflow the code relies on not to
  happen, `sscanf` of numbers out of range), calls of `exit()`, exceptions leaving a `throw()` function and loops which do not end are
  distinct outcomes of the model (`none`, `hang`, flags), never silently totalised.
* Sizes and integers have 32 or 64 bits where a property depends on it; otherwise they are natural numbers and the head of the file says so.
* Threads: a model step is a section of code under one mutex, or a function which only its own thread runs; an execution is any list of steps.
  What other threads, clocks, the memory pool, ports or the operating system decide during a call is an argument of the step.
  Theorems quantify over all lists of steps and all answers.
* Where the code violates its property the negation is proved (`…_counterexample`: a concrete run, or a statement about all continuations
  of it), and the remainder which holds is `…_partial`, whose hypotheses say what is missing.

## Trusted base

* The Lean 4.33.0 kernel. All theorems depend on no other axioms than `propext`, `Classical.choice`, `Quot.sound`. No `sorry`, no
  `native_decide`, no `bv_decide`, no own axioms.
* The correspondence between the Lean definitions and the C++ text, made by reading; nothing was compiled or run.
* The statements in `Spec` and `Props`: a reader has to agree that they say what `properties.jsonl` says.
* The C library as documented where the models use it: `sscanf`, `snprintf` of integers, `strftime`, `gmtime_r`, `timegm`, `fnmatch`,
  `fread`/`fwrite`, `std::sort` (any sorted result), `std::map`. Text of doubles (`%g`) is a parameter.
* Memory order: mutexes give exclusive sections, and there are no effects of unlocked accesses beyond the interleavings of the steps.
* The machine is little-endian, `int` has 32 and `time_t` 64 bits; allocation succeeds.
* The theorems were tested against wrong programs: each line of `seeded/LOG.jsonl` is an edit of a model definition and the theorems
  which stopped to hold. Edits which no theorem noticed led to tighter theorems or are equivalent for the claims.

## Properties, area by area

Each area names the model files (under `lean/Verif`, the specification is in `Spec/<same name>`, the theorems are in
`Props/<same name>`), the code which is modelled, the way of the proof, and what reading and proving brought to light in the code.
The theorem names are listed per property with their status (`proved`: the whole statement of `properties.jsonl`; `partial`: see the note).

### Ring queues

* Model: `Queue.lean`
* Code: `base/dabc/Queue.h:40-329`, all operations: ring of cells with head, tail, size, capacity
* Proof: refinement to a list by a representation invariant, one lemma per operation, induction over the call sequence; loops of `Remove` and of the iterator by loop invariants
* Found in the code: `Allocate(0)` leaves size and cursors stale; `Push` on a full fixed queue drops silently; iterating an empty queue visits stale cells; `Remove` returns a wrong flag when it empties a full queue

**C01** Expandable queue behaves as an unbounded FIFO — *proved*. All call sequences, any initial capacity; refinement to an unbounded list. Remove's flag is treated in C03. Theorems: `Queue.C01_queue_fifo`.

**C02** Fixed-size queue is a bounded FIFO that refuses, never overwrites — *proved*. Refinement to a list bounded by the capacity. Theorems: `Queue.C02_fixed_queue_bounded`, `Queue.C02_fixed_queue_size`.

**C03** Queue::Remove(value) removes exactly the matching elements and reports it — *partial*. Content always right; returned flag wrong when a full queue holds only elements equal to the value (counterexample). Theorems: `Queue.C03_remove_partial`, `Queue.C03_remove_flag_counterexample`.

**C04** Queue iteration visits each stored element exactly once — *partial*. Proved for non-empty queues; iterating an empty queue visits stale cells (counterexample). Theorems: `Queue.C04_iterate_partial`, `Queue.C04_iterate_empty_counterexample`.


### Buffers queue

* Model: `BuffersQueue.lean`
* Code: `base/dabc/BuffersQueue.h:39-106`, `base/src/BuffersQueue.cxx`
* Proof: refinement to a bounded list
* Found in the code: `Cleanup(Mutex*)` stops at a null buffer

**C05** BuffersQueue is a bounded FIFO of buffers without loss — *partial*. FIFO refinement for all call sequences; Cleanup(Mutex*) stops at a null buffer (counterexample). Theorems: `BuffersQueue.C05_buffers_queue_fifo`, `BuffersQueue.C05_cleanup_mutex_partial`, `BuffersQueue.C05_cleanup_mutex_counterexample`.


### Memory pool and buffers

* Model: `Pool.lean` (block table, free queue, live buffers), `Buffer.lean` (segment lists)
* Code: `base/src/MemoryPool.cxx`, `base/src/Buffer.cxx` (editing functions)
* Proof: inductive invariant over worlds: reference counter = number of live references, free list = blocks with counter 0; the editing functions commute with flattening to bytes
* Found in the code: `TakeBuffer` is `throw()` but an exhausted pool throws; `Append`/`Prepend` are `throw()` but `Insert` throws; `SetTotalSize(0)` releases the buffer; `MakeEmpty` and `Append` give a buffer whose blocks nobody holds; the id check `id > fNumber` is off by one; the 32-bit sum in `TakeBuffer` wraps

**C06** Memory pool never hands one memory block to two live buffers — *partial*. Proved for every history of legal calls (take, raw take/release, create, duplicate, release, SetTotalSize, CutFromBegin, Insert into a null or pooled buffer, GetNextPart). Fails for Append into a buffer made by MakeEmpty: counterexample. Theorems: `Pool.C06_exclusive_partial`, `Pool.C06_append_to_empty_counterexample`.

**C07** Memory pool conserves its blocks — *partial*. Proved for the same histories; appending a buffer to itself with moved references loses its blocks: counterexample. Theorems: `Pool.C07_conservation_partial`, `Pool.C07_self_append_counterexample`.

**C08** TakeBuffer returns exactly the requested size or changes nothing — *partial*. Proved when requested size plus block size stays within 2^32; the 32-bit sum wraps otherwise: counterexample. Theorems: `Pool.C08_take_exact_partial`, `Pool.C08_wrap_counterexample`.

**C09** Buffer editing operations act on the content as on a byte string — *partial*. Proved for every segmentation except GetNextPart with length 0 or from a pointer at the exhausted end of a segment (counterexample). Theorems: `Buffer.C09_totalSize`, `Buffer.C09_setTotalSize`, `Buffer.C09_cutFromBegin`, `Buffer.C09_insert`, `Buffer.C09_getNextPart_partial`, `Buffer.C09_getNextPart_counterexample`.

**C48** CanSafelyChange tells whether memory is shared — *proved*. For every world reachable by legal calls. Theorems: `Pool.C48_canSafelyChange`.


### Pointers

* Model: `Pointer.lean`
* Code: `base/dabc/Pointer.h`, `base/src/Pointer.cxx`
* Proof: refinement to an offset into the flattened bytes
* Found in the code: shift, copy and distance are wrong for pointers at the exhausted end of a segment or with a limited full size

**C10** Pointer moves and copies over segmented buffers as over flat memory — *partial*. Holds for pointers without setfullsize limit that do not stand at an exhausted segment end; counterexamples for the three failing cases. Theorems: `Pointer.C10_shift_partial`, `Pointer.C10_start`, `Pointer.C10_limited_shift_counterexample`, `Pointer.C10_copyfrom_partial`, `Pointer.C10_copyto_partial`, `Pointer.C10_copy_at_border_counterexample`, `Pointer.C10_distance_partial`, `Pointer.C10_distance_counterexample`.


### Streams, fields and records

* Model: `Bytes.lean`, `Stream.lean`, `Record.lean`, `FieldsMap.lean`
* Code: `base/src/Record.cxx:23-146, 336-454, 1030-1600`, `base/dabc/Record.h:40-158`
* Proof: round-trip and length laws by induction over the values; maps as ordered association lists; flags by an invariant relating them to the history of changes
* Found in the code: `read_str` checks the size after 4 bytes are consumed; reading of raw buffers over-reads 8 bytes; setting an empty number array does nothing; the copy constructor leaves `fProtected` uninitialised; streaming-in does not set `fModified`; `Field(name)` creates a null field without flags; ±0 compare equal and NaN is always modified

**C11** Record fields survive binary streaming — *partial*. All kinds except raw buffers (reading fails: counterexample) and strings of 4 GB and more (counterexample); references are not stored by intention. Theorems: `Record.C11_field_round_trip_partial`, `Record.C11_buffer_counterexample`, `Record.C11_long_string_counterexample`.

**C12** Fields maps survive binary streaming — *partial*. For maps of storable values with less than 2^24 fields; also into non-empty target maps and with name prefix; whole records through SaveToBuffer/ReadFromBuffer. Theorems: `Record.C12_map_round_trip_partial`, `Record.C12_record_round_trip_partial`.

**C13** Announced stream size equals the bytes written — *partial*. Fields of all kinds without restriction; maps when every name needs less than 4 GB. Theorems: `Record.C13_field_size`, `Record.C13_map_size_partial`, `Record.C12_record_round_trip_partial`, `Record.C49_string_round_trip_partial`.

**C14** Applying a diff leads back to the previous fields — *partial*. Proved for all maps and values with truthful flags; missing: user fields named dabc:del (counterexample) and zero-length number arrays. Equality of values up to the sign of zero doubles, as the code compares with ==. Theorems: `Record.C14_diff_partial`, `Record.C14_del_counterexample`.

**C49** Strings survive binary streaming — *partial*. Proved when at least 4 bytes follow; a string at the very end of a stream is never readable (counterexample for every string). Theorems: `Record.C49_string_round_trip_partial`, `Record.C49_string_at_end_counterexample`.

**C50** Change flags tell about every change of the fields — *partial*. Proved for all sequences of set, remove, copy, move, protect; a field created by access without value is not reported, and WasChangedWith does not see removed fields (counterexamples). Theorems: `Record.C50_flags_partial`, `Record.C50_touch_counterexample`, `Record.C50_prefix_partial`, `Record.C50_prefix_counterexample`.

**C51** Copying and moving fields — *proved*. Equality of values up to the sign of zero doubles, as the code compares with ==; values which the setters accept. Theorems: `Record.C51_copy`, `Record.C51_move`.


### Text form of fields

* Model: `Text.lean`, `TextForm.lean`
* Code: `base/src/Record.cxx:477-677, 748-790, 923-1027`, `base/src/string.cxx:138-225`
* Proof: parsing lemmas over byte lists with the printed form as input
* Found in the code: what `AsStr` escapes is not unescaped by `AsStrVect`; a quote cuts the text; `[]` is refused; `AsIntVect` drops entries which are no numbers

**C53** Values survive their text form — *partial*. Scalars, number arrays and hand written text arrays in full. String arrays only with plain characters: the code violates the property for strings with a slash, quote, backslash or control character and for empty string arrays (counterexamples). Doubles are not converted to integers in the model. Theorems: `TextForm.C53_inside`, `TextForm.C53_parse`, `TextForm.C53_scalars`, `TextForm.C53_numbers`, `TextForm.C53_strings_partial`, `TextForm.C53_slash_counterexample`, `TextForm.C53_quote_counterexample`, `TextForm.C53_empty_counterexample`.


### JSON

* Model: `Json.lean`, `JsonStore.lean`
* Code: `base/src/Record.cxx:145-290, 792-918, 1529-1541`, `base/src/Hierarchy.cxx:113-150, 403-437`
* Proof: an independent JSON grammar (RFC 8259) as inductive relation in the specification; the text is shown to be derivable from it and to denote the data
* Found in the code: bytes from 128 on print as `\uffffffXX`; item names are not escaped; raw data is written as hexadecimal numbers; `nan`/`inf` are not JSON

**C15** JSON text produced for a string is a valid JSON string denoting it — *partial*. JsonReformat over all byte strings. Strings with all bytes below 128 give a JSON string (RFC 8259 grammar in the spec) denoting them; a byte from 128 on is sign-extended to eight hex digits and read back as other characters (counterexample). Theorems: `Json.C15_string_partial`, `Json.C15_strings_partial`, `Json.C15_printable`, `Json.C15_bytes_counterexample`.

**C54** JSON text of records and hierarchies is valid JSON showing their content — *partial*. Whole trees with fields, versions, history and childs under every option. Missing: names are not escaped, raw data is written as 0x.. numbers and infinite doubles as inf (each with a proof that the text is not JSON). Formatting of doubles and dates is a parameter; XML output is not modelled. Theorems: `Json.C54_json_partial`, `Json.C54_field_partial`, `Json.C54_name_counterexample`, `Json.C54_buffer_counterexample`, `Json.C54_double_counterexample`.


### URLs and addresses

* Model: `Url.lean`
* Code: `base/src/Url.cxx`, `base/src/Manager.cxx:1439-1490`
* Proof: parsing lemmas on `find`, `take`, `drop`
* Found in the code: escaped quotes in options do not work; `://` in options is taken for the protocol; a server name like `node5x:1237` is replaced by node 5; `host:12ab` is accepted as port 12; the leading slash of an item is lost; an item with `?` is cut

**C16** Item addresses compose and decompose without loss — *proved*. Byte strings, all names. The two counterexamples show that the exclusions are needed: a name with ? is cut, a server called node5x:1237 is replaced by node 5. Theorems: `Url.C16_item`, `Url.C16_negative`, `Url.C16_port`, `Url.C16_address`, `Url.C16_address_protocol`, `Url.C16_address_local`, `Url.C16_item_counterexample`, `Url.C16_node_counterexample`.

**C17** URL parsing splits a composed URL into its parts — *proved*. SetUrl, ReplaceSpecialSymbols and the option getters over all byte strings; sscanf as specified by C, out of range numbers being undefined. Counterexamples: a backslash does not protect a quote, and :// in the options of a URL without protocol is taken for the protocol. GetOptionDouble is not modelled. Theorems: `Url.C17_parts`, `Url.C17_decode`, `Url.C17_codes`, `Url.C17_option`, `Url.C17_missing`, `Url.C17_number`, `Url.C17_int`, `Url.C17_bool`, `Url.C17_escape_counterexample`, `Url.C17_protocol_counterexample`.


### Commands

* Model: `Command.lean`, `CmdString.lean`
* Code: `base/src/Command.cxx`, `base/src/CommandsQueue.cxx`
* Proof: invariants over call histories; parsing of printed command lines
* Found in the code: `Reply` of a negative code does not store it; named arguments of command lines lose the last character of their name

**C18** Every caller of a command gets exactly one reply, latest caller first — *proved*. All histories of AddCaller/RemoveCaller/Reply on one command, each call atomic. Theorems: `Command.C18_informed_at_most_once`, `Command.C18_lifo`, `Command.C18_reply_reaches_acceptor`, `Command.C18_not_informed_after_removal`.

**C19** Command queue delivers each queued command to exactly the one who asks for it — *proved*. Ids are unique as long as no command stays in the queue for 2^32-1 further pushes. Theorems: `Command.C19_ids_unique`, `Command.C19_popWithId`, `Command.C19_popWithKind`, `Command.C19_cleanup`, `Command.C19_conservation`.

**C46** Command lines are parsed as documented — *partial*. Everything but the name of named arguments, which loses its last character (counterexample). Theorems: `CmdString.C46_parse_partial`, `CmdString.C46_parse_positional`, `CmdString.C46_named_counterexample`.

**C47** The result given in a reply is the result the caller sees — *partial*. Holds for non-negative codes; Reply(cmd_timedout) does not store the code (counterexample). Theorems: `Command.C47_reply_result_partial`, `Command.C47_timeout_counterexample`.


### Events of threads

* Model: `Events.lean`
* Code: `base/dabc/Thread.h:70-99, 255-263, 404-420`, `base/src/Thread.cxx:396-425`
* Proof: refinement per priority; potential function for the bound; bit-vector extensionality
* Found in the code: the item of an `EventId` has only 16 bits

**C20** Thread events are delivered once and in order per priority — *proved*. All interleavings of posting and fetching. Theorems: `Events.C20_events_fifo_per_priority`, `Events.C20_fetch_none_only_if_empty`.

**C21** No event priority starves — *proved*. Explicit bound on the number of fetches. Theorems: `Events.C21_no_starvation`.

**C22** Event identifiers pack and unpack without loss — *proved*.  Theorems: `Events.C22_eventid_roundtrip`, `Events.C22_eventid_short`, `Events.C22_eventid_injective`.


### Waiting for events

* Model: `WaitEvent.lean`
* Code: `base/src/Thread.cxx:396-425, 1023-1054`, `base/src/threads.cxx:105-145`, `base/dabc/threads.h:258-311`, `base/src/SocketThread.cxx:1074-1103, 1465-1699`
* Proof: invariants over interleavings of the sections under the mutex: fired counter = number of waiting events; pipe bytes, `fWaitFire` and `fPipeFired` agree; the order of looking at the sockets is a permutation. The queues are one list with a free choice of the next event (C20, C21), `poll` and `pthread_cond_wait` are trusted
* Found in the code: a condition with two waiting threads would lose wake-ups (`fWaiting` is reset by the first), but each has only one; a spurious wake-up ends an unlimited wait without event; socket 0 is never looked at; timeouts below 1 ms become 0

**C67** A thread never sleeps over its events — *proved*. Steps are the sections under the thread mutex; the priority queues are one list with a free choice of the next event. pthread_cond_wait, poll, read and write of the pipe are modelled by their documented effect. The counterexample concerns only an additional statement: a spurious wake-up ends a wait without limit, then WaitEvent returns nothing although no time limit was given. Theorems: `WaitEvent.C67_thread`, `WaitEvent.C67_thread_forever`, `WaitEvent.C67_thread_forever_counterexample`, `WaitEvent.C67_socket_once`, `WaitEvent.C67_socket_sleep`, `WaitEvent.C67_socket_nothing`, `WaitEvent.C67_socket_pipe`, `WaitEvent.C67_socket_set`, `WaitEvent.C67_socket_check`, `WaitEvent.C67_socket_quiet`, `WaitEvent.C67_socket_flags`, `WaitEvent.C67_socket_look`.


### Timeouts of threads

* Model: `Timeouts.lean`
* Code: `base/dabc/Thread.h:134-227`, `base/src/Thread.cxx:1114-1145, 1284-1327, 1416-1448`
* Proof: a specification of each single timeout read off the log; simulation relation kept by every step, and the cover invariant (the next check of the thread is not later than any timeout)
* Found in the code: timeouts activated from an event loop inside of `ProcessTimeout` are lost; a cancelled timeout may still be called; the waiting time is relative to the time before the calls of `ProcessTimeout`

**C65** Timeouts of workers are neither early nor forgotten — *partial*. For workers which do not run the event loop of the thread inside ProcessTimeout; otherwise timeouts are lost (two counterexamples). A cancelled timeout may still be called once (counterexample). The set of timeouts of a thread is fixed and times are exact numbers. Theorems: `Timeouts.C65_not_early_partial`, `Timeouts.C65_fires_partial`, `Timeouts.C65_wait_partial`, `Timeouts.C65_request_partial`, `Timeouts.C65_lost_counterexample`, `Timeouts.C65_other_counterexample`, `Timeouts.C65_cancel_counterexample`.


### Halting of workers

* Model: `WorkerHalt.lean`
* Code: `base/src/Thread.cxx` (events, `CheckWorkerCanBeHalted`, `HaltWorker`), `base/src/Worker.cxx`
* Proof: inductive invariants over all schedules of the locked sections of one thread and others
* Found in the code: `CheckTimeouts` calls `ProcessTimeout` without recursion guard, so a worker can be removed below its own code; a command with magic priority between the two locks is lost; a request with an old worker id halts another worker; `ExecuteIn` has an inverted null check; `HaltWorker` from the own thread returns false though the halt happens later

**C23** A worker leaves its thread only when all its events are processed — *partial*. Proved for all interleavings of one thread with its workers and other threads: no halt below counted code of the worker, halt only on request, normal events refused after a request, requests never forgotten, every executed request answered exactly once, ids of events never reach another worker. The full statement is false: timeouts are not counted, a command with magic priority between the two locks is lost, a request with an old id halts another worker; the event theorems exclude the second case and need at most 65536 records. Theorems: `WorkerHalt.C23_stack_partial`, `WorkerHalt.C23_halt_partial`, `WorkerHalt.C23_refused`, `WorkerHalt.C23_owner_partial`, `WorkerHalt.C23_events_partial`, `WorkerHalt.C23_prompt_partial`, `WorkerHalt.C23_answered`, `WorkerHalt.C23_timeout_counterexample`, `WorkerHalt.C23_magic_counterexample`, `WorkerHalt.C23_reuse_counterexample`.


### Local transport

* Model: `LocalTransport.lean`
* Code: `base/src/LocalTransport.cxx:20-351`
* Proof: inductive invariants over interleavings of the two sides; wake-up by an invariant relating waiting states and pending events
* Found in the code: `Send` into a full blocking queue ends the program, also when the other side connects between `CanSend` and `Send`; a stopped module drops its event without confirming it; capacity 0 without blocking ends the program

**C24** Local transport delivers buffers in order, losing only what the mode allows — *partial*. Order, drops of the oldest only, clean-up only when unused, no loss in blocking mode, capacity: proved for every execution of the two sides on the ring buffer model. Partial because a Send after a positive CanSend ends the program when the other side connects in between (counterexample). Theorems: `LocalTransport.C24_order`, `LocalTransport.C24_skip_oldest`, `LocalTransport.C24_clear_when_unused`, `LocalTransport.C24_blocking_lossless`, `LocalTransport.C24_exit_iff`, `LocalTransport.C24_numCanSend`, `LocalTransport.C24_canSend_partial`, `LocalTransport.C24_connect_race_counterexample`.

**C25** Local transport never loses a wake-up — *partial*. No wake-up is lost for a module which is connected once and started once, in every execution. A stopped module drops its event without confirming it, and no event follows after a restart or a reconnect (counterexamples). Theorems: `LocalTransport.C25_receiver_partial`, `LocalTransport.C25_sender_partial`, `LocalTransport.C25_every`, `LocalTransport.C25_restart_counterexample`, `LocalTransport.C25_reconnect_counterexample`, `LocalTransport.C25_sender_restart_counterexample`.


### Network transport

* Model: `NetTransport.lean`
* Code: `base/src/NetworkTransport.cxx`, `base/dabc/NetworkTransport.h`
* Proof: inductive invariants over two connected nodes (credit balance, records, order of packets); the storm by an invariant which no step leaves
* Found in the code: credits are counted twice in bidirectional connections; a transport without input ignores credits; queues of length 1 never start, of length 2 exchange acknowledge packets for ever; `TransportQueue` larger than the port queue ends the program

**C26** Network transport never sends more than the peer can take — *partial*. The credit balance is proved for every run of two connected transports; the bound holds up to one additional credit per acknowledge packet received. The code violates the claim: credits are duplicated in bidirectional connections, transports without input ignore credits, queues of length 1 never start, queues of length 2 exchange acknowledge packets for ever. Theorems: `NetTr.C26_credits_partial`, `NetTr.C26_progress`, `NetTr.C26_duplicate_counterexample`, `NetTr.C26_output_counterexample`, `NetTr.C26_short_counterexample`, `NetTr.C26_storm_counterexample`.

**C27** Network transport operation records are never shared — *partial*. TakeRec is proved for every state. Sufficiency of records and queue places is proved for configurations where TransportQueue does not exceed the queue capacity of the ports (fits_mkCfg); C27_queue_counterexample shows the violation otherwise. Theorems: `NetTr.C27_take`, `NetTr.C27_records_partial`, `NetTr.C27_room_partial`, `NetTr.C27_queue_counterexample`.

**C61** Buffers cross a network connection once and in order — *proved*. For every run of two connected transports over a network which keeps the order of packets; TransportQueue not larger than the queues of the ports. Theorems: `NetTr.C61_order`, `NetTr.C61_complete`, `NetTr.C61_hold`.


### Socket byte stream

* Model: `SocketNet.lean`
* Code: `base/src/NetworkTransport.cxx:184-215, 364-420`, `base/src/SocketTransport.cxx:68-228`, `base/src/SocketThread.cxx:363-755`
* Proof: invariant relating sent, travelling and received bytes; progress by a measure
* Found in the code: buffers of 1 to 32 bytes are sent inline but the receiver waits for more; empty buffers stop the receiver; an empty last segment closes the connection; the check word of the header is looked at after its use

**C60** Messages survive the byte stream of a socket — *partial*. Proved for acknowledge packets and buffers with more than 32 bytes and no empty segments, with receive buffers large enough. The code does not have it for other messages: buffers of 1..32 bytes are sent inline but the receiver waits for further bytes and runs out of step, buffers of size 0 stop the receiver for ever, an empty last segment closes the connection. Theorems: `SocketNet.C60_stream_partial`, `SocketNet.C60_complete_partial`, `SocketNet.C60_progress_partial`, `SocketNet.C60_small_counterexample`, `SocketNet.C60_desync_counterexample`, `SocketNet.C60_empty_counterexample`, `SocketNet.C60_segment_counterexample`.


### Input and output transports

* Model: `InpTransport.lean`, `OutTransport.lean`
* Code: `base/src/DataTransport.cxx`, `base/dabc/DataTransport.h`, `base/src/ModuleAsync.cxx`
* Proof: the protocol is an automaton over the log of calls in the specification; a relation between its state and the transport is kept by every operation
* Found in the code: input: busy loop while waiting for a buffer; stop and start during a reconnection delete the transport; a call-back before the start ends the program; an error with reconnection configured closes. Output: `CloseOnError` lacks a `return` (state Retry after closing); busy loop in state Retry; the buffer whose writing failed is lost; the timer for the retry may be lost for ever

**C63** Input transports keep to the protocol of their input object — *partial*. Proved for all event histories and answers of the modelled part. Missing: the mode with extra buffers (di_NeedMoreBuf, di_HasEnoughBuf), which no input uses, and the behaviour behind the exit(333) of a call-back before the first start. Counterexamples: busy loop while waiting for a buffer, stop and start during reconnection delete the transport, call-back in the first state ends the program. Theorems: `InpTransport.C63_protocol`, `InpTransport.C63_delivered`, `InpTransport.C63_eof`, `InpTransport.C63_awake`, `InpTransport.C63_exit`, `InpTransport.C63_busy_counterexample`, `InpTransport.C63_restart_counterexample`, `InpTransport.C63_exit_counterexample`.

**C64** Output transports keep to the protocol of their output object — *partial*. Protocol, order and conservation and being awake are proved for all histories. The statement that a failed output is initialised again holds only while nobody stops the transport (C64_retry_partial); with a stop the timer can be lost (C64_stuck_counterexample). Further counterexamples: busy loop while waiting for the retry, the buffer whose writing failed is lost, a closed transport reports Retry. Write_Restart and statistics are not modelled. Theorems: `OutTransport.C64_protocol`, `OutTransport.C64_conserved`, `OutTransport.C64_awake`, `OutTransport.C64_retry_partial`, `OutTransport.C64_stuck_counterexample`, `OutTransport.C64_busy_counterexample`, `OutTransport.C64_lost_counterexample`, `OutTransport.C64_state_counterexample`.


### Binary files

* Model: `File.lean`, `BinaryFile.lean`
* Code: `base/dabc/BinaryFile.h`, `base/src/BinaryFileIO.cxx`
* Proof: round trip and truncation by induction over buffers; a file is a byte list, a crash any cut of it
* Found in the code: the end of a complete file is reported as error; the second file is never opened; sizes above 0xFFFFFFF0 collide with return codes; a segment of size 0 is an error

**C28** Binary file returns exactly what was written, also after a crash — *proved*. For buffers without empty segments and with sizes up to 0xFFFFFFF0 (larger ones collide with the return codes of Read_Size). A crash is any cut of the file, a full disk any limit of the stored bytes. Theorems: `BinaryFile.C28_binary_file`, `BinaryFile.C28_roundtrip`, `BinaryFile.C28_lossless`, `BinaryFile.C28_complete`.

**C58** Output files respect the size limit and nothing is lost between files — *proved*. For the binary file output. The comparison in double is taken as exact, which it is for files below 2^53 bytes. Theorems: `BinaryFile.C58_size_limit`.


### HLD and LMD files

* Model: `HldFile.lean`, `HldFileRead.lean`, `LmdFile.lean`
* Code: `plugins/hadaq/src/HldFile.cxx`, `HldInput.cxx`, `plugins/mbs/mbs/LmdFile.h`, `plugins/mbs/src/LmdInput.cxx`, `LmdOutput.cxx`
* Proof: induction over the file content; termination by the file position
* Found in the code: records of size 0 make the readers loop for ever; trailing bytes make them use stale memory; stop records at the buffer end are read 4 bytes behind; events larger than the buffer are lost silently; switching to the next LMD file is an error

**C29** HLD file reading delivers whole events, each once — *partial*. Writing is proved in full. Reading is proved for buffer sizes which are multiples of 8 with 4 more bytes of memory behind, for files that are complete or cut at a multiple of 8, and for events with at least one subevent; the counterexamples show that the code needs each of these. For any content reading stays in memory with 8 spare bytes and ends unless a header has size 0; a header with size 0 makes it loop forever. Theorems: `HldFile.C29_written`, `HldFile.C29_read_partial`, `HldFile.C29_roundtrip_partial`, `HldFile.C29_any_partial`, `HldFile.C29_hang_counterexample`, `HldFile.C29_trailing_counterexample`, `HldFile.C29_buffer_counterexample`, `HldFile.C29_overread_counterexample`, `HldFile.C29_empty_counterexample`, `HldFile.C29_open_counterexample`.

**C30** LMD file reading delivers whole events, each once — *partial*. Reading and writing are proved for every list of events (multiples of 4 bytes), every buffer that holds the largest event, every old content of the memory, and files cut anywhere (inside of an event whose length is a multiple of 512 only at multiples of 4). Termination on any content does not hold: a header whose size wraps to 0 makes ReadBuffer loop forever. Theorems: `LmdFile.C30_read`, `LmdFile.C30_written`, `LmdFile.C30_any_partial`, `LmdFile.C30_hang_counterexample`, `LmdFile.C30_overread_counterexample`.

**C57** A file input delivers all files of its list and then ends — *partial*. Proved for HLD inputs under the conditions of C29. False for binary files (the end of a complete file is reported as an error and the second file is never opened) and for LMD files (an error is reported when the second file is opened; an event larger than the buffer ends the stream silently). Theorems: `HldFile.C57_hld_partial`, `BinaryFile.C57_binary_counterexample`, `LmdFile.C57_lmd_counterexample`, `LmdFile.C57_lmd_large_counterexample`.


### Names of output files

* Model: `FileName.lean`
* Code: `base/src/DataIO.cxx:211-276`, `base/src/BinaryFile.cxx:60-112`
* Proof: the number of every existing file of the series is recognised; induction over the files written
* Found in the code: hidden and unreadable files are overwritten; a name one character shorter than the extension throws; a name of digits only is read below its start; brackets act as pattern

**C59** New output files do not replace existing ones — *partial*. Proved for names whose last part has no bracket and does not start with a dot and for readable files. Hidden and unreadable files are replaced, a name one character shorter than the extension lets Write_Init throw and a file name of digits only is read out of bounds (counterexamples). HldOutput, which takes its names from run numbers, and files made by other programs while the output runs are not modelled. Theorems: `FileName.C59_fresh_partial`, `FileName.C59_found`, `FileName.C59_hidden_counterexample`, `FileName.C59_unreadable_counterexample`, `FileName.C59_throw_counterexample`, `FileName.C59_digits_counterexample`.


### HADAQ headers and iterators

* Model: `HadTu.lean`, `HadIter.lean`, `HadRead.lean`, `HadWrite.lean`; for MBS `MbsIter.lean`
* Code: `plugins/hadaq/hadaq/defines.h`, `plugins/hadaq/src/defines.cxx`, `plugins/hadaq/src/Iterator.cxx`, `plugins/mbs/src/Iterator.cxx`
* Proof: bit-vector lemmas; byte layout by induction over events; safety as invariant of the iterator
* Found in the code: `SetDecoding` may change the byte order; padded size wraps to 0; the trigger type is not masked; size 0 makes `NextEvent` true for ever; headers may straddle segments; an exactly filled buffer loses subevents; `RawEvent::FirstSubevent` underflows

**C31** HADES transport headers read back what was set, in either byte order — *partial*. Every 32-bit field in both byte orders without restriction; padded size for sizes up to 2^32-8 (wraps to 0 above: counterexample); setting the decoding word through SetDecoding may change the byte order (counterexample); the trigger type is not masked (counterexample). Theorems: `HadTu.C31_value`, `HadTu.C31_set`, `HadTu.C31_decoding`, `HadTu.C31_decoding_counterexample`, `HadTu.C31_padded_partial`, `HadTu.C31_padded_counterexample`, `HadTu.C31_error`, `HadTu.C31_trigtype_partial`, `HadTu.C31_trigtype_counterexample`, `HadTu.C31_data`.

**C32** HADES write iterator and read iterator are inverse — *partial*. For every non-empty list of events in a one-segment buffer that leaves at least one byte free. An exactly filled buffer loses the subevents of its last event, and NewEvent then restarts at the begin (counterexamples). Missing: buffers of several segments. Theorems: `HadIter.C32_bytes_partial`, `HadIter.C32_roundtrip_partial`, `HadIter.C32_read`, `HadIter.C32_count`, `HadIter.C32_place_partial`, `HadIter.C32_walk`, `HadIter.C32_exact_counterexample`, `HadIter.C32_restart_counterexample`, `HadIter.C32_empty_counterexample`.

**C33** Event iteration over arbitrary bytes is safe and terminates — *partial*. HADAQ and MBS iterators over any bytes in one segment, for every sequence of calls that starts with NextEvent. The loops end when no event has size 0 and no HADAQ subevent size wraps (counterexamples otherwise). False as stated: a subevent header straddling segments is read past the segment, and NextSubEvent before NextEvent reads without a check (counterexamples). Theorems: `HadIter.C33_inside_partial`, `HadIter.C33_event_pointer`, `HadIter.C33_nested`, `HadIter.C33_event`, `HadIter.C33_subevents_end_partial`, `HadIter.C33_events_end_partial`, `HadIter.C33_first_counterexample`, `HadIter.C33_segments_counterexample`, `HadIter.C33_size_counterexample`, `HadIter.C33_events_end_counterexample`, `HadIter.C33_subevents_end_counterexample`, `MbsIter.C33_mbs_inside_partial`, `MbsIter.C33_mbs_pointers`, `MbsIter.C33_mbs_event`, `MbsIter.C33_mbs_nested`, `MbsIter.C33_mbs_subs_complete`, `MbsIter.C33_mbs_subevents_end`, `MbsIter.C33_mbs_events_end_partial`, `MbsIter.C33_mbs_first_counterexample`, `MbsIter.C33_mbs_segments_counterexample`, `MbsIter.C33_mbs_events_end_counterexample`.


### MBS iterators

* Model: `MbsIter.lean`, `MbsRead.lean`, `MbsWrite.lean`
* Code: `plugins/mbs/mbs/Iterator.h`, `plugins/mbs/src/Iterator.cxx`
* Proof: as for HADAQ
* Found in the code: `Reset` keeps `fSubData`; `AddRawData` checks too generously; odd sizes lose the last byte; `Close` does not finish an exactly filled event

**C39** MBS write iterator and read iterator are inverse — *partial*. Any events built by NewSubevent, NewSubevent2/AddRawData, AddSubevent or CopyEventFrom in a buffer with one segment, exact fill included, come back. Missing/false: odd data sizes lose a byte, AddRawData accepts too much, Close of an unfinished exactly filled event or without events, stale fSubData after Reset (counterexamples). Theorems: `MbsIter.C39_bytes_partial`, `MbsIter.C39_roundtrip_partial`, `MbsIter.C39_read`, `MbsIter.C39_count`, `MbsIter.C39_place`, `MbsIter.C39_close_partial`, `MbsIter.C39_refused`, `MbsIter.C39_odd_counterexample`, `MbsIter.C39_addraw_counterexample`, `MbsIter.C39_newsub_counterexample`, `MbsIter.C39_close_counterexample`, `MbsIter.C39_empty_counterexample`, `MbsIter.C39_stale_counterexample`.


### Trigger numbers, combiner and sorter of HADAQ

* Model: `Trig.lean`, `Combiner.lean`, `Sorter.lean`
* Code: `plugins/hadaq/src/CombinerModule.cxx`, `SorterModule.cxx`
* Proof: modular arithmetic by `omega`; accounting invariant over arrivals, build and timer calls; for the sorter conservation of subevents as multisets, memory safety as invariant
* Found in the code: ranges from 2^31 on give wrong differences; `DropAllInputBuffers` counts only the current item; `SetId` overwrites the error bit; oversized events block the output for ever; forwarded buffers and end of file overtake the output buffer of the sorter; a subevent larger than the output buffer is an endless loop

**C34** Trigger number difference is a proper cyclic distance — *partial*. Every range below 2^31 and the full 32-bit range; ranges from 2^31 on give wrong differences (counterexample). Theorems: `Trig.C34_distance_partial`, `Trig.C34_unique`, `Trig.C34_antisymmetric`, `Trig.C34_zero`, `Trig.C34_full`, `Trig.C34_range_counterexample`.

**C37** Sorting of subevents by trigger number is well defined — *proved*. For all trigger numbers within less than half of the range; beyond that the comparison is cyclic (counterexample). Theorems: `Trig.C37_order`, `Trig.C37_weak_order`, `Trig.C37_result`, `Trig.C37_cycle_counterexample`.

**C35** HADES event builder combines only subevents of one trigger — *partial*. Every run of arrivals, build calls and timer calls: every item is used once in arrival order and is in an event, counted as dropped, or thrown away by DropAllInputBuffers; every event has one item of every input with one trigger number (and tag). Complete events are made when numbers go up and resources suffice. Missing: items thrown away by DropAllInputBuffers are not counted by the code (counterexample); resorting of inputs is not modelled. Theorems: `Combiner.C35_account_partial`, `Combiner.C35_complete`, `Combiner.C35_dropall_counterexample`, `Combiner.C35_error_counterexample`, `Combiner.C35_stuck_counterexample`.

**C56** Buffers of a HADES event-building network go to the node which owns their triggers — *proved*. Trigger range at most 2^24 as the sequence number keeps 24 bits. Theorems: `Combiner.C56_destination`.

**C55** The HADES sorter neither loses nor doubles subevents — *partial*. Conservation and memory safety for all histories in which the two checks for output space in one call agree (a place that appears between them loses a buffer: counterexample). Order only within one call: directly forwarded buffers and the end of file overtake the output buffer (counterexamples). Theorems: `Sorter.C55_conservation_partial`, `Sorter.C55_memory_partial`, `Sorter.C55_order_partial`, `Sorter.C55_order_counterexample`, `Sorter.C55_eof_counterexample`, `Sorter.C55_race_counterexample`, `Sorter.C55_stuck_counterexample`.


### MBS combiner

* Model: `MbsComb.lean`
* Code: `plugins/mbs/src/CombinerModule.cxx`
* Proof: decision logic of one build call, invariants over runs, progress by a measure
* Found in the code: two oversized events in a row stop it for ever; the header may come from an input without number; the last subevent without data is ignored; numbers in subevents are read outside of events without subevents

**C36** MBS event builder combines only events with the selected event number — *partial*. Composition of events, order and use of the inputs: all configurations, contents, arrival patterns and answers of ports, clock and pool. Nothing lost and progress: only for obligatory inputs with increasing numbers in the headers, without overflow, special events, disconnected inputs or events larger than a buffer. Buffers are seen as lists of events (see C39 for the bytes). The code gets stuck after two oversized events and reads outside of an event without subevents when the number is in a subevent (counterexamples). Theorems: `MbsComb.C36_merged`, `MbsComb.C36_number`, `MbsComb.C36_complete`, `MbsComb.C36_inside_partial`, `MbsComb.C36_exact_partial`, `MbsComb.C36_progress_partial`, `MbsComb.C36_stuck_counterexample`, `MbsComb.C36_header_counterexample`, `MbsComb.C36_outside_counterexample`, `MbsComb.C36_lost_counterexample`, `MbsComb.C36_order_counterexample`.


### UDP input

* Model: `Udp.lean`
* Code: `plugins/hadaq/src/UdpTransport.cxx`
* Proof: accounting invariant over datagram sequences and buffers
* Found in the code: sizes near 2^32 lead to reads 4 GB behind the buffer; an empty datagram counts as closed socket

**C38** UDP receiver accounts every packet exactly once and forwards only intact ones — *partial*. Holds for datagrams whose size field does not wrap when padded; the code accepts or crashes on wrapping sizes and does not count empty datagrams (counterexamples). The receiver never closes itself while buffers are large enough. Theorems: `Udp.C38_account_partial`, `Udp.C38_once_partial`, `Udp.C38_noskip_partial`, `Udp.C38_open`, `Udp.C38_wild_counterexample`, `Udp.C38_wrap_counterexample`, `Udp.C38_empty_counterexample`.


### Life of objects

* Model: `ObjLife.lean`
* Code: `base/src/Object.cxx`, `base/src/Reference.cxx`
* Proof: inductive invariant over all interleavings of locked sections
* Found in the code: `RemoveChild` counts down the references of the parent without looking whether it was the last one; assigning a reference to itself releases it; `Manager::DestroyObject` always returns true

**C40** Objects are destroyed exactly once and never while referenced — *proved*. All interleavings at the granularity of the sections under the object mutex. Not modelled: objects without mutex used by several threads, threads which delete themselves (_DoDeleteItself). Theorems: `ObjLife.C40_once`, `ObjLife.C40_referenced`, `ObjLife.C40_final`.

**C62** An object whose destruction was requested is deleted in the end — *partial*. Proved when no child is removed from an object which is cleaned up already. RemoveChild counts down the references of the parent without looking whether it was the last one: an object which got a child after its cleanup and loses it then is never deleted. Theorems: `ObjLife.C62_deleted_partial`, `ObjLife.C62_auto`, `ObjLife.C62_unasked`, `ObjLife.C62_leak_counterexample`.


### Names and reference vectors

* Model: `NameMatch.lean`, `RefVector.lean`
* Code: `base/src/Object.cxx:999-1056`, `base/src/ReferencesVector.cxx`
* Proof: correctness against an inductive matching relation; refinement to lists
* Found in the code: a mask with `;` never returns; `*` does not match the empty name

**C41** Name masks match as documented — *partial*. All names and masks of '*', '?' and other bytes, single and in lists. fnmatch of the C library is modelled (FNM_NOESCAPE, C locale), brackets next to wildcards are left open. The full statement is false: '*' does not fit the empty name, and a mask with ';' never returns. Theorems: `NameMatch.C41_match_partial`, `NameMatch.C41_plain`, `NameMatch.C41_list_partial`, `NameMatch.C41_empty_counterexample`, `NameMatch.C41_hang_counterexample`.

**C42** References vector keeps order and identity — *proved*. All sequences of fewer than 2^31 operations (the capacity is a 32-bit number). What destructors of released objects do is outside of the model. Theorems: `RefVector.C42_step`, `RefVector.C42_run`, `RefVector.C42_ask`.


### Date and time

* Model: `DateTime.lean`
* Code: `base/dabc/timing.h:190-258`, `base/src/timing.cxx:147-345`
* Proof: integer arithmetic, digit lemmas; the calendar in the specification is defined by counting days
* Found in the code: times after 2106 are cut; `SetDouble` loses the fraction; February 31 is accepted; `Publisher.cxx:186,189` calls `SetOnlyDate` with a time

**C43** Dates and times survive the conversions used in storage — *partial*. All instants of the 32-bit seconds, all dates 1970 to 2100. gmtime_r, timegm, strftime and sscanf are modelled by their documentation. Not modelled: local time, floating point. The full statement is false in the corners shown by the counterexamples. Theorems: `DateTime.C43_round`, `DateTime.C43_back_partial`, `DateTime.C43_order`, `DateTime.C43_normal`, `DateTime.C43_read`, `DateTime.C43_set_date`, `DateTime.C43_set_time_partial`, `DateTime.C43_file_partial`, `DateTime.C43_text_partial`, `DateTime.C43_js_text`, `DateTime.C43_2106_counterexample`, `DateTime.C43_double_counterexample`, `DateTime.C43_order_counterexample`, `DateTime.C43_exists_counterexample`, `DateTime.C43_file_counterexample`, `DateTime.C43_nearest_counterexample`.


### Hierarchies

* Model: `History.lean`, `Hierarchy.lean`
* Code: `base/src/Hierarchy.cxx:42-111, 224-400, 603-783, 899-932`
* Proof: invariants over change sequences; for C52 a relation between server, message and client
* Found in the code: `ExtractHistoryStep` uses the capacity for the size; a repeated time stamp is lost; a re-created item keeps stale fields and childs; marking a sub-item loses pending changes of its parents

**C44** Hierarchy history is a bounded log of the latest values — *partial*. Stored entries, their versions and reconstruction of old fields proved for every sequence of changes; the code violates iteration while the history is not full (null access), the boundary flag for equal versions, and repeated time stamps (counterexamples). Theorems: `Record.C44_history_partial`, `Record.C44_head`, `Record.C44_iterate_partial`, `Record.C44_iterate_counterexample`, `Record.C44_stream_sound`, `Record.C44_stream_counterexample`, `Record.C44_time_counterexample`.

**C45** Hierarchy versions tell clients about every change — *proved*. For every reachable hierarchy and every marked item. Fields of an item are opaque values with change flags (see C50); permanent items and the auto-record of history are left out (history: C44). Theorems: `Hierarchy.C45_versions`, `Hierarchy.C45_all_marked`.

**C52** A client following a hierarchy sees the hierarchy of the server — *partial*. Proved for all histories in which names of removed items are not used again while the client has them and, for names lists, no name change is pending above a marked item; both restrictions are needed (counterexamples). Theorems: `Hierarchy.C52_mirror_partial`, `Hierarchy.C52_marked_partial`, `Hierarchy.C52_recreated_fields_counterexample`, `Hierarchy.C52_recreated_childs_counterexample`, `Hierarchy.C52_recreated_sibling_counterexample`, `Hierarchy.C52_names_counterexample`.


### Multiplexer

* Model: `Multiplexer.lean`
* Code: `base/src/MultiplexerModule.cxx:18-76`, `base/src/Module.cxx:932-973`
* Proof: invariants over event histories: tags of taken buffers, numbers in `fQueue` and waiting events together are the tags of the arrivals
* Found in the code: buffers which arrive before the input is connected give no event, so that always one stays behind; a stop and start changes the order; an output which loses its place between two looks is passed over

**C66** The multiplexer gives every buffer to all outputs in the order of arrival — *partial*. Order per input and equality of all steadily connected outputs: every history. Order between inputs and nothing left behind: only while the module is not stopped and no buffer comes before the connection of its input (counterexamples). Theorems: `Multiplexer.C66_taken`, `Multiplexer.C66_all`, `Multiplexer.C66_order_partial`, `Multiplexer.C66_rest_partial`, `Multiplexer.C66_start`, `Multiplexer.C66_order_counterexample`, `Multiplexer.C66_late_counterexample`, `Multiplexer.C66_skip_counterexample`.


### XML engine

* Model: `Xml.lean`
* Code: `base/src/XmlEngine.cxx:233-391, 1045-1133, 1296-1631` (without name spaces and stream buffers)
* Proof: an independent grammar (`Nodes`, with blanks and entities) as inductive relation; parsing of every text of the grammar by induction over its derivation, saved texts shown to be in the grammar; end of parsing by the length of the input; structure of accepted documents by induction over the parser
* Found in the code: content is saved without coding, so `<` and `&` in it break the document; with a layout content before childs grows; a closing tag needs only to be a beginning of the name; an empty comment is a node without name, taken for content, whose text is read behind its memory; bytes from 128 on are skipped as blanks; text behind childs or comments, single quotes and blanks around `=` are refused; `DocGetRootElement` skips the first node, so documents without `<?xml ...?>` have no root. Read but not modelled: `XmlOutputStream::Write` uses `fOut` although it is null when a long text is written to a string; `LocateAttributeValue` and its caller use pointers into the buffer which `ExpandStream` has moved (attributes of more than a quarter of the buffer); a text which exactly fills the buffer is read one byte behind; `UnlinkNode` keeps `fNext`, `DocSetRootElement` frees the old root without unlinking it

**C68** XML documents survive saving and parsing — *partial*. Proved for documents without name spaces whose content needs no coding (and, with a layout, is the only child), with non-empty comments; the counterexamples show why these are needed. The stream buffers are not modelled. Theorems: `Xml.C68_parse_partial`, `Xml.C68_save_partial`, `Xml.C68_roundtrip_partial`, `Xml.C68_value`, `Xml.C68_end`, `Xml.C68_shape`, `Xml.C68_again_partial`, `Xml.C68_root_partial`, `Xml.C68_content_counterexample`, `Xml.C68_layout_counterexample`, `Xml.C68_close_counterexample`, `Xml.C68_close_prefix_counterexample`, `Xml.C68_empty_counterexample`, `Xml.C68_signed_counterexample`, `Xml.C68_refused_counterexample`, `Xml.C68_root_counterexample`.


### Variables in configuration values

* Model: `Resolve.lean`
* Code: `base/src/ConfigBase.cxx:151-157, 183-192, 284-290, 440-532` (`getenv` is a function, the XML nodes are lists of names and texts)
* Proof: a text is a list of pieces with a meaning (`Means`, `IsCount`, `IsElem`); induction over the rank of definitions and over the pieces: what stands before the next variable is already replaced and has no `${`
* Found in the code: a variable defined by itself makes `ResolveEnv` and `GetNodeValue` call each other for ever (a variable of the process: the loop does not end); a value which ends with `#` turns the next variable into its number of entries; an unclosed brace undoes all replacements; an empty array has one entry; commas in quotes separate entries; an empty variable of the command line does not hide others

**C69** Variables in configuration values are replaced by their meaning — *partial*. Proved for definitions which are not circular and texts which can be read in one way (no # by chance beside a variable, no ${ in the result); the counterexamples show why these are needed. Theorems: `Resolve.C69_resolve_partial`, `Resolve.C69_plain`, `Resolve.C69_result`, `Resolve.C69_unclosed`, `Resolve.C69_cmd_first`, `Resolve.C69_cmd_new`, `Resolve.C69_count`, `Resolve.C69_elem`, `Resolve.C69_empty_counterexample`, `Resolve.C69_quotes_counterexample`, `Resolve.C69_self_counterexample`, `Resolve.C69_process_counterexample`, `Resolve.C69_hash_counterexample`, `Resolve.C69_unclosed_counterexample`, `Resolve.C69_hide_counterexample`.


### Search in the configuration file

* Model: `ConfigFind.lean`
* Code: `base/src/ConfigBase.cxx:183-347, 392-438`, `base/src/Configuration.cxx:260-297` (`fnmatch` is a parameter; values of nodes have their variables replaced)
* Proof: every search function is one scan over the list of all nodes of the path (`scan_flat`, `scan_filter`); the list has no address twice if the tree has none and the context is not its own mask
* Found in the code: a context without attributes is a mask of itself, so `FindN` never ends and `LoadLibs` does not return; comments are nodes with their text as name, so a comment with the name of a value hides the value; an empty value hides the values of masks and ends `LoadLibs`

**C70** Search in the configuration file finds every node of a context once — *partial*. Repeated calls are proved for contexts with an attribute and without wildcards; a context without attributes never ends (counterexample). Theorems: `ConfigFind.C70_first`, `ConfigFind.C70_calls_partial`, `ConfigFind.C70_creation_partial`, `ConfigFind.C70_creation_first`, `ConfigFind.C70_libs_partial`, `ConfigFind.C70_own`, `ConfigFind.C70_mask`, `ConfigFind.C70_deeper`, `ConfigFind.C70_default`, `ConfigFind.C70_context`, `ConfigFind.C70_numNodes`, `ConfigFind.C70_calls_counterexample`, `ConfigFind.C70_comment_counterexample`, `ConfigFind.C70_empty_counterexample`.


### Configuration of objects

* Model: `ConfigIO.lean`
* Code: `base/src/ConfigIO.cxx:42-290` and all `Find` functions (`ResolveEnv` and `fnmatch` are parameters)
* Proof: the walk with its two pointers is a zipper; induction over the level and the number of childs left shows that it visits exactly the nodes of the declarative list `places`, in its order
* Found in the code: workers without parent read nothing although `GetObjParent` makes the manager their parent; in contexts with wildcards the order in the file decides, not the exactness of the name; a comment with the name of a field hides its value

**C71** Objects read the first configuration value which the file has for them — *proved*. Proved for all trees and objects; the counterexamples show consequences which a user may not expect. Theorems: `ConfigIO.C71_field`, `ConfigIO.C71_value`, `ConfigIO.C71_path`, `ConfigIO.C71_selected`, `ConfigIO.C71_record`, `ConfigIO.C71_fields`, `ConfigIO.C71_manager`, `ConfigIO.C71_worker`, `ConfigIO.C71_worker_mask`, `ConfigIO.C71_application`, `ConfigIO.C71_orphan_counterexample`, `ConfigIO.C71_order_counterexample`, `ConfigIO.C71_comment_counterexample`.


### Connection manager

* Model: `ConnMgr.lean`
* Code: `base/src/ConnectionManager.cxx`, `base/dabc/ConnectionManager.h`, `base/dabc/ConnectionRequest.h:117-145` (names and addresses are numbers, time is counted in integers, existing devices are an argument of each operation)
* Proof: inductive invariants over all sequences of operations: the output of one record is a path of the relation `Next`, commands which came = answered + kept, identifiers; the answer to the activating command by following the required records from its arrival
* Found in the code: a record waits for ever in `progrWaitReply` when no answer comes or when the answer comes while the device is gone (the delay set for this step is never looked at); answers of devices carry no mark of the step, so a late answer is taken for the present step; `ActivateConnections` is answered with true although a required connection failed before; `ShutdownConnection` does the same as `ActivateConnections`; `ModuleCleanup` drops the records without answering their commands; a client record which is still pending accepts the request of another client; `TakeCustomData` returns a copy and never clears

**C72** Connection requests are carried out in order and every command about them is answered once — *partial*. Proved for all sequences of operations: order of the steps, one answer per command, meaning of a successful answer, requests, settings on both ends, identifiers, time out of the device. The parts 'every step ends', 'success only if no required connection failed (also before the command)' and 'commands are answered at the end of the manager' do not hold: counterexamples. Strings are numbers; devices and other nodes are free inputs. Theorems: `ConnMgr.C72_progress`, `ConnMgr.C72_commands`, `ConnMgr.C72_check`, `ConnMgr.C72_answer_ok`, `ConnMgr.C72_connected`, `ConnMgr.C72_requests`, `ConnMgr.C72_unknown`, `ConnMgr.C72_reply`, `ConnMgr.C72_both_ends`, `ConnMgr.C72_connId`, `ConnMgr.C72_init_timeout`, `ConnMgr.C72_cleanup`, `ConnMgr.C72_lost_counterexample`, `ConnMgr.C72_no_timeout_counterexample`, `ConnMgr.C72_stale_counterexample`, `ConnMgr.C72_before_counterexample`, `ConnMgr.C72_shutdown_counterexample`, `ConnMgr.C72_cleanup_counterexample`, `ConnMgr.C72_client_counterexample`.


### Connection object

* Model: `ConnObject.lean`
* Code: `base/src/ConnectionRequest.cxx:41-170`, `base/dabc/ConnectionRequest.h:191-247`, `base/src/Module.cxx:431-467`, `base/src/Manager.cxx:2179-2193`, and `base/src/Parameter.cxx:88-167` for a synchronous parameter without interval (values are texts)
* Proof: one call: all fields of the result; histories by induction against functions of the calls alone; interleavings of the sections under the mutex by a count of permissions
* Found in the code: `ManagerRef::Connect` sets the last created device after the local reference in `MakeConnReq` has already made the request pending, so it is never set; two threads lose settings or, worse, the event of a state change (the permission is one text); `SetInitState` leaves the old state in the field `state`

**C73** Settings of a connection are fixed once it is requested — *partial*. Proved for calls one after another and, for the number of changes, for all interleavings. The code violates: with two threads a permitted setting or the event of a state change can be lost, the device of ManagerRef::Connect is never set, and the value still shows the old state after SetInitState (counterexamples). Theorems: `ConnObj.C73_state`, `ConnObj.C73_settings`, `ConnObj.C73_value`, `ConnObj.C73_told`, `ConnObj.C73_request`, `ConnObj.C73_config`, `ConnObj.C73_permission`, `ConnObj.C73_device_counterexample`, `ConnObj.C73_init_value_counterexample`, `ConnObj.C73_lost_setting_counterexample`, `ConnObj.C73_lost_state_counterexample`.


### Parameters: rates, averages and modified events

* Model: `Verif/Param.lean`, `Verif/Spec/Param.lean`, `Verif/ParamLemmas.lean`, `Verif/Props/Param.lean`
* Code: `Parameter.cxx:92-292, 365-499`: SetField, ProcessTimeout, _CalcRate, SetRatemeter, SetAverage, DisableRatemeter, SetSynchron, ConfirmFromWorker and the calls of WorkerParameterChanged. `double` is an exact rational number; the text of a value is the value; texts given to a statistic (AsDouble) are numbers already; only one attribute is kept; times are inputs of the calls.
* Proof: The specification cuts the history of calls into windows (values and duration), written without the state of the parameter; the simulation lemmas `async_windows`, `sync_windows` show that the sums of the parameter are those of the window not yet finished and the events are the reports of the windows. That windows cut the history, and that rate times duration adds up, is proved about the specification and joined in `C74_async_conserves`, `C74_sync_conserves`, `C74_average`. Plain parameters by an invariant (`Plain`).
* Found in the code: `C74_first_rate_counterexample`: the first report of a synchronous rate counts one value too many (1 per interval is shown as 2 per interval); `C74_empty_average_counterexample`: an asynchronous average without values shows 0 (`C74_average_async_partial` excludes exactly these reports); `C74_silent_counterexample`: a plain parameter made asynchronous before its first value never produces an event: `fLastChangeTm` is set only by synchronous changes; `C74_last_lost_counterexample`: the last value set within the interval is not reported if no other follows (documented in Parameter.h); `C74_reconfigured_counterexample`: SetRatemeter does not reset fLastChangeTm, the first window begins with the last change before; `C74_null_counterexample`: an empty value set to a synchronous rate moves the start of the window while the sums are kept; `C74_result_counterexample`: SetValue of a synchronous statistic gives false for each value which is not reported at once (CmdSetParameter is then answered with cmd_false); `C74_worker_counterexample`: `doworker` is preset with `fMonitored || fRecorded`, so fWaitWorker holds back nothing in SetField (`C74_worker_partial`: only the timeouts of asynchronous statistics respect it)

**C74** A rate or average accounts for every value exactly once and events of plain parameters are spaced by the interval — *partial*. windows, conservation, means and spacing of events proved for all histories with exact numbers; violated: first synchronous rate counts one value too many, means without values are 0, asynchronous plain parameters never report, worker is informed without waiting for its confirmation Theorems: `Param.C74_async`, `Param.C74_async_windows`, `Param.C74_async_conserves`, `Param.C74_sync`, `Param.C74_sync_conserves`, `Param.C74_average`, `Param.C74_average_async_partial`, `Param.C74_empty_average_counterexample`, `Param.C74_first_rate_counterexample`, `Param.C74_reconfigured_counterexample`, `Param.C74_null_counterexample`, `Param.C74_result_counterexample`, `Param.C74_plain`, `Param.C74_every`, `Param.C74_silent_counterexample`, `Param.C74_last_lost_counterexample`, `Param.C74_worker_partial`, `Param.C74_told`, `Param.C74_settings`, `Param.C74_worker_counterexample`.


### Parameter events of the manager

* Model: `Verif/ParEvents.lean`, `Verif/Spec/ParEvents.lean`, `Verif/Props/ParEvents.lean`
* Code: `Manager.cxx:80-110, 484-491, 506-664, 1214-1240, 1283-1301`: ProduceParameterEvent (both critical sections and FireEvent apart), ProcessParameterEvents (extraction and delivery apart), subscription, removal of receivers, answers. Parameters and masks are numbers, the value is read once per delivery (the code reads it again for the next receiver if the text is empty), references in the records are never empty; the queue of the thread of the manager is a counter of events.
* Proof: Invariants over all sequences of operations: `Awake` (no lost wake-up), `Kept` (order), `Informed` (present value told or event pending; `pending_step`: an event on its way is dropped only by the check, and only if the same event is in the queue), `Counted` (unanswered events), `Single` (coalescing), `Settled` (timeouts).
* Found in the code: `C75_overload_counterexample`: an event for a receiver with more than 1000 unanswered events is skipped; if it was the last change the receiver is never told; `C75_reused_counterexample`: the answer of an erased receiver is counted for a new list element at the same address, its counter gets negative (`C75_bound_partial` assumes that this does not happen); `C75_duplicate_counterexample`: check and insertion are two critical sections, two threads can insert the same event twice (`C75_coalesced_partial`: not if productions do not overlap); `C75_destroyed_counterexample`: a parameter configured while it is destroyed can be put in the list of timeouts after its destruction was handled (`C75_destroyed_partial`: otherwise not)

**C75** Parameter events reach their receivers: no wake-up and no last update is lost — *partial*. wake-ups, order, last update, contents of events and timeouts proved for all interleavings; violated: counters after reuse of an address, duplicates with concurrent producers, overloaded receivers, configuration during destruction Theorems: `ParEvents.C75_awake`, `ParEvents.C75_order`, `ParEvents.C75_latest`, `ParEvents.C75_told`, `ParEvents.C75_bound_partial`, `ParEvents.C75_reused_counterexample`, `ParEvents.C75_overload_counterexample`, `ParEvents.C75_coalesced_partial`, `ParEvents.C75_duplicate_counterexample`, `ParEvents.C75_timed`, `ParEvents.C75_destroyed_partial`, `ParEvents.C75_destroyed_counterexample`.


### Command definitions

* Model: `Verif/CmdDef.lean`, `Verif/Spec/CmdDef.lean`, `Verif/Props/CmdDef.lean`
* Code: `Parameter.cxx:574-670`: NumArgs, ArgName, FindArg, AddArg, GetArg, MakeCommand (not SetArgMinMax). Field names are lists of characters built as `dabc::format("arg%d")` does; a default is its text; numbers have no upper limit.
* Proof: `C76_keys`: injectivity of decimal numbers and of the suffixes; `Rep`: the fields represent a list of arguments; each AddArg is simulated on the list of the specification.
* Found in the code: `C76_again_counterexample`: a repeated AddArg keeps an old default and an old required flag, `_dflt` and `_req` are only ever set (`C76_args` states the merge, `C76_args_once` that without repetition it is the same)

**C76** A command definition gives back its arguments and makes commands with all required and default values — *partial*. all parts proved for all sequences of calls, except that a repeated AddArg merges instead of replacing (counterexample) Theorems: `CmdDef.C76_keys`, `CmdDef.C76_args`, `CmdDef.C76_args_once`, `CmdDef.C76_again_counterexample`, `CmdDef.C76_command`.


### Command channel between nodes

* Model: `Verif/SockCmd.lean`, `Verif/SockCmdLemmas.lean`, `Verif/SockCmdLive.lean`, `Verif/Spec/SockCmd.lean`, `Verif/Props/SockCmd.lean`
* Code: `SocketCommandChannel.cxx:109-182, 210-520, 581-632`, `CommandsQueue.cxx:14-126`, and of `SocketThread.cxx` when the addon of a socket reports the end of a transfer, an error or the end of the connection. Two sides, each with its event queue; the steps of the workers and of the addons come in any order. A packet is one record read in two steps; copies of a command have the number of the command; a worker of an accepted socket is destroyed at once when it closes and at the latest when the other side connects again; AcceptClient and redirected device connections are left out.
* Proof: Invariants over all runs: `line` (what was executed, is under way or queued is a part of the submitted commands in order), `tally` (account), `Base` (numbers given), `Fits` (numbers in packets, executed commands and answers belong to their commands). Without disturbance: `Live` (state of sending and receiving fits to the events queued), `Tok` (for each waiting command something is under way), and a cost which every effective step lowers (`cost_step`), so that all orders of steps end, only at rest (`C77_moves`), and there every command is answered (`C77_delivered`).
* Found in the code: `C77_stale_counterexample`: the connecting side keeps commands of the old connection and answers them by the new one; the accepting side has a new worker with numbers starting with 1, so another command is replied with the result of the old one (`C77_result_partial`: not if nothing is left at a new connection; `C77_result`: never at the connecting side); `C77_lost_counterexample`: `fSendingActive` stays false when an idle connection is lost, a command submitted then is taken out of the send queue, put in the wait queue and never sent, also not after the connection is back; `C77_attempt_counterexample`: the same submission calls CloseClient, which drops the addon which tries to connect; `C77_dropped_counterexample`: commands which were sent before the loss are neither sent again nor answered; without timeout they wait for ever; `C77_cancel_counterexample`: a command cancelled before it is sent goes out as kindCancel, which the other side takes for an answer and replies its own command with the same number as timed out; `C77_crash_counterexample`: with an error and data at the same time the worker drops the addon at the error and uses the null pointer when it gets the event of the data; Not modelled: a command which is forwarded by a second channel gets the field `__send_cmdid__` anew, so the first answer carries the wrong number.

**C77** A command sent to another node is answered once, with the result of its own execution — *partial*. Account, order and results of the connecting side for all runs; execution and answer of every command while the connection stands (any order of steps comes to rest, and at rest all is answered). Violated: answers by a new connection, commands lost after an idle connection closed, cancelled commands, null pointer after an error. Theorems: `SockCmd.C77_account`, `SockCmd.C77_order`, `SockCmd.C77_finished`, `SockCmd.C77_result`, `SockCmd.C77_result_partial`, `SockCmd.C77_delivered`, `SockCmd.C77_moves`, `SockCmd.C77_ends`, `SockCmd.C77_stale_counterexample`, `SockCmd.C77_lost_counterexample`, `SockCmd.C77_attempt_counterexample`, `SockCmd.C77_dropped_counterexample`, `SockCmd.C77_cancel_counterexample`, `SockCmd.C77_crash_counterexample`.


### Packets of the command channel

* Model: `Verif/SockWire.lean`, `Verif/Spec/SockWire.lean`, `Verif/Props/SockWire.lean`
* Code: `SocketCommandChannel.cxx:81-107, 210-295, 323-398, 450-488`: header and data as the sender writes them, the receiver as a machine which takes one byte after the other, with its buffer (bytes never written are marked). Partial reads and writes of the socket are C60. Text of the command is bytes with an oracle for decoding; timeouts are rational numbers.
* Proof: Header round trip by arithmetic of 32-bit numbers; `feed_packet` for one packet, induction for the sequence; for arbitrary streams the invariant `Verdict`.
* Found in the code: `C78_outside_counterexample`: `data_cmdsize` and `data_rawsize` are not compared with `data_size`, memory outside of the buffer is copied (`C78_verdict`: only then); `C78_replay_counterexample`: a header with `data_size` 0 uses the data of the packet before, its command is executed again; `C78_hangs_counterexample`: for `data_size` of 2 GB and more the doubled size of EnsureRecvBuffer gets zero and the loop never ends; `C78_segments_counterexample`: of raw data with several segments only the address of the first is given with the size of all, memory behind it is sent; `C78_timeout_counterexample`: `(unsigned) send_tmout*1000.` cuts the timeout to whole seconds before it is multiplied; below one second the other side gets no timeout (`C78_timeout_partial`: otherwise it is at most one second short)

**C78** Packets of the command channel arrive whole, once and in order, and no packet makes the receiver leave its buffer — *partial*. Framing for all messages with raw data in one segment and below 2 GB; verdict for all streams of bytes. Violated: sizes of the header not checked, packet replayed, endless loop, raw data in several segments, timeouts below a second. Theorems: `SockWire.C78_framing`, `SockWire.C78_incomplete`, `SockWire.C78_verdict`, `SockWire.C78_inside`, `SockWire.C78_timeout_partial`, `SockWire.C78_outside_counterexample`, `SockWire.C78_replay_counterexample`, `SockWire.C78_hangs_counterexample`, `SockWire.C78_segments_counterexample`, `SockWire.C78_timeout_counterexample`.


### MBS server and client

* Model: `Verif/MbsNet.lean`, `Verif/Spec/MbsNet.lean`, `Verif/MbsNetLemmas.lean`, `Verif/MbsNetInv.lean`, `Verif/MbsNetCalm.lean`, `Verif/Props/MbsNet.lean`
* Code: `ServerTransport.cxx:23-293` (`ServerOutputAddon`), `ClientTransport.cxx:22-400`, `MbsTypeDefs.cxx:122-200` and those parts of `InputTransport`/`OutputTransport` (`DataTransport.cxx:220-573, 704-850`) which call them. Every call-back, socket completion, timer and transport step is an operation; runs are arbitrary sequences of operations. The socket takes any number of bytes at a time; complete receive operations are one step (partial ones are C60). Events of the iterator are a list given with the buffer. Strings like the server name, debug output and statistics are left out, `ServerTransport::SendNextBuffer` too.
* Proof: Invariant `Inv` links the bytes under way with payloads not delivered; `Tok` balances requests with buffers under way; a measure shows that some operation brings a payload further until everything is delivered.
* Found in the code: `C79_odd_counterexample`: for a buffer of odd length the header tells one byte less than is sent, everything behind it is misread; `C79_too_long_counterexample`: the server does not obey its own announced limit of 4 MB, the client gives up on a longer buffer; `C79_keep_alive_counterexample`: a buffer without data (keep-alive) makes the client call back with `di_SkipBuffer` as size, which closes the input; `C79_not_asking_counterexample`: a client of the other kind waits forever at a stream server; `C79_wrong_info_counterexample`: when the transport asked for data before the info record came, a wrong record is not noticed: `SubmitRequest` overwrites `ioError`; For events of odd length one byte behind the event is sent; for the last event of a buffer this byte is outside (`Ev.next`).

**C79** An MBS client gets what the server was given — *partial*. For buffers of even length up to the announced limit of 4 MB; counterexamples for the others. Delivery is proved as: from every reachable state a finite continuation of server and client delivers everything. Theorems: `MbsNet.C79_in_order_partial`, `MbsNet.C79_no_error_partial`, `MbsNet.C79_delivered_partial`, `MbsNet.C79_on_request`, `MbsNet.C79_one_on_the_way`, `MbsNet.C79_too_long_counterexample`, `MbsNet.C79_odd_counterexample`, `MbsNet.C79_keep_alive_counterexample`, `MbsNet.C79_wrong_info_counterexample`, `MbsNet.C79_not_asking_counterexample`.


### Events in pieces from an MBS server

* Model: `Verif/Spec/MbsSpan.lean`, `Verif/MbsSpanLemmas.lean`, `Verif/MbsSpanInv.lean`, `Verif/Props/MbsSpan.lean` on the model of C79
* Code: `ClientTransport.cxx:82-173, 259-389`, `Iterator.cxx:88-120`: the client with spanning (greeting with streams and more than one buffer per stream). The buffers of the server are built by the specification (headers as MBS makes them, last event open or not, fill behind the events). The block which is kept (`fSpanBuffer`) shares memory with the delivered buffer in the code, the model copies it.
* Proof: `walk_pieces`: the loop over the events stops before the last piece; `joined_eq`: the memory after joining is the concatenation of the joined events; `one_buffer` for one buffer, induction over the buffers.
* Found in the code: `C80_short_piece_counterexample`: a piece of less than 16 bytes at the end of a buffer is not seen by the iterator, the complete event before it is taken for the open one and gets glued to the next piece; `C80_first_piece_counterexample`: a client which connects in the middle of an event delivers its rest as an event; `C80_gap`: when a buffer is missing and the next one does not begin with a piece, the input is closed; `C80_hangs_counterexample`: for a size word 0x7FFFFFFC the number of bytes wraps to zero and the loop never ends

**C80** Events sent in pieces by an MBS server come out complete — *partial*. Proved for pieces of at least 16 bytes with header and buffers where the MBS 16-bit count of used words is below 32768; the code fails for shorter pieces at the end of a buffer (counterexample). Theorems: `MbsNet.C80_reassembled_partial`, `MbsNet.C80_gap`, `MbsNet.C80_short_piece_counterexample`, `MbsNet.C80_first_piece_counterexample`, `MbsNet.C80_hangs_counterexample`.


### MBS server with many clients

* Model: `Verif/MbsServer.lean`, `Verif/Spec/MbsServer.lean`, `Verif/MbsServerLemmas.lean`, `Verif/MbsServerInv.lean`, `Verif/Props/MbsServer.lean`
* Code: `ServerTransport.cxx:297-521` (options, SocketConnect, SendNextBuffer, ProcessConnectionActivated), `Module.cxx:847-973` (disconnect events, SendToAllOutputs), the queue of a port as in C24, `Port::Disconnect`, `ConnectPorts` with its use of an old queue, the order of disconnecting and stopping when a transport closes (`Transport.cxx:172-176`) or is destroyed (`Module.cxx:536-552`). Buffers are numbers or the end of data. The module is running all the time; which event comes when is arbitrary.
* Proof: `Inv`: every queue which a client has, appended to what it got, is (a part of) what the server took since it came; each client has one queue; a queue without client has its event coming. `Clean`: events are about slots without client. `Num`: bounds.
* Found in the code: `C81_never_closes_counterexample`: a blocking server never closes after the end of data: clients close with `CloseTransport`, which disconnects before it stops, so the event which `ProcessConnectionActivated` waits for is not fired; `C81_swallows_counterexample`: a blocking server looks at the number of ports, not of clients: when all clients went away its data are dropped; `C81_reuse_counterexample`: a client which connects between the disconnection of another one and its event gets the old queue with old data, and the event then throws it out (`_partial` theorems exclude this); `C81_eof_lost_counterexample`: a server which does not block closes at the end of data at once, buffers in the queues of the clients are lost even with `deliverall`; `C81_nonblock_counterexample`: option `nonblock` does not switch `deliverall` off, one slow client still holds the input

**C81** An MBS server gives its clients what it took, in order, and loses only what its options allow — *partial*. Order, completeness and staying connected are proved for runs in which no client connects while the disconnection of another one is still to be processed (counterexample otherwise); the closing after the end of data fails for regular clients, only proved when a transport is destroyed. Theorems: `MbsServer.C81_received_partial`, `MbsServer.C81_waiting_partial`, `MbsServer.C81_stays_partial`, `MbsServer.C81_bounds`, `MbsServer.C81_accepts`, `MbsServer.C81_rejects`, `MbsServer.C81_no_loss`, `MbsServer.C81_not_held`, `MbsServer.C81_waits`, `MbsServer.C81_first`, `MbsServer.C81_closes`, `MbsServer.C81_options`, `MbsServer.C81_swallows_counterexample`, `MbsServer.C81_never_closes_counterexample`, `MbsServer.C81_eof_lost_counterexample`, `MbsServer.C81_reuse_counterexample`, `MbsServer.C81_nonblock_counterexample`.


### Hand-shake of socket connections

* Model: `Verif/SockDevice.lean`, `Verif/Spec/SockDevice.lean`, `Verif/SockDeviceLemmas.lean`, `Verif/SockDeviceInv.lean`, `Verif/SockDeviceRun.lean`, `Verif/SockDeviceTime.lean`, `Verif/Props/SockDevice.lean`
* Code: `SocketDevice.cxx:33-187` (records and `SocketProtocolAddon`), `254-325` (list of records, time-outs), `349-387` (connect requests), `396-564` (socket commands, protocol). Operations are the calls which happen on the device thread; addresses of new records, success of `CreateClientAddon`/`NetworkTransport::Make`, intervals of the timer and unset bytes are inputs. Nested event loops of `MakeWorkerFor` only run `OnThreadAssigned`. Not modelled: `StartServerAddon`, bind options, the client addon with its retries, `fClient`/`fProtocol` (log messages only).
* Proof: Counting invariant (answers + waiting records = commands), `Expl` (every state is explained by the history), `Match` (an addon refers to a record with its id, as long as addresses are fresh), `Within` (time), `Listed`.
* Found in the code: `C82_freed_counterexample`: a record ends by time-out while a protocol addon refers to it; when the socket then fails, `FinishWork` writes into the deleted record, replies its command again and deletes it a second time; `C82_reuse_counterexample`: only the address of the record is compared, a new record at the same address gets the socket of another connection; `C82_dangling_counterexample`: an accepted socket redirected by the command channel is removed from `fProtocols` before it is added there; the pointer stays after the addon is deleted and the destructor destroys it again; `C82_overrun_counterexample`: a request without zero byte makes the server read behind the buffer of the message; `C82_long_id_counterexample`: connection ids of 96 bytes and more are cut and never accepted (for 95 bytes it depends on a byte of `fOutBuf` which is never set); `C82_same_id_counterexample`: with both ends in the same device the client's socket is given to the server's request

**C82** A connection request at the socket device is answered once, and positively only with the right socket — *partial*. answers, times, agreement and the exchange of messages are proved for all runs; the right socket only while addresses are not used again, memory only without socket errors (counterexamples show that the code violates the rest) Theorems: `SockDevice.C82_answered_once`, `SockDevice.C82_in_time`, `SockDevice.C82_not_early`, `SockDevice.C82_confirmed`, `SockDevice.C82_agreed`, `SockDevice.C82_right_socket_partial`, `SockDevice.C82_reuse_counterexample`, `SockDevice.C82_same_id_counterexample`, `SockDevice.C82_accepts`, `SockDevice.C82_only_accepted`, `SockDevice.C82_request`, `SockDevice.C82_long_id_counterexample`, `SockDevice.C82_answer`, `SockDevice.C82_handshake`, `SockDevice.C82_denied`, `SockDevice.C82_memory_partial`, `SockDevice.C82_freed_counterexample`, `SockDevice.C82_overrun_counterexample`, `SockDevice.C82_list_partial`, `SockDevice.C82_dangling_counterexample`.


### States of an application

* Model: `Verif/AppState.lean`, `Verif/Spec/AppState.lean`, `Verif/AppStateLemmas.lean`, `Verif/AppStateInv.lean`, `Verif/AppStateRun.lean`, `Verif/AppStateWatch.lean`, `Verif/Props/AppState.lean`
* Code: `Application.cxx:24-430` (state commands, `DoTransition`, `CallInitFunc`, `ReplyCommand`, timer) with the effect of the manager commands for devices, pools and modules (`Manager.cxx:944-999, 1162-1191, 1255-1277`). Names are numbers; manager commands are executed at once; which objects and transports can be created and whether there are connections are inputs.
* Proof: Counting invariant for commands, `Cmds` (at most one command under way, then the state is Transition), `Owned` (every object is registered or was created by others; in Halted only the latter), `Grow` for the creation, `Watched` for the timer.
* Found in the code: `C83_halts_counterexample`: the connection manager answers an expired `ActivateConnections` with `cmd_timedout`, which is neither true nor false; the application stays in `Transition` for ever, every state command, also Halt at shutdown, is refused and its objects are not deleted; `C83_others_stay_counterexample`: a device or pool which existed before the application with the same name is registered as its own and deleted at Halt (modules are not, `C83_other_modules_stay`); `C83_stopped_counterexample`: a state command with an unknown state in Running gives Failure while the modules go on running; `C83_stops_counterexample`: when all modules end before the first timer event (0.2 s) the application never stops by itself; `C83_noname_counterexample`: a memory pool or module node without `name` gives `std::string(NULL)`

**C83** An application is always in a definite state, owns what it created, and can be halted — *partial*. everything is proved for all runs; the code violates parts (counterexamples: time-out of connections, unknown states, names of others, modules which end at once) Theorems: `AppState.C83_answered_once`, `AppState.C83_one_transition`, `AppState.C83_result`, `AppState.C83_halted_clean`, `AppState.C83_others_stay`, `AppState.C83_other_modules_stay`, `AppState.C83_others_stay_counterexample`, `AppState.C83_complete`, `AppState.C83_running_started`, `AppState.C83_stopped_partial`, `AppState.C83_stopped_counterexample`, `AppState.C83_halts`, `AppState.C83_reaches`, `AppState.C83_halts_counterexample`, `AppState.C83_noname_counterexample`, `AppState.C83_watched`, `AppState.C83_stops`, `AppState.C83_stop_reason`, `AppState.C83_stops_counterexample`.


### HLD files by run and by size

* Model: `Verif/HldOut.lean`, `Verif/Spec/HldOut.lean`, `Verif/HldOutLemmas.lean`, `Verif/HldOutShape.lean`, `Verif/HldOutSlave.lean`, `Verif/HldOutSplit.lean`, `Verif/Props/HldOut.lean`
* Code: `HldOutput.cxx:34-424` (`Write_Init`, `StartNewFile`, `Write_Retry`, `Write_Restart`, `Write_Buffer`), `HldFile.cxx:31-137` for writing, `DataIO.cxx:277-294`. A file is a list of pieces (records and written blocks; the bytes of records are in C29), its name is the run number (or one name with option `plain`); opening truncates. Events of a buffer are what `ReadIterator` finds (C31, C32), independent of its segments. The clock and failures of the disk (of each single write, of opening) are inputs. Not modelled: name prefixes, disk demon, `rfio`, `ltsm`.
* Proof: `Inv` (shape of all files, any operations and failures), `Sl` (slave mode: state explained by the events so far), `Sp` (own mode: files, pieces of the input), `Lost` (slave mode after an error).
* Found in the code: `C84_slave_retry_counterexample`: in slave mode, after a write error, nothing more of the run is ever written although the disk works again: after `Write_Retry`/`Write_Init` the run is taken for the last one, the first buffer is skipped with `do_Ok` and the next is an error, and so on; `C84_resume_counterexample`: the same when a run goes on after events without run number (or after an end-of-run buffer); `C84_two_changes_counterexample`: only the first change of the run in a buffer is seen, events of further runs get into the wrong file; `C84_return_counterexample`: a run which comes back after another one overwrites its own file; `C84_second_counterexample`: run numbers are seconds; a second file within the same second overwrites the first one; `C84_plain_counterexample`: with option `plain` the end of a run (or a restart) overwrites the file; `C84_subevents_counterexample`: of a buffer with subevents only the first one is written (`NextSubeventsBlock` gives the whole buffer as one block), the buffer is accepted; `C84_total_counterexample`, `C84_empty_segment_counterexample`: events written before a change of the run are not counted; an empty segment among them is an error

**C84** HLD output puts every event into the file of its run — *partial*. The code violates the property in several cases (counterexamples); proved for streams where no run comes back and each buffer has at most one change of the run, and for at most one file per second. Theorems: `HldOut.C84_files_shape`, `HldOut.C84_complete`, `HldOut.C84_end`, `HldOut.C84_by_run_partial`, `HldOut.C84_two_changes_counterexample`, `HldOut.C84_return_counterexample`, `HldOut.C84_resume_counterexample`, `HldOut.C84_slave_retry_counterexample`, `HldOut.C84_total_counterexample`, `HldOut.C84_empty_segment_counterexample`, `HldOut.C84_by_size_partial`, `HldOut.C84_second_counterexample`, `HldOut.C84_plain_counterexample`, `HldOut.C84_accepted_written`, `HldOut.C84_retry`, `HldOut.C84_next_file`, `HldOut.C84_subevent_partial`, `HldOut.C84_subevents_counterexample`.


### Run control of a builder network

* Model: `Verif/BnetMaster.lean`, `Verif/Spec/BnetMaster.lean`, `Verif/BnetMasterLemmas.lean`, `…Inv.lean`, `…Answer.lean`, `…Ctrl.lean`, `…State.lean`, `…Cycle.lean`, `…Size.lean`, `…More.lean`, `Verif/Props/BnetMaster.lean`
* Code: `BnetMasterModule.cxx:23-679` (constructor, `AddItem`, `PreserveLastCalibr`, `ReplyCommand`, `ExecuteCommand`, timer). Names are strings, qualities rationals, times rationals given with each step. Replies of nodes, node lists from the publisher and times are inputs; a reply can come at most for what was asked. Every step records what came in and what was done in a log; the specification reads only the log. Not modelled: texts of messages, http command registration, formatting of the layout.
* Proof: Counting invariant for answers (`owed_reach`), `RunInv`/`CurInv` (orders of the current command), `RefInv`, `Sound`/`Best` (folds over the replies of one cycle), `CycleInv` (one cycle at a time, each reply counted once), `SzInv` (automatic start).
* Found in the code: `C85_failed_orders_counterexample`: results of the orders are not looked at, StartRun is answered true although every node failed; `C85_no_builders_counterexample`: with no builder a StartRun is answered true and nothing is done; `C85_refresh_no_inputs_counterexample`: with no input a RefreshRun is never answered, and all later ones are refused for ever; `C85_oninit_counterexample`: the number given with `oninit` is not observed, the start happens the first time the builders are the same; `C85_refresh_run_counterexample`, `C85_second_stop_counterexample`: quality of a calibration is written for run 0; `C86_empty_state_counterexample`: a node with quality 0 and an empty state is not seen, the network is shown as Ready with quality 1; `C86_no_inputs_counterexample`: a builder without inputs is not noticed, depending on the order of replies; `C86_no_nodes_counterexample`, `C86_lost_control_counterexample`: "NoNodes" is shown in cases with nodes; it hides "LostControl"

**C85** Run commands reach every node once and are answered once, with what the nodes told — *partial*. Proved for all runs; the code violates parts (counterexamples: results of the nodes are not looked at, RefreshRun without inputs, number given with oninit, calibrations written for run 0). Theorems: `BnetMaster.C85_events`, `BnetMaster.C85_answered_once`, `BnetMaster.C85_answer_meaning`, `BnetMaster.C85_orders`, `BnetMaster.C85_same_for_all`, `BnetMaster.C85_late_reply`, `BnetMaster.C85_master_run`, `BnetMaster.C85_calibration`, `BnetMaster.C85_refresh`, `BnetMaster.C85_waiting_start_partial`, `BnetMaster.C85_nodes`, `BnetMaster.C85_failed_orders_counterexample`, `BnetMaster.C85_no_builders_counterexample`, `BnetMaster.C85_refresh_no_inputs_counterexample`, `BnetMaster.C85_oninit_counterexample`, `BnetMaster.C85_refresh_run_counterexample`, `BnetMaster.C85_second_stop_counterexample`.

**C86** The common state of a builder network is shown only from complete information — *partial*. Proved for all runs; a quality above 0 does not tell about nodes with empty state or without partners (counterexamples). Theorems: `BnetMaster.C86_shown_when_all_replied`, `BnetMaster.C86_good_quality_partial`, `BnetMaster.C86_worst_state`, `BnetMaster.C86_late_reply`, `BnetMaster.C86_auto_start`, `BnetMaster.C86_auto_start_once`, `BnetMaster.C86_empty_state_counterexample`, `BnetMaster.C86_no_inputs_counterexample`, `BnetMaster.C86_no_nodes_counterexample`, `BnetMaster.C86_lost_control_counterexample`.


### Run control in the nodes of a builder network

* Model: `Verif/BnetNode.lean`, `Verif/Spec/BnetNode.lean`, `Verif/BnetNodeLemmas.lean`, `Verif/BnetNodeInv.lean`, `Verif/BnetNodeRun.lean`, `Verif/BnetNodeMore.lean`, `Verif/Props/BnetNode.lean`
* Code: `CombinerModule.cxx:84-132` (options), `195-202` (end), `360-362` (time-out), `1287-1330` (`BnetFileControl`), `1353-1412` (calibration commands), `1444-1535` (run information, counters), `1596-1647` (replies). Numbers of ports are fixed; a file name is prefix and run; of the counters only the number of events is kept; whether outputs can send and buffers are free is an input. `StartHldFile`, `StopHldFile`, `RestartHldFile` and the state fields are not modelled. Building of events is in C35-C37.
* Proof: `Eff` describes every step as one update of the state with its events; counting invariant for answers, `Pend` (commands under way and the replies since), `TrackOk` (run, prefix and counter follow the log), `LinesOk` (run information), `Replies` (each asked transport replies once).
* Found in the code: `C87_refresh_counterexample`: a refresh command is never answered, since the number of missing replies is taken from the calibration command (`fBnetCalibrCmd` instead of `fBnetRefreshCmd`); `C87_refresh_early_counterexample`: when a calibration waits for its last reply it is confirmed with the first reply; `C87_stale_counterexample`, `C87_stale_calibr_counterexample`: replies to a superseded command are counted for the new one (the master has a counter for this, the node does not); `C87_failed_counterexample`: results of the outputs are not looked at; `C87_stop_skipped_counterexample`: outputs with a full queue, or without free buffer, are not told about the end of the run; the stop is confirmed; `C87_no_timeout_counterexample`: only builders look at the time of a start command; `C87_first_line_counterexample`: outside of a network the run of the configuration is stopped in the run information without having been started

**C87** A node of a builder network does what it confirms — *partial*. Proved for all runs; the code violates parts (counterexamples: refresh commands are never answered, replies to superseded commands are counted, failures are not seen, outputs which cannot take a buffer are skipped). Theorems: `BnetNode.C87_events`, `BnetNode.C87_answered_once`, `BnetNode.C87_start_orders`, `BnetNode.C87_start_confirmed_partial`, `BnetNode.C87_start_refused`, `BnetNode.C87_timeout`, `BnetNode.C87_stop_partial`, `BnetNode.C87_event_numbers`, `BnetNode.C87_run_info`, `BnetNode.C87_stop_line`, `BnetNode.C87_no_info`, `BnetNode.C87_calibr_orders`, `BnetNode.C87_calibr_confirmed_partial`, `BnetNode.C87_refresh_orders`, `BnetNode.C87_stale_counterexample`, `BnetNode.C87_failed_counterexample`, `BnetNode.C87_stop_skipped_counterexample`, `BnetNode.C87_no_timeout_counterexample`, `BnetNode.C87_first_line_counterexample`, `BnetNode.C87_refresh_counterexample`, `BnetNode.C87_refresh_early_counterexample`, `BnetNode.C87_stale_calibr_counterexample`.


### Items of hierarchies and requests for them

* Model: `Verif/PublTree.lean`, `Verif/Spec/PublTree.lean`, `Verif/PublTreeLemmas.lean`, `Verif/PublTreeFind.lean`, `Verif/PublTreeSend.lean`, `Verif/Props/PublTree.lean`
* Code: `Object.cxx:735-819` (`FindChild`, `GetFolder` without creation), `1061-1073` (`ItemName`), `ReferencesVector.cxx:174-181`, `Hierarchy.cxx:1098-1114` (`FindBinaryProducer`), `Publisher.cxx:382-392` (`GetWorkItem`), `394-449` (`IdentifyItem`), `452-509` (`RedirectCommand`), `512-524`, `610` (`CreateExeCmd`), `804-820` (`CmdGetNamesList`), `831-863` (`CmdUIKind`), `865-883` (`CmdNeedAuth`), addresses from `Manager.cxx:1439-1490` (C43). A tree is a snapshot taken under the lock; how the trees get their contents is not modelled; whether a remote node is known is an input.
* Proof: Paths are cut into pieces by a spec independent of the code; `walk_plain` relates following a path to going to a child; nearest and topmost producer by induction over the tree; `identify_cut` gives for a name which is only partly known the longest known part; `Published` says that every producer names a registration of an existing worker.
* Found in the code: `C88_hierarchy_counterexample`: a worker with two registered hierarchies gets requests for the second one with the pointer of the first one (`Publisher.cxx:478-493`, the search stops at the first entry of the worker); `C88_execute_counterexample`: once another node is known, `CreateExeCmd` uses the topmost producer, so a command published inside of the branch of another worker is sent to the wrong worker

**C88** A request for a published item reaches the worker which published it — *partial*. Two statements fail in the code: a worker with two hierarchies gets requests for the second one with the first one; as soon as another node is known a command nested in the branch of another worker goes to that worker. Both hold in the excluded cases (_partial). Theorems: `PublTree.C88_path`, `PublTree.C88_full_name`, `PublTree.C88_producer`, `PublTree.C88_worker`, `PublTree.C88_hierarchy_partial`, `PublTree.C88_node`, `PublTree.C88_own`, `PublTree.C88_unknown`, `PublTree.C88_execute_partial`, `PublTree.C88_uri`, `PublTree.C88_hierarchy_counterexample`, `PublTree.C88_execute_counterexample`.


### Requests to the web server

* Model: `Verif/HttpServer.lean`, `Verif/Spec/HttpServer.lean`, `Verif/HttpServerLemmas.lean`, `Verif/Props/HttpServer.lean`
* Code: `Server.cxx:156-224` (`VerifyFilePath`, `IsFileRequested`), `226-257` (`ExtractPathAndFile`, `IsAuthRequired`), `259-443` (decisions of `Process`), `Civetweb.cxx:114-178`, `FastCgi.cxx:211-236` (order of the checks), `civetweb.c:7747-7771` (cleaning of addresses). Files are names, links in the file system are not modelled; contents, headers and compression of answers are not modelled; decoding of the address is done before.
* Proof: `verify_iff` relates the counter of the check to the depth of the prefixes of the list of names; the rest by `rfind` lemmas. `C90_same_item_partial` compares the splitting of the address at the last slash with that of the publisher (C88).
* Found in the code: `C89_last_counterexample`: a last name `..` is accepted; `C89_backslash_counterexample`: backslashes count as separators, so that names get out arbitrarily far; `C89_user_counterexample`: for pages of users the result of the check is not looked at (`Server.cxx:283`). All three are not reachable through the built-in server, which cleans the address first (`C89_civetweb`, `C89_civetweb_user`), but through FastCGI, when the server in front of it does not; `C89_prefix_counterexample`: a location whose prefix does not end with a slash delivers files next to its directory; `C90_ignored_counterexample`: `IsAuthRequired` is called from nowhere, so the settings of the items have no effect; with a file of passwords the built-in server asks for every address, FastCGI never asks; `C90_below_counterexample`: items unknown to the publisher below an item which demands authentication get the default; `C90_multi_counterexample`: `multiget.json` is judged by its own path only

**C89** The web server delivers only files of its directories — *partial*. The check alone lets names out (backslash, last name .., pages of users, prefixes without slash): counterexamples. With the cleaning done by the built-in server and prefixes ending with a slash everything stays inside. Theorems: `HttpServer.C89_verify`, `HttpServer.C89_inside_partial`, `HttpServer.C89_complete`, `HttpServer.C89_file_partial`, `HttpServer.C89_pages`, `HttpServer.C89_handle`, `HttpServer.C89_civetweb`, `HttpServer.C89_civetweb_user`, `HttpServer.C89_clean_same`, `HttpServer.C89_last_counterexample`, `HttpServer.C89_backslash_counterexample`, `HttpServer.C89_prefix_counterexample`, `HttpServer.C89_user_counterexample`.

**C90** A client is asked who it is as the items demand — *partial*. The decision is right for known items but is never used by the handlers; unknown sub-items and requests for several items get around it (counterexamples). Theorems: `HttpServer.C90_auth`, `HttpServer.C90_file`, `HttpServer.C90_same_item_partial`, `HttpServer.C90_ignored_counterexample`, `HttpServer.C90_below_counterexample`, `HttpServer.C90_multi_counterexample`.


### Log messages

* Model: `Verif/Logging.lean`, `Verif/Spec/Logging.lean`, `Verif/LoggingLemmas.lean`, `Verif/Props/Logging.lean`
* Code: `logging.cxx:41-98` (entries), `166-209` (levels, table of lines), `219-289` (`_FillString`: which parts a line has), `291-369` (`DoOutput`), `logging.h:115-119`. Times are whole microseconds. Settings are inputs of each call. Reopening of the file, `ShowStat` and the writing of numbers are not modelled.
* Proof: `doOutput_plain` describes one call; `Knows` relates the entry of a place to the log so far; `run_place` goes through all calls, those of other places leave the entry alone. The inductive `Log` is the specification. Below 2^32 messages the counters do not wrap.
* Found in the code: `C91_syslog_counterexample`: the level of the system log is not part of `fLevel`; messages only it would take are never looked at; `C91_level_counterexample`: the level shown is that of the first message of the place; `C91_lowered_counterexample`: when an output does not take a message because its level was lowered meanwhile, the number of dropped messages is reset without being shown

**C91** The log accounts for every message — *partial*. Proved for places whose messages are taken by the output throughout, with less than 2^32 calls. When levels change meanwhile numbers of dropped messages get lost; the system log does not get messages above the other levels (counterexamples). Theorems: `Logging.C91_log`, `Logging.C91_total`, `Logging.C91_first`, `Logging.C91_outputs`, `Logging.C91_error`, `Logging.C91_lines`, `Logging.C91_syslog_counterexample`, `Logging.C91_level_counterexample`, `Logging.C91_lowered_counterexample`.


### Storage of hierarchies

* Model: `Verif/HierStore.lean`, `Verif/Spec/HierStore.lean`, `Verif/HierStoreLemmas.lean`, `Verif/HierStoreInv.lean`, `Verif/Props/HierStore.lean`; hierarchies from C52
* Code: `HierarchyStore.cxx:55-196` (`StartFile`, `WriteDiff`, `CheckForNextStore`, `ExtractData`, `WriteExtractedData`), `381-400` (choice of the file and reading of the first record), requests as in `Worker.cxx:703-724`. A file is a list of records named by the second; how each write and each opening ends is an input. Not modelled: history, scanning of directories, `GetSerie` with the selection of one entry.
* Proof: Somebody who follows the opened file is a client in the sense of C52 (`follower`), so its invariant `SysOK` is reused; `Inv` adds that each file tells its snapshots. `full_view`: version 0 gives everything. `check_cases` for the times.
* Found in the code: `C92_lost_counterexample`: results of `WriteDiff` and `StartFile` are ignored while `fLastVersion` goes on, so after one failed write changes are missing in all later records of the file; `C92_open_counterexample`: when a new file cannot be created, nothing is stored until the time limit is over again; `C92_second_counterexample`: two files of the same second have the same name, the first one is overwritten; `C92_time_counterexample`: `storetm` is set after the hierarchy was saved, so every record has the time of the record before, the first has none; `C92_clock_counterexample`: after the clock was set back nothing is stored until it is there again; `C92_structure_counterexample`: the structure for a time is that of the beginning of the file, later records are not read; read from the code, not modelled: `GetSerie` looks into one file only and ignores `till`; a directory whose name is only a prefix of the entry (`/A` and `/AB`) is entered, the entry is not found there and everything fails

**C92** Stored hierarchies can be read back — *partial*. Proved without errors of the disk, without two files in the same second and as long as names of removed items are not used again while the file has them (as in C52). Errors are not noticed by the code (counterexamples). Theorems: `HierStore.C92_replay_partial`, `HierStore.C92_stored`, `HierStore.C92_kept`, `HierStore.C92_spaced`, `HierStore.C92_often`, `HierStore.C92_pick`, `HierStore.C92_structure`, `HierStore.C92_lost_counterexample`, `HierStore.C92_open_counterexample`, `HierStore.C92_second_counterexample`, `HierStore.C92_time_counterexample`, `HierStore.C92_clock_counterexample`, `HierStore.C92_structure_counterexample`.


### Registration at the publisher

* Model: `Verif/PublReg.lean`, `Verif/Spec/PublReg.lean`, `Verif/PublRegLemmas.lean`, `Verif/PublRegInv.lean`, `Verif/Props/PublReg.lean`; hierarchies from C52
* Code: `Publisher.cxx:204-254` (requests), `312-379` (`ApplyEntryDiff`, `ReplyCommand`), `638-700` and `739-763` (register, unregister, remove worker), `Worker.cxx:703-724` (answer), `Hierarchy.cxx:1117-1131`, `Object.cxx:742-819` (folders). Paths are lists of names. Left out: entries of other nodes and the global hierarchy, the branch of the manager and `$MGR$`, storage (C92), subscribers (they get nothing), versions and ids above 2^32.
* Proof: Each folder together with the answer under way is a client in the sense of C52, so `SysOK` is reused (`EntOK`: the folder is such a client up to the producer). `Inv.turn`, `Inv.back`, `Inv.shrink` are the steps of commands and removals; `subT_…` lemmas tell what a change of one folder does to another path.
* Found in the code: `C93_below_counterexample`: a worker may register below the path of another one, whose next answer removes the folder; it never comes back, while answers go on to be accepted (only items of the manager are protected by `DisableReadingAsChild`); `C93_removed_counterexample`: the same when the worker above is removed; `C93_leftover_counterexample`: removal of a worker (`Destroy`, not `RemoveEmptyFolders`) leaves empty folders, which cannot be registered then; `C93_pointer_counterexample`: a request which contains the pointer of the hierarchy can still be under way when `unregister` returns; when the worker releases the hierarchy then, the pointer is used afterwards. The same holds for the `store` of the entry, deleted with the entry; read from the code, not modelled: `version` is cut to 32 bit in the worker and in the answer; items of a removed node stay in the global hierarchy until something else changes

**C93** Published hierarchies follow their workers — *partial*. Partial: as long as nothing is registered below another registration (accepted by the code, then its folder is lost); names of removed items are used again only after the publisher has seen the removal (as in C52). Local entries only. Theorems: `PublReg.C93_ids`, `PublReg.C93_shows_partial`, `PublReg.C93_refresh_partial`, `PublReg.C93_register`, `PublReg.C93_unregister_partial`, `PublReg.C93_remove_worker_partial`, `PublReg.C93_stale`, `PublReg.C93_failed`, `PublReg.C93_below_counterexample`, `PublReg.C93_removed_counterexample`, `PublReg.C93_leftover_counterexample`, `PublReg.C93_pointer_counterexample`.


### Run state and connections of a module

* Model: `Verif/ModConn.lean`, `Verif/Spec/ModConn.lean`, `Verif/ModConnLemmas.lean`, `Verif/ModConnInv.lean`, `Verif/Props/ModConn.lean`
* Code: `Module.cxx:269-281` (`DisconnectPort`), `563-606` (`DoStart`, `DoStop`), `822-929` (`ProcessEvent`), `Port.cxx:194-218` (`TryNextReconnect`), `Port.h:130-137`, `ModuleItem.cxx:156-182` (`ConnTimer`). The methods of the user are recorded and do not change the module, periods of timers are left out, the outcome of `CreateTransport` is an input, connection states change by steps of their own. Left out: the state of the connection request, `evntConnStart/Stop`.
* Proof: One list of effects; `Life` is an automaton over it. `evDisconnect_ok` and `connTimer_ok` give all outcomes of the two functions; `Track` is the invariant about one port (attempts + remaining limit + 1 = L while it is being connected again).
* Found in the code: `C94_limit_counterexample`: `fReconnectLimit-- > 0` makes the limit negative when it is used up, and negative means unlimited: after the next loss the port is tried for ever (`TryNextReconnect`); `C94_giveup_counterexample`: when the last attempt fails in `ConnTimer::ProcessTimeout`, nobody looks if the module has to be stopped; it runs on without any connection; `C94_late_counterexample`: a disconnect event does not tell which connection it is about; when the port was connected again before it is processed, it closes the new connection (and the module stops); `C94_command_counterexample`: the same as for giving up with the command `DisconnectPort`; read from the code: signalling kind `oper` in the configuration sets `SignalConfirm`; `SetPortRatemeter` and `SetPortLoopLength` return true for unknown ports; `evntConnStart/Stop` for an item which is no port uses a null pointer

**C94** A module runs as long as it has connections — *partial*. Missing: the limit of attempts after a second loss and the automatic stop after giving up or DisconnectPort, both violated by the code (counterexamples). Theorems: `ModConn.C94_life`, `ModConn.C94_told`, `ModConn.C94_autostop`, `ModConn.C94_stopped`, `ModConn.C94_alive_partial`, `ModConn.C94_attempts_partial`, `ModConn.C94_all_attempts`, `ModConn.C94_limit_counterexample`, `ModConn.C94_giveup_counterexample`, `ModConn.C94_late_counterexample`, `ModConn.C94_command_counterexample`.


### Event loops of asynchronous modules

* Model: `Verif/AsyncLoop.lean`, `Verif/Spec/AsyncLoop.lean`, `Verif/AsyncLoopInv.lean`, `Verif/Props/AsyncLoop.lean`
* Code: `ModuleAsync.cxx:50-64` (the cases of ports), `101-150` (`ActivateInput`, `ProcessInputEvent`, `ActivateOutput`, `ProcessOutputEvent`), `Port.cxx:171-183` (`GetMaxLoopLength`), on top of the queue of C24/C25. The loop is cut into its test, the operations of the user method and its return, so other threads act between any two of them. The module runs all the time; a method which calls `ProcessInputEvent` again from inside is left out; pools are left out.
* Proof: Invariant `Inv`: while the module is idle and was not refused, something to do implies an event or a re-injected event on its way. For operations of other threads the invariant of C25 is used with a record of a look which found nothing (`seen`) added to the history, which is allowed because in this state there is nothing to do or an event is pending.
* Found in the code: `C95_length_counterexample`: a loop length above 2147483647 becomes a negative `int`, which means one call per event; the rest of the data is then not processed

**C95** An asynchronous module forgets no data and no free place — *proved*. For a module which is connected once and started once (C25 has counterexamples for restart and reconnect) and loop lengths below 2^31 (counterexample above). Theorems: `AsyncLoop.C95_nothing_forgotten`, `AsyncLoop.C95_recv_ready`, `AsyncLoop.C95_bounded`, `AsyncLoop.C95_length_counterexample`.


### Blocking operations of modules with main loop

* Model: `Verif/SyncWait.lean`, `Verif/Spec/SyncWait.lean`, `Verif/SyncWaitInv.lean`, `Verif/Props/SyncWait.lean`
* Code: `ModuleSync.cxx:91-110` (`Recv`), `157-174` (`WaitInput`), `176-184` (`ModuleWorking`, its `SingleLoop`), `234-245` (`StopUntilRestart`), `274-289` (`ProcessItemEvent`), `291-332` (`WaitItemEvent`), `Module.cxx:822-834`, `Thread.cxx:468-490` (`SingleLoop`, the event is an input), on top of the queue of C24/C25. Left out: `Send`, `TakeBuffer`, `RecvFromAny`, `WaitConnect`, and commands which call blocking operations from inside a blocking operation (`SetSyncCommands`).
* Proof: `Clock`: used part of the timeout <= time since the call. `Inv`: the invariant of C25 plus `data -> event` while waiting (with the lemmas of C95). `Deaf`: the queue waits for the confirmation of an event which does not exist; no step changes this.
* Found in the code: `C96_default_counterexample`: the documented 'blocks until buffer is arrived' does not hold for the default timeout -1: `WaitItemEvent` returns false at once (ModuleSync.cxx:293), so `Recv()` returns a null buffer when there is no data; `C96_before_start_counterexample`: an `evntInput` which arrives before the module runs is dropped without `ConfirmEvent` (Module.cxx:831-833) and a `ModuleSync` fires no start events: after the first buffer no event ever comes again, `Recv` with timeout gets nothing although data is there (for all continuations without connect or disconnect events); `C96_restart_counterexample`: the same after stop and start; `C96_two_buffers_counterexample`: `WaitInput` for two buffers is not woken by the second buffer; `C96_suspend_counterexample`: `StopUntilRestart` calls `WaitItemEvent` with -1 and therefore does not wait at all

**C96** Blocking operations of a module with main loop wait as long as they have to — *partial*. Never too early, exceptions only when configured: proved for all runs. Wake-up and value: for ports which are connected while the module runs, modules which are not stopped, and one buffer; the code violates the full statement (negative timeout, data before the start, restart, two buffers, StopUntilRestart). Theorems: `SyncWait.C96_not_early`, `SyncWait.C96_exceptions`, `SyncWait.C96_goes_on`, `SyncWait.C96_wakes_partial`, `SyncWait.C96_returns_partial`, `SyncWait.C96_value_partial`, `SyncWait.C96_default_counterexample`, `SyncWait.C96_two_buffers_counterexample`, `SyncWait.C96_before_start_counterexample`, `SyncWait.C96_restart_counterexample`, `SyncWait.C96_suspend_counterexample`.


### Commands of modules with main loop

* Model: `Verif/SyncCmd.lean`, `Verif/Props/SyncCmd.lean`
* Code: `ModuleSync.cxx:195-232` (`PreviewCommand`: queueing of other commands, `StopModule`), `260-272` (`AsyncProcessCommands`), `Module.cxx:249-256` (`Stop`), `898-913` (automatic stop when all ports are disconnected). A command is a number, its execution is open: between its begin and its end (`ret`) every other step can happen, also further calls of `AsyncProcessCommands`. Left out: replies, commands of the base classes, `SetSyncCommands` during the run.
* Proof: Case lemma `act_cases` for one step (executed ++ waiting is kept), induction over the steps. `C97_safe_partial`: at most one call in progress, and then the queue exists.
* Found in the code: `C97_null_counterexample`: `AsyncProcessCommands` uses the member `fNewCommands` in its loop; a command which processes events (`Recv` with timeout) while `StopModule` arrives lets the inner call delete the queue, the outer call then dereferences a null pointer; `C97_order_counterexample`, `C97_waits_counterexample`: `Module::Stop()` and the automatic stop do not execute waiting commands; later commands are executed at once, before the older ones, which wait until the module runs again

**C97** Commands of a module with main loop are executed exactly once and in order — *partial*. Every command is executed exactly once or waits; order and absence of null pointers hold only when the module is stopped by the command and not while commands are executed (counterexamples for the other ways) Theorems: `SyncCmd.C97_once`, `SyncCmd.C97_order_partial`, `SyncCmd.C97_stop_ends`, `SyncCmd.C97_safe_partial`, `SyncCmd.C97_null_counterexample`, `SyncCmd.C97_order_counterexample`, `SyncCmd.C97_waits_counterexample`.


### Items of modules

* Model: `Verif/ModuleItems.lean`, `Verif/Spec/ModuleItems.lean`, `Verif/ModuleItemsInv.lean`, `Verif/Props/ModuleItems.lean`
* Code: `Module.cxx:109-127`, `203-217`, `608-627`, `704-747` (creation), `629-649` (`AddModuleItem`, the exit after 65535 items is `none`), `651-696` (`RemoveModuleItem`), `101-107`, `160-182`, `219-225` (search by name), `234-238`, `764-783` (produce events), `554-560` (`ProcessTimeout`), `ModuleAsync.cxx:49-83`, `102-158`. Pointers are replaced by the number of the item in `fItems`. Left out: queues and parameters of items, threads, events of connections.
* Proof: `renum_spec` describes one loop of `RemoveModuleItem` exactly; `Base`: items are once in the list of their kind, non-empty names differ; `Right`: `fSubId` is the position.
* Found in the code: `C98_stale_counterexample`: the loops of `RemoveModuleItem` increment the counter after `erase`, so the item behind the removed one keeps its old `fSubId`: its events are handled with the index of the next item, or dereference a null pointer when it is the last one. `C98_one_wrong`: at most one item is affected, the next removal repairs it; `C98_removed_counterexample`: events of a removed item which are still in the queue dereference a null pointer (`GetItem` gives 0, no check in `ProcessItemEvent`); `C98_pool_counterexample`: `ActivatePool` fires `evntOutputReinj` instead of `evntInputReinj`: the output with the same index is processed, or a null pointer is used; `C98_systimer_counterexample`: `fSysTimerIndex` is not adjusted when a timer is removed

**C98** Events of module items are handled with the index of their item — *partial*. Creation, names and the bound on wrong indices for all sequences. Delivery of events for modules whose items are removed only from the end of their lists, the timer of the module without removals; the code violates the full statement (counterexamples). Theorems: `ModuleItems.C98_create`, `ModuleItems.C98_names`, `ModuleItems.C98_deliver_partial`, `ModuleItems.C98_activate_partial`, `ModuleItems.C98_one_wrong`, `ModuleItems.C98_systimer_partial`, `ModuleItems.C98_stale_counterexample`, `ModuleItems.C98_removed_counterexample`, `ModuleItems.C98_pool_counterexample`, `ModuleItems.C98_systimer_counterexample`.


### Averages, rates and utilisation

* Model: `Verif/Statistic.lean`, `Verif/Spec/Statistic.lean`, `Verif/Props/Statistic.lean`
* Code: `statistic.cxx:65-142` (the arithmetic of `CpuStatistic::Measure` for one line), `190-212` (`Packet`), `229-247`, `249-259` (`DoMeasure`), `301-372` (`Average`), `statistic.h:36-39`, `127`. Floating point numbers are rational numbers, `lrint` rounds to the nearest, from the middle to the even integer. Left out: files, output, the square root, memory and numbers of processes.
* Proof: `Average` keeps sum and sum of squares; the deviation is compared with the mean square distance from the mean, which is never negative. Histogram: induction over the values with the place of a value as open function.
* Found in the code: `C99_lower_counterexample`: a value equal to the lower border of the histogram is counted nowhere (`lrint(0.5)` is 0, message 'Bin error'); `C99_border_counterexample`: with bins of width 1 the integers 1 and 2 are counted in the same bin and every second bin stays empty, although the code says '+0.5 to set integer value in the middle of interval'; `C99_points_counterexample`: the size of the first packet is added to the points but not to the total size; `C99_cpu_counterexample`: the utilisation is above 1 when the idle counter of `/proc/stat` decreases (unsigned subtraction)

**C99** Averages, rates and utilisation are those of the measured values — *partial*. Mean, deviation, extremal values and rate are proved; the histogram only for values not on the border of a bin, the utilisation only when the counters do not decrease, with counterexamples for the rest. Rational numbers stand for floating point numbers. Theorems: `Statistic.C99_average`, `Statistic.C99_bin_partial`, `Statistic.C99_hist_partial`, `Statistic.C99_lower_counterexample`, `Statistic.C99_border_counterexample`, `Statistic.C99_rate`, `Statistic.C99_points_counterexample`, `Statistic.C99_cpu_partial`, `Statistic.C99_cpu_first`, `Statistic.C99_cpu_counterexample`.


### Text input of MBS

* Model: `Verif/TextInput.lean`, `Verif/Spec/TextInput.lean`, `Verif/TextInputInv.lean`, `Verif/Props/TextInput.lean`
* Code: `TextInput.cxx:24-233` with the calls of the input transport (`DataTransport.cxx:338-540`), `Iterator.cxx:219-345`, `378-447` reduced to sizes. `std::ifstream::getline` and `operator>>` for integers are modelled by their documentation (`eofbit`, `failbit`, null-terminated result). Left out: format `float`, bytes 0, disk errors, option `loop`.
* Proof: `Inv`: expected = delivered ++ current buffer ++ events of the lines which are left; `left` and `rank` decrease (end of every run); `bare` decides from the lines which are left whether the null pointer is reached; `Tail`: the last line is in the current buffer when the input ends.
* Found in the code: `C100_crash_counterexample`: for an ordinary file, whose last line with data ends with a line end, `continue` jumps to `while (strlen(sbuf)==0)` with `sbuf` null; `C100_tail_counterexample`: without this line end, `Read_Complete` returns `di_EndOfStream` and the events of the current buffer are lost - the last event of the last file is never delivered, a file with fewer events than fit into a buffer gives nothing at all; `C100_empty_counterexample`: `Close` finishes the event which found no place for its subevent: every delivered buffer has an additional event without data and with the number of the next event; `C100_small_counterexample`: when an event does not fit into a buffer, such buffers are delivered without end; `C100_long_counterexample`: a line longer than the buffer for lines sets `failbit`, which is never cleared: endless loop

**C100** A text input makes one event of every line with data — *partial*. Numbers, order and the loss of at most one buffer for all lists of files with lines shorter than the buffer and with enough numbers. The code loses the last events, uses a null pointer at an ordinary end of file, adds events without data and does not end for long lines or small buffers (counterexamples for all such files). The format float is left out. Theorems: `TextInput.C100_numbers`, `TextInput.C100_order_partial`, `TextInput.C100_ends_partial`, `TextInput.C100_crash_counterexample`, `TextInput.C100_safe_partial`, `TextInput.C100_tail_counterexample`, `TextInput.C100_buffers_partial`, `TextInput.C100_empty_counterexample`, `TextInput.C100_small_counterexample`, `TextInput.C100_long_counterexample`.


### Iterator over objects

* Model: `Verif/ObjIter.lean`, `Verif/Spec/ObjIter.lean`, `Verif/Props/ObjIter.lean`
* Code: `Iterator.cxx:20-94`. Objects are nodes of a tree; the tree does not change, names and references are left out.
* Proof: `after`: what the following calls must give, from the stack; `climb_spec` and `next_spec`: one call gives its head. `C101_all` describes the list `pre` without recursion over the tree: positions, no repetition, completeness.

**C101** The object iterator visits every object once, parents first — *proved*. For every tree which is not changed during the iteration, every maximal level and every choice of skipped objects. Theorems: `ObjIter.C101_visits`, `ObjIter.C101_null`, `ObjIter.C101_all`, `ObjIter.C101_parents`.


### Synchronous calls of commands

* Model: `Verif/SyncExec.lean`, `Verif/Spec/SyncExec.lean`, `Verif/SyncExecInv.lean`, `Verif/SyncExecRes.lean`, `Verif/Props/SyncExec.lean`
* Code: `Thread.cxx:517-614` (`RunCommandInTheThread`), `468-490` (`SingleLoop`), `Worker.cxx:866-931` (`ExecuteIn`, `Execute`), `996-1024` (`GetCommandReply`), `Command.cxx:68-94`, `132-144`, `225-258`. One call; each section under a mutex is one action, any number of replies in other threads run in between. Left out: what other callers do with the command, `SetResult` outside of `Reply`, the early return for a thread in destruction.
* Proof: `Uniq`: the record of the call is at one place only (callers, taken by a reply, used, used too late), and while the thread is about to sleep and was informed a do-nothing event is queued. `Res`: where the result comes from. `rank + evq` and `rankLate + evq` decrease with every step of the calling thread.
* Found in the code: `C102_stale_counterexample`: `Reply` takes the record (worker, `&exe_ready`) under the mutex of the command and informs the worker later; when the call ends in between by timeout (or halt, or an exception), `*exe_ready = true` is written to the stack of a function which has returned; `C102_true_counterexample`: `Reply` with a negative code does not store it (see C47): a command object which is used again with an old result 1 reports success when it was canceled or timed out; `C102_endless_counterexample`: a call without timeout whose command is never replied does not end; together with C103 this happens when the destination is destroyed; `C102_executeIn_counterexample`: the check of the thread in `ExecuteIn` is inverted: it returns false for every worker with a thread and uses a null pointer otherwise

**C102** A synchronous call of a command returns the answer to the command — *partial*. Fails in the code: a replying thread may write to the variable of a call which has timed out and returned; a command used again reports its old success; ExecuteIn never executes. The rest is proved for all interleavings. Theorems: `SyncExec.C102_result`, `SyncExec.C102_true_partial`, `SyncExec.C102_true_counterexample`, `SyncExec.C102_answer`, `SyncExec.C102_single`, `SyncExec.C102_removed`, `SyncExec.C102_stale_counterexample`, `SyncExec.C102_stale_partial`, `SyncExec.C102_informed`, `SyncExec.C102_ends`, `SyncExec.C102_wait`, `SyncExec.C102_late`, `SyncExec.C102_endless_counterexample`, `SyncExec.C102_route`, `SyncExec.C102_executeIn_counterexample`.


### Commands submitted to a worker

* Model: `Verif/WorkCmd.lean`, `Verif/Spec/WorkCmd.lean`, `Verif/Props/WorkCmd.lean`
* Code: `Worker.cxx:392-424`, `449-497` (`ProcessCommand`), `889-906`, `960-994` (`Submit`), `250-269` (`ObjectCleanup`), `Object.cxx:414-439` (the state in which it is called). Left out: replies to own commands, `Assign`, priorities (any order of events is allowed).
* Proof: `account` and `chances`: counting of one command over all places. `Order`: executed ++ postponed is a sublist of what was delivered; nothing in execution means nothing postponed.
* Found in the code: `C103_dropped_counterexample`, `C103_cleanup_counterexample`: `ProcessCommand` returns without reply when the worker is no longer in normal state. This is the case from the moment its destruction is requested, hence commands whose event comes later are lost, and the loop in `ObjectCleanup` which is meant to process all waiting commands drops all of them; a synchronous sender without timeout waits for ever; `C103_direct_counterexample`: `Execute` of a worker without thread inside of such an execution only postpones the command, for ever; `C103_order_counterexample`: an exception which leaves a command also leaves the loop over postponed commands; later commands overtake them

**C103** Commands submitted to a worker are executed one at a time, in order, and answered once — *partial*. Fails in the code: commands which are waiting when the destruction of the worker is requested are neither executed nor replied; order and completeness fail after exceptions and for workers without thread. Proved otherwise. Theorems: `WorkCmd.C103_account`, `WorkCmd.C103_once`, `WorkCmd.C103_one`, `WorkCmd.C103_order_partial`, `WorkCmd.C103_idle_partial`, `WorkCmd.C103_order_counterexample`, `WorkCmd.C103_direct_counterexample`, `WorkCmd.C103_answer`, `WorkCmd.C103_dropped_partial`, `WorkCmd.C103_dropped_counterexample`, `WorkCmd.C103_cleanup_counterexample`.


### Start and Stop of a thread

* Model: `Verif/ThrStart.lean`, `Verif/Spec/ThrStart.lean`, `Verif/ThrStartInv.lean`, `Verif/ThrStartOk.lean`, `Verif/Props/ThrStart.lean`
* Code: `Thread.cxx:618-772` (`Start`, `RunnableCancelled`, `Stop`), `435-466` (`MainLoop`: the test of `fThrdWorking`), `1151-1202` (stop and cleanup events), `threads.cxx:160-176`, `358-415`. Any number of calls at the same time; each section under the mutex is one action; timeouts and cancellation may come at any moment. Simplified: events are taken in any order, the cleanup function of pthread and the end of the thread are one action, cleanup events only let the thread leave its loop.
* Proof: `Inv`: with calls one after the other only the last call is active, what holds at each of its points (`PcF`), every live thread is the one of the handle. `K`: more precise facts when nothing takes too long. `seqCheck` decides `Sequential` for the witnesses.
* Found in the code: `C104_stop_counterexample`: after a `Start` whose confirmation came too late the state is `stError`; `Stop` then returns true and does nothing, the thread works on; `C104_restart_counterexample`: `Start` in this state sends signal 9 with `pthread_kill`, which ends the whole process; `C104_stale_counterexample`: when `Stop` had to cancel the thread, its stop event stays in the queue; the thread of the next `Start` takes it and ends, and `Start` fails; `C104_self_counterexample`: `Stop` called by the thread itself sets `stStopped` at once; a `Start` before the thread left its loop makes two threads run the main loop; `C104_join_counterexample`, `C104_two_threads_counterexample`: calls at the same time: `RunnableCancelled` overwrites `stChanging`, hence a second call may start the thread while `Stop` is still active; `Stop` then joins the new thread, or sets `stError` so that a third call starts one more thread

**C104** Start and Stop of a thread do what they report — *partial*. Holds for calls one after the other from other threads (for Start and the state also: without timeout of Stop). Counterexamples: stError, cancellation, Stop by the thread itself, calls at the same time. Theorems: `ThrStart.C104_one_thread`, `ThrStart.C104_no_hang`, `ThrStart.C104_stop_partial`, `ThrStart.C104_state_partial`, `ThrStart.C104_start_partial`, `ThrStart.C104_confirmed`, `ThrStart.C104_stop_counterexample`, `ThrStart.C104_restart_counterexample`, `ThrStart.C104_stale_counterexample`, `ThrStart.C104_self_counterexample`, `ThrStart.C104_join_counterexample`, `ThrStart.C104_two_threads_counterexample`.


### Affinity of threads

* Model: `Verif/Affinity.lean`, `Verif/AffinityLemmas.lean`, `Verif/Props/Affinity.lean`
* Code: `threads.cxx:183-269` (`SetDfltAffinity`), `286-355` (`SetAffinity`), `424-503` (`GetDfltAffinity`, `GetAffinity(false)`). Sets are functions, `CPU_SETSIZE` is a parameter (a positive multiple of 8 where texts are written). What `sched_getaffinity` and `sched_setaffinity` answer is an input. Left out: the question to the operating system in `GetAffinity(true)`.
* Proof: Induction over the loops (`letters_ok`, `lettersD_ok`, `splitLoop_spec`, `pickLoop_spec`, `fill_spec`); `members` (filter of a range) describes the numbers independently.
* Found in the code: `C105_roundtrip_counterexample`: the text which `GetAffinity` writes for an empty set (the set of a thread without any restriction) consists of letters `o` and is refused by `SetAffinity`; `C105_failed_counterexample`: `SetAffinity` returns false for a text with a wrong letter but keeps the processors before it in the set, which `Start` uses

**C105** Affinity texts select the processors they describe — *partial*. The text of an empty set is refused when it is read; a refused text changes the set. Theorems: `Affinity.C105_letters`, `Affinity.C105_mask`, `Affinity.C105_dflt_mask`, `Affinity.C105_special`, `Affinity.C105_special_one`, `Affinity.C105_split`, `Affinity.C105_disjoint`, `Affinity.C105_default`, `Affinity.C105_get`, `Affinity.C105_roundtrip_partial`, `Affinity.C105_dflt_roundtrip`, `Affinity.C105_roundtrip_counterexample`, `Affinity.C105_failed_counterexample`.


### Timers of modules

* Model: `Verif/Timer.lean`, `Verif/Spec/Timer.lean`, `Verif/TimerLemmas.lean`, `Verif/Props/Timer.lean`
* Code: `ModuleItem.cxx:88-144`, `Module.cxx:554-600`, `Module.h:187-193`, `Thread.h:134-227`. Times are integers. The times when the thread takes the event of a request and checks the timeouts are inputs (C65 says that they come); handlers take any time and may start, stop and shoot. Left out: `SetPeriod`, `SetSynchron` while the timer runs.
* Proof: `Go`: `fInaccuracy` is the last call minus start minus k periods, hence the next call is due at the later of the last call and t + (k+1) p (`check_go`). `drift_aux`: induction over polls. `Act`: active, running and the history agree.
* Found in the code: `C106_restart_counterexample`: `fInaccuracy` is not reset by `DoStart`; a timer which was late when it was stopped makes calls without any distance after the next start until it has caught up the delay of the last run; `C106_shoot_counterexample`: in synchron mode the negative period is subtracted from the inaccuracy and the result is limited to 0 instead of -1: one `ShootTimer` of a timer without period causes calls without end, and the thread does not sleep any more

**C106** A synchron timer keeps its schedule — *partial*. The delay of an earlier run influences the next one; a shot of a timer without period in synchron mode does not end. Theorems: `Timer.C106_not_early`, `Timer.C106_due`, `Timer.C106_no_drift`, `Timer.C106_plain`, `Timer.C106_stopped`, `Timer.C106_restart_counterexample`, `Timer.C106_shoot_counterexample`.


### Output to an AQUA server

* Model: `Verif/Aqua.lean`, `Verif/Props/Aqua.lean`
* Code: `aqua/src/ClientOutput.cxx:21-182` with the part of `OutputTransport` which uses it, `DataTransport.cxx:704-889`, `Factory.cxx:82-92`, `Worker.h:139-143`. Buffers are numbers; whether `StartClient` connects, and when the socket thread reports completion or an error, are inputs (only while there is a socket, `SocketThread.cxx:1532`). The thread is assigned before the first buffer. Left out: stop of the transport, end of data.
* Proof: `Inv`: state of the output, state of the transport and queued call-backs belong together; counter is the number of buffers taken. `Att`: times of the attempts. `Con`: the state says connected only with a socket.
* Found in the code: `C107_hang_counterexample`: when the server can be reached, `Write_Init` (called by the factory) connects; then `OnThreadAssigned` closes this connection, does not connect again because the timeout of 3 s is not over, and keeps `oReady`: the first buffer waits for ever, nothing is ever sent. Only when the first attempt failed the output works

**C107** The output to an AQUA server makes lost buffers visible and keeps to the protocol — *partial*. The output waits for ever when the first attempt to connect succeeds. Theorems: `Aqua.C107_counter`, `Aqua.C107_protocol`, `Aqua.C107_attempts`, `Aqua.C107_waits_partial`, `Aqua.C107_hang_counterexample`.


### Readout handles

* Model: `Verif/Readout.lean`, `Verif/Spec/Readout.lean`, `Verif/ReadoutInv.lean`, `Verif/ReadoutSub.lean`, `Verif/ReadoutAge.lean`, `Verif/Props/Readout.lean`
* Code: `mbs/src/api.cxx:21-213, 225-229` and `hadaq/src/api.cxx:18-87`. Buffers are lists of events (the iterators are treated in C32, C33, C39). The command NextBuffer is delivered, executed and answered by separate actions, `giveUp` is the timeout of `Execute`; input events come at any time after their buffer. Timeouts and ages which are not positive are `none`. The age of a buffer counts from when it is taken from the queue, as in the code. Left out: creation of the transport, `Disconnect`, the monitor handle besides its name.
* Proof: `Inv`: returned events, rest of the iterators and events of the queue are together the events which came; while a command is pending the iterators are empty. `Sub`: the same as a sublist, for any age and with given up calls. `Age`: time of the current buffer. `Calm`: a waiting user has a command and a timer in the module. Not proved: order for sources which mix MBS and HADES buffers when the age is limited.
* Found in the code: `C108_connect_counterexample`: the loop for a free module name never increments its counter: `Connect` never returns while another handle exists (the same in `MonitorHandle::Connect`); `C108_returns_counterexample`: the input event of a buffer which was already taken ends the waiting of the next call at once, without an event; `C108_forever_counterexample`: a negative timeout, which for commands means no limit, makes the call return at once; `C108_age_counterexample`: after no new buffer came, the HADES handle returns an event of the old buffer, however old; `C108_order_counterexample`, `C108_exclusive_counterexample`: after `Execute` timed out the module keeps the command; its answer may change the iterator while the user works, and the buffer given with it is lost when the next command follows

**C108** Reading events with a handle returns every event once, in order, and returns in time — *partial*. Connect of a second handle never returns; calls return early; the HADES handle ignores the age after a failed wait; given up calls lose events. Theorems: `Readout.C108_order_partial`, `Readout.C108_order_counterexample`, `Readout.C108_once_partial`, `Readout.C108_prompt`, `Readout.C108_age_partial`, `Readout.C108_age_counterexample`, `Readout.C108_returns_partial`, `Readout.C108_returns_counterexample`, `Readout.C108_forever_counterexample`, `Readout.C108_exclusive_partial`, `Readout.C108_exclusive_counterexample`, `Readout.C108_connect_partial`, `Readout.C108_connect_counterexample`.


### Records with slow control data

* Model: `Verif/SlowData.lean`, `Verif/SlowDataLemmas.lean`, `Verif/Props/SlowData.lean`
* Code: `mbs/mbs/SlowControlData.h:33-265`. Doubles are their 8 bytes; `sscanf` as in C53; `reserve` of more than `lim` values throws; an access outside of the given bytes is the result `oob`. What a record contains after a failed `Read` is left out.
* Proof: Each part of the format is read back with anything behind it (`getValues_values`, `getBlock_block`); `needed` gives the size independently of the code. The round trip assumes less than 2^32 bytes and names without zero bytes.
* Found in the code: `C109_oob_counterexample`: the numbers of values in the data are not compared with the size: `Read` of 24 bytes with a positive number reads behind the end; `C109_throw_counterexample`: a large number makes `reserve` throw; `C109_overrun_counterexample`: the size is calculated in 32 bits; for larger records `Write` believes that the record fits and writes behind the end of the buffer; `C109_name_counterexample`: a name with a zero byte makes the record unreadable

**C109** Records with slow control data are read as they were written — *partial*. Read may read outside of the given bytes or throw; Write of records of 4 GB and more overruns the buffer. Theorems: `SlowData.C109_roundtrip_partial`, `SlowData.C109_accept`, `SlowData.C109_short`, `SlowData.C109_add_checked`, `SlowData.C109_add_plain`, `SlowData.C109_name_counterexample`, `SlowData.C109_overrun_counterexample`, `SlowData.C109_oob_counterexample`, `SlowData.C109_throw_counterexample`.


### Producers of slow control events

* Model: `Verif/SlowSend.lean`, `Verif/Spec/SlowSend.lean`, `Verif/Props/SlowSend.lean`
* Code: `ezca/src/EpicsInput.cxx:97-220`, `mbs/src/MonitorSlowControl.cxx:58-107` with the used part of `mbs/src/Iterator.cxx:219-301`, `fesa/src/Monitor.cxx:214-309, 342-357` (scalar fields). Answers of the libraries, of the buffer pool and of the outputs are inputs of a call. Times are natural numbers. Left out: the time in the record, `ezca::Monitor` and `dim::Monitor` besides the common base class, the hierarchy which the monitors publish.
* Proof: EPICS: induction over rounds against `changed`, which only looks at the observed flags; `report_some` gives the marks by index. Monitors: `MInv` (time of the last buffer, filled size) and `Adds` (one call adds the record with the next number or nothing).
* Found in the code: `C110_lost_change_counterexample`: when the event number cannot be read after the flag changed, the change is already stored: no event follows until the flag changes again, although the command was submitted; `C110_unread_counterexample`: a group which fails without a report gives an event with all values 0, as if they were read; a change of the flag to 0 also causes an event, other than the comment says (part of `C110_changes_are_read_partial`); `C110_fesa_stale_counterexample`: `GetRecRawSize` blocks the record and only `WriteRecRawData` releases it; when outputs are blocked or there is no buffer, all values reported until the next event are dropped and this event has old values with the new time

**C110** Slow control events are produced once for each trigger, numbered in order, with the values which were read — *partial*. Monitors: order, numbers, buffers, flushing and writing fully proved. EPICS input: fails when the event number cannot be read after a change of the flag, and when the library gives no report for a failed group. FESA record: fails after a timer call which wrote nothing. Theorems: `SlowSend.C110_commands`, `SlowSend.C110_changes_are_read_partial`, `SlowSend.C110_lost_change_counterexample`, `SlowSend.C110_reading_is_paced`, `SlowSend.C110_reading_continues`, `SlowSend.C110_record`, `SlowSend.C110_read_values_partial`, `SlowSend.C110_unread_counterexample`, `SlowSend.C110_events_in_order`, `SlowSend.C110_buffers`, `SlowSend.C110_blocked_outputs`, `SlowSend.C110_flush`, `SlowSend.C110_written`, `SlowSend.C110_fesa_record_partial`, `SlowSend.C110_fesa_stale_counterexample`.


### Timing events

* Model: `Verif/Saft.lean`, `Verif/Spec/Saft.lean`, `Verif/Props/Saft.lean`
* Code: `saft/src/Input.cxx:80-88, 135-411, 448-459, 490-590`, with the states of `InputTransport` which are used, `DataTransport.cxx:218-257, 338-545`. Each call holds the mutex of the queue and is one action. Sizes of buffers are inputs. Left out: exceptions of saftlib, stop and close, the format RAW (a dummy which drops all events), bytes of the headers (C32, C39), the two bytes of the text which are never set.
* Proof: `Inv`: the waiting flag, the state of the transport and the queue belong together. `step_all`: no step changes what was told besides adding; `take_room`, `take_full`, `take_single` describe the filling loop.
* Found in the code: `C111_hadaq_loss_counterexample`: `Write_Hadaq` counts the header of the subevent twice; when less than 16 bytes are left in a full buffer `FinishSubEvent` refuses, its result is ignored, and all timing events of the buffer are lost; `C111_hadaq_size_counterexample`: otherwise the subevent announces 16 bytes which were never written; `C111_conditions_counterexample`: the check of the configuration negates only its first comparison, and the loop uses the comma operator: too many flags make it read behind the end of the other vectors, too few silently drop conditions

**C111** Timing events are delivered once, in order, with all overflows accounted — *partial*. MBS format and call-back mode fully proved. HADES format: events are lost for some buffer sizes and the announced size is wrong. The check of the configuration accepts wrong ones. Theorems: `Saft.C111_no_error`, `Saft.C111_wake_up`, `Saft.C111_mbs_delivery`, `Saft.C111_mbs_form`, `Saft.C111_mbs_full`, `Saft.C111_progress`, `Saft.C111_hadaq_delivery_partial`, `Saft.C111_hadaq_loss_counterexample`, `Saft.C111_hadaq_size_counterexample`, `Saft.C111_conditions_partial`, `Saft.C111_conditions_counterexample`.


### Parallel analysis

* Model: `Verif/StreamRun.lean`, `Verif/StreamRunInv.lean`, `Verif/StreamRunEnd.lean`, `Verif/Spec/StreamRun.lean`, `Verif/Props/StreamRun.lean`
* Code: `stream/src/RunModule.cxx:259-325` (when, not what), `363-369, 413-428, 470-565, 582-597`, `Module.cxx:942-971`. One call of the loop in `RedistributeBuffers` is one step, modules take buffers in between. Left out: the analysis, the module without parallel ones, commands, outputs which are not connected, non-blocking queues; the modules are stopped all at once.
* Proof: `Inv`: what was given to a module is what it has analysed and what waits in its queue. `Before`/`After`: until the end mark is taken there is none in the queues; later `fStopMode` is the number of end marks in queues and of waiting commands. `pick_spec` describes the choice of the output. The end: a weight which the steps of the modules decrease.
* Found in the code: `C112_lost_end_counterexample`: the timer event makes its own end mark as soon as the input is disconnected, without looking whether the outputs can take it and whether the delivered one still waits in the input. With full queues, the usual state of a busy analysis, it goes to nobody, the delivered one is dropped later, and the histograms are never summed up; `C112_overtaken_counterexample`: the same end mark overtakes data in the input; they are missing in the histograms; `C112_stop_counterexample`: a stop of the main module takes the histograms without waiting for the queues

**C112** The parallel analysis sees every buffer once — *partial*. distribution holds in all runs; that nothing is missing in the histograms, and that the end is reached, only when the input is disconnected after the end mark was taken and the application does not stop the module; otherwise violated by the code Theorems: `StreamRun.C112_distribution`, `StreamRun.C112_balance`, `StreamRun.C112_complete_partial`, `StreamRun.C112_once`, `StreamRun.C112_progress_partial`, `StreamRun.C112_lost_end_counterexample`, `StreamRun.C112_overtaken_counterexample`, `StreamRun.C112_stop_counterexample`.


### Histograms

* Model: `Verif/StreamMerge.lean`, `Verif/Spec/StreamMerge.lean`, `Verif/Props/StreamMerge.lean`
* Code: `stream/src/RunModule.cxx:259-325`, `stream/src/DabcProcMgr.cxx:149-171, 222-252, 309-337, 421-440` (only `GetEntries`). A hierarchy is the list of items in the order of the iterator (C101). Bins have values of any type with an addition, for the number of entries integers: rounding of doubles is left out. Left out: filling (in the stream framework), options, titles, the conversion to ROOT.
* Proof: `addFrom_get`, `mergeTwo_get` describe one value; induction over modules.
* Found in the code: `C113_size_counterexample`, `C113_extra_counterexample`: histograms with another size, and histograms which only later modules have, are left out without a message; `C113_range_counterexample`: ranges of axes are not compared; `ClearAllDabcHistograms` returns true also when there is nothing to clear

**C113** Histograms of parallel modules are summed up — *partial*. the sum is proved for modules which booked the same histograms; different sizes, additional histograms and different ranges are not reported by the code; values are exact, rounding of doubles is left out Theorems: `StreamMerge.C113_saved_iff`, `StreamMerge.C113_sum`, `StreamMerge.C113_booked`, `StreamMerge.C113_clear`, `StreamMerge.C113_entries`, `StreamMerge.C113_size_counterexample`, `StreamMerge.C113_extra_counterexample`, `StreamMerge.C113_range_counterexample`.


### MBS generator

* Model: MbsGen, Spec/MbsGen, Props/MbsGen
* Code: `mbs/src/GeneratorInput.cxx:39-61, 81-130`, `mbs/src/Iterator.cxx:205-254, 304-345, 378-446` for a buffer with one segment, events as records. Left out: random values, `Read_Size` (total limit, timeouts), numbers above 2^32, the total size of a buffer in which no event fits (it is not shortened).
* Proof: `subLoop_spec`, `evLoop_spec` describe what is written; `subLoop_exact`, `evLoop_exact` count it by division with remainder.
* Found in the code: `C114_duplicate_counterexample`, `C114_incomplete_iff`: if subevents fit behind the last complete event, `Close` finishes the incomplete event, with the number of the first event of the next buffer; if the buffer ends just behind such a subevent (or header) the incomplete event is dropped; `C114_overrun_counterexample`: without the go4 format, sizes which are no multiple of four can write up to three bytes behind the end of the buffer

**C114** MBS generator produces numbered events with the configured subevents — *partial*. Events as records; Read_Size and random values are not modelled. Deviations of the code are proved as counterexamples: numbers of incomplete events occur twice, sizes which are no multiple of four can write behind the buffer. Theorems: `MbsGen.C114_events`, `MbsGen.C114_exact`, `MbsGen.C114_numbers`, `MbsGen.C114_incomplete_iff`, `MbsGen.C114_duplicate_counterexample`, `MbsGen.C114_overrun_counterexample`.


### User readout

* Model: UserInput, Spec/UserInput, Props/UserInput
* Code: `user/src/Input.cxx:25-138, 177-191`, `base/src/DataTransport.cxx:345-573` for the calls it makes, the iterator as in C114. What functions of the user do is an input. Left out: other results of the readout (such as more buffers ready), debug output, errors of `FinishEvent` (not possible here).
* Proof: Single calls by computation; numbers and calls by an invariant over all runs.
* Found in the code: `C115_trigger_counterexample`, `C115_trigger_raw_counterexample`: `evhdr` points to the raw data, so the type of the trigger is written there (bytes 10, 11) and the header always has type 1; `C115_ids_counterexample`: arguments of `NewSubevent` are exchanged; `C115_timeout_counterexample`: after a timeout of the readout the buffer is lost and the transport does nothing any more; `C115_default_counterexample`, `C115_builtin`: the built-in readout needs 397 bytes or more, default is 32; `C115_builtin_size_counterexample`: it writes up to three bytes more than configured

**C115** User readout delivers the bytes which were read — *partial*. Readouts return one of four codes. Deviations of the code are proved as counterexamples: type of trigger, exchanged ids, no data after a timeout of the readout, default size. Theorems: `UserInput.C115_delivered`, `UserInput.C115_skip`, `UserInput.C115_numbers`, `UserInput.C115_calls`, `UserInput.C115_wait`, `UserInput.C115_inside`, `UserInput.C115_builtin`, `UserInput.C115_trigger_counterexample`, `UserInput.C115_trigger_raw_counterexample`, `UserInput.C115_ids_counterexample`, `UserInput.C115_timeout_counterexample`, `UserInput.C115_default_counterexample`, `UserInput.C115_builtin_size_counterexample`.


### Decoding of DIM services

* Model: DimInfo, Spec/DimInfo, Props/DimInfo
* Code: `dim/src/Monitor.cxx:242-356`. An item is the list of fields. Left out: the search of the item, overflow of numbers in formats, conversion from float to double, other parts of `dim::Monitor` (scan of servers).
* Proof: `getVals_enc`, `getStr_text`, `digits_numeral` are round trips of single values; `loop_open` goes over the items by induction over the format.
* Found in the code: `C116_unknown_counterexample`, `C116_last_counterexample`: items which are dropped; fields from an earlier update stay; `C116_outside_counterexample`: memory behind the data is read if the service has fewer bytes than its format says

**C116** DIM services are shown as they were sent — *partial*. Decoding of values; DIM itself and the hierarchy are not modelled. Deviations of the code are proved as counterexamples. Theorems: `DimInfo.C116_fields`, `DimInfo.C116_single`, `DimInfo.C116_slow`, `DimInfo.C116_old`, `DimInfo.C116_unknown_counterexample`, `DimInfo.C116_last_counterexample`, `DimInfo.C116_outside_counterexample`.


### Parameters of published commands

* Model: ExeCmd, Spec/ExeCmd, Props/ExeCmd
* Code: `base/src/Publisher.cxx:541-612` on top of the URL model of C17 and `StrToStrVect` (C53). Conversions between texts, doubles and integers are a parameter. Not modelled further: numbers which do not fit for `sscanf`, the use of `ddd` before it is set. The choice of the worker is C88.
* Proof: `param_means` shows one parameter for each form of value in the specification; `loop_pars` goes over the options with `C17_number`.
* Found in the code: `C117_stop_counterexample`: an option without value (`&verbose&`) ends the loop, all following parameters are lost; `C117_protocol_counterexample`: a value with `://` loses all parameters; `C117_large_counterexample`: `SetInt` takes an `int`, so whole numbers are cut to 32 bits; `C117_prefix_counterexample`: `12abc` becomes the number 12; `C117_vector_counterexample`: `intvect.push_back(ddd)` stores the double instead of the integer

**C117** Parameters in the query of a command arrive with their values — *partial*. For the forms of values listed in the specification; lists of texts and of doubles are modelled but not part of the theorem. Deviations of the code are proved as counterexamples. Theorems: `ExeCmd.C117_params`, `ExeCmd.C117_tmout`, `ExeCmd.C117_stop_counterexample`, `ExeCmd.C117_protocol_counterexample`, `ExeCmd.C117_large_counterexample`, `ExeCmd.C117_prefix_counterexample`, `ExeCmd.C117_vector_counterexample`.


### Commands to MBS

* Model: MbsCmd, Spec/MbsCmd, MbsCmdLemmas, Props/MbsCmd
* Code: `mbs/src/Monitor.cxx:1198-1367` (`DaqRemCmdWorker`) and 1371-1535 (`PrompterWorker`) as one machine with two kinds of records. Events (command, complete record, loss of connection, timeout with result of `StartClient`) are inputs in any order. Left out: the socket itself (C18 and others), a send refused because the previous one is not complete, `NewSendCommand` (prints), destruction of the worker.
* Proof: `Inv` (queue, replies, texts sent), `IdInv` (numbers), `ConnInv` over all runs; `judge_rem` relates the byte order check to a reply in either byte order; `exchange_spec` for the client which waits.
* Found in the code: `C118_stalled_counterexample`: after a reply `ProcessNextMbsCommand` is not called: a command submitted before the reply came stays in the queue until another command comes or the connection is lost; `C118_exit_counterexample`, `C118_exit_iff`: a command submitted while there is no connection ends the process with `exit(5)`; `C118_prompter_late_counterexample`: replies of the prompter have no number, a second record answers the next command; `C118_prefix_counterexample`: `sizeof(fSendBuf) - fPrefix.length()` is unsigned; a prefix longer than 256 bytes passes every command and overruns the buffer

**C118** Commands to MBS are sent one after the other and answered once — *partial*. Holds up to the deviations shown by the counterexamples; order and content only as long as the process was not ended by exit(5); the socket is taken to accept every record. Theorems: `MbsCmd.C118_order`, `MbsCmd.C118_sent`, `MbsCmd.C118_mbs_verdict`, `MbsCmd.C118_prompter_verdict`, `MbsCmd.C118_numbers`, `MbsCmd.C118_session`, `MbsCmd.C118_submit_progress`, `MbsCmd.C118_reconnect`, `MbsCmd.C118_lost`, `MbsCmd.C118_success_needs_reply`, `MbsCmd.C118_connect`, `MbsCmd.C118_exit_iff`, `MbsCmd.C118_stalled_counterexample`, `MbsCmd.C118_exit_counterexample`, `MbsCmd.C118_prompter_late_counterexample`, `MbsCmd.C118_prefix_counterexample`.


### Dependencies between objects

* Model: Depend, Spec/Depend, Props/Depend
* Code: `base/src/Manager.cxx:60-78, 425-504, 666-682, 1317-1361, 1493-1538`. Each section under `fMgrMutex` is one step, calls of threads in any order. Left out: null pointers, objects in their destructor (taking a reference throws), delivery of the command `ObjectDestroyed` (C103), parameter events (C75).
* Proof: `Fresh` / `Doomed` follow one registration through a run; `balance_run` counts; `C119_cause` is an invariant over all runs.
* Found in the code: `C119_late_counterexample`: a dependency registered after destruction of the target was requested stays in the list and its source is never told; comments of `DependPair::fire` are exchanged (1 means drop, 2 means inform)

**C119** Objects are told about the destruction of what they depend on — *partial*. Holds for registrations made before the destruction of the target is requested; a later one is never served (counterexample). Theorems: `Depend.C119_told`, `Depend.C119_at_most_once`, `Depend.C119_unregistered`, `Depend.C119_cause`, `Depend.C119_destroyed`, `Depend.C119_clean`, `Depend.C119_source`, `Depend.C119_late_counterexample`.


### Creation of objects by the manager

* Model: `Verif/Create.lean`, `Spec/Create.lean`, `CreateLemmas.lean`, `Props/Create.lean`
* Code: `Manager::ProcessFactory` and the part of the constructor which collects early factories, `FOR_EACH_FACTORY`, `DoCreateModule`, the commands for modules, devices and threads, `DoCreateThread`, `ManagerRef::CreateModule` / `CreateThread`, `Worker::MakeThreadForWorker` / `AssignToThread` (choice of the thread only), `CompatibleClass`. A factory is described by what it makes of a class name. Not modelled: names with path elements, creation of applications, transports, pools and other objects, the work of `Thread::AddWorker` (see C104), exceptions in constructors.
* Proof: `search_spec` describes the search over names by the first name which is free or usable; `step_cases` gives the two invariants (different thread names; one object for each name of a module or device). `C120_thread_exit` characterises the end of the process exactly.
* Found in the code: `C120_factories_lost_counterexample`: only ten factories made before the manager are kept, further ones are dropped without message; `C120_same_name_counterexample`: a module can be created with the name of a device; `CreateModule` then gives nothing although the module exists, and it cannot be deleted by its name; `C120_other_class_counterexample`: a request for a module of any class succeeds when a module with this name exists (for devices the class is compared); `C120_thread_exit_counterexample`: the last of the 1001 names is not checked for compatibility, the process exits although a usable thread was found; `C120_no_thread_counterexample`: a module which got no thread is reported as created (result of `MakeThreadForWorker` is ignored); `AssignToThread` compares class names while `DoCreateThread` accepts compatible classes: a worker requiring `dabc::Thread` is refused by a socket thread which was chosen for it

**C120** The manager creates modules, devices and threads as asked — *partial*. Proved for all factories and all sequences of commands with objects and threads disappearing at any time. Partial: more than ten factories made before the manager are lost, a module with the name of another object cannot be found, and an existing module is taken whatever its class is. Theorems: `Create.C120_factories_asked_partial`, `Create.C120_factories_lost_counterexample`, `Create.C120_module_by_first_factory`, `Create.C120_module_found_partial`, `Create.C120_same_name_counterexample`, `Create.C120_other_class_counterexample`, `Create.C120_device_partial`, `Create.C120_threads_distinct`, `Create.C120_thread_compatible`, `Create.C120_thread_reused`, `Create.C120_thread_new`, `Create.C120_thread_exit`, `Create.C120_thread_exit_counterexample`, `Create.C120_worker_thread`, `Create.C120_device_thread`, `Create.C120_no_thread_counterexample`.


### Main loop of the manager

* Model: `Verif/MainLoop.lean`, `Spec/MainLoop.lean`, `Props/MainLoop.lean`
* Code: `RunManagerMainLoop`, `ProcessCtrlCSignal`, `ProcessPipeSignal`, the command `StopManagerMainLoop`, the reply to the state transition in `ReplyCommand`. Time in milliseconds, 0 is a time stamp which is not set (as in `TimeStamp::null`). A pass reads the clock once. Not modelled: `HaltManager`, the event loop inside the sleep (see C26, C103), `RunManagerCmdLoop`.
* Proof: `pass_cases` lists the outcomes of a pass; the invariant relates the log of actions with the state (`inv_step`).
* Found in the code: `C121_early_stop_counterexample`: a request to stop before the main loop makes `RunManagerMainLoop` return at once and the application is never asked to halt; `fMgrStoppedTime` is never reset: after one main loop every further call returns at once

**C121** The main loop runs until it is asked to stop and halts the application once — *partial*. Proved for all sequences of calls, passes, signals, stop commands and replies at any times. Partial: when the request to stop comes before the main loop the application is never asked to halt; the clock is read once in a pass. Theorems: `MainLoop.C121_halted_once`, `MainLoop.C121_left_for_reason`, `MainLoop.C121_left_in_time`, `MainLoop.C121_answer_ends`, `MainLoop.C121_finished_by_answer`, `MainLoop.C121_request_obeyed`, `MainLoop.C121_runs_until_asked`, `MainLoop.C121_runtime_kept`, `MainLoop.C121_forced_exit`, `MainLoop.C121_early_stop_counterexample`.


### Command to create a transport

* Model: `Verif/TransCmd.lean`, `Spec/TransCmd.lean`, `Props/TransCmd.lean`
* Code: The branch `CmdCreateTransport` of `Manager::ExecuteCommand`. Inputs: which names belong to devices and ports, what each factory answers, results of `MakeThreadForWorker` and `ConnectPorts`, values of the configuration. Not modelled: a factory which changes the port name in the command, `ConnectPoolHandles`.
* Proof: `append_true`, `append_false`: appending options to the text is the same as appending them to the list of options; the rest uses the parser theorem C17.
* Found in the code: `C122_question_mark_counterexample`: a url which ends with `?` gets `??` and the first configured option is not found; `C122_unconnected_counterexample`: results of connecting the port with the new transport are not looked at, the answer is true; `C122_explicit`: `urlopt` is ignored when the command names the kind

**C122** Transports are created as url and configuration ask — *partial*. Proved for all urls, options, devices, ports and factories. Partial: a url ending in a question mark gets a second one; the answer is true even if the port could not be connected to the new transport; search by name and results of connections are inputs, and factories do not rename the port. Theorems: `TransCmd.C122_options`, `TransCmd.C122_option_value`, `TransCmd.C122_question_mark_counterexample`, `TransCmd.C122_explicit`, `TransCmd.C122_no_port`, `TransCmd.C122_disconnect`, `TransCmd.C122_device`, `TransCmd.C122_device_url`, `TransCmd.C122_local`, `TransCmd.C122_factory`, `TransCmd.C122_unknown`, `TransCmd.C122_unconnected_counterexample`.


### Recalibration

* Model: `Verif/Recalib.lean`, `Spec/Recalib.lean`, `Props/Recalib.lean`
* Code: `stream::RecalibrateModule::retransmit` with `SetTotalSize(0)` and `SendToAllOutputs` of a null buffer. `TransformEvent` (outside of the repository) is a parameter, events are those found by the iterator (C33), a pool buffer has one segment. Not modelled: constructor, process manager, rate parameter.
* Proof: `transform_spec`: the loop treats a prefix of the events; `run_inv`: what was taken and what waits is what arrived.
* Found in the code: `C123_lost_counterexample`: events behind the first one which does not fit are lost; `C123_dropped_counterexample`: if already the first does not fit no buffer is sent at all

**C123** Recalibration sends every buffer once with its events — *partial*. Proved for all sequences of buffers and calls and any transformation of events. Partial: when a result does not fit, all following events of the buffer are lost, and the whole buffer if it is the first event; the events of a buffer are those found by the iterator (C33), and the transformation itself is a parameter. Theorems: `Recalib.C123_in_order`, `Recalib.C123_in_place`, `Recalib.C123_complete`, `Recalib.C123_waits`, `Recalib.C123_progress`, `Recalib.C123_alive`, `Recalib.C123_size`, `Recalib.C123_lost_counterexample`, `Recalib.C123_dropped_counterexample`.


### TDC calibration

* Model: `Verif/TdcRetr.lean`, `Spec/TdcRetr.lean`, `Props/TdcRetr.lean`
* Code: `stream::TdcCalibrationModule::retransmit`, the way of the data. `TransformSubEvent` and `EmulateTransform` (outside of the repository) are parameters, blocks and subevents are those found by the iterator (C33). Not modelled: creation of TDC processors, status items, commands.
* Proof: `blocks_spec`: the loops give the results of the usable subevents; `run_inv`: what was taken and what waits is what arrived.
* Found in the code: `C124_exit_counterexample`: a subevent which is larger than the rest of the target buffer ends the process (`exit(4)`); `C124_dummy_counterexample`: with `Dummy` and without `Replace` the old content of the pool buffer is sent, as `EmulateTransform` does not get the target; `C124_bad_counterexample`: behind a subevent with a wrong size the rest of the block is dropped silently from the output

**C124** TDC calibration sends every buffer once with its subevents — *partial*. Proved for all sequences of buffers and calls and any transformation of subevents. Partial: without the emulation mode, which with new buffers sends old memory; progress for transformations which do not make data longer; the process ends when a subevent is larger than the rest of the target; the subevents are those found by the iterator (C33), the transformation is a parameter. Theorems: `TdcRetr.C124_in_order_partial`, `TdcRetr.C124_waits`, `TdcRetr.C124_progress_partial`, `TdcRetr.C124_size`, `TdcRetr.C124_exit_counterexample`, `TdcRetr.C124_dummy_counterexample`, `TdcRetr.C124_bad_counterexample`.


### Monitor of TrbNet registers

* Model: `Verif/TrbMon.lean`, `Spec/TrbMon.lean`, `Props/TrbMon.lean`
* Code: `hadaq::MonitorModule`: `ReadAllVariables`, `ProcessTimerEvent`, `BeforeModuleStart`, on the model of the write iterator (C32). Not modelled: `DoRead` (shell command), the trigger type in the id of the event, the hierarchy.
* Proof: `records` shows that the raw words are the records of the registers in big-endian order; the rest is the round trip of C32.
* Found in the code: `C125_exact_counterexample`: an event which fills the buffer completely is sent without its subevent (as `C32_exact_counterexample`)

**C125** The monitor of TrbNet registers sends events which can be read — *partial*. Proved for all registers, values and sequences of timer events. Partial: buffers of one segment which are not filled completely (otherwise the event is sent without subevent); the trigger type in the id of the event is left out; the shell command which reads a register is a parameter. Theorems: `TrbMon.C125_event_partial`, `TrbMon.C125_small`, `TrbMon.C125_no_buffer`, `TrbMon.C125_numbers_partial`, `TrbMon.C125_exact_counterexample`.


### Profiler

* Model: `Verif/Profiler.lean`, `Spec/Profiler.lean`, `Props/Profiler.lean`
* Code: `Profiler` and `ProfilerGuard`; one guard at a time, the clock is an input with 64 bits, the ratio is kept as the two numbers which are divided. Not modelled: `Format`.
* Proof: Induction over the calls of `Next`; `Periods` lists slots and durations from the calls alone, arithmetic is that of the 64 bit clock, so an overflow of the clock is covered.
* Found in the code: `C126_activated_counterexample`: a guard made while the profiler is not active counts the absolute value of the clock once the profiler is activated; `C126_first_counterexample`: the first statistic does not reset the sums, so the second can report a ratio above one

**C126** The profiler accounts the time of each section once — *partial*. one guard at a time; a guard which sees the profiler being activated counts a wrong time and the first statistic does not reset the sums (counterexamples) Theorems: `Profiler.C126_slots`, `Profiler.C126_total`, `Profiler.C126_all`, `Profiler.C126_to_the_end`, `Profiler.C126_names`, `Profiler.C126_named`, `Profiler.C126_next_named`, `Profiler.C126_next_unnamed`, `Profiler.C126_reserve`, `Profiler.C126_inactive`, `Profiler.C126_statistic`, `Profiler.C126_first`, `Profiler.C126_activated_counterexample`, `Profiler.C126_first_counterexample`.


### Files of a data mover (RFIO)

* Model: `Verif/Rfio.lean`, `Spec/Rfio.lean`, `Props/Rfio.lean`
* Code: `rfio::FileInterface`. Calls of the RFIO library are recorded, their results are inputs; of the options only is kept whether an RFIO option is there. Not modelled: `fseek`, `fmatch`, name and index of the mover.
* Proof: The specification replays the recorded calls in a data mover; induction over files and blocks. Blocks are taken completely by the library in `C127_files` and `C127_session`.
* Found in the code: `C127_feof_counterexample`: `feof` calls `rfio_fendfile`, which ends the file; `C127_two_counterexample`: two files opened at the same time share one handle, data of the first goes to the second; `C127_long_counterexample`: a name with 1023 or more characters is copied without terminating zero and then searched (undefined behaviour)

**C127** Files written through one connection arrive complete and in order — *partial*. for files written one after the other whose blocks the library takes completely; feof, two files at the same time and long names break it (counterexamples) Theorems: `Rfio.C127_files`, `Rfio.C127_session`, `Rfio.C127_base`, `Rfio.C127_plain`, `Rfio.C127_no_connection`, `Rfio.C127_fwrite`, `Rfio.C127_null`, `Rfio.C127_feof_counterexample`, `Rfio.C127_two_counterexample`, `Rfio.C127_long_counterexample`.


### Commands of the GOSIP player

* Model: `Verif/Gosip.lean`, `Spec/Gosip.lean`, `Props/Gosip.lean`
* Code: `CmdGosip` of `gosip::Player`, with the conversion of text to numbers (`Verif/Text.lean`). The pipe (pieces given by `fread`) is an input. Not modelled: the log, parsing of the command fields.
* Proof: Induction over the commands; reading a number uses the round trip of decimal texts. Theorems about results are for output which arrives in one piece (up to 49999 bytes).
* Found in the code: `C128_shell_counterexample`: text behind an option goes unchanged to the shell, so with `;` any program can be executed by whoever may send the command (the request for authentication is commented out); `C128_long_counterexample`: only the last piece of the output is looked at, a long message of an error can count as success

**C128** GOSIP commands are executed in order up to the first error — *partial*. results of single commands for output in one piece; text of commands reaches the shell unchecked (counterexample) Theorems: `Gosip.C128_answer`, `Gosip.C128_line`, `Gosip.C128_plain`, `Gosip.C128_device`, `Gosip.C128_write`, `Gosip.C128_read`, `Gosip.C128_other`, `Gosip.C128_shell_counterexample`, `Gosip.C128_long_counterexample`.


## Parts of the code which are not modelled

* base: `ConfigBase::SshArgs`, `Configuration` besides searching, `Manager` besides addresses of items, parameter events, dependencies, the main loop and creation of modules, devices, threads and transports, plugin loading in `Factory`,
  global hierarchy of the `Publisher`, AcceptClient and redirection of `SocketCommandChannel`,
  Python and HTTP access, unless listed above.
* plugins: only `hadaq` (headers, iterators, files, UDP input, combiner, sorter, master and nodes of a builder network, readout handle, monitor of registers), `mbs` (headers, iterators, files, combiner, servers and clients, readout handle, generator, commands), `aqua` (output) and `http` (decisions about requests); not `verbs`,
  `fesa` and `ezca` (besides C110), `root`, `saft` (besides C111), `stream` (besides C112, C113, C123 and C124), `rfio` (besides C127), `gosip` (besides C128), `user` (besides C115), `bnet`.
* Real time, performance, resource exhaustion of the operating system, and everything behind system calls.

## Work that was left out on purpose

* C09: `GetNextPart` with `allowsegmented = false`; C35: `fResort`; C63: the mode with several buffers inside of an input, which no input uses;
  C54: XML output; C43: local time and floating point.
