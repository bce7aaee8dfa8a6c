{"id": "C01", "title": "Expandable queue behaves as an unbounded FIFO", "statement": "For every sequence of Push, Pop, PopOnly, Front, Back, Item, Size, Empty, RemoveItem and Reset calls that never pops or peeks an empty queue, an expandable dabc::Queue returns exactly the values an ideal unbounded first-in-first-out list would return; no wrap-around of the internal ring and no reallocation ever loses, duplicates or reorders a stored element.", "quantifier": "every initial capacity (0 included), every element type and every finite sequence of queue calls", "why_tests_cant": "The ring can be entered at any head/tail offset and reallocated at any of them; tests only exercise a few offsets and capacities.", "anchors": ["base/dabc/Queue.h: dabc::Queue::Push, Pop, PopOnly, Front, Item, Back, Expand, CopyTo, RemoveItem, Reset"]}
{"id": "C02", "title": "Fixed-size queue is a bounded FIFO that refuses, never overwrites", "statement": "A non-expandable dabc::Queue of capacity N never holds more than N elements; a Push into a full queue leaves the content completely unchanged, and every other sequence of calls behaves as an ideal FIFO bounded by N.", "quantifier": "every capacity and every finite sequence of queue calls", "why_tests_cant": "Overwrite-on-full bugs appear only at one head/tail relation per capacity; enumerating them by tests is not possible for all capacities.", "anchors": ["base/dabc/Queue.h: dabc::Queue<T,false>::Push, PushRef, PushEmpty, MakePlaceForNext, Full"]}
{"id": "C03", "title": "Queue::Remove(value) removes exactly the matching elements and reports it", "statement": "Remove(v) leaves exactly the elements different from v, in their original order, and returns true exactly when at least one element was removed.", "quantifier": "every queue content, every ring offset and fill level, every value", "why_tests_cant": "The reported flag is derived from pointer equality after the in-place compaction, which depends on the ring position; only special fill levels expose a wrong answer.", "anchors": ["base/dabc/Queue.h: dabc::Queue::Remove"]}
{"id": "C04", "title": "Queue iteration visits each stored element exactly once", "statement": "Iterating a queue from begin() to end() visits exactly the stored elements, oldest first, each once; for an empty queue it visits nothing.", "quantifier": "every queue state (all offsets, fill levels, capacities)", "why_tests_cant": "begin/end are ring positions plus a lap counter; correctness has to hold for each relation of head and tail, including full and empty.", "anchors": ["base/dabc/Queue.h: dabc::Queue::Iterator, begin, end"]}
{"id": "C05", "title": "BuffersQueue is a bounded FIFO of buffers without loss", "statement": "Buffers pushed into a BuffersQueue come out in order, exactly once; PushBuffer reports false exactly when the queue is full and then leaves the caller's buffer untouched; Cleanup leaves nothing inside.", "quantifier": "every capacity >= 1 and every finite sequence of PushBuffer/PopBuffer/Item/Cleanup calls", "why_tests_cant": "Modular index arithmetic must be right for every capacity and history length.", "anchors": ["base/dabc/BuffersQueue.h: dabc::BuffersQueue::PushBuffer, PopBuffer, Item, TotalBuffersSize", "base/src/BuffersQueue.cxx: Cleanup"]}
{"id": "C06", "title": "Memory pool never hands one memory block to two live buffers", "statement": "At any moment, a block of a MemoryPool that is part of some live Buffer is not handed out by TakeBuffer or TakeRawBuffer again; it becomes available exactly when the last Buffer (original, duplicate or part) referring to it is released.", "quantifier": "every interleaving of TakeBuffer, TakeRawBuffer, duplication, part extraction and release on one pool", "why_tests_cant": "Double allocation needs a particular history of duplications and releases; it is a statement over all histories.", "anchors": ["base/src/MemoryPool.cxx: MemoryPool::_TakeBuffer, TakeRawBuffer, ReleaseRawBuffer, IncreaseSegmRefs, DecreaseSegmRefs", "base/src/Buffer.cxx: Buffer::DuplicateSelf, BufferContainer destructor"]}
{"id": "C07", "title": "Memory pool conserves its blocks", "statement": "The blocks of a pool are at every moment partitioned into free ones and ones referenced by live buffers; after all buffers are released all blocks are free again; no block is ever lost or listed as free twice.", "quantifier": "every history of pool operations", "why_tests_cant": "Leaks and double frees accumulate over histories; tests only sample histories.", "anchors": ["base/src/MemoryPool.cxx: MemoryPool::_TakeBuffer, DecreaseSegmRefs, ReleaseRawBuffer", "base/dabc/MemoryPool.h"]}
{"id": "C08", "title": "TakeBuffer returns exactly the requested size or changes nothing", "statement": "TakeBuffer(size) either returns a buffer whose total size is exactly the requested size (or the size of the first free block for size 0) built from free blocks, or it returns nothing/throws and leaves the pool unchanged; it succeeds whenever enough free memory exists.", "quantifier": "every pool state, every requested size", "why_tests_cant": "The result depends on the sizes and order of all free blocks.", "anchors": ["base/src/MemoryPool.cxx: MemoryPool::_TakeBuffer"]}
{"id": "C09", "title": "Buffer editing operations act on the content as on a byte string", "statement": "SetTotalSize(n) keeps exactly the first n bytes, CutFromBegin(n) drops exactly the first n bytes, Append/Prepend/Insert(pos) splice the source bytes at the right place, GetNextPart(n) splits off exactly the first n bytes, Duplicate has identical bytes; sizes reported by GetTotalSize agree with the content.", "quantifier": "every segmentation of the content and every position or length", "why_tests_cant": "The content is stored as a list of segments; results must be independent of how it is cut, including cuts exactly at segment borders.", "anchors": ["base/src/Buffer.cxx: Buffer::SetTotalSize, CutFromBegin, Locate, Insert, Append, Prepend, GetNextPart, Duplicate", "base/dabc/Buffer.h"]}
{"id": "C10", "title": "Pointer moves and copies over segmented buffers as over flat memory", "statement": "A dabc::Pointer positioned in a multi-segment buffer behaves as an offset in the flat byte content: shift(n) advances by n, copyto/copyfrom(pointer, n) transfer exactly the next n bytes (or all that is left), and distance_to gives the offset difference.", "quantifier": "every segmentation, every start offset and every length", "why_tests_cant": "Failures occur only when a move ends exactly at a border between segments.", "anchors": ["base/dabc/Pointer.h: dabc::Pointer::shift, rawsize, fullsize", "base/src/Pointer.cxx: Pointer::long_shift, copyfrom, copyto, distance_to, setfullsize"]}
{"id": "C11", "title": "Record fields survive binary streaming", "statement": "Writing a RecordField of any kind and reading it back yields a field of the same kind and value.", "quantifier": "every field kind and every value of it (integers, doubles as bit patterns, strings, arrays of any length, raw buffers)", "why_tests_cant": "The domain of values is infinite; padding and length computations depend on every length modulo 8.", "anchors": ["base/src/Record.cxx: dabc::RecordField::Stream, StoreSize, iostream::write_str, read_str"]}
{"id": "C12", "title": "Fields maps survive binary streaming", "statement": "Writing a RecordFieldsMap and reading it into an empty map yields the same names and values; fields whose names start with '#' are never transmitted.", "quantifier": "every map of field names to values", "why_tests_cant": "Infinite domain; a single wrong size makes all following fields unreadable.", "anchors": ["base/src/Record.cxx: dabc::RecordFieldsMap::Stream, StoreSize"]}
{"id": "C13", "title": "Announced stream size equals the bytes written", "statement": "The size computed in advance for a record, map, field or string is exactly the number of bytes the following write produces, so that a buffer allocated with it is neither overrun nor left with undefined tail.", "quantifier": "every record content", "why_tests_cant": "The size pass and the write pass are different code; agreement must hold for all contents.", "anchors": ["base/src/Record.cxx: RecordField::StoreSize, RecordFieldsMap::StoreSize, iostream::str_storesize, sizestream, memstream"]}
{"id": "C14", "title": "Applying a diff leads back to the previous fields", "statement": "If prev holds the fields as they were and current the fields after tracked changes, then the diff made by prev.MakeAsDiffTo(current), applied to any map with the values of current, yields exactly the values of prev.", "quantifier": "every pair of field maps whose change flags are truthful", "why_tests_cant": "Combination of added, removed, changed and untouched fields over unbounded maps.", "anchors": ["base/src/Record.cxx: RecordFieldsMap::MakeAsDiffTo, ApplyDiff, CopyFrom, MoveFrom"]}
{"id": "C15", "title": "JSON text produced for a string is a valid JSON string denoting it", "statement": "The JSON form of a string field contains only legal JSON string characters and decoding it by the JSON rules gives back the original bytes.", "quantifier": "every string (any byte sequence)", "why_tests_cant": "Escaping has to be right for every byte and every position.", "anchors": ["base/src/Record.cxx: RecordField::JsonReformat, AsJson"]}
{"id": "C16", "title": "Item addresses compose and decompose without loss", "statement": "DecomposeItemName(ComposeItemName(nodeid, name)) gives back the node and the name for every non-negative node and every name without question mark, and the same holds for port names; DecomposeAddress(ComposeAddress(server, item)) gives back server and item, or the local address if the server is the local one, for every server host or host:port not beginning with the word node and every item without question mark and leading slash.", "quantifier": "every node number, server and item string", "why_tests_cant": "String parsing over unbounded inputs with separators possibly inside the names.", "anchors": ["base/src/Url.cxx: Url::ComposeItemName, DecomposeItemName, ComposePortName", "base/src/Manager.cxx: Manager::ComposeAddress, DecomposeAddress"]}
{"id": "C17", "title": "URL parsing splits a composed URL into its parts", "statement": "For every protocol, host, port, file path and option string free of reserved separators, parsing protocol://host:port/file?options returns exactly these parts with the codes for special symbols in the options decoded, and GetOption, GetOptionInt and GetOptionBool return exactly the value given for the first option of that name, where & inside quotes belongs to the value and surrounding quotes are removed.", "quantifier": "every combination of parts, every list of options, every name", "why_tests_cant": "Unbounded strings, positions of separators.", "anchors": ["base/src/Url.cxx: Url::SetUrl, ReplaceSpecialSymbols, GetOption, GetOptionStr, GetOptionInt, GetOptionBool"]}
{"id": "C18", "title": "Every caller of a command gets exactly one reply, latest caller first", "statement": "Each caller registered with a command (AddCaller) that was not removed and accepts the reply is informed exactly once, in last-in-first-out order, and never after it was removed.", "quantifier": "every sequence of AddCaller, RemoveCaller and Reply on one command", "why_tests_cant": "Property over all call histories.", "anchors": ["base/src/Command.cxx: Command::AddCaller, RemoveCaller, Reply, CommandContainer"]}
{"id": "C19", "title": "Command queue delivers each queued command to exactly the one who asks for it", "statement": "Push returns an id different from the ids of all commands still in the queue (as long as fewer than 2^32-1 are inside a wrap), PopWithId(id) returns that very command and removes only it, PopWithKind returns the oldest of the kind, and Cleanup replies each submitted, postponed or replied command exactly once.", "quantifier": "every history of Push/Pop/PopWithId/PopWithKind/ChangeKind/Cleanup", "why_tests_cant": "Histories are unbounded; the id counter wraps at 2^32.", "anchors": ["base/src/CommandsQueue.cxx: CommandsQueue::Push, Pop, PopWithId, PopWithKind, ChangeKind, Cleanup, ReplyTimedout"]}
{"id": "C20", "title": "Thread events are delivered once and in order per priority", "statement": "Every event fired into a DABC thread is delivered exactly once, and events of the same priority are delivered in the order they were fired.", "quantifier": "every interleaving of firing and event fetching, any priorities", "why_tests_cant": "Interleavings are unbounded.", "anchors": ["base/src/Thread.cxx: Thread::_GetNextEvent, _Fire", "base/dabc/Thread.h: Thread::_PushEvent"]}
{"id": "C21", "title": "No event priority starves", "statement": "An event waiting at position k of its priority queue is delivered after a bounded number of event fetches, however many events of higher priority keep arriving.", "quantifier": "every arrival pattern of higher-priority events, forever", "why_tests_cant": "Starvation is a liveness statement over infinite schedules.", "anchors": ["base/src/Thread.cxx: Thread::_GetNextEvent", "base/dabc/Thread.h: EventsQueue::scaler"]}
{"id": "C22", "title": "Event identifiers pack and unpack without loss", "statement": "Code, item and argument given to an EventId are returned unchanged by GetCode, GetItem and GetArg, and different triples give different event values.", "quantifier": "all 2^64 combinations", "why_tests_cant": "2^64 combinations.", "anchors": ["base/dabc/Thread.h: dabc::EventId"]}
{"id": "C23", "title": "A worker leaves its thread only when all its events are processed", "statement": "When a worker is asked to halt or to be destroyed, this happens only at a moment when none of its code is active on the thread's stack and every event fired for it was processed; no new normal event is accepted after the request, and every waiting requester is answered.", "quantifier": "every schedule of fired events, nested event loops and halt requests", "why_tests_cant": "Depends on nesting and interleavings; unbounded.", "anchors": ["base/src/Thread.cxx: Thread::CheckWorkerCanBeHalted, ProcessEvent, ChangeRecursion, ExecuteThreadCommand", "base/src/Worker.cxx: Worker::Submit, ClearThreadRef"]}
{"id": "C24", "title": "Local transport delivers buffers in order, losing only what the mode allows", "statement": "Buffers sent over a connection between two modules are received in sending order, each at most once; in blocking mode none is lost, in non-blocking mode only the oldest waiting ones are dropped when the queue is full; the queue never exceeds its capacity.", "quantifier": "every sequence of send, receive, connect, disconnect on both sides, every capacity", "why_tests_cant": "All interleavings of two threads.", "anchors": ["base/src/LocalTransport.cxx: LocalTransport::Send, Recv, CleanupQueue, Disconnect"]}
{"id": "C25", "title": "Local transport never loses a wake-up", "statement": "Whenever a receiver has confirmed that it waits for input and data is in the queue, a wake-up event is pending for it; whenever a sender waits for space and the queue has space, a wake-up event is pending for the sender.", "quantifier": "every interleaving of Send, Recv and ConfirmEvent from two threads", "why_tests_cant": "A lost wake-up needs one particular interleaving and then hangs the system.", "anchors": ["base/src/LocalTransport.cxx: LocalTransport::Send, Recv, ConfirmEvent, SignalWhenFull"]}
{"id": "C26", "title": "Network transport never sends more than the peer can take", "statement": "With acknowledgement enabled, the number of data packets in flight never exceeds the number of receive operations the peer has posted for them; credits are neither lost nor duplicated, no buffer waits for ever for a credit, and acknowledgements come to rest.", "quantifier": "every schedule of sends, receptions, acknowledgements and packet delays", "why_tests_cant": "Flow-control violation is a property of the distributed interleaving.", "anchors": ["base/src/NetworkTransport.cxx: NetworkTransport::SubmitAllowedSendOperations, CheckAcknReadyCounter, FillRecvQueue, ProcessSendCompl, ProcessRecvCompl"]}
{"id": "C27", "title": "Network transport operation records are never shared", "statement": "An operation record that is in use is never given to another operation; every released record can be taken again; the configured number of records, network queue places and output queue places is sufficient in every run.", "quantifier": "every sequence of TakeRec/ReleaseRec, every run of two connected transports", "why_tests_cant": "Round-robin search over an arbitrary usage pattern.", "anchors": ["base/src/NetworkTransport.cxx: NetworkTransport::TakeRec, ReleaseRec"]}
{"id": "C28", "title": "Binary file returns exactly what was written, also after a crash", "statement": "Reading a binary file returns the written buffers (type and bytes) in order; for a file cut at any byte (crash of the writer) reading returns exactly the completely written buffers and then stops without delivering a damaged one.", "quantifier": "every list of buffers and every crash point", "why_tests_cant": "Every truncation point of every file.", "anchors": ["base/dabc/BinaryFile.h: dabc::BinaryFile::WriteBufHeader, WriteBufPayload, ReadBufHeader, ReadBufPayload, OpenReading, OpenWriting"]}
{"id": "C29", "title": "HLD file reading delivers whole events, each once", "statement": "Reading an HLD file with a buffer that can hold the largest event delivers, over all ReadBuffer calls, exactly the written events in order without cutting or repeating one, stops at the run-stop record, and terminates on any file content.", "quantifier": "every list of events, every buffer size, every truncation", "why_tests_cant": "Depends on how events straddle read-buffer borders, for every buffer size.", "anchors": ["plugins/hadaq/src/HldFile.cxx: HldFile::ReadBuffer, OpenWrite, OpenRead, Close"]}
{"id": "C30", "title": "LMD file reading delivers whole events, each once", "statement": "Reading an LMD file with a buffer that can hold the largest event delivers, over all ReadBuffer calls, exactly the written events in order without cutting or repeating one, and terminates on any file content.", "quantifier": "every list of events, every buffer size, every truncation", "why_tests_cant": "Depends on how events straddle read-buffer borders, for every buffer size.", "anchors": ["plugins/mbs/mbs/LmdFile.h: LmdFile::ReadBuffer, WriteBuffer", "plugins/mbs/mbs/LmdTypeDefs.h: mbs::Header"]}
{"id": "C31", "title": "HADES transport headers read back what was set, in either byte order", "statement": "For a header in native or swapped byte order, every header value set is read back unchanged; the padded size is the smallest multiple of 8 not below the size.", "quantifier": "all 32-bit values and both byte orders", "why_tests_cant": "2^32 values per field; wrap-around near 2^32.", "anchors": ["plugins/hadaq/hadaq/defines.h: HadTu::Value, SetValue, GetPaddedSize, SetDataError, SetTrigTypeTrb3"]}
{"id": "C32", "title": "HADES write iterator and read iterator are inverse", "statement": "Events and subevents written with hadaq::WriteIterator into a buffer are returned by hadaq::ReadIterator: same number, order, sizes and payloads.", "quantifier": "every list of events with subevents of any payload that fits the buffer", "why_tests_cant": "Unbounded structure; boundary when the buffer is filled to the last byte.", "anchors": ["plugins/hadaq/src/Iterator.cxx: WriteIterator::NewEvent, NewSubevent, FinishSubEvent, AddSubevent, FinishEvent, Close; ReadIterator::NextEvent, NextSubEvent"]}
{"id": "C33", "title": "Event iteration over arbitrary bytes is safe and terminates", "statement": "For any buffer content the HADES and MBS read iterators only look at bytes inside the buffer and a loop calling NextEvent/NextSubEvent until false terminates.", "quantifier": "every byte content of a buffer", "why_tests_cant": "Adversarial or damaged input cannot be enumerated.", "anchors": ["plugins/hadaq/src/Iterator.cxx: ReadIterator::NextEvent, NextHadTu, NextSubEvent, NumEvents", "plugins/mbs/src/Iterator.cxx: ReadIterator::NextEvent, NextSubEvent, NumEvents"]}
{"id": "C34", "title": "Trigger number difference is a proper cyclic distance", "statement": "The difference of two trigger numbers is antisymmetric, lies in half the range, and adding it to the first number modulo the range gives the second, for every trigger range including numbers around overflow.", "quantifier": "all pairs of trigger numbers below any even range", "why_tests_cant": "All pairs of 24/32-bit numbers.", "anchors": ["plugins/hadaq/src/CombinerModule.cxx: CombinerModule::CalcTrigNumDiff", "plugins/hadaq/hadaq/SorterModule.h: SorterModule::Diff"]}
{"id": "C35", "title": "HADES event builder combines only subevents of one trigger", "statement": "Every event built by the combiner contains, from every input, exactly the subevent carrying the trigger number of the event (empty ones optionally left out); no subevent is used in two events; per input subevents are consumed in arrival order; every consumed subevent is either built in or counted as dropped.", "quantifier": "every content and arrival pattern of all inputs, any number of inputs", "why_tests_cant": "Inputs may lose or misorder triggers in arbitrary patterns.", "anchors": ["plugins/hadaq/src/CombinerModule.cxx: CombinerModule::BuildEvent, ShiftToNextSubEvent"]}
{"id": "C36", "title": "MBS event builder combines only events with the selected event number", "statement": "Every event in the output of the MBS combiner consists of the subevents of at most one event of each input, in the order of the inputs; a special event passes alone, otherwise all parts carry the same event number except those of inputs without numbers; in complete-event mode no event lacks an obligatory input; checked subevent ids are different; trigger and number come from an obligatory MBS part if there is one. Each input's events are used in order, none twice. With increasing numbers in complete-event mode exactly the numbers that arrive at all inputs are built, in order, and none is lost.", "quantifier": "every content and arrival pattern of all inputs", "why_tests_cant": "Unbounded input patterns, event number overflow.", "anchors": ["plugins/mbs/src/CombinerModule.cxx: CombinerModule::BuildEvent, ShiftToNextEvent"]}
{"id": "C37", "title": "Sorting of subevents by trigger number is well defined", "statement": "The order used by the sorter is a strict weak order on the triggers held at one time, so that the sorted result is independent of the sorting algorithm and increasing in trigger distance.", "quantifier": "every set of trigger numbers within the sorter's window", "why_tests_cant": "Cyclic comparison is not transitive in general; tests do not cover all triples.", "anchors": ["plugins/hadaq/hadaq/SorterModule.h: SorterModule::Diff, SubsComp", "plugins/hadaq/src/SorterModule.cxx: SorterModule::retransmit"]}
{"id": "C38", "title": "UDP receiver accounts every packet exactly once and forwards only intact ones", "statement": "Every received datagram is counted exactly once as accepted, discarded or artificially lost; only datagrams whose length matches their header and whose trailer repeats the header are placed in output buffers, in arrival order and without overrunning a buffer.", "quantifier": "every sequence of datagrams and buffer availability", "why_tests_cant": "Unbounded packet sequences and adversarial content.", "anchors": ["plugins/hadaq/src/UdpTransport.cxx: NewAddon::ReadUdp, CloseBuffer, NewTransport::AssignNewBuffer, BufferReady"]}
{"id": "C39", "title": "MBS write iterator and read iterator are inverse", "statement": "Events and subevents written with mbs::WriteIterator are returned by mbs::ReadIterator with the same number, order and payload.", "quantifier": "every list of events that fits the buffer", "why_tests_cant": "Unbounded structure; odd sizes and completely filled buffers are boundaries.", "anchors": ["plugins/mbs/src/Iterator.cxx: WriteIterator::NewEvent, NewSubevent, AddRawData, FinishSubEvent, FinishEvent, Close; ReadIterator"]}
{"id": "C40", "title": "Objects are destroyed exactly once and never while referenced", "statement": "An object is deleted at most once, only when no reference to it is left, and its cleanup runs before; after deletion started no new reference can be obtained.", "quantifier": "every interleaving of taking references, releasing them and destroy requests", "why_tests_cant": "Life-cycle races need particular interleavings.", "anchors": ["base/src/Object.cxx: Object::IncReference, DecReference, CallDestroyFromThread, Destroy", "base/src/Reference.cxx"]}
{"id": "C41", "title": "Name masks match as documented", "statement": "NameMatch with '*' and '?' wildcards returns true exactly when the name belongs to the language of the mask, NameMatchM exactly when it belongs to the language of one of the masks in the list; both always terminate.", "quantifier": "every name and every mask", "why_tests_cant": "Infinite pairs of strings; backtracking behaviour.", "anchors": ["base/src/Object.cxx: Object::NameMatch, NameMatchM"]}
{"id": "C42", "title": "References vector keeps order and identity", "statement": "Adding, inserting, removing and extracting references keeps all other references and their order; every reference given to the vector is exactly once in the vector, released, destroyed or handed out; no reference is copied on the way.", "quantifier": "every sequence of operations", "why_tests_cant": "Index shifting over arbitrary positions and sizes.", "anchors": ["base/src/ReferencesVector.cxx: ReferencesVector::Add, AddAt, RemoveAt, ExtractRef, Clear"]}
{"id": "C43", "title": "Dates and times survive the conversions used in storage", "statement": "A DateTime converted to milliseconds and back is the same instant up to a millisecond and the order of instants is kept; setting date or time of day from text changes exactly this part; the file name made for a stored hierarchy is found again as the same second; texts with decimals show the nearest value, milliseconds are shown exactly.", "quantifier": "all representable instants, all dates and times of day", "why_tests_cant": "2^62 instants; overflow in 32-bit fields; leap years and rounding.", "anchors": ["base/src/timing.cxx: DateTime::AsJSDate, AsString, AsJSString, OnlyDateAsString, OnlyTimeAsString, SetOnlyDate, SetOnlyTime", "base/dabc/timing.h: DateTime", "base/src/HierarchyStore.cxx: HierarchyReading::MakeFileName, ScanFiles"]}
{"id": "C44", "title": "Hierarchy history is a bounded log of the latest values", "statement": "An item with history limit N keeps exactly the last min(N, number of changes) values in order, and a client asking for changes since a version receives exactly the entries newer than that version.", "quantifier": "every sequence of value changes and every version asked for", "why_tests_cant": "Unbounded histories, all versions.", "anchors": ["base/src/Hierarchy.cxx: HierarchyContainer::AddHistory, ExtractHistoryStep, HistoryContainer::Stream, MarkVersionIfChanged"]}
{"id": "C45", "title": "Hierarchy versions tell clients about every change", "statement": "After any change of a value or of the set of children, the version of the item and of all its parents is newer than any version a client could have seen before, and unchanged items keep their version.", "quantifier": "every tree and every sequence of changes", "why_tests_cant": "All trees and change histories.", "anchors": ["base/src/Hierarchy.cxx: HierarchyContainer::MarkVersionIfChanged, MarkChangedItems, Stream"]}
{"id": "C46", "title": "Command lines are parsed as documented", "statement": "Reading a command from a typed line gives a command with the typed name, where positional arguments become Arg0, Arg1, ... with NumArg as their count, and an argument typed name=value (or name=\"value with blanks\") is stored under exactly that name with exactly that value.", "quantifier": "every command name and every list of positional, named and quoted arguments", "why_tests_cant": "Infinite set of lines; quoting and separators combine in unboundedly many ways.", "anchors": ["base/src/Command.cxx: Command::ReadFromCmdString, find_symbol, remove_quotes", "base/dabc/Command.h: Command::ReadFromCmdString"]}
{"id": "C47", "title": "The result given in a reply is the result the caller sees", "statement": "After a command is replied with a result code, the caller reading the result gets exactly that code; in particular a command that timed out reports the timeout code.", "quantifier": "every command state and every result code", "why_tests_cant": "All result codes and all earlier states of the command.", "anchors": ["base/src/Command.cxx: Command::Reply", "base/dabc/Command.h: Command::SetTimeout, GetResult", "base/src/CommandsQueue.cxx: CommandsQueue::ReplyTimedout"]}
{"id": "C48", "title": "CanSafelyChange tells whether memory is shared", "statement": "CanSafelyChange() of a buffer from a memory pool returns true exactly if no other live buffer refers to any of its memory blocks and no two of its own segments lie in one block.", "quantifier": "every history of take, duplicate, part, insert, cut and release operations on one pool, every live buffer", "why_tests_cant": "Sharing arises through arbitrary histories of duplication, part extraction and moves; a test covers only a few.", "anchors": ["base/src/Buffer.cxx: Buffer::CanSafelyChange", "base/src/MemoryPool.cxx: MemoryPool::IsSingleSegmRefs, IncreaseSegmRefs, DecreaseSegmRefs"]}
{"id": "C49", "title": "Strings survive binary streaming", "statement": "A string written with write_str is read back by read_str, which leaves the stream directly behind the string.", "quantifier": "every string without null bytes and whatever follows it in the stream", "why_tests_cant": "Infinite domain; lengths matter modulo 8 and the amount of following data matters.", "anchors": ["base/src/Record.cxx: iostream::write_str, read_str, str_storesize, verify_size"]}
{"id": "C50", "title": "Change flags tell about every change of the fields", "statement": "After ClearChangeFlags() and any sequence of setting, removing, copying and moving fields, a field without modified flag has its old value, and if WasChanged() returns false then no field was changed, added or removed.", "quantifier": "every fields map and every sequence of changes", "why_tests_cant": "Unbounded sequences of changes; each setter has its own rule for when a value counts as modified.", "anchors": ["base/src/Record.cxx: RecordFieldsMap::WasChanged, ClearChangeFlags, RemoveField, CopyFrom, MoveFrom, RecordField::SetValue and setters"]}
{"id": "C51", "title": "Copying and moving fields", "statement": "CopyFrom(src, overwrite) takes over every field of the source, fields which exist already only with overwrite, and leaves all others; after MoveFrom(src) the fields are those of the source plus the protected ones.", "quantifier": "every pair of fields maps, both values of overwrite, and every field name", "why_tests_cant": "Two unbounded maps with all combinations of common, missing and protected fields.", "anchors": ["base/src/Record.cxx: RecordFieldsMap::CopyFrom, MoveFrom, SetValue"]}
{"id": "C52", "title": "A client following a hierarchy sees the hierarchy of the server", "statement": "A client which keeps a copy of a hierarchy and repeatedly asks for the changes since the version of its last answer has, after an answer given without unmarked changes, the same items in the same order with the same fields as the server; for a client of the names list the same holds for names and fields starting with an underscore.", "quantifier": "every sequence of changing fields, creating and removing items at any place and depth, marking at any item and transfers to the client", "why_tests_cant": "Unbounded trees and histories; every combination of item versions with the version of the client decides separately what is sent.", "anchors": ["base/src/Hierarchy.cxx: HierarchyContainer::Stream, MarkVersionIfChanged, MarkChangedItems, Hierarchy::SaveToBuffer, ReadFromBuffer", "base/src/Worker.cxx: WorkerAddon / CmdPublisher requests", "base/src/Publisher.cxx"]}
{"id": "C53", "title": "Values survive their text form", "statement": "The text of a field value (AsStr) stored as a string field gives the same value back: integer, unsigned and bool values with AsInt, AsUInt and AsBool, arrays of numbers and of strings with AsIntVect, AsUIntVect and AsStrVect. A text array written by hand, with quoted elements or words and any spaces between them, is read as its elements, and reading never looks behind the end of the text.", "quantifier": "every 64 bit value, every array of any length, every text of an array, every string (for reading inside of it)", "why_tests_cant": "All 64 bit values and all strings; the writer escapes characters which the reader does not know about.", "anchors": ["base/src/Record.cxx: RecordField::AsStr, AsInt, AsUInt, AsBool, AsIntVect, AsUIntVect, AsStrVect, StrToStrVect", "base/src/string.cxx: str_to_lint, str_to_luint"]}
{"id": "C54", "title": "JSON text of records and hierarchies is valid JSON showing their content", "statement": "The text produced by SaveToJson of a record or hierarchy item is one valid JSON object whose members are, in this order, the name of the item, its fields with their values, the requested versions, the requested newest entries of its history and the objects of its childs.", "quantifier": "every record and hierarchy of any depth with fields of every kind and any history, every combination of the formatting options", "why_tests_cant": "Unbounded trees; commas, brackets and indentation depend on what has been written before at every level.", "anchors": ["base/src/Record.cxx: HStore, RecordField::AsJson, RecordFieldsMap::SaveTo, Record::SaveToJson", "base/src/Hierarchy.cxx: HierarchyContainer::SaveTo, History::SaveTo"]}
{"id": "C55", "title": "The HADES sorter neither loses nor doubles subevents", "statement": "Every subevent received by the sorter is, at any time, exactly once in a buffer it sent, in its output buffer, among those it reported as too old, or still in its input queue; the memory it copies from belongs to buffers still in the input queue and the output buffer is never overrun; what it sends does not go back in trigger numbers, and the end of file comes last.", "quantifier": "every sequence of arriving buffers, calls and timer events, every availability of buffers and places, every sorting algorithm", "why_tests_cant": "Depends on the interplay of three indices into the input queue with arbitrary arrival patterns, and on decisions of other threads between two looks at a queue.", "anchors": ["plugins/hadaq/src/SorterModule.cxx: SorterModule::retransmit, DecremntInputIndex, RemoveUsedSubevents, ProcessTimerEvent"]}
{"id": "C56", "title": "Buffers of a HADES event-building network go to the node which owns their triggers", "statement": "A combiner working as network sender puts into one output buffer only events whose trigger numbers belong to the same bunch owner, and sends the buffer to exactly that output: for every event in a buffer sent to output d, (trigger number / bunch size) mod (number of outputs) = d.", "quantifier": "every arrival pattern, every sequence of build calls, timer calls and answers of outputs and pool; every bunch size and number of outputs; trigger numbers of up to 24 bits", "why_tests_cant": "Which events meet in a buffer depends on buffer sizes, timing and on lost triggers; a wrongly addressed event is only noticed as incomplete at another node.", "anchors": ["plugins/hadaq/src/CombinerModule.cxx: CombinerModule::DestinationPort, CheckDestination, FlushOutputBuffer, BuildEvent"]}
{"id": "C57", "title": "A file input delivers all files of its list and then ends", "statement": "An input given a list of complete files delivers the buffers of all of them, file by file in the order of the list and each once, and then reports the end of the stream.", "quantifier": "every list of files, every content of the files, every sequence of buffers provided for reading", "why_tests_cant": "The change from one file to the next depends on how the end of a file meets the end of a read buffer.", "anchors": ["base/src/DataIO.cxx: FileInput::TakeNextFileName", "base/src/BinaryFileIO.cxx: BinaryFileInput::Read_Size, OpenNextFile", "plugins/hadaq/src/HldInput.cxx: HldInput::Read_Size, Read_Complete", "plugins/mbs/src/LmdInput.cxx: LmdInput::Read_Size, Read_Complete"]}
{"id": "C58", "title": "Output files respect the size limit and nothing is lost between files", "statement": "With a size limit no output file has more payload than the limit unless it consists of a single buffer; a new file is begun exactly when the next buffer does not fit any more; without a limit there is one file; the counters of the output tell the number and size of the written buffers.", "quantifier": "every limit, every list of buffers, a disk that gets full at any byte", "why_tests_cant": "Every combination of buffer sizes around the limit and every failure point.", "anchors": ["base/src/DataIO.cxx: FileOutput::CheckBufferForNextFile, AccountBuffer", "base/src/BinaryFileIO.cxx: BinaryFileOutput::Write_Buffer, StartNewFile"]}
{"id": "C61", "title": "Buffers cross a network connection once and in order", "statement": "The module at one end of a network connection receives the buffers given to the port at the other end exactly once and in the same order; a buffer stays in the queue of its port until its sending is finished; when nothing is under way, all have arrived.", "quantifier": "every schedule of the events of both transports, modules, memory pools and the network; with and without acknowledgement; every queue length of the ports (TransportQueue not larger)", "why_tests_cant": "Depends on the interleaving of two nodes and two directions.", "anchors": ["base/src/NetworkTransport.cxx: NetworkTransport::ProcessInputEvent, SubmitAllowedSendOperations, ProcessSendCompl, ProcessRecvCompl"]}
{"id": "C59", "title": "New output files do not replace existing ones", "statement": "An output which starts numbers its files consecutively, beginning after the largest number of the files with the same name which exist already and not before the requested number; so none of the files it writes existed, and no file is written twice.", "quantifier": "every directory content, every file name and extension, every requested number and any number of files", "why_tests_cant": "All directory contents and names; the number of each existing file must be recognised from its name whatever the name looks like.", "anchors": ["base/src/DataIO.cxx: FileOutput::Write_Init, ProduceFileName, ProduceNewFileName", "base/src/BinaryFile.cxx: FileInterface::fmatch", "plugins/mbs/src/LmdOutput.cxx: StartNewFile", "base/src/BinaryFileIO.cxx: BinaryFileOutput::StartNewFile"]}
{"id": "C60", "title": "Messages survive the byte stream of a socket", "statement": "A network connection over a stream socket gives the receiving transport exactly the messages submitted on the other side - acknowledge numbers, and type and content of buffers - in the order of submission, independent of how many bytes each write and read system call moves and whether it works on one or on all memory segments; when everything is written and read and enough receive buffers were submitted, all messages are delivered.", "quantifier": "for all sequences of submitted messages, submitted receive buffers, write events and read events, and all numbers of bytes moved by each event", "why_tests_cant": "the splitting of the stream is chosen by the kernel; tests on one machine see only few of the splittings, and the small sizes which break the protocol are easily left out", "anchors": ["base/src/NetworkTransport.cxx:184-215", "base/src/NetworkTransport.cxx:364-420", "base/src/SocketTransport.cxx:68-228", "base/src/SocketThread.cxx:363-755"]}
{"id": "C62", "title": "An object whose destruction was requested is deleted in the end", "statement": "When destruction of an object was requested - by Destroy, or because it has the auto-destroy flag and its last reference was released - and all calls are finished, the thread has done what it promised and no references and childs are left, the object is deleted.", "quantifier": "for all interleavings of calls of references, raw pointers, threads, manager and childs", "why_tests_cant": "an object which nobody deletes is not seen by a test, which looks at results and not at the memory left", "anchors": ["base/src/Object.cxx:311-505", "base/src/Object.cxx:585-681"]}
{"id": "C63", "title": "Input transports keep to the protocol of their input object", "statement": "An input transport asks its input for the size, takes a buffer of that size, starts and completes the reading with this buffer and sends it; buffers sent are exactly those declared as filled, in order and each once; pauses and call-backs are awaited; a deleted input is not used any more; end-of-file is sent once, after the input was deleted, as the last thing; a running transport never falls asleep with work to do.", "quantifier": "for all sequences of events (port, pool, call-backs, timer, start, stop, clean-up) and all answers of the input object, the memory pool and the port", "why_tests_cant": "the states of the transport and the answers of input, pool and port combine to far more histories than tests can try, and call-backs come at any time", "anchors": ["base/src/DataTransport.cxx:21-584", "base/dabc/DataTransport.h:50-135", "base/dabc/DataIO.h:32-137", "base/src/ModuleAsync.cxx"]}
{"id": "C64", "title": "Output transports keep to the protocol of their output object", "statement": "An output transport asks its output before each buffer, gives it the buffer, completes the writing; pauses and call-backs are awaited; after an error the output is deleted or, when it wants to and after a pause, initialised again before anything else; a deleted output is not used any more; what comes to the port is written, skipped on wish of the output, flushed or taken as end of file in the order of arrival and once; a running transport never falls asleep with work to do.", "quantifier": "for all sequences of events (arriving buffers, port events, call-backs, timer, start, stop, clean-up) and all answers of the output object", "why_tests_cant": "the states of the transport and the answers of the output combine to far more histories than tests can try, and call-backs, stops and errors come at any time", "anchors": ["base/src/DataTransport.cxx:577-921", "base/dabc/DataTransport.h:146-225", "base/dabc/DataIO.h:141-232", "base/src/ModuleAsync.cxx"]}
{"id": "C65", "title": "Timeouts of workers are neither early nor forgotten", "statement": "A thread calls ProcessTimeout of a worker only when the worker requested a timeout, only after the requested time is over, and with the time passed since the last call; each check of the timeouts calls all which are due; the thread sleeps at most until the next one is due, without limit only when none is active; a request made from any thread stays in the event queue until it is taken over.", "quantifier": "for any number of timeouts, all sequences of requests from any thread, events, checks and passing times, and all answers of ProcessTimeout", "why_tests_cant": "depends on real times, on the order of events and checks and on the answers of all workers of a thread; a forgotten timeout looks like a slow one", "anchors": ["base/dabc/Thread.h:134-227", "base/src/Thread.cxx:1114-1145", "base/src/Thread.cxx:1284-1327", "base/src/Thread.cxx:1416-1448"]}
{"id": "C66", "title": "The multiplexer gives every buffer to all outputs in the order of arrival", "statement": "Buffers which arrive at the inputs of a multiplexer module are taken in the order of arrival, and every output which is connected gets exactly these buffers, each once and in this order; a full output holds all others; nothing stays behind when all events are processed and all outputs have a place.", "quantifier": "for any number of inputs and outputs, all arrival patterns, all orders of events and all answers of the ports", "why_tests_cant": "the order depends on the interleaving of events of several inputs and outputs; a buffer left in a queue looks like a late one", "anchors": ["base/src/MultiplexerModule.cxx:18-76", "base/src/Module.cxx:764-827", "base/src/Module.cxx:932-973", "base/src/ModuleAsync.cxx:44-98"]}
{"id": "C67", "title": "A thread never sleeps over its events", "statement": "WaitEvent of a thread returns each event which was fired, or reported by poll for the socket of a worker, exactly once; it returns nothing only when no event waits; the thread does not sleep in the condition, and not block in poll, while an event waits; poll is asked exactly for the sockets whose workers want to read or write, and after it only reported directions are switched off; sockets are looked at again after each batch of their events.", "quantifier": "for all interleavings of firing threads with the sections of WaitEvent, all timeouts, spurious wake-ups, all results of poll, all numbers of sockets and all wishes of their workers", "why_tests_cant": "a lost wake-up needs a fire in exactly the window between the look at the queue and the sleep, which a test practically never meets", "anchors": ["base/src/Thread.cxx:396-425", "base/src/Thread.cxx:1023-1054", "base/src/threads.cxx:105-145", "base/dabc/threads.h:284-302", "base/src/SocketThread.cxx:1465-1699"]}
{"id": "C68", "title": "XML documents survive saving and parsing", "statement": "Every text of a document in the supported part of XML, with any blanks between its parts, is parsed to that document; the text written for a document, with or without layout, is such a text, so that saving and parsing gives the document back; every attribute value survives; parsing ends for every input, and what it accepts has proper names and structure; the root element of the document is found.", "quantifier": "for all documents (any depth, names, attribute values, comments) and, for the end of parsing and the structure of what is accepted, all byte strings", "why_tests_cant": "infinitely many documents and texts; the cases which break it (coded content, layout, prefixes of names in closing tags, empty comments, bytes above 127) are easily left out", "anchors": ["base/src/XmlEngine.cxx:288-391", "base/src/XmlEngine.cxx:1045-1133", "base/src/XmlEngine.cxx:1296-1631"]}
{"id": "C69", "title": "Variables in configuration values are replaced by their meaning", "statement": "ResolveEnv replaces every ${name} by the value of the variable (command line before the Variables node of the file before own members before the environment of the process), #${name} by the number of entries of the value, ${name}# by one entry if one is asked for; definitions may use other variables; the call ends and leaves no variable; a text without variables and a text with an unclosed brace are returned as they are.", "quantifier": "for all texts built of literals and variables in any order, all sets of variables with definitions of any depth, all entry numbers", "why_tests_cant": "infinitely many texts and definitions; circular definitions, values which contain # or ${ and empty arrays are the cases which break it", "anchors": ["base/src/ConfigBase.cxx:151-157", "base/src/ConfigBase.cxx:284-297", "base/src/ConfigBase.cxx:440-532"]}
{"id": "C70", "title": "Search in the configuration file finds every node of a context once", "statement": "Repeated calls of FindMatch/FindN give exactly the nodes of the path in the context itself and then in the masks (contexts with wildcards which fit), each once and in the order of the file, and then end; so LoadLibs loads every library once and NextCreationNode gives every node to be created once; Find1 gives the own value before the value of masks before the default; contexts are numbered without gaps.", "quantifier": "for all configuration trees, contexts, paths and results of fnmatch", "why_tests_cant": "needs all shapes of the tree; the context without attributes, for which the calls never end, is rarely written", "anchors": ["base/src/ConfigBase.cxx:183-332", "base/src/ConfigBase.cxx:334-347", "base/src/ConfigBase.cxx:392-438", "base/src/Configuration.cxx:260-297"]}
{"id": "C71", "title": "Objects read the first configuration value which the file has for them", "statement": "ReadRecordField ends for every tree and every chain of parents of an object, and gives the first value, in the order of the file, among all nodes which belong to the object: first exactly named nodes of the selected context, then nodes of all contexts with wildcards or without names; a record keeps the fields it has and gets every other field from the first node which gives it.", "quantifier": "for all trees, all chains of Find functions of any length, all fields, all results of fnmatch and of the replacement of variables", "why_tests_cant": "the search walks through the tree by going back with two pointers; a wrong step back shows only for some shapes of the tree", "anchors": ["base/src/ConfigIO.cxx:42-290", "base/src/Worker.cxx:608-618", "base/src/Manager.cxx:1880-1893", "base/src/Application.cxx:435-444", "base/src/Object.cxx:929-932"]}
{"id": "C72", "title": "Connection requests are carried out in order and every command about them is answered once", "statement": "The connection manager takes every requested connection through the steps prepare, ask or be asked, connect, and no other way; a connection becomes connected only when its device says so in the last step; every ActivateConnections, ShutdownConnection and CmdGlobalConnect command is answered exactly once or still kept; success is reported only if since the arrival of the command no required connection failed and all required ones of the list were connected; only clients ask, for the connection the other way round; both ends then have the same identifier and settings; identifiers given away are all different; a device which does not answer is given up after 5 seconds. Every step should come to an end.", "quantifier": "for all sequences of parameter events, time outs, commands, answers of devices and of other nodes, and changes by other threads, any number of connections", "why_tests_cant": "depends on the order of messages of two nodes, devices and timers; lost or late answers are rare in tests", "anchors": ["base/src/ConnectionManager.cxx:67-195", "base/src/ConnectionManager.cxx:198-335", "base/src/ConnectionManager.cxx:338-591", "base/dabc/ConnectionManager.h:35-101", "base/dabc/ConnectionRequest.h:117-145"]}
{"id": "C73", "title": "Settings of a connection are fixed once it is requested", "statement": "Outside of state Init a field of a connection object changes only with a permission given for it, every permission allows at most one change, whatever the threads do; called one after another, the methods leave each setting at the last value set in state Init or with permission, the state is what the calls say, the value shown is the name of the state, and every change of the state to another one than Init is told exactly once; MakeConnReq hands over all settings of the port and makes the request pending; SetConfigFromXml sets exactly the attributes which the node has, in every state.", "quantifier": "for all sequences of calls, all interleavings of the sections under the mutex, all fields and values", "why_tests_cant": "the permission is one text shared by all threads; its loss needs two threads inside of two lines", "anchors": ["base/src/ConnectionRequest.cxx:41-170", "base/src/Parameter.cxx:88-167", "base/src/Module.cxx:431-467", "base/src/Manager.cxx:2179-2193"]}
{"id": "C74", "title": "A rate or average accounts for every value exactly once and events of plain parameters are spaced by the interval", "statement": "After SetRatemeter or SetAverage with interval i the modified events of a parameter report the rate (sum of the values divided by the time) or the mean of successive windows: every value given to SetValue belongs to exactly one report or to the part not yet reported, the durations follow each other without gap, none is shorter than i, so that the reports times their durations add up to the sum of all values; a mean lies between the smallest and the largest value. For a plain parameter the value read is always the last one set, events are more than i apart, a value set more than i after the last event is reported at once, and with i = 0 every value is reported. The worker is informed again only after it confirmed.", "quantifier": "all sequences of SetValue (any values and times), timeouts, settings of attributes and confirmations; all intervals", "why_tests_cant": "Reports depend on times and on unbounded sums of values; a value dropped or counted twice at a window border changes a displayed rate by little and is seen only by relating whole histories to the reports.", "anchors": ["base/src/Parameter.cxx:92-292 (SetField, ProcessTimeout, _CalcRate)", "base/src/Parameter.cxx:365-499"]}
{"id": "C75", "title": "Parameter events reach their receivers: no wake-up and no last update is lost", "statement": "For every interleaving of the threads which change, configure, create or destroy parameters with the thread of the manager: while records are in the queue of parameter events the manager is processing them or its event is queued or about to be queued; records are handled once, in the order of insertion; a receiver which subscribed with a matching mask, accepts commands and has at most 1000 events not yet answered was told the present value of a parameter last, or an event of this parameter is on its way; every event shows the value at the time of its delivery and whether attributes changed since the event before; the counter of a receiver is the number of its unanswered events and at most 1001; at most one modified event of a parameter is in the queue; a parameter gets timeouts exactly if it needs them once its configuration events are handled, and none after it was destroyed.", "quantifier": "all interleavings of any number of threads, parameters and receivers; all masks; all times at which receivers subscribe, leave and answer", "why_tests_cant": "Loss of an update needs a particular order of the two critical sections of the producer, the extraction by the manager and the reading of the value.", "anchors": ["base/src/Manager.cxx:506-547 (ProduceParameterEvent)", "base/src/Manager.cxx:549-664 (ProcessParameterEvents)", "base/src/Manager.cxx:1214-1240, 1283-1301"]}
{"id": "C76", "title": "A command definition gives back its arguments and makes commands with all required and default values", "statement": "After any sequence of AddArg calls GetArg(n) gives name, kind, default and required flag of the n-th argument, each name once at the position of its first call, and refuses other n; FindArg finds the position of each argument and nothing else; a repeated AddArg replaces the attributes of the argument. MakeCommand gives a command with exactly one field for each argument which is required or has a non-empty default, with the default as value. The field names used for different arguments and attributes never coincide.", "quantifier": "all sequences of AddArg calls with arbitrary names, kinds, flags and defaults; any number of arguments", "why_tests_cant": "Arguments are encoded in field names made of numbers and suffixes; a collision needs a particular number of arguments.", "anchors": ["base/src/Parameter.cxx:574-670 (CommandDefinition)"]}
{"id": "C77", "title": "A command sent to another node is answered once, with the result of its own execution", "statement": "Every command given to a command channel is at any time in exactly one place: in the send queue, waiting for the answer, or answered, and it is answered at most once. The other node executes the commands in the order in which they were submitted, each at most once, and each executed command finishes once. A command answered with a result was executed by the other node and the result is the one of this execution, also if connections are lost and opened again, commands time out or are cancelled. While the connection stands and commands do not time out, every command is executed and answered.", "quantifier": "all interleavings of both workers and both sockets, of loss and return of the connection, timeouts and cancelled commands; any number of commands in both directions (up to 2^32 for the results)", "why_tests_cant": "The answer is found by a number kept in the command; a wrong match needs loss of a connection or cancellation at a certain moment of the exchange.", "anchors": ["base/src/SocketCommandChannel.cxx:109-520", "base/src/SocketCommandChannel.cxx:581-632", "base/src/CommandsQueue.cxx:14-126", "base/src/SocketThread.cxx:146-161, 363-451, 539-740"]}
{"id": "C78", "title": "Packets of the command channel arrive whole, once and in order, and no packet makes the receiver leave its buffer", "statement": "Whatever commands and answers with raw data are sent over a command channel, the receiver hands over each of them once, in order, with the same kind, timeout, command and raw data, however the stream is cut into pieces, and nothing of a packet which is not complete. For every stream of bytes, also one made up by somebody else, the receiver stays inside of its buffer, uses only bytes of the packet itself, always comes to an end, and gives up the connection only for a wrong header, an empty or unreadable command or an end packet. The command has the same time to finish at the other side as it had at the sender.", "quantifier": "all sequences of messages of any length and content; all streams of bytes; all timeouts", "why_tests_cant": "Sizes in the headers are 32-bit numbers taken from the network; the wrong combinations are never produced by the own sender.", "anchors": ["base/src/SocketCommandChannel.cxx:81-107", "base/src/SocketCommandChannel.cxx:210-295", "base/src/SocketCommandChannel.cxx:323-398", "base/src/SocketCommandChannel.cxx:450-488", "base/dabc/SocketCommandChannel.h:30-45"]}
{"id": "C79", "title": "An MBS client gets what the server was given", "statement": "A client connected to an MBS transport or stream server receives exactly the buffers (or the events wrapped in MBS headers with consecutive numbers) which were posted to the output, in order, without gaps or changes, for every interleaving of both sides, every cutting of the byte stream and also when sockets fail; without failures no side gives up and everything posted can always be delivered; a stream server sends at most one buffer per request.", "quantifier": "all sequences of buffers, all interleavings of the steps of server, client, sockets and transports", "why_tests_cant": "Needs both state machines, the socket and the two transports in all orders; races between request, timer, call-back and completion.", "anchors": ["plugins/mbs/src/ServerTransport.cxx:23-293", "plugins/mbs/src/ClientTransport.cxx:22-400", "plugins/mbs/src/MbsTypeDefs.cxx:122-200", "base/src/DataTransport.cxx:220-573", "base/src/DataTransport.cxx:704-850"]}
{"id": "C80", "title": "Events sent in pieces by an MBS server come out complete", "statement": "A client of an MBS server whose buffers end in the middle of an event (spanning) puts the pieces together: for every cutting of a sequence of events into buffers, any fill behind the events, both orders of bytes and any number of buffers per event, the buffers delivered contain exactly the complete events, in order and with the right sizes, and nothing of the stream is left over.", "quantifier": "all sequences of events, all ways to cut them into buffers, both orders of bytes", "why_tests_cant": "Cuts at every position and events over any number of buffers; needs an MBS node with another order of bytes.", "anchors": ["plugins/mbs/src/ClientTransport.cxx:82-173", "plugins/mbs/src/ClientTransport.cxx:259-389", "plugins/mbs/src/Iterator.cxx:88-120", "plugins/mbs/src/MbsTypeDefs.cxx:122-200"]}
{"id": "C81", "title": "An MBS server gives its clients what it took, in order, and loses only what its options allow", "statement": "Clients may come and go at any time; each gets buffers in the order in which the server took them from its input, each at most once, none from before its time and, when all data have to be delivered, without gap; otherwise a buffer is left out for a slow client only when the input queue is full. A server with `deliverall` waits for its slowest client, a blocking one waits for its first client, others are never held. There are never more clients than the limit allows, a client stays connected until it goes or the server closes, and after the end of data the server closes when its last client went.", "quantifier": "all options, all sequences of arriving buffers, connections, disconnections, events and takes", "why_tests_cant": "Needs many clients coming and going at all moments relative to the events which are still in the queue of the module.", "anchors": ["plugins/mbs/src/ServerTransport.cxx:297-521", "base/src/Module.cxx:847-973", "base/src/LocalTransport.cxx:273-464", "base/src/Transport.cxx:128-176"]}
{"id": "C82", "title": "A connection request at the socket device is answered once, and positively only with the right socket", "statement": "Every connect command of the connection manager is answered exactly once, at the latest when the timer counted its time-out and 0.2 s, and not given up before; it is answered with true exactly when a transport was made for it. A transport is made only on a socket on which the connection id of this request was agreed: at the server a request with this id came and was accepted, at the client the server accepted. A server accepts exactly requests with the right header and the id of a waiting request; when both sides wait for the same id (up to 94 bytes) both get their transport and no other connection is touched. Deleted records and addons are not used.", "quantifier": "all sequences of requests, accepted and redirected sockets, messages of any content, socket errors, timer events, and all addresses given by the allocator", "why_tests_cant": "Needs time-outs at the moment when the hand-shake is under way, reuse of memory and messages which no own client sends.", "anchors": ["base/src/SocketDevice.cxx:33-187", "base/src/SocketDevice.cxx:254-325", "base/src/SocketDevice.cxx:349-387", "base/src/SocketDevice.cxx:396-564"]}
{"id": "C83", "title": "An application is always in a definite state, owns what it created, and can be halted", "statement": "Every state command is answered exactly once: with true exactly when the target state is reached, with false when the application failed or another transition is under way. When Ready or Running is reached every device, pool and module of the configuration exists; in Running its modules were started, when Running is left they are stopped. In Halted nothing which the application created is left, also after failures half-way; objects of others are never deleted. From every state the application can be halted and, if all objects can be created, brought into every other state. An application which controls itself stops exactly when all its modules which ran have ended.", "quantifier": "all sequences of state commands, replies of the connection manager with any result, registrations, starts and stops of modules, objects created by others, and timer events; all configurations and failures", "why_tests_cant": "Failures of single objects at every position, replies of the connection manager and commands of others during a transition.", "anchors": ["base/src/Application.cxx:24-430", "base/dabc/Application.h:44-90", "base/src/ConnectionManager.cxx:160-194", "base/src/Manager.cxx:944-999"]}
{"id": "C84", "title": "HLD output puts every event into the file of its run", "statement": "Every file which an HLD output leaves has one start record, content and, when it was closed without an error of the disk, one stop record, all with the run number of the file. With option slave the events of each run are in the file of this run, completely and in order, also when the run changes within a buffer or segment, and other files are not touched. Without it all accepted data are in the files in their order, no file is longer than the limit, and buffers are not divided between files. A buffer which is accepted is in the file; after an error a new attempt continues with a new file.", "quantifier": "all sequences of buffers, end of run, retries, restarts; all segmentations, runs, times and failures of the disk", "why_tests_cant": "Changes of the run at every position in a buffer and segment, disk failures at every write, and files opened within the same second.", "anchors": ["plugins/hadaq/src/HldOutput.cxx:34-424", "plugins/hadaq/src/HldFile.cxx:31-137", "base/src/DataIO.cxx:277-294", "plugins/hadaq/src/HadaqTypeDefs.cxx:52-68"]}
{"id": "C85", "title": "Run commands reach every node once and are answered once, with what the nodes told", "statement": "Every StartRun, StopRun, RefreshRun and reset command is answered exactly once. An accepted run command gives every builder exactly one order, the same for all, with a new number, and every input one when a calibration run starts or stops; the answer comes when every node replied, or false at time-out or when another command takes its place. Replies to earlier commands change nothing. The run shown by the master is the one the builders were last told. The quality written for a calibration is the smallest one in the replies and belongs to the run which was stopped. A start which has to wait for builders is executed when the builders stay the same. The list of nodes has every node of the kind once, sorted, with its own name.", "quantifier": "all sequences of commands, replies (also late or failing ones), node lists, layouts and times", "why_tests_cant": "Late replies of superseded commands, commands during a running one, and changes of the node list in between.", "anchors": ["plugins/hadaq/src/BnetMasterModule.cxx:23-679", "plugins/hadaq/hadaq/BnetMasterModule.h:39-76"]}
{"id": "C86", "title": "The common state of a builder network is shown only from complete information", "statement": "State, quality and run of the network are shown only when every node which was asked has replied. A quality above 0 tells that there are builders and inputs, that they know of each other, that the builders write the same run (when the last start is long enough ago), and that no node has a lower quality; the state is then the one of the node with the lowest quality. Replies to earlier cycles change nothing. A new file is started automatically only with the control, when no run command is in work and a builder reported a file above the limit after the last start, and at most once for each file.", "quantifier": "all sequences of commands, reports of nodes (any content and order), late replies, node lists and times", "why_tests_cant": "Orders of replies of many nodes, and reports which come between a start command and its effects.", "anchors": ["plugins/hadaq/src/BnetMasterModule.cxx:88-131", "plugins/hadaq/src/BnetMasterModule.cxx:182-420"]}
{"id": "C87", "title": "A node of a builder network does what it confirms", "statement": "Every command of the master to a node is answered exactly once. A start of a file gives each output one order and is confirmed when every output replied; then run number and prefix are taken over. It is refused when another command takes its place or, in a builder, when its time is over. A stop sends the data collected so far and then the end of the run to the outputs. Events carry the run which was confirmed last and not stopped, and are counted from 1 in each run. In the run information starts and stops of runs follow each other, each stop with the run, file name and number of events of the run which was started, and the time of the next start if there is one. A calibration command gives each input one order and is confirmed, with the smallest quality, when every input replied; the script for a finished calibration is called once. A refresh command is confirmed when every input replied.", "quantifier": "all sequences of commands, replies (also late or failing ones), timer events and events built; all numbers of ports and options", "why_tests_cant": "Late replies of superseded commands and interleavings of the three kinds of commands.", "anchors": ["plugins/hadaq/src/CombinerModule.cxx:84-132", "plugins/hadaq/src/CombinerModule.cxx:195-202", "plugins/hadaq/src/CombinerModule.cxx:355-362", "plugins/hadaq/src/CombinerModule.cxx:1287-1412", "plugins/hadaq/src/CombinerModule.cxx:1444-1535", "plugins/hadaq/src/CombinerModule.cxx:1596-1647"]}
{"id": "C88", "title": "A request for a published item reaches the worker which published it", "statement": "A path is followed name by name through a hierarchy; an item is found under its names joined with slashes. The producer of an item is the deepest item on the way which names one, and the request carries the rest of the way. A request to the publisher goes, once, to the worker responsible for the item, naming the item inside what this worker has registered and the registered hierarchy; an item known only from another node is asked for there, and a request which already came from another node is refused then. A request of which nothing is known is refused. A command item is executed by the producer of the item. The address of a page is split into the longest known item and a rest without loss.", "quantifier": "all trees, all registrations of local workers and other nodes, all names of items and addresses", "why_tests_cant": "Registrations inside of one another, unknown remainders of paths, several hierarchies per worker, and local and remote knowledge about the same item combine.", "anchors": ["base/src/Publisher.cxx:382-620", "base/src/Publisher.cxx:804-907", "base/src/Object.cxx:735-819", "base/src/Object.cxx:1061-1073", "base/src/Hierarchy.cxx:1098-1114", "base/src/ReferencesVector.cxx:174-181", "base/src/Manager.cxx:1439-1490"]}
{"id": "C89", "title": "The web server delivers only files of its directories", "statement": "A name of a file is accepted exactly when it is not empty and no directory on its way, counted from the start, is outside; no name which stays inside is refused. A file requested by its address, or by the beginning of its name, lies under the directory of the matching location; the pages of the server come from its own directory; a file of a page of a user stays inside of the directory of the page. With the built-in web server, which removes double dots from addresses, no address leads out; other addresses are left as they are.", "quantifier": "all addresses, all locations, all published items", "why_tests_cant": "Which mixtures of separators, dots and prefixes get around the check is not found by trying addresses.", "anchors": ["plugins/http/src/Server.cxx:156-224", "plugins/http/src/Server.cxx:259-310", "plugins/http/src/Civetweb.cxx:114-148", "plugins/http/src/FastCgi.cxx:211-236", "plugins/http/civetweb/civetweb.c:7747-7771", "base/src/Publisher.cxx:831-863"]}
{"id": "C90", "title": "A client is asked who it is as the items demand", "statement": "Whether authentication is required for an address is decided by the deepest item on the way to the item asked for which says something about it, and by the default of the server when none does. The item for which this is decided is the item which is then executed, listed or read. A request for which authentication is required is only executed for clients which have shown who they are.", "quantifier": "all trees, all settings of the items and the server, all addresses", "why_tests_cant": "The address is split in two different ways by the two parts of the code; agreement on all addresses is not testable.", "anchors": ["plugins/http/src/Server.cxx:226-257", "plugins/http/src/Server.cxx:259-443", "base/src/Publisher.cxx:865-883", "plugins/http/src/Civetweb.cxx:114-178", "plugins/http/src/FastCgi.cxx:211-236"]}
{"id": "C91", "title": "The log accounts for every message", "statement": "On each output (terminal, file, system log) the lines of a place of the program account for all messages of that place which the output takes: each message is shown, or counted in the number of dropped messages of the next line. Up to the limit all messages are shown; afterwards lines are at least half a second apart and a message is dropped only when it comes earlier. Messages of other places have no influence. A message which is shown appears, with its text, on exactly the outputs which take its level, errors on the error output. The table of lines is never left.", "quantifier": "all sequences of messages with all levels, places, times and changing settings", "why_tests_cant": "Dropping depends on time and counts per place; interleavings of several places and outputs are not enumerable.", "anchors": ["base/src/logging.cxx:41-98", "base/src/logging.cxx:166-209", "base/src/logging.cxx:219-369", "base/dabc/logging.h:115-119"]}
{"id": "C92", "title": "Stored hierarchies can be read back", "statement": "The records of a storage file give, read one after the other, the hierarchy as it was at each time when something was stored in the file: the first record completely, the others as far as changes were marked. Records are never changed afterwards. Storing begins with a new file; differences are more than the period apart, new files at least the time limit; when the publisher looks every \u03b4 at a clock which does not go back, differences are at most period + \u03b4 apart. For a given time the newest file not younger than it is chosen, and its first record is read.", "quantifier": "every sequence of changes of the hierarchy at any place, marks, checks of the time and requests", "why_tests_cant": "Unbounded histories of changes and stores; what a record contains depends on versions of every single item.", "anchors": ["base/src/HierarchyStore.cxx:55-196", "base/src/HierarchyStore.cxx:354-404", "base/src/Worker.cxx:703-724", "base/src/Publisher.cxx:229-246"]}
{"id": "C93", "title": "Published hierarchies follow their workers", "statement": "The publisher shows, in the folder of each registered path, the hierarchy of the worker as it was when the worker answered the last time (as far as changes were marked), with the producer set, independent of registrations, answers and removals of others. Registration is refused exactly when the path is registered or used; only the worker which registered a path can unregister it; then the folder and all folders above which become empty are gone and nothing changes for others. For each registration at most one request is under way; late answers change nothing, failed ones are repeated with the same version.", "quantifier": "every sequence of registrations, removals, timer events, changes of any hierarchy, and of requests answered, failed and delivered in any order", "why_tests_cant": "Answers of several workers arrive in any order between registrations and removals; one wrong folder destroys the items of another worker.", "anchors": ["base/src/Publisher.cxx:204-254", "base/src/Publisher.cxx:312-379", "base/src/Publisher.cxx:619-764", "base/src/Worker.cxx:703-724", "base/src/Hierarchy.cxx:1117-1131", "base/src/Object.cxx:742-819"]}
{"id": "C94", "title": "A module runs as long as it has connections", "statement": "The start and stop methods of a module alternate, its items are started and stopped in between, and data events reach it only while it runs. Every connect and disconnect event is told to it exactly once, running or not. With automatic stop, a module which runs on after a disconnect event has an input or output which is connected or is being connected again, and the lost connection was not required; an event stops it for no other reason, except when the port is configured so. A port which may be connected again L times tries at most L times and does not give up earlier. (The code violates parts: the limit does not hold after a second loss; a reconnection given up does not stop the module; a late disconnect event closes the connection made in between.)", "quantifier": "every sequence of starts, stops, events, timeouts with any outcome, connections made and lost, configurations, for any number of ports", "why_tests_cant": "Losses and reconnections of several ports interleave with start and stop; a limit which is passed only shows at the next loss.", "anchors": ["base/src/Module.cxx:269-281", "base/src/Module.cxx:563-606", "base/src/Module.cxx:822-929", "base/src/Port.cxx:194-218", "base/dabc/Port.h:130-137", "base/src/ModuleItem.cxx:156-182"]}
{"id": "C95", "title": "An asynchronous module forgets no data and no free place", "statement": "For a module which is connected and started once, with loop lengths below 2^31: whatever other threads do with a connection and whatever the module's ProcessRecv or ProcessSend does with its port: when the module waits and no event is on its way to it, its input queue is empty (its output queue is full) - unless ProcessRecv/ProcessSend last returned false and ActivateInput/ActivateOutput was not called since. When ProcessRecv is called, its first Recv returns the oldest buffer. One event leads to at most loop length + 1 calls.", "quantifier": "All capacities, loop lengths, all interleavings of operations of both sides with the loop of the module, all behaviours of the user methods, signalling kinds confirm and operation (bound: all kinds).", "why_tests_cant": "A lost wake-up needs one special interleaving of the signalling states of the queue with the loop, its cut-off and re-injected events; tests do not meet it.", "anchors": ["base/src/ModuleAsync.cxx: ProcessInputEvent, ProcessOutputEvent, ActivateInput, ActivateOutput", "base/src/Port.cxx: GetMaxLoopLength", "base/src/LocalTransport.cxx"]}
{"id": "C96", "title": "Blocking operations of a module with main loop wait as long as they have to", "statement": "Recv and WaitInput of a module with main loop block until there is data: an operation gives up only when more than its timeout has passed since the call; while it waits and there is data, an event is on its way to it, which makes Recv return the oldest buffer; Recv never returns a null buffer after it saw data; exceptions come only when they are configured. With the default timeout they block without limit, and StopUntilRestart blocks until the module is started again.", "quantifier": "All timeouts, capacities, all interleavings with other threads, all events processed in between (stop and start of the module, disconnect, other items).", "why_tests_cant": "Missed wake-ups need special interleavings (data before the start, stop while an event is queued); tests start the receiver first.", "anchors": ["base/src/ModuleSync.cxx: Recv, WaitInput, WaitItemEvent, ProcessItemEvent, StopUntilRestart", "base/src/Module.cxx: ProcessEvent", "base/dabc/ModuleSync.h"]}
{"id": "C97", "title": "Commands of a module with main loop are executed exactly once and in order", "statement": "A command given to a running module with main loop is stored and executed later by the main loop (ModuleWorking) or when the module is stopped; a module which is not running or has synchronous commands executes it at once. Every command is executed exactly once or waits; commands are executed in the order of their arrival; a stopped module has no waiting commands; the processing of commands uses no null pointer, also when the executed command itself processes events.", "quantifier": "All sequences of arriving commands, calls of ModuleWorking, ends of commands, stops and starts, nested in each other in every way.", "why_tests_cant": "The failures need a command which waits for events while the module is stopped, or a module which stops by itself while commands wait.", "anchors": ["base/src/ModuleSync.cxx: PreviewCommand, AsyncProcessCommands, ModuleWorking", "base/src/Module.cxx: Stop"]}
{"id": "C98", "title": "Events of module items are handled with the index of their item", "statement": "CreateInput, CreateOutput, CreatePoolHandle, CreateTimer and CreateUserItem return the index of an item with the given name, the same index for the same name, and change the index of no other item; names of one kind are unique. An event which is produced for the item with some index (ProduceInputEvent, ActivateInput, ActivatePool and so on) is handled by the function for this kind of items, with this index, and looks at this item - also after other items were removed. The timeout of the module serves the timer which was created for it.", "quantifier": "All sequences of creating and removing items of all kinds, all names.", "why_tests_cant": "Items are rarely removed during the life of a module, and only the item behind the removed one gets a wrong index.", "anchors": ["base/src/Module.cxx: CreateTimer, CreateUserItem, CreatePoolHandle, CreateInput, CreateOutput, AddModuleItem, RemoveModuleItem, ProduceInputEvent, ProcessTimeout", "base/src/ModuleAsync.cxx: ProcessItemEvent, ActivateInput, ActivateOutput, ActivatePool"]}
{"id": "C99", "title": "Averages, rates and utilisation are those of the measured values", "statement": "After Reset and any calls of Fill, Average gives the number, the mean, the smallest and largest value and the standard deviation of these values; the argument of the square root in Dev is never negative. Every value is counted in exactly the element of the histogram whose interval contains it, or in the element for too small or too large values. The rate of a Ratemeter is the size of the packets divided by the time, its points add up to the same size. The utilisation of a CPU is between 0 and 1 and is the part of the time which was not idle.", "quantifier": "All lists of values, all histograms, all sequences of packets, all counters.", "why_tests_cant": "The loss at the border of bins depends on the rounding mode and is only visible for exactly representable values.", "anchors": ["base/src/statistic.cxx: CpuStatistic::Measure, Ratemeter::Packet, Ratemeter::GetRate, Ratemeter::DoMeasure, Average::AllocateHist, Average::Reset, Average::Fill, Average::Dev", "base/dabc/statistic.h: Average::Mean"]}
{"id": "C100", "title": "A text input makes one event of every line with data", "statement": "mbs::TextInput delivers, for every line with data of its files behind the header, exactly one MBS event with the numbers of the line, in the order of the lines and with consecutive event numbers; blank lines are skipped, no other events are delivered, and after the last file the input ends.", "quantifier": "All lists of files, contents, numbers of header lines, numbers per line and sizes of buffers.", "why_tests_cant": "What happens at the end of a file depends on the last characters of the file and on the fill level of the buffer.", "anchors": ["plugins/mbs/src/TextInput.cxx: Read_Init, OpenNextFile, Read_Size, Read_Complete, FillRawData", "plugins/mbs/src/Iterator.cxx: WriteIterator::NewEvent, NewSubevent, Close"]}
{"id": "C101", "title": "The object iterator visits every object once, parents first", "statement": "Calls of Iterator::next give, over a tree which is not changed meanwhile, every object down to the maximal level exactly once, parents before their childs and childs in order; childs of an object for which next(false) was called are left out; then null is returned and the next call starts again. level() and parent() describe the objects above the current one.", "quantifier": "All trees, all maximal levels, all decisions to skip childs, all numbers of calls.", "why_tests_cant": "Tests see a few shapes of trees; skipping, levels and restart combine.", "anchors": ["base/src/Iterator.cxx: next, parent", "base/dabc/Iterator.h: level"]}
{"id": "C102", "title": "A synchronous call of a command returns the answer to the command", "statement": "Execute returns true only when the command was replied with a positive result; when the command is accepted, has no timeout and the call is not broken by halt or exception, Execute returns only after a reply and with its result. Once the call was informed of a reply it returns after a bounded number of steps and never sleeps; with a timeout it returns at most half a second after it, never before. After the return nobody uses the local variables of the call.", "quantifier": "All interleavings of the calling thread with any number of replies from other threads, other callers, all times, halts and exceptions.", "why_tests_cant": "The dangling write needs a reply in the window between taking the caller record and informing it, exactly when the timeout ends the call.", "anchors": ["base/src/Thread.cxx: RunCommandInTheThread, SingleLoop", "base/src/Worker.cxx: Execute, ExecuteIn, GetCommandReply", "base/src/Command.cxx: Reply, TimeTillTimeout"]}
{"id": "C103", "title": "Commands submitted to a worker are executed one at a time, in order, and answered once", "statement": "Every accepted command is at one place only and is executed at most once; commands whose sender does not wait are executed one at a time and in the order of their events; none stays postponed while the worker executes nothing; the end of an execution is replied once with its result; every submitted command is executed or replied.", "quantifier": "All sequences of submissions, events, nested executions, results, exceptions, and of the destruction of the worker.", "why_tests_cant": "Needs commands which arrive while others wait for events, and destruction with commands in the queue.", "anchors": ["base/src/Worker.cxx: ProcessCommand, ProcessCoreEvent, Submit, Execute, ObjectCleanup", "base/src/Object.cxx: DecReference"]}
{"id": "C104", "title": "Start and Stop of a thread do what they report", "statement": "Never two threads of the operating system execute one thread object; no thread is joined twice; no call hangs; when Stop returns true no thread executes the object any more; when Start returns true the thread is in its main loop, which goes on, and no old stop event waits for it.", "quantifier": "All sequences of calls of Start and Stop and all interleavings with the main loop, with any durations and timeouts.", "why_tests_cant": "Needs timeouts at certain moments, cancellation, repeated start, and calls from several threads at once.", "anchors": ["base/src/Thread.cxx: Start, Stop, RunnableCancelled, MainLoop, ProcessEvent", "base/src/threads.cxx: PosixThread::Start, Join, Kill, Cancel, StartTRunnable"]}
{"id": "C105", "title": "Affinity texts select the processors they describe", "statement": "A text of letters, a number, +K and -N select exactly the processors they describe; default and special processors are never the same; the text of GetAffinity and GetDfltAffinity never leaves the buffer, succeeds exactly when all used processors fit, and describes the same set when it is read again.", "quantifier": "All sets of processors, all texts, all buffer lengths, all answers of the operating system.", "why_tests_cant": "Depends on the number of processors and on the limits of the machine.", "anchors": ["base/src/threads.cxx: PosixThread::SetDfltAffinity, SetAffinity, GetDfltAffinity, GetAffinity"]}
{"id": "C106", "title": "A synchron timer keeps its schedule", "statement": "A timer in synchron mode with period p started at t makes its call number k (from 1) never before t + k p; a late call does not delay the following ones: the next call is due at t + (k+1) p; when the thread checks often enough no call is later than waiting time plus duration of the handler, for ever. A timer in normal mode keeps at least its period between two calls. A timer calls its module only between start and stop, every call is counted; ShootTimer of a timer without period causes one call; start after stop begins a new schedule.", "quantifier": "All periods, all durations of handlers, all times of checks, all sequences of start, stop and shots, also inside of handlers.", "why_tests_cant": "Drift shows only after long time, and restart effects depend on the delay before the stop.", "anchors": ["base/src/ModuleItem.cxx: Timer::DoStart, DoStop, ProcessTimeout", "base/dabc/Thread.h: TimeoutRec", "base/src/Module.cxx: DoStart, DoStop, ProcessTimeout", "base/dabc/Module.h: ShootTimer"]}
{"id": "C107", "title": "The output to an AQUA server makes lost buffers visible and keeps to the protocol", "statement": "The counter in the header of each packet is the number of buffers the output got before this buffer, whether they were sent, skipped or broken; counters increase; the output gives exactly one call-back for each buffer it starts to send and no error; attempts to connect are separated by more than the timeout; while the transport waits for a call-back, something can still happen which causes it.", "quantifier": "All sequences of buffers, completed and failed sending, closed connections, successful and failed attempts to connect.", "why_tests_cant": "Needs a server which comes and goes at certain moments.", "anchors": ["plugins/aqua/src/ClientOutput.cxx", "base/src/DataTransport.cxx: OutputTransport::ProcessEvent, ProcessRecv", "base/src/Factory.cxx: CreateTransport"]}
{"id": "C108", "title": "Reading events with a handle returns every event once, in order, and returns in time", "statement": "Successive calls of NextEvent of an MBS or HADES readout handle return the events of the source in their order; without a limit of the age none is missing; with a limit none is older than it, counted from when its buffer was taken from the queue; a call returns not later than its timeout, at once when an event is at hand and not without event before the timeout; the thread of the user and that of the module never use an iterator at the same time; several handles can be connected.", "quantifier": "All sequences of arriving buffers (MBS, HADES, other, end of data), input events, timer events, time steps and calls with any timeout and age, for both handles and any capacity of the queue.", "why_tests_cant": "Depends on when the input event of a buffer is processed with respect to the calls, and on delays of the thread of the module.", "anchors": ["plugins/mbs/src/api.cxx: ReadoutModule, ReadoutHandle, MonitorHandle::Connect", "plugins/hadaq/src/api.cxx: ReadoutModule, ReadoutHandle"]}
{"id": "C109", "title": "Records with slow control data are read as they were written", "statement": "SlowControlData::Write into a buffer which is large enough returns the number of bytes, a multiple of four, and changes only these; in a smaller buffer it changes nothing and returns 0; Read of the bytes, also when more bytes follow, gives the same event number, time, names and values in the same order. Whatever Read accepts has as many names as values; Read never reads outside of the given bytes. AddLong and AddDouble with check of duplicates replace the value of a known name and keep all others.", "quantifier": "All records (any names, any numbers of values) and all buffers, all bytes given to Read.", "why_tests_cant": "Formats with variable numbers of names and values; wrong input from files.", "anchors": ["plugins/mbs/mbs/SlowControlData.h"]}
{"id": "C110", "title": "Slow control events are produced once for each trigger, numbered in order, with the values which were read", "statement": "An EPICS input with a record for the flag produces exactly one event for each observed change of the flag, with the event number read then or with consecutive numbers, and submits one command for each change; without such a record every second round of reading gives an event and never two in a row. An event contains exactly the values which could be read. The monitors put the records into events numbered 1, 2, 3, ... without loss or repetition, never fill a buffer beyond its size, send no empty buffer and nothing while outputs are blocked, keep data not longer than the flush time when events are written and outputs are free, and write an event whenever the record fits and a buffer is available. An event of the FESA monitor has the last values reported since the event before.", "quantifier": "All sequences of flags, event numbers and reading errors; all reports of the library; all sequences of records, buffer sizes, times and states of the outputs; all sequences of reported values and timer calls.", "why_tests_cant": "Depends on reading errors and on when outputs are blocked.", "anchors": ["plugins/ezca/src/EpicsInput.cxx: Read_Size, Read_Complete", "plugins/mbs/src/MonitorSlowControl.cxx: SendDataToOutputs", "plugins/fesa/src/Monitor.cxx: ReportServiceChanged, GetRecRawSize, WriteRecRawData"]}
{"id": "C111", "title": "Timing events are delivered once, in order, with all overflows accounted", "statement": "The input for timing events of a White Rabbit receiver delivers every event which saftlib tells exactly once and in order, with the time of input conditions corrected and overflow numbers which add up to the number told; each MBS event has at least one timing event, exactly one in single mode, fits in its buffer and announces the size of its data; event numbers are consecutive; buffers are filled as far as possible. The transport waits for the call-back only while there are no events, the next event wakes it up, and it never gets into an error. A configuration with different numbers of ids, masks, offsets and flags is rejected, otherwise all conditions are registered.", "quantifier": "All interleavings of events, overflow messages and calls of the transport, in polling and call-back mode, with buffers of any sizes, single mode or not, for both formats; all configurations.", "why_tests_cant": "Depends on the interleaving of the saftlib thread with the transport and on how buffer sizes relate to the number of waiting events.", "anchors": ["plugins/saft/src/Input.cxx: Read_Init, Read_Size, Read_Start, Read_Complete, Write_Mbs, Write_Hadaq, SetupConditions, EventHandler, OverflowHandler", "base/src/DataTransport.cxx: InputTransport::Read_CallBack"]}
{"id": "C112", "title": "The parallel analysis sees every buffer once", "statement": "With parallel analysis modules every buffer taken from the input is given, in order, to exactly one module: the first one with the most free places in its queue, which is never overfilled; each module analyses its share in order and all counters agree. When data end with the end mark and the input stays connected until it is taken, histograms are summed up once, only after all data were analysed, and this point is always reached by steps of the modules alone. Violated when the input is disconnected earlier: the analysis may never end, or histograms miss data.", "quantifier": "all numbers of modules, all capacities, all sequences of buffers, all interleavings of the modules, the transport and the timer", "why_tests_cant": "needs particular interleavings of several threads, full queues and the timer", "anchors": ["plugins/stream/src/RunModule.cxx:470-597", "plugins/stream/src/RunModule.cxx:363-369", "base/src/Module.cxx:942-971"]}
{"id": "C113", "title": "Histograms of parallel modules are summed up", "statement": "When the parallel modules booked the same histograms the saved file has, for every value of every histogram, the sum over all modules, and the axes of the first one. A file is saved exactly when the names of the first module are found in the same order in all others. Booked histograms are empty, clearing empties all unprotected ones and keeps axes; numbers of entries add up. Violated: histograms with different sizes, additional ones and different ranges are not reported.", "quantifier": "all lists of items, all kinds of values with an addition, all numbers of modules", "why_tests_cant": "tests use few histograms booked by the same code", "anchors": ["plugins/stream/src/RunModule.cxx:259-325", "plugins/stream/src/DabcProcMgr.cxx:107-337"]}
{"id": "C114", "title": "MBS generator produces numbered events with the configured subevents", "statement": "mbs::GeneratorInput::Read_Complete fills a buffer with as many complete events as fit, with numbers one after another over all buffers; each has the configured number of subevents, with processor numbers and crates counted from the option procid (or the option fullid) and the configured size, and everything stays inside of the buffer. An incomplete event may follow at the end of a buffer; exactly for which buffer sizes is given. This is a deviation: the number of the incomplete event is used again for the first event in the next buffer.", "quantifier": "For all options, sizes of buffers and sequences of buffers.", "why_tests_cant": "Tests use one buffer size; with the default options and buffers of 64 kB the incomplete event just does not occur.", "anchors": ["plugins/mbs/src/GeneratorInput.cxx:39-130", "plugins/mbs/src/Iterator.cxx:205-254", "plugins/mbs/src/Iterator.cxx:304-446"]}
{"id": "C115", "title": "User readout delivers the bytes which were read", "statement": "user::Input together with dabc::InputTransport sends for each accepted trigger with successful readout one MBS event, numbered from 0, whose raw data are the bytes of the readout, and resets each trigger once, before or after the readout as configured; without a trigger it waits and keeps the buffer; it uses only memory of its buffer if the readout keeps to the configured size. Deviations: the trigger type is not in the event header, procid and control are exchanged, after a timeout of the readout nothing is sent any more, the default size is too small for the built-in readout.", "quantifier": "For all options, sequences of triggers and readouts.", "why_tests_cant": "The order of timeouts, skipped readouts and errors is decided by external hardware; the built-in example exercises one order.", "anchors": ["plugins/user/src/Input.cxx:25-191", "base/src/DataTransport.cxx:345-573"]}
{"id": "C116", "title": "DIM services are shown as they were sent", "statement": "dim::Monitor shows a service whose format lists items of the kinds I, F, D and C with numbers as fields fld0, fld1, ... with the values which the server sent (one value or a vector, texts up to the null byte), and a service with a single value as field value, which for numbers also goes to the slow control record; only memory of the service is read. Deviations: other kinds and a last item without number are dropped with all items behind them, and the number of bytes of the service is not looked at.", "quantifier": "For all services: lists of items, values, texts, ways to write the numbers in the format.", "why_tests_cant": "Formats come from other programs at run time.", "anchors": ["plugins/dim/src/Monitor.cxx:205-376"]}
{"id": "C117", "title": "Parameters in the query of a command arrive with their values", "statement": "When a published command is executed with a query (dabc::Publisher::CreateExeCmd), each option name=value becomes a parameter of the command: whole numbers as integers, texts in quotes as they are (also with & inside), lists of numbers in quotes as vectors, words as texts; of several with one name the last counts, other fields of the command stay, tmout sets the timeout. Deviations: the first option without value ends the parameters, a value with :// loses all of them, whole numbers are cut to 32 bits, words which begin with digits become numbers, numbers in lists have the precision of doubles.", "quantifier": "For all queries which are made of such options, all commands and all conversions of doubles.", "why_tests_cant": "Queries come from web clients; tests use few of them.", "anchors": ["base/src/Publisher.cxx:541-612", "base/src/Url.cxx:46-286", "base/dabc/Command.h:134-147"]}
{"id": "C118", "title": "Commands to MBS are sent one after the other and answered once", "statement": "The workers which send commands to MBS and to its prompter (mbs::DaqRemCmdWorker, mbs::PrompterWorker) answer every command at most once and in the order of submission; a record is sent for the commands which fit, in order and with their text, one at a time; a command succeeds exactly when the reply carries status 0 and, for MBS, the number of the record sent last, in either byte order; keep-alive records change nothing; numbers of records less than 0x7fff0000 apart differ; lost connections are opened again and the queue goes on. A client which waits for each reply gets the results MBS reports. Deviations: a reply does not start the next command in the queue, a command without connection ends the process, the prompter worker takes any record as reply, a host name longer than the send buffer overruns it.", "quantifier": "For all sequences of commands, records, lost connections and timeouts, all texts without zero bytes.", "why_tests_cant": "Depends on the order in which commands, replies and losses of the connection happen.", "anchors": ["plugins/mbs/src/Monitor.cxx:1198-1367", "plugins/mbs/src/Monitor.cxx:1371-1535", "plugins/mbs/mbs/Monitor.h:111-203"]}
{"id": "C119", "title": "Objects are told about the destruction of what they depend on", "statement": "An object which registered its dependency at the manager (RegisterDependency, in one or both directions) is told once (command ObjectDestroyed or direct call) when destruction of the target is requested, before the target and the other objects of the same turn are destroyed; nobody is told more often than registered, after the registration was taken back, or without a request that came after the registration. Objects handed to DestroyObject are destroyed in the order of the requests, and whenever some wait an event is on the way. After its turn the manager keeps no dependency and no receiver of parameter events of destroyed objects. Deviation: a dependency registered after the request is never served.", "quantifier": "For all sequences of calls from any threads and turns of the manager.", "why_tests_cant": "Depends on the interleaving of registrations, requests and the manager thread.", "anchors": ["base/src/Manager.cxx:60-78", "base/src/Manager.cxx:425-504", "base/src/Manager.cxx:1317-1361", "base/src/Manager.cxx:1493-1538"]}
{"id": "C120", "title": "The manager creates modules, devices and threads as asked", "statement": "Factories are asked in the order of their creation and the first one which knows the class makes the object. After a successful request the module or device can be found under its name, it is the only object with this name and runs in a thread of the class it requires. Threads have different names, a thread which can serve the class is used again, and others are left alone. A request which fails changes nothing.", "quantifier": "for all sets of factories, thread layouts, configured thread names and sequences of creation commands, with objects and threads disappearing at any time", "why_tests_cant": "tests have few factories, do not reuse names for other kinds of objects and never have a thousand threads with related names", "anchors": ["base/src/Manager.cxx:263-313", "base/src/Manager.cxx:697-739", "base/src/Manager.cxx:812-861", "base/src/Manager.cxx:884-999", "base/src/Manager.cxx:1127-1141", "base/src/Manager.cxx:1558-1587", "base/src/Manager.cxx:1899-1970", "base/src/Manager.cxx:1981-1993", "base/src/Worker.cxx:302-343", "base/src/Thread.cxx:428-433", "base/src/SocketThread.cxx:1130-1134"]}
{"id": "C121", "title": "The main loop runs until it is asked to stop and halts the application once", "statement": "The main loop of the manager runs as long as nobody asks to stop and the running time is not over. After a signal, a stop command or the end of the running time the application is asked to halt, exactly once. The loop is left when the application has answered, and in any case ten seconds after the request. Repeated Ctrl-C ends the process only ten seconds after the first.", "quantifier": "for all sequences of calls of the main loop, passes, signals, stop commands and replies of the application at arbitrary times", "why_tests_cant": "tests cannot produce all orders of signals, replies and passes nor wait for the timeouts", "anchors": ["base/src/Manager.cxx:1241-1243", "base/src/Manager.cxx:1303-1307", "base/src/Manager.cxx:1589-1627", "base/src/Manager.cxx:1631-1696", "base/dabc/timing.h:131-163"]}
{"id": "C122", "title": "Transports are created as url and configuration ask", "statement": "The command to create a transport takes its kind, or else the configured url of the port followed by the options in urlopt, urlopt1 and urlopt2. The complete url has the same protocol, host, port and file, and a transport finds every option in it, those of the url itself first. A device named by the url gets the command with the complete url, otherwise a port of this name is connected directly, otherwise the first factory which knows the url makes the transport, in the configured thread or the thread of the layout. Without port, factory or thread the command fails; without url the port is disconnected. Deviations: a url ending with a question mark gets a second one; the answer is true even if the port could not be connected to the new transport.", "quantifier": "for all urls, lists of options, devices, ports, factories and thread layouts", "why_tests_cant": "tests use a few urls and never all combinations of options, devices, ports and factories", "anchors": ["base/src/Manager.cxx:1000-1109", "base/src/Url.cxx:50-127"]}
{"id": "C123", "title": "Recalibration sends every buffer once with its events", "statement": "The module which recalibrates HADAQ events takes a buffer only when all outputs can accept one and, if results are written to new buffers, the pool has one. Buffers go out in the order of arrival, each at most once; those which were not taken stay in the input. Events are transformed in order; with enough room all of them are in the result, which never exceeds the buffer; buffers of other types pass unchanged. Deviations: when the transformation of an event fails, e.g. for lack of room, this and all following events of the buffer are lost, and nothing is sent if it is the first.", "quantifier": "for all sequences of arriving buffers and calls, all states of outputs and pool, and any transformation", "why_tests_cant": "tests use files whose events fit into the buffers and outputs which are always ready", "anchors": ["plugins/stream/src/RecalibrateModule.cxx:84-132", "plugins/stream/stream/RecalibrateModule.h:62-66", "base/src/Buffer.cxx:99-137", "base/src/Module.cxx:932-970"]}
{"id": "C124", "title": "TDC calibration sends every buffer once with its subevents", "statement": "The module which calibrates TDC data takes a buffer only when its output can accept one and, if results are written to new buffers, the pool has one. Buffers go out in the order of arrival, each at most once; those which were not taken stay in the input. Usable subevents (up to the first with a wrong size in each event or transport unit) are transformed in order, in place or into a new buffer, which is never exceeded; buffers of other types pass unchanged. Buffers whose usable subevents have the expected format and fit into a buffer of the pool are always processed. Deviations: a subevent larger than the rest of the new buffer ends the process; in emulation mode with new buffers the old content of the memory is sent; a subevent with a wrong size takes those behind it along.", "quantifier": "for all sequences of arriving buffers and calls, all states of output and pool, and any transformation", "why_tests_cant": "tests use data of one detector with well formed subevents and buffers which are large enough", "anchors": ["plugins/stream/src/TdcCalibrationModule.cxx:371-604", "plugins/stream/stream/TdcCalibrationModule.h:105-109", "base/src/Buffer.cxx:99-137", "base/src/LocalTransport.cxx:56-63"]}
{"id": "C125", "title": "The monitor of TrbNet registers sends events which can be read", "statement": "With every timer event the monitor reads all configured registers and sends one HADAQ event. A reader finds in it one subevent with the configured id and trigger type, the number of the event as trigger number, and for every register in the order of the configuration its address (with first addresses, also its first address) and value, most significant byte first. Events have consecutive numbers. Without buffer, or with one which is too small, nothing is sent and no number is used. Deviation: if the event fills the buffer completely it is sent without its subevent.", "quantifier": "for all lists of addresses, register values, buffer sizes and sequences of timer events", "why_tests_cant": "tests use one configuration and buffers which are much larger than the event", "anchors": ["plugins/hadaq/src/MonitorModule.cxx:28-66", "plugins/hadaq/src/MonitorModule.cxx:111-182", "plugins/hadaq/src/Iterator.cxx:291-425", "plugins/hadaq/hadaq/defines.h:148-193", "plugins/hadaq/hadaq/defines.h:274-290"]}
{"id": "C126", "title": "The profiler accounts the time of each section once", "statement": "While an active profiler is measured with a guard, every slot gets exactly the time of the periods which the guard spent in it, and all slots together the time from the construction of the guard to its end (or to the moment it enters a slot which does not exist). A slot keeps the first name given to it, and a profiler which is not active is not changed. A statistic after a statistic gives for each slot its time and the time since then, never zero, and starts the account from zero.", "quantifier": "for all numbers of slots, sequences of calls of Next with any names and levels, and values of the clock", "why_tests_cant": "tests cannot control the fast clock nor let it overflow", "anchors": ["base/dabc/Profiler.h:27-106", "base/src/Profiler.cxx:18-34"]}
{"id": "C127", "title": "Files written through one connection arrive complete and in order", "statement": "When RFIO options ask for a data mover, the file interface makes one connection, to the node in the name of the first file. All files written one after the other (open, write, close) arrive at the mover complete, under their names and in order, with nothing outside of a file; files which the mover refuses get no handle and send nothing. The connection is closed only, and once, by the destructor. Without these options every file has its own handle which is closed with it. The result of fwrite is the number of completely written elements.", "quantifier": "for all sequences of files, names, blocks of data and results of the library", "why_tests_cant": "tests need a data mover and cannot make it refuse arbitrary files", "anchors": ["plugins/rfio/src/FileInterface.cxx:11-206"]}
{"id": "C128", "title": "GOSIP commands are executed in order up to the first error", "statement": "The answer to CmdGosip has one element for every command. Commands are executed in order up to and including the first with an error; those behind are skipped and not executed. The program gets the numbers of link and device in place of the first adr (the address of all devices when one number is negative), and text which does not begin with a minus is an address which is read. A read command gives the number which the program prints, a write command is good when the program prints at most two characters, other options give no result.", "quantifier": "for all lists of commands, addresses of devices and outputs of the program", "why_tests_cant": "tests need the hardware and cannot make the program fail at every place", "anchors": ["plugins/gosip/src/Player.cxx:52-154", "base/src/string.cxx:162-181"]}
