# Formal model of hpc/hxhim: design

## Layout

* `lean/Verif/Base/`   byte strings, little-endian numbers, byte order, outcome type.
* `lean/Verif/Model/`  the model of the C++ code, one file per source area. Every definition cites
  the file and lines it models; simplifications are stated there.
* `lean/Verif/Spec/`   small specifications written without reference to the model's helpers.
* `lean/Verif/Proofs/` helper lemmas.
* `lean/Verif/Props/`  the property theorems, one file per group, each with `example`s that
  meet its hypotheses.
* `properties.jsonl`   the properties in English; `MANIFEST.json` maps them to theorems.
* `seeded/LOG.jsonl`   wrong-program experiments.

## Conventions

* Bytes are `UInt8`, byte strings `List UInt8`. Sizes are `Nat`; where the width matters (packing,
  integer encoding, hash arithmetic) the bound is an explicit hypothesis (`< 2^64`) or the
  arithmetic is done modulo 2^32.
* Undefined behaviour is an outcome: `Out.ok a | Out.err | Out.ub`. `err` is a reported error or a
  thrown exception, `ub` is a read/write outside an object, a null dereference, signed overflow,
  use after free, or decrementing `begin()`.
* A blob is (address, bytes, type). Address 0 is the null pointer.
* When a property is false of the code, the file contains a theorem `..._false` (or `..._ub`)
  giving a concrete witness, and a theorem with suffix `_partial` with the strongest statement
  that does hold; the gap is described below and in the manifest note.

## Plan per property

| id | modelled code | how it is proved |
|----|---------------|------------------|
| C01 | `sp_to_key`, `key_to_sp` | round trip by splitting the list from the end |
| C02 | `sp_to_key` | corollary of C01 (left inverse) |
| C03 | `elen::encode::unique/integers` | induction on the number of digits; comparison of digit strings |
| C04 | `elen::decode::integers` + transforms | decoder run step by step along the encoder's recursion |
| C05 | as C03 | the encoding is uniquely decodable from the front |
| C06 | C03 + C05 + key | lexicographic order of concatenations |
| C07 | `encode/decode::floating_point` on (sign, exponent, digits) | C03/C05 for the exponent; false for exponent code -9 |
| C08, C09 | `Packer`, `Unpacker`, `Blob::pack/unpack/pack_ref` | round trip per message kind, induction on items; null blobs are the counterexample |
| C10 | `Message::add` family against bytes written | induction on items |
| C11 | `Unpacker` with bounds-checked reads (`ub` on overrun) | from the round trip |
| C12 to C16 | `InMemory`, `LevelDB` B*Impl over an ordered map | refinement to `key -> option value` |
| C17 to C20 | `BGetOpImpl`, `BGetOp_copy_response`, error response | sorted association list, `ub` outcomes |
| C21 | `Transport::local::range_server`, B*Impl | map over items |
| C22, C23 | `RangeServer::*`, `Datastore::get_*`, `init::datastore` | div/mod arithmetic, induction on world size |
| C24 | `GetDatastoreLocation` | counterexample + partial for equal ratios |
| C25 | `hash.cpp` | direct; hash value abstract or modelled mod 2^32 |
| C26 to C28 | `PutImpl`, `get_packet`, `setup_packet` | invariants over call sequences |
| C29 to C31 | `process`, `Flush*`, local and remote transport | loop invariant; counterexample for shared ranks |
| C32 | async put thread as a transition system | inductive invariant over all interleavings |
| C33 to C35 | `Results` | induction on call sequences |
| C36 to C38 | `Configuration`, `config.cpp`, `options.cpp` | induction on lines/keys/calls |
| C39 to C41, C50, C52, C53 | life cycle functions, accessors | one function per call on the session; induction on call sequences |
| C42 to C45 | `Histogram`, histogram hooks of the datastore | induction on the added values |
| C46, C54 | `Blob` ownership and the programs made of blobs: queueing, packets, serving, results | heap of allocations, invariant over operation sequences; a checker on symbolic operations, sound for every interleaving of places |
| C47 | bulk calls | fold equals repeated single calls |
| C48 | ranks taking turns: queue, flush, range servers, datastores | invariant: every datastore agrees with the history on the pairs that hash to it |
| C61 | GETOPs of ranks taking turns, of flushes that overlap, and over MPI | a GETOP as a function of the sorted contents; each datastore holds exactly the triples that hash to it |
| C55 | flushes of several ranks that overlap: log of the executed requests in any order | each flush replayed on its part of the log; the invariant of C48 along the log; what a GET saw is a cut of each flush |
| C56 | MPI transport: clients, listener threads and messages as interleaved steps | invariant that relates a request to its messages and its listener; clients that wait form a cycle; a number that every step makes smaller |
| C62 | Thallium transport: clients, handlers, calls and shared buffers as interleaved steps | invariant that relates a request to its call and its buffers; every step makes a number smaller by one |
| C58 | the setters of `options.cpp` | options as named values, one case per setter; induction on the calls |
| C57 | flushes as rounds of packets over the MPI transport, all interleavings | what a flush sends does not depend on responses; the log of the transport, sorted per flush, is an execution of C55; what a rank receives unpacks to the results of that execution |
| C63 | the same over the Thallium transport | a finished execution over Thallium has the log and the results of one over MPI, to which the lemmas of C57 apply; C62 for memory and termination |
| C64 | `Sync` and `Close` by all ranks, listeners that stop, range servers that are destroyed, over both transports | places of the ranks around a network with a few laws; when one rank closes after a `Sync` all are idle; C56 and C62 for the rest |
| C65 | `get_addrs`: what every rank learns | concatenation of padded blocks, strings up to the first zero; the mismatch of counts as undefined behaviour |
| C66 | `mkdir_p` and any processes that add directories | steps that call `mkdir` once; at the loop head the names so far lead to something; names of a path up to a slash by `splitOn` |
| C67 | `vmlog`'s formatting, message buffer, `mlog_mbcopy`, `mlog_findmesgbuf` | invariant of the ring buffer (what it holds is the last bytes of all lines); the buffer on the stack by its prefix and its zero |
| C68 | `mlog_filter`, facilities, `mlog_setmasks`, `mlog_getmasks`, `mlog_open`, debug level of sessions | relation between the array with its spare slots and the list of facilities; parsing of what was printed; bits of masks by position |
| C69 | `small_decimals`, `large_decimals`, integers of one and two bytes, `lex_comp` (`elen.h`) | number of units of the last digit; the fraction of a number of the format is in the format, so that reading and printing a decimal again gives the same digits (ties by parity); errors of three roundings |
| C70 | two threads of a rank that send requests: when they do so at once (on the model of C32), the arrays of the MPI endpoint group, threads over Thallium | the loops of one call by induction, responses by counting the messages of each rank; interleavings as witnesses for arbitrary requests; C62 with several clients per rank |
| C71 | statistics of a datastore: events, `GetStats`, the messages of the destructor | events beside the model of C12, sums by induction over the history; the loop over the units by induction |
| C72 | statistics of a session: calls, packets, what is printed | statistics beside the models of C26 and C29; a conservation law by induction over the actions |
| C73 | the language of the command line program: lines, values, refusals | iostream extraction as total functions on bytes; a grammar of words apart from it; each reader reads its words wherever they stand |
| C74 | running commands and printing results; sessions end to end | turns of commands are turns of C48's jobs; lines by the cases of a result; numbers printed are read by C73's readers |
| C75 | LOWEST and HIGHEST on numbers; `examples/hxhim/lowest.c` | what a history of PUTs leaves under the attribute; keys of numbers lie above the key the search starts from and are ordered by C03 and C59; the array of cells by the last write to each index |
| C76 | as C48, with any writes failing | what was stored is read off the results; the results of one datastore are in the order of its packets, those of a turn are brought into the order of the calls |
| C77 | ranks with asynchronous PUTs that share range servers | the background threads of resting ranks change nothing; the rank whose turn it is stays in a stage of C32's sequence, whatever the others do; the sequence of stages is the turn of C48 |
| C78 | as C55, C57 and C63, with any writes failing | the invariant of C76 along the log of C55: what was stored is read off the results of the requests so far; what a flush was told is a permutation of what its requests did |
| C79 | GETOPs as C61, with any writes failing | the GETOP phase of a flush needs only what the datastores contain, which C76 and C78 read off the results |
| C80 | `hx.c` on any number of ranks gets back what it was told to be written | names are injective and bounded; the flushes of a rank come one after the other, so C78 explains its GETs by its own PUTs; doubles by C59 |
| C81 | ranks with asynchronous PUTs whose flushes overlap | a step uses a beginning of the responses it is given and does not look at the rest, so the steps of a turn are a run of C77 of one rank against the responses of the turn; numbering requests by turns gives the log of C55, to which C78 and C79 apply |
| C82 | histogram requests of jobs whose flushes overlap | the histograms of a datastore along the log of C55 are those at the start with the numbers of the answered PUTs (C44); the numbers of a flush in the log are those its results say (C78); C42 and the round trip of histograms in messages; over MPI and Thallium a histogram has at most as many numbers as PUTs were sent, so packing them never overflows |
| C83 | sessions one after the other on the same LevelDB directories | what is in a directory is a history of the pairs of the datastore with its number, whatever rank has it (C22, names: C41); opening gives the range servers of C78 that history to start with, closing gives it back; the logs of the sessions are put together to one log, to which the specification of C78 applies; datastores with and without the records of histograms answer alike, as long as nothing reads those records |
| C84 | floats and doubles through the typed functions, end to end | a PUT of a number is an operation of C48, C78 and C83 with the transformation of C59, so the object a GET returns is what decoding makes of the encoding; C59 says how close that is. What the functions queue is stated with types, sizes and values, bulk calls by the single calls |
| C85 | elapsed times | the difference of two counts modulo 2^64 is the difference of the times; `long double` is a format of C59's model with 15 bits of exponent and 63 of fraction, in which every number of 64 bits is exact, so only the division rounds. The line is read back word by word |
| C86 | time stamps of operations | packets are lists of items with an array of stamps beside them, and reading or writing outside of the array is UB; an invariant of the queue gives order and slots. The loop of the local range server is described after each answer. False for the rank itself and for MPI, for every request |
| C87 | what is done once in a process | a process is a phase of MPI, how often MPI was initialised and finalised, and the instance; calls MPI does not allow are UB. That each happens once is an invariant of all programs |
| C88 | buffers of many messages at once | a history is a list of operations, each with its message and place; for every message it has the operations of its program in order, and is arbitrary otherwise. Pairs of a message and a place are as many as places, so that a history is a program of one message, to which the check behind C46 and C54 applies place by place |
| C89 | lives of messages | a ledger of messages says how many were constructed, which are gone and which were freed without their destructor; destructing one that is gone is UB. What a flush has destructed is, as a multiset, what was queued and the numbers given out meanwhile |
| C90 | lives of results | memory says which results each list holds; using a list that is gone is UB. Counted: how often a result is in lists and how often it was destructed, together once for those made and never for others |
| C91 | chain of responses | which numbers the responses have follows from what becomes of each request; the chain is what one reads by following the `next` pointers from its head, which were set one by one. Reading through a null pointer is UB |
| C92 | objects of sends | how many objects a message has; which are left follows from whether all messages before it were sent. Deallocating one twice, or an index behind the end, is UB; deallocating null is not |
| C93 | lengths of responses | the servers from which both length and data can be received, each with its own length for the buffer and for unpacking |
| C94 | buffers of a listener | how many buffers a turn of the loop has; those left are the ones of requests that could not be received. Deallocating one twice is UB |
| C59 | `frexp10`, stream formatting and reading, `floating_point` on bit patterns | IEEE rounding as a monotone map to bit patterns; relative errors added up; the C library assumed accurate |
| C60 | the library's bucket generators | IEEE arithmetic on rationals; a monotone map to bit patterns; gaps between roots or logarithms of integers and the next integer |
| C49 | stats lists | counting along histories |
| C51 | `init::transform`, `default_callbacks` | lookup in a folded table |

## Modelled code

| area | model | source | left out |
|------|-------|--------|----------|
| composite keys | `Model/Key` | `src/datastore/triplestore.cpp` | |
| integers, floats | `Model/Elen`, `Model/Float`, `Model/Fp` | `include/utils/elen.tpp`, `include/datastore/transform.tpp`, `src/datastore/transform.cpp` | `log10` and `pow` of the C library (parameters); NaN payloads; stored forms that no encoder wrote |
| placement | `Model/Placement` | `src/datastore/datastore.cpp` (ids), `RangeServer.cpp`, `accessors.cpp` | |
| hash functions | `Model/Hash` | `src/hxhim/hash.cpp` | |
| messages | `Model/Message`, `Base/Wire` | `src/message/*`, `src/utils/Blob.cpp` (packing) | allocation failure |
| datastores | `Model/Store` | `src/datastore/{InMemory,LevelDB,RocksDB,datastore}.cpp`, `include/datastore/datastore.tpp`, local `RangeServer.hpp` | files, timing; RocksDB is LevelDB with other names |
| histograms | `Model/Histogram`, `Model/HistStore`, `Model/Buckets` | `src/utils/Histogram.cpp` (`add`, `insert`, packing, the library's bucket generators), `WriteHistograms`, `ReadHistograms`, `Open`, `Close`, `datastores.cpp` (histograms) | generators given by the user are parameters |
| queueing | `Model/Queue` | `src/hxhim/ops/*.cpp`, `src/hxhim/init.cpp` (queues) | locking (see asynchronous PUTs below), hash functions that read null pointers |
| results | `Model/Results` | `src/hxhim/Results.cpp`, `Blob::get`, `Histogram::get`, `get_name` | timestamps, ownership of the result nodes |
| flushing | `Model/Process` | `include/hxhim/private/process.hpp`, `src/hxhim/ops/FLUSH.cpp`, transports (`MPI/EndpointGroup.tpp`, `Thallium/EndpointGroup.cpp`, their `Init` and `RangeServer`) as routing plus pack and unpack | timeouts, the order in which responses of different ranks arrive (requests are executed one after the other, in an arbitrary order), MPI receives that do not match what was sent (`ub`) |
| configuration | `Model/Config`, `Model/Options`, `Model/Transform` | `src/utils/Configuration.cpp`, `include/utils/Configuration.hpp`, `src/hxhim/{config,options}.cpp`, `include/hxhim/config.hpp`, `init::transform` | the order of environment variables is arbitrary; allocation of configuration objects |
| life cycle | `Model/Session` | `src/hxhim/{hxhim,init,destroy,private,accessors}.cpp`, `ops/{SYNC,FLUSH,single_type}.cpp` | barriers, epoch, print buffer, statistics; the background thread runs only while it is waited for (justified by `C32_in_turn_partial` below the limit of queued PUTs) |
| asynchronous PUTs | `Model/Async` | `async_put_thread`, `wait_for_background_puts`, `FlushPuts`, `Put`, `BPut`, `Close` as two threads whose steps interleave | critical sections and calls of `process` are single steps; accesses to the unprotected `async_puts.results` that nothing orders are `ub`; `BPutSingleType`, which queues without the mutex; weak memory beyond that (`running` is atomic, all other shared data is protected) |
| a job | `Model/Job` | `Flush` (`src/hxhim/ops/FLUSH.cpp`) after queueing, by ranks that take turns, with the models above | flushes of different ranks that overlap in time (see below), asynchronous PUTs (next line) |
| a job with asynchronous PUTs | `Model/AsyncJob` | the threads of `Model/Async` of all ranks, which share the range servers and step in any order; ranks take turns | turns that overlap in time (next line) |
| the same with turns at the same time | `Model/AsyncOverlap` | the threads of `Model/Async` of each rank step with their own part of the log of `Model/Overlap`; a trace has the beginnings and ends of turns and the execution of requests in the order of time | two threads of a rank that step at once (C70) |
| overlapping flushes | `Model/Overlap` | the same with requests of different flushes executed in any order; a request is one step because of the datastore's mutex (`src/datastore/datastore.cpp:117-178`) | asynchronous PUTs; requests of one flush to different ranks are served in any order, also those of different rounds, which is more than can happen; responses that go to the wrong rank (see C56) |
| sessions one after the other | `Model/Sessions` | `src/datastore/datastores.cpp` (`Init`, `destroy`), `src/hxhim/init.cpp` (`datastore`), `LevelDB::OpenImpl` and `CloseImpl`; the contents of the LevelDB directories between sessions are a function of their names | one file system for all ranks; all sessions close their datastores; `ChangeDatastoreName`, `ChangeHash` and exact names during a session; two sessions at once, which LevelDB refuses |
| functions for floats and doubles | `Model/Typed` | `src/hxhim/ops/{float,double}.cpp`, `alloc_array` of `include/utils/memory.hpp` | a number is given by its bits and lies in memory with the low byte first; the C functions, which call the C++ functions, are not modelled apart |
| Elapsed times | `Model/Elapsed` | examples/hxhim/timestamps.{h,c}, hx.c:156-165, puts.c:61-135, src/utils/Stats.cpp:21-35, datastore.cpp:344-360 | `long double` is the format of x86; a steady clock counts nanoseconds in 64 bits; src/utils/elapsed.c is left out because the header it includes does not exist; `%.3Lf` only of numbers that are not negative |
| Time stamps | `Model/Stamps` | src/hxhim/ops/impl.cpp, src/message/Message.cpp, the `steal` functions of src/message, include/transport/backend/local/RangeServer.hpp, src/hxhim/Results.cpp:101-155, src/utils/Stats.cpp:69-80 | an operation or answer is one item instead of an entry in several arrays; whether a packet is too large is an input; stamps of the transport are left out |
| Instance of MPI | `Model/MpiInstance` | src/transport/backend/MPI/{Instance,EndpointBase}.cpp, src/utils/Stats.cpp:8-15 | what the library returns is an input and the same for every call; a variable of static storage starts with zeros; messages are left out |
| MPI messages | `Model/Mpi` | `return_msgs`, `parallel_send`, `parallel_recv`, `listener_thread`, `recv`, `send`, `Flush` as steps of clients and listeners; MPI as four ordered channels per pair of ranks, and a predicate for the messages the library copies | MPI errors, a second client thread on a rank; packets are abstract (their contents are C01-C12), the range server is a function |
| Thallium calls | `Model/Rpc` | `process_request`, `process_requests`, `RangeServer::process`, `RangeServer::cleanup` as steps of clients and handlers; calls that are answered once, memory of other ranks that is read and freed, addresses that are used again | the order in which Argobots schedules handlers (any order, any number at a time); failed calls, packing or unpacking (the answer after a failed unpacking lacks a value, `RangeServer.cpp:73`); the null response that is read for a debug message (`EndpointGroup.cpp:249`) |
| flushes over MPI and Thallium | `Model/MpiJob`, `Model/RpcJob`, `Model/Process` (`rounds`) | the requests of a flush as packets in rounds (`process`, `flushActs`), a listener or handler that unpacks, executes and packs, and what the client makes of the responses it receives; `Model/Mpi` or `Model/Rpc` in between | FIRST, LAST, LOWEST and HIGHEST and histograms whose bucket generator can fail are modelled, but not covered by the theorems; asynchronous PUTs; one client thread per rank |
| closing | `Model/Close` | `Close`, `Sync` (`src/hxhim/hxhim.cpp`, barriers and `running`), listeners of the MPI range server that end, messages to receives they leave behind, the Thallium range server that is destroyed and its engine finalized, around `Model/Mpi` and `Model/Rpc` | work done inside `Close` that involves one rank only (datastores, cache, C52 for the background thread); errors of barriers; ranks that call `Sync` or `Close` a different number of times |
| Thallium addresses | `Model/Addrs` | `get_addrs` (`src/transport/backend/Thallium/Utilities.cpp`) for all ranks together, with an `MPI_Allgather` that is strict or one that pads | errors of MPI functions |
| directories | `Model/Mkdir` | `mkdir_p` (`src/utils/mkdir_p.cpp`), one step for each `mkdir`; `mkdir(2)` on directories and files, `.` and `..`, errors of the system | links, permissions other than a refusal, limits on lengths, removal of directories |
| log | `Model/Mlog` | formatting, message buffer and what is printed (`src/utils/mlog2.c`), byte by byte | what `snprintf` makes of its arguments is given; the lock (one call after another); log file, sockets and syslog |
| log masks | `Model/MlogMask` | filter, facilities, masks as text and the log of the process (`src/utils/mlog2.c`, `include/utils/mlog2.h`) | memory for names is never exhausted; the log file and syslog; environment variables; C locale for `strcasecmp` |
| decimals | `Model/Decimals` | small and large decimals, integers of one and two bytes, `lex_comp` (`include/utils/elen.tpp`, `src/utils/elen.cpp`) | streams as in `Model/Fp`; `char` is signed; strings for C have no zeros |
| arrays of the MPI endpoint group | `Model/MpiGroup` | `return_msgs` and its loops (`include/transport/backend/MPI/EndpointGroup.tpp`) as instructions of one or two threads that share `lens`, `dsts` and `srvs` | instructions are atomic and `MPI_Isend` reads its buffer at once, so that the false theorems do not depend on torn reads; other shared data (`stats.used`, `stats.outgoing`); in C32 and C52 a call of `process` is one step, and C56, C57, C62 and C63 have one client thread per rank: their theorems apply to asynchronous PUTs as far as C70 keeps the threads apart |
| statistics of a datastore | `Model/DsStats` | `Stats::Event`, `GetStats`, `hr_size`, `~Datastore` (`src/datastore/datastore.cpp`), the events of `src/datastore/{InMemory,LevelDB}.cpp` | clocks and the bytes of GETOPs are arguments; DELETE events are never read; `long double`s are exact |
| statistics of a session | `Model/Stats` | `src/hxhim/Stats.cpp`, `include/hxhim/private/Stats.hpp`, the time stamps of `src/hxhim/ops/*.cpp` and `process.hpp` | times of calls are arguments, doubles are exact, one thread; the messages of `print_event_to_mlog` |
| reading commands | `Model/Cli` | `examples/hxhim/cli.cpp`: `input`, `parse_commands` and the tables of names | extraction as in libstdc++, "C" locale; messages are kept as reason and line; the program ends on the end of its input only |
| running commands | `Model/CliRun` | `examples/hxhim/cli.cpp`: `run_commands`, rank 0 of `main`; `examples/hxhim/print_results.c` | `printf` as in glibc; the list of commands stays in memory until `Close`; synchronous PUTs; other ranks, which only open and close |
| the lowest cells | `Model/Lowest` | `examples/hxhim/lowest.c`: `main` | the queues hold pointers to the cells, so what is sent is what the array holds at the flush; names fit their buffer; random temperatures are any doubles; no PUT is sent before the flush |
| doubles there and back | `Model/HxProgram`, `Model/SpoGen` | `examples/hxhim/hx.c`: `main`; `examples/hxhim/spo_gen.c` | what is printed; the doubles are any bytes; no PUT is sent before the flush; what `rand` gives is any number |
| ownership of blobs | `Model/Blob`, `Model/BlobUse` | `src/utils/{Blob,memory}.cpp`, `include/utils/memory.hpp`; what queueing, messages, packets, all backends (`encode`, `decode`, keys, values), range servers (the `steal` functions of responses included), and results do with blobs and buffers | contents of buffers; memory of messages (C89), results (C90) and arrays; what backends do inside; allocation failure; `steal` of requests, which nothing calls |
| messages mixed | `Model/BlobMany` | what threads of ranks and range servers do with blobs at the same time: src/hxhim/init.cpp:218-300, src/transport/backend/{Thallium,MPI}/RangeServer.cpp | operations on blobs are done one at a time; the allocator is safe for threads; all ranks share one memory with distinct addresses |
| lives of messages | `Model/Messages` | include/hxhim/private/process.hpp, src/hxhim/Results.cpp:233-241, src/hxhim/private.cpp:36-51, src/hxhim/init.cpp:233-261, src/hxhim/destroy.cpp:39-86, src/message/Messages.cpp, include/transport/backend/local/RangeServer.hpp, src/transport/backend/{Thallium,MPI}/RangeServer.cpp | contents of messages; how many responses a transport returns is an input; messages it constructs and does not return, and requests that cannot be unpacked, are left out; a map is a list in order of insertion |
| lives of results | `Model/ResultLists` | src/hxhim/Results.cpp:257-309, 779-788, src/hxhim/ops/FLUSH.cpp, src/hxhim/ops/SYNC.cpp, src/hxhim/init.cpp:261-271, src/hxhim/private.cpp:71-89, src/hxhim/destroy.cpp:39-51 | how many results `process` makes is an input; steps of the thread and of the user take turns (C32); GETOPs without a record (C54_getop_empty_false); PRINT_TIMESTAMPS off |
| chain of responses | `Model/ResponseChain` | src/transport/backend/Thallium/EndpointGroup.cpp:99-265, include/transport/backend/MPI/EndpointGroup.tpp:311-378, src/message/Messages.cpp, include/utils/mlog2.h:427-430 | what becomes of a request is an input; the range server always answers (`Model/Rpc`); for MPI only unpacking and linking of what was received, calls of MPI succeed and the session is not stopped meanwhile |
| objects of sends | `Model/SendRequests` | include/transport/backend/MPI/EndpointGroup.tpp:55-164 | what becomes of a message that was packed is an input; so is the order in which the sends that were started complete |
| lengths of responses | `Model/RecvLengths` | include/transport/backend/MPI/EndpointGroup.tpp:192-320 | which receives can be started is an input; those started complete; what is unpacked is not modelled, only the length it is unpacked with |
| buffers of a listener | `Model/ListenerBuffers` | src/transport/backend/MPI/RangeServer.cpp:46-152 | what becomes of a turn of the loop is an input; requests can be unpacked (`Model/Messages`) |

## Trusted base

* Lean 4 kernel and the axioms `propext`, `Classical.choice`, `Quot.sound`. No other axioms.
* The reading of the C++ code: the model was written by hand from the source, which was not run.
* Behaviour of the standard library and of third-party code is assumed, not modelled:
  `std::map` is an ordered map under unsigned byte order; LevelDB/RocksDB `WriteBatch` applies its
  entries in order and atomically, their iterators walk the keys in byte order; a directory that was closed and is opened again has what was written; MPI and Thallium
  deliver a byte buffer unchanged; memory of another rank can be read through a `thallium::bulk` as long as
  it is allocated, although the range server destroys its own copy of the handle before (`RangeServer.cpp:95-99`); `std::to_string`/`operator>>` on integers are decimal;
  `float` and `double` are IEEE 754 with rounding to nearest even, without extended precision; printing and reading decimal
  fractions is correctly rounded. `log10` and `pow(10, n)` are parameters of the model with the assumptions of `LibmOk`,
  `sqrt`, `cbrt`, `log` and `log2` on `double`s with those of `MathOk`.
* Not modelled: `PRINT_TIMESTAMPS`, where messages are logged, memory exhaustion, big-endian hosts, file system effects.
