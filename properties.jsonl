{"id": "C01", "title": "A stored key gives back its subject and predicate", "statement": "The key under which a (subject, predicate) pair is stored can always be taken apart again into exactly the same subject bytes, predicate bytes, subject type and predicate type, whatever the bytes contain (embedded 0xff, embedded zeros, empty values).", "quantifier": "all subject byte strings and predicate byte strings shorter than 2^64 bytes, all data types below 256", "why_tests_cant": "the key has no escape characters, so correctness rests on reading a fixed-size trailer from the end; tests only try a few fixed strings", "anchors": ["src/datastore/triplestore.cpp:sp_to_key", "src/datastore/triplestore.cpp:key_to_sp"]}
{"id": "C02", "title": "Different subject/predicate pairs never share a key", "statement": "Two PUTs land on the same stored record only if they have the same subject bytes, predicate bytes, subject type and predicate type; in particular moving bytes between the end of the subject and the start of the predicate gives a different record.", "quantifier": "all pairs of (subject, predicate) pairs", "why_tests_cant": "an unbounded pairwise claim; a collision silently overwrites another user's triple", "anchors": ["src/datastore/triplestore.cpp:sp_to_key"]}
{"id": "C03", "title": "Integer keys scan in numeric order", "statement": "The stored form of integer subjects and predicates sorts, byte by byte, in the same order as the numbers themselves, for signed and unsigned 32 and 64 bit values.", "quantifier": "all pairs of integers representable in the type, all sign symbols ordered around the digits", "why_tests_cant": "2^128 pairs; the encoding is recursive in the number of digits", "anchors": ["include/utils/elen.tpp:encode::unique", "include/utils/elen.tpp:encode::integers", "include/datastore/transform.tpp:encode::integers"]}
{"id": "C04", "title": "Integer subjects, predicates and objects survive storage", "statement": "An integer that is stored and read back comes back as the same integer of the same width.", "quantifier": "all 32 and 64 bit signed and unsigned integers", "why_tests_cant": "2^64 values, with a variable-depth length prefix", "anchors": ["include/utils/elen.tpp:encode::integers", "include/utils/elen.tpp:decode::integers", "include/datastore/transform.tpp"]}
{"id": "C05", "title": "No stored integer is a prefix of another", "statement": "The stored form of one integer is never a proper prefix of the stored form of a different integer, so what follows it in a composite key cannot change the order of two numeric subjects or predicates.", "quantifier": "all pairs of integers", "why_tests_cant": "pairwise claim over an unbounded set", "anchors": ["include/utils/elen.tpp:encode::unique"]}
{"id": "C06", "title": "Records of one subject with integer predicates are scanned in numeric predicate order", "statement": "For one subject, the full stored keys of records whose predicates are integers of one type are ordered exactly as the predicates are ordered numerically.", "quantifier": "all subjects, all pairs of integer predicates", "why_tests_cant": "composition of the integer encoding with the composite key format over all values", "anchors": ["src/datastore/triplestore.cpp:sp_to_key", "include/utils/elen.tpp:encode::integers"]}
{"id": "C07", "title": "Floating point keys scan in numeric order and decode to what was encoded", "statement": "The stored form of a float or double subject or predicate sorts in numeric order of (sign, decimal exponent, rounded digits), and reading the key back yields the sign, exponent and digits that were written.", "quantifier": "all signs, decimal exponents and digit strings the encoder can produce", "why_tests_cant": "the set of exponents and digit strings is unbounded for the encoder; tests use a handful of values", "anchors": ["include/utils/elen.tpp:encode::floating_point", "include/utils/elen.tpp:decode::floating_point"]}
{"id": "C08", "title": "Requests survive the wire", "statement": "A PUT, GET, GETOP, DELETE or HISTOGRAM request that is packed by the client and unpacked by the server has the same operations, in the same order, with the same subjects, predicates, objects, types, record counts and client addresses.", "quantifier": "all requests of every kind with any number of operations of any size", "why_tests_cant": "arbitrary length packets with binary contents; no length or checksum in the format to fall back on", "anchors": ["src/message/Packer.cpp", "src/message/Unpacker.cpp", "src/utils/Blob.cpp"]}
{"id": "C09", "title": "Responses survive the wire", "statement": "A response packed by the server and unpacked by the client carries the same statuses, client addresses, records, objects and histograms in the same order.", "quantifier": "all responses of every kind, any mixture of successful and failed operations", "why_tests_cant": "the layout of each item depends on its status, so every mixture is a different layout", "anchors": ["src/message/Packer.cpp", "src/message/Unpacker.cpp"]}
{"id": "C10", "title": "Packing never writes past the buffer", "statement": "The number of bytes written when a request or response is packed never exceeds the size the message reported before packing, which is the size of the buffer that was allocated.", "quantifier": "all messages built through the message interface, including responses merged from several servers", "why_tests_cant": "the size is accumulated incrementally by different code than the code that writes the bytes", "anchors": ["src/message/Message.cpp:add", "src/message/BPut.cpp", "src/message/BGet.cpp", "src/message/BGetOp.cpp", "src/message/BDelete.cpp", "src/message/BHistogram.cpp", "src/message/Packer.cpp"]}
{"id": "C11", "title": "Unpacking consumes exactly what was packed and never reads past it", "statement": "Unpacking a packet that was produced by packing never reads outside the packet, and a packet of the wrong direction or of an unknown operation is rejected rather than interpreted.", "quantifier": "all packets produced by the packer, all header values", "why_tests_cant": "out-of-bounds reads depend on the data-dependent lengths inside the packet", "anchors": ["src/message/Unpacker.cpp"]}
{"id": "C12", "title": "The last successful PUT decides what GET returns", "statement": "On one datastore, after any history of PUT, GET, GETOP and DELETE packets, a GET returns success exactly when the pair has been PUT and not DELETEd since, and then returns the object bytes and object type of the most recent PUT for that pair; operations on other pairs do not matter.", "quantifier": "all histories of bulk operations, all keys, all objects, duplicates within one packet included", "why_tests_cant": "unbounded histories", "anchors": ["src/datastore/InMemory.cpp:BPutImpl", "src/datastore/InMemory.cpp:BGetImpl", "src/datastore/InMemory.cpp:BDeleteImpl", "src/datastore/LevelDB.cpp", "src/datastore/RocksDB.cpp"]}
{"id": "C13", "title": "The result of GET does not depend on which backend is used", "statement": "The in-memory, LevelDB and RocksDB datastores give the same answers (status, object, type, records) to the same history of operations.", "quantifier": "all histories of bulk operations", "why_tests_cant": "equivalence over unbounded histories", "anchors": ["src/datastore/InMemory.cpp", "src/datastore/LevelDB.cpp", "src/datastore/RocksDB.cpp"]}
{"id": "C14", "title": "A PUT reported successful is stored, a PUT reported failed changes nothing", "statement": "A PUT result is SUCCESS exactly when the triple is now in the datastore, and a failed PUT leaves every record as it was.", "quantifier": "all datastore states, all packets, all data types including unregistered ones", "why_tests_cant": "requires every combination of valid and invalid items within one packet", "anchors": ["src/datastore/InMemory.cpp:BPutImpl", "src/datastore/LevelDB.cpp:BPutImpl", "src/datastore/datastore.cpp:encode"]}
{"id": "C15", "title": "DELETE removes exactly the named record and reports whether it was there", "statement": "After DELETE of a pair, GET of that pair fails and every other record is unchanged; the status is SUCCESS exactly when the record existed.", "quantifier": "all datastore states and packets", "why_tests_cant": "unbounded states; frame condition over all other keys", "anchors": ["src/datastore/InMemory.cpp:BDeleteImpl", "src/datastore/LevelDB.cpp:BDeleteImpl"]}
{"id": "C16", "title": "GETs do not change the datastore", "statement": "GET, GETOP and HISTOGRAM requests, successful or not, leave the stored records as they were.", "quantifier": "all datastore states, all packets", "why_tests_cant": "frame condition over all states", "anchors": ["src/datastore/InMemory.cpp:BGetImpl", "src/datastore/InMemory.cpp:BGetOpImpl", "src/datastore/datastore.cpp:operate"]}
{"id": "C17", "title": "GETOP FIRST and LAST return the ends of the datastore in order", "statement": "GETOP FIRST with n records returns the min(n, total) smallest records in ascending key order, and LAST the min(n, total) largest in descending key order, each record with the subject, predicate and object that were PUT; on an empty datastore they report an error.", "quantifier": "all datastore states, all n", "why_tests_cant": "unbounded states and record counts", "anchors": ["src/datastore/InMemory.cpp:BGetOpImpl", "src/datastore/LevelDB.cpp:BGetOpImpl", "include/datastore/datastore.tpp:BGetOp_copy_response"]}
{"id": "C18", "title": "GETOP EQ, NEXT and PREV start at the requested pair", "statement": "GETOP EQ returns only a record with the requested subject and predicate; NEXT and PREV return the requested record followed by its successors (predecessors) in key order, at most n records.", "quantifier": "all datastore states, all subjects, predicates and n", "why_tests_cant": "whether another record sorts between the search key and the record depends on the whole datastore contents", "anchors": ["src/datastore/InMemory.cpp:BGetOpImpl", "src/datastore/LevelDB.cpp:BGetOpImpl"]}
{"id": "C19", "title": "GETOP LOWEST and HIGHEST return the extreme records of a prefix", "statement": "GETOP LOWEST (HIGHEST) with n records returns the n lowest (highest) records whose stored key starts with the given subject and (possibly empty) predicate.", "quantifier": "all datastore states, all prefixes, all n", "why_tests_cant": "depends on every record that sorts before and after the prefix", "anchors": ["src/datastore/InMemory.cpp:BGetOpImpl", "src/datastore/datastore.cpp:BGetOp_get_seek"]}
{"id": "C20", "title": "GETOP never returns more records than asked for", "statement": "A GETOP for n records returns at most n records, and never touches memory outside the response it allocated for n records.", "quantifier": "all datastore states, all n including 0, all operations", "why_tests_cant": "the array is sized from the request and indexed by the loop; the error path adds one more record", "anchors": ["src/datastore/datastore.cpp:BGetOp_loop_init", "src/datastore/datastore.cpp:BGetOp_error_response", "include/datastore/datastore.tpp"]}
{"id": "C21", "title": "One response per operation, in request order", "statement": "A server's response to a packet has exactly one entry per operation of the packet, in the same order, and entry i carries the addresses and lengths of the subject and predicate the client passed to operation i.", "quantifier": "all packets, all datastore states, every operation kind", "why_tests_cant": "arbitrary packet sizes and failure mixtures", "anchors": ["include/transport/backend/local/RangeServer.hpp", "src/datastore/InMemory.cpp", "src/message/SubjectPredicate.cpp"]}
{"id": "C22", "title": "Every datastore lives on exactly one rank and every server rank is used", "statement": "For every client:server ratio, datastores-per-server and world size, datastore ids 0..total-1 correspond one to one to (server rank, offset) pairs: id to location and location to id are inverse, every location is a rank of the job that is a range server, and every range-server rank has exactly datastores-per-server datastores.", "quantifier": "all ratios, all world sizes, all ids", "why_tests_cant": "three free parameters with partial last blocks", "anchors": ["src/hxhim/RangeServer.cpp", "src/hxhim/Datastore.cpp", "src/hxhim/init.cpp:datastore"]}
{"id": "C23", "title": "The reported number of range servers and datastores is right", "statement": "GetRangeServerCount is the number of ranks of the job that act as range servers, and GetDatastoreCount is that number times the datastores per server.", "quantifier": "all ratios and world sizes", "why_tests_cant": "closed formula against a count over all ranks", "anchors": ["src/hxhim/init.cpp:datastore", "src/hxhim/RangeServer.cpp:is_range_server", "src/hxhim/accessors.cpp"]}
{"id": "C24", "title": "GetDatastoreLocation tells where a datastore is", "statement": "GetDatastoreLocation returns, for every datastore id of the session, the rank and offset of the datastore that serves requests hashed to that id.", "quantifier": "all ratios, world sizes, ids", "why_tests_cant": "wrong arguments happen to give the right answer for the ratios used in tests", "anchors": ["src/hxhim/accessors.cpp:GetDatastoreLocation"]}
{"id": "C25", "title": "Placement is a function of the pair and stays in range", "statement": "The built-in hash functions send equal (subject, predicate) byte strings to the same datastore whichever rank asks, and always choose an existing datastore.", "quantifier": "all byte strings, all datastore counts, all ranks", "why_tests_cant": "all inputs; out-of-range choice would be an out-of-bounds write", "anchors": ["src/hxhim/hash.cpp"]}
{"id": "C26", "title": "PUT queues exactly the requested permutations", "statement": "A PUT with a permutation mask queues one triple for each requested ordering of (subject, predicate, object), with the roles exchanged as the name of the ordering says, and nothing else.", "quantifier": "all 64 masks, all triples", "why_tests_cant": "combination of masks with packet boundaries and hash failures", "anchors": ["src/hxhim/ops/impl.cpp:PutImpl", "include/hxhim/constants.h"]}
{"id": "C27", "title": "Queued operations keep their order and none is lost or duplicated before flushing", "statement": "For each datastore, the operations in the queued packets, read packet by packet, are exactly the operations queued for it in the order the calls were made, and no packet holds more operations than configured.", "quantifier": "all sequences of calls, all limits", "why_tests_cant": "unbounded sequences of calls", "anchors": ["src/hxhim/ops/impl.cpp:setup_packet", "src/hxhim/ops/impl.cpp:get_packet"]}
{"id": "C28", "title": "Packets stay within the configured maximum size", "statement": "No packet that is sent is larger than the configured maximum request size.", "quantifier": "all sequences of calls, all sizes", "why_tests_cant": "depends on the accumulated sizes of everything queued", "anchors": ["src/hxhim/ops/impl.cpp:setup_packet", "src/message/SubjectPredicate.cpp:add"]}
{"id": "C29", "title": "Flush delivers every queued operation exactly once and terminates", "statement": "Flushing sends each queued packet to the datastore it was queued for exactly once, in queue order per datastore, leaves the queue empty, and returns one result per queued operation.", "quantifier": "all queue contents, all placements of datastores on ranks", "why_tests_cant": "unbounded queues and all placements, including several datastores on one remote rank", "anchors": ["include/hxhim/private/process.hpp:process", "src/hxhim/ops/FLUSH.cpp"]}
{"id": "C30", "title": "Flush runs PUTs, then GETs, then GETOPs, then DELETEs", "statement": "Within one Flush, queued PUTs take effect before queued GETs and GETOPs are evaluated, and those before queued DELETEs take effect, whatever order they were queued in.", "quantifier": "all interleavings of queued operations", "why_tests_cant": "all interleavings", "anchors": ["src/hxhim/ops/FLUSH.cpp:Flush"]}
{"id": "C31", "title": "Local and remote execution give the same results", "statement": "The results of an operation are the same whether its datastore is on the calling rank or on another rank (request packed, unpacked, executed, response packed, unpacked).", "quantifier": "all packets, all datastore states", "why_tests_cant": "composition of four encoders over all messages", "anchors": ["include/hxhim/private/process.hpp", "include/transport/backend/local/RangeServer.hpp", "src/message/Packer.cpp", "src/message/Unpacker.cpp"]}
{"id": "C32", "title": "Background PUTs lose and duplicate nothing under any schedule", "statement": "With asynchronous PUTs enabled, for every interleaving of the background thread with user calls, every queued PUT is sent exactly once and its result is returned by exactly one FlushPuts.", "quantifier": "all interleavings of the PUT, FlushPuts and Close calls with the background thread", "why_tests_cant": "schedules cannot be enumerated by running", "anchors": ["src/hxhim/init.cpp:async_put_thread", "src/hxhim/private.cpp:wait_for_background_puts", "src/hxhim/ops/FLUSH.cpp:FlushPuts"]}
{"id": "C33", "title": "The results iterator visits each result once in order", "statement": "GoToHead followed by GoToNext until the iterator is invalid visits every result exactly once in the order they were added, Size equals the number visited, and accessors fail when the iterator is invalid.", "quantifier": "all result lists, all sequences of iterator calls and additions", "why_tests_cant": "stateful iterator under arbitrary call sequences", "anchors": ["src/hxhim/Results.cpp"]}
{"id": "C34", "title": "Result accessors return the right field or an error", "statement": "Subject and Predicate succeed exactly for PUT, GET, GETOP and DELETE results, Object exactly for successful GET and GETOP results, Histogram exactly for histogram results, and a failed accessor leaves the caller's variables alone.", "quantifier": "all results, all optional-pointer combinations", "why_tests_cant": "combinations of operation, status and null out-parameters", "anchors": ["src/hxhim/Results.cpp"]}
{"id": "C35", "title": "Each response entry becomes a result with the right status", "statement": "A client result has status SUCCESS exactly when the datastore reported success for that operation; a GETOP that returned k records gives k results in record order.", "quantifier": "all responses, all k including 0", "why_tests_cant": "all k; the k = 0 path is not exercised", "anchors": ["src/hxhim/Results.cpp:Result::init"]}
{"id": "C36", "title": "Configuration sources override in order", "statement": "A configuration key takes the value of the last source that defines it; keys that no source defines keep the default; comments and surrounding blanks do not change values.", "quantifier": "all sets of key/value lines in all sources", "why_tests_cant": "arbitrary text input", "anchors": ["src/utils/Configuration.cpp", "src/hxhim/config.cpp:default_reader"]}
{"id": "C37", "title": "A partial user configuration only changes the options it mentions", "statement": "A user configuration that sets some options leaves all other options at their defaults and applies all the options it sets.", "quantifier": "all subsets of configuration keys", "why_tests_cant": "2^n subsets of keys", "anchors": ["src/hxhim/config.cpp:fill_options", "src/hxhim/config.cpp:default_reader"]}
{"id": "C38", "title": "Options cannot change under a running session and bad values are refused", "statement": "Every option setter fails and changes nothing once the session is open, and refuses ratios and counts of zero, so that an open session always has positive ratios and datastore counts.", "quantifier": "all sequences of setter calls, all values", "why_tests_cant": "all call sequences", "anchors": ["src/hxhim/options.cpp"]}
{"id": "C39", "title": "Operations are refused before Open and after Close", "statement": "Every queueing, flushing and accessor call on a session that is not open returns an error (or a null result) and queues nothing.", "quantifier": "all call sequences over the life cycle", "why_tests_cant": "all life-cycle histories", "anchors": ["src/hxhim/private.cpp:started", "src/hxhim/hxhim.cpp", "src/hxhim/ops"]}
{"id": "C40", "title": "Close does not lose queued operations", "statement": "Operations queued before Close are executed before the session shuts down.", "quantifier": "all queue contents at Close", "why_tests_cant": "a lost write is only visible in a later session", "anchors": ["src/hxhim/hxhim.cpp:Close", "src/hxhim/ops/SYNC.cpp"]}
{"id": "C41", "title": "Changing the hash or name gives every datastore its own storage", "statement": "After ChangeHash or ChangeDatastoreName, distinct datastores have distinct storage names, and the name identifies the datastore id.", "quantifier": "all ratios, world sizes, ranks and offsets", "why_tests_cant": "the collision only appears with several datastores", "anchors": ["src/hxhim/hxhim.cpp:ChangeHash", "src/hxhim/hxhim.cpp:ChangeDatastoreName", "src/datastore/datastores.cpp:generate_name"]}
{"id": "C42", "title": "Histogram counts add up", "statement": "A histogram's bucket counts sum to the number of values added once enough values have arrived to generate buckets, and every value is counted in the bucket whose range contains it.", "quantifier": "all sequences of values, all bucket generators that return ascending boundaries", "why_tests_cant": "all sequences; values below the first boundary are rare in tests", "anchors": ["src/utils/Histogram.cpp:add", "src/utils/Histogram.cpp:insert"]}
{"id": "C43", "title": "Histograms survive packing, writing and reopening", "statement": "A histogram that is packed and unpacked, or written to a datastore and read back, has the same name, number of values, cached values, boundaries and counts.", "quantifier": "all histogram states reachable by adding values", "why_tests_cant": "layout depends on whether the buckets exist yet", "anchors": ["src/utils/Histogram.cpp:pack", "src/utils/Histogram.cpp:unpack", "src/datastore/InMemory.cpp:WriteHistogramsImpl", "src/datastore/InMemory.cpp:ReadHistogramsImpl"]}
{"id": "C44", "title": "A tracked predicate's histogram counts exactly the successful numeric PUTs", "statement": "After any history, the histogram of a tracked predicate holds exactly the float and double objects of the PUTs with that predicate that were reported successful, in order.", "quantifier": "all histories of packets", "why_tests_cant": "unbounded histories", "anchors": ["src/datastore/datastore.cpp:operate"]}
{"id": "C45", "title": "Histograms do not interfere with user data", "statement": "Writing histograms to a datastore changes no user record, and no GET or GETOP returns a histogram record as user data.", "quantifier": "all datastore states and histogram names", "why_tests_cant": "depends on all possible user keys", "anchors": ["src/datastore/datastore.cpp:HISTOGRAM_SUBJECT", "src/datastore/InMemory.cpp:WriteHistogramsImpl"]}
{"id": "C46", "title": "A buffer is freed exactly once by its owner", "statement": "Whatever sequence of copies, moves, assignments and destructions of data blobs the library performs, a buffer owned by a blob is freed exactly once, after its last owner is gone, and buffers passed in by the user are never freed.", "quantifier": "all sequences of blob operations", "why_tests_cant": "memory errors depend on the exact sequence", "anchors": ["src/utils/Blob.cpp", "include/utils/Blob.hpp"]}
{"id": "C47", "title": "Bulk calls behave like the same sequence of single calls", "statement": "BPut, BGet, BGetOp and BDelete with n items queue exactly what n single calls would queue, and the single-type variants likewise.", "quantifier": "all item lists", "why_tests_cant": "all lengths and argument mixtures", "anchors": ["src/hxhim/ops/BPUT.cpp", "src/hxhim/ops/BGET.cpp", "src/hxhim/ops/BGETOP.cpp", "src/hxhim/ops/BDELETE.cpp", "src/hxhim/ops/single_type.cpp"]}
{"id": "C48", "title": "End to end: what one rank PUTs, any rank can GET", "statement": "After rank A queues PUTs and flushes, a GET of one of those pairs by any rank B, flushed later with no intervening PUT or DELETE of that pair, returns the object of the last PUT of that pair.", "quantifier": "all ranks, ratios, hash functions that depend only on the pair, and all sequences of PUTs", "why_tests_cant": "composition of every layer over all inputs", "anchors": ["src/hxhim/ops/impl.cpp", "include/hxhim/private/process.hpp", "src/datastore/InMemory.cpp", "src/hxhim/hash.cpp"]}
{"id": "C49", "title": "Statistics count what happened", "statement": "A datastore's PUT and GET event counts increase by one per processed packet (per GETOP item) and never otherwise.", "quantifier": "all histories", "why_tests_cant": "unbounded histories", "anchors": ["src/datastore/datastore.cpp:GetStats", "src/datastore/InMemory.cpp"]}
{"id": "C50", "title": "OpenOne opens the named datastore", "statement": "OpenOne on a single-rank job opens a session whose only datastore is the named one, and operations on it work.", "quantifier": "all paths and prior configurations", "why_tests_cant": "all configurations preceding the call", "anchors": ["src/hxhim/hxhim.cpp:OpenOne", "src/hxhim/init.cpp:one_datastore"]}
{"id": "C51", "title": "User transforms are used", "statement": "Once hxhim_set_transform_function has succeeded for a data type, the datastores opened afterwards encode and decode values of that type with the functions of the last such call.", "quantifier": "all data types, all sequences of setter calls", "why_tests_cant": "all types and call sequences", "anchors": ["src/hxhim/options.cpp:hxhim_set_transform_function", "src/hxhim/init.cpp:transform", "src/datastore/transform.cpp:default_callbacks"]}
{"id": "C52", "title": "Life cycle calls report what they did", "statement": "Open returns success exactly when the session is open afterwards, and Close exactly when there was a session to close. Neither Open nor Close has undefined behaviour, in whatever order they are called and whatever failed before.", "quantifier": "all sessions, configurations, failures of MPI, transport and datastores, and orders of the calls", "why_tests_cant": "needs failures at every stage of Open and all orders of the calls", "anchors": ["src/hxhim/hxhim.cpp:Open", "src/hxhim/hxhim.cpp:Close", "src/hxhim/init.cpp", "src/hxhim/destroy.cpp"]}
{"id": "C53", "title": "Accessors of an open session report its parameters", "statement": "While a session is open, the accessors return the rank and size of its communicator, the counts that follow from its ratios, its ratios, and the name, function and argument of the hash function in use, whatever calls were made since Open.", "quantifier": "all configurations, all sequences of calls on the open session", "why_tests_cant": "all configurations and call sequences", "anchors": ["src/hxhim/accessors.cpp", "src/hxhim/hxhim.cpp:ChangeHash", "src/hxhim/init.cpp"]}
{"id": "C54", "title": "No buffer is used after it was freed", "statement": "Whatever operations are queued, flushed and served, through either transport and with any backend, and whether or not values can be encoded, found and decoded, no client and no range server reads a blob or packet whose memory has been freed, frees memory twice, or frees memory of the user or of another flush, up to the moment the results are destroyed.", "quantifier": "all numbers of operations and records, all arguments, all outcomes of encode, lookup and decode, all states of memory at the start", "why_tests_cant": "use after free shows only for certain outcomes in certain orders, and often not even then", "anchors": ["src/datastore/InMemory.cpp", "src/datastore/LevelDB.cpp", "include/datastore/datastore.tpp", "src/hxhim/Results.cpp", "include/hxhim/private/process.hpp", "src/transport/backend/MPI/RangeServer.cpp", "src/transport/backend/Thallium/RangeServer.cpp"]}
{"id": "C55", "title": "Flushes that overlap in time are consistent", "statement": "When any number of ranks flush at the same time and their requests are executed in any order, every GET returns the object of a PUT of the pair, by a flush that did not begin after the GET's flush was over, that no later flush had replaced before the GET's flush began; it finds nothing only if a DELETE explains it or no flush that stored the pair was over. Later flushes never see less than earlier ones, and a PUT is found by every flush that begins after its flush is over, unless others change the pair.", "quantifier": "all numbers of ranks and flushes, all operations, all interleavings of their requests", "why_tests_cant": "the interleavings of requests of several ranks cannot be enumerated, and rare ones do not occur in tests", "anchors": ["include/hxhim/private/process.hpp", "src/hxhim/ops/FLUSH.cpp", "src/datastore/datastore.cpp", "include/transport/backend/local/RangeServer.hpp"]}
{"id": "C56", "title": "MPI requests are answered, and by the right responses", "statement": "When any number of ranks send rounds of requests to each other through the MPI transport at the same time, served by any number of listener threads, every request is processed exactly once by the rank it was sent to, requests of one rank to another are processed in order, every rank gets the responses to its own requests in the order of the requests, buffers have the length of what arrives in them, and no rank waits for ever.", "quantifier": "all numbers of ranks and listener threads, all programs of the ranks, all sizes of messages, all interleavings of clients and listeners, any buffering by the MPI library", "why_tests_cant": "deadlocks depend on what the MPI library copies and on the timing of several ranks; tests with small messages never block", "anchors": ["include/transport/backend/MPI/EndpointGroup.tpp", "src/transport/backend/MPI/RangeServer.cpp", "include/hxhim/private/process.hpp"]}
{"id": "C57", "title": "Flushes over MPI are consistent for every interleaving of messages", "statement": "When ranks that use the MPI transport flush PUTs, GETs, DELETEs and GETOPs at the same time, what every rank makes of the messages it receives are results that an order of all requests, executed one after the other, explains; a flush that begins when another one has returned sees what that one wrote; and all flushes return.", "quantifier": "all numbers of ranks, listener threads and flushes, all operations, all interleavings of the steps of clients and listeners, any buffering by the MPI library", "why_tests_cant": "a test runs one interleaving of a few ranks, with messages small enough to be copied", "anchors": ["include/hxhim/private/process.hpp", "include/transport/backend/MPI/EndpointGroup.tpp", "src/transport/backend/MPI/RangeServer.cpp", "src/hxhim/hxhim.cpp"]}
{"id": "C58", "title": "Setters change their option and nothing else", "statement": "A setter called on a session that is not open succeeds if and only if its argument is acceptable, then the option has the given value; otherwise nothing changes. No other option changes, and after any sequence of calls every option has the value of the last successful call for it.", "quantifier": "all setters, arguments, options before the call, and sequences of calls", "why_tests_cant": "tests call each setter once with one value; interactions of two calls and refused values are not looked at", "anchors": ["src/hxhim/options.cpp", "include/hxhim/options.h"]}
{"id": "C59", "title": "Floats and doubles are kept in order and nearly unchanged", "statement": "For any two finite floats (or doubles) in the caller's memory the stored form of the smaller one comes first, or both are the same, also inside keys. The stored form is a decimal number within the configured precision of the given one, numbers further apart than that are kept apart, and a float or double that is PUT as an object comes back from GET as a number that close.", "quantifier": "all bit patterns of floats and doubles, all precisions and sign symbols, all histories of packets, every C library with accurate log10 and pow", "why_tests_cant": "there are 2^64 doubles and the interesting ones sit where the decimal exponent changes, at the ends of the range and at two particular exponents; tests try a handful of moderate numbers", "anchors": ["include/utils/elen.tpp: frexp10, floating_point, small_decimals_digits, small_decimals, decode::floating_point", "include/datastore/transform.tpp: encode::floating_point, decode::floating_point", "src/datastore/transform.cpp: default_callbacks"]}
{"id": "C60", "title": "The library's bucket generators make usable buckets", "statement": "Each of the library's bucket generators, given the first values of a histogram, makes at least one bucket; the buckets ascend, the first one begins with the smallest of the values, so that all of them are counted, the others follow at even distances, and there are as many buckets as the rule says that the generator is named after.", "quantifier": "all lists of finite doubles of fewer than 2^32 values, all extra arguments, every C library with accurate sqrt, cbrt, log and log2", "why_tests_cant": "the numbers of buckets are floating point expressions cut off to integers; errors appear for particular numbers of values (powers of two, cubes), for ranges up to 1, or for every input of a generator that no test uses, and undefined conversions may look right on the machine at hand", "anchors": ["src/utils/Histogram.cpp: minmax, generate_using_bin_count, histogram_n_buckets, histogram_square_root_choice, histogram_sturges_formula, histogram_rice_rule, histogram_scotts_normal_reference_rule, histogram_uniform_logn"]}
{"id": "C61", "title": "End to end: GETOPs find what all ranks stored", "statement": "When ranks take turns queueing and flushing, the results of every GETOP of a flush are, in order, exactly the records which the operation selects from the triples that all earlier flushes of all ranks, and the PUTs of the flush itself, left in the datastore its subject and predicate hash to; without such a record there is exactly one error, carrying subject and predicate. When flushes overlap in time, the records are those of the datastore at the moment the request is executed: after the PUTs of the flush itself, all of finished flushes and a beginning of what each other flush does there; over MPI this holds for what each rank makes of the messages it receives.", "quantifier": "all ranks, layouts, both backends, all sequences of turns and operations, all seven GETOP operations", "why_tests_cant": "composition of every layer over all inputs and all contents of the datastores", "anchors": ["src/hxhim/ops/impl.cpp", "include/hxhim/private/process.hpp", "include/datastore/datastores.hpp", "src/datastore/InMemory.cpp", "src/datastore/LevelDB.cpp", "src/message/BGetOp.cpp"]}
{"id": "C62", "title": "Thallium requests are answered, by the right responses, without leaks", "statement": "When any number of ranks send rounds of requests to each other through the Thallium transport at the same time, every request is processed exactly once by the rank it was sent to, requests of one rank to another are processed in order, every rank gets the responses to its own requests in the order of the requests; memory of another rank is read and freed only while it is allocated and has the announced length, every buffer is freed in the end, and no rank waits for ever.", "quantifier": "all numbers of ranks and handlers, all programs of the ranks, with and without ASYNC_THALLIUM, all addresses that alloc can return, all interleavings of clients and handlers", "why_tests_cant": "the response is read from the memory of the range server while its handler is already gone, and freed by a call that nobody waits for; errors show only for particular interleavings and reused addresses", "anchors": ["src/transport/backend/Thallium/EndpointGroup.cpp: process_request, process_requests", "src/transport/backend/Thallium/RangeServer.cpp: process, cleanup"]}
{"id": "C63", "title": "Flushes over Thallium are consistent and return", "statement": "When ranks that use the Thallium transport flush PUTs, GETs, DELETEs and GETOPs at the same time, what every rank makes of the responses it reads are results that an order of all requests, executed one after the other, explains; a flush that begins when another one has returned sees what that one wrote; all flushes return, and every buffer of the transport is freed.", "quantifier": "all numbers of ranks, handlers and flushes, all operations, with and without ASYNC_THALLIUM, all addresses that alloc can return, all interleavings of the steps of clients and handlers", "why_tests_cant": "a test runs one interleaving of a few ranks; responses are read from and freed in the memory of another rank while its handlers go on", "anchors": ["include/hxhim/private/process.hpp", "src/transport/backend/Thallium/EndpointGroup.cpp", "src/transport/backend/Thallium/RangeServer.cpp", "src/hxhim/ops/FLUSH.cpp"]}
{"id": "C64", "title": "Closing a session is safe and returns", "statement": "When all ranks do their requests, call Sync the same number of times in between, and close their sessions, each when it is done, Close returns on every rank, all requests of all ranks have been answered by then, no message is written to memory of a listener that has ended, no buffer that is being sent is freed, and with Thallium every buffer of the transport is freed before the range server that owns it is destroyed.", "quantifier": "all numbers of ranks, listeners and handlers, all programs, both transports, all interleavings of clients, listeners, handlers and barriers", "why_tests_cant": "a rank that closes early stops its listeners while others may still send to it; whether that happens depends on timing", "anchors": ["src/hxhim/hxhim.cpp: Sync, Close", "src/transport/backend/MPI/RangeServer.cpp: listener_thread, recv, send, Flush", "src/transport/backend/Thallium/RangeServer.cpp", "src/transport/transport.cpp"]}
{"id": "C65", "title": "Every rank learns the addresses of all ranks", "statement": "When the ranks start their Thallium engines and call get_addrs, every rank gets the address of every rank's engine, in the order of the ranks, so that the endpoint a client makes for a range server belongs to the rank the range server is on.", "quantifier": "all numbers of ranks and all addresses", "why_tests_cant": "addresses of one length or a lenient MPI library hide a mismatch between what is sent and what is received", "anchors": ["src/transport/backend/Thallium/Utilities.cpp: get_addrs", "src/transport/transport.cpp"]}
{"id": "C66", "title": "mkdir_p makes the directory while others do the same", "statement": "When mkdir_p returns 0 the path names a directory, when nothing is in the way it returns no error, it changes nothing else, and it returns; whatever directories other processes make at the same time, in particular other ranks that make the same ones.", "quantifier": "all paths, file systems without links, working directories and interleavings with other processes", "why_tests_cant": "whether another rank makes a directory between two steps depends on timing", "anchors": ["src/utils/mkdir_p.cpp: mkdir_p", "src/datastore/datastores.cpp: Init"]}
{"id": "C67", "title": "Log messages become lines, and the message buffer keeps the last of them", "statement": "A message that is logged becomes one line of its header and text, cut at 4095 bytes, without writing outside of any buffer. It is printed so, to terminals without the first part of the header. The message buffer contains the last bytes of all lines, mlog_mbcopy copies them, and mlog_findmesgbuf finds them in an image of the memory.", "quantifier": "all sequences of messages, headers and buffer sizes, and all images of the memory", "why_tests_cant": "the ring buffer wraps around at every position, and the limits of the formatting are reached by few messages", "anchors": ["src/utils/mlog2.c: vmlog", "src/utils/mlog2.c: mlog_dmesg_mbuf", "src/utils/mlog2.c: mlog_mbcopy", "src/utils/mlog2.c: mlog_findmesgbuf"]}
{"id": "C68", "title": "Log masks let through what they say, and are kept, set and read as text", "statement": "A message is logged exactly if the mask of its facility wants it, and the macro decides like vmlog. Facilities keep the masks and names they were given, whatever is allocated in advance. mlog_setmasks applies the settings of a text in their order, mlog_getmasks writes all masks, and masks that were read can be set again. During an hxhim session the messages its debug level wants are written, and none after it.", "quantifier": "all flags, masks, facilities, sequences of calls, texts and sequences of sessions", "why_tests_cant": "there are 128 masks for each of any number of facilities, and any text can be given as a setting", "anchors": ["include/utils/mlog2.h: mlog_filter", "src/utils/mlog2.c: mlog_setlogmask", "src/utils/mlog2.c: mlog_setmasks", "src/utils/mlog2.c: mlog_getmasks", "src/utils/mlog2.c: mlog_open", "src/hxhim/hxhim.cpp: hxhim::Open"]}
{"id": "C69", "title": "Decimals and small integers of the C interface are ordered and come back", "statement": "The texts of small decimals (below 1) and large decimals (with an integer part) are in the order of the numbers, differ if the numbers differ by more than a unit of the last digit, and are read as numbers that are as close as the digits allow. Texts of integers of one and two bytes are in the order of the numbers and are read as the numbers. lex_comp compares the texts as bytes.", "quantifier": "all floats and doubles, all precisions, all integers of one and two bytes, all strings and sign symbols", "why_tests_cant": "rounding twice, to the digits of the decimal and to the type and back, goes wrong for few numbers if at all", "anchors": ["include/utils/elen.tpp: encode::small_decimals", "include/utils/elen.tpp: encode::large_decimals", "include/utils/elen.tpp: decode::small_decimals", "include/utils/elen.tpp: decode::large_decimals", "include/utils/elen.tpp: encode::integers", "src/utils/elen.cpp: lex_comp"]}
{"id": "C70", "title": "The background PUTs and the user's flushes each get their own responses", "statement": "The thread of the background PUTs and the thread of the user can both send requests of one rank. Requests of each of them reach the ranks they are meant for, complete, and each of them receives the responses to its own requests, in order.", "quantifier": "all programs and interleavings of the two threads, all requests, all range servers, both transports", "why_tests_cant": "both threads have to send within the same few microseconds, and what is mixed up depends on the instruction at which they meet", "anchors": ["include/hxhim/private/process.hpp: process", "src/hxhim/init.cpp: async_put_thread", "src/hxhim/ops/FLUSH.cpp: flushPuts", "include/transport/backend/MPI/EndpointGroup.tpp: EndpointGroup::return_msgs", "src/transport/backend/Thallium/EndpointGroup.cpp: process_request"]}
{"id": "C71", "title": "A datastore counts what it did", "statement": "The events of a datastore add up to the numbers of PUTs and GETs it has processed and to the bytes of the keys and values written and read, counting never changes what the datastore does, and the rates it displays when it is destroyed are these sums by the time spent.", "quantifier": "all histories of packets, all times, both kinds of datastores", "why_tests_cant": "nobody checks statistics, and the rate that makes the last message read out of bounds needs a clock that does not advance", "anchors": ["src/datastore/datastore.cpp: hr_size", "src/datastore/datastore.cpp: ~Datastore", "src/datastore/datastore.cpp: GetStats", "src/datastore/InMemory.cpp: BPutImpl", "src/datastore/InMemory.cpp: BGetImpl", "src/datastore/LevelDB.cpp: BPutImpl", "src/datastore/LevelDB.cpp: BGetImpl"]}
{"id": "C72", "title": "A session counts what it did", "statement": "For each kind of operation, the operations of the packets counted together with those still queued are the operations the calls asked for; packets are counted for the datastores they go to and are at most full; the times recorded are those of the calls, single calls apart from bulk calls; printing leaves the stream as it was.", "quantifier": "all sequences of calls and flushes, all configurations, all servers", "why_tests_cant": "nobody compares statistics with what was sent, and which packets are replaced before they are sent depends on the layout of the job", "anchors": ["src/hxhim/Stats.cpp: print", "include/hxhim/private/Stats.hpp: Global", "include/hxhim/private/process.hpp: process", "src/hxhim/ops/PUT.cpp: Put", "src/hxhim/ops/GETOP.cpp: GetOp", "src/hxhim/ops/BGETOP.cpp: BGetOp"]}
{"id": "C73", "title": "The command line program reads what is written", "statement": "Every line in the documented form of the example program's language is read as the operations it names with the values written in it, whatever white space stands between the words; everything else is refused and has no effect, and one line never changes what another one means.", "quantifier": "all texts, all values of all types, all numbers of operations in a line", "why_tests_cant": "the texts are unbounded, and extraction with iostreams has its own rules for signs, ranges and joined words", "anchors": ["examples/hxhim/cli.cpp: parse_commands", "examples/hxhim/cli.cpp: input", "examples/hxhim/cli.cpp: help", "examples/hxhim/cli.cpp: UserInput"]}
{"id": "C74", "title": "The command line program prints what was stored", "statement": "Commands run in the order given and nothing is sent before a flush; a flush sends what it names and prints one line for each result; a value is printed so that it can be read again as the same value; and in a session of turns that end with FLUSH the line of every GET has the object of the latest PUT of the pair or says that there is none.", "quantifier": "all texts of commands, all values, all sessions of turns, all layouts of C48", "why_tests_cant": "the claim is about all sequences of commands and all values, and depends on results keeping pointers into the list of commands", "anchors": ["examples/hxhim/cli.cpp: run_commands", "examples/hxhim/cli.cpp: main", "examples/hxhim/print_results.c: print_results", "examples/hxhim/print_results.c: print_by_type"]}
{"id": "C75", "title": "The lowest numbers of an attribute", "statement": "When things with one number each are stored in all orders, asking for the n LOWEST of the attribute gives the names of the n things with the lowest numbers, in ascending order, for integers, floats and doubles; HIGHEST gives the names of the n things with the highest; and the example program that does this for the cells of a grid asks for the cells it generated.", "quantifier": "all numbers, names, histories of packets in any order, backends, numbers of ranks and sizes of the grid", "why_tests_cant": "the answer depends on the order of encoded numbers against each other and against the key the search starts from, for all numbers; the program is only run with random temperatures", "anchors": ["examples/hxhim/lowest.c: main", "src/datastore/InMemory.cpp: BGetOpImpl", "src/datastore/LevelDB.cpp: BGetOpImpl", "src/datastore/transform.cpp: default_callbacks"]}
{"id": "C76", "title": "What ranks see of each other when writes fail", "statement": "When ranks take turns and any writes to the datastores fail, every PUT and DELETE has exactly one result with the references of the caller, and a GET by any rank returns the object of the latest PUT of the pair whose result reported success and that no DELETE that reported success followed; PUTs and DELETEs that report an error have changed nothing.", "quantifier": "all numbers of ranks, turns and operations, all choices of writes that fail, both backends, all transformations that can be undone", "why_tests_cant": "LevelDB writes do not fail in the tests, and the results of a PUT come back in another order than the calls, grouped by packet and datastore", "anchors": ["src/datastore/LevelDB.cpp: BPutImpl", "src/datastore/LevelDB.cpp: BDeleteImpl", "src/hxhim/Results.cpp: init", "src/hxhim/Results.cpp: AddAll", "include/hxhim/private/process.hpp: process"]}
{"id": "C77", "title": "What ranks with asynchronous PUTs see of each other", "statement": "When ranks with asynchronous PUTs take turns that each queue fewer PUTs than the limit and end with a flush, then in every interleaving of the user threads and background threads of all ranks the datastores and the results of every turn are those of the same turns without asynchronous PUTs: every PUT has exactly one result, and a GET by any rank returns the object of the latest PUT that reported success. No step is undefined, and the flush can always return.", "quantifier": "all numbers of ranks, turns and operations below the limit, all interleavings of two threads per rank, all choices of writes that fail, both backends", "why_tests_cant": "the background thread may take the queued PUTs before, during or not at all in a flush, independently on every rank; a test sees one interleaving", "anchors": ["src/hxhim/init.cpp: async_put_thread", "src/hxhim/ops/FLUSH.cpp: FlushPuts", "src/hxhim/ops/PUT.cpp: Put", "include/hxhim/private/hxhim.hpp: async_puts"]}
{"id": "C78", "title": "What ranks see of each other when flushes overlap and writes fail", "statement": "When flushes of several ranks overlap in any way and any writes to the datastores fail, every PUT and DELETE has exactly one result with the references of the caller, and every GET has the object of a PUT of the pair whose result reported success and that can be the latest change of the pair, or reports an error and the pair can be absent: PUTs and DELETEs that report an error are never seen, those that report success are seen by every flush that begins after the flush has returned. The same with MPI messages and Thallium calls, for every interleaving of clients and range servers.", "quantifier": "all numbers of ranks, flushes and operations, all orders in which requests are executed, all choices of writes that fail, both backends, both transports, all transformations that can be undone", "why_tests_cant": "neither failing writes nor flushes that overlap are under the control of a test, and the number of interleavings is unbounded", "anchors": ["src/datastore/LevelDB.cpp: BPutImpl", "src/datastore/LevelDB.cpp: BDeleteImpl", "include/hxhim/private/process.hpp: process", "include/transport/backend/MPI/EndpointGroup.tpp: return_msgs", "src/transport/backend/Thallium/RangeServer.cpp: process"]}
{"id": "C79", "title": "What GETOPs find when writes fail", "statement": "When any writes to the datastores fail, a GETOP returns, one behind the other, exactly the records that its operation selects from the sorted contents of the datastore its subject and predicate belong to, where the contents are what the PUTs and DELETEs whose results reported success have made: nothing of a PUT or DELETE that reported an error, all of flushes that have returned, all PUTs of the flush itself that succeeded. This holds when ranks take turns, when flushes overlap in any way, and for every interleaving of clients and range servers over MPI and Thallium.", "quantifier": "all numbers of ranks, flushes and operations, all orders in which requests are executed, all choices of writes that fail, both backends, both transports, all transformations that can be undone", "why_tests_cant": "failing writes and overlapping flushes are not under the control of a test, and both the choices of failures and the interleavings are unbounded", "anchors": ["src/datastore/LevelDB.cpp: BGetOpImpl", "src/datastore/LevelDB.cpp: BPutImpl", "src/datastore/InMemory.cpp: BGetOpImpl", "include/hxhim/private/process.hpp: process", "src/hxhim/Results.cpp: hxhim::Result::AddAll"]}
{"id": "C80", "title": "The example program hx.c gets back what it put", "statement": "When hx.c runs on any number of ranks with any number of triples, the names spo_gen makes fit their buffers of 100 bytes and no two triples of any ranks share one; the GETs of a rank that are flushed while its PUTs are still queued all report an error; after the PUTs are flushed, the GETs report an error exactly for the triples whose PUT reported an error and otherwise return a double that is as close to the one that was put as the digits stored allow. This holds for every interleaving of clients and range servers over MPI and Thallium, whichever writes fail.", "quantifier": "all numbers of ranks and triples, all doubles that are finite and neither extremely large nor extremely small, all interleavings, all choices of writes that fail, all layouts and hash functions of C48", "why_tests_cant": "the program is itself a test of one run with a few random doubles; interleavings of ranks, failing writes and the numbers of triples are unbounded", "anchors": ["examples/hxhim/hx.c: main", "examples/hxhim/spo_gen.c: gen_fixed_pattern", "examples/hxhim/spo_gen.c: spo_gen_fixed", "examples/hxhim/spo_gen.c: gen_random_pattern", "src/hxhim/ops/double.cpp: hxhim::PutDouble", "src/hxhim/ops/double.cpp: hxhim::GetDouble", "src/hxhim/ops/FLUSH.cpp: hxhim::FlushGets", "src/hxhim/ops/FLUSH.cpp: hxhim::FlushPuts"]}
{"id": "C81", "title": "What ranks with asynchronous PUTs see of each other when their flushes overlap", "statement": "When ranks with asynchronous PUTs queue operations and flush at the same time, with fewer PUTs per turn than the limit, the requests the range servers execute and the results the ranks get are those of an execution without asynchronous PUTs in which the same flushes overlap: no request is executed before its turn begins or after it ends, the turns of one rank stay one after the other, every GET is explained by a change that reported success and can be the latest, a GET of a turn that begins after the turn of a PUT has ended has its object, and GETOPs find what reported success. Every rank can complete its turns.", "quantifier": "all numbers of ranks, turns and operations, all interleavings of the user and background threads of all ranks and of the execution of requests, all choices of writes that fail", "why_tests_cant": "the outcome depends on the order in which two threads per rank and the range servers take steps, and on which writes fail; runs show a few of these orders", "anchors": ["src/hxhim/init.cpp: async_put_thread", "src/hxhim/ops/FLUSH.cpp: FlushPuts", "src/hxhim/ops/FLUSH.cpp: hxhim::Flush", "src/hxhim/ops/PUT.cpp: Put", "include/hxhim/private/hxhim.hpp: async_puts"]}
{"id": "C82", "title": "End to end: histograms count what all ranks stored", "statement": "When the flushes of any number of ranks overlap and writes may fail, every histogram request has one result: the histogram of that name in the datastore asked, with the numbers of all PUTs with that predicate, of all ranks, that the datastore reported as stored before the request, each once and in the order of execution. Numbers of the own flush and of flushes that were over are all there, those of flushes at the same time are there up to some point, those of later flushes are not. A request after all PUTs gets exactly the numbers of all PUTs that reported success, and the counts are the numbers in each bucket. A name without histogram is an error. The same holds with asynchronous PUTs. It holds too for what the ranks make of the messages of MPI and Thallium they receive.", "quantifier": "all numbers of ranks, flushes and operations, all orders in which range servers execute requests, all interleavings of the background threads, all choices of writes that fail, all bucket generators that return buckets", "why_tests_cant": "which numbers a histogram has depends on the order in which requests of all ranks are executed and on which writes fail; runs show a few of these orders, and a number that is counted twice or lost shows only in some", "anchors": ["src/datastore/datastore.cpp: Datastore::operate (histograms)", "src/hxhim/ops/HISTOGRAM.cpp: hxhim::Histogram", "src/hxhim/ops/FLUSH.cpp: FlushHistograms", "src/utils/Histogram.cpp: add", "src/message/Packer.cpp: BHistogram"]}
{"id": "C83", "title": "What a session stored is found by later sessions, also with another layout", "statement": "When sessions follow each other on the same LevelDB directories, with the same number of datastores, the GETs of all sessions return what the PUTs and DELETEs of all sessions that reported success left, as if all flushes were of one session: what a session stored is found by later sessions, whatever the number of ranks, which ranks are range servers and how many datastores each of them has. A session opens exactly when the library can open the directories and they exist or may be created; each datastore has what the directory with its number has. Histograms a session writes when it closes are those the next session begins with, if it reads them, and they do not change what GETs of other pairs return. In-memory datastores start empty and leave nothing. With another number of datastores, objects are not found.", "quantifier": "all numbers of sessions, flushes and operations, all layouts with the same number of datastores, all directory names, all orders in which range servers execute requests, all choices of writes that fail", "why_tests_cant": "an object is found again only if the names of the directories, the numbering of the datastores and the hash agree for all layouts; tests of the repository open datastores once", "anchors": ["src/datastore/datastores.cpp: Datastore::generate_name, Datastore::Init, Datastore::destroy", "src/hxhim/init.cpp: init::datastore, init::queues", "src/datastore/LevelDB.cpp: LevelDB::OpenImpl, LevelDB::CloseImpl", "src/hxhim/Datastore.cpp: get_id, get_rank", "src/datastore/datastore.cpp: Datastore::ReadHistograms, Datastore::WriteHistograms, Datastore::Close"]}
{"id": "C84", "title": "End to end: floats and doubles put with the typed functions come back", "statement": "PutFloat and PutDouble queue the number's own bytes with its type and size, GetFloat and GetDouble ask for that type. A number one flush PUTs this way is what a later GET of another flush returns, with the type and size of the number, and differing from it by no more than the digits the datastore keeps: for ranks that take turns, for flushes that overlap where writes may fail, and for later sessions on the same directories with another layout. The bulk functions do the same as the single functions one after the other.", "quantifier": "all numbers of ranks, flushes, sessions and operations, all floats and doubles that are 0 or moderate, all precisions from 2 digits on, all C libraries with the stated accuracy, all orders in which range servers execute requests, all choices of writes that fail", "why_tests_cant": "a number passes through the typed function, an encoding with limited digits, the transport, and a decoding on another rank; tests try a few numbers on one rank, and an error in the last digits or for some exponents shows only with others", "anchors": ["src/hxhim/ops/float.cpp: hxhim::PutFloat, hxhim::GetFloat, hxhim::BPutFloat, hxhim::BGetFloat, hxhim::BGetOpFloat", "src/hxhim/ops/double.cpp: hxhim::PutDouble, hxhim::GetDouble, hxhim::BPutDouble", "include/utils/memory.hpp: alloc_array"]}
{"id": "C85", "title": "Elapsed times, the lines that report them, sums and rates", "statement": "nano gives the nanoseconds from one time to another, also when the counts of the times themselves do not fit in 64 bits, and times one after the other add up. sec gives the seconds with the precision of a long double and never orders two times the wrong way round. A line of timestamp_end tells the rank, the name and both times exactly, and the seconds to half a millisecond. Stats computes the same from a steady clock. Sums of times are exact while they fit in 64 bits, the duration of hx.c is the sum of its two times, and the rate is the number of PUTs by that duration.", "quantifier": "all pairs of times that are in order and less than 2^64 nanoseconds apart (2^63 for Stats), all ranks and names, all lists of times", "why_tests_cant": "tests measure a few short times on a machine that was started lately; wrap-around of the counts, carries of nanoseconds and rounding of long times do not occur", "anchors": ["examples/hxhim/timestamps.c: nano, sec", "examples/hxhim/timestamps.h: timestamp_end", "src/utils/Stats.cpp: hxhim::Stats::nano, hxhim::Stats::sec", "src/datastore/datastore.cpp: Datastore::GetStats", "examples/hxhim/hx.c: duration", "examples/hxhim/puts.c: total_secs, rate"]}
{"id": "C86", "title": "Time stamps stay with their operation", "statement": "Every operation is queued with the times at which it was hashed and inserted, in the slot of its packet, and the result of the operation has these times and the answer to this operation, whichever way the request went; the first result of a packet also has the time at which the packet was made. The local range server hands on every answer in order and keeps none. What is printed for an event are the nanoseconds since the epoch and the seconds it took.", "quantifier": "all sequences of operations, all packet sizes, all answers, all times", "why_tests_cant": "the times are printed when results are destroyed, only in builds with PRINT_TIMESTAMPS, and no test looks at them; wrong times look like slow or fast operations", "anchors": ["src/hxhim/ops/impl.cpp: setup_packet, get_packet, hxhim::PutImpl, hxhim::GetImpl, hxhim::HistogramImpl", "src/message/Message.cpp: Message::steal, Message::steal_timestamps", "src/message/{BPut,BGet,BGetOp,BDelete,BHistogram}.cpp: steal", "include/transport/backend/local/RangeServer.hpp: range_server", "src/transport/backend/Thallium/EndpointGroup.cpp", "src/hxhim/Results.cpp: hxhim::Result::init, AddAll, ~Result", "src/utils/Stats.cpp: Stats::print_event"]}
{"id": "C87", "title": "MPI is initialised and finalised once, and the epoch is set once", "statement": "The instance of MPI initialises MPI with its first use if the program has not, and finalises it at exit exactly if it initialised it; it knows rank and size in either case. Endpoints have the rank and size of their communicator and are not made from a null communicator. All sessions of a process have the epoch of the first.", "quantifier": "all programs (sequences of uses, initialisations and finalisations), all values the library returns, all numbers of sessions", "why_tests_cant": "tests initialise MPI themselves, with a library that supports threads; the other branches are never taken", "anchors": ["src/transport/backend/MPI/Instance.cpp: Instance::instance, Instance::Instance, Instance::~Instance", "src/transport/backend/MPI/EndpointBase.cpp: EndpointBase::EndpointBase", "src/utils/Stats.cpp: Stats::init"]}
{"id": "C88", "title": "Buffers are freed exactly once however messages are mixed", "statement": "While many messages are on their way at once, those of the background thread and of range servers that answer in threads of their own among them, every buffer allocated for any of them is freed exactly once, nothing is read or freed after it was freed, the user's buffers are never freed, and what others own is left alone.", "quantifier": "all numbers and kinds of messages, all numbers of operations in each, all interleavings of the operations of different messages", "why_tests_cant": "the interleavings of threads cannot be chosen in tests, and leaks or double frees of one of them go unnoticed without a sanitizer", "anchors": ["src/hxhim/init.cpp: async_put_thread", "src/utils/Blob.cpp", "include/transport/backend/local/RangeServer.hpp: range_server", "src/transport/backend/Thallium/RangeServer.cpp: process", "src/transport/backend/MPI/RangeServer.cpp: listener_thread"]}
{"id": "C89", "title": "Messages are destructed exactly once", "statement": "Every request that was queued, and every response that the transport, a range server or a datastore has constructed, is destructed exactly once by the time a flush returns, whatever the transport returns; requests that are queued, or taken by the background thread, when the session is closed are destructed exactly once; a range server destructs every message it has constructed for a request exactly once.", "quantifier": "all queues, all numbers of rounds, all numbers of responses returned, all sequences of requests received, all orders in which the threads get at the queue while the session is closed", "why_tests_cant": "tests do not count messages, and memory that is lost goes unnoticed; they have one datastore for each range server", "anchors": ["include/hxhim/private/process.hpp: process", "src/hxhim/Results.cpp: AddAll", "src/message/Messages.cpp: next", "include/transport/backend/local/RangeServer.hpp: range_server", "src/transport/backend/Thallium/RangeServer.cpp: process", "src/transport/backend/MPI/RangeServer.cpp: listener_thread", "src/hxhim/destroy.cpp: async_puts, queues", "src/hxhim/private.cpp: wait_for_background_puts"]}
{"id": "C90", "title": "Results are destructed exactly once", "statement": "Every result a session makes is, at all times, in exactly one list of results, once, or has been destructed, once; the lists there are are those the user has got and the one the session keeps for PUTs sent in the background or at once; a flush gives the user, in a new list, what the session has kept and then the new results, and changes no other list; and when the user has destroyed their lists and the session is closed, no list is left and every result has been destructed exactly once.", "quantifier": "all sequences of flushes of all kinds, syncs, rounds of the background thread or PUTs sent at once, and destructions of lists, with any numbers of results", "why_tests_cant": "tests destroy the list of a single flush; a list whose results are appended to another and destructed is only safe because the other function empties it, and nothing counts results", "anchors": ["src/hxhim/Results.cpp: ~Results, Append, Add, Destroy, hxhim_results_destroy", "src/hxhim/ops/FLUSH.cpp: FlushPuts, Flush", "src/hxhim/ops/SYNC.cpp: Sync", "src/hxhim/init.cpp: async_put_thread", "src/hxhim/private.cpp: serial_puts", "src/hxhim/destroy.cpp: async_puts"]}
{"id": "C91", "title": "A round over Thallium or MPI returns the responses of all requests that got one", "statement": "The chain of responses that a round over Thallium or MPI returns has the response of every request that got one, in the order of the requests and each once; requests that are missing, cannot be sent, or whose response cannot be unpacked are left out without undefined behaviour; of the messages constructed meanwhile exactly those that could not be unpacked have been destructed.", "quantifier": "all numbers of requests, all combinations of what becomes of them, debugging output on or off", "why_tests_cant": "tests have no endpoints that are missing and no packets that cannot be unpacked, so the null response is never met", "anchors": ["src/transport/backend/Thallium/EndpointGroup.cpp: process_request, process_requests", "src/message/Messages.cpp: next", "include/utils/mlog2.h: mlog", "include/transport/backend/MPI/EndpointGroup.tpp: parallel_recv, return_msgs"]}
{"id": "C92", "title": "Every MPI_Request of a round of sends is deallocated exactly once", "statement": "Sending the messages of a round over MPI is defined whichever range servers have no rank and whichever sends cannot be started; it returns how many messages were sent, and every MPI_Request object it constructs is deallocated exactly once.", "quantifier": "all numbers of messages, all combinations of missing ranks and failures of sending the size or the data", "why_tests_cant": "MPI_Isend does not fail in tests, so the index used for deallocating and the one used for constructing are never different", "anchors": ["include/transport/backend/MPI/EndpointGroup.tpp: parallel_send", "src/utils/memory.cpp: dealloc"]}
{"id": "C93", "title": "Responses over MPI are unpacked with their own length", "statement": "In a round over MPI the response of every server from which the length and the data can be received is received into a buffer of its length and unpacked with that length, whichever receives from other servers cannot be started.", "quantifier": "all numbers of servers, all lengths, all combinations of missing ranks and failures of starting a receive, all contents of the array of lengths before", "why_tests_cant": "MPI_Irecv does not fail in tests, so the indices of servers and of buffers are never different", "anchors": ["include/transport/backend/MPI/EndpointGroup.tpp: parallel_recv"]}
{"id": "C94", "title": "A listener of the MPI range server deallocates its buffers", "statement": "A listener of the MPI range server deallocates every buffer it allocates for a packed request or a packed response exactly once, whatever of receiving, packing and sending fails and whenever the session is stopped.", "quantifier": "all numbers of turns of the loop, all combinations of what fails in them", "why_tests_cant": "MPI does not fail in tests, and a session is not stopped between the length of a request and the request", "anchors": ["src/transport/backend/MPI/RangeServer.cpp: listener_thread, recv, send"]}
