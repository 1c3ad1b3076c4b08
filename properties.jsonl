{"id": "C01", "title": "In-memory Save appends exactly its events", "statement": "After any history of store calls, a Save(stream, e1..en) that returns (k, nil) makes Events(0) return exactly what it returned before followed by n new records carrying e1..en in order, with global sequence numbers larger than every earlier one and consecutive, and stream sequence numbers old+1..old+n in that stream; the returned k is old+n; and exactly those n records, in that order, are handed to subscribers.", "quantifier": "every history of Save/OptimisticSave/OptimisticDeleteStream calls (failed and cancelled ones included), every stream name, every batch length and content", "why_tests_cant": "the new numbers depend on the whole history (deletes, failed saves, rollbacks); tests sample a handful of short histories", "anchors": ["provider/inmemorystore/inmemory_store.go:saveEvents", "provider/inmemorystore/inmemory_store.go:saveEvent", "store.go:Save"]}
{"id": "C02", "title": "Streams are numbered 1..n without gaps", "statement": "In every reachable store state EventsByStream(ctx, 0, s) returns records whose stream sequence numbers are exactly 1,2,...,n in order with n = TotalEventsInStream(s), all carrying StreamName s, and EventsByStream(ctx,k,s) returns exactly those numbered k or more; a stream with no events yields ErrStreamNotFound.", "quantifier": "every history of store calls (failed and cancelled ones included) in which no multi-event batch, addressed to a stream that is not named aggregateType!aggregateID of its events, is rejected by the serializer (that case is C07, and there the claim fails), every stream name, every start position", "why_tests_cant": "an invariant over unbounded histories mixing deletes, re-creations and failed saves", "anchors": ["provider/inmemorystore/inmemory_store.go:EventsByStream", "provider/inmemorystore/inmemory_store.go:getStreamSequenceNumber", "provider/inmemorystore/inmemory_store.go:TotalEventsInStream"]}
{"id": "C03", "title": "Events(g) is the live log in strict global order", "statement": "In every reachable store state Events(ctx,g) returns every live record with global sequence number >= g exactly once, in strictly increasing global sequence number.", "quantifier": "every history, every g", "why_tests_cant": "invariant over unbounded histories and every start position", "anchors": ["provider/inmemorystore/inmemory_store.go:Events", "provider/inmemorystore/inmemory_store.go:recordsByIDs"]}
{"id": "C04", "title": "EventsByAggregateTypes is the type-filtered live log in strict global order", "statement": "In every reachable store state EventsByAggregateTypes(ctx,g,t1..tk) with pairwise different types returns exactly the live records with type among t1..tk and global number >= g, once each, in strictly increasing global order. (When a type is repeated in the argument list the claim is false: records are duplicated.)", "quantifier": "every history of store calls in which no multi-event batch, addressed to a stream that is not named aggregateType!aggregateID of its events, is rejected by the serializer (that case is C07, and there the claim fails), every g, every list of types", "why_tests_cant": "the k-way merge has data-dependent control flow over unbounded inputs", "anchors": ["provider/inmemorystore/inmemory_store.go:EventsByAggregateTypes", "merge_record_iterators.go:MergeRecordIteratorsInOrder"]}
{"id": "C05", "title": "OptimisticSave is compare-and-append", "statement": "OptimisticSave(expected,...) succeeds only if expected equals the stream's current sequence number; otherwise it returns UnexpectedSequenceNumber{expected, actual} with the true current number, and every later read returns what it would have returned without the call, and nothing is broadcast.", "quantifier": "every history, stream, expected number and non-empty batch, with a context not cancelled beforehand; for the later reads, every history in which no multi-event batch, addressed to a stream that is not named aggregateType!aggregateID of its events, is rejected by the serializer (that case is C07, and there the claim fails)", "why_tests_cant": "depends on every reachable state", "anchors": ["provider/inmemorystore/inmemory_store.go:OptimisticSave", "provider/inmemorystore/inmemory_store.go:saveEvent", "provider/leveldbstore/leveldb_store.go:OptimisticSave"]}
{"id": "C06", "title": "A failed Save persists nothing (in-memory)", "statement": "If Save/OptimisticSave returns an error then no read observes any of its events. (False of the code: a batch whose later event has another aggregate type or ID, or whose context is cancelled part-way, leaves the earlier events persisted, readable and never broadcast.)", "quantifier": "every history, every failing batch and failure point", "why_tests_cant": "failure can strike at any element of any batch in any state", "anchors": ["provider/inmemorystore/inmemory_store.go:saveEvents", "provider/inmemorystore/inmemory_store.go:removeRecentEvents"]}
{"id": "C07", "title": "Rolling back a failed batch never damages other streams", "statement": "When the serializer rejects an event of a batch, every stream, including ones named like the batch's aggregate type and ID, reads the same as before. (False when the stream name is not aggregateType!aggregateID: the rollback trims the stream called aggregateType!aggregateID instead, corrupting it or panicking with the store's lock held.)", "quantifier": "every history, stream name, batch and failing position", "why_tests_cant": "needs a custom stream name, a serializer failure and a particular content of a different stream", "anchors": ["provider/inmemorystore/inmemory_store.go:removeRecentEvents", "provider/inmemorystore/inmemory_store.go:rTrimFromUint64Slice"]}
{"id": "C08", "title": "OptimisticDeleteStream removes exactly one stream", "statement": "OptimisticDeleteStream(expected,s) succeeds only if s exists and expected is its current sequence number, and then every later read returns exactly what it returned before minus the records of s; otherwise it returns ErrStreamNotFound or UnexpectedSequenceNumber{expected, actual} and changes no read. (False in one corner: after a failed first save to a stream, OptimisticDeleteStream(0) of that still empty stream returns nil instead of ErrStreamNotFound.)", "quantifier": "every history in which no multi-event batch, addressed to a stream that is not named aggregateType!aggregateID of its events, is rejected by the serializer (that case is C07, and there the claim fails), every stream and expected number", "why_tests_cant": "the in-place slice removal while ranging is only right because of a global invariant", "anchors": ["provider/inmemorystore/inmemory_store.go:OptimisticDeleteStream", "provider/inmemorystore/inmemory_store.go:RemoveIndex"]}
{"id": "C09", "title": "Global sequence numbers are never reused", "statement": "Over any history, two records that are ever readable (at whatever times) with the same global sequence number are the same record; in particular deleting the newest events does not free their numbers.", "quantifier": "every pair of moments in every history", "why_tests_cant": "quantifies over pairs of states of unbounded histories", "anchors": ["provider/inmemorystore/inmemory_store.go:saveEvent", "provider/inmemorystore/inmemory_store.go:OptimisticDeleteStream", "provider/leveldbstore/leveldb_store.go:getGlobalSequenceNumber"]}
{"id": "C10", "title": "Writes to one stream never change another stream (in-memory)", "statement": "A successful or failed Save/OptimisticSave/OptimisticDeleteStream addressed to stream s leaves EventsByStream and TotalEventsInStream of every other stream unchanged.", "quantifier": "every history in which no multi-event batch, addressed to a stream that is not named aggregateType!aggregateID of its events, is rejected by the serializer (that case is C07, and there the claim fails), every pair of stream names", "why_tests_cant": "quantifies over all name pairs and states", "anchors": ["provider/inmemorystore/inmemory_store.go:saveEvents", "provider/inmemorystore/inmemory_store.go:OptimisticDeleteStream"]}
{"id": "C11", "title": "LevelDB store implements the same log", "statement": "For every history of successful and failed calls, the LevelDB store's results and all its reads (Events, EventsByAggregateTypes, EventsByStream, TotalEventsInStream) are those of the abstract event log: same numbering, same order, same errors as in C01-C05, provided stream names and aggregate types do not contain the bytes \"$!\".", "quantifier": "every history of calls made one at a time and not blocked by C14's defect, every name without \"$!\", fewer than 2^64 events", "why_tests_cant": "byte-key encoding, prefix scans and seeks must agree for every name and number", "anchors": ["provider/leveldbstore/leveldb_store.go:saveEvents", "provider/leveldbstore/leveldb_store.go:getEventsByLookup", "provider/leveldbstore/leveldb_store.go:getEventsByPrefix", "provider/leveldbstore/leveldb_store.go:getSequenceNumber"]}
{"id": "C12", "title": "LevelDB keys isolate streams and aggregate types", "statement": "Reading or writing one stream (or type) never touches another in the LevelDB store. True for names without \"$!\"; false in general: EventsByStream(\"a\") returns records of stream \"a$!b\".", "quantifier": "every pair of names", "why_tests_cant": "collisions are byte-level and need adversarial names", "anchors": ["provider/leveldbstore/leveldb_store.go:getStreamKeyPrefix", "provider/leveldbstore/leveldb_store.go:getAggregateTypeKeyPrefix", "provider/leveldbstore/leveldb_store.go:getKeyWithNumber"]}
{"id": "C13", "title": "LevelDB batches are atomic under crash and error", "statement": "If the process stops at any point during Save/OptimisticSave/OptimisticDeleteStream on the LevelDB store, or the call returns an error, the reopened store reads either exactly as before the call or exactly as after a complete successful call.", "quantifier": "every crash point of every call in every state", "why_tests_cant": "crash points are not enumerable by unit tests", "anchors": ["provider/leveldbstore/leveldb_store.go:saveEvents", "provider/leveldbstore/leveldb_store.go:saveEvent", "provider/leveldbstore/leveldb_store.go:OptimisticDeleteStream"]}
{"id": "C14", "title": "A failed call leaves the LevelDB store usable", "statement": "After any call returns an error the store still accepts later Save and OptimisticDeleteStream calls. (False: OptimisticDeleteStream on a missing stream or with a wrong expected number leaves its transaction open, so every later write blocks forever.)", "quantifier": "every history", "why_tests_cant": "only a later call, in another test step, would hang", "anchors": ["provider/leveldbstore/leveldb_store.go:OptimisticDeleteStream"]}
{"id": "C15", "title": "In-memory and LevelDB stores are interchangeable", "statement": "Run the same sequence of calls against both stores: every call returns the same result and every read returns the same records (global numbers included), for histories in which no batch fails part-way.", "quantifier": "every history of such calls, every name without \"$!\", fewer than 2^64 events", "why_tests_cant": "equality of two implementations over unbounded histories", "anchors": ["provider/inmemorystore/inmemory_store.go", "provider/leveldbstore/leveldb_store.go", "rangedbtest/verify_store.go"]}
{"id": "C16", "title": "Merge of ordered iterators is an ordered merge", "statement": "MergeRecordIteratorsInOrder of iterators that are each strictly increasing in global number and have no number in common yields every record of every input exactly once in strictly increasing order, and ends.", "quantifier": "any number of iterators of any length and content", "why_tests_cant": "unbounded inputs, swap-remove and run-following inner loop", "anchors": ["merge_record_iterators.go:MergeRecordIteratorsInOrder", "merge_record_iterators.go:remove"]}
{"id": "C17", "title": "Merge reports iterator errors", "statement": "If an input iterator of a merge ends with an error, the merged iterator ends with an error. (False: an input that fails is dropped like one that is exhausted, and the merged read looks complete.)", "quantifier": "all inputs with errors", "why_tests_cant": "needs the error at any position of any input", "anchors": ["merge_record_iterators.go:ReadNext", "record_iterator.go:Next"]}
{"id": "C18", "title": "Iterator protocol: nothing after an error, no record with an error", "statement": "For whatever sequence of results a store sends, Next yields the records before the first error in order, Err() is nil until then and stays the error afterwards, and no further record is ever returned; without an error Next yields all records and then false with Err() nil.", "quantifier": "every sequence of results and every number of Next calls", "why_tests_cant": "unbounded call sequences", "anchors": ["record_iterator.go:Next", "record_iterator.go:NewRecordIteratorWithError"]}
{"id": "C19", "title": "Subscription from 0 delivers every event exactly once, in order (LevelDB)", "statement": "A subscription started with StartFrom(0), however its catch-up reads, its registration, concurrent saves and broadcasts interleave, delivers events in strictly increasing global order, without duplicates, and once the queues are empty has delivered every saved event exactly once (provided no receiver times out and no stream is deleted). (False for a subscription to two or more aggregate types, whose catch-up read is not one snapshot.)", "quantifier": "every interleaving of savers, broadcaster and subscriber", "why_tests_cant": "schedules", "anchors": ["pkg/recordsubscriber/record_subscriber.go:StartFrom", "pkg/recordsubscriber/record_subscriber.go:work", "pkg/broadcast/broadcaster.go:start", "provider/leveldbstore/leveldb_store.go:saveEvents"]}
{"id": "C20", "title": "StartFrom(n) delivers event n", "statement": "A subscription started with StartFrom(n) delivers every event numbered n or more. (False: if no event numbered n or more exists yet, the later event numbered exactly n is never delivered.)", "quantifier": "every n and interleaving", "why_tests_cant": "schedules and start positions", "anchors": ["pkg/recordsubscriber/record_subscriber.go:StartFrom", "pkg/recordsubscriber/record_subscriber.go:recordHasAlreadyBeenSent"]}
{"id": "C21", "title": "In-memory subscriptions miss nothing under concurrent saves", "statement": "Same as C19 for the in-memory store. (False: the lock is released before broadcasting, so two concurrent saves can broadcast in the wrong order and the subscriber drops the lower-numbered event as already sent. True when saves do not overlap.)", "quantifier": "every interleaving of two or more savers", "why_tests_cant": "needs a specific schedule of two goroutines", "anchors": ["provider/inmemorystore/inmemory_store.go:saveEvents", "pkg/recordsubscriber/record_subscriber.go:recordHasAlreadyBeenSent"]}
{"id": "C22", "title": "Broadcaster delivers to exactly the subscribed receivers, in order", "statement": "Each registered all-events receiver gets every broadcast record, each aggregate-type receiver gets exactly the records of its types, in broadcast order, from registration until removal; a receiver that times out is removed and stopped and affects no other receiver.", "quantifier": "every sequence of subscribe, unsubscribe, broadcast and timeout events", "why_tests_cant": "unbounded event sequences and timeouts", "anchors": ["pkg/broadcast/broadcaster.go:start", "pkg/broadcast/broadcaster.go:broadcastRecord"]}
{"id": "C23", "title": "Reads are snapshots", "statement": "The records an in-memory or LevelDB iterator returns are those of the store at one instant, no matter how saves and deletes by other goroutines interleave with the iteration, because writers wait until the iterator is drained or cancelled. (False for EventsByAggregateTypes with several types, which takes one snapshot per type.)", "quantifier": "every interleaving of readers and writers", "why_tests_cant": "schedules", "anchors": ["provider/inmemorystore/inmemory_store.go:recordsByIDs", "provider/leveldbstore/leveldb_store.go:getEventsByLookup"]}
{"id": "C24", "title": "Reading several aggregate types never deadlocks", "statement": "EventsByAggregateTypes with two or more types always returns. (False in the in-memory and LevelDB stores: it acquires the read lock once per type, and a writer queued in between deadlocks the reader, the writer and every later call.)", "quantifier": "every interleaving of one reader and one writer", "why_tests_cant": "needs a writer to queue inside a tiny window", "anchors": ["provider/inmemorystore/inmemory_store.go:EventsByAggregateTypes", "provider/leveldbstore/leveldb_store.go:EventsByAggregateTypes"]}
{"id": "C25", "title": "Key store: a subject's key is stable and never reused", "statement": "In the in-memory key store a successful Set is the only way to give a subject a key, Get returns that key until Delete, no two subjects ever get the same key, and a key once used can never be set again even after deletion.", "quantifier": "every sequence of Get/Set/Delete", "why_tests_cant": "unbounded histories", "anchors": ["pkg/crypto/provider/inmemorykeystore/inmemory_keystore.go"]}
{"id": "C26", "title": "Crypto-shredding is permanent", "statement": "With the in-memory and DynamoDB key stores (the latter with reads that are up to date, see C119), after Delete(subject) has returned nil every later Get returns ErrKeyWasDeleted and every later Set fails, so nothing encrypted for the subject can be decrypted or newly encrypted, whatever calls follow. (In the PostgreSQL store this holds only for subjects that have a row: deleting an unknown subject returns nil and leaves no trace.)", "quantifier": "every history after the deletion", "why_tests_cant": "quantifies over all futures", "anchors": ["pkg/crypto/provider/inmemorykeystore/inmemory_keystore.go", "pkg/crypto/eventencryptor/event_encryptor.go"]}
{"id": "C27", "title": "Cached key store never serves a deleted key", "statement": "With the cache key store, after a Delete(subject) through it has returned nil every Get(subject) through it fails, even if calls of the two underlying stores fail at any point; and as long as nobody deletes keys behind its back and no call fails, Get returns what the backing store would return. (Deleting through another process's cache is not noticed: this process goes on serving the key.)", "quantifier": "every call sequence", "why_tests_cant": "two-store histories", "anchors": ["pkg/crypto/provider/cachekeystore/cache_keystore.go"]}
{"id": "C28", "title": "Encrypt then decrypt is the identity", "statement": "For every event and any history of key-store calls that does not delete the subject, decrypting an encrypted event restores every encrypted field; encrypting draws at most one key per subject.", "quantifier": "every plaintext and history", "why_tests_cant": "unbounded inputs and histories", "anchors": ["pkg/crypto/eventencryptor/event_encryptor.go"]}
{"id": "C29", "title": "PKCS#5 padding round-trips and CBC decryption never panics on hostile input", "statement": "Trimming a padded message returns the message for every length; AES-CBC Decrypt returns an error for every malformed ciphertext. (The second half is false: a 16-byte ciphertext, one whose length is not a multiple of 16, or one with a bad final byte panics.)", "quantifier": "every byte string", "why_tests_cant": "all lengths and contents", "anchors": ["pkg/crypto/aes/cbc_pkcs5_padding.go"]}
{"id": "C30", "title": "Encrypted store: what is saved is what is read", "statement": "Through the encrypted store, saved events read back equal, in order and numbering, to what the wrapped store would return for the plain events, while the wrapped store never receives plaintext of an encrypted field; if encryption fails nothing is persisted.", "quantifier": "every batch and history without key deletion", "why_tests_cant": "all inputs", "anchors": ["provider/encryptedstore/encrypted_store.go", "provider/encryptedstore/decrypting_record_iterator.go"]}
{"id": "C31", "title": "One shredded subject must not hide other subjects' events", "statement": "After a subject's key is deleted, reading through the encrypted store still returns all other subjects' events. (False: the iterator stops at the first record whose key was deleted, hiding every later record.)", "quantifier": "every history", "why_tests_cant": "needs a deletion followed by a read past it", "anchors": ["provider/encryptedstore/decrypting_record_iterator.go"]}
{"id": "C32", "title": "Reading a decrypted record is repeatable", "statement": "Calling Record() twice between Next calls returns the same record. (False: each call decrypts again, so the second call fails or corrupts the event.)", "quantifier": "every record", "why_tests_cant": "call-pattern dependent", "anchors": ["provider/encryptedstore/decrypting_record_iterator.go:Record"]}
{"id": "C33", "title": "Aggregate type statistics equal the counts of the log", "statement": "After accepting any sequence of records, TotalEvents is its length, TotalEventsByAggregateType(t) the number of records of type t, LatestGlobalSequenceNumber the last one's number, and SortedAggregateTypes the distinct types in ascending order; loading a snapshot and replaying from LatestGlobalSequenceNumber+1 gives the same state as replaying everything. (The last part is false for aggregate types that are not UTF-8: the snapshot merges them.)", "quantifier": "every record sequence and snapshot point", "why_tests_cant": "unbounded sequences and all split points", "anchors": ["pkg/projection/aggregate_type_stats.go", "pkg/rangedbapi/api.go:initProjections"]}
{"id": "C34", "title": "Paging visits every record once and links are inverse", "statement": "Following Next links from the first page visits every record of the stream or type exactly once in order, in pages of ItemsPerPage; the Previous link of the page reached by Next is the page it came from; the number list in the link text parses back to itself. (False for stream names containing '?', '#' or '%'.)", "quantifier": "every record sequence, page size and page", "why_tests_cant": "unbounded sequences of pages", "anchors": ["pkg/paging/paging.go", "pkg/rangedbui/ui.go:aggregateType", "pkg/rangedbui/ui.go:stream", "store.go:ReadNRecords"]}
{"id": "C35", "title": "Command handling is a function of the command's own stream", "statement": "Dispatch(command) returns events determined by the command and the events of its aggregate's stream, and persists exactly the returned events. (The first half is false: the aggregate object is shared by all dispatches and never reset, so events of one aggregate influence commands on another; e.g. in the chat example only one user can ever be on-boarded per process.)", "quantifier": "every history of dispatches", "why_tests_cant": "needs two aggregates in one process", "anchors": ["pkg/cqrs/cqrs.go:Dispatch", "pkg/aggregategenerator/write_aggregate.go", "examples/chat/user_aggregate.go", "examples/chat/room_aggregate.go"]}
{"id": "C36", "title": "Unexpected-sequence-number errors survive the wire", "statement": "For all numbers e, a, the client-side parse of the server's error text for UnexpectedSequenceNumber{e,a} is UnexpectedSequenceNumber{e,a}, with any text without the marker in front.", "quantifier": "all pairs of 64-bit numbers", "why_tests_cant": "all number pairs", "anchors": ["pkg/rangedberror/errors.go", "provider/remotestore/remote_store.go", "pkg/grpc/rangedbserver/server.go"]}
{"id": "C37", "title": "Stream names parse back", "statement": "ParseStream(GetStream(t,id)) = (t,id). (False when t or id contains '!'; ParseStream panics on a name without '!'; different (t,id) pairs can share a stream name.)", "quantifier": "all type and ID strings", "why_tests_cant": "all strings", "anchors": ["store.go:GetStream", "store.go:ParseStream"]}
{"id": "C38", "title": "PostgreSQL: concurrent saves keep streams contiguous and optimistic", "statement": "However many Save/OptimisticSave transactions interleave on the PostgreSQL store, with deletes of other streams, failing statements and lost replies among them, committed records of each stream are numbered without duplicates or gaps, and of two OptimisticSave calls expecting the same number at most one commits.", "quantifier": "every interleaving of transactions", "why_tests_cant": "schedules", "anchors": ["provider/postgresstore/postgres_store.go:saveEvents", "provider/postgresstore/postgres_store.go:lockStream", "provider/postgresstore/postgres_store.go:validateStreamSequenceNumber"]}
{"id": "C39", "title": "PostgreSQL: delete removes only what it checked", "statement": "OptimisticDeleteStream(expected) deletes exactly the events it counted. (False: it takes no stream lock, so a concurrent Save between the count and the delete is deleted too.)", "quantifier": "every interleaving of a delete and a save", "why_tests_cant": "schedules", "anchors": ["provider/postgresstore/postgres_store.go:OptimisticDeleteStream"]}
{"id": "C40", "title": "PostgreSQL: a reader that has seen event g has seen all smaller numbers", "statement": "Once Events returns global number g, no event numbered below g appears later. (False: numbers are drawn from a sequence before commit, so a slower transaction commits a smaller number later; a subscriber tracking the last number skips it.)", "quantifier": "every interleaving of commits and reads", "why_tests_cant": "schedules", "anchors": ["provider/postgresstore/postgres_store.go:batchInsert", "provider/postgresstore/postgres_store.go:Events"]}
{"id": "C41", "title": "HTTP API reports the store's outcome", "statement": "POST save-events answers 201 with the new sequence number iff the store saved, 409 with both numbers iff the store reported UnexpectedSequenceNumber, 400 iff the request was malformed (and then the store is not called), 500 otherwise; delete-stream answers 200/404/409/400/500 correspondingly.", "quantifier": "every request and store outcome", "why_tests_cant": "full cross product of inputs and outcomes", "anchors": ["pkg/rangedbapi/api.go:saveEvents", "pkg/rangedbapi/api.go:deleteStream"]}
{"id": "C42", "title": "Remote store is transparent", "statement": "A client of the remote store observes for Save, OptimisticSave, OptimisticDeleteStream, EventsByStream and TotalEventsInStream the results the server's store produced, including UnexpectedSequenceNumber numbers and ErrStreamNotFound; invalid batches never reach the server. (False for events whose numbers float64 cannot represent, see C66, and for names that are not UTF-8.)", "quantifier": "every call and server state", "why_tests_cant": "composition of encoder, server and decoder over all values", "anchors": ["provider/remotestore/remote_store.go", "pkg/grpc/rangedbserver/server.go", "pkg/grpc/rangedbpb/translate.go"]}
{"id": "C43", "title": "EventStoreDB adapter: revision numbers translate both ways", "statement": "Stream sequence number k corresponds to revision k-1 for all k >= 1 in saves, reads and deletes. (OptimisticDeleteStream(0) on a stream with one event deletes it, and OptimisticSave(0) does not require an empty stream.)", "quantifier": "every k and stream length", "why_tests_cant": "boundary at 0 for all states", "anchors": ["provider/eventstore/eventstore.go"]}
{"id": "C44", "title": "Record I/O streams round-trip", "statement": "Reading back what Write produced (JSON array, newline-delimited JSON, msgpack) yields the same records in the same order, for any number of records; a truncated input yields an error. (The truncation half is false for the JSON array format.)", "quantifier": "every record sequence", "why_tests_cant": "unbounded sequences", "anchors": ["provider/jsonrecordiostream/json_record_io_stream.go", "provider/ndjsonrecordiostream/ndjson_record_io_stream.go", "provider/msgpackrecordiostream/msgpack_record_io_stream.go"]}
{"id": "C45", "title": "Exports report read errors", "statement": "If the store iterator fails while exporting, Write's error channel reports it. (False for all three formats: the export ends as if complete.)", "quantifier": "every failure position", "why_tests_cant": "failure positions", "anchors": ["provider/jsonrecordiostream/json_record_io_stream.go", "provider/ndjsonrecordiostream/ndjson_record_io_stream.go", "provider/msgpackrecordiostream/msgpack_record_io_stream.go"]}
{"id": "C46", "title": "Chat: banned users cannot join", "statement": "In the chat example, once a user is banned from a room no JoinRoom by that user for that room ever produces RoomWasJoined, for every later history; nobody joins a room that was never on-boarded (the latter is false across rooms in one process). (A JoinRoom that overlaps the ban can still be stored after it.)", "quantifier": "every history of commands", "why_tests_cant": "unbounded command histories", "anchors": ["examples/chat/room_aggregate.go", "examples/chat/restricted_word_processor.go"]}
{"id": "C47", "title": "ReadNRecords returns the first N records and releases the iterator", "statement": "ReadNRecords(n, f) returns exactly the first min(n, available) records before any error and leaves the iterator drained or cancelled so that the store's lock is released.", "quantifier": "every n and result sequence", "why_tests_cant": "all lengths and error positions", "anchors": ["store.go:ReadNRecords"]}
{"id": "C48", "title": "Publishing respects cancellation", "statement": "PublishRecordOrCancel with an already cancelled context never sends the record; it returns true iff the record was sent, and after returning false at most an error was sent.", "quantifier": "every interleaving of cancellation, receiver readiness and timeout", "why_tests_cant": "schedules", "anchors": ["publish_record.go:PublishRecordOrCancel"]}
{"id": "C49", "title": "Generated encryption is all-or-nothing", "statement": "Generated Encrypt and Decrypt methods either transform all encrypted fields or (on any error) leave all of them unchanged, except that a deleted key redacts every encrypted field.", "quantifier": "every number of fields and every failing position", "why_tests_cant": "failure at any field", "anchors": ["pkg/eventparser", "gen/eventgenerator", "examples"]}
{"id": "C50", "title": "Vault key store destroys every version", "statement": "After Delete(subject) on the Vault key store no version of the key remains and Set is refused. (False: Delete destroys versions 1 and 2 only and Set after Delete succeeds, so later versions survive a second Delete.)", "quantifier": "every history of Set/Delete", "why_tests_cant": "needs three generations of keys", "anchors": ["pkg/crypto/provider/vaultkeystore/hashicorp_vault_keystore.go"]}
{"id": "C51", "title": "PostgreSQL key store: every subject can be deleted", "statement": "Delete(subject) succeeds for every subject with a key. (False: deletion stores the empty string in a UNIQUE column, so only one subject can ever be deleted.)", "quantifier": "every history", "why_tests_cant": "needs two deletions", "anchors": ["pkg/crypto/provider/postgreskeystore/postgres_keystore.go"]}
{"id": "C52", "title": "Clocks used for ordering never go back", "statement": "The sequential clock returns strictly increasing times and the seeded clock cycles through its seed in order, for any number of calls.", "quantifier": "every number of calls", "why_tests_cant": "unbounded call counts", "anchors": ["pkg/clock/provider/sequentialclock/sequential_clock.go", "pkg/clock/provider/seededclock/seeded_clock.go"]}
{"id": "C53", "title": "A live subscription misses nothing saved after Start returned (LevelDB)", "statement": "Once Start() has returned on a LevelDB-backed subscription (all events or one aggregate type), every event saved afterwards and not deleted is delivered, in increasing global order and at most once, unless the subscription is stopped, cancelled or timed out.", "quantifier": "every interleaving of savers, broadcaster and subscriber", "why_tests_cant": "schedules", "anchors": ["pkg/recordsubscriber/record_subscriber.go:Start", "pkg/broadcast/broadcaster.go:start", "provider/leveldbstore/leveldb_store.go:saveEvents"]}
{"id": "C54", "title": "Cancelling a read releases the store", "statement": "Cancelling the context of a read releases the read lock it holds, whether or not the consumer goes on receiving, so that writers can proceed. (False for a read that ends in an error, for example EventsByStream of a missing stream on the LevelDB store: the error is sent without looking at the context, and if it is never received every later write blocks forever.)", "quantifier": "every interleaving of readers, writers and cancellations", "why_tests_cant": "schedules; the failure shows only as a hang", "anchors": ["provider/leveldbstore/leveldb_store.go:getEventsByPrefix", "provider/inmemorystore/inmemory_store.go:recordsByIDs", "publish_record.go:PublishRecordOrCancel"]}
{"id": "C55", "title": "Decrypting hostile input fails with an error", "statement": "Decrypt of the AES/GCM and of the XChaCha20-Poly1305 engine returns an error, and never panics, for every key and every cipher text that Encrypt did not produce. (True of AES/GCM; false of XChaCha20-Poly1305: with a valid key, a cipher text of 1 to 23 bytes panics.)", "quantifier": "every key string and every cipher text string", "why_tests_cant": "all lengths and contents", "anchors": ["pkg/crypto/aes/gcm.go:decrypt", "pkg/crypto/xchacha20poly1305/xchacha20poly1305.go:decrypt"]}
{"id": "C56", "title": "A failed save through the encrypted store can be retried", "statement": "When OptimisticSave through the encrypted store fails because of the stream number, saving the same event objects again with the actual number stores those events. (False: the failed call has encrypted the caller's events in place, so the retry encrypts twice and reads return cipher text.)", "quantifier": "every store, batch and history", "why_tests_cant": "needs a failed call followed by a retry with the same objects, for all events", "anchors": ["provider/encryptedstore/encrypted_store.go:Save", "provider/encryptedstore/encrypted_store.go:OptimisticSave"]}
{"id": "C57", "title": "Several decrypting subscribers see the same plain record", "statement": "When one record is handed to several subscribers of the encrypted store, each of them receives the decrypted record. (False: the record is shared and decrypted again for each subscriber; with XChaCha20-Poly1305 the second decryption panics for ordinary texts such as John.)", "quantifier": "every record, engine and number of subscribers", "why_tests_cant": "depends on the plain text and on the number of subscribers", "anchors": ["provider/encryptedstore/decrypting_record_subscriber.go", "pkg/broadcast/broadcaster.go"]}
{"id": "C58", "title": "Subscribers of the encrypted store never see data of a shredded subject", "statement": "Once Delete of a subject succeeded, a subscriber that is handed a record with personal data of the subject receives it with every personal string empty and every personal number 0.", "quantifier": "every history before and after the deletion", "why_tests_cant": "all histories", "anchors": ["provider/encryptedstore/decrypting_record_subscriber.go"]}
{"id": "C59", "title": "Statistics are complete after a restart", "statement": "After a restart that loads the statistics snapshot, once the server's subscription has come to rest, the statistics count every event of the store. (False: with an up-to-date snapshot the server subscribes from latest+1, an event not yet assigned, and the event later given that number is never counted.)", "quantifier": "every store content, snapshot point, torn snapshot and schedule of saves", "why_tests_cant": "needs every interleaving of saves with the restart", "anchors": ["pkg/rangedbapi/api.go:initProjections", "pkg/projection/disk_snapshot_store.go", "pkg/recordsubscriber/record_subscriber.go"]}
{"id": "C60", "title": "The live event counter of the web UI is right", "statement": "The live page of an aggregate type, opened while the statistics are up to date, ends up showing the number of events of that type. (False: it subscribes from the latest number and counts that event again if it is of the type.)", "quantifier": "every store content, aggregate type and schedule of saves", "why_tests_cant": "every interleaving and log", "anchors": ["pkg/rangedbui/ui.go:realtimeEventsByAggregateType"]}
{"id": "C61", "title": "What Save accepts can be read back", "statement": "With the default JSON serializer, once Save has returned success for an event, Events returns it, and saving never makes other events unreadable. (False: an event whose data is JSON null, which the HTTP API makes of a request without data, is accepted; from then on every read of all events ends with an error at that event and later events cannot be read. On LevelDB the attempt to delete its stream blocks the store.)", "quantifier": "every history of saves and deletes, every event whose names, data and metadata are valid, up to 2^64 events", "why_tests_cant": "needs all event payloads and all histories: the serializer's contract is assumed, not tested, by the stores", "anchors": ["pkg/jsontools", "provider/jsonrecordserializer/json_record_serializer.go", "provider/inmemorystore/inmemory_store.go:saveEvents", "provider/leveldbstore/leveldb_store.go:saveEvents"]}
{"id": "C62", "title": "Names are stored as given", "statement": "The stream name, aggregate type and aggregate ID of an event come back exactly as they were saved. (False: bytes that are not UTF-8 come back as U+FFFD, so that different aggregates come back under one name.)", "quantifier": "all byte strings as names, all histories", "why_tests_cant": "all byte strings", "anchors": ["provider/jsonrecordserializer/json_record_serializer.go:Serialize"]}
{"id": "C63", "title": "What is posted over HTTP is what is read over HTTP", "statement": "If POST save-events answers 201 then GET all-events.json answers with the earlier events followed by exactly the posted events, in order, with the names, data and metadata that were posted, and the client's reader reports no error. (False: integers above 2^53 come back changed, and an event posted without data makes the read end there with status 200.)", "quantifier": "every history, every request body, header and stream name, both embedded stores", "why_tests_cant": "JSON text is decoded, re-encoded, stored, decoded and written again; the number of values is unbounded", "anchors": ["pkg/rangedbapi/api.go:saveEvents", "pkg/rangedbapi/api.go:allEvents", "pkg/rangedbapi/api.go:writeEvents", "provider/jsonrecordserializer/json_record_serializer.go:UnmarshalRecord"]}
{"id": "C64", "title": "Links of listed aggregate types work", "statement": "For every aggregate type listed by list-aggregate-types, following its self link returns the events of exactly that aggregate type. (False for names with any other character than letters and '-'.)", "quantifier": "every aggregate type name", "why_tests_cant": "the route accepts an infinite set of names", "anchors": ["pkg/rangedbapi/api.go:initRoutes", "pkg/rangedbapi/api.go:listAggregateTypes", "pkg/rangedbapi/api.go:eventsByAggregateType"]}
{"id": "C65", "title": "Remote reads report errors", "statement": "If Events or EventsByAggregateTypes of the remote store ends without an error, the client has received every record the server's store has from the given position. (False: the server drops the error of its store's iterator in these two methods, so a failing read looks like the end of the log. It is reported for EventsByStream.)", "quantifier": "every list of records and every error of the server's store", "why_tests_cant": "every failure point of the server's store", "anchors": ["pkg/grpc/rangedbserver/server.go:Events", "pkg/grpc/rangedbserver/server.go:EventsByAggregateType", "provider/remotestore/remote_store.go:readRecords"]}
{"id": "C66", "title": "Event data and metadata survive the remote store", "statement": "An event saved through the remote store is read back through it with the data and metadata that were saved. (False: the server decodes numbers to float64, so integers above 2^53 come back changed, and a saved maximal uint64 makes every later remote read by a client with the bound type fail. Metadata is also changed when it is read.)", "quantifier": "every history, event and set of bound types", "why_tests_cant": "all JSON values and histories", "anchors": ["pkg/grpc/rangedbserver/server.go:Save", "pkg/grpc/rangedbpb/translate.go:ToRecord", "provider/remotestore/remote_store.go:Save"]}
{"id": "C67", "title": "PostgreSQL: events with metadata can be saved and read", "statement": "An event with metadata that is saved to the PostgreSQL store is acknowledged and can be read back. (False: the metadata column is unmarshalled into a nil interface, so the save is committed and then reported as failed, and from then on every read that reaches the event fails.)", "quantifier": "every event with metadata, every history and schedule", "why_tests_cant": "every history and metadata value", "anchors": ["provider/postgresstore/postgres_store.go:batchNotifySubscribers", "provider/postgresstore/postgres_store.go:readResultRecords"]}
{"id": "C68", "title": "PostgreSQL: calls give their connection back", "statement": "When a call of the PostgreSQL store has returned, whatever its outcome, its database connection is free again. (False: OptimisticDeleteStream returns without Rollback when the stream is missing, has another number of events, or cannot be counted; after as many such calls as there are connections no call gets through.)", "quantifier": "every history and schedule of calls and failures", "why_tests_cant": "resource exhaustion after any number of calls", "anchors": ["provider/postgresstore/postgres_store.go:OptimisticDeleteStream", "provider/postgresstore/postgres_store.go:transactionalSaveEvents"]}
{"id": "C69", "title": "PostgreSQL: a store made by New can save", "statement": "On every store that the constructor returns without an error, a Save of a valid batch that runs alone is acknowledged with the number of events in the stream. (False: without WithUUIDGenerator, as in the shipped server, every such save panics with its transaction open, and the stream stays locked for all other connections.)", "quantifier": "every option set, every history, every valid batch", "why_tests_cant": "every history and batch", "anchors": ["provider/postgresstore/postgres_store.go:New", "provider/postgresstore/postgres_store.go:eventRecordsToBatchRecords", "cmd/rangedb/main.go:getStore"]}
{"id": "C70", "title": "PostgreSQL: live events survive bad events and reconnections", "statement": "With WithPgNotify every committed event that can be decoded is handed to the subscribers, in commit order, whatever was notified before. (False: the listener ends at the first event that it cannot decode, and panics on the nil notification that follows a reconnection.)", "quantifier": "every sequence of commits and notifications", "why_tests_cant": "every sequence", "anchors": ["provider/postgresstore/postgres_store.go:listen", "provider/postgresstore/postgres_store.go:startPQListener"]}
{"id": "C71", "title": "Commands that overlap each yield their own events", "statement": "When two commands of one application are dispatched at the same time, each Dispatch saves and returns exactly the events its own command raised. (False: the generated aggregate keeps raised events in a field of the shared object, so overlapping commands can both save both events, or lose one; the chat example dispatches from its subscriber goroutine while callers dispatch.)", "quantifier": "every interleaving of two Handle calls on one aggregate", "why_tests_cant": "data race on the pending events, needs a tiny window", "anchors": ["examples/chat/room_aggregate_gen.go:Handle", "pkg/aggregategenerator/write_aggregate.go", "pkg/cqrs/cqrs.go:Dispatch"]}
{"id": "C72", "title": "Chat: a user is on-boarded at most once", "statement": "The stream of a user never holds two UserWasOnBoarded events. (False when commands overlap: Dispatch reads the stream, decides, and then saves with Save rather than OptimisticSave.)", "quantifier": "every history of commands from any number of processes, overlapping or not", "why_tests_cant": "needs two overlapping dispatches; unbounded histories", "anchors": ["pkg/cqrs/cqrs.go:Dispatch", "examples/chat/user_aggregate.go:onBoardUser"]}
{"id": "C73", "title": "Chat: joining a room depends on that room alone", "statement": "JoinRoom yields RoomWasJoined exactly if the room was on-boarded and the user was not banned from that room. (False when one process serves two rooms: a ban from one room holds in all, and a room that was never on-boarded can be joined.)", "quantifier": "every history of commands", "why_tests_cant": "needs two rooms in one process", "anchors": ["examples/chat/room_aggregate.go:joinRoom", "pkg/cqrs/cqrs.go:Dispatch"]}
{"id": "C74", "title": "EventStoreDB adapter: a deleted stream disappears from every read", "statement": "After OptimisticDeleteStream succeeds, no later read through any client returns an event of that stream. (False: Events and EventsByAggregateTypes go on returning them, unless the same process made the delete with RecordDeletedStreams and was not restarted; and the name of a deleted stream can never be used again.)", "quantifier": "every history, every later operation, every client", "why_tests_cant": "needs all later histories, restarts and several clients", "anchors": ["provider/eventstore/eventstore.go: OptimisticDeleteStream, Events, EventsByAggregateTypes, inDeletedStreams", "cmd/rangedb/main.go"]}
{"id": "C75", "title": "EventStoreDB adapter: every acknowledged event can be read", "statement": "When Save is acknowledged with number m, EventsByStream returns the saved event at number m. (False for event types that start with a dollar sign: they are acknowledged and never returned, and the next OptimisticSave with the acknowledged number is refused.)", "quantifier": "every history and event", "why_tests_cant": "depends on the event type; tests use a few fixed types", "anchors": ["provider/eventstore/eventstore.go: saveEvents, isInternalESDBEvent"]}
{"id": "C76", "title": "EventStoreDB adapter: subscribers are told of new events, once each", "statement": "The live listener of an adapter hands exactly the events saved after its creation to its subscribers, in order. (False: it begins with the whole history, so that Start() subscriptions receive old events; and one event it cannot decode, e.g. of another program, ends it for good.)", "quantifier": "every log at creation and every later event", "why_tests_cant": "needs arbitrary histories before and after creation", "anchors": ["provider/eventstore/eventstore.go: New, startSubscription, recordFromLinkedEvent"]}
{"id": "C77", "title": "Marked personal data is never stored in plain text", "statement": "If the event generator accepts a struct, every field whose tag marks it as personal data is stored encrypted for the event's subject when an event of that struct is saved through the encrypted store: a text field as what the engine makes of its text, a number field as 0 with the encrypted digits in its target.", "quantifier": "every struct declaration whose tags are well formed, every value of its fields, every key store and cipher, saved as a value or as a pointer", "why_tests_cant": "tests generate code for a handful of structs with one name per field and save pointers; a struct with another shape is silently stored in plain text and nothing fails", "anchors": ["pkg/eventparser/event_parser.go:GetEvents", "pkg/eventparser/event_writer.go:WriteEvents", "provider/encryptedstore/encrypted_store.go:Save"]}
{"id": "C78", "title": "Generated encryption code is legal Go", "statement": "For every struct the event generator accepts, the variables that the generated Encrypt and Decrypt methods declare are distinct and are neither keywords nor names that the methods need for something else, so that the generated file compiles.", "quantifier": "every struct declaration the generator accepts", "why_tests_cant": "tests compare generated text for a few field names; which names break the generated code depends on all pairs of names", "anchors": ["pkg/eventparser/event_writer.go:fileTemplate", "pkg/eventparser/event_writer.go:lcFirst"]}
{"id": "C79", "title": "A connected WebSocket or gRPC client misses no event", "statement": "When no event is on its way any more, a client of the WebSocket API or of the gRPC server whose subscription is still open has received every event of the store it subscribed to, once and in global order, whatever was saved before, while and after it connected.", "quantifier": "every schedule of saves, deletions, broadcasts, client steps, timeouts, cancellations and failures, at any number of hops between the store and the client, for every log the store holds at the start", "why_tests_cant": "tests save a few events with idle machines; what is lost depends on when a buffer is full, which save falls between two reads, and whether anybody notices that a goroutine has ended", "anchors": ["pkg/rangedbws/websocket_api.go:initBroadcaster", "pkg/rangedbws/websocket_api.go:SubscribeToAllEvents", "pkg/grpc/rangedbserver/server.go:SubscribeToEvents", "pkg/broadcast/broadcaster.go:broadcastRecord", "pkg/recordsubscriber/record_subscriber.go:StartFrom"]}
{"id": "C80", "title": "A subscription at a remote store misses no event", "statement": "When no event is on its way any more, a subscription made at a remote store and never cancelled has received every event of the server's store it subscribed to, once and in global order.", "quantifier": "every schedule of the server's store, its relay, its live subscription, the connection, the remote store's listener and the subscriber, for every log the server's store holds at the start", "why_tests_cant": "the window between the creation of a remote store and the server's handling of its request is never hit by a test, and tests send no event that the remote store cannot decode", "anchors": ["provider/remotestore/remote_store.go:New", "provider/remotestore/remote_store.go:listenForEvents", "provider/remotestore/remote_store.go:AllEventsSubscription", "pkg/grpc/rangedbserver/server.go:SubscribeToLiveEvents"]}
{"id": "C81", "title": "A command is decided on the whole stream, or refused", "statement": "When an aggregate handles a command, the events it loads are all the events of the stream, in plain text. If they cannot all be read, the command raises nothing; loading never crashes the program. (False: read errors are not looked at, events of unbound types are passed over, and an event of a deleted subject makes the loading code dereference nil.)", "quantifier": "every application, every history of saves, deletions of streams and deletions of subjects, every command", "why_tests_cant": "the failure needs a stream with an unreadable event in the middle; tests load streams of a few good events", "anchors": ["pkg/cqrs/cqrs.go:Dispatch", "pkg/aggregategenerator/write_aggregate.go:Write", "provider/encryptedstore/encrypted_store.go:Record"]}
{"id": "C82", "title": "The events of one command are stored together", "statement": "All the events that a command raises are stored, next to each other and in order, or none of them is. (False: a rejected event is skipped and the others are saved; a crash or another command can come between two saves.)", "quantifier": "every application, every history of commands, every command, every crash point and every interleaving", "why_tests_cant": "needs a failure or another goroutine exactly between two saves", "anchors": ["pkg/cqrs/cqrs.go:saveEvents", "pkg/cqrs/cqrs.go:Dispatch"]}
{"id": "C83", "title": "What a goroutine has encrypted can be read later, whatever ran at the same time", "statement": "Once Encrypt for a subject has returned a cipher text, every later Decrypt of it returns the plain text as long as the subject is not deleted, even if other goroutines encrypted for the same new subject at the same time. (False for the Vault key store, where the later of two first keys replaces the earlier.)", "quantifier": "every key store, every number of goroutines and calls, every interleaving of their key store accesses", "why_tests_cant": "a lost key needs two first encryptions to overlap in one of a few ways; tests encrypt one at a time", "anchors": ["pkg/crypto/eventencryptor/event_encryptor.go:Encrypt", "pkg/crypto/provider/vaultkeystore/hashicorp_vault_keystore.go:Set", "pkg/crypto/provider/cachekeystore/cache_keystore.go:Get"]}
{"id": "C84", "title": "Goroutines that encrypt and decrypt do not make each other fail", "statement": "Encrypt and Decrypt do not fail because another goroutine is encrypting or decrypting for the same subject. (False: one of two first encryptions fails with ErrKeyExistsForSubjectID, and one of two first reads through a new cache with ErrKeyAlreadyUsed.)", "quantifier": "every number of goroutines, every interleaving", "why_tests_cant": "depends on the interleaving of two goroutines", "anchors": ["pkg/crypto/eventencryptor/event_encryptor.go:Encrypt", "pkg/crypto/provider/cachekeystore/cache_keystore.go:Get"]}
{"id": "C85", "title": "A deleted subject stays deleted, whatever was under way", "statement": "Once Delete of a subject has returned nil, every Encrypt, Decrypt and Get for it that begins later fails with ErrKeyWasDeleted, and every Set fails, even if encryptions for it were under way during the deletion. (False for the PostgreSQL and Vault key stores.)", "quantifier": "every number of goroutines and calls, every interleaving of their key store accesses, from every state of the stores", "why_tests_cant": "needs an encryption that straddles the deletion", "anchors": ["pkg/crypto/provider/cachekeystore/cache_keystore.go:Delete", "pkg/crypto/provider/inmemorykeystore/inmemory_keystore.go:Delete", "pkg/crypto/provider/dynamodbkeystore/dynamodb_keystore.go:Delete", "pkg/crypto/eventencryptor/event_encryptor.go:Encrypt"]}
{"id": "C86", "title": "A consumer can use the store while it reads from it", "statement": "A program that loops over the events of a read, or whose subscription callback is called for past events, can save events or start another read from inside the loop or the callback, with the in-memory and the LevelDB store: the inner call returns.", "quantifier": "every store content, every read and every number of records received before the inner call, every inner write, every schedule of all goroutines", "why_tests_cant": "The tests' callbacks only record what they get, and their stores hold one or two events; the deadlock needs a record still to come.", "anchors": ["provider/inmemorystore/inmemory_store.go:EventsByAggregateTypes", "provider/inmemorystore/inmemory_store.go:Save", "provider/leveldbstore/leveldb_store.go:EventsByAggregateTypes", "pkg/recordsubscriber/record_subscriber.go:StartFrom"]}
{"id": "C87", "title": "A subscription that ends says so", "statement": "When a subscription that was started ends, because its user stopped it or cancelled its context, because it was found too slow, because its callback returned an error or because the server it belongs to was stopped, the channel returned by its Done gets closed, provided callbacks return.", "quantifier": "every number of subscriptions, topics and buffer sizes, every schedule of savers, broadcaster and subscriptions, every way of ending", "why_tests_cant": "The tests stop one idle subscription; the other endings have no test, and the result depends on the schedule of three goroutines.", "anchors": ["pkg/recordsubscriber/record_subscriber.go:work", "pkg/recordsubscriber/record_subscriber.go:Done", "pkg/broadcast/broadcaster.go:Close"]}
{"id": "C88", "title": "Saving never waits for a subscriber", "statement": "Save returns whatever subscribers do: a subscriber that is slow, or whose callback never returns, delays a save by bounded work of the store's own goroutines and cannot block it forever.", "quantifier": "every number of subscribers, topics and buffer sizes (0 included), every number of concurrent saves, every schedule", "why_tests_cant": "It must hold for every schedule and every behaviour of callbacks; a test shows one slow subscriber.", "anchors": ["pkg/broadcast/broadcaster.go:Accept", "pkg/broadcast/broadcaster.go:broadcastRecord", "provider/leveldbstore/leveldb_store.go:Save"]}
{"id": "C89", "title": "Reads of the PostgreSQL store are views of one log", "statement": "Events, EventsByAggregateTypes and EventsByStream of the PostgreSQL store return the same committed events, in increasing global order: Events(g) all from g on, EventsByAggregateTypes(g, types) exactly those of these with a requested aggregate type, EventsByStream(n, stream) exactly the stream's from n on; every acknowledged save is among them with its data as given; ErrStreamNotFound is reported only for a stream without events.", "quantifier": "every interleaving of concurrent saves and deletes with failing statements, every starting number, set of types and stream", "why_tests_cant": "The reads are separate SQL statements over the state any interleaving leaves; tests read after sequential saves.", "anchors": ["provider/postgresstore/postgres_store.go:Events", "provider/postgresstore/postgres_store.go:EventsByAggregateTypes", "provider/postgresstore/postgres_store.go:EventsByStream", "provider/postgresstore/postgres_store.go:TotalEventsInStream"]}
{"id": "C90", "title": "An EventStoreDB store can be read piece by piece", "statement": "Events(g) of the EventStoreDB adapter returns the log from global number g on and EventsByAggregateTypes the part of it with the requested types; both contain, for every live stream, exactly what EventsByStream returns; a reader that resumes from the number after the last event it handled gets exactly the rest.", "quantifier": "every history of saves, deletes, lost requests and replies and adapter restarts with event types not starting with $; resuming for servers that give every event a position of its own", "why_tests_cant": "It must hold for every history and every point at which a reader stops; tests read a handful of events in one go.", "anchors": ["provider/eventstore/eventstore.go:Events", "provider/eventstore/eventstore.go:EventsByAggregateTypes", "provider/eventstore/eventstore.go:EventsByStream"]}
{"id": "C91", "title": "An optimistic save succeeds only on the stream that was read", "statement": "A client reads all events of a stream and later calls OptimisticSave with the number of events it has read as the expected sequence number. If the call succeeds, the stream held, right up to that save, exactly the events the client has read: nobody saved to it in between, and of several clients that read the same state at most one succeeds.", "quantifier": "All histories of calls before the read and between the read and the save, in the in-memory and LevelDB stores; all schedules of concurrent calls of the PostgreSQL store.", "why_tests_cant": "The claim is about every possible sequence or interleaving of other clients' calls between two calls.", "anchors": ["provider/inmemorystore/inmemory_store.go:OptimisticSave", "provider/leveldbstore/leveldb_store.go:OptimisticSave", "provider/postgresstore/postgres_store.go:OptimisticSave"]}
{"id": "C92", "title": "A passing Given/When/Then test means exactly the expected events were raised", "statement": "If bdd.TestCase.Then(expected...) passes, the dispatched command raised exactly the expected events, in each stream in the expected order, and none besides; Then() passes exactly if it raised none; ThenInspectEvents hands over all raised events.", "quantifier": "All previous events, all commands (any sequence of calls the dispatcher makes, depending on the store), all expected events, all map iteration orders.", "why_tests_cant": "The helper is itself the test oracle of applications; whether it can pass wrongly is a statement about all dispatchers.", "anchors": ["rangedbtest/bdd/bdd.go:Then", "rangedbtest/bdd/bdd.go:ThenInspectEvents", "rangedbtest/bdd/bdd.go:recordIteratorToSlice"]}
{"id": "C93", "title": "Dispatch returns the events the aggregate raised", "statement": "CommandDispatcher.Dispatch returns the events that the aggregate raised for the command, as it raised them and in that order, without those that could not be saved; what it returns is what has been stored.", "quantifier": "All histories of an encrypted or plain store, all applications (any aggregates, commands and events), all key stores and ciphers, all ways in which saves can fail.", "why_tests_cant": "The result depends on the history of keys, on which saves fail and on the events of the application; tests of the dispatcher use a plain store and saves that succeed.", "anchors": ["pkg/cqrs/cqrs.go:Dispatch", "provider/encryptedstore/encrypted_store.go:Save", "store.go:EventRecord"]}
{"id": "C94", "title": "Reading an encrypted store that holds foreign or damaged records", "statement": "A read through the encrypted store never panics and never silently drops a record, whatever the wrapped store holds: records saved before encryption was introduced, by another program, or damaged. The reader gets every record before the first that cannot be decrypted, then an error.", "quantifier": "All contents of the wrapped store, all key stores, all three ciphers, all histories of the encrypted store.", "why_tests_cant": "It ranges over all stored bytes; tests decrypt what they have encrypted.", "anchors": ["provider/encryptedstore/decrypting_record_iterator.go:Record", "pkg/crypto/aes/gcm.go:Decrypt", "pkg/crypto/aes/cbc_pkcs5_padding.go:Decrypt"]}
{"id": "C95", "title": "A statistics page is the page of one moment", "statement": "A page of the web UI that lists the aggregate types, asked for while events arrive, shows the statistics of one moment between the request and the answer: its rows add up to its total, and each is the number of events of its type at that moment.", "quantifier": "every history counted before the request, every sequence of events that arrives, and every schedule of the handler and of the subscription that counts them", "why_tests_cant": "A test would have to stop the subscription between two reads of the handler.", "anchors": ["pkg/rangedbui/ui.go: aggregateTypes, aggregateTypesLive", "pkg/projection/aggregate_type_stats.go: Accept, SortedAggregateTypes, TotalEventsByAggregateType, TotalEvents"]}
{"id": "C96", "title": "The live statistics page catches up", "statement": "Once no more events arrive, the last message that a connected live page of the web UI receives shows all events: every type with its number of events, and the total.", "quantifier": "every sequence of events, every schedule of the connection's loop and of the subscription that counts them", "why_tests_cant": "The loop compares numbers it reads at different times; whether it can miss the last change depends on the schedule and on the order in which numbers arrive.", "anchors": ["pkg/rangedbui/ui.go: realtimeAggregateTypes", "pkg/projection/aggregate_type_stats.go: LatestGlobalSequenceNumber, Accept"]}
{"id": "C97", "title": "The rangedb command ends cleanly", "statement": "After an interrupt the rangedb command answers the HTTP requests it is handling, closes its store and ends with status 0.", "quantifier": "every moment of the interrupt, every number of requests and WebSockets, and every schedule of the goroutines of the process", "why_tests_cant": "The outcome depends on which of two goroutines runs first after Shutdown has been called; no test starts the command.", "anchors": ["cmd/rangedb/main.go: main, serveHTTP, serveGRPC"]}
{"id": "C98", "title": "A generated aggregate passes each event and command to its own method", "statement": "For every list of different exported event and command names the generated aggregate compiles with one method for each type, written by the user; loading a stream calls the method of each listed event once, in order, and handling a command calls the method of that command once and returns what it raised.", "quantifier": "all lists of names, all streams, all commands and all methods of the user", "why_tests_cant": "The tests generate code for a handful of names and compare text; they do not compile it.", "anchors": ["pkg/aggregategenerator/write_aggregate.go: Write, lcFirst, fileTemplate"]}
{"id": "C99", "title": "Generated commands and events report the names they were given", "statement": "The generated methods AggregateType, CommandType and EventType return exactly the aggregate type given to the generator and the name of the struct.", "quantifier": "all texts for the aggregate type and all type names", "why_tests_cant": "The text is put between quotes in Go source; the tests use one harmless word.", "anchors": ["pkg/commandgenerator/write_command.go: Write, fileTemplate", "pkg/eventparser/event_writer.go: WriteEvents, fileTemplate"]}
{"id": "C100", "title": "Event IDs are 32 hexadecimal digits and differ when the UUIDs differ", "statement": "The text of every UUID is 32 lower-case hexadecimal digits, different UUIDs have different texts, and texts made by New are those of version 4.", "quantifier": "all UUIDs of sixteen bytes", "why_tests_cant": "The test compares two values.", "anchors": ["pkg/shortuuid/short_uuid.go: String, New"]}
{"id": "C101", "title": "The PostgreSQL store connects with the values it was given", "statement": "When host, user, password, database name and search path are accepted from the environment, the driver is given exactly these values: no value is cut, joined with another option or read as an option of its own.", "quantifier": "all values of the environment variables that are accepted", "why_tests_cant": "Tests use one configuration with simple values; which other values survive the text of options depends on every character and on which values are empty.", "anchors": ["provider/postgresstore/config.go:DataSourceName", "provider/postgresstore/config.go:NewConfigFromEnvironment", "provider/postgresstore/postgres_store.go:New"]}
{"id": "C102", "title": "Servers of different LevelDB stores keep separate statistics snapshots", "statement": "Two runs of the rangedb command on one machine that open different LevelDB directories never read each other's snapshots of the statistics.", "quantifier": "all paths given on the command line and all working directories", "why_tests_cant": "A test starts one server in one directory; the claim is about pairs of servers, paths and working directories.", "anchors": ["cmd/rangedb/main.go:snapshotBasePath", "cmd/rangedb/main.go:getStore"]}
{"id": "C103", "title": "The gRPC event subscriber prints every event once, whatever connections break", "statement": "The command grpc-event-subscriber prints the events of the store in order, each exactly once, although its connection may break any number of times and events are saved meanwhile.", "quantifier": "all numbers of connections, moments at which they break, schedules of the server, and changes of the store between connections", "why_tests_cant": "A test breaks one connection at one moment; the claim is about every moment and every number of breaks.", "anchors": ["cmd/grpc-event-subscriber/main.go:connectAndListen", "cmd/grpc-event-subscriber/main.go:Start", "pkg/recordsubscriber/record_subscriber.go:StartFrom"]}
{"id": "C104", "title": "Chat: restricted words are answered, twice by a warning and then by a ban", "statement": "Every message with a restricted word is answered exactly once: the first two of a user by a warning, every later one by a ban. No user is banned without two warnings before.", "quantifier": "all histories of messages and all schedules of the two subscribers, with restarts of the program", "why_tests_cant": "Tests send a few messages and wait for the answers; the projection and the processor are separate goroutines, and the claim is about every interleaving and every moment of a restart.", "anchors": ["examples/chat/chat.go:New", "examples/chat/restricted_word_processor.go:Accept", "examples/chat/warned_users_projection.go:Accept"]}
{"id": "C105", "title": "Concurrent calls act one after the other", "statement": "When any number of goroutines call Save, OptimisticSave, OptimisticDeleteStream, TotalEventsInStream, Events, EventsByStream and EventsByAggregateTypes (one type) of one in-memory or LevelDB store, every call returns what it would have returned had all calls been made one at a time in some order; a call that returned before another was made comes first in that order. Two overlapping OptimisticSave calls that expect the same number of events are not both successful, and whoever reads a stream after a save of it has returned reads what was saved.", "quantifier": "all sets of calls with any arguments, all interleavings of their steps", "why_tests_cant": "a test runs a few goroutines under the schedules the runtime happens to choose; the claim is about every interleaving of every set of calls", "anchors": ["provider/inmemorystore/inmemory_store.go:saveEvents", "provider/inmemorystore/inmemory_store.go:OptimisticDeleteStream", "provider/inmemorystore/inmemory_store.go:recordsByIDs", "provider/leveldbstore/leveldb_store.go:saveEvents", "provider/leveldbstore/leveldb_store.go:getEventsByLookup", "provider/leveldbstore/leveldb_store.go:TotalEventsInStream"]}
{"id": "C106", "title": "Msgpack keeps every record", "statement": "Any sequence of records written with the msgpack stream is read back as the same records in the same order without error: names and identifiers byte for byte (they need not be UTF-8, unlike in JSON), numbers of every width, nested data. Two different sequences are never written as the same bytes, files can be joined, and a store that uses the msgpack serializer returns exactly what was saved. (Strings shorter than 4 GiB; data of an event type the reader has bound must fit its struct.)", "quantifier": "all sequences of records with any data that can be encoded, all sets of bound event types", "why_tests_cant": "Tests encode one event with two fields; whether every value, width and length is decoded to what was encoded needs an argument over all values.", "anchors": ["provider/msgpackrecordserializer/msgpack_record_serializer.go:MarshalRecord", "provider/msgpackrecordserializer/msgpack_record_serializer.go:UnmarshalRecord", "provider/msgpackrecordiostream/msgpack_record_io_stream.go"]}
{"id": "C107", "title": "A msgpack file cut short", "statement": "When a msgpack file was cut short, reading it returns a prefix of the records, unchanged, and reports an error unless the cut is between two records. (The second half is false: if the cut is between two reads of a record's fields, for instance after its first byte or after its stream name, the reader takes it for the end of the file. What is proved: exactly these cuts go unnoticed; any cut within a number, a string or the data is reported.)", "quantifier": "all sequences of records, all positions of the cut", "why_tests_cant": "A test cuts a file at one place; the places where the end of the input looks like the end of the file are found only by considering all of them.", "anchors": ["provider/msgpackrecordserializer/msgpack_record_serializer.go:UnmarshalRecord", "provider/msgpackrecordiostream/msgpack_record_io_stream.go:Read"]}
{"id": "C108", "title": "Numbers and dates on the pages", "statement": "Every count on a page of the web UI is shown as its decimal digits in groups of three, so that different counts look different, and every event is shown with the calendar date and time of day, in UTC, at which it was stored.", "quantifier": "all 64-bit counts and time stamps", "why_tests_cant": "tests try a few numbers and one date; leap years, centuries, group borders and the limits of the number types are infinitely many cases", "anchors": ["pkg/rangedbui/functions.go: formatUint64, formatDate", "pkg/rangedbui/templates"]}
{"id": "C109", "title": "Generated event binding", "statement": "When the event binder generator is given files of a package, the package compiles with the generated file, and after BindEvents every event declared in these files is found by its event type as its own struct, so that stored events are decoded into the struct they were saved from; binding more events does not disturb those bound before under other types, and it makes no difference whether a value or a pointer is bound.", "quantifier": "all packages and file lists, all sequences of Bind calls", "why_tests_cant": "tests generate from two small sources; a generator and a registry must be right for all declarations and binding orders", "anchors": ["gen/eventbinder/main.go: main, writeEventBinder, fileTemplate", "pkg/structparser/struct_names.go: GetStructNames", "event_identifier.go: Bind, EventTypeLookup, getType"]}
{"id": "C110", "title": "gRPC messages arrive as sent", "statement": "Every request and response of the gRPC service either arrives with exactly the values that were sent, or the call fails with an error: names, event data, metadata and 64-bit numbers are never changed on the way, fields added by a newer version are skipped, and no bytes from the network yield a message with broken texts or numbers.", "quantifier": "all messages of the service, all byte strings", "why_tests_cant": "tests send a few small messages; varints, empty fields, lengths and invalid bytes are unbounded cases", "anchors": ["pkg/grpc/rangedb.proto", "pkg/grpc/rangedbpb/rangedb.pb.go", "pkg/grpc/rangedbserver/server.go", "provider/remotestore/remote_store.go"]}
{"id": "C111", "title": "What was saved over gRPC can be read over gRPC", "statement": "When a request to save events is accepted over gRPC, each of its events can afterwards be read over gRPC.", "quantifier": "all events, of every size", "why_tests_cant": "only sizes near the limit of the transport show the difference", "anchors": ["cmd/rangedb/main.go: main (grpc.NewServer)", "pkg/grpc/rangedbserver/server.go: Save, Events", "provider/remotestore/remote_store.go: Save, Events"]}
{"id": "C112", "title": "EventStoreDB adapter: a refused save names the numbers", "statement": "When OptimisticSave on the EventStoreDB adapter is refused because of the sequence number, the error names the number the caller expected and a number of events the stream really had during the call.", "quantifier": "every history of saves and deletes before the call and between its check and its append, every expected number, stream and batch", "why_tests_cant": "the wrong number appears only when another client saves between the check and the append", "anchors": ["provider/eventstore/eventstore.go: saveEvents, OptimisticSave", "pkg/rangedberror/errors.go: UnexpectedSequenceNumber"]}
{"id": "C113", "title": "Web UI: stored texts appear as text", "statement": "Whatever bytes the names, types, data and metadata of stored events consist of, a browser that reads the pages of a stream, of an aggregate type and of the aggregate types finds in them the fixed markup of the pages and, in the cells of the tables, the title and the navigation, exactly the stored texts. No page contains a script, an event handler or a link to another site that comes from stored events or from the requested URL.", "quantifier": "every record and list of records, every stream name, aggregate type and total, every requested URL of the two paged pages", "why_tests_cant": "a test tries a few hostile texts; one byte escaped wrongly at one place in the pages is enough for an attack", "anchors": ["pkg/rangedbui/ui.go: stream, aggregateType, aggregateTypes, renderWithValues, RenderTemplate", "pkg/rangedbui/templates: base.gohtml, records.gohtml, pagination.gohtml, stream.gohtml, aggregate-type.gohtml, aggregate-types.gohtml"]}
{"id": "C114", "title": "Web UI: the link of a stream leads to its page", "statement": "In the table of records the link shown for a stream leads to the page of that stream, and the link shown for an aggregate type to the page of that type.", "quantifier": "every stream name and aggregate type", "why_tests_cant": "it depends on which characters the two encodings on the way treat in the same way", "anchors": ["pkg/rangedbui/templates/records.gohtml", "pkg/rangedbui/ui.go: initRoutes, stream, aggregateType"]}
{"id": "C115", "title": "A PostgreSQL notification carries the stored event", "statement": "With WithPgNotify, the text that the database sends for a stored row reads back as exactly that row, so subscribers are handed, record for record and in commit order, what a read of the same rows returns, up to the first row that cannot be decoded; no two rows have the same text, so none of them is dropped as a duplicate.", "quantifier": "every row that the table can hold (any UTF-8 texts, any numbers of the column types), every list of rows, every schedule of concurrent saves", "why_tests_cant": "the text goes through two different JSON escapers; tests use names and data in plain letters and never control characters, quotation marks, multi-byte runes or large numbers", "anchors": ["provider/postgresstore/postgres_store.go:InitDB", "provider/postgresstore/postgres_store.go:listen", "provider/postgresstore/postgres_store.go:PostgresJsonRecord"]}
{"id": "C116", "title": "A PostgreSQL store takes every save that the other stores take", "statement": "A save of events whose names and data are valid texts succeeds on a PostgreSQL store, whatever the number of events in the batch, the size of the events and the number of saves before it.", "quantifier": "every batch of any length with texts of any length, with and without WithPgNotify, after every history of accepted and refused saves", "why_tests_cant": "tests save a handful of small events into a new table; the limits lie at 7281 events in a batch, 8000 bytes of a notification and 2^31-1 numbers", "anchors": ["provider/postgresstore/postgres_store.go:batchInsert", "provider/postgresstore/postgres_store.go:InitDB", "provider/postgresstore/postgres_store.go:Save"]}
{"id": "C117", "title": "Vault: the keys of different subjects are kept apart", "statement": "With the Vault key store, what a caller is told about the key of one subject depends only on the calls made for that subject: storing, reading or destroying the key of another subject changes nothing about it.", "quantifier": "every history of get, set and delete calls for any subject IDs", "why_tests_cant": "tests use UUIDs as subject IDs; the ID is put into a URL, and it depends on its characters where the path ends", "anchors": ["pkg/crypto/provider/vaultkeystore/hashicorp_vault_keystore.go:Get", "pkg/crypto/provider/vaultkeystore/hashicorp_vault_keystore.go:Set", "pkg/crypto/provider/vaultkeystore/hashicorp_vault_keystore.go:Delete", "pkg/crypto/provider/vaultkeystore/hashicorp_vault_keystore.go:getPath"]}
{"id": "C118", "title": "A live statistics page ends when its browser has gone", "statement": "Once the browser that opened the live page of aggregate types has gone away, the server's handler for it ends, and it never ends before.", "quantifier": "every history of stored events and every schedule of accepting events and of the handler's steps, with the browser leaving at any point", "why_tests_cant": "a test closes its connection and ends; a handler that stays behind shows only after many visits", "anchors": ["pkg/rangedbui/ui.go:realtimeAggregateTypes", "pkg/projection/aggregate_type_stats.go"]}
{"id": "C119", "title": "DynamoDB key store: reads that lag behind", "statement": "With the DynamoDB key store, a deletion of a subject's key takes effect for every later call, and events that were encrypted can be decrypted, although DynamoDB may answer reads from a replica that has not seen the latest writes; decryption never yields anything but the event that was encrypted, and no subject ever gets a second key.", "quantifier": "every history of calls and every delay of every read", "why_tests_cant": "the local test double answers with the latest item; the delays of a replicated database are not under a test's control", "anchors": ["pkg/crypto/provider/dynamodbkeystore/dynamodb_keystore.go:Get", "pkg/crypto/provider/dynamodbkeystore/dynamodb_keystore.go:Set", "pkg/crypto/provider/dynamodbkeystore/dynamodb_keystore.go:Delete", "pkg/crypto/eventencryptor/event_encryptor.go"]}
{"id": "C120", "title": "The rangedb command keeps events where it was told to", "statement": "Whoever configures PostgreSQL or EventStoreDB by environment variables, or gives a LevelDB path, gets a server that keeps events in that store with exactly the given values, or no server at all; events are kept in memory only if nothing was configured.", "quantifier": "every content of the environment variables and every path", "why_tests_cant": "a test sets complete configurations; it depends on every combination of missing and present values", "anchors": ["cmd/rangedb/main.go:getStore", "provider/postgresstore/config.go:NewConfigFromEnvironment", "provider/eventstore/eventstore.go:NewConfigFromEnvironment"]}
{"id": "C121", "title": "gen-random-events saves the number of events asked for", "statement": "With -total n the command ends after it has saved n events, in new streams of between one and maxPerStream events of the given type; with an unknown type or a limit below one nothing is saved.", "quantifier": "every number, limit, type and every outcome of the random source and of the saves", "why_tests_cant": "the command has no tests; its result depends on the random source", "anchors": ["cmd/gen-random-events/main.go:main", "cmd/gen-random-events/main.go:getNEvents"]}
{"id": "C122", "title": "A WebSocket session lasts as long as its client, and no longer", "statement": "A client that has subscribed over WebSocket stays subscribed until it leaves, is found too slow or the API is stopped; then the server closes the connection, withdraws the subscription and both goroutines of the session end. Its two goroutines never write to the connection at the same time.", "quantifier": "every number of stored events, every schedule of the client, the broadcaster, the handler and the subscriber's goroutine", "why_tests_cant": "The tests connect, read some events and stop; goroutines that stay behind, clients that do not read and clients that send are not tried.", "anchors": ["pkg/rangedbws/websocket_api.go:SubscribeToAllEvents", "pkg/rangedbws/websocket_api.go:SubscribeToEventsByAggregateTypes", "pkg/rangedbws/websocket_api.go:Stop", "pkg/recordsubscriber/record_subscriber.go:StartFrom", "pkg/recordsubscriber/record_subscriber.go:work"]}
{"id": "C123", "title": "Every aggregate type can be subscribed to over WebSocket", "statement": "A WebSocket request that names aggregate types, separated by commas, and a global sequence number subscribes to exactly these types from that number on, and the ws-event-subscriber command asks for the types it was given.", "quantifier": "every list of names and every number below 2^64", "why_tests_cant": "The tests use names of letters.", "anchors": ["pkg/rangedbws/websocket_api.go:initRoutes", "pkg/rangedbws/websocket_api.go:globalSequenceNumberFromRequest", "cmd/ws-event-subscriber/main.go:main"]}
{"id": "C124", "title": "The list of aggregate types is exact", "statement": "The answer of list-aggregate-types is one JSON value and a newline. Read by a client, it lists every aggregate type that has an event in the statistics exactly once, in ascending order, each with the number of its events and the link to them, and the total number of events. (False for aggregate types that are not UTF-8: several of them appear under the same replaced name.)", "quantifier": "every sequence of events counted, every base address", "why_tests_cant": "unbounded sequences and all possible names, including those that need escaping in JSON", "anchors": ["pkg/rangedbapi/api.go:listAggregateTypes", "pkg/projection/aggregate_type_stats.go"]}
{"id": "C125", "title": "EventStoreDB: an event is read as it was saved", "statement": "An event whose save the EventStoreDB adapter acknowledged is read by EventsByStream with the names, event ID, time, data and metadata it was saved with, for names in UTF-8, data that its Go type keeps, and metadata that is any JSON value. (False: metadata is decoded without UseNumber, so that integers above 2^53 are rounded; the data is not affected.)", "quantifier": "every history of saves, deletes and restarts, every event", "why_tests_cant": "all names and values, including those that need escaping, in every history", "anchors": ["provider/eventstore/eventstore.go:saveEvents", "provider/eventstore/eventstore.go:recordFromLinkedEvent", "provider/jsonrecordserializer/json_record_serializer.go:DecodeJsonData"]}
{"id": "C126", "title": "An open gRPC subscription has lost nothing", "statement": "As long as a client's subscription call to the gRPC service is open, no event of the subscription has been lost: every event is sent or still on its way, or else the call ends so that the client can subscribe again. And once the client has left, the call ends and leaves nothing behind in the server.", "quantifier": "all interleavings of the client, the saves, the broadcaster, the handler and the subscriber's goroutine, for any number of stored and new events and each of the three subscription calls", "why_tests_cant": "The subscriber is stopped by a time-out of one second, by a shutdown or by a single record that cannot be encoded, at any moment; a test would have to wait for a silence that never ends.", "anchors": ["pkg/grpc/rangedbserver/server.go:SubscribeToLiveEvents", "pkg/grpc/rangedbserver/server.go:SubscribeToEvents", "pkg/grpc/rangedbserver/server.go:SubscribeToEventsByAggregateType", "pkg/recordsubscriber/record_subscriber.go:work", "pkg/broadcast/broadcaster.go:broadcastRecord"]}
{"id": "C127", "title": "Chat events survive being stored", "statement": "When the chat application of the examples returns an event for a command, reading the event's stream shows that event, with every field as it was given, at the end of what it showed before; other streams are unchanged; and a command that returns nothing changes nothing. (False: events are stored as JSON, which replaces bytes that are not UTF-8. The ban of a user whose ID is not UTF-8 names somebody else when it is read back, and the banned user can join. True for commands whose texts are UTF-8.)", "quantifier": "all sequences of commands by any number of processes with restarts, other users of the store, all texts", "why_tests_cant": "the tests use short ASCII texts; the property ranges over all texts and all histories", "anchors": ["examples/chat/room_events.go", "examples/chat/user_events.go", "examples/chat/bind_events_gen.go:BindEvents", "provider/jsonrecordserializer/json_record_serializer.go:unmarshalRecord", "pkg/cqrs/cqrs.go:Dispatch"]}
{"id": "C128", "title": "A subscription that cannot read the past says so", "statement": "When a subscription is started from a number and the start reports success, the stored events from that number on could be read: everything that is stored has been delivered, in order, before anything new. If the store's reads end with an error, the start reports it. (False: the loop looks at the iterator's error only while there is another record, so no error of a read is ever reported. The subscription is registered and goes on with new events; the stored ones after the error are never delivered. After one event with data null in a JSON store this is so for every subscription.)", "quantifier": "all stores' answers to the two reads, all starting numbers, all consumers; all histories before and after an event with null data", "why_tests_cant": "The read error depends on a stored event that somebody else saved, or on a failure at one moment; the loss is silent, so a test sees a successful start.", "anchors": ["pkg/recordsubscriber/record_subscriber.go:StartFrom", "pkg/recordsubscriber/record_subscriber.go:writeRecords", "store.go:RecordIterator"]}
{"id": "C129", "title": "Whoever reads an encrypted store survives deleted subjects", "statement": "Deleting the key of a data subject makes that subject's personal data unreadable and nothing else: the gRPC server, the WebSocket server, exports in every format and pages of the web interface over an encrypted store go on working, and an export that is incomplete reports it. (False: the iterator answers the first record of a deleted subject with a nil record and no error until the next call. The reading methods of the gRPC server and the MessagePack export dereference it and end the process; a subscription at the gRPC or WebSocket server panics before it is registered (subscriptions of the encrypted store itself are C57 and C58); JSON exports contain null and report success; pages contain a nil record.)", "quantifier": "all histories of saves, deletions and key deletions, all starting numbers, every loop over the iterator, both key stores that remember deletions", "why_tests_cant": "It depends on the history: which subjects were deleted, and where their records lie in what is read. The tests read stores without deleted subjects, or look at the iterator itself.", "anchors": ["provider/encryptedstore/decrypting_record_iterator.go:Record", "pkg/grpc/rangedbserver/server.go:SubscribeToEvents", "pkg/rangedbws/websocket_api.go", "pkg/grpc/rangedbserver/server.go:Events", "pkg/grpc/rangedbpb/translate.go:ToPbRecord", "provider/jsonrecordiostream/json_record_io_stream.go:Write", "provider/msgpackrecordiostream/msgpack_record_io_stream.go:Write", "store.go:ReadNRecords", "pkg/recordsubscriber/record_subscriber.go:writeRecord"]}
{"id": "C130", "title": "A LevelDB store whose disk fails says so, changes nothing, and works again when the disk does", "statement": "A save or delete during which the database reports an error either has its full effect, or returns an error, changes nothing and announces nothing; and when the disk works again, so does the store. (False: a save whose commit failed leaves the transaction open, and every later save and delete waits for ever, soon every read too; a save that fails to read the last number of its stream takes it for 0, succeeds, and overwrites the first event of the stream; a delete whose reading stops early deletes part of the stream. What holds: failures to open the transaction, and to write events of a save, at any calls of any history.)", "quantifier": "all histories of saves and deletes, with any faults at any of their calls of the database, for every event of a save separately", "why_tests_cant": "Faults of a disk cannot be produced in unit tests of this store, which uses a real directory; and what they do depends on the state of the store and on which of the calls fails.", "anchors": ["provider/leveldbstore/leveldb_store.go:saveEvents", "provider/leveldbstore/leveldb_store.go:saveEvent", "provider/leveldbstore/leveldb_store.go:OptimisticDeleteStream", "provider/leveldbstore/leveldb_store.go:getSequenceNumber", "provider/leveldbstore/leveldb_store.go:getGlobalSequenceNumber"]}
{"id": "C131", "title": "A read of a LevelDB store that could not be finished, or of a stopped store, says so", "statement": "A read that ends without an error has returned everything that is stored and asked for; a read that met an error of the database, or is made after Stop, ends with an error. (False: the iterator's error is thrown away, so a read that was cut short looks complete, a stream whose first entry cannot be read looks as if it did not exist, and its number of events is 0; after Stop every read looks like one of an empty store. What holds: if fetching a record fails, the read ends with the error after a prefix of what was asked for.)", "quantifier": "all histories, all starting numbers, all types and streams, every entry at which the iterator may stop, every record whose fetch may fail; all states in which the store is stopped", "why_tests_cant": "A disk error at one entry of a read cannot be produced in a test that uses a real directory, and its result looks like a correct result of another store.", "anchors": ["provider/leveldbstore/leveldb_store.go:getEventsByPrefix", "provider/leveldbstore/leveldb_store.go:getEventsByLookup", "provider/leveldbstore/leveldb_store.go:TotalEventsInStream", "provider/leveldbstore/leveldb_store.go:Stop"]}
{"id": "C132", "title": "A PostgreSQL save or delete that returned an error has changed nothing", "statement": "If Save, OptimisticSave or OptimisticDeleteStream of the PostgreSQL store returns an error, then the call has stored no event, deleted no event and told no subscriber anything, whichever of its statements failed and whatever other calls ran meanwhile. (False in two cases: the reply to the commit is lost; and, without any fault, an event with metadata or with data that the store cannot decode, for which the error comes after the commit.)", "quantifier": "all schedules of any number of concurrent calls, with failures of any statement of any of them", "why_tests_cant": "Which statement fails, and what runs meanwhile, is not under a test's control.", "anchors": ["provider/postgresstore/postgres_store.go:transactionalSaveEvents", "provider/postgresstore/postgres_store.go:OptimisticDeleteStream", "provider/postgresstore/postgres_store.go:batchNotifySubscribers"]}
{"id": "C133", "title": "Used by one caller at a time, the PostgreSQL store behaves like the in-memory store", "statement": "Whatever calls are made one after the other, by any clients, the PostgreSQL store returns for each call, and for every read in between, what an in-memory store with the JSON serializer returns for the same calls, and its subscribers get the same events.", "quantifier": "all finite sequences of Save, OptimisticSave and OptimisticDeleteStream calls, all clients, all reads after any prefix of them", "why_tests_cant": "A test compares the stores on a few sequences of calls; the equality must hold after every sequence, with every stream name, batch, expected number and read position.", "anchors": ["provider/postgresstore/postgres_store.go: OptimisticSave, Save, OptimisticDeleteStream, Events, EventsByStream, EventsByAggregateTypes, TotalEventsInStream", "provider/inmemorystore/inmemory_store.go: OptimisticSave, Save, OptimisticDeleteStream, Events, EventsByStream, EventsByAggregateTypes, TotalEventsInStream"]}
{"id": "C134", "title": "An export that reports no error has written everything", "statement": "If RecordIoStream.Write closes its error channel without sending an error, then the writer has received every byte of the export.", "quantifier": "all formats (JSON, newline-delimited JSON, msgpack), all iterators, and all writers: any number of bytes of any call of io.Writer.Write may be refused", "why_tests_cant": "a test's buffer takes everything; the failing call, and how much of it the writer took, may be any", "anchors": ["provider/jsonrecordiostream/json_record_io_stream.go:Write", "provider/ndjsonrecordiostream/ndjson_record_io_stream.go:Write", "provider/msgpackrecordiostream/msgpack_record_io_stream.go:Write"]}
{"id": "C135", "title": "An import whose reader fails reports it", "statement": "If the io.Reader given to RecordIoStream.Read fails before the whole export was read, the iterator ends with an error; the records returned before it are the first ones of the export, unchanged.", "quantifier": "all formats, all lists of records, and every position in the file at which the reader can fail", "why_tests_cant": "the reader can fail at any byte; tests read from buffers", "anchors": ["provider/jsonrecordiostream/json_record_io_stream.go:Read", "provider/ndjsonrecordiostream/ndjson_record_io_stream.go:Read", "provider/msgpackrecordiostream/msgpack_record_io_stream.go:Read", "provider/msgpackrecordserializer/msgpack_record_serializer.go:UnmarshalRecord"]}
{"id": "C136", "title": "A call of the remote store whose reply is lost can be repeated", "statement": "A Save or OptimisticSave through the remote store that returned an error has saved nothing. If it cannot be known whether it has, because the connection broke, a client may repeat an OptimisticSave with the same expected number as often as it likes: at most one of the calls changes the store, the others change nothing that can be read, at most one is answered with success, and a refusal tells a client that is the only one to use the stream that an earlier call was carried out.", "quantifier": "all sequences of repetitions, all losses of requests and replies, all cancellations on the server, all interleaved calls of others that do not delete the stream, all histories before", "why_tests_cant": "a test breaks a connection at one place, if at all; the claim is about every combination of losses and calls of others", "anchors": ["provider/remotestore/remote_store.go:Save", "provider/remotestore/remote_store.go:OptimisticSave", "pkg/grpc/rangedbserver/server.go:OptimisticSave", "provider/inmemorystore/inmemory_store.go:saveEvents"]}
{"id": "C137", "title": "A delete of the remote store whose reply is lost can be repeated", "statement": "An OptimisticDeleteStream through the remote store may be repeated with the same expected number when it is not known whether it was carried out. Each call leaves everything that can be read as it was, or finds exactly the expected number of events in the stream and removes these and no others. A client that repeats it removes only events that were stored before its first call. When a call succeeds or is answered that the stream is not found, the stream has no events any more.", "quantifier": "all sequences of repetitions, all losses of requests and replies, all cancellations on the server, all interleaved calls of others, all histories before", "why_tests_cant": "a test breaks a connection at one place, if at all; the claim is about every combination of losses and calls of others", "anchors": ["provider/remotestore/remote_store.go:OptimisticDeleteStream", "pkg/grpc/rangedbserver/server.go:OptimisticDeleteStream", "provider/inmemorystore/inmemory_store.go:OptimisticDeleteStream"]}
{"id": "C138", "title": "The counts in the replies of the gRPC server", "statement": "The reply to a successful save through gRPC says how many events the call added to the store, and what length the stream now has; the reply to a successful delete says how many events the call removed.", "quantifier": "all histories, all requests, all lengths of streams", "why_tests_cant": "the counts are cut to 32 bits, and no test has streams that long; and that the request's own number is the right one depends on every path of the store", "anchors": ["pkg/grpc/rangedbserver/server.go:Save", "pkg/grpc/rangedbserver/server.go:OptimisticSave", "pkg/grpc/rangedbserver/server.go:OptimisticDeleteStream"]}
{"id": "C139", "title": "Used by one caller at a time, the EventStoreDB store behaves like the in-memory store", "statement": "Whatever calls one client makes one after the other, the EventStoreDB store returns for each call, and for every read in between, the events and errors that an in-memory store returns for the same calls; only the global sequence numbers differ.", "quantifier": "all finite sequences of Save, OptimisticSave and OptimisticDeleteStream calls, all positions that the server gives to the events, all reads after any prefix of the calls", "why_tests_cant": "A test compares the stores on a few sequences of calls; the equality must hold after every sequence, with every stream name, batch, expected number and read position.", "anchors": ["provider/eventstore/eventstore.go: OptimisticSave, Save, OptimisticDeleteStream, Events, EventsByStream, EventsByAggregateTypes, TotalEventsInStream", "provider/inmemorystore/inmemory_store.go: OptimisticSave, Save, OptimisticDeleteStream, Events, EventsByStream, EventsByAggregateTypes, TotalEventsInStream"]}
{"id": "C140", "title": "A subscriber never receives an event twice, out of order, or unasked", "statement": "Whatever saves, deletes, time-outs, cancellations and failures happen, a subscriber of a LevelDB or in-memory store, and a client at the end of any chain of WebSocket, gRPC and remote store subscriptions, receives events in strictly increasing global order, so none twice; each of them was really saved and is of a type it asked for.", "quantifier": "every schedule of saves, deletions, broadcasts, subscriber steps, timeouts, cancellations and failures, every log at the start, every starting point, every list of types, every chain of hops", "why_tests_cant": "A test sees a few schedules; duplicates and inversions show only when a save falls between two particular steps of the subscription's start.", "anchors": ["pkg/recordsubscriber/record_subscriber.go:StartFrom", "pkg/recordsubscriber/record_subscriber.go:work", "pkg/broadcast/broadcaster.go:start", "pkg/rangedbws/websocket_api.go:initBroadcaster", "pkg/grpc/rangedbserver/server.go:SubscribeToEvents"]}
{"id": "C141", "title": "A repeated OptimisticSave over the remote store takes effect at most once", "statement": "A client of a remote store that repeats an OptimisticSave until it gets a reply, whatever requests and replies are lost, stores its events at most once, as long as nobody deletes the stream; success is reported for the call that stored them only; and if nobody else uses the stream, a refusal because of the sequence number tells the client that an earlier call has stored them.", "quantifier": "all sequences of repetitions, all losses of requests and replies, all cancellations on the server, all interleaved calls of others that do not delete the stream, all histories before", "why_tests_cant": "A test can lose one reply at one place; the guarantee is for every pattern of losses and everything that others do in between.", "anchors": ["provider/remotestore/remote_store.go:OptimisticSave", "pkg/grpc/rangedbserver/server.go:OptimisticSave", "provider/inmemorystore/inmemory_store.go:saveEvents"]}
{"id": "C142", "title": "Chat: nobody is banned without two warnings", "statement": "In every run of the chat example, with any restarts, if nobody else bans: before every ban of a user in the log there are at least two warnings of that user.", "quantifier": "all histories of messages, all schedules of the two subscribers, all restarts of the program", "why_tests_cant": "The projection that counts the warnings runs at the same time as the processor that bans; a test sees a few of the interleavings.", "anchors": ["examples/chat/chat.go:New", "examples/chat/restricted_word_processor.go:Accept", "examples/chat/warned_users_projection.go:Accept"]}
{"id": "C143", "title": "Chat: a stored ban keeps the user out", "statement": "Once the stream of a room holds the ban of a user, no JoinRoom of that user that starts afterwards, in any goroutine or process and whatever that process has seen before, yields an event, as long as nobody deletes the stream.", "quantifier": "all schedules of any number of goroutines and processes before and after the ban, all commands", "why_tests_cant": "A test runs one process; the aggregate objects of other processes hold other states when the command arrives.", "anchors": ["examples/chat/room_aggregate.go", "pkg/cqrs/cqrs.go:Dispatch"]}
{"id": "C144", "title": "A statistics page never shows more than there is", "statement": "A page of the statistics lies between the counts when it was asked for and those when it was sent, its rows never add up to more than its total, and if nothing is counted meanwhile it is exact; every message of the live page has rows that add up to no more than its total, which is no more than the number of events.", "quantifier": "every history counted before the request, every sequence of events that arrives, and every schedule of the handler and of the subscription that counts them", "why_tests_cant": "The numbers are read one after the other while another goroutine changes them; a test cannot choose the moment.", "anchors": ["pkg/rangedbui/ui.go: aggregateTypes, aggregateTypesLive", "pkg/projection/aggregate_type_stats.go: Accept, SortedAggregateTypes, TotalEventsByAggregateType, TotalEvents"]}
{"id": "C145", "title": "The rangedb command: status 0 means a clean end", "statement": "Under every schedule the command ends with status 0 or 1 and only after Shutdown was called; if it ends with status 0, every request was answered and the store is closed; and no HTTP request other than a WebSocket's is being handled while the store is closed.", "quantifier": "every moment of the interrupt, every number of requests and WebSockets, and every schedule of the goroutines of the process", "why_tests_cant": "A test interrupts the process at a few moments, with few requests under way.", "anchors": ["cmd/rangedb/main.go: main, serveHTTP, serveGRPC"]}
{"id": "C146", "title": "Dispatch returns what was stored", "statement": "Whenever Dispatch returns on an encrypted store, for events with or without personal data, the wrapped store holds, in addition to what it held before, exactly the returned events in this order, byte for byte as they were returned, whichever saves failed.", "quantifier": "all histories of the store, all applications, all key stores and ciphers, all ways in which saves can fail", "why_tests_cant": "A test has one application and saves that succeed; what is returned after some saves failed, or with encrypted data, is never looked at.", "anchors": ["pkg/cqrs/cqrs.go:Dispatch", "provider/encryptedstore/encrypted_store.go:Save"]}
{"id": "C147", "title": "DynamoDB key store: old reads never yield wrong data", "statement": "However old the answers of DynamoDB are, an event that was encrypted is decrypted to exactly what it was, or not at all, whatever calls and deletions are made in between; and two reads of a subject's key never return two different keys.", "quantifier": "every history of calls before and after, and every delay of every read", "why_tests_cant": "A local DynamoDB answers at once with the newest version; delays cannot be produced by a test.", "anchors": ["pkg/crypto/provider/dynamodbkeystore/dynamodb_keystore.go: Get, Set, Delete", "pkg/crypto/eventencryptor/event_encryptor.go"]}
{"id": "C148", "title": "Reads of a stream, of one type, or of all events never get stuck", "statement": "If every read asks for a stream, for one aggregate type or for all events, then readers that read to the end and writers never deadlock: while a call has not returned or a lock is held, somebody can go on, and every schedule ends with everything done.", "quantifier": "every schedule of any number of readers and writers, every content of the store", "why_tests_cant": "A deadlock shows in the one schedule in which the lock is asked for at the wrong moment.", "anchors": ["provider/inmemorystore/inmemory_store.go: Events, EventsByStream, EventsByAggregateTypes, saveEvents", "provider/leveldbstore/leveldb_store.go: Events, EventsByStream, EventsByAggregateTypes, saveEvents"]}
{"id": "C149", "title": "Encrypted store: reads are exact up to the first record of a deleted subject", "statement": "After every history, with any subjects deleted, every read of an encrypted store (of a stream, of all events, or of types none of which is named twice) returns exactly what an unencrypted store with the same history returns, up to the first record with personal data of a deleted subject; there it returns ErrKeyWasDeleted.", "quantifier": "every history of saves, deletes and deletions of subjects, every engine, the in-memory and the DynamoDB key store", "why_tests_cant": "A test has one subject and one event; that nothing else changes needs every history and every order of deletions.", "anchors": ["provider/encryptedstore/encrypted_store.go", "provider/encryptedstore/decrypting_record_iterator.go", "pkg/crypto/eventencryptor/event_encryptor.go"]}
{"id": "C150", "title": "The gRPC event subscriber misses nothing, whatever connections break", "statement": "Over LevelDB, with a server that sends everything within its time limit, and asked for all events or one type: the gRPC event subscriber has printed every live event it was asked for with a number up to the last one it received, whatever connections broke at whatever moments; once a connection stays, it has printed all of them; and the numbers it prints never go down.", "quantifier": "all numbers of connections, moments at which they break, schedules of the server, and changes of the store between connections", "why_tests_cant": "A test breaks a connection once, between two events.", "anchors": ["cmd/grpc-event-subscriber/main.go:connectAndListen", "cmd/grpc-event-subscriber/main.go:Start", "pkg/recordsubscriber/record_subscriber.go:StartFrom"]}
{"id": "C151", "title": "A read of one stream, one type or all events is a snapshot", "statement": "What the iterator of such a read hands out is a prefix of what its query returns for the content of the store at one moment after the call, at which no write was under way, and all of it if it was read to its end.", "quantifier": "every interleaving of any number of readers and writers, every query, every write", "why_tests_cant": "A test cannot place a write between two records of a read.", "anchors": ["provider/inmemorystore/inmemory_store.go:recordsByIDs", "provider/leveldbstore/leveldb_store.go:getEventsByLookup"]}
{"id": "C152", "title": "EventStoreDB adapter: a deleted stream stays deleted for readers of the stream", "statement": "After OptimisticDeleteStream has returned nil, EventsByStream of that stream says that it is not found, for every client and for ever, whatever is called later, and no later save to it is accepted.", "quantifier": "every history before and after the delete, every client, lost requests and replies", "why_tests_cant": "A test reads once after the delete.", "anchors": ["provider/eventstore/eventstore.go: OptimisticDeleteStream, EventsByStream, OptimisticSave"]}
{"id": "C153", "title": "AES/GCM: hostile or damaged records never crash a reader", "statement": "With AES/GCM, whatever keys and texts the key store and the wrapped store hold, decryption never panics; a read that reports no error has returned every record, each decrypted.", "quantifier": "every key and text, every content of the wrapped store, every key store", "why_tests_cant": "A test tries a few damaged texts.", "anchors": ["pkg/crypto/aes/gcm.go:decrypt", "provider/encryptedstore/decrypting_record_iterator.go:Record"]}
{"id": "C154", "title": "A msgpack import reports every failure of its reader", "statement": "If the reader of a msgpack import fails anywhere in the file, even directly behind a complete record, the import reports an error, and the records it has returned are those before, whole and unchanged.", "quantifier": "all lists of records, every position at which the reader can fail", "why_tests_cant": "A test fails the reader at one position.", "anchors": ["provider/msgpackrecordiostream/msgpack_record_io_stream.go:Read", "provider/msgpackrecordserializer/msgpack_record_serializer.go:UnmarshalRecord"]}
{"id": "C155", "title": "Remote store: deletes and counts are those of the server's store", "statement": "OptimisticDeleteStream and TotalEventsInStream of a remote store do what the server's store does: the store ends in the same state, a success arrives as the same success, an unexpected-number or not-found error as the same error, and any other error as an error, for every stream name that is UTF-8 and every store whose other errors do not contain the texts of these two.", "quantifier": "every store behind the server, every state of it, every stream name and number of 64 bits", "why_tests_cant": "A test uses one store and the errors it happens to produce; the errors travel as text that other texts can resemble.", "anchors": ["provider/remotestore/remote_store.go: OptimisticDeleteStream, TotalEventsInStream", "pkg/grpc/rangedbserver/server.go: OptimisticDeleteStream, TotalEventsInStream"]}
{"id": "C156", "title": "A LevelDB store survives crashes and restarts at any moment", "statement": "A LevelDB directory is opened by one process after another; each may be killed at any moment, also in the middle of Save, OptimisticSave or OptimisticDeleteStream. After every restart the store contains the effects of exactly the calls that returned, in order, and of each interrupted call either everything or nothing: every read, count, save and delete behaves accordingly. An event that a read or a successful save once showed is read ever after, with the same numbers and bytes, unless its stream is deleted, and after a restart no call hangs.", "quantifier": "all sequences of calls, restarts and crashes, all crash points within calls, all batches, expected numbers, cancellations and names that do not clash (C12)", "why_tests_cant": "Crash points within a call, and combinations of many crashes with later calls, cannot be enumerated by tests; the tests of the store never reopen a directory.", "anchors": ["provider/leveldbstore/leveldb_store.go: New, saveEvents, OptimisticDeleteStream, Events, EventsByStream, EventsByAggregateTypes, TotalEventsInStream"]}
{"id": "C157", "title": "A repeated OptimisticSave takes effect at most once also when the LevelDB server behind it crashes", "statement": "A client of the remote store repeats an OptimisticSave with the same expected number until it is answered. Requests and replies are lost, and the server, whose store is LevelDB, is killed at arbitrary moments, also within these calls, and started again. As long as nobody deletes the stream, at most one of the calls changes what is on disk, only that one can be answered with success, and, if nobody else uses the stream, a refusal because of the sequence number tells the client that one of its earlier calls is on disk.", "quantifier": "all histories of the server with crashes and restarts, all numbers of repetitions, all losses of requests and replies, all crash points, all interleaved calls of others", "why_tests_cant": "The outcome depends on where in the transaction the server dies and on which message is lost; no test kills the server.", "anchors": ["provider/remotestore/remote_store.go: OptimisticSave", "pkg/grpc/rangedbserver/server.go: OptimisticSave", "provider/leveldbstore/leveldb_store.go: New, saveEvents"]}
{"id": "C158", "title": "PostgreSQL: cancelling the contexts of returned calls frees everything", "statement": "Whatever mixture of saves and deletes was called on the PostgreSQL store, in whatever interleaving and with whatever statements failing: once all calls have returned, whatever their outcome, and their contexts are then cancelled, as the HTTP and gRPC servers do after every request, no database connection is taken any more and no stream is locked; the cancellations change no event, no answer and no notification. Used by one caller at a time in this way, the store behaves as C133 says however many deletes are refused, as long as it has one connection.", "quantifier": "all schedules of any number of clients, all failing statements, all outcomes including panics, all sequences of calls", "why_tests_cant": "The leak only shows after as many refused deletes as there are connections, and whether it heals depends on when contexts are cancelled relative to all other calls; a test runs one such order.", "anchors": ["provider/postgresstore/postgres_store.go:OptimisticDeleteStream", "provider/postgresstore/postgres_store.go:saveEvents", "pkg/grpc/rangedbserver/server.go:OptimisticDeleteStream"]}
{"id": "C159", "title": "A repeated delete takes effect at most once also when the LevelDB server behind it crashes", "statement": "A client of the remote store repeats OptimisticDeleteStream with the same expected number, over connections that break, while the server, whose store is LevelDB, is killed and started again at any moment, within its calls or those of others. Every call leaves what is on the disk as it was, or finds exactly the expected number of events in the stream and removes these and no others. If nobody else saves to the stream, at most one of the calls removes anything, and only that one is answered with success; and when a call succeeds or is answered that the stream is not found, the stream is empty and no later call changes anything.", "quantifier": "all lives of the server's directory, all positions of crashes, restarts and broken connections, all calls of others in between, all streams and numbers", "why_tests_cant": "Whether a repeated delete removes events twice depends on the moment of every crash relative to the commit and on what others do between the repetitions.", "anchors": ["provider/remotestore/remote_store.go:OptimisticDeleteStream", "provider/leveldbstore/leveldb_store.go:OptimisticDeleteStream", "pkg/grpc/rangedbserver/server.go:OptimisticDeleteStream"]}
{"id": "C160", "title": "HTTP and gRPC show the same events of one server", "statement": "A server offers one store over HTTP and over gRPC. Whatever requests to save and to delete it has received over both, in any order and accepted or refused, as long as every event had data: a read of all events from any number on has no error, and the records that /all-events.json shows, those of its newline-separated form and those that a gRPC client receives are the same, all of them those of the store, in order. The same holds of a read of one stream or of some aggregate types that the store answers without an error. So events posted with a 201 are read over gRPC behind the earlier ones, and events saved over gRPC are shown by HTTP: numbers that float64 rounds are rounded once, when they arrive, and read the same by everybody.", "quantifier": "all sequences of requests with arbitrary bodies, headers, stream names and messages; both stores; every starting number, stream and set of aggregate types", "why_tests_cant": "The ways of reading use different encodings and decode metadata differently; whether they agree depends on every value that the other interfaces let in, so a test can only compare some bodies.", "anchors": ["cmd/rangedb/main.go:main", "pkg/rangedbapi/api.go:saveEvents", "pkg/rangedbapi/api.go:writeEvents", "pkg/grpc/rangedbserver/server.go:Save", "pkg/grpc/rangedbserver/server.go:Events", "pkg/grpc/rangedbpb/translate.go:ToPbRecord", "provider/remotestore/remote_store.go:readRecords"]}
{"id": "C161", "title": "An encrypted LevelDB store survives crashes and restarts exactly as far as its key store does", "statement": "An encrypted store over a LevelDB store is used by one process after another: any calls, any operations on its key store, and processes that are stopped or killed at any moment, also in the middle of an encryption, a save or a delete. If the key store is PostgreSQL, DynamoDB or Vault and no subject of an event is deleted from it, the store then holds what an unencrypted LevelDB store would hold after the same calls: every call that returned counts, a call in which the process was killed counts as a whole or not at all; every read that returns decrypts everything, and events whose save reported success are returned as they were passed. With DynamoDB, subjects may also be deleted: they stay deleted across restarts, and reads return the records up to the first one of a deleted subject. With the in-memory key store all personal data is lost when the process ends: the next process can read the records before the first one with personal data, then gets a nil record and the error that there is no key; the numbers of events in streams are still right.", "quantifier": "all lives of the store (sequences of saves, optimistic saves, deletes, key store operations, restarts, and kills at any step of an encryption, save or delete), events, subjects, codecs, encryptors and tapes of randomness; PostgreSQL, DynamoDB, Vault and in-memory key stores", "why_tests_cant": "Tests do not kill the process between the encryption of an event, the storage of its key and the write of the record, and no test of the repository opens an encrypted LevelDB store twice.", "anchors": ["provider/encryptedstore/encrypted_store.go:Save", "provider/encryptedstore/encrypted_store.go:Events", "provider/encryptedstore/decrypting_record_iterator.go:Record", "provider/leveldbstore/leveldb_store.go:New", "pkg/crypto/provider/inmemorykeystore/inmemory_keystore.go:New", "pkg/crypto/provider/dynamodbkeystore/dynamodb_keystore.go:Get"]}
{"id": "C162", "title": "Pretty-printed JSON is the same JSON in one normal form", "statement": "PrettyJSON and PrettyJSONString return, for every JSON text, a JSON text that differs from it only in white space outside of strings: keys keep their order, numbers and strings their spelling. Two JSON texts give the same result exactly when they differ in such white space only, a result given back in stays as it is, and every element and field is on a line of its own, indented by two spaces per level. For a text that is no JSON the result is empty, so two such texts are not told apart.", "quantifier": "every sequence of bytes, valid or not; every value of any size, nested up to the 10000 levels that encoding/json accepts", "why_tests_cant": "A test compares a few texts; that no text is changed, and that no two different texts become equal, is a claim about all of them.", "anchors": ["pkg/jsontools/json_tools.go:PrettyJSON", "pkg/jsontools/json_tools.go:PrettyJSONString", "pkg/rangedbapi/api_test.go:assertJsonEqual"]}
{"id": "C163", "title": "What a live subscriber is told of an event is what a reader is shown", "statement": "Take a server with one store, and any requests over HTTP and gRPC. If a request to save is answered with success, then the server hands its events to the live subscribers, each once, in order, with their numbers; the message that a WebSocket subscriber gets for an event and the message that a gRPC subscriber gets for it both decode to the very record that every later read of the store returns for it. A request that is refused tells the subscribers nothing. With the LevelDB store, after any requests to save, accepted or refused, the readable events are exactly the events that were handed to the subscribers, in the same order.", "quantifier": "every sequence of requests, every further request, every event with data, both stores", "why_tests_cant": "a test subscribes, saves a few events and compares them; it does not cover every text in every field, refused requests in any history, or the two kinds of messages next to each other", "anchors": ["pkg/rangedbws/websocket_api.go: broadcastRecord", "pkg/grpc/rangedbserver/server.go: broadcastRecord", "pkg/grpc/rangedbpb/translate.go: ToPbRecord, ToRecord", "provider/inmemorystore/inmemory_store.go: saveEvents", "provider/leveldbstore/leveldb_store.go: saveEvents"]}
{"id": "C164", "title": "What a server acknowledged over HTTP or gRPC survives restarts and kills, and both interfaces show it", "statement": "Take a server with a LevelDB store that is used over HTTP and gRPC in any order, and that ends or is killed at any moment, also within a request, and is started again, any number of times. If a request to save was answered with success, then its events are, with the numbers they were given then, in every later full read that returns, unless somebody has asked since to delete their stream. If the server is killed within a request to save, then after its restart it shows what it showed before, or all events of the request behind that, and never a part of them. After any such life the JSON and the newline-separated JSON of the HTTP API and the reading methods of a gRPC client give the same records. A server that was just started answers every call.", "quantifier": "every sequence of requests, restarts and kills, every moment within a call of the store, every request, every event with data", "why_tests_cant": "a test kills a process at a few moments and compares a few events over one interface; it does not cover every step of every request in every life, nor every text over both interfaces", "anchors": ["pkg/rangedbapi/api.go: saveEvents, deleteStream, allEvents", "pkg/grpc/rangedbserver/server.go: Save, OptimisticSave, OptimisticDeleteStream, Events", "provider/leveldbstore/leveldb_store.go: New, saveEvents, OptimisticDeleteStream", "cmd/rangedb/main.go: main"]}
{"id": "C165", "title": "A subscription may be started and stopped by anybody at any time", "statement": "Take one subscription of a store, on which several goroutines call Start, StartFrom and Stop, and whose context may be cancelled, in any order and at any time. The process does not crash; and if it was started with Start and the subscriber does not fail, then the subscriber is given what the store's broadcaster sends to the subscription, once each and in order.", "quantifier": "every schedule of calls, of the broadcaster and of the goroutines of the subscription, every buffer size, all records", "why_tests_cant": "whether a channel is closed twice or two goroutines overtake each other depends on the interleaving; a test sees a few", "anchors": ["pkg/recordsubscriber/record_subscriber.go: Start, StartFrom, Stop, work", "store.go: RecordSubscription"]}
{"id": "C166", "title": "A remote store can stand in for a store of one's own", "statement": "A program that makes one call after the other cannot tell a remote store in front of an in-memory or LevelDB store from such a store in its own process: every read of everything, of some aggregate types, of a stream, and every count returns the same records and the same error, and every save and delete returns the same number or the same error, unexpected sequence numbers with both numbers included.", "quantifier": "all sequences of Save, OptimisticSave and OptimisticDeleteStream calls, all reads after them, all bound client types, all field orders of the data", "why_tests_cant": "equality of two stores over every history, with every event type a client may bind and the wire's JSON conversions in between", "anchors": ["pkg/grpc/rangedbpb/translate.go: ToPbRecord, ToRecord", "provider/remotestore/remote_store.go: Save, OptimisticSave, OptimisticDeleteStream, Events, EventsByStream, EventsByAggregateTypes, TotalEventsInStream", "pkg/grpc/rangedbserver/server.go: Save, OptimisticSave, Events", "provider/inmemorystore/inmemory_store.go: saveEvents, OptimisticDeleteStream"]}
{"id": "C167", "title": "A valid write is never refused", "statement": "After any history, Save of a batch with which nothing is wrong (at least one event, all of one aggregate, all accepted by the serializer), or OptimisticSave of it with the stream's current number, made with a live context, succeeds and returns the stream's new number; and OptimisticDeleteStream of a stream that has events, with their number, succeeds. This holds for the in-memory store and the LevelDB store. (It is false for LevelDB after a delete that failed.)", "quantifier": "every history of calls, every stream, every valid batch of any length", "why_tests_cant": "A store may refuse a valid write only after a particular history; tests try a few histories.", "anchors": ["provider/inmemorystore/inmemory_store.go:saveEvents", "provider/leveldbstore/leveldb_store.go:saveEvents", "provider/leveldbstore/leveldb_store.go:OptimisticDeleteStream"]}
{"id": "C168", "title": "A cancelled read leaves no goroutine behind", "statement": "Once the context of a read (Events, EventsByStream, EventsByAggregateTypes of the in-memory or the LevelDB store) is cancelled, every goroutine that the read started returns, although the consumer does not call Next any more. (False for reads of several aggregate types: the goroutine that merges waits for ever for a consumer; it returns only if the consumer goes on until Next returns false.)", "quantifier": "every number of types, all records and store errors, every moment of the cancellation, every schedule of the goroutines and the consumer", "why_tests_cant": "The tests of cancelled reads read on until the error; whether goroutines are left depends on the schedule and is not looked at.", "anchors": ["merge_record_iterators.go:MergeRecordIteratorsInOrder", "publish_record.go:PublishRecordOrCancel", "provider/inmemorystore/inmemory_store.go:recordsByIDs", "provider/leveldbstore/leveldb_store.go:getEventsByLookup"]}
{"id": "C169", "title": "A read of several types has no gap and no disorder, however its goroutines run", "statement": "While EventsByAggregateTypes of several types is iterated, the events handed over so far are always in strictly increasing global order, all of requested types, of each type the first ones, and no event of a requested type with a smaller global number is missing between them; when the iteration ends without having been cancelled, every event was handed over. (False for a cancelled read in one respect: an event may be handed over although an earlier one of another type was left out, and the merged iterator then ends without an error.)", "quantifier": "every number of types, every list of events per type, errors of the store at the end of any type, every interleaving of the reading goroutines, the merging goroutine and the consumer, and every moment of cancellation", "why_tests_cant": "The merge and the sources are separate goroutines; a test sees a handful of interleavings and never the cancellation between two given instructions.", "anchors": ["merge_record_iterators.go:MergeRecordIteratorsInOrder", "publish_record.go:PublishRecordOrCancel", "provider/inmemorystore/inmemory_store.go:EventsByAggregateTypes", "provider/leveldbstore/leveldb_store.go:EventsByAggregateTypes"]}
{"id": "C170", "title": "A consumer that reads on after its last event misses none", "statement": "A consumer reads events, stops at any moment (its context is cancelled, or it just does not call Next any more), and later reads again starting with the number after the last event it got, while events are saved to the store and none are deleted. At any time it has got, in strictly increasing order and none twice, a beginning of the store without a gap; and after a read that comes to its end without being cancelled it has got every event. (False for EventsByAggregateTypes of several types when a read is cancelled: an event may be handed over although an earlier one was left out, and reading on skips that one for ever. True for Events, EventsByStream and reads of one type with cancellations, and for reads of several types without.)", "quantifier": "every number of attempts, every growth of the store between them, every interleaving of the goroutines of each read, every moment of cancellation or abandonment", "why_tests_cant": "A gap needs a cancellation between two steps of different goroutines, and shows only in a later read.", "anchors": ["store.go:Store", "merge_record_iterators.go:MergeRecordIteratorsInOrder", "publish_record.go:PublishRecordOrCancel", "provider/inmemorystore/inmemory_store.go:EventsByAggregateTypes", "provider/leveldbstore/leveldb_store.go:EventsByAggregateTypes"]}
{"id": "C171", "title": "A read that looks complete is complete", "statement": "If Next of the iterator of a read returns false and Err returns nil, then the store had no error and every event that was asked for was handed over. (False: when the context is cancelled, the error is offered to the consumer for one second only, then the channel is closed; a consumer that is slower sees the end of the events without an error. And a read of several types never reports an error at all. True for reads with one goroutine, cancelled or not, if the consumer takes the error in time; for reads of several types that are neither cancelled nor hit by an error of the store.)", "quantifier": "all events, all errors of the store, all interleavings of goroutines and consumer, all moments of cancellation, and a consumer of any speed", "why_tests_cant": "The loss needs a consumer that pauses for more than a second at the right moment, and looks like success.", "anchors": ["publish_record.go:PublishRecordOrCancel", "record_iterator.go:Next", "record_iterator.go:Err", "merge_record_iterators.go:MergeRecordIteratorsInOrder", "provider/inmemorystore/inmemory_store.go", "provider/leveldbstore/leveldb_store.go"]}
{"id": "C172", "title": "A StartFrom that has returned lets go of the store", "statement": "When StartFrom has returned, with nil or with the error of the callback, and the subscription is stopped, the reads it made do not hold the store's read lock any more: events can be saved. (False: if the callback fails before the last event, the goroutine behind the read goes on offering the next event, with the read lock held; Stop does not cancel its context. True if StartFrom returned nil, if the callback failed at the last event, and once the context of the configuration is cancelled.)", "quantifier": "every history, starting number, set of events for which the callback fails, and every interleaving of StartFrom, the goroutine behind its read, Stop and the cancellation of the configuration's context", "why_tests_cant": "Whether the lock is held depends on where the callback fails and on the order of the goroutines; tests whose callback fails give StartFrom a made-up iterator, with no store behind it.", "anchors": ["pkg/recordsubscriber/record_subscriber.go:StartFrom", "pkg/recordsubscriber/record_subscriber.go:writeRecords", "pkg/recordsubscriber/config.go:AllEventsConfig", "provider/inmemorystore/inmemory_store.go:Events"]}
{"id": "C173", "title": "The callback of StartFrom gets the events in order, each once, and none after it failed", "statement": "StartFrom(n) calls the callback with stored events from n on, in ascending order, each at most once and without a gap: what it got is a beginning of the events from n on, or of those after n; it returns an error of the callback exactly if the callback failed, and the callback is not called any more after that. A StartFrom that returned nil has handed over every event from n on that was there at its second read. (The last sentence is false: an event n that is saved between the two reads of StartFrom(n) is left out, and a cancelled StartFrom may return nil after a part. It is true if the first read found an event and nothing was cancelled.)", "quantifier": "every history, every growth of the store between the two reads, every starting number, every set of events for which the callback fails, every error of the store and every interleaving with the goroutine behind the read, Stop and cancellation", "why_tests_cant": "Whether an event is handed over twice, or not at all, depends on when it is saved relative to the two reads, and on when the context is cancelled.", "anchors": ["pkg/recordsubscriber/record_subscriber.go:StartFrom", "pkg/recordsubscriber/record_subscriber.go:writeRecords", "pkg/recordsubscriber/config.go:AllEventsConfig", "provider/inmemorystore/inmemory_store.go:Events", "provider/leveldbstore/leveldb_store.go:Events"]}
{"id": "C174", "title": "The text of a snapshot is determined by the events that it counts", "statement": "SaveSnapshot of the aggregate type statistics writes the same bytes for the same events, in whatever order they were accepted before the last one; the types are written in ascending order, each once, with its number of events. For aggregate types that are UTF-8 text, loading a snapshot and saving it again writes the same bytes, and a server that resumed from a snapshot, complete or torn, and caught up writes the same snapshot as one that never stopped.", "quantifier": "every sequence of events, every reordering of it, every point at which a snapshot was taken and every length at which it was torn", "why_tests_cant": "Go maps have no order, so that the text does not depend on it cannot be seen in a few runs; tests compare one small snapshot.", "anchors": ["pkg/projection/aggregate_type_stats.go:SaveSnapshot", "pkg/projection/aggregate_type_stats.go:LoadFromSnapshot", "pkg/projection/aggregate_type_stats.go:Accept", "pkg/rangedbapi/api.go:initProjections"]}
{"id": "C175", "title": "The statistics may be read while events arrive", "statement": "Any number of goroutines may call the methods of the aggregate type statistics while events are accepted: there is no data race, and what a method reads, SaveSnapshot included, are the statistics of a whole number of accepted events at one moment. (False: TotalEvents reads the total without the lock, so it races with Accept. True for all other methods; if the race does no harm, TotalEvents gives the number of accepted events, or one more while an Accept goes on.)", "quantifier": "any number of goroutines, any calls, any events, and every interleaving of the single accesses to the fields", "why_tests_cant": "A data race shows only in some schedules, and the race detector sees only those that it runs.", "anchors": ["pkg/projection/aggregate_type_stats.go:TotalEvents", "pkg/projection/aggregate_type_stats.go:Accept", "pkg/projection/aggregate_type_stats.go:SaveSnapshot", "pkg/projection/aggregate_type_stats.go:SortedAggregateTypes"]}
