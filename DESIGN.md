# Formal model of inklabs/rangedb in Lean 4

The model lives in `lean/Verif`. Every definition of `Model/` cites the file and lines of `/repo` it models, and says in the same comment where it simplifies. The theorems named in `MANIFEST.json` are in `Thm/`; the full list of properties is `properties.jsonl`.

## 1. Layout

| directory | content |
|---|---|
| `lean/Verif/Base/` | byte strings, events, records, errors, outcomes, lawful serializers |
| `lean/Verif/Spec/` | small specifications that know nothing of the code: the abstract event log, ordered delivery, histories, accounts |
| `lean/Verif/Model/` | the model of the Go code, function by function |
| `lean/Verif/Proof/` | helper lemmas and invariants |
| `lean/Verif/Thm/` | the property theorems, each followed by a concrete case that meets its hypotheses |
| `seeded/LOG.jsonl` | wrong programs tried against the theorems, and which theorems noticed |

How to read a false property: `Cxx_full : Prop` is the property as stated, `Cxx_false : ¬ Cxx_full` (or `Cxx_false_…`) refutes it of the code by a concrete witness, and `Cxx_…_partial` is what does hold, with the guard in its hypotheses. A property whose statement in `properties.jsonl` carries a parenthesis "(False: …)" is of this kind.

## 2. Modelling conventions

* Go strings and byte slices are `List Nat`, one entry per byte. Theorems quantify over all lists of naturals, which includes all byte strings; where bytes are produced, or bounds matter (LevelDB keys, base64, UTF-8), the bound is an explicit hypothesis.
* `uint64` counters are `Nat`. Wrap-around at 2^64 is outside the model, except that LevelDB keys and JSON numbers carry a `< 2^64` hypothesis.
* Errors are values, a panic is an explicit outcome (`Outcome.panic`), and a call that never returns is another (`Outcome.blocked`). A lock held when a panic unwinds past `Unlock` stays held; so does a leaked transaction.
* A `context.Context` is modelled by the index of the first check that sees it cancelled, or by an explicit cancellation step where interleaving matters.
* `clock.Now()` and `uuidGenerator.New()` results are inputs of the operation.
* Serializers are parameters (`ser`, `deser`) with explicit laws (`Serializer.Lawful`); the laws are discharged for the JSON serializer in `Thm/JsonRecord.lean` for all records with UTF-8 names, 64-bit numbers and non-null data, and refuted outside that set (C61, C62).
* Goroutines become state machines over explicit atomic steps, and theorems quantify over all step lists. A mutex-protected section is one step, except in the lock model (`Model/Lock.lean`), which models the queueing rule of `sync.RWMutex`.
* Go map iteration order is a parameter (any order) wherever it is observable.

## 3. Trusted base

1. Lean 4.33.0's kernel and the axioms `propext`, `Classical.choice`, `Quot.sound`. No theorem uses another axiom; section 7 lists the axioms of each. No `sorry`, `admit`, `native_decide`, `bv_decide`, `implemented_by` or `unsafe` occurs in the sources.
2. The reading of the Go code embodied in `Model/`. The code was not run.
3. Contracts of libraries and systems that are not in the repository, modelled from their documentation:
   * `sync.RWMutex`: a waiting writer keeps new readers out; readers waiting at `Unlock` go first.
   * goleveldb: a sorted map from byte keys to byte values; a transaction is a private copy published atomically and durably by `Commit`; one transaction is open at a time and writers wait for it. For C130 and C131, when it fails: `OpenTransaction` opens nothing, `Write` and `Commit` change nothing and leave the transaction open, an iterator stops and has no key, and on a closed database every call fails.
   * PostgreSQL at READ COMMITTED: each statement sees the commits before it, a transaction's effects appear atomically at `COMMIT`, advisory transaction locks are held to the end of the transaction, sequences are never rolled back, `NOTIFY` is delivered at commit in commit order. `row_to_json` escapes as `escape_json` does; a statement has at most 65535 parameters, a payload at most 7999 bytes, a `SERIAL` column numbers up to 2^31-1, and a `TEXT` is UTF-8 without the byte 0.
   * EventStoreDB: appends with expected revision or `Any`, tombstones, `$all` in commit order. No de-duplication by event ID and no scavenging are modelled.
   * Vault KV-2 (versions, destroy, metadata) and DynamoDB (conditional put; reads are strongly consistent in `Model/KeyStore` and may return any earlier version in `Model/DynStale`, as the code asks for).
   * gRPC and protobuf: strings must be UTF-8, messages of one stream arrive in order, an error returned by a handler ends the stream with its text. Connections that break are modelled for saves only (C136).
   * `encoding/json`, `fmt.Sscanf`, `strconv`, `net/url` and `encoding/base64` are modelled from their sources for the inputs the code gives them. Conversion of JSON numbers through `float64` is a parameter with a stated law.
   * `Comma` of github.com/dustin/go-humanize and `time.Time.Format` of Go: as their sources are known, they are not on this machine. The theorem on dates compares the arithmetic with a calendar that steps from day to day.
   * `html/template` of Go: which escapers it inserts at the places where the templates have values, and what they do, as its source is known. The tokenizer in Spec/Html follows the HTML standard from memory; character references are decoded only as far as the escapers produce them.
   * Protocol buffers and gRPC: the wire format of proto3 and its UTF-8 check, and the default limit of 4194304 bytes for a received message.
   * github.com/vmihailenco/msgpack: as its source and the MessagePack specification are known, neither is on this machine; the encoding of one record is compared with the bytes in the repository's test.
   * the theorems C46, C72, C73 on the chat example are about any event encoding that reads back what it wrote, and so are those on the EventStoreDB adapter; C127 and C125 say for which events the JSON texts are such an encoding.
   * AES, GCM and ChaCha20-Poly1305 are parameters assumed only to be invertible; authentication is a hypothesis only where a theorem says so. `crypto/rand` is a tape of bytes that can fail.
   * `strings.ToLower` is modelled for ASCII.
   * `net/http`: `Serve` returns an error at once when `Shutdown` is called, `Shutdown` waits for the requests being handled and not for connections taken over by handlers; `grpc.Server.Serve` returns no error after `Stop`; `log.Fatal` ends the process.
4. Outside every model: memory exhaustion, what a data race does (C175 says when the statistics of the aggregate types have one; unlocked maps elsewhere, such as that of the bound event types, are taken to be filled before they are read), wall-clock durations, TLS, HTTP routing and compression.

## 4. Which code is modelled

| code in `/repo` | model | not modelled |
|---|---|---|
| `store.go`, `event_identifier.go`, `record_iterator.go`, `merge_record_iterators.go`, `publish_record.go` | `Base/Types`, `Model/Iterator`, `Model/Merge`, `Model/Text`, `Model/Abandoned` and `Model/Answers` (the goroutines of a read, step by step) | `rangedbtest` helpers other than `bdd` (`Model/Bdd`) |
| `provider/inmemorystore` | `Model/InMemory`, `Model/Lock`, `Model/Concurrent` (overlapping calls) | option setters, logger output |
| `provider/leveldbstore` | `Model/LevelDB`, `Model/KV`, `Model/Lock`, `Model/Concurrent`, `Model/LevelFaults` (errors of the database, `Stop`) | opening the database, repair |
| `provider/postgresstore` | `Model/Postgres`, `Model/PgNotify` | schema creation, connection loss inside a statement other than as a failing statement |
| `provider/eventstore` | `Model/EventStoreDB`, `Model/EsdbJson` | the client library's reconnection |
| `provider/remotestore`, `pkg/grpc` | `Model/Remote` (calls), `Model/Chain` (subscriptions), `Model/GrpcSession` (life of a subscription call), `Model/Wire` (messages), `Model/BrokenCalls` (lost requests and replies of saves) | reconnection by the gRPC library |
| `provider/encryptedstore` | `Model/Encrypted` | nothing of substance |
| the loops over iterators: `StartFrom`, gRPC reading methods, exports, `ReadNRecords` | `Model/Consumers` | the fuel of a loop is the number of records plus two (an iterator ends before it is used up) |
| `provider/jsonrecordserializer`, `jsonrecordiostream`, `ndjsonrecordiostream`, `msgpack…` | `Model/Json`, `Model/JsonRecord`, `Model/Msgpack`, `Model/FaultyIo` (writers and readers that fail) | msgpack values with encodings of their own (time.Time); maps inside event structs |
| `pkg/broadcast`, `pkg/recordsubscriber` | `Model/Broadcast`, `Model/Subscription` (what is delivered), `Model/Shutdown` (who waits, with the channel capacities), `Model/StartAgain` (starting and stopping at any time), `Model/FailedStart` (`StartFrom` beside the goroutine of its read) | the length of the time-out |
| `pkg/crypto`, generated encryption (`gen/eventgenerator` output) | `Model/Crypto`, `Model/KeyStore`, `Model/KeyRace`, `Model/Decimal` | key rotation, the ciphers themselves |
| `pkg/eventparser`, `structtag` | `Model/EventParser` | Go's parser, which fills in the list of field declarations; strconv.Unquote is a parameter that returns unescaped literals as they are |
| `pkg/cqrs`, `pkg/aggregategenerator` output, `examples/chat` | `Model/Cqrs`, `Model/Dispatch`, `Model/Chat`, `Model/ChatJson`, `Model/Moderation` (its two subscribers) | the chat example's `main` |
| `pkg/aggregategenerator`, `pkg/commandgenerator`, names in `pkg/eventparser` output | `Model/Generators`: when the generated source compiles, its methods, string literals | Go's compiler beyond the rules stated in the file; `pkg/structparser`, `gen/*/main.go` |
| `cmd/rangedb` | `Model/Process`: how the process ends; `Model/StartUp`: which store it opens | flags, ports |
| `pkg/rangedbws`, `cmd/ws-event-subscriber` | `Model/WsSession`: requests and the life of sessions; delivery in `Model/Chain` | the upgrade, frames, pings, the JSON of a record (C63), the command's signals |
| `cmd/gen-random-events` | `Model/RandomEvents` | flags, the connection, signals |
| `cmd/grpc-event-subscriber` | `Model/Reconnect` | dialling; `cmd/ws-event-subscriber` |
| `pkg/shortuuid` | `Model/ShortUuid` | the random source |
| `provider/postgresstore/config.go`, `snapshotBasePath` of `cmd/rangedb` | `Model/Config` (with lib/pq's parser of options, from its source) | white space outside ASCII, symbolic links |
| `pkg/paging`, `pkg/rangedbapi`, parts of `pkg/rangedbui` | `Model/Paging`, `Model/Http` | routing, gzip |
| `gen/eventbinder`, `pkg/structparser`, `event_identifier.go` | `Model/Binder` | the text of the generated file; generic types; Bind concurrent with lookups (the map is not synchronised) |
| `pkg/grpc/rangedb.proto`, `pkg/grpc/rangedbpb` | `Model/Wire`, `Model/Remote` (translate.go) | groups in hostile input; HTTP/2; compression |
| `pkg/rangedbui/templates` | `Model/Html` | the two live pages, which are drawn in the browser |
| `pkg/rangedbui/functions.go` | `Model/Display` | `formatJson` is `json.Marshal`, see `Model/Json` |
| `pkg/projection`, `pkg/rangedbui` statistics and live page | `Model/Projection` (with the JSON text of snapshots), `Model/ListTypes`, `Model/Pages` (pages while events arrive), `Model/PageEnd`, `Model/StatsLock` (the lock, access by access) | file system beyond a torn snapshot |
| `pkg/crypto/provider/vaultkeystore`, `dynamodbkeystore` and the other key stores | `Model/KeyStore`, `Model/KeyRace`, `Model/VaultPath` (paths), `Model/DynStale` (old reads) | queries in an ID that Vault itself reads (`version=`), cleaning of paths with empty or dotted segments, HTTP |
| `pkg/clock`, `pkg/rangedberror` | `Model/Clock`, `Model/Text` | the system clock |


## 5. Per property: what is modelled and how it is proved

| id | property | model | proof | status |
|---|---|---|---|---|
| C01 | In-memory Save appends exactly its events | `Model/InMemory`: the store as a state machine over its maps, slices and counters | refinement: `step_sim` relates every call to `specStep` of the abstract log, `run_sim` lifts it to histories; C01 is read off the log | proved |
| C02 | Streams are numbered 1..n without gaps | same | corollary of the refinement: a stream's records in a well-formed log are numbered 1..n | proved |
| C03 | Events(g) is the live log in strict global order | same | corollary: `Events` is the sorted live log | proved |
| C04 | EventsByAggregateTypes is the type-filtered live log in strict global order | same, with `Model/Merge` for several types | corollary plus the merge theorem C16 | proved |
| C05 | OptimisticSave is compare-and-append | same | case analysis of the expected-number check, then the refinement for later reads | proved |
| C06 | A failed Save persists nothing (in-memory) | same, cancellation and rejection at every position | negation by witness; partial theorem for rejections before anything is stored; from the refinement, exactly what a failed batch leaves and when it leaves nothing | partial |
| C07 | Rolling back a failed batch never damages other streams | same, the rollback code with its panic | negation by three witnesses (corruption, panic, lock held); partial under the exact guard; `Thm/Rollback`: the state after every rejected batch, and after any later saves | partial |
| C08 | OptimisticDeleteStream removes exactly one stream | same | refinement; witness for the expected number 0 | partial |
| C09 | Global sequence numbers are never reused | same | invariant over histories: every record ever readable is in a growing map from numbers to records | proved |
| C10 | Writes to one stream never change another stream (in-memory) | same | refinement: a step on one stream keeps the others' sub-lists | proved |
| C11 | LevelDB store implements the same log | `Model/LevelDB` over `Model/KV`: byte keys, prefix iteration, transactions | refinement to the same abstract log by induction over histories; key order lemmas for big-endian numbers | proved |
| C12 | LevelDB keys isolate streams and aggregate types | key encoding of `Model/LevelDB` | prefix lemmas for every set of names of which no two clash (`Spec/AtomicLog`); `Thm/NamesClash`: two names are kept apart iff they do not clash | partial |
| C13 | LevelDB batches are atomic under crash and error | save and delete split into steps, crash after any prefix | case analysis of every step boundary; only `Commit` changes the durable map | proved |
| C14 | A failed call leaves the LevelDB store usable | transaction flag of `Model/LevelDB` | witness: a failed delete blocks all writes; induction for histories without failed deletes; invariant on the transaction and the lock for the exact condition | partial |
| C15 | In-memory and LevelDB stores are interchangeable | both stores | composition of the two refinements; witness outside the guard | proved |
| C16 | Merge of ordered iterators is an ordered merge | `Model/Merge` | induction over the total length of the inputs | proved |
| C17 | Merge reports iterator errors | same, inputs with errors | negation by witness, also through the store API; partial for one input; counting records for the exact condition | partial |
| C18 | Iterator protocol: nothing after an error, no record with an error | `Model/Iterator` | induction over the result sequence | proved |
| C19 | Subscription from 0 delivers every event exactly once, in order (LevelDB) | `Model/Subscription`: store, broadcaster and subscriber as one interleaving machine | invariant over all schedules (delivered ++ queued ++ to-be-read = the log); witness for two types | partial |
| C20 | StartFrom(n) delivers event n | same, with a start position | same invariant with the position; exact list of deliveries; witness | partial |
| C21 | In-memory subscriptions miss nothing under concurrent saves | same, savers that release the lock before broadcasting | invariant for non-overlapping saves; witnesses otherwise | partial |
| C22 | Broadcaster delivers to exactly the subscribed receivers, in order | `Model/Broadcast`: the select loop and its maps, any iteration order | induction over event sequences | proved |
| C23 | Reads are snapshots | `Model/Lock`: RWMutex with queueing, calls, iterators, writers | invariant: content unchanged while a reader holds the lock; witness for several types | partial |
| C24 | Reading several aggregate types never deadlocks | same | reachable deadlock for every store with a record of the first type; progress measure for at most one type | partial |
| C25 | Key store: a subject's key is stable and never reused | `Model/KeyStore`, in-memory | induction over the trace of calls | proved |
| C26 | Crypto-shredding is permanent | in-memory, DynamoDB, PostgreSQL key stores | invariant: a tombstone stays; witness for PostgreSQL | proved |
| C27 | Cached key store never serves a deleted key | cache over two key stores, with lost requests and replies | invariant; witness with two caches | proved |
| C28 | Encrypt then decrypt is the identity | `Model/Crypto`: base64, nonces, padding, CBC chaining, decimal text, generated code | round-trip theorems composed field by field; history lemma per key store | proved |
| C29 | PKCS#5 padding round-trips and CBC decryption never panics on hostile input | padding and CBC | induction; exact set of panicking inputs; witnesses | partial |
| C30 | Encrypted store: what is saved is what is read | `Model/Encrypted` over the in-memory store | simulation between the encrypted and the plain history | proved |
| C31 | One shredded subject must not hide other subjects' events | decrypting iterator | induction: prefix before the first failure; witness | partial |
| C32 | Reading a decrypted record is repeatable | same | witness; partial for events without personal data; `Thm/DecryptTwice`: what a second call does to every event whose first plain value the engine refuses | partial |
| C33 | Aggregate type statistics equal the counts of the log | `Model/Projection`, with the JSON text of snapshots | fold equations; round trip and torn prefixes of the JSON text (`Proof/Snapshot`); witness with types that are not UTF-8 | partial |
| C34 | Paging visits every record once and links are inverse | `Model/Paging`, `Model/Text`: links as text, URL escaping, decimal lists | induction over pages; printer/parser round trip; witnesses | partial |
| C35 | Command handling is a function of the command's own stream | `Model/Cqrs` with the aggregate object shared between dispatches | induction over histories; witnesses | partial |
| C36 | Unexpected-sequence-number errors survive the wire | `Model/Text`: error text, marker search, Sscanf | printer/parser round trip | proved |
| C37 | Stream names parse back | stream name join and split | exact condition as an equivalence; witnesses | partial |
| C38 | PostgreSQL: concurrent saves keep streams contiguous and optimistic | `Model/Postgres`: each call a sequence of statements, any interleaving | invariant over all schedules: the advisory lock owner sees the last number of its stream | proved |
| C39 | PostgreSQL: delete removes only what it checked | same, deletes without lock | exact characterisation of what a delete removes; witness | partial |
| C40 | PostgreSQL: a reader that has seen event g has seen all smaller numbers | same, sequence numbers drawn before commit | invariant on uncommitted numbers; witness | partial |
| C41 | HTTP API reports the store's outcome | `Model/Http`: request decoding, status mapping, response bodies | case analysis over every outcome; JSON round trip of the bodies | proved |
| C42 | Remote store is transparent | `Model/Remote`: client, wire, server over any store | case analysis of every outcome and text; induction over received records | partial |
| C43 | EventStoreDB adapter: revision numbers translate both ways | `Model/EventStoreDB` | history induction with an account of what was appended; witnesses at 0 | partial |
| C44 | Record I/O streams round-trip | `Model/JsonRecord`: writers and readers of the three formats | round trip by induction; exact characterisation of unnoticed truncations | partial |
| C45 | Exports report read errors | same, with a failing iterator | proved for all positions that the error is lost; marshal errors are reported | partial |
| C46 | Chat: banned users cannot join | `Model/Chat` and a machine of overlapping dispatches | invariant over schedules; witness for overlap | partial |
| C47 | ReadNRecords returns the first N records and releases the iterator | `Model/Iterator` | induction | proved |
| C48 | Publishing respects cancellation | same: select with cancellation and timeout | case analysis over every choice | proved |
| C49 | Generated encryption is all-or-nothing | generated code of `Model/Crypto`, any number of fields | induction over the fields | proved |
| C50 | Vault key store destroys every version | Vault key store | witnesses; invariant for at most two Set calls; invariant on the versions for all histories | partial |
| C51 | PostgreSQL key store: every subject can be deleted | PostgreSQL key store with its UNIQUE column | witness; partial while nothing was deleted | partial |
| C52 | Clocks used for ordering never go back | `Model/Clock` | induction | proved |
| C53 | A live subscription misses nothing saved after Start returned (LevelDB) | as C19 | same invariant from the moment Start returned | proved |
| C54 | Cancelling a read releases the store | as C23, with cancellation | progress argument; witness for reads ending in an error | partial |
| C55 | Decrypting hostile input fails with an error | as C28 | case analysis; witness; exact set of panicking inputs | partial |
| C56 | A failed save through the encrypted store can be retried | as C30, events mutated in place | witness; partial without personal data; exactly what a retry stores, through C30 of an equivalent history | partial |
| C57 | Several decrypting subscribers see the same plain record | as C30, one record for several subscribers | witness; partial; `Thm/DecryptTwice`: per engine, from the length of base64 texts | partial |
| C58 | Subscribers of the encrypted store never see data of a shredded subject | as C30 with a tombstone | case analysis on the key store's answer | proved |
| C59 | Statistics are complete after a restart | `Model/Projection` with the subscription of C20 | exact list of deliveries from C20; witness | partial |
| C60 | The live event counter of the web UI is right | same, live page | exact counter value; witness | partial |
| C61 | What Save accepts can be read back | `Model/Json`, `Model/JsonRecord` under both stores | round trip for good records; poison theorem for null data | partial |
| C62 | Names are stored as given | same: UTF-8 decoding with replacement | exact result for all byte strings | partial |
| C63 | What is posted over HTTP is what is read over HTTP | `Model/Http` over both stores | composition of decoding, store refinement and JSON round trip | partial |
| C64 | Links of listed aggregate types work | link text and route | equivalence: letters and '-' | partial |
| C65 | Remote reads report errors | `Model/Remote` | proved for all errors and record lists | partial |
| C66 | Event data and metadata survive the remote store | same with float64 conversion as a parameter | round trip for exact numbers; witnesses | partial |
| C67 | PostgreSQL: events with metadata can be saved and read | `Model/Postgres` | invariant over schedules | partial |
| C68 | PostgreSQL: calls give their connection back | same, connection count | induction; exhaustion theorem | partial |
| C69 | PostgreSQL: a store made by New can save | same, option set | case analysis; panics for all schedules | partial |
| C70 | PostgreSQL: live events survive bad events and reconnections | same, listener | induction over notifications | partial |
| C71 | Commands that overlap each yield their own events | `Model/Cqrs` small steps of Handle | witness schedules; partial without overlap | partial |
| C72 | Chat: a user is on-boarded at most once | `Model/Chat` | invariant for serial histories; witness | partial |
| C73 | Chat: joining a room depends on that room alone | `Model/Chat` | history induction for one room; witnesses | partial |
| C74 | EventStoreDB adapter: a deleted stream disappears from every read | `Model/EventStoreDB` | invariant: tombstoned names stay; witnesses | partial |
| C75 | EventStoreDB adapter: every acknowledged event can be read | same | induction; witness | partial |
| C76 | EventStoreDB adapter: subscribers are told of new events, once each | same, listener | induction; witness | partial |
| C77 | Marked personal data is never stored in plain text | `Model/EventParser`: tag parser, field collection, generated `Encrypt`; `Spec/EventParser` declares structs and prints their tags | round trip of tags (induction over tags and bytes), fold invariants; witnesses for five kinds of structs | partial |
| C78 | Generated encryption code is legal Go | same, declared variables | injectivity of `lcFirst` on capitalised names, permutation argument; witnesses | partial |
| C79 | A connected WebSocket or gRPC client misses no event | `Model/Chain`: the relay of the WebSocket API and the gRPC server as a hop between the savers and `Model/Subscription`; `Spec/Chain` says when a system is at rest | a simulation: without cuts a chain of any length looks to the subscriber like one broadcaster; order and silence by induction over schedules; witnesses | partial |
| C80 | A subscription at a remote store misses no event | same, with the remote store's live subscription and listener as two more hops | the same simulation from the moment all hops are registered; witnesses | partial |
| C81 | A command is decided on the whole stream, or refused | `Model/Dispatch`: the generated `Load`, where a record that cannot be decrypted is nil, and `Dispatch` over the encrypted store | induction over the records; the plain content of the encrypted store from C31; witness with an unreadable record | partial |
| C82 | The events of one command are stored together | `Model/Cqrs` with its goroutines | C35; witnesses | partial |
| C83 | What a goroutine has encrypted can be read later, whatever ran at the same time | `Model/KeyRace`: engine and key stores as programs of atomic actions, any number of goroutines, schedules | rely and guarantee: each program only makes changes under which other goroutines' facts stay true; witness for Vault | partial |
| C84 | Goroutines that encrypt and decrypt do not make each other fail | same | same; witnesses | partial |
| C85 | A deleted subject stays deleted, whatever was under way | same | same, with the facts about deleted subjects; witnesses | partial |
| C86 | A consumer can use the store while it reads from it | `Model/Lock`: the goroutine behind an iterator holds the read lock until its last record is received | invariant of the wedged store for all schedules; C24 and an invariant of exhausted iterators for what holds | partial |
| C87 | A subscription that ends says so | `Model/Shutdown`: broadcaster, subscriptions and callers of Accept with their channels and capacities | invariants of failed and of stranded subscriptions for all schedules; a lexicographic measure of the work left for what holds | partial |
| C88 | Saving never waits for a subscriber | same | progress of the broadcaster from an invariant, and a measure that only new saves increase | proved |
| C89 | Reads of the PostgreSQL store are views of one log | `Model/Postgres`: the three SELECT statements over the committed rows | decoding commutes with filtering; C38 for numbering and acknowledged saves; witness for the end of a stream | partial |
| C90 | An EventStoreDB store can be read piece by piece | `Model/EventStoreDB`: reads of `$all` | induction over the log; relation of C43 between log and account | proved |
| C91 | An optimistic save succeeds only on the stream that was read | the store models of C01, C11 and C38; a read, any calls of others, an OptimisticSave | streams only grow while nobody deletes them, so equal length means equal content; witnesses with a delete in between | partial |
| C92 | A passing Given/When/Then test means exactly the expected events were raised | `Model/Bdd`: Given/When/Then over the in-memory store, the dispatcher any function from the store to calls | refinement of the event log (C01) for Given and the command; streams are numbered 1..n, so reading from n+1 is dropping n; witnesses | partial |
| C93 | Dispatch returns the events the aggregate raised | `Model/Dispatch` over the encrypted in-memory store (`Model/Encrypted`) | each save of one event panics, fails in the encryption or stores the sealed event (C01); induction over the raised events; witness with AES/GCM | partial |
| C94 | Reading an encrypted store that holds foreign or damaged records | `Model/Encrypted`: the decrypting iterator over an arbitrary list of records of the wrapped store | induction over the records; AES/GCM never panics (C55); witnesses for the other ciphers | partial |
| C95 | A statistics page is the page of one moment | `Model/Pages`: the handler and the subscription as goroutines over the statistics, `Accept` in two steps because `TotalEvents` takes no lock | invariant over schedules: what was read lies between the start and now; counts over different types add up to at most the length of the log; witness | partial |
| C96 | The live statistics page catches up | same, the endless loop | invariant: if nothing newer has come, what was read is up to date; a measure for the steps the loop still needs; witness with numbers out of order | partial |
| C97 | The rangedb command ends cleanly | `Model/Process`: the goroutines of the command and its clients | invariant over schedules; witness; the steps of `main` alone lead to the end | partial |
| C98 | A generated aggregate passes each event and command to its own method | `Model/Generators`: when the generated source compiles, and what its methods do | case analysis over names; induction over the stream; witnesses, one of them by induction over the depth of the stack | partial |
| C99 | Generated commands and events report the names they were given | same: Go's string literals | induction over the text; witnesses | partial |
| C100 | Event IDs are 32 hexadecimal digits and differ when the UUIDs differ | `Model/ShortUuid`: hexadecimal text of sixteen bytes | induction over the bytes | proved |
| C101 | The PostgreSQL store connects with the values it was given | `Model/Config`: the text of options, and the parser of lib/pq from its source | one key and value at a time, for all values; witnesses | partial |
| C102 | Servers of different LevelDB stores keep separate statistics snapshots | same: `filepath.Clean` on elements | induction over the elements; witness | partial |
| C103 | The gRPC event subscriber prints every event once, whatever connections break | `Model/Reconnect`: the client's connections over `Model/Chain`, each broken anywhere | induction over the connections; per connection the invariants of C79, and one more: nothing below the requested number is sent; witness | partial |
| C104 | Chat: restricted words are answered, twice by a warning and then by a ban | `Model/Moderation`: the projection and the processor as goroutines over the log, with restarts | invariants over schedules that count warnings, bans and messages; witnesses | partial |
| C105 | Concurrent calls act one after the other | `Model/Concurrent`: every call a program of small steps under the store's `sync.RWMutex`; `Spec/Linearizable` | invariant over schedules: a call takes its place in the order when its remaining steps no longer change the content, and under the lock its result is that of its program run alone; per store: the programs are the functions of the sequential models. The consequences for clients follow with C01, C05, C11 and C91 | proved |
| C106 | Msgpack keeps every record | Model/Msgpack: the encoder and decoder of values, MarshalRecord, UnmarshalRecord, Write, Read | mutual induction over values with a predicate that says what a decoder does on its whole encoding and on every part of it; the serializer is then shown lawful | proved |
| C107 | A msgpack file cut short | the same; Spec/Msgpack names the seams | induction over the records with the same predicate; the claim as made is refuted by the first byte of a record | partial |
| C108 | Numbers and dates on the pages | Model/Display: formatUint64 with Comma, formatDate with Go's division of days into years; Spec/Calendar: the day after a day | induction over the groups of digits; induction over days: the division by 400, 100, 4 and 1 years takes the same step as the calendar | partial |
| C109 | Generated event binding | Model/Binder: GetStructNames, the generator's main, when the generated file compiles, Bind and EventTypeLookup; Spec/Binder | induction over the files and over the events that are bound; counterexamples by evaluation | partial |
| C110 | gRPC messages arrive as sent | Model/Wire: protocol buffer encoding of every message in rangedb.proto; Spec/Wire: texts in UTF-8, numbers that fit | what reading one field does, then induction over the fields of a schema; an invariant of the reading loop for bytes from anywhere | proved |
| C111 | What was saved over gRPC can be read over gRPC | the same, with gRPC's default limit for received messages | the sizes of both messages field by field; a family of counterexamples | partial |
| C112 | EventStoreDB adapter: a refused save names the numbers | Model/EventStoreDB: saveEvents with the server at the check and at the append | the refinement to the account of streams already used for C43; counterexample by evaluation | partial |
| C113 | Web UI: stored texts appear as text | Model/Html: the template files byte for byte and the escapers of html/template; Spec/Html: the tokenizer of the HTML standard and what the pages should contain | what the tokenizer does with an escaped text in each of the three places, then concatenation; fixed pieces by evaluation in the kernel | proved |
| C114 | Web UI: the link of a stream leads to its page | the same, with the routing of Model/Paging | decoding inverts the normalisation of a link exactly if the name has no such character; a length argument for the others | partial |
| C115 | A PostgreSQL notification carries the stored event | Model/PgNotify: row_to_json of PostgreSQL and the listener with encoding/json | the reader of Model/Json run over the written text, rune by rune and column by column | proved |
| C116 | A PostgreSQL store takes every save that the other stores take | the same, with the limits of parameters, payload and SERIAL | case analysis of the insert, the length of the text from its parts, induction over histories of inserts | partial |
| C117 | Vault: the keys of different subjects are kept apart | Model/VaultPath: the request path made from a subject ID, as net/url parses it, in front of the store of Model/KeyStore | two histories kept equal on one secret, by induction; counterexamples for each special character; C117_exact: the sets of IDs that are kept apart | partial |
| C118 | A live statistics page ends when its browser has gone | Model/PageEnd: Model/Pages with a browser that may leave and writes that may fail | the handler's own steps followed to its write; an invariant for the handler that waits | partial |
| C119 | DynamoDB key store: reads that lag behind | Model/DynStale: the versions of every item and, for each read, how many versions behind it is | a law of stores that never give a second key, for which encryption and decryption are followed field by field; a refinement to the store with consistent reads | partial |
| C120 | The rangedb command keeps events where it was told to | Model/StartUp: getStore of the command as a function of the environment and the path | case analysis | partial |
| C121 | gen-random-events saves the number of events asked for | Model/RandomEvents: the loop of the command, driven by what the random source and the server return | induction over the rounds | partial |
| C122 | A WebSocket session lasts as long as its client, and no longer | Model/WsSession: the client, the broadcaster, the handler and the subscriber's goroutine as a state machine | invariant, progress and a lexicographic measure; sets of states that are never left for the negative results | partial |
| C123 | Every aggregate type can be subscribed to over WebSocket | Model/WsSession: routes, query and split of the request | the lemmas of split and join | partial |
| C124 | The list of aggregate types is exact | `Model/ListTypes` | the text parses back to the value (`Proof/Json`), whose fields are read by an independent client in the statement; witness | partial |
| C125 | EventStoreDB: an event is read as it was saved | `Model/EsdbJson`: the JSON texts of data and metadata | round trip of the texts (`Proof/Json`); runs with two encodings that agree on the events saved are equal; witness under the law of `float64` | partial |
| C126 | An open gRPC subscription has lost nothing | `Model/GrpcSession`: the client, the broadcaster, the handler and the subscriber's goroutine as a state machine that counts lost events | invariant, progress and a lexicographic measure; a set of silent states that only the client's leaving ends, with a lower bound on the loss | partial |
| C127 | Chat events survive being stored | `Model/ChatJson`: the events as JSON and the bound types | the texts parse back to the events (`Proof/Json`); the run with the JSON serializer equals the run with a lawful one; witness by evaluation in the kernel | partial |
| C128 | A subscription that cannot read the past says so | `Model/Consumers`: the loops of the library over an iterator, here the two reads of `StartFrom` | every loop equals a fold over the records (`Spec/Consumers`), by induction; the poisoned store is C61's | partial |
| C129 | Whoever reads an encrypted store survives deleted subjects | `Model/Consumers`: the loops of the gRPC server, the exports, the subscription and `ReadNRecords` | the fold lemma for the decrypting iterator, with C31; witness by evaluation in the kernel | partial |
| C130 | A LevelDB store whose disk fails says so, changes nothing, and works again when the disk does | `Model/LevelFaults`: `Save`, `OptimisticDeleteStream` and `Stop` with the faults that each call of goleveldb meets | each call against the call without faults, case by case, then induction over the history; `C130_overwrites` with the invariant of C11 on the keys | partial |
| C131 | A read of a LevelDB store that could not be finished, or of a stopped store, says so | `Model/LevelFaults`: the reads, with iterators that stop and fetches that fail, and on a closed database | the description of the index in C11's invariant, cut where the fault is; witnesses by evaluation in the kernel | partial |
| C132 | A PostgreSQL save or delete that returned an error has changed nothing | `Model/Postgres`: the calls as processes whose statements interleave and fail | a step that changes something is a commit; after it the call cannot return another error; induction over the rest of the schedule | partial |
| C133 | Used by one caller at a time, the PostgreSQL store behaves like the in-memory store | `Model/Postgres` on schedules in which each call runs to its end (`Spec/PostgresSequential`), and `Model/InMemory` with the JSON serializer | simulation: both states represent one log (`Both`), kept by every call; the reads of both are those of the log; witnesses by evaluation in the kernel | partial |
| C134 | An export that reports no error has written everything | `Model/FaultyIo`: `Write` of the three streams over an arbitrary writer | an export is a fixed list of slices (induction over the iterator); for every writer what arrives is what it takes of these; the parts by induction over the sublist | partial |
| C135 | An import whose reader fails reports it | `Model/FaultyIo`: `Read` of the three streams from a reader that fails | the analysis of cut files of C44 and C107 | partial |
| C136 | A call of the remote store whose reply is lost can be repeated | `Model/BrokenCalls`: the saves of `Model/Remote` with requests and replies that are lost; a client that repeats them among the calls of others (`Spec/BrokenCalls`) | simulation with the log; an attempt leaves the log or makes the stream longer than expected, which it stays (`specStep_grows`) | partial |
| C137 | A delete of the remote store whose reply is lost can be repeated | `Model/BrokenCalls`: the delete of `Model/Remote` with requests and replies that are lost; a client that repeats it among the calls of others (`Spec/BrokenDeletes`) | simulation with the log; a stream without events stays so while nobody saves to it | partial |
| C138 | The counts in the replies of the gRPC server | `Model/GrpcCounts`: the replies of the server's `Save`, `OptimisticSave` and `OptimisticDeleteStream` | C01 for saves, simulation with the log for deletes; a history of any length for the counterexample | partial |
| C139 | Used by one caller at a time, the EventStoreDB store behaves like the in-memory store | the adapter and server of `Model/EventStoreDB` next to `Model/InMemory`; sequences of calls of one client (`Spec/EsdbSequential`) | simulation of both with one log: the account of the server, without its dead streams, is the log up to global numbers | partial |
| C140 | A subscriber never receives an event twice, out of order, or unasked | Model/Subscription.lean, Model/Chain.lean | invariant over every execution: what was sent is a sorted list of saved records; for chains by induction over the hops | proved |
| C141 | A repeated OptimisticSave over the remote store takes effect at most once | Model/Remote.lean, Model/BrokenCalls.lean | induction over the repetitions: once the stream is longer than the expected number every further call is refused | proved |
| C142 | Chat: nobody is banned without two warnings | Model/Moderation.lean | invariant over every execution that ties the counts of the projection to the warnings in the log | proved |
| C143 | Chat: a stored ban keeps the user out | Model/Chat.lean, Model/Cqrs.lean | the aggregate is loaded from the stream at the start of every Dispatch; a ban in the stream decides | proved |
| C144 | A statistics page never shows more than there is | Model/Pages.lean | invariant over every interleaving of the handler and the counting subscription | proved |
| C145 | The rangedb command: status 0 means a clean end | Model/Process.lean | invariant over every execution of the process | proved |
| C146 | Dispatch returns what was stored | Model/Dispatch.lean, Model/Encrypted.lean | induction over the saves of Dispatch, over the refinement to the log | proved |
| C147 | DynamoDB key store: old reads never yield wrong data | Model/DynStale.lean | invariant: all versions of a subject's item carry the same key or none | proved |
| C148 | Reads of a stream, of one type, or of all events never get stuck | Model/Lock.lean | invariant over every execution, and a measure that decreases with every step | proved |
| C149 | Encrypted store: reads are exact up to the first record of a deleted subject | Model/Encrypted.lean | refinement: the wrapped log is the plain log, encrypted record by record | proved |
| C150 | The gRPC event subscriber misses nothing, whatever connections break | Model/Reconnect.lean, Model/Chain.lean | induction over the connections, each by C79 and C103 | proved |
| C151 | A read of one stream, one type or all events is a snapshot | Model/Lock.lean | invariant: the content does not change while the iterator holds the read lock | proved |
| C152 | EventStoreDB adapter: a deleted stream stays deleted for readers of the stream | Model/EventStoreDB.lean | invariant: a tombstoned stream stays tombstoned | proved |
| C153 | AES/GCM: hostile or damaged records never crash a reader | Model/Crypto.lean, Model/Encrypted.lean | case analysis of Decrypt, then induction over the records | proved |
| C154 | A msgpack import reports every failure of its reader | Model/Msgpack.lean, Model/FaultyIo.lean | induction over the records of the export | proved |
| C155 | Remote store: deletes and counts are those of the server's store | Model/Remote.lean | for every store as a parameter: the texts of the two errors are recognised exactly | proved |
| C156 | A LevelDB store survives crashes and restarts at any moment | Model/Restarts.lean, Model/LevelDB.lean | refinement to the atomic log through calls, restarts and crashes; a crash is before the commit or after it | proved |
| C157 | A repeated OptimisticSave takes effect at most once also when the LevelDB server behind it crashes | Model/Restarts.lean, Model/BrokenCalls.lean | induction over the attempts: once the stream is longer than expected, no attempt changes the disk | proved |
| C158 | PostgreSQL: cancelling the contexts of returned calls frees everything | Model/PostgresContext.lean: the transactions a returned call has left open, and the rollback database/sql does when the context of the call is cancelled | Thm/PostgresContext.lean: invariant: every connection taken belongs to a running call or was left open, every lock likewise; step-by-step simulation by a store with more connections and no cancellations | proved |
| C159 | A repeated delete takes effect at most once also when the LevelDB server behind it crashes | Model/Restarts.lean and Model/BrokenCalls.lean; the turns of client, others and crashes in Spec/RestartsDelete.lean | Thm/RestartsDelete.lean: every call keeps the simulation of C156 and leaves the log or deletes the stream; induction over the turns | proved |
| C160 | HTTP and gRPC show the same events of one server | Model/Http.lean and Model/Remote.lean over one store; the requests and the ways of reading in Spec/Interfaces.lean | Thm/Interfaces.lean: every request is a call of the store with events that are good and whose numbers float64 leaves alone; so are all records that the stores hold; each way of reading gives such records as they are | proved |
| C161 | An encrypted LevelDB store survives crashes and restarts exactly as far as its key store does | Model/EncryptedLevel.lean: the encrypted store of Model/Encrypted.lean over Model/LevelDB.lean, with the end of a process at any step and what a new process finds of the key store | Thm/EncryptedLevel.lean: the stored records are, one by one, sealed forms of those of an unencrypted store that went through the same calls and crashes (C156); every turn keeps this; reads decrypt record by record | proved |
| C162 | Pretty-printed JSON is the same JSON in one normal form | Model/Indent.lean: the scanner of encoding/json (states, stack of open brackets, nesting limit), json.Indent and TrimSpace; white space, trees and the layout in Spec/Indent.lean | Thm/Indent.lean: the scanner's tokens do not change when white space outside of strings is added or removed, and the printer depends on the tokens only; the layout by mutual induction on the tree; every valid text is the text of a tree (Proof/IndentTree.lean), by induction on its length | proved |
| C163 | What a live subscriber is told of an event is what a reader is shown | Model/Live.lean: the messages of the WebSocket API and of the gRPC server for a record; the stores and interfaces of C160; what a store hands to its subscribers in Spec/Live.lean | Thm/Live.lean: every request is a call of the store; what a successful save broadcasts is what it appends (C01, C11); these records are serialized and decoded without a change (C160); induction over the requests | proved |
| C164 | What a server acknowledged over HTTP or gRPC survives restarts and kills, and both interfaces show it | Spec/Reboot.lean: the requests of C160, a restart, and a kill some steps into the store call of a request (Model/Restarts.lean, `LD.crashed`) | Thm/Reboot.lean: the store simulates an abstract log whose records are all fit for both interfaces; every request is a call of the store (C160), a kill leaves the disk of before or after that call (C13), a restart keeps the disk; by induction over the life | proved |
| C165 | A subscription may be started and stopped by anybody at any time | Model/StartAgain.lean: one recordSubscriber with any number of calls of Start and StartFrom, its workers step by step, the close of finishChan with its panic, and the channel the broadcaster fills | Thm/StartAgain.lean: invariant: calls under way, goroutines alive and a closed channel together are at most the number of starts, and at most one if every start waits for the last one to fail; then what was given, held and buffered is what was sent. Witnesses for all sizes and numbers that two starts crash, lose and reorder | partial |
| C166 | A remote store can stand in for a store of one's own | Model/Remote.lean and Model/InMemory.lean: a history of calls made through the client and the server, and the same calls of an in-memory store whose serializer knows the client's types (Spec/RemoteHistory.lean); likewise two LevelDB stores (Spec/RemoteHistoryLD.lean) | Thm/RemoteHistory.lean, Thm/RemoteHistoryLD.lean: the server's log is the local log with the fields of all data in order, and both know the same streams; every call keeps this (C42 for what the client is told, C01, C09 for each store) and the client's reader turns each record back | partial |
| C167 | A valid write is never refused | The in-memory and LevelDB models | Spec/ValidWrite.lean says when nothing is wrong with a batch. Thm/ValidWrite.lean: induction over the batch for the in-memory loop; for LevelDB the refinement C11 and the exact blocking condition C14_exact. Refuted in full by a failed delete | partial |
| C168 | A cancelled read leaves no goroutine behind | Model/Abandoned.lean: the goroutines of one read of the in-memory or LevelDB store, action by action: one per type with PublishRecordOrCancel, and the merging goroutine with its pipes; channels without buffer | Thm/Abandoned.lean: every goroutine has a rank that its turns decrease once the context is done; what the merging goroutine has to do decreases with every round of the consumer. Refuted in full: it waits for ever with a record for a consumer that has left | partial |
| C169 | A read of several types has no gap and no disorder, however its goroutines run | `Model/Abandoned`: the goroutines that read, the merging goroutine and the consumer as atomic actions; records are their global numbers. | An invariant over all actions: the records of each type are those given out, the one in its pipe if it is not sent yet, and the rest; pipes hold records above everything given out; the pipe that is sent is the least one, also by the shortcut for the next number. Progress: a measure that every receive makes smaller, and a round in which everybody gets a chance has a receive. The gap of a cancelled read is a run of seven actions. | partial |
| C170 | A consumer that reads on after its last event misses none | `Model/Abandoned` for each attempt; the consumer, who is not part of the code, is `resume` of `Spec/Resume`: each read starts after the last number got and sees a store that has grown. | From C169: what one read hands over is a beginning of what it was to read; induction over the attempts with the invariant that the consumer has a beginning of the store. The refutation is the cancelled read of C169 followed by a complete one. | partial |
| C171 | A read that looks complete is complete | `Model/Answers` on top of `Model/Abandoned`: what each call of Next, and Err after it, tells the consumer. | Induction over the actions: from each state of the reading goroutine, answers that look complete determine what is handed over. For merged reads a closed channel means that the merging goroutine has returned, and C169 applies. Refutations by short runs. | partial |
| C172 | A StartFrom that has returned lets go of the store | `Model/FailedStart` on top of `Model/Abandoned`: StartFrom with its two reads, the callback, the goroutine behind the read, Stop and the configuration's context as atomic actions. | Invariant: StartFrom returns nil only after it has received the end of its read. After a return the goroutine is on its own: it stays at an event that nobody takes until the context is cancelled, and two turns end it then. The refutation is a callback that fails at the first of two events. | partial |
| C173 | The callback of StartFrom gets the events in order, each once, and none after it failed | `Model/FailedStart`: as for C172; `Start.on` is StartFrom(n) on a given history, and the store may have grown at the second read. | Invariants over all actions: what was handed over ascends, ends at the last number and lies below what the goroutine still has; the callback failed at the last event only; what was handed over is a beginning of the log, since the second read starts after the last number of the first. Without cancellation and errors: what was handed over and what is left make up the present read. The refutations are short runs. | partial |
| C174 | The text of a snapshot is determined by the events that it counts | `Model/Projection`: Accept, SaveSnapshot with the JSON encoder's sorted keys, LoadFromSnapshot, as for C33. | The entries of the map are determined by the events; insertion sort by key yields an ascending list, and ascending lists with the same entries are equal. With the round trip of C33 for loading. | proved |
| C175 | The statistics may be read while events arrive | `Model/StatsLock`: any number of goroutines, each access to a field a step of its own, the RWMutex with its holders. | Invariant over all schedules: the lock is held by exactly those inside a method, a writer is alone, and the data are the statistics of the records whose Accept is over, up to what the writer has written. A race would need a second holder. Refutation: TotalEvents beside the third write of Accept. | partial |

No property is not applicable: each has an executable model.

## 6. Where the code does not do what the property says

Each item is proved of the model by a theorem whose name contains `false`, or that is named here. The code was left as it is.

**In-memory store** (`provider/inmemorystore/inmemory_store.go`)
* C06: a batch rejected in the middle (another aggregate type or ID, cancellation) leaves its first events stored, readable and never broadcast.
* C07: the rollback after a serializer error trims the stream named after the event, not the stream addressed. It empties that other stream, or panics with the store's lock held (`C07_panic_blocks`), after which every call blocks.
* C08: a failed first save leaves a key for the stream, so that `OptimisticDeleteStream(0)` returns nil instead of `ErrStreamNotFound`.
* C04: repeating a type in `EventsByAggregateTypes` repeats its records.
* C21: saves release the lock before they broadcast, so that overlapping saves can be broadcast in the wrong order and subscribers drop the lower number.

**LevelDB store** (`provider/leveldbstore/leveldb_store.go`)
* C12: clashing names (`x$!` begins `y$!` followed by an event number) collide: reading or deleting stream `a` also touches `a$!b`.
* C14: a failed `OptimisticDeleteStream` returns without discarding its transaction; every later write blocks.
* C54: a read that ends in an error sends it without looking at the context; if nobody receives it the read lock is never released.

**Both embedded stores**
* C17: the merge of several types drops the error of an input and looks complete.
* C23, C24: several types take the read lock once per type. The result is not one snapshot, and with a writer queued in between all three deadlock.
* C86: a consumer that saves before it has received the last record of its read (a subscription's callback during catch-up, or a loop over an iterator) deadlocks, and with it every other user of the store; the same for an inner read if a save is waiting.
* C61: data that is JSON `null` is accepted, and from then on no read gets past it. C62: names that are not UTF-8 come back changed, and different names become equal.

**Subscriptions** (`pkg/recordsubscriber`)
* C20: `StartFrom(n)` with no event n yet never delivers event n. C19: subscriptions to two or more types can miss events between the two catch-up reads.
* C79: the WebSocket and gRPC servers get live events through one subscription of their own; if it is too slow once it is stopped and never restarted, and every client stays connected and silent. A slow gRPC client is dropped but its call stays open. C80: a remote store's live connection starts after `New` has returned, so events in between are lost; one event it cannot decode ends live delivery to all its subscriptions.
* C87: after a callback's error, `Done` is never closed. When the WebSocket or gRPC server is stopped, the goroutine of every connected client waits forever to withdraw from a broadcaster that has returned, so its connection is not closed either.
* C124: aggregate types that are not UTF-8 are listed several times under the same name; without events `data` is `null`, not an empty list.
* C33: aggregate types that are not UTF-8 become one type in the snapshot, and its count is that of one of them. C59, C60: the statistics of a restarted server miss the first event; the live page counts one event twice.

**Encryption** (`pkg/crypto`, `provider/encryptedstore`)
* C29, C55: malformed cipher texts make AES/CBC and XChaCha20-Poly1305 panic.
* C26 (PostgreSQL), C50 (Vault), C51 (PostgreSQL): deletions that leave no trace, leave versions behind, or fail for the second subject.
* C27: another process's cache goes on serving a deleted key.
* C31, C32, C56, C57: one shredded subject hides every later event; `Record()` twice decrypts twice; a failed save has encrypted the caller's events; several subscribers decrypt one shared record again. C94: a record saved before encryption was introduced can make the reader panic (not with AES/GCM).
* C83: two goroutines that encrypt for a new subject at the same time can both succeed with the Vault key store, and one key is lost. C84: with the other stores one of them fails; so does one of two first reads through a new cache. C85: an encryption under way brings a deleted key back in PostgreSQL and Vault.
* C77: generated `Encrypt` has a pointer receiver, so events saved as struct values are stored in plain text; so are second names of a declaration, structs without a subject, tags in double quotes and the first of two numbers with one target. A tag of spaces makes the generator panic. C78: fields called `Type` or `Range`, or with a non-ASCII initial, give code that does not compile.

**PostgreSQL store** (`provider/postgresstore/postgres_store.go`)
* C89: `EventsByStream` from beyond the last event reports `ErrStreamNotFound`; the embedded stores return nothing and no error.
* C39, C40: a delete removes events it did not count; smaller numbers appear after larger ones.
* C67–C70: metadata poisons reads; failed deletes leak connections; without `WithUUIDGenerator` every save panics with its transaction open; the listener ends at the first bad event and panics after a reconnection.

**EventStoreDB adapter** (`provider/eventstore/eventstore.go`)
* C125: the metadata of an event is decoded without `UseNumber` (line 764): integers above 2^53 are rounded, unlike in the other stores.
* C43: number 0 is taken for "no expectation" or revision 0. C74: deleted streams stay visible in `Events`. C75: event types starting with `$` are acknowledged and never returned. C76: the listener starts with the whole history and ends at the first foreign event. C112: a client that is overtaken between its check and its append is told that the stream holds 0 events.

**Optimistic locking in all stores**
* C91: the expected number is compared with the length of the stream only. After a delete and as many new saves an `OptimisticSave` succeeds although everything the client read is gone.

**APIs**
* C34, C64: links break for names with reserved characters. C44, C45: truncated or failed exports look complete, and of several JSON arrays in one file only the first is read, without an error. C107: a msgpack file cut in the middle of a record looks complete if the cut is between two of its fields, or after its first byte. C63, C66: integers above 2^53 change on the way through HTTP and gRPC. C65: remote reads lose the error of the server's store.

**Web UI and the rangedb command** (`pkg/rangedbui/ui.go`, `cmd/rangedb/main.go`)
* C95: the statistics page reads its rows and its total separately. C96: the live page never shows the last events if their numbers arrived out of order. C108: counts are converted to signed numbers, so from 2^63 they are shown negative, and time stamps likewise. C97: on an interrupt the process usually ends through `log.Fatal` while requests are being handled and before the store is closed.

**Commands and the chat example**
* C35, C73: the aggregate object is shared by all dispatches and never reset. C71: overlapping commands save each other's events. C46, C72: decisions are saved with `Save`, so overlapping commands break the rules they checked.
* C81: `Load` ignores read errors and unbound types, so decisions are taken on part of a stream, and panics on a stream with a shredded subject. C82: the events of a command are saved one by one. C93: on an encrypted store `Dispatch` returns the encrypted events.
* C37: `ParseStream` panics on a name without `!` and misreads IDs that contain it.

**Test helper** (`rangedbtest/bdd/bdd.go`)
* C92: `Then` looks only at streams for which an event is expected, so additional events elsewhere pass unnoticed. On a store that already holds events it compares the wrong ones. `ThenInspectEvents` misses events in streams that are not named after their aggregate, and both ignore read errors.

**Generators** (`pkg/aggregategenerator`, `pkg/commandgenerator`, `pkg/eventparser`)
* C98: commands or events such as `Import`, `Select` or `Default` yield an aggregate that cannot compile; an event `Apply` recurses forever and an event `Raise` is raised again at every load; names that start with a letter outside ASCII are cut in the middle of it. C99: the aggregate type is put between quotes without escaping. C109 (`gen/eventbinder`): a struct in the files that is not an event, even one inside a function, makes the generated file fail to compile; an event declared as `type B A` is silently not bound; of two events with the same event type the last one bound wins.

**Configuration** (`provider/postgresstore/config.go`, `cmd/rangedb/main.go`)
* C101: with an empty `PG_PASSWORD` the database name is read as the password and the connection goes to the default database; a space in the password lets the rest be read as options; backslashes disappear. C102: snapshots of the statistics lie below the temporary directory under the path as given, so the same relative path started elsewhere reads the snapshots of another store; for PostgreSQL the name of that directory contains the password.

**Commands and example** (`cmd/grpc-event-subscriber`, `examples/chat`)
* C103: after a broken connection the client subscribes from the last number it received, not from the next one, and so prints that event again. C104: the processor decides by a projection that may lag behind, so a user can be warned more than twice; it subscribes only to new events, so messages sent while the program is down are never answered, and a user removed from a room is not banned if the program ends between the two commands.

**gRPC messages** (`pkg/grpc`, `cmd/rangedb/main.go:125`)
* C111: neither side raises gRPC's limit of four megabytes for received messages. A record is larger than the request that saved it, so an event saved just below the limit can never be read over gRPC, and `Events` fails there for every client that starts before it. Events saved over HTTP have no limit at all.

**Web pages** (`pkg/rangedbui/templates`, `pkg/rangedbui/ui.go`)
* C114: stream names are put into links without `url.PathEscape`, so the link of the stream `a?b` leads to the stream `a`, that of `%41` to the stream `A`, and those of `a/b`, `.` and `..` lead nowhere. Aggregate types with other characters than letters and `-`, such as `thing2` or `user_account`, are listed but their pages are not found.

**PostgreSQL limits** (`provider/postgresstore/postgres_store.go`)
* C116: a batch is one `INSERT` with nine parameters for an event, so the 7282nd event of a batch makes it fail, although every other store takes it. With `WithPgNotify` the whole row is the payload of a notification, which PostgreSQL limits to 7999 bytes: an event of about 7800 bytes can never be saved. `GlobalSequenceNumber` is `SERIAL`, so numbers end at 2^31-1, and refused saves use them up as well.

**Vault key store** (`pkg/crypto/provider/vaultkeystore/hashicorp_vault_keystore.go:158-164`)
* C117: `getPath` and `getDestroyPath` append the subject ID to the URL without `url.PathEscape`. The IDs `a?x`, `a#x` and `%61` all name the secret of `a`: they are given its key, and deleting one of them destroys it. An ID such as `50%` is refused.

**Live page** (`pkg/rangedbui/ui.go:341-387`)
* C118: the handler only writes, and only after a new event. A browser that has gone is noticed with the next event at the earliest, and in a store that gets no events the goroutine and its connection stay for ever.

**DynamoDB key store** (`pkg/crypto/provider/dynamodbkeystore/dynamodb_keystore.go:37-49`)
* C119: `GetItem` is called without `ConsistentRead: true`. After `Delete` a read may still return the key. For a new subject the read for the second personal field may miss the key that the first field has just created; `Set` then fails with `ErrKeyExistsForSubjectID` and the save is refused.

**Start-up and gen-random-events** (`cmd/rangedb/main.go:163-201`, `cmd/gen-random-events/main.go:57-82`)
* C120: an incomplete configuration counts as none. A server started with `PG_HOST` but without `PG_USER` runs, keeps its events in memory and loses them when it ends; with PostgreSQL configured `-levelDBPath` is ignored without a message.
* C121: `-total` is compared only after a whole stream has been saved, so more events than asked for are saved, and `-total 0` saves a stream. `-maxPerStream 0` panics.

**WebSocket API** (`pkg/rangedbws/websocket_api.go:85, 98-101, 139, 193`)
* C122: the handler calls `ReadMessage` once; whatever a client sends, its session ends. No write deadline is set: a client that stays connected without reading blocks its subscriber's goroutine in `WriteMessage`; the broadcaster removes it, but nobody closes the connection. `Stop` ends the broadcaster first, so that the subscribers it cancels wait for ever to withdraw, and their connections stay open; `stopChan` is closed but never read.
* C123: the route accepts letters, `-` and `,` only; the type `user2` can be saved but not subscribed to.

**gRPC subscriptions** (`pkg/grpc/rangedbserver/server.go:285, 306, 328`)
* C126: the handlers wait for `stream.Context().Done()` only, not for `subscriber.Done()`. When the broadcaster stops a slow subscriber, or its goroutine gives up because a record cannot be encoded, the call stays open: the client gets neither events nor an error from then on. `writeRecord` failures do not even close `finishChan` (record_subscriber.go:109-112).

**Chat example as JSON** (`examples/chat/room_events.go`, `provider/jsonrecordserializer/json_record_serializer.go`)
* C127: nothing checks that IDs are UTF-8. `BanUserFromRoom` for the user ID `"\xff"` returns the ban, stores it for the user `"\ufffd"`, and the banned user joins.

**Loops over iterators** (`pkg/recordsubscriber/record_subscriber.go:125-144`, `pkg/grpc/rangedbserver/server.go:89-97`, `pkg/grpc/rangedbpb/translate.go:13`, `provider/*recordiostream`, `store.go:145-155`)
* C128: `iter.Err()` is tested inside the loop, where it is always nil; after the loop nobody looks. `StartFrom` returns nil although the past could not be read.
* C129: `Next` of the decrypting iterator returns true for a record that cannot be decrypted; `Record` then returns nil. `ToPbRecord`, `writeRecord` and `MarshalRecord` dereference nil; `json.Marshal` writes `null`.

**LevelDB store on a failing disk** (`provider/leveldbstore/leveldb_store.go:214-262, 366-447, 497-522`)
* C130: the `Commit` error of a save returns without `Discard` (258-261), so the transaction stays open and the store is stuck as in C14. `getSequenceNumber` ignores whether `Last` succeeded (513) and `getGlobalSequenceNumber` ignores the error of `Get` (499-502): both answer 0, and the next event overwrites number 1 of its stream, or entry 1 of the global index. A delete whose iterator stops early sees fewer events; if that is the expected number it deletes those only.
* C131: `_ = iter.Error()` (402), and `getEventsByLookup` does not look at it at all. After `Stop` the iterators of the closed database are empty, so `Events` returns nothing without an error.

**PostgreSQL calls that return an error** (`provider/postgresstore/postgres_store.go`)
* C132: a call that returned an error changed nothing, with two exceptions: the reply to `COMMIT` is lost, or the save commits and then cannot decode one of its own records for the subscribers.

**PostgreSQL store next to the in-memory store** (`provider/postgresstore/postgres_store.go:189-259`, `provider/inmemorystore/inmemory_store.go:122-211, 238-285`)
* C133: `EventsByStream` from beyond the end of a stream says not found on PostgreSQL and returns nothing, without an error, on the in-memory store. After a refused `OptimisticSave` to a new stream the in-memory store has that stream, empty, and deletes it when asked with 0; PostgreSQL says not found. A batch of two aggregates is refused by both, but the in-memory store keeps its first events.

**Exports to writers and imports from readers that fail** (`provider/jsonrecordiostream/json_record_io_stream.go:24-99`, `provider/ndjsonrecordiostream/ndjson_record_io_stream.go:24-84`, `provider/msgpackrecordiostream/msgpack_record_io_stream.go:28-85`)
* C134: every `fmt.Fprint(writer, …)` and `writer.Write` discards its error, and the loop goes on. An export to a full disk reports success; after a writer that failed for a while the file can be a complete, valid export that lacks records in the middle.
* C135: `decoder.More()` is false when the reader fails. An import whose connection breaks behind a complete record ends without an error; msgpack reports every failure.

**Remote store over connections that break** (`provider/remotestore/remote_store.go:146-265`)
* C136: `Save` carries no ID by which the server could recognise a repetition; a client that repeats it after a lost reply stores its events twice. `OptimisticSave` is safe to repeat.
* C137: a delete carries no more than the expected length. A client that repeats it after a lost reply deletes the stream anew if somebody has meanwhile saved as many events to it as there were.

**Replies of the gRPC server** (`pkg/grpc/rangedbserver/server.go:157, 211, 265`)
* C138: `EventsDeleted` and `EventsSaved` are `uint32` of numbers of 64 bits, and `EventsDeleted` is the request's number, not a count.

**EventStoreDB store next to the in-memory store** (`provider/eventstore/eventstore.go`)
* C139: a stream that was deleted cannot be saved to again; a read beyond the last event of a stream says that there is no such stream; a refused batch of several aggregates leaves nothing, where the in-memory store keeps the events before the first wrong one.

**JSON tools** (`pkg/jsontools/json_tools.go:15-19`)
* C162: the error of `json.Indent` is ignored and the result for a text that is no JSON is the empty string. A comparison of two pretty texts, as the tests of the HTTP and WebSocket interfaces make it, therefore accepts every broken reply where a broken one is expected (`C162_broken_equal`).

**Live subscribers of a server** (`provider/inmemorystore/inmemory_store.go:244-297`)
* C163: a message with events of different aggregates is refused, but the in-memory store keeps the events before the first wrong one. Every reader sees them from then on; no subscriber is told of them (`C163_untold`).

**Subscriptions that are started twice** (`pkg/recordsubscriber/record_subscriber.go:58-117`)
* C165: nothing keeps a subscription from being started twice. Then two goroutines take records from one channel: events are given to the subscriber in the wrong order or not at all (`C165_disorder`, `C165_lost`), and both close the same channel when the subscription is stopped, which ends the process (`C165_crash`).

**Remote store** (`provider/remotestore/remote_store.go:151-158`, `provider/inmemorystore/inmemory_store.go:244-257`)
* C166: a batch with events of several aggregates is refused by both stores, but the in-memory store keeps the events before the first wrong one and the remote store sends nothing: a program that moves from one to the other sees different data (`C166_refuted`).

**Abandoned reads** (`merge_record_iterators.go:45, 55`, `publish_record.go:9-33`, `provider/inmemorystore/inmemory_store.go:145, 153`)
* C168: a read of several aggregate types that its consumer leaves before the end leaves a goroutine behind for ever, although its context is cancelled: the merging goroutine sends without looking at the context (`C168_stuck`, `C168_left_behind`). The same holds for a goroutine that has an error of the store to send (`C168_error_stuck`), and that one keeps the read lock.

**Gap in a cancelled read of several types** (`merge_record_iterators.go:49-51`, `publish_record.go:9-33`)
* C169: when the context of a read of several types is cancelled, the goroutine of one type may end with the context's error while the merge still holds a record of another type. `ReadNext` returns false, the type is dropped with its error, and the held record is handed over although earlier ones of the dropped type were not. A consumer that notes the last number it saw and resumes from there skips events.
* C170: so a consumer that reads several types under a context with a deadline, and reads on after the last number it got, can lose events for good.

**Cancelled reads that look complete** (`publish_record.go:12-15, 23-26`, `record_iterator.go:17-25`)
* C171: the error of a cancelled context is offered for one second. A consumer that takes longer over the event it got before finds the channel closed: `Next` returns false and `Err` nil, as after the last event.

**StartFrom with a callback that fails** (`record_subscriber.go:125-139`, `config.go:31-33, 49-51`)
* C172: `writeRecords` returns the error of the callback and leaves its iterator. The goroutine behind it keeps offering the next event and holds the read lock of the store, so every later save blocks. `Stop` cancels the context that `New` derived, but the read uses the one of the configuration: only cancelling that one frees the store.
* C173: `StartFrom(n)` whose first read finds nothing reads the second time from n + 1: an event n saved in between is left out (compare C20). A `StartFrom` whose context is cancelled in a read returns nil after a part of the events (compare C128).

**Total of the statistics without the lock** (`pkg/projection/aggregate_type_stats.go:61-64`)
* C175: `TotalEvents` is the only method that does not take the lock. The API and every page of the web UI call it while the subscription accepts events: a data race in Go's memory model.


## 7. Axioms of each theorem

`#print axioms` of every theorem named in `MANIFEST.json`, grouped. Names are relative to the namespace `RangeDB`.

* **no axioms**: `Evb.C109_pointer`, `Key.C27_false_two_caches`, `Prj.C33_foreign_snapshot_panics`, `Txt.C37_names_collide`, `Key.C50_false_key_survives`, `Key.C51_false`, `Clock.C52_sequential`, `Http.C64_wrong_links`, `Cqrs.C71_duplicated`, `Cqrs.C71_lost`, `Cqrs.C71_false`, `Proc.C97_false`.
* **Classical.choice, Quot.sound, propext**: `IM.C01_save_appends`, `IM.C01_save_appends_indexes`, `IM.C02_stream_contiguous`, `IM.C03_events_ordered`, `IM.C03_events_is_log`, `IM.C04_events_by_types`, `IM.C05_later_reads`, `IM.C06_partial`, `IM.C06_exact`, `IM.C06_left`, `IM.C07_partial`, `IM.C07_exact`, `IM.C07_unreadable`, `IM.C08_partial`, `IM.C08_not_found`, `IM.C08_found_empty`, `IM.C09_gsn_never_reused`, `IM.C10_isolation`, `Uuid.C100_form`, `Uuid.C100_new`, `Cfg.C101_partial`, `Cfg.C101_environment`, `Cfg.C101_no_password`, `Cfg.C101_false`, `Cfg.C101_examples`, `Cfg.C102_false`, `Cfg.C102_escape`, `Recon.C103_partial`, `Recon.C103_order`, `Recon.C103_again`, `Recon.C103_false`, `Lin.C105_inmemory`, `Lin.C105_leveldb`, `Lin.C105_inmemory_history`, `Lin.C105_leveldb_history`, `Lin.C105_inmemory_one_winner`, `Lin.C105_leveldb_one_winner`, `Lin.C105_inmemory_read_after_save`, `Lin.C105_leveldb_read_after_save`, `Mp.C106_file`, `Mp.C106_exact`, `Mp.C106_distinct`, `Mp.C106_concat`, `Mp.C106_record`, `Mp.C106_lawful`, `Mp.C106_view`, `Mp.C107_partial`, `Mp.C107_prefix`, `Mp.C107_false`, `Ui.C108_partial`, `Ui.C108_no_panic`, `Ui.C108_distinct`, `Ui.C108_date`, `Ui.C108_date_wraps`, `Evb.C109_false`, `Evb.C109_false_local`, `Evb.C109_false_unbound`, `Evb.C109_false_same`, `LD.C11_calls`, `LD.C11_reads`, `LD.C11_save_appends`, `Wire.C110_transmit`, `Wire.C110_refused`, `Wire.C110_distinct`, `Wire.C110_unknown`, `Wire.C110_served`, `Wire.C111_partial`, `Wire.C111_witness`, `Wire.C111_false`, `EDB.C112_partial`, `EDB.C112_refused`, `Html.C113`, `Html.C113_stream`, `Html.C113_type`, `Html.C113_types`, `Html.C113_record`, `Html.C113_exists`, `Html.C114_partial`, `Html.C114_false`, `Html.C114_types`, `Pgn.C115`, `Pgn.C115_read`, `Pgn.C115_schedule`, `Pgn.C115_distinct`, `Pgn.C116_partial`, `Pgn.C116_enough`, `Pgn.C116_size`, `Pgn.C116_payload`, `Pgn.C116_total`, `Pgn.C116_exhausted`, `Pgn.C116_false`, `Pgn.C116_false_notify`, `Key.C117_partial`, `Key.C117_plain`, `Key.C117_query`, `Key.C117_fragment`, `Key.C117_exact`, `LD.C12_partial`, `LD.C12_any_name`, `LD.C12_streams_exact`, `LD.C12_types_exact`, `Cfg.C120_false`, `Rnd.C121_types`, `Rnd.C121_zero`, `Rnd.C121_false`, `Ws.C122_partial`, `Ws.C123_partial`, `Http.C124_partial`, `Http.C124_false`, `EDB.C125_partial`, `EDB.C125_run`, `EDB.C125_false`, `EDB.json_roundTrip`, `Grpc.C126_ends_partial`, `Chat.C127_partial`, `Chat.C127_bans_partial`, `Chat.C127_overlap_partial`, `Chat.C127_banned_partial`, `Chat.C127_false`, `Use.C128_lost`, `Use.C129_partial`, `Use.C129_loop`, `Use.C129_grpc`, `Use.C129_subscription`, `Use.C129_export`, `Use.C129_msgpack`, `Use.C129_page`, `LD.C13_crash_reads`, `LDF.C130_overwrites`, `LDF.C131_partial`, `LDF.C131_exact`, `PG.C132_partial`, `PG.C133_partial`, `PG.C133_false`, `PG.C133_delete_differs`, `Json.C134_disk_reads`, `Json.C134_any_part_reads`, `Json.C134_whole_reads`, `Json.C135_json_partial`, `Json.C135_ndjson_partial`, `Json.C135_false`, `Mp.C135_msgpack`, `Rem.C136_once`, `Rem.C136_learned`, `Rem.C137_each`, `Rem.C137_once_partial`, `Rem.C137_learned`, `Rem.C138_save`, `Rem.C138_delete_partial`, `Rem.C138_leveldb_save`, `Rem.C138_leveldb_delete_partial`, `Rem.C138_truncated`, `Rem.C138_false`, `EDB.C139_partial`, `LD.C14_partial`, `Sub.C19_order`, `Chain.C79_order`, `Chat.C46_banned`, `Chat.C46_after_ban`, `Web.C144_page`, `Web.C144_live`, `Disp.C146`, `Lock.C148`, `ES.C149_mem`, `ES.C149_dyn`, `C15_agree`, `Recon.C150`, `EDB.C74_stream_gone`, `Rem.C42_delete`, `LD.C156`, `LD.C156_kept`, `LD.C156_acknowledged`, `Rem.C157_once`, `Rem.C157_learned`, `PG.C158_released`, `PG.C158_transfer`, `PG.C158_served`, `Rem.C159_each`, `Rem.C159_once`, `Rem.C159_learned`, `C16_merge`, `C16_merge_complete`, `Srv.C160_inmemory`, `Srv.C160_leveldb`, `Srv.C160_posted`, `Srv.C160_sent`, `EL.C161`, `EL.C161_acknowledged`, `EL.C161_shredded`, `EL.C161_memory_lost`, `Ind.C162_same`, `Ind.C162_normal`, `Ind.C162_idempotent`, `Ind.C162_layout`, `Ind.C162_canonical`, `Ind.C162_every`, `Ind.C162_literals`, `Srv.C163_inmemory`, `Srv.C163_leveldb`, `Srv.C163_history`, `Srv.C164_agree`, `Srv.C164_acknowledged`, `Srv.C164_killed`, `Again.C165_again_partial`, `Again.C165_order_partial`, `Rem.C166_partial`, `Rem.C166_leveldb_partial`, `IM.C167_answers`, `IM.C167_delete_partial`, `LD.C167_save_partial`, `LD.C167_delete_partial`, `C167_refuted`, `Left.C168_refuted`, `Left.C169_order`, `Left.C169_no_gap_partial`, `Left.C169_complete`, `Left.C169_prefix_partial`, `Left.C169_delivered`, `C17_partial`, `C17_exact`, `Left.C170_partial`, `Left.C170_complete_partial`, `Left.C171_merged_partial`, `Left.C173_no_gap`, `Left.C173_complete_partial`, `Left.C173_skipped`, `Prj.C174_again`, `Prj.C174_resumed`, `Sub.C19_exactly_once`, `Sub.C20_exact`, `Sub.C20_partial`, `Sub.C20_boundary_lost`, `Sub.C21_partial`, `Bc.C22_deliveries`, `Bc.C22_timeout`, `Bc.C22_stops`, `Bc.C22_close`, `Lock.C24_partial`, `Lock.C24_false`, `Key.C27_transparent`, `Cry.C28_rot13`, `Cry.C28_cache`, `Cry.C28_one_key`, `Cry.C29_partial`, `ES.C30_transparent`, `ES.C30_sealed`, `ES.C31_partial`, `Prj.C33_partial`, `Pg.C34_partial`, `Pg.C34_previous`, `Pg.C34_list_text`, `Pg.C34_link_text`, `Pg.C34_stream_pages`, `Pg.C34_type_pages`, `Cqrs.C35_persists`, `Cqrs.C35_saved`, `Cqrs.C35_one_stream_partial`, `Txt.C36_error_text`, `Txt.C36_text_injective`, `Txt.C36_cut`, `PG.C38_contiguous`, `PG.C38_unique`, `PG.C38_acknowledged`, `PG.C38_one_winner`, `PG.C38_one_commit`, `PG.C38_serial`, `PG.C39_removed`, `PG.C39_partial`, `PG.C40_late`, `PG.C40_partial`, `PG.C40_stream_partial`, `Http.C41_save_status`, `Http.C41_delete_status`, `Json.C41_names`, `Rem.C42_save_partial`, `Rem.C42_stream_partial`, `Rem.C42_events_partial`, `EDB.C43_reads`, `EDB.C43_save`, `EDB.C43_save_succeeds`, `EDB.C43_save_error`, `EDB.C43_delete`, `EDB.C43_numbers_partial`, `Json.C44_json_partial`, `Json.C44_ndjson_partial`, `Json.C44_json_truncated`, `Json.C44_ndjson_truncated`, `Json.C44_truncation_false`, `Json.C44_json_joined`, `Json.C44_ndjson_joined`, `Json.C44_json_fault`, `Json.C45_reads_back`, `Chat.C46_serial_partial`, `C47_readN`, `Left.C47_merged`, `Clock.C52_increasing`, `Sub.C53_live`, `Lock.C54_writer_partial`, `Lock.C54_false`, `Lock.C54_leveldb`, `Cry.C55_partial`, `ES.C56_exact`, `Prj.C59_partial`, `Prj.C59_off_by_one`, `Prj.C59_false`, `Prj.C60_partial`, `Prj.C60_false`, `Json.C61_inmemory_partial`, `Json.C61_leveldb_partial`, `Json.C61_null_poisons`, `Json.C62_names_replaced`, `Json.C62_utf8_kept_partial`, `Http.C63_any_body_partial`, `Http.C63_inmemory_partial`, `Http.C63_leveldb_partial`, `Http.C63_numbers_changed`, `Http.C63_false`, `Http.C64_self_link_partial`, `Rem.C65_error_lost`, `Rem.C65_false`, `Rem.C66_inmemory_partial`, `Rem.C66_leveldb_partial`, `Rem.C66_numbers_changed`, `Rem.C66_false`, `Rem.C66_uint64_hides`, `Rem.C66_metadata_changed`, `PG.C67_read`, `PG.C67_not_acknowledged`, `PG.C67_committed`, `PG.C67_partial`, `PG.C68_partial`, `PG.C68_false`, `PG.C69_partial`, `PG.C69_nothing_saved`, `PG.C69_panics`, `PG.C70_notified`, `Chat.C72_serial_partial`, `Chat.C73_partial`, `EDB.C75_returned_partial`, `Gen.C77_partial`, `Gen.C77_second_name_plain`, `Gen.C77_no_subject_plain`, `Gen.C77_quoted_plain`, `Gen.C77_false_second_name`, `Gen.C77_false_quoted`, `Gen.C78_partial`, `Chain.C79_ws_partial`, `Chain.C79_grpc_partial`, `Chain.C80_partial`, `Chain.C80_false_startup`, `Chain.C80_false`, `Chain.C80_false_undecodable`, `Disp.C81_partial`, `Disp.C81_shredded_panics`, `Disp.C82_partial`, `Lock.C86_partial`, `Stop.C87_partial`, `Stop.C87_false`, `Stop.C87_false_consumer`, `Stop.C87_false_close`, `Stop.C88_save`, `Stop.C88_buffers`, `PG.C89_partial`, `PG.C89_stream`, `PG.C89_acknowledged`, `EDB.C90_stream`, `EDB.C90_resume`, `IM.C91_inmemory_partial`, `IM.C91_inmemory_one_winner`, `LD.C91_leveldb_partial`, `LD.C91_leveldb_one_winner`, `PG.C91_postgres_partial`, `Bdd.C92_partial`, `Bdd.C92_no_events`, `Bdd.C92_given`, `Bdd.C92_inspect`, `Disp.C93_partial`, `Disp.C93_returns`, `Disp.C93_plain`, `Disp.C93_false`, `Web.C95_partial`, `Web.C95_false`, `Web.C96_partial`, `Web.C96_messages`, `Proc.C97_progress`, `Agg.C98_partial`, `Agg.C98_rejected`, `Agg.C98_keyword`, `Agg.C98_false`, `Agg.C98_apply`, `Agg.C98_raise`, `Agg.C98_case`, `Agg.C98_unicode`, `Agg.C99_name`, `Agg.C99_false`.
* **Quot.sound, propext**: `IM.C10_guard_needed`, `IM.C04_repeated_type_duplicates`, `IM.C05_mismatch`, `IM.C05_success_only_if_match`, `IM.C06_false`, `IM.C07_false`, `IM.C07_corrupts`, `IM.C08_false`, `IM.C08_cancelled`, `Uuid.C100_distinct`, `Cfg.C102_partial`, `Mod.C104_partial`, `Mod.C104_fair`, `Mp.C106_signed`, `Ui.C108_year`, `Evb.C109_partial`, `Evb.C109_generated`, `Evb.C109_compiles`, `Evb.C109_last`, `Evb.C109_each`, `Wire.C110_hostile`, `EDB.C112_false`, `Pgn.C115_typed`, `Pgn.C115_mistyped`, `Pgn.C116_parameters`, `Pgn.C116_numbers`, `Key.C117_no_url`, `Web.C118_partial`, `Web.C118_stays`, `Web.C118_served`, `Web.C118_false`, `Cry.C119_partial`, `Cry.C119_one_key`, `Cry.C119_writes`, `Cry.C119_unread`, `Cry.C119_race`, `Rnd.C121_partial`, `Rnd.C121_ends`, `Rnd.C121_streams`, `Ws.C122_stays`, `Ws.C122_one_writer`, `Ws.C122_false`, `Ws.C122_false_stop`, `Ws.C123_all`, `Ws.C123_false`, `Grpc.C126_partial`, `Grpc.C126_false_slow`, `Grpc.C126_false_bad`, `Grpc.C126_false_stop`, `Chat.C127_ban_void`, `Use.C128_partial`, `Use.C128_exact`, `Use.C128_refused`, `Use.C128_silent`, `Use.C128_silent_encrypted`, `Use.C128_false`, `Use.C129_grpc_plain`, `Use.C129_false`, `Use.C129_false_others`, `LD.C13_save`, `LD.C13_save_returns`, `LD.C13_delete`, `LD.C13_crash_state`, `LDF.C130_partial`, `LDF.C130_save`, `LDF.C130_commit`, `PG.C132_false`, `PG.C132_false_decode`, `PG.C133_mixed`, `Json.C134_partial`, `Json.C134_exact`, `Json.C134_slices`, `Json.C134_silent`, `Json.C134_disk`, `Json.C134_any_part`, `Json.C134_nothing`, `Json.C134_false`, `Rem.C136_either`, `Rem.C136_false`, `Rem.C136_twice`, `Rem.C137_false`, `EDB.C139_false`, `EDB.C139_delete_differs`, `EDB.C139_reuse`, `EDB.C139_mixed`, `LD.C14_exact`, `Proc.C145`, `Cry.C147`, `C15_differ_part_way`, `Lock.C23_snapshot`, `EDB.C74_name_lost`, `ES.C94_gcm`, `ES.C94_gcm_full`, `LD.C156_works`, `Srv.C160_direct`, `Ind.C162_invalid`, `Srv.C163_untold`, `Srv.C164_works`, `Again.C165_once_partial`, `Again.C165_crash`, `Again.C165_lost`, `Again.C165_disorder`, `Rem.C166_refuted`, `IM.C167_save_partial`, `Left.C168_one_partial`, `Left.C168_sources_partial`, `Left.C168_drained_partial`, `Left.C168_stuck`, `Left.C168_left_behind`, `Left.C169_ends`, `Left.C169_one`, `Left.C169_refuted`, `C17_false_store`, `Left.C170_refuted`, `Left.C172_started_partial`, `Left.C172_cancelled_partial`, `Left.C172_last_partial`, `Left.C172_wedged`, `Left.C172_first_event`, `Left.C172_refuted`, `Left.C173_order`, `Left.C173_stored`, `Left.C173_failed`, `Left.C173_no_more`, `Prj.C174_same`, `Prj.C174_keys`, `Prj.C175_partial`, `Prj.C175_consistent`, `Prj.C175_stable`, `Prj.C175_accesses`, `Prj.C175_total`, `C18_protocol`, `C18_with_error`, `C18_drain`, `Sub.C19_false_two_types`, `Sub.C20_false`, `Sub.C21_false`, `Sub.C21_false_failed_batch`, `Lock.C23_partial`, `Lock.C23_false`, `Key.C25_get`, `Key.C25_set`, `Key.C25_unique`, `Key.C26_dynamodb`, `Key.C26_postgres`, `Key.C26_false_postgres`, `Cry.C26_shredded`, `Key.C27_deleted_dynamodb`, `Cry.C28_gcm`, `Cry.C28_xchacha`, `Cry.C28_cbc`, `Cry.C28_gcm_succeeds`, `Cry.C28_memory`, `Cry.C28_postgres`, `Cry.C28_dynamodb`, `Cry.C28_vault`, `Cry.C29_padding`, `Cry.C29_false_last_byte`, `ES.C30_calls`, `ES.C31_false`, `ES.C31_example`, `ES.C32_second`, `ES.C32_false`, `ES.C32_example`, `Prj.C33_counts`, `Prj.C33_order`, `Pg.C34_false`, `Pg.C34_panics`, `Cqrs.C35_partial`, `Cqrs.C35_false`, `Chat.C73_second_user`, `Txt.C36_no_marker`, `Txt.C37_partial`, `Txt.C37_panic`, `Txt.C37_names_injective`, `PG.C39_false`, `PG.C40_false`, `Http.C41_save_malformed`, `Http.C41_header_cas`, `Http.C41_body`, `Http.C41_mistyped`, `Rem.C42_invalid_batch`, `Rem.C42_invalid_name`, `Rem.C42_false`, `EDB.C43_batch`, `EDB.C43_false_delete_zero`, `EDB.C43_false_save_zero`, `EDB.C43_false_read_fails`, `Json.C44_msgpack_partial`, `Json.C44_msgpack_fault`, `Json.C44_accepts`, `Json.C44_types`, `Json.C45_error_lost`, `Json.C45_false`, `Json.C45_marshal_partial`, `Chat.C46_false`, `Chat.C46_processor`, `Chat.C46_ban_raised`, `Chat.C46_word_found`, `Chat.C46_warnings`, `C48_iteration`, `Cry.C49_encrypt`, `Cry.C49_decrypt`, `Key.C50_partial`, `Key.C50_exact`, `Key.C50_false`, `Key.C51_partial`, `Key.C51_false_forever`, `Clock.C52_seeded`, `Lock.C54_partial`, `Lock.C54_never_waits_partial`, `ES.C56_false`, `ES.C57_partial`, `ES.C57_gcm`, `ES.C57_xchacha`, `ES.C57_false`, `ES.C58_stores`, `Prj.C59_delete_drift`, `Json.C61_false`, `Json.C62_names_merge`, `Rem.C65_reachable`, `Rem.C65_stream_partial`, `PG.C68_exhausted`, `PG.C70_partial`, `PG.C70_stops`, `PG.C70_reconnect`, `Cqrs.C71_partial`, `Chat.C72_false`, `Chat.C73_ban_leaks`, `Chat.C73_phantom_room`, `Chat.C73_false`, `EDB.C74_events_partial`, `EDB.C74_false_shipped`, `EDB.C74_false_restart`, `EDB.C74_false_other`, `EDB.C75_hidden`, `EDB.C75_false`, `EDB.C75_numbers_false`, `EDB.C76_all_partial`, `EDB.C76_reachable`, `EDB.C76_poison`, `EDB.C76_false_history`, `EDB.C76_false_poison`, `Gen.C77_false`, `Gen.C77_false_no_subject`, `Gen.C77_false_same_target`, `Gen.C77_blank_tag_panics`, `Gen.C77_order`, `Gen.C77_file`, `Gen.C78_false`, `Chain.C79_silent`, `Chain.C79_false_relay`, `Chain.C79_false_slow_grpc`, `Disp.C81_error_ignored`, `Disp.C81_unbound_ignored`, `Disp.C81_objects`, `Disp.C81_false`, `Disp.C82_false`, `Disp.C82_false_crash`, `Disp.C82_false_mixed`, `Race.C83_partial`, `Race.C83_false`, `Race.C83_false_vault`, `Race.C83_alone`, `Race.C83_alone_stores`, `Race.C84_partial`, `Race.C84_false`, `Race.C85_partial`, `Race.C85_false`, `Lock.C86_false`, `Lock.C86_false_save`, `Lock.C86_false_read`, `PG.C89_false`, `EDB.C90_views`, `EDB.C90_shared_position`, `IM.C91_false`, `Bdd.C92_false`, `Bdd.C92_false_old_store`, `Bdd.C92_false_delete`, `Bdd.C92_inspect_false`, `Disp.C93_example`, `ES.C94_partial`, `ES.C94_false`, `ES.C94_false_cbc`, `Proc.C97_partial`, `Proc.C97_any_time`, `Agg.C98_apply_own`, `Agg.C98_load`, `Agg.C98_handle`, `Agg.C99_partial`.
* **propext**: `IM.C06_false_canceled`, `IM.C07_panic_blocks`, `Mod.C104_false`, `Mod.C104_restart`, `Mp.C106_refused`, `Ui.C108_false`, `Evb.C109_no_files`, `Key.C117_percent`, `Key.C117_false`, `Cry.C119_false`, `Cry.C119_first_event`, `LD.C12_false`, `LD.C12_false_delete`, `Cfg.C120_partial`, `Cfg.C120_memory`, `Cfg.C120_path_ignored`, `Rnd.C121_refused`, `Ws.C122_false_message`, `Ws.C122_false_slow`, `Grpc.C126_only`, `Grpc.C126_false`, `LDF.C130_false`, `LDF.C130_false_overwrites`, `LDF.C130_false_delete`, `LDF.C131_closed`, `LDF.C131_false`, `LDF.C131_false_closed`, `Rem.C137_either`, `LD.C14_false`, `LD.C14_false_reads`, `Cry.C55_gcm`, `Rem.C42_total`, `Again.C165_refuted`, `Left.C168_error_stuck`, `C17_false`, `Left.C171_one_partial`, `Left.C171_uncancelled_partial`, `Left.C171_merged_silent`, `Left.C171_late`, `Left.C171_refuted`, `Left.C171_merged_refuted`, `Left.C173_refuted`, `Left.C173_cancelled`, `Prj.C175_refuted`, `C18_next_context`, `Key.C26_memory`, `Key.C27_deleted`, `Cry.C29_false`, `Cry.C29_false_one_block`, `ES.C32_partial`, `Prj.C33_false`, `Txt.C37_false`, `PG.C39_late_save_lost`, `PG.C39_gap`, `PG.C40_skipped`, `Http.C41_leveldb_not_saved`, `Http.C41_inmemory_half_saved`, `Json.C44_missing`, `Chat.C46_processor_settles`, `C48_publish`, `Cry.C55_false`, `ES.C56_partial`, `ES.C58_redacted`, `Json.C61_leveldb_wedged`, `Json.C62_false`, `Http.C63_missing_data_hides`, `Http.C64_false`, `PG.C67_poisoned`, `PG.C67_false`, `PG.C69_false`, `PG.C70_false`, `Gen.C77_value_plain`, `Gen.C78_false_utf8`, `Race.C84_false_encrypt`, `Race.C84_false_cache`, `LD.C91_leveldb_false`, `PG.C91_postgres_false`, `Web.C96_false`.
