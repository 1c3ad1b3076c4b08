{
 "claims": [
  {
   "property": "C01",
   "status": "proved",
   "theorems": [
    "RangeDB.IM.C01_save_appends",
    "RangeDB.IM.C01_save_appends_indexes"
   ],
   "note": "In-memory store, every history."
  },
  {
   "property": "C02",
   "status": "proved",
   "theorems": [
    "RangeDB.IM.C02_stream_contiguous",
    "RangeDB.IM.C10_guard_needed"
   ],
   "note": "Guarded histories only: no multi-event batch addressed to a stream not named aggregateType!aggregateID is rejected by the serializer (the C07 defect)."
  },
  {
   "property": "C03",
   "status": "proved",
   "theorems": [
    "RangeDB.IM.C03_events_ordered",
    "RangeDB.IM.C03_events_is_log"
   ],
   "note": "In-memory store, every history."
  },
  {
   "property": "C04",
   "status": "proved",
   "theorems": [
    "RangeDB.IM.C04_events_by_types",
    "RangeDB.IM.C04_repeated_type_duplicates"
   ],
   "note": "Guarded histories only: no multi-event batch addressed to a stream not named aggregateType!aggregateID is rejected by the serializer (the C07 defect). Requested types distinct; repeating a type yields its records repeatedly (proved)."
  },
  {
   "property": "C05",
   "status": "proved",
   "theorems": [
    "RangeDB.IM.C05_mismatch",
    "RangeDB.IM.C05_success_only_if_match",
    "RangeDB.IM.C05_later_reads"
   ],
   "note": "In-memory store."
  },
  {
   "property": "C06",
   "status": "partial",
   "theorems": [
    "RangeDB.IM.C06_partial",
    "RangeDB.IM.C06_exact",
    "RangeDB.IM.C06_left",
    "RangeDB.IM.C06_false",
    "RangeDB.IM.C06_false_canceled"
   ],
   "note": "False in full: a batch rejected in the middle has already stored its first events (negation proved). C06_left says exactly which events a failed save leaves behind, C06_exact exactly when it leaves none: an unexpected number, a serializer error, an empty batch, or a context cancelled before the call."
  },
  {
   "property": "C07",
   "status": "partial",
   "theorems": [
    "RangeDB.IM.C07_partial",
    "RangeDB.IM.C07_false",
    "RangeDB.IM.C07_panic_blocks",
    "RangeDB.IM.C07_corrupts",
    "RangeDB.IM.C07_exact",
    "RangeDB.IM.C07_unreadable"
   ],
   "note": "False in full for streams not named after their events (negation proved). C07_exact: what a rejected batch does in every case, and so exactly when it does damage; C07_unreadable: after it, what is saved to that stream is acknowledged and can never be read."
  },
  {
   "property": "C08",
   "status": "partial",
   "theorems": [
    "RangeDB.IM.C08_partial",
    "RangeDB.IM.C08_not_found",
    "RangeDB.IM.C08_found_empty",
    "RangeDB.IM.C08_false",
    "RangeDB.IM.C08_cancelled"
   ],
   "note": "False in one corner (counterexample proved): deleting with expected number 0 a stream whose first save failed returns nil. C08_not_found and C08_found_empty: exactly when, which is after a rejected save of an event the stream is named after, even one addressed to another stream. Everything else proved, on histories without the C07 defect."
  },
  {
   "property": "C09",
   "status": "proved",
   "theorems": [
    "RangeDB.IM.C09_gsn_never_reused"
   ],
   "note": "In-memory store, every history."
  },
  {
   "property": "C10",
   "status": "proved",
   "theorems": [
    "RangeDB.IM.C10_isolation",
    "RangeDB.IM.C10_guard_needed"
   ],
   "note": "Guarded histories only: no multi-event batch addressed to a stream not named aggregateType!aggregateID is rejected by the serializer (the C07 defect)."
  },
  {
   "property": "C100",
   "status": "proved",
   "theorems": [
    "RangeDB.Uuid.C100_form",
    "RangeDB.Uuid.C100_distinct",
    "RangeDB.Uuid.C100_new"
   ],
   "note": "The randomness of the UUIDs themselves is the library's."
  },
  {
   "property": "C101",
   "status": "partial",
   "theorems": [
    "RangeDB.Cfg.C101_partial",
    "RangeDB.Cfg.C101_environment",
    "RangeDB.Cfg.C101_no_password",
    "RangeDB.Cfg.C101_false",
    "RangeDB.Cfg.C101_examples"
   ],
   "note": "False: values are not quoted. Without a password, which the environment may leave empty, every configuration loses its database name, which is sent as the password (proved for all other values). Proved for values that are not empty, without white space or backslash, and not starting with a quote. The driver's parser is modelled from its source, for ASCII white space."
  },
  {
   "property": "C102",
   "status": "partial",
   "theorems": [
    "RangeDB.Cfg.C102_partial",
    "RangeDB.Cfg.C102_false",
    "RangeDB.Cfg.C102_escape"
   ],
   "note": "False for relative paths (counterexample proved): the same relative path in two working directories is two databases and one snapshot directory. Proved for absolute paths without `..`; symbolic links are not modelled."
  },
  {
   "property": "C103",
   "status": "partial",
   "theorems": [
    "RangeDB.Recon.C103_partial",
    "RangeDB.Recon.C103_order",
    "RangeDB.Recon.C103_again",
    "RangeDB.Recon.C103_false"
   ],
   "note": "False: after every break the client asks for the event it received last, so that event is printed again (counterexample proved; proved to happen in every undisturbed connection). Proved for any number of connections broken at any moment: nothing is missed (LevelDB, all events or one type, server undisturbed) and the numbers never go down (always)."
  },
  {
   "property": "C104",
   "status": "partial",
   "theorems": [
    "RangeDB.Mod.C104_partial",
    "RangeDB.Mod.C104_fair",
    "RangeDB.Mod.C104_false",
    "RangeDB.Mod.C104_restart"
   ],
   "note": "False in full (counterexamples proved): while the projection lags the processor keeps warning, and messages not yet handled at a restart are never answered. Proved for every schedule: one answer per message without restarts; two warnings then bans if the projection is up to date; no ban without two warnings, even with restarts. Assumes that subscriptions deliver everything (C19, C53)."
  },
  {
   "property": "C105",
   "status": "proved",
   "theorems": [
    "RangeDB.Lin.C105_inmemory",
    "RangeDB.Lin.C105_leveldb",
    "RangeDB.Lin.C105_inmemory_history",
    "RangeDB.Lin.C105_leveldb_history",
    "RangeDB.Lin.C105_inmemory_one_winner",
    "RangeDB.Lin.C105_leveldb_one_winner",
    "RangeDB.Lin.C105_inmemory_read_after_save",
    "RangeDB.Lin.C105_leveldb_read_after_save"
   ],
   "note": "Linearizability for any number of calls and every interleaving of their steps. In-memory: the corollaries assume batches that are rolled back correctly (Guarded, C06); LevelDB: names that do not clash (C12) and fewer than 2^64 events. Reads of several aggregate types are not atomic and are left out (C23, C24). LevelDB's TotalEventsInStream takes no lock and is still covered, because a commit is one step."
  },
  {
   "property": "C106",
   "status": "proved",
   "theorems": [
    "RangeDB.Mp.C106_file",
    "RangeDB.Mp.C106_exact",
    "RangeDB.Mp.C106_distinct",
    "RangeDB.Mp.C106_concat",
    "RangeDB.Mp.C106_record",
    "RangeDB.Mp.C106_lawful",
    "RangeDB.Mp.C106_view",
    "RangeDB.Mp.C106_signed",
    "RangeDB.Mp.C106_refused"
   ],
   "note": "The msgpack encoding of records, byte for byte (compared with the bytes in the repository's test). C106_lawful makes every theorem about stores apply to stores with this serializer."
  },
  {
   "property": "C107",
   "status": "partial",
   "theorems": [
    "RangeDB.Mp.C107_partial",
    "RangeDB.Mp.C107_prefix",
    "RangeDB.Mp.C107_false"
   ],
   "note": "The reader returns a prefix of the records; the cuts that go unnoticed are exactly the seams between reads in the record proper. The full claim is refuted by a one-byte file."
  },
  {
   "property": "C108",
   "status": "partial",
   "theorems": [
    "RangeDB.Ui.C108_partial",
    "RangeDB.Ui.C108_no_panic",
    "RangeDB.Ui.C108_distinct",
    "RangeDB.Ui.C108_false",
    "RangeDB.Ui.C108_date",
    "RangeDB.Ui.C108_date_wraps",
    "RangeDB.Ui.C108_year"
   ],
   "note": "Numbers and dates are right below 2^63; above, counts are shown negative (counterexample proved) and so are dates."
  },
  {
   "property": "C109",
   "status": "partial",
   "theorems": [
    "RangeDB.Evb.C109_partial",
    "RangeDB.Evb.C109_generated",
    "RangeDB.Evb.C109_compiles",
    "RangeDB.Evb.C109_last",
    "RangeDB.Evb.C109_each",
    "RangeDB.Evb.C109_pointer",
    "RangeDB.Evb.C109_no_files",
    "RangeDB.Evb.C109_false",
    "RangeDB.Evb.C109_false_local",
    "RangeDB.Evb.C109_false_unbound",
    "RangeDB.Evb.C109_false_same"
   ],
   "note": "False in full (four counterexamples). Proved: exactly which names the generator writes, exactly when the package compiles with them, what the lookup of every event type returns after any sequence of Bind calls, and the claim when all structs of the files are events with different event types."
  },
  {
   "property": "C11",
   "status": "proved",
   "theorems": [
    "RangeDB.LD.C11_calls",
    "RangeDB.LD.C11_reads",
    "RangeDB.LD.C11_save_appends"
   ],
   "note": "Whole-history refinement of the event log specification, by induction over all call histories. Scope: any set of stream names and any set of aggregate types in which no two different names clash (a name without the LevelDB key separator '$!' clashes with no other such name), fewer than 2^64 events, one call at a time."
  },
  {
   "property": "C110",
   "status": "proved",
   "theorems": [
    "RangeDB.Wire.C110_transmit",
    "RangeDB.Wire.C110_refused",
    "RangeDB.Wire.C110_distinct",
    "RangeDB.Wire.C110_hostile",
    "RangeDB.Wire.C110_unknown",
    "RangeDB.Wire.C110_served"
   ],
   "note": "All messages of the service, byte for byte. C110_served applies it to the records that the modelled server sends (C42, C65, C66)."
  },
  {
   "property": "C111",
   "status": "partial",
   "theorems": [
    "RangeDB.Wire.C111_partial",
    "RangeDB.Wire.C111_witness",
    "RangeDB.Wire.C111_false"
   ],
   "note": "False for requests just below the limit of four megabytes: a record is larger than the request that saved it, by its event ID and its numbers. Proved for requests that stay 80 bytes below."
  },
  {
   "property": "C112",
   "status": "partial",
   "theorems": [
    "RangeDB.EDB.C112_partial",
    "RangeDB.EDB.C112_refused",
    "RangeDB.EDB.C112_false"
   ],
   "note": "False: a client overtaken between its check and its append is told that the stream holds 0 events. Proved: the expected number is always right, and the actual number is right whenever the check refuses."
  },
  {
   "property": "C113",
   "status": "proved",
   "theorems": [
    "RangeDB.Html.C113",
    "RangeDB.Html.C113_stream",
    "RangeDB.Html.C113_type",
    "RangeDB.Html.C113_types",
    "RangeDB.Html.C113_record",
    "RangeDB.Html.C113_exists"
   ],
   "note": "The pages byte for byte, read by a tokenizer written after the HTML standard. C113: nothing on a served page runs a program or leads elsewhere. C113_stream, C113_type, C113_types, C113_record: the exact content. The two live pages are drawn in the browser and are not modelled."
  },
  {
   "property": "C114",
   "status": "partial",
   "theorems": [
    "RangeDB.Html.C114_partial",
    "RangeDB.Html.C114_false",
    "RangeDB.Html.C114_types"
   ],
   "note": "False for stream names with '?', '#', '/' or '%' before two hexadecimal digits, and for '.' and '..'; C114_partial shows that these are the only ones. An aggregate type has a page exactly if its name consists of letters and '-'."
  },
  {
   "property": "C115",
   "status": "proved",
   "theorems": [
    "RangeDB.Pgn.C115",
    "RangeDB.Pgn.C115_read",
    "RangeDB.Pgn.C115_schedule",
    "RangeDB.Pgn.C115_distinct",
    "RangeDB.Pgn.C115_typed",
    "RangeDB.Pgn.C115_mistyped"
   ],
   "note": "The text of row_to_json byte for byte and the listener's json.Unmarshal into PostgresJsonRecord. C115_schedule applies it to every schedule of C38-C40 and C70; it assumes that the rows fit the column types."
  },
  {
   "property": "C116",
   "status": "partial",
   "theorems": [
    "RangeDB.Pgn.C116_partial",
    "RangeDB.Pgn.C116_enough",
    "RangeDB.Pgn.C116_size",
    "RangeDB.Pgn.C116_parameters",
    "RangeDB.Pgn.C116_payload",
    "RangeDB.Pgn.C116_numbers",
    "RangeDB.Pgn.C116_total",
    "RangeDB.Pgn.C116_exhausted",
    "RangeDB.Pgn.C116_false",
    "RangeDB.Pgn.C116_false_notify"
   ],
   "note": "False: more than 7281 events in a batch, events of about 7800 bytes with WithPgNotify, and any event after 2^31-1 numbers are refused; refused saves use numbers up too. C116_partial is the exact set of batches that are accepted."
  },
  {
   "property": "C117",
   "status": "partial",
   "theorems": [
    "RangeDB.Key.C117_partial",
    "RangeDB.Key.C117_plain",
    "RangeDB.Key.C117_query",
    "RangeDB.Key.C117_fragment",
    "RangeDB.Key.C117_percent",
    "RangeDB.Key.C117_exact",
    "RangeDB.Key.C117_no_url",
    "RangeDB.Key.C117_false"
   ],
   "note": "False: the ID goes into the URL unescaped, so 'a?x', 'a#x' and '%61' name the key of 'a', and deleting them destroys it. Proved for IDs without control characters, '%', '?', '#' and '/'; C117_plain shows that on such IDs it is the store of C25 and C50."
  },
  {
   "property": "C118",
   "status": "partial",
   "theorems": [
    "RangeDB.Web.C118_partial",
    "RangeDB.Web.C118_stays",
    "RangeDB.Web.C118_served",
    "RangeDB.Web.C118_false"
   ],
   "note": "False: the handler never reads from its connection, so without new events it waits for ever. C118_partial: it ends if it is not waiting or if an event has arrived; C118_served: it does not end before the browser has gone."
  },
  {
   "property": "C119",
   "status": "partial",
   "theorems": [
    "RangeDB.Cry.C119_partial",
    "RangeDB.Cry.C119_one_key",
    "RangeDB.Cry.C119_writes",
    "RangeDB.Cry.C119_false",
    "RangeDB.Cry.C119_first_event",
    "RangeDB.Cry.C119_unread",
    "RangeDB.Cry.C119_race"
   ],
   "note": "False: GetItem does not ask for consistent reads, so a deleted key may still be served, a new subject's first event with two personal fields may be refused, and an event may be unreadable at first. Proved for every delay: decryption yields the original or fails, one key per subject, writes are unaffected, and the same for any number of goroutines at once (C119_race)."
  },
  {
   "property": "C12",
   "status": "partial",
   "theorems": [
    "RangeDB.LD.C12_partial",
    "RangeDB.LD.C12_false",
    "RangeDB.LD.C12_false_delete",
    "RangeDB.LD.C12_any_name",
    "RangeDB.LD.C12_streams_exact",
    "RangeDB.LD.C12_types_exact"
   ],
   "note": "False for clashing names (counterexample proved). C12_partial proves isolation on every set of names of which no two clash; C12_streams_exact and C12_types_exact prove that two names are kept apart if and only if they do not clash; C12_any_name says exactly which events a read of any name returns."
  },
  {
   "property": "C120",
   "status": "partial",
   "theorems": [
    "RangeDB.Cfg.C120_partial",
    "RangeDB.Cfg.C120_memory",
    "RangeDB.Cfg.C120_path_ignored",
    "RangeDB.Cfg.C120_false"
   ],
   "note": "False: if one required variable is missing the server silently keeps its events in memory, and a path on the command line is ignored if a database is configured. C120_memory is the exact condition."
  },
  {
   "property": "C121",
   "status": "partial",
   "theorems": [
    "RangeDB.Rnd.C121_partial",
    "RangeDB.Rnd.C121_ends",
    "RangeDB.Rnd.C121_streams",
    "RangeDB.Rnd.C121_refused",
    "RangeDB.Rnd.C121_types",
    "RangeDB.Rnd.C121_zero",
    "RangeDB.Rnd.C121_false"
   ],
   "note": "False: the last stream is always completed, so up to maxPerStream-1 more events are saved, and with -total 0 one stream. C121_partial: at least n and fewer than max(n,1)+maxPerStream."
  },
  {
   "property": "C122",
   "status": "partial",
   "theorems": [
    "RangeDB.Ws.C122_partial",
    "RangeDB.Ws.C122_stays",
    "RangeDB.Ws.C122_one_writer",
    "RangeDB.Ws.C122_false",
    "RangeDB.Ws.C122_false_message",
    "RangeDB.Ws.C122_false_slow",
    "RangeDB.Ws.C122_false_stop"
   ],
   "note": "False in three ways: the first message of a client ends its session; a client that stays connected without reading keeps two goroutines for ever, although it is timed out; after Stop no session that is being served ends, and its client is not told. Proved for every schedule: the session stays while none of these happens, it ends once the client has gone (or reads again after a time-out), and there is one writer at a time."
  },
  {
   "property": "C123",
   "status": "partial",
   "theorems": [
    "RangeDB.Ws.C123_partial",
    "RangeDB.Ws.C123_all",
    "RangeDB.Ws.C123_false"
   ],
   "note": "False for names with digits, underscores and so on (404). C123_partial: exactly the lists whose names consist of letters and '-'."
  },
  {
   "property": "C124",
   "status": "partial",
   "theorems": [
    "RangeDB.Http.C124_partial",
    "RangeDB.Http.C124_false"
   ],
   "note": "All sequences of events whose types are UTF-8 text, statistics at rest (for reads while events arrive see C95; where the links lead see C64). False for types that are not UTF-8 (witness)."
  },
  {
   "property": "C125",
   "status": "partial",
   "theorems": [
    "RangeDB.EDB.C125_partial",
    "RangeDB.EDB.C125_run",
    "RangeDB.EDB.C125_false",
    "RangeDB.EDB.json_roundTrip"
   ],
   "note": "Proved for the JSON texts themselves in every history, for metadata whose numbers survive float64; false otherwise (for every float conversion with the stated law). C125_run carries the theorems on the adapter (C43, C74, C75, C76, C112), which assume an encoding that reads back what it wrote, over to the JSON texts."
  },
  {
   "property": "C126",
   "status": "partial",
   "theorems": [
    "RangeDB.Grpc.C126_partial",
    "RangeDB.Grpc.C126_ends_partial",
    "RangeDB.Grpc.C126_only",
    "RangeDB.Grpc.C126_false",
    "RangeDB.Grpc.C126_false_slow",
    "RangeDB.Grpc.C126_false_bad",
    "RangeDB.Grpc.C126_false_stop"
   ],
   "note": "False: a client that was too slow once, or for whom one event could not be encoded, gets nothing any more and its call stays open without an error for ever; after Stop likewise, and the subscriber's goroutine never ends. Proved for every schedule without these: nothing is lost. Once the client has left the call ends, unless the broadcaster was stopped. C126_only: nothing but the client's leaving ends a call that waits."
  },
  {
   "property": "C127",
   "status": "partial",
   "theorems": [
    "RangeDB.Chat.C127_partial",
    "RangeDB.Chat.C127_bans_partial",
    "RangeDB.Chat.C127_overlap_partial",
    "RangeDB.Chat.C127_banned_partial",
    "RangeDB.Chat.C127_ban_void",
    "RangeDB.Chat.C127_false"
   ],
   "note": "Proved for the JSON texts themselves, for every history of commands whose texts are UTF-8, with restarts, other processes and other users of the store. False otherwise: the ban of a user whose ID is not UTF-8 does not keep them out. C127_overlap_partial and C127_banned_partial: the same when the commands of any number of goroutines overlap."
  },
  {
   "property": "C128",
   "status": "partial",
   "theorems": [
    "RangeDB.Use.C128_partial",
    "RangeDB.Use.C128_exact",
    "RangeDB.Use.C128_refused",
    "RangeDB.Use.C128_silent",
    "RangeDB.Use.C128_silent_encrypted",
    "RangeDB.Use.C128_lost",
    "RangeDB.Use.C128_false"
   ],
   "note": "False: no error of a read is ever returned by the start (C128_silent). C128_exact: what is delivered, for all answers of the store. C128_lost: with the JSON serializer one event with data null makes every later subscription lose everything stored since, without an error. C128_partial: reads without an error."
  },
  {
   "property": "C129",
   "status": "partial",
   "theorems": [
    "RangeDB.Use.C129_partial",
    "RangeDB.Use.C129_loop",
    "RangeDB.Use.C129_grpc",
    "RangeDB.Use.C129_grpc_plain",
    "RangeDB.Use.C129_subscription",
    "RangeDB.Use.C129_export",
    "RangeDB.Use.C129_msgpack",
    "RangeDB.Use.C129_page",
    "RangeDB.Use.C129_false",
    "RangeDB.Use.C129_false_others"
   ],
   "note": "False: a record of a deleted subject ends the gRPC server and the process of a MessagePack export, makes a subscription at the gRPC or WebSocket server panic and is exported as null. The theorems say exactly what each reader does, for every history. C129_partial: ranges without such a record."
  },
  {
   "property": "C13",
   "status": "proved",
   "theorems": [
    "RangeDB.LD.C13_save",
    "RangeDB.LD.C13_save_returns",
    "RangeDB.LD.C13_delete",
    "RangeDB.LD.C13_crash_reads",
    "RangeDB.LD.C13_crash_state"
   ],
   "note": "Small-step program with a crash point after every step; durability of a committed LevelDB transaction is assumed."
  },
  {
   "property": "C130",
   "status": "partial",
   "theorems": [
    "RangeDB.LDF.C130_partial",
    "RangeDB.LDF.C130_save",
    "RangeDB.LDF.C130_commit",
    "RangeDB.LDF.C130_overwrites",
    "RangeDB.LDF.C130_false",
    "RangeDB.LDF.C130_false_overwrites",
    "RangeDB.LDF.C130_false_delete"
   ],
   "note": "False: a failed commit leaves the store unusable (C130_commit), a failed read of the last number makes a save succeed and overwrite the first event of the stream (C130_overwrites), a delete may delete a part (witness). C130_save and C130_partial: failures of OpenTransaction and of the writes of saves, in every history."
  },
  {
   "property": "C131",
   "status": "partial",
   "theorems": [
    "RangeDB.LDF.C131_partial",
    "RangeDB.LDF.C131_exact",
    "RangeDB.LDF.C131_closed",
    "RangeDB.LDF.C131_false",
    "RangeDB.LDF.C131_false_closed"
   ],
   "note": "False: errors of iterators are thrown away. C131_exact: what every read returns, for all faults after all histories. C131_closed: after Stop reads look like those of an empty store; saves and deletes return an error. C131_partial: failed fetches of records are reported."
  },
  {
   "property": "C132",
   "status": "partial",
   "theorems": [
    "RangeDB.PG.C132_partial",
    "RangeDB.PG.C132_false",
    "RangeDB.PG.C132_false_decode"
   ],
   "note": "Proved for every schedule and every failing statement. False if the reply to a commit is lost (unavoidable), and if decoding the saved events fails after the commit (C67, C116)."
  },
  {
   "property": "C133",
   "status": "partial",
   "theorems": [
    "RangeDB.PG.C133_partial",
    "RangeDB.PG.C133_false",
    "RangeDB.PG.C133_delete_differs",
    "RangeDB.PG.C133_mixed"
   ],
   "note": "Proved for all sequences of calls with batches of one aggregate, without metadata, and fewer refused deletes than connections (C68). False in two points: PostgreSQL reports a stream as not found when it is read from beyond its end (C133_false) and on every delete of a stream without events (C133_delete_differs). Batches of several aggregates differ (C133_mixed)."
  },
  {
   "property": "C134",
   "status": "partial",
   "theorems": [
    "RangeDB.Json.C134_partial",
    "RangeDB.Json.C134_exact",
    "RangeDB.Json.C134_slices",
    "RangeDB.Json.C134_silent",
    "RangeDB.Json.C134_disk",
    "RangeDB.Json.C134_disk_reads",
    "RangeDB.Json.C134_any_part",
    "RangeDB.Json.C134_any_part_reads",
    "RangeDB.Json.C134_whole_reads",
    "RangeDB.Json.C134_nothing",
    "RangeDB.Json.C134_false"
   ],
   "note": "False of every format: the result of every write is thrown away, and the export goes on. C134_exact: what arrives, for every writer. C134_disk: on a full disk the beginning. C134_any_part: after a writer that fails now and then the file can be the complete export of any part of the records. C134_partial: writers that do not fail."
  },
  {
   "property": "C135",
   "status": "partial",
   "theorems": [
    "RangeDB.Json.C135_json_partial",
    "RangeDB.Json.C135_ndjson_partial",
    "RangeDB.Json.C135_false",
    "RangeDB.Mp.C135_msgpack"
   ],
   "note": "Proved for msgpack. False of both JSON formats: exactly behind a complete record the error of the reader is taken for the end of the file."
  },
  {
   "property": "C136",
   "status": "partial",
   "theorems": [
    "RangeDB.Rem.C136_once",
    "RangeDB.Rem.C136_learned",
    "RangeDB.Rem.C136_either",
    "RangeDB.Rem.C136_false",
    "RangeDB.Rem.C136_twice"
   ],
   "note": "The first sentence is false when the reply is lost (C136_false), and a repeated Save then stores its events twice (C136_twice). The rest is proved, for servers with the in-memory store: C136_once, C136_learned. C136_either: a single call, any store."
  },
  {
   "property": "C137",
   "status": "partial",
   "theorems": [
    "RangeDB.Rem.C137_each",
    "RangeDB.Rem.C137_once_partial",
    "RangeDB.Rem.C137_learned",
    "RangeDB.Rem.C137_either",
    "RangeDB.Rem.C137_false"
   ],
   "note": "Proved for servers with the in-memory store, but for the third sentence: if somebody else saves as many events to the stream anew before the repetition, these are deleted (C137_false). C137_once_partial: if nobody else saves to the stream, at most one call removes events, and only old ones. For servers with LevelDB see C159."
  },
  {
   "property": "C138",
   "status": "partial",
   "theorems": [
    "RangeDB.Rem.C138_save",
    "RangeDB.Rem.C138_delete_partial",
    "RangeDB.Rem.C138_leveldb_save",
    "RangeDB.Rem.C138_leveldb_delete_partial",
    "RangeDB.Rem.C138_truncated",
    "RangeDB.Rem.C138_false"
   ],
   "note": "Proved for servers with the in-memory store or LevelDB and fewer than 2^32 events in the request or the stream. The counts are cut to 32 bits: of a deleted stream of 2^32 events the reply says 0 (C138_truncated)."
  },
  {
   "property": "C139",
   "status": "partial",
   "theorems": [
    "RangeDB.EDB.C139_partial",
    "RangeDB.EDB.C139_false",
    "RangeDB.EDB.C139_delete_differs",
    "RangeDB.EDB.C139_reuse",
    "RangeDB.EDB.C139_mixed"
   ],
   "note": "Proved for an adapter that records its deletes, batches of one aggregate, deletes that expect at least one event, and no save to a deleted stream, but for two errors: EventStoreDB says that the stream is not found where the in-memory store returns nothing (C139_false), and on every delete of a stream without events (C139_delete_differs)."
  },
  {
   "property": "C14",
   "status": "partial",
   "theorems": [
    "RangeDB.LD.C14_partial",
    "RangeDB.LD.C14_exact",
    "RangeDB.LD.C14_false",
    "RangeDB.LD.C14_false_reads"
   ],
   "note": "False after a failed delete, which leaks the open transaction (counterexample proved); proved when no delete fails. C14_exact: saves and deletes hang if and only if an earlier delete failed, reads if and only if one more writing call followed it."
  },
  {
   "property": "C140",
   "status": "proved",
   "theorems": [
    "RangeDB.Sub.C19_order",
    "RangeDB.Chain.C79_order"
   ],
   "note": "Every schedule, both stores, every chain of hops; drops, cancellations and failures included. That nothing is missing is C19 and C79."
  },
  {
   "property": "C141",
   "status": "proved",
   "theorems": [
    "RangeDB.Rem.C136_once",
    "RangeDB.Rem.C136_learned"
   ],
   "note": "For a server with an in-memory store; the client repeats the call with the same expected number."
  },
  {
   "property": "C142",
   "status": "proved",
   "theorems": [
    "RangeDB.Mod.C104_fair"
   ],
   "note": "Every schedule of the two subscribers, with restarts."
  },
  {
   "property": "C143",
   "status": "proved",
   "theorems": [
    "RangeDB.Chat.C46_banned",
    "RangeDB.Chat.C46_after_ban"
   ],
   "note": "Any number of goroutines and processes. A JoinRoom that read the stream before the ban was stored is C46's counterexample and not claimed here."
  },
  {
   "property": "C144",
   "status": "proved",
   "theorems": [
    "RangeDB.Web.C144_page",
    "RangeDB.Web.C144_live"
   ],
   "note": "The parts of C95 and C96 that hold in every schedule."
  },
  {
   "property": "C145",
   "status": "proved",
   "theorems": [
    "RangeDB.Proc.C145"
   ],
   "note": "The part of C97 that holds in every schedule."
  },
  {
   "property": "C146",
   "status": "proved",
   "theorems": [
    "RangeDB.Disp.C146"
   ],
   "note": "Any key store and cipher; saves may fail."
  },
  {
   "property": "C147",
   "status": "proved",
   "theorems": [
    "RangeDB.Cry.C147",
    "RangeDB.Cry.C119_one_key"
   ],
   "note": "For every lag of every read."
  },
  {
   "property": "C148",
   "status": "proved",
   "theorems": [
    "RangeDB.Lock.C148"
   ],
   "note": "Reads of two or more types are C24's counterexample and excluded by the hypothesis."
  },
  {
   "property": "C149",
   "status": "proved",
   "theorems": [
    "RangeDB.ES.C149_mem",
    "RangeDB.ES.C149_dyn"
   ],
   "note": "For the in-memory and the DynamoDB key store."
  },
  {
   "property": "C15",
   "status": "proved",
   "theorems": [
    "RangeDB.C15_agree",
    "RangeDB.C15_differ_part_way"
   ],
   "note": "For histories in which no call fails part-way; the counterexample shows that the restriction is needed. Scope: any set of stream names and any set of aggregate types in which no two different names clash (a name without the LevelDB key separator '$!' clashes with no other such name), fewer than 2^64 events, one call at a time."
  },
  {
   "property": "C150",
   "status": "proved",
   "theorems": [
    "RangeDB.Recon.C150"
   ],
   "note": "The hypotheses on the server (Calm) and the store (LevelDB) are those of the statement; without them see C103."
  },
  {
   "property": "C151",
   "status": "proved",
   "theorems": [
    "RangeDB.Lock.C23_snapshot"
   ],
   "note": "For one iterator; reads of several types combine several of them, see C23."
  },
  {
   "property": "C152",
   "status": "proved",
   "theorems": [
    "RangeDB.EDB.C74_stream_gone",
    "RangeDB.EDB.C74_name_lost"
   ],
   "note": "Every client, every later call."
  },
  {
   "property": "C153",
   "status": "proved",
   "theorems": [
    "RangeDB.ES.C94_gcm",
    "RangeDB.ES.C94_gcm_full",
    "RangeDB.Cry.C55_gcm"
   ],
   "note": "AES/CBC panics on some damaged texts, see C55 and C94."
  },
  {
   "property": "C154",
   "status": "proved",
   "theorems": [
    "RangeDB.Mp.C135_msgpack"
   ],
   "note": "For the JSON import this is false, see C135."
  },
  {
   "property": "C155",
   "status": "proved",
   "theorems": [
    "RangeDB.Rem.C42_delete",
    "RangeDB.Rem.C42_total"
   ],
   "note": "For every store behind the server, as a parameter."
  },
  {
   "property": "C156",
   "status": "proved",
   "theorems": [
    "RangeDB.LD.C156",
    "RangeDB.LD.C156_kept",
    "RangeDB.LD.C156_acknowledged",
    "RangeDB.LD.C156_works"
   ],
   "note": "Names must not clash (C12) and event numbers stay below 2^64. That a committed LevelDB transaction is durable and an uncommitted one vanishes is trusted."
  },
  {
   "property": "C157",
   "status": "proved",
   "theorems": [
    "RangeDB.Rem.C157_once",
    "RangeDB.Rem.C157_learned"
   ],
   "note": "For a server with the LevelDB store; names and sizes as in C156."
  },
  {
   "property": "C158",
   "status": "proved",
   "theorems": [
    "RangeDB.PG.C158_released",
    "RangeDB.PG.C158_transfer",
    "RangeDB.PG.C158_served"
   ],
   "note": "C158_transfer (rows, answers, locks and notifications are those of a schedule without cancellations) and C158_served are for a store with a UUID generator; C158_released for every store."
  },
  {
   "property": "C159",
   "status": "proved",
   "theorems": [
    "RangeDB.Rem.C159_each",
    "RangeDB.Rem.C159_once",
    "RangeDB.Rem.C159_learned"
   ],
   "note": "Names and sizes as in C156. A broken connection must not be described by a text that contains the message of the not-found error."
  },
  {
   "property": "C16",
   "status": "proved",
   "theorems": [
    "RangeDB.C16_merge",
    "RangeDB.C16_merge_complete"
   ],
   "note": ""
  },
  {
   "property": "C160",
   "status": "proved",
   "theorems": [
    "RangeDB.Srv.C160_inmemory",
    "RangeDB.Srv.C160_leveldb",
    "RangeDB.Srv.C160_posted",
    "RangeDB.Srv.C160_sent",
    "RangeDB.Srv.C160_direct"
   ],
   "note": "Assumed of float64: a literal it printed is a literal and prints the same again. C160_leveldb: for names without clashes (C12), one aggregate type per read, and for reads that return (C14). C160_direct shows why the events must have come through an interface: a Go program that holds the store can save metadata that gRPC rounds on reading."
  },
  {
   "property": "C161",
   "status": "proved",
   "theorems": [
    "RangeDB.EL.C161",
    "RangeDB.EL.C161_acknowledged",
    "RangeDB.EL.C161_shredded",
    "RangeDB.EL.C161_memory_lost"
   ],
   "note": "Serializer that accepts every record; names and sizes as in C156; reads of a store whose process hangs (C14) do not return. Reads of several types without cancellation. C161_memory_lost is for the first end of a process; C161_memory_example is a concrete history."
  },
  {
   "property": "C162",
   "status": "proved",
   "theorems": [
    "RangeDB.Ind.C162_same",
    "RangeDB.Ind.C162_normal",
    "RangeDB.Ind.C162_idempotent",
    "RangeDB.Ind.C162_invalid",
    "RangeDB.Ind.C162_layout",
    "RangeDB.Ind.C162_canonical",
    "RangeDB.Ind.C162_every",
    "RangeDB.Ind.C162_literals"
   ],
   "note": "json.Indent and its scanner are modelled byte by byte from the Go standard library, which is not in /repo; strings.TrimSpace on ASCII white space."
  },
  {
   "property": "C163",
   "status": "proved",
   "theorems": [
    "RangeDB.Srv.C163_inmemory",
    "RangeDB.Srv.C163_leveldb",
    "RangeDB.Srv.C163_history",
    "RangeDB.Srv.C163_untold"
   ],
   "note": "What the store hands to its broadcaster; that every subscriber gets it from there is C19 and C79. float64, names and sizes as in C160. C163_untold: of a refused message the in-memory store may keep events that are read and were never told (C06), which is why the last sentence is about LevelDB."
  },
  {
   "property": "C164",
   "status": "proved",
   "theorems": [
    "RangeDB.Srv.C164_agree",
    "RangeDB.Srv.C164_acknowledged",
    "RangeDB.Srv.C164_killed",
    "RangeDB.Srv.C164_works"
   ],
   "note": "Steps of a call and what is on the disk after each as in C13 and C156; float64, names and sizes as in C160. A read that returns: a failed delete makes the LevelDB store hang until the next start (C14). That LevelDB keeps what it has committed is trusted."
  },
  {
   "property": "C165",
   "status": "partial",
   "theorems": [
    "RangeDB.Again.C165_once_partial",
    "RangeDB.Again.C165_again_partial",
    "RangeDB.Again.C165_order_partial",
    "RangeDB.Again.C165_crash",
    "RangeDB.Again.C165_lost",
    "RangeDB.Again.C165_disorder",
    "RangeDB.Again.C165_refuted"
   ],
   "note": "Proved for subscriptions on which Start and StartFrom are called at most once in all, and for those that are started again, any number of times, only when the last start failed or where Start refuses after a stop; any number of Stops and cancellations. For two starts the full statement C165_full is false of the code: C165_crash (a Stop panics), C165_lost and C165_disorder (two goroutines share one channel and one last number)."
  },
  {
   "property": "C166",
   "status": "partial",
   "theorems": [
    "RangeDB.Rem.C166_partial",
    "RangeDB.Rem.C166_leveldb_partial",
    "RangeDB.Rem.C166_refuted"
   ],
   "note": "One caller at a time, a server with the in-memory store against an in-memory store in the program, and a server with LevelDB against a LevelDB store in the program; calls that lose nothing on their way (one aggregate per batch, UTF-8 names, data and metadata that the client's types and float64 reproduce). Missing: the others; for batches of several aggregates the full statement C166_full is refuted. UUIDs and times are given to both stores alike."
  },
  {
   "property": "C167",
   "status": "partial",
   "theorems": [
    "RangeDB.IM.C167_save_partial",
    "RangeDB.IM.C167_answers",
    "RangeDB.IM.C167_delete_partial",
    "RangeDB.LD.C167_save_partial",
    "RangeDB.LD.C167_delete_partial",
    "RangeDB.C167_refuted"
   ],
   "note": "In-memory: saves after every history after which the store answers, which is every guarded one (C167_answers); deletes after every guarded history. LevelDB: after every history in which no delete with a live context failed; a failed delete blocks the store (C14), so the full statement C167_full is false of the code (C167_refuted)."
  },
  {
   "property": "C168",
   "status": "partial",
   "theorems": [
    "RangeDB.Left.C168_one_partial",
    "RangeDB.Left.C168_sources_partial",
    "RangeDB.Left.C168_drained_partial",
    "RangeDB.Left.C168_stuck",
    "RangeDB.Left.C168_left_behind",
    "RangeDB.Left.C168_error_stuck",
    "RangeDB.Left.C168_refuted"
   ],
   "note": "Proved: the goroutines that read from the store return within two turns after the cancellation, whatever the consumer does, if the store has no error to report; the merging goroutine returns if the consumer goes on until Next returns false. The full statement C168_full is false of the code: the merging goroutine does not look at the context (C168_stuck, C168_left_behind), nor do the sends of errors (C168_error_stuck)."
  },
  {
   "property": "C169",
   "status": "partial",
   "theorems": [
    "RangeDB.Left.C169_order",
    "RangeDB.Left.C169_no_gap_partial",
    "RangeDB.Left.C169_complete",
    "RangeDB.Left.C169_prefix_partial",
    "RangeDB.Left.C169_ends",
    "RangeDB.Left.C169_delivered",
    "RangeDB.Left.C169_one",
    "RangeDB.Left.C169_refuted"
   ],
   "note": "Proved for every interleaving: order, membership and the prefix of each type also for cancelled and failing reads; no gap and completeness for reads that are not cancelled; the end is reached by every consumer that goes on when everybody gets a chance. The claim about cancelled reads is false in full (C169_refuted): the merge drops the type whose goroutine saw the cancellation first and goes on with the records it already has of the others. Ends of the goroutines: C168."
  },
  {
   "property": "C17",
   "status": "partial",
   "theorems": [
    "RangeDB.C17_partial",
    "RangeDB.C17_exact",
    "RangeDB.C17_false",
    "RangeDB.C17_false_store"
   ],
   "note": "False with two or more types of which one fails (negation proved, also through the API). C17_exact: with two or more types no error is ever reported, and records are missing if and only if one of the parts failed."
  },
  {
   "property": "C170",
   "status": "partial",
   "theorems": [
    "RangeDB.Left.C170_partial",
    "RangeDB.Left.C170_complete_partial",
    "RangeDB.Left.C170_refuted"
   ],
   "note": "Proved for all attempts and all growths of the store when the reads of several types are not cancelled; reads with one goroutine may be cancelled at any moment. False in full (C170_refuted): two types, a cancelled read hands over 1 and 3, reading on from 4 never gives 2. Deletions between the attempts are left out."
  },
  {
   "property": "C171",
   "status": "partial",
   "theorems": [
    "RangeDB.Left.C171_one_partial",
    "RangeDB.Left.C171_uncancelled_partial",
    "RangeDB.Left.C171_merged_partial",
    "RangeDB.Left.C171_merged_silent",
    "RangeDB.Left.C171_late",
    "RangeDB.Left.C171_refuted",
    "RangeDB.Left.C171_merged_refuted"
   ],
   "note": "Proved for reads with one goroutine whose consumer takes the context's error within the second for which it is offered (always so if the read is not cancelled), and for reads of several types that are not cancelled, up to the first error of the store in each type. False in full: C171_late (a slow consumer of a cancelled read sees a clean end) and C171_merged_refuted (errors of the store are lost in the merge; compare C17)."
  },
  {
   "property": "C172",
   "status": "partial",
   "theorems": [
    "RangeDB.Left.C172_started_partial",
    "RangeDB.Left.C172_cancelled_partial",
    "RangeDB.Left.C172_last_partial",
    "RangeDB.Left.C172_wedged",
    "RangeDB.Left.C172_first_event",
    "RangeDB.Left.C172_refuted"
   ],
   "note": "Proved when StartFrom returned nil, when the callback failed at the last event of the read, and when the context of the configuration is cancelled (without errors of the store). False in full (C172_refuted, C172_wedged): a callback that fails before the last event leaves the reading goroutine with the read lock, and Stop does not cancel its context."
  },
  {
   "property": "C173",
   "status": "partial",
   "theorems": [
    "RangeDB.Left.C173_order",
    "RangeDB.Left.C173_stored",
    "RangeDB.Left.C173_failed",
    "RangeDB.Left.C173_no_more",
    "RangeDB.Left.C173_no_gap",
    "RangeDB.Left.C173_complete_partial",
    "RangeDB.Left.C173_skipped",
    "RangeDB.Left.C173_refuted",
    "RangeDB.Left.C173_cancelled"
   ],
   "note": "Order, origin, the absence of gaps and the handling of a failing callback are proved in every interleaving, with errors of the store and cancellation. Completeness is proved if the first read found an event and nothing was cancelled; it is false in full (C173_refuted, C173_skipped: event n saved between the reads; C173_cancelled)."
  },
  {
   "property": "C174",
   "status": "proved",
   "theorems": [
    "RangeDB.Prj.C174_same",
    "RangeDB.Prj.C174_keys",
    "RangeDB.Prj.C174_again",
    "RangeDB.Prj.C174_resumed"
   ],
   "note": "For all sequences of events; the two claims about loading need aggregate types that are UTF-8 text, as the property says (for others see C33_false)."
  },
  {
   "property": "C175",
   "status": "partial",
   "theorems": [
    "RangeDB.Prj.C175_partial",
    "RangeDB.Prj.C175_consistent",
    "RangeDB.Prj.C175_stable",
    "RangeDB.Prj.C175_accesses",
    "RangeDB.Prj.C175_total",
    "RangeDB.Prj.C175_refuted"
   ],
   "note": "Freedom from data races is proved for all methods but TotalEvents, and consistency of what is read under the lock for all. False in full: TotalEvents takes no lock (C175_refuted). C175_total says what it would read if memory accesses were sequentially consistent."
  },
  {
   "property": "C18",
   "status": "proved",
   "theorems": [
    "RangeDB.C18_protocol",
    "RangeDB.C18_next_context",
    "RangeDB.C18_with_error",
    "RangeDB.C18_drain"
   ],
   "note": ""
  },
  {
   "property": "C19",
   "status": "partial",
   "theorems": [
    "RangeDB.Sub.C19_order",
    "RangeDB.Sub.C19_exactly_once",
    "RangeDB.Sub.C19_false_two_types"
   ],
   "note": "Proved over all schedules for subscriptions to all events or to one aggregate type; false for two or more types (counterexample proved); order and absence of duplicates proved for any number of types. Sends to a subscriber's buffer are modelled with unbounded buffers plus an explicit timeout action."
  },
  {
   "property": "C20",
   "status": "partial",
   "theorems": [
    "RangeDB.Sub.C20_exact",
    "RangeDB.Sub.C20_partial",
    "RangeDB.Sub.C20_boundary_lost",
    "RangeDB.Sub.C20_false",
    "RangeDB.Sub.C19_order"
   ],
   "note": "False when event n does not exist at the time of the call (counterexample, and a proof that then event n is lost in every schedule whose first read comes before the save); all other cases proved, with the exact list delivered."
  },
  {
   "property": "C21",
   "status": "partial",
   "theorems": [
    "RangeDB.Sub.C21_partial",
    "RangeDB.Sub.C21_false",
    "RangeDB.Sub.C21_false_failed_batch",
    "RangeDB.Sub.C19_order"
   ],
   "note": "False under overlapping saves and after failed batches (counterexamples proved); proved when saves do not overlap; order and uniqueness always."
  },
  {
   "property": "C22",
   "status": "proved",
   "theorems": [
    "RangeDB.Bc.C22_deliveries",
    "RangeDB.Bc.C22_timeout",
    "RangeDB.Bc.C22_stops",
    "RangeDB.Bc.C22_close"
   ],
   "note": "All event sequences of the broadcaster goroutine and all map iteration orders; the receiving side is a free choice of which sends time out."
  },
  {
   "property": "C23",
   "status": "partial",
   "theorems": [
    "RangeDB.Lock.C23_snapshot",
    "RangeDB.Lock.C23_partial",
    "RangeDB.Lock.C23_false"
   ],
   "note": "Every single iterator is a snapshot, for all schedules of any number of readers and writers; a call with several types is one snapshot if all its iterators are open when it returns; in general it is not (counterexample proved). The Go RWMutex is modelled as documented."
  },
  {
   "property": "C24",
   "status": "partial",
   "theorems": [
    "RangeDB.Lock.C24_partial",
    "RangeDB.Lock.C24_false"
   ],
   "note": "Deadlock proved for two or more types on any store with a record of the first type; for calls with at most one type: progress, termination and completion in every schedule."
  },
  {
   "property": "C25",
   "status": "proved",
   "theorems": [
    "RangeDB.Key.C25_get",
    "RangeDB.Key.C25_set",
    "RangeDB.Key.C25_unique"
   ],
   "note": "In-memory key store, all call sequences; the spec is the trace of calls and results."
  },
  {
   "property": "C26",
   "status": "proved",
   "theorems": [
    "RangeDB.Key.C26_memory",
    "RangeDB.Key.C26_dynamodb",
    "RangeDB.Key.C26_postgres",
    "RangeDB.Key.C26_false_postgres",
    "RangeDB.Cry.C26_shredded"
   ],
   "note": "All histories before and after the deletion. DynamoDB reads are modelled as strongly consistent although the code asks for eventually consistent ones. The PostgreSQL exception (unknown subjects) is proved as a counterexample."
  },
  {
   "property": "C27",
   "status": "proved",
   "theorems": [
    "RangeDB.Key.C27_deleted",
    "RangeDB.Key.C27_deleted_dynamodb",
    "RangeDB.Key.C27_transparent",
    "RangeDB.Key.C27_false_two_caches"
   ],
   "note": "All call sequences; C27_deleted with arbitrary lost requests and lost replies of both stores. The two-process failure is proved as a counterexample."
  },
  {
   "property": "C28",
   "status": "proved",
   "theorems": [
    "RangeDB.Cry.C28_gcm",
    "RangeDB.Cry.C28_xchacha",
    "RangeDB.Cry.C28_cbc",
    "RangeDB.Cry.C28_rot13",
    "RangeDB.Cry.C28_gcm_succeeds",
    "RangeDB.Cry.C28_memory",
    "RangeDB.Cry.C28_postgres",
    "RangeDB.Cry.C28_dynamodb",
    "RangeDB.Cry.C28_vault",
    "RangeDB.Cry.C28_cache",
    "RangeDB.Cry.C28_one_key"
   ],
   "note": "All plain texts, keys, random sources and histories, with every key store. Base64, nonce handling, padding, CBC chaining and decimal text are modelled; AES, GCM and ChaCha20-Poly1305 themselves are parameters assumed only to be invertible."
  },
  {
   "property": "C29",
   "status": "partial",
   "theorems": [
    "RangeDB.Cry.C29_padding",
    "RangeDB.Cry.C29_partial",
    "RangeDB.Cry.C29_false",
    "RangeDB.Cry.C29_false_one_block",
    "RangeDB.Cry.C29_false_last_byte"
   ],
   "note": "Padding proved for all messages and block sizes; the second half is false (counterexamples proved) and the exact set of panicking inputs is characterised."
  },
  {
   "property": "C30",
   "status": "proved",
   "theorems": [
    "RangeDB.ES.C30_transparent",
    "RangeDB.ES.C30_calls",
    "RangeDB.ES.C30_sealed"
   ],
   "note": "All histories of saves, deletes and key store operations, with every key store; over the in-memory store. Assumes a serializer that accepts every record and preserves the data, and events whose numbers are int64."
  },
  {
   "property": "C31",
   "status": "partial",
   "theorems": [
    "RangeDB.ES.C31_partial",
    "RangeDB.ES.C31_false",
    "RangeDB.ES.C31_example"
   ],
   "note": "False (counterexample proved); proved: a read returns exactly the records before the first undecryptable one, then nil and the error."
  },
  {
   "property": "C32",
   "status": "partial",
   "theorems": [
    "RangeDB.ES.C32_partial",
    "RangeDB.ES.C32_second",
    "RangeDB.ES.C32_false",
    "RangeDB.ES.C32_example"
   ],
   "note": "False (counterexample proved); holds for events without personal data. C32_second: with them the second call returns nil and an error whenever the engine refuses the first plain value, which AES/GCM does for every text under 16 bytes (ES.gcm_refuses)."
  },
  {
   "property": "C33",
   "status": "partial",
   "theorems": [
    "RangeDB.Prj.C33_counts",
    "RangeDB.Prj.C33_partial",
    "RangeDB.Prj.C33_false",
    "RangeDB.Prj.C33_order",
    "RangeDB.Prj.C33_foreign_snapshot_panics"
   ],
   "note": "Counting: proved for all record sequences. Snapshot and replay: proved for the JSON text itself, all snapshot points, torn at any byte, if the aggregate types are UTF-8; false otherwise (witness)."
  },
  {
   "property": "C34",
   "status": "partial",
   "theorems": [
    "RangeDB.Pg.C34_partial",
    "RangeDB.Pg.C34_previous",
    "RangeDB.Pg.C34_list_text",
    "RangeDB.Pg.C34_link_text",
    "RangeDB.Pg.C34_stream_pages",
    "RangeDB.Pg.C34_type_pages",
    "RangeDB.Pg.C34_false",
    "RangeDB.Pg.C34_panics"
   ],
   "note": "False for stream names containing ? or # (the Next link leads elsewhere) and % (the handler panics), with proved counterexamples; proved for all other names, any number of records and any page size. net/url escaping is modelled from its source."
  },
  {
   "property": "C35",
   "status": "partial",
   "theorems": [
    "RangeDB.Cqrs.C35_persists",
    "RangeDB.Cqrs.C35_saved",
    "RangeDB.Cqrs.C35_partial",
    "RangeDB.Cqrs.C35_one_stream_partial",
    "RangeDB.Cqrs.C35_false",
    "RangeDB.Chat.C73_second_user"
   ],
   "note": "What is persisted: proved for every application and history. That the decision depends only on the command's stream is false (counterexamples proved, even with a single stream); proved for the first command after a start, and for aggregates that absorb repeated events in a process that uses them for one stream only. In-memory store, commands one at a time (C71 and C72 treat overlapping ones)."
  },
  {
   "property": "C36",
   "status": "proved",
   "theorems": [
    "RangeDB.Txt.C36_error_text",
    "RangeDB.Txt.C36_text_injective",
    "RangeDB.Txt.C36_no_marker",
    "RangeDB.Txt.C36_cut"
   ],
   "note": "All pairs of 64-bit numbers and all surrounding texts. fmt.Sscanf is modelled for this format."
  },
  {
   "property": "C37",
   "status": "partial",
   "theorems": [
    "RangeDB.Txt.C37_partial",
    "RangeDB.Txt.C37_false",
    "RangeDB.Txt.C37_panic",
    "RangeDB.Txt.C37_names_injective",
    "RangeDB.Txt.C37_names_collide"
   ],
   "note": "False when the ID contains the separator or the name has none (counterexamples proved; the exact condition is proved as an equivalence)."
  },
  {
   "property": "C38",
   "status": "proved",
   "theorems": [
    "RangeDB.PG.C38_contiguous",
    "RangeDB.PG.C38_unique",
    "RangeDB.PG.C38_acknowledged",
    "RangeDB.PG.C38_one_winner",
    "RangeDB.PG.C38_one_commit",
    "RangeDB.PG.C38_serial"
   ],
   "note": "Every schedule of statements of any number of calls, with failing statements and lost commit replies, at READ COMMITTED; for streams that are not deleted meanwhile (C39_gap shows what a delete of the same stream does). PostgreSQL is modelled from its documentation."
  },
  {
   "property": "C39",
   "status": "partial",
   "theorems": [
    "RangeDB.PG.C39_removed",
    "RangeDB.PG.C39_partial",
    "RangeDB.PG.C39_late_save_lost",
    "RangeDB.PG.C39_false",
    "RangeDB.PG.C39_gap"
   ],
   "note": "False (counterexample proved); what a delete removes is characterised exactly for every schedule, and the claim proved when the stream does not change between the count and the DELETE statement."
  },
  {
   "property": "C40",
   "status": "partial",
   "theorems": [
    "RangeDB.PG.C40_late",
    "RangeDB.PG.C40_partial",
    "RangeDB.PG.C40_stream_partial",
    "RangeDB.PG.C40_skipped",
    "RangeDB.PG.C40_false"
   ],
   "note": "False (counterexample proved); proved for every schedule when no save has uncommitted numbers at the time of the read, and within a stream always; what can appear late is characterised."
  },
  {
   "property": "C41",
   "status": "proved",
   "theorems": [
    "RangeDB.Http.C41_save_malformed",
    "RangeDB.Http.C41_save_status",
    "RangeDB.Http.C41_header_cas",
    "RangeDB.Http.C41_leveldb_not_saved",
    "RangeDB.Http.C41_inmemory_half_saved",
    "RangeDB.Http.C41_delete_status",
    "RangeDB.Http.C41_body",
    "RangeDB.Http.C41_mistyped",
    "RangeDB.Json.C41_names"
   ],
   "note": "Every request and every store outcome; the response bodies parse as the JSON the claim names and the 409 text gives both numbers back. The store is a parameter; routing, path unescaping and compression are not modelled."
  },
  {
   "property": "C42",
   "status": "partial",
   "theorems": [
    "RangeDB.Rem.C42_invalid_batch",
    "RangeDB.Rem.C42_save_partial",
    "RangeDB.Rem.C42_invalid_name",
    "RangeDB.Rem.C42_delete",
    "RangeDB.Rem.C42_total",
    "RangeDB.Rem.C42_stream_partial",
    "RangeDB.Rem.C42_events_partial",
    "RangeDB.Rem.C42_false"
   ],
   "note": "Every store behind the server and every state of it. Saves and stream reads are proved for events whose names are UTF-8 and whose numbers survive float64 (C66 shows what happens to others); deletes and counts in full. gRPC and protobuf are modelled from their documentation; broken connections and client-side cancellation are not modelled."
  },
  {
   "property": "C43",
   "status": "partial",
   "theorems": [
    "RangeDB.EDB.C43_reads",
    "RangeDB.EDB.C43_save",
    "RangeDB.EDB.C43_save_succeeds",
    "RangeDB.EDB.C43_save_error",
    "RangeDB.EDB.C43_batch",
    "RangeDB.EDB.C43_delete",
    "RangeDB.EDB.C43_numbers_partial",
    "RangeDB.EDB.C43_false_delete_zero",
    "RangeDB.EDB.C43_false_save_zero",
    "RangeDB.EDB.C43_false_read_fails"
   ],
   "note": "False at number 0 (counterexamples proved); proved for every number from 1 on, every history with lost requests and replies, and any operations between check and append. Event types starting with $ are excluded (C75). EventStoreDB is modelled from its documentation."
  },
  {
   "property": "C44",
   "status": "partial",
   "theorems": [
    "RangeDB.Json.C44_json_partial",
    "RangeDB.Json.C44_ndjson_partial",
    "RangeDB.Json.C44_msgpack_partial",
    "RangeDB.Json.C44_msgpack_fault",
    "RangeDB.Json.C44_accepts",
    "RangeDB.Json.C44_json_truncated",
    "RangeDB.Json.C44_ndjson_truncated",
    "RangeDB.Json.C44_truncation_false",
    "RangeDB.Json.C44_json_joined",
    "RangeDB.Json.C44_ndjson_joined",
    "RangeDB.Json.C44_json_fault",
    "RangeDB.Json.C44_missing",
    "RangeDB.Json.C44_types"
   ],
   "note": "Round trip proved for every list of records with UTF-8 names, 64-bit numbers and non-null JSON data (msgpack: for any codec that reads back what it writes; the library is not in the repository). That truncation is always noticed is false; the cuts that go unnoticed are characterised exactly for JSON and ndjson."
  },
  {
   "property": "C45",
   "status": "partial",
   "theorems": [
    "RangeDB.Json.C45_error_lost",
    "RangeDB.Json.C45_false",
    "RangeDB.Json.C45_reads_back",
    "RangeDB.Json.C45_marshal_partial"
   ],
   "note": "False for every format and position (proved); marshal errors are reported (proved)."
  },
  {
   "property": "C46",
   "status": "partial",
   "theorems": [
    "RangeDB.Chat.C46_banned",
    "RangeDB.Chat.C46_after_ban",
    "RangeDB.Chat.C46_serial_partial",
    "RangeDB.Chat.C46_false",
    "RangeDB.Chat.C46_processor",
    "RangeDB.Chat.C46_processor_settles",
    "RangeDB.Chat.C46_ban_raised",
    "RangeDB.Chat.C46_word_found",
    "RangeDB.Chat.C46_warnings"
   ],
   "note": "Once the ban is in the stream every later JoinRoom yields nothing: proved for all schedules of any number of goroutines and processes. That no join is stored after a ban is false when commands overlap (counterexample proved) and proved when they do not. Joining rooms that were never on-boarded is C73."
  },
  {
   "property": "C47",
   "status": "proved",
   "theorems": [
    "RangeDB.C47_readN",
    "RangeDB.Left.C47_merged"
   ],
   "note": "C47_readN: for any iterator. C47_merged: for a read of several types with all its goroutines, in every interleaving, without errors of the store."
  },
  {
   "property": "C48",
   "status": "proved",
   "theorems": [
    "RangeDB.C48_publish",
    "RangeDB.C48_iteration"
   ],
   "note": ""
  },
  {
   "property": "C49",
   "status": "proved",
   "theorems": [
    "RangeDB.Cry.C49_encrypt",
    "RangeDB.Cry.C49_decrypt"
   ],
   "note": "Any number of fields, any key store, any engine, any failing position."
  },
  {
   "property": "C50",
   "status": "partial",
   "theorems": [
    "RangeDB.Key.C50_partial",
    "RangeDB.Key.C50_exact",
    "RangeDB.Key.C50_false",
    "RangeDB.Key.C50_false_key_survives"
   ],
   "note": "False (counterexamples proved); proved for at most two Set calls per subject. C50_exact: Delete does its work if and only if fewer than three Sets of the subject have succeeded; the third key can never be removed. Vault itself is modelled as its KV-2 API is documented."
  },
  {
   "property": "C51",
   "status": "partial",
   "theorems": [
    "RangeDB.Key.C51_partial",
    "RangeDB.Key.C51_false",
    "RangeDB.Key.C51_false_forever"
   ],
   "note": "False (counterexample, and a proof that every later deletion fails); proved while no other subject has been deleted."
  },
  {
   "property": "C52",
   "status": "proved",
   "theorems": [
    "RangeDB.Clock.C52_sequential",
    "RangeDB.Clock.C52_increasing",
    "RangeDB.Clock.C52_seeded"
   ],
   "note": "Any number of calls; int64 overflow is not modelled."
  },
  {
   "property": "C53",
   "status": "proved",
   "theorems": [
    "RangeDB.Sub.C53_live",
    "RangeDB.Sub.C19_order"
   ],
   "note": "All schedules, subscriptions to all events or one aggregate type."
  },
  {
   "property": "C54",
   "status": "partial",
   "theorems": [
    "RangeDB.Lock.C54_partial",
    "RangeDB.Lock.C54_never_waits_partial",
    "RangeDB.Lock.C54_writer_partial",
    "RangeDB.Lock.C54_false",
    "RangeDB.Lock.C54_leveldb"
   ],
   "note": "False for reads that end in an error; proved for the others."
  },
  {
   "property": "C55",
   "status": "partial",
   "theorems": [
    "RangeDB.Cry.C55_gcm",
    "RangeDB.Cry.C55_partial",
    "RangeDB.Cry.C55_false"
   ],
   "note": "Proved of AES/GCM; false of XChaCha20-Poly1305 (counterexample proved, exact set of panicking inputs characterised)."
  },
  {
   "property": "C56",
   "status": "partial",
   "theorems": [
    "RangeDB.ES.C56_partial",
    "RangeDB.ES.C56_false",
    "RangeDB.ES.C56_exact"
   ],
   "note": "False (counterexample proved); holds for events without personal data. C56_exact: what a retry stores instead, for every history."
  },
  {
   "property": "C57",
   "status": "partial",
   "theorems": [
    "RangeDB.ES.C57_partial",
    "RangeDB.ES.C57_gcm",
    "RangeDB.ES.C57_xchacha",
    "RangeDB.ES.C57_false"
   ],
   "note": "False (counterexample proved); holds with AES/GCM for every first personal string under 16 bytes while the key is not deleted (C57_gcm), panics with XChaCha20-Poly1305 for every one that is base64 of 1 to 23 bytes (C57_xchacha); in general it holds if decrypting the plain event returns an error other than ErrKeyWasDeleted."
  },
  {
   "property": "C58",
   "status": "proved",
   "theorems": [
    "RangeDB.ES.C58_redacted",
    "RangeDB.ES.C58_stores"
   ],
   "note": "In-memory and DynamoDB key stores, any engine, all histories."
  },
  {
   "property": "C59",
   "status": "partial",
   "theorems": [
    "RangeDB.Prj.C59_partial",
    "RangeDB.Prj.C59_off_by_one",
    "RangeDB.Prj.C59_false",
    "RangeDB.Prj.C59_delete_drift"
   ],
   "note": "False (proved for every schedule that starts with an up-to-date snapshot, and a concrete counterexample); proved when the snapshot is missing, torn, empty or behind the store. LevelDB store, no deletions, the JSON text of the snapshot itself, aggregate types that are UTF-8 text."
  },
  {
   "property": "C60",
   "status": "partial",
   "theorems": [
    "RangeDB.Prj.C60_partial",
    "RangeDB.Prj.C60_false"
   ],
   "note": "False (counterexample proved); the exact value of the counter is proved for every schedule without deletions, LevelDB store."
  },
  {
   "property": "C61",
   "status": "partial",
   "theorems": [
    "RangeDB.Json.C61_inmemory_partial",
    "RangeDB.Json.C61_leveldb_partial",
    "RangeDB.Json.C61_null_poisons",
    "RangeDB.Json.C61_false",
    "RangeDB.Json.C61_leveldb_wedged"
   ],
   "note": "False for null data (proved for every history before and after on the in-memory store); proved for all other events on both stores."
  },
  {
   "property": "C62",
   "status": "partial",
   "theorems": [
    "RangeDB.Json.C62_names_replaced",
    "RangeDB.Json.C62_utf8_kept_partial",
    "RangeDB.Json.C62_false",
    "RangeDB.Json.C62_names_merge"
   ],
   "note": "False for names that are not UTF-8 (the exact result is proved); proved for UTF-8 names, and only for them."
  },
  {
   "property": "C63",
   "status": "partial",
   "theorems": [
    "RangeDB.Http.C63_any_body_partial",
    "RangeDB.Http.C63_inmemory_partial",
    "RangeDB.Http.C63_leveldb_partial",
    "RangeDB.Http.C63_numbers_changed",
    "RangeDB.Http.C63_false",
    "RangeDB.Http.C63_missing_data_hides"
   ],
   "note": "False in full: integers above 2^53 come back changed, and a posted event without data hides every later event behind a 200. Proved for all other bodies, on both stores, after any history of such events. float64 conversion is a parameter with a stated law."
  },
  {
   "property": "C64",
   "status": "partial",
   "theorems": [
    "RangeDB.Http.C64_self_link_partial",
    "RangeDB.Http.C64_false",
    "RangeDB.Http.C64_wrong_links"
   ],
   "note": "False in full; exactly the names made of letters and '-' have a working link."
  },
  {
   "property": "C65",
   "status": "partial",
   "theorems": [
    "RangeDB.Rem.C65_error_lost",
    "RangeDB.Rem.C65_false",
    "RangeDB.Rem.C65_reachable",
    "RangeDB.Rem.C65_stream_partial"
   ],
   "note": "False for Events and EventsByAggregateTypes: proved for every error and every list of records. Proved for EventsByStream."
  },
  {
   "property": "C66",
   "status": "partial",
   "theorems": [
    "RangeDB.Rem.C66_inmemory_partial",
    "RangeDB.Rem.C66_leveldb_partial",
    "RangeDB.Rem.C66_numbers_changed",
    "RangeDB.Rem.C66_false",
    "RangeDB.Rem.C66_uint64_hides",
    "RangeDB.Rem.C66_metadata_changed"
   ],
   "note": "False in full (counterexamples proved for every float64 conversion that rounds 2^53+1). Proved for all other events, both stores, all histories of such events, all client types that print their data as it was."
  },
  {
   "property": "C67",
   "status": "partial",
   "theorems": [
    "RangeDB.PG.C67_read",
    "RangeDB.PG.C67_not_acknowledged",
    "RangeDB.PG.C67_committed",
    "RangeDB.PG.C67_partial",
    "RangeDB.PG.C67_poisoned",
    "RangeDB.PG.C67_false"
   ],
   "note": "False for every event with metadata (proved for all schedules); proved for events without."
  },
  {
   "property": "C68",
   "status": "partial",
   "theorems": [
    "RangeDB.PG.C68_exhausted",
    "RangeDB.PG.C68_partial",
    "RangeDB.PG.C68_false"
   ],
   "note": "False (proved for every number of connections and every state between calls); proved for schedules without deletes. Contexts that are cancelled after the call, which frees the connection, are C158."
  },
  {
   "property": "C69",
   "status": "partial",
   "theorems": [
    "RangeDB.PG.C69_partial",
    "RangeDB.PG.C69_nothing_saved",
    "RangeDB.PG.C69_panics",
    "RangeDB.PG.C69_false"
   ],
   "note": "False without WithUUIDGenerator (proved for all schedules); proved with it."
  },
  {
   "property": "C70",
   "status": "partial",
   "theorems": [
    "RangeDB.PG.C70_notified",
    "RangeDB.PG.C70_partial",
    "RangeDB.PG.C70_stops",
    "RangeDB.PG.C70_reconnect",
    "RangeDB.PG.C70_false"
   ],
   "note": "False (proved for every prefix of good events and everything after); proved while all notifications can be decoded."
  },
  {
   "property": "C71",
   "status": "partial",
   "theorems": [
    "RangeDB.Cqrs.C71_duplicated",
    "RangeDB.Cqrs.C71_lost",
    "RangeDB.Cqrs.C71_false",
    "RangeDB.Cqrs.C71_partial"
   ],
   "note": "False (counterexamples proved); proved when the calls of Handle do not overlap."
  },
  {
   "property": "C72",
   "status": "partial",
   "theorems": [
    "RangeDB.Chat.C72_serial_partial",
    "RangeDB.Chat.C72_false"
   ],
   "note": "False when commands overlap (counterexample proved); proved for every history of commands handled one at a time by any number of processes."
  },
  {
   "property": "C73",
   "status": "partial",
   "theorems": [
    "RangeDB.Chat.C73_partial",
    "RangeDB.Chat.C73_ban_leaks",
    "RangeDB.Chat.C73_phantom_room",
    "RangeDB.Chat.C73_false"
   ],
   "note": "False (counterexamples proved); proved for a process that serves one room."
  },
  {
   "property": "C74",
   "status": "partial",
   "theorems": [
    "RangeDB.EDB.C74_stream_gone",
    "RangeDB.EDB.C74_name_lost",
    "RangeDB.EDB.C74_events_partial",
    "RangeDB.EDB.C74_false_shipped",
    "RangeDB.EDB.C74_false_restart",
    "RangeDB.EDB.C74_false_other"
   ],
   "note": "False for Events and EventsByAggregateTypes of the shipped server, after a restart and from another adapter (counterexamples proved); proved for EventsByStream always, and for all reads of the adapter that made the delete, with RecordDeletedStreams, until its restart. The events vanish when an operator scavenges the server, which is not modelled."
  },
  {
   "property": "C75",
   "status": "partial",
   "theorems": [
    "RangeDB.EDB.C75_hidden",
    "RangeDB.EDB.C75_returned_partial",
    "RangeDB.EDB.C75_false",
    "RangeDB.EDB.C75_numbers_false"
   ],
   "note": "False for event types starting with $ (proved that no read ever shows them); proved for all others."
  },
  {
   "property": "C76",
   "status": "partial",
   "theorems": [
    "RangeDB.EDB.C76_all_partial",
    "RangeDB.EDB.C76_reachable",
    "RangeDB.EDB.C76_poison",
    "RangeDB.EDB.C76_false_history",
    "RangeDB.EDB.C76_false_poison"
   ],
   "note": "False (counterexamples proved): the whole history is broadcast again, and one foreign event silences the listener (proved for every log). Proved that otherwise every event is broadcast once, in order."
  },
  {
   "property": "C77",
   "status": "partial",
   "theorems": [
    "RangeDB.Gen.C77_partial",
    "RangeDB.Gen.C77_value_plain",
    "RangeDB.Gen.C77_second_name_plain",
    "RangeDB.Gen.C77_no_subject_plain",
    "RangeDB.Gen.C77_quoted_plain",
    "RangeDB.Gen.C77_false",
    "RangeDB.Gen.C77_false_second_name",
    "RangeDB.Gen.C77_false_no_subject",
    "RangeDB.Gen.C77_false_quoted",
    "RangeDB.Gen.C77_false_same_target",
    "RangeDB.Gen.C77_blank_tag_panics",
    "RangeDB.Gen.C77_order",
    "RangeDB.Gen.C77_file"
   ],
   "note": "False (proved for every struct of five kinds: saved as values, second names of a declaration, no subject, tags in double quotes, shared targets). Proved for all careful structs saved as pointers. The Go parser is not modelled: a struct is its list of field declarations with their tag literals."
  },
  {
   "property": "C78",
   "status": "partial",
   "theorems": [
    "RangeDB.Gen.C78_partial",
    "RangeDB.Gen.C78_false",
    "RangeDB.Gen.C78_false_utf8"
   ],
   "note": "False (field `Type` gives the keyword `type`; non-ASCII initials give bytes that are not UTF-8). Proved for capitalised ASCII names whose lower-case forms are free. Only the declared variables are checked, not the rest of Go's rules."
  },
  {
   "property": "C79",
   "status": "partial",
   "theorems": [
    "RangeDB.Chain.C79_order",
    "RangeDB.Chain.C79_ws_partial",
    "RangeDB.Chain.C79_grpc_partial",
    "RangeDB.Chain.C79_silent",
    "RangeDB.Chain.C79_false_relay",
    "RangeDB.Chain.C79_false_slow_grpc"
   ],
   "note": "False for both APIs (counterexamples proved): a relay that was too slow once is stopped for good, and a gRPC client that was too slow once stays connected and silent. Order proved for every schedule and chain; completeness proved for all schedules in which the relay is not stopped (and, for gRPC, the client never times out), on the LevelDB store, for all events or one type."
  },
  {
   "property": "C80",
   "status": "partial",
   "theorems": [
    "RangeDB.Chain.C80_partial",
    "RangeDB.Chain.C80_false_startup",
    "RangeDB.Chain.C80_false",
    "RangeDB.Chain.C80_false_undecodable",
    "RangeDB.Chain.C79_order"
   ],
   "note": "False (counterexamples proved): events saved before the server has handled the request of New are lost, and one undecodable event ends all live delivery. Proved for subscriptions made after the server registered the live connection, as long as no hop stops."
  },
  {
   "property": "C81",
   "status": "partial",
   "theorems": [
    "RangeDB.Disp.C81_partial",
    "RangeDB.Disp.C81_error_ignored",
    "RangeDB.Disp.C81_unbound_ignored",
    "RangeDB.Disp.C81_objects",
    "RangeDB.Disp.C81_shredded_panics",
    "RangeDB.Disp.C81_false"
   ],
   "note": "False (proved for every application: read errors change nothing, unbound types are passed over, and with a shredded subject in the stream every command panics). Proved over the encrypted store, for all histories, for streams without shredded subjects whose types are bound."
  },
  {
   "property": "C82",
   "status": "partial",
   "theorems": [
    "RangeDB.Disp.C82_partial",
    "RangeDB.Disp.C82_false",
    "RangeDB.Disp.C82_false_crash",
    "RangeDB.Disp.C82_false_mixed"
   ],
   "note": "False (rejected event, crash between two saves, overlapping commands). Proved for commands handled one at a time whose events the serializer accepts, and for commands that raise one event."
  },
  {
   "property": "C83",
   "status": "partial",
   "theorems": [
    "RangeDB.Race.C83_partial",
    "RangeDB.Race.C83_false",
    "RangeDB.Race.C83_false_vault",
    "RangeDB.Race.C83_alone",
    "RangeDB.Race.C83_alone_stores"
   ],
   "note": "False for Vault (counterexample proved). Proved for all schedules of any number of goroutines for the in-memory, PostgreSQL and DynamoDB key stores (DynamoDB with up-to-date reads, see C119_race for old ones), and for an in-memory cache in front of each."
  },
  {
   "property": "C84",
   "status": "partial",
   "theorems": [
    "RangeDB.Race.C84_partial",
    "RangeDB.Race.C84_false",
    "RangeDB.Race.C84_false_encrypt",
    "RangeDB.Race.C84_false_cache"
   ],
   "note": "False (two counterexamples proved). Proved for all schedules for calls that begin after a first encryption for the subject has succeeded."
  },
  {
   "property": "C85",
   "status": "partial",
   "theorems": [
    "RangeDB.Race.C85_partial",
    "RangeDB.Race.C85_false"
   ],
   "note": "False for PostgreSQL and Vault (counterexamples proved). Proved for all schedules for the in-memory and DynamoDB key stores, with and without a cache."
  },
  {
   "property": "C86",
   "status": "partial",
   "theorems": [
    "RangeDB.Lock.C86_partial",
    "RangeDB.Lock.C86_false",
    "RangeDB.Lock.C86_false_save",
    "RangeDB.Lock.C86_false_read"
   ],
   "note": "False: for every store, read and save, the inner save before the last record never begins, and the whole store hangs. Proved for every history of single-type reads once the last record has been received."
  },
  {
   "property": "C87",
   "status": "partial",
   "theorems": [
    "RangeDB.Stop.C87_partial",
    "RangeDB.Stop.C87_false",
    "RangeDB.Stop.C87_false_consumer",
    "RangeDB.Stop.C87_false_close"
   ],
   "note": "False: Done is never closed after a callback's error, nor for any subscription alive when its broadcaster is closed (both proved for all histories). Proved for subscriptions stopped by their user, their context or the broadcaster's time-out."
  },
  {
   "property": "C88",
   "status": "proved",
   "theorems": [
    "RangeDB.Stop.C88_save",
    "RangeDB.Stop.C88_buffers"
   ],
   "note": "For all schedules, with the real channel capacities."
  },
  {
   "property": "C89",
   "status": "partial",
   "theorems": [
    "RangeDB.PG.C89_partial",
    "RangeDB.PG.C89_stream",
    "RangeDB.PG.C89_acknowledged",
    "RangeDB.PG.C89_false"
   ],
   "note": "False: reading a stream from beyond its last event is answered with ErrStreamNotFound. All else is proved for all schedules of events that can be decoded (see C67)."
  },
  {
   "property": "C90",
   "status": "proved",
   "theorems": [
    "RangeDB.EDB.C90_views",
    "RangeDB.EDB.C90_stream",
    "RangeDB.EDB.C90_resume",
    "RangeDB.EDB.C90_shared_position"
   ],
   "note": "For all histories; C90_shared_position shows that resuming needs a server that gives every event a position of its own."
  },
  {
   "property": "C91",
   "status": "partial",
   "theorems": [
    "RangeDB.IM.C91_inmemory_partial",
    "RangeDB.IM.C91_inmemory_one_winner",
    "RangeDB.IM.C91_false",
    "RangeDB.LD.C91_leveldb_partial",
    "RangeDB.LD.C91_leveldb_one_winner",
    "RangeDB.LD.C91_leveldb_false",
    "RangeDB.PG.C91_postgres_partial",
    "RangeDB.PG.C91_postgres_false"
   ],
   "note": "False when the stream is deleted and filled again to the same length in between (counterexamples proved for three stores); proved for all histories and schedules without a delete of the stream in between."
  },
  {
   "property": "C92",
   "status": "partial",
   "theorems": [
    "RangeDB.Bdd.C92_partial",
    "RangeDB.Bdd.C92_no_events",
    "RangeDB.Bdd.C92_given",
    "RangeDB.Bdd.C92_false",
    "RangeDB.Bdd.C92_false_old_store",
    "RangeDB.Bdd.C92_false_delete",
    "RangeDB.Bdd.C92_inspect",
    "RangeDB.Bdd.C92_inspect_false"
   ],
   "note": "False: events raised in streams for which nothing is expected go unnoticed, and on a store that is not new the check looks at the wrong events (counterexamples proved). Proved for a new store and commands that only save: an exact characterisation of when Then passes, and what ThenInspectEvents hands over."
  },
  {
   "property": "C93",
   "status": "partial",
   "theorems": [
    "RangeDB.Disp.C93_partial",
    "RangeDB.Disp.C93_returns",
    "RangeDB.Disp.C93_plain",
    "RangeDB.Disp.C93_false",
    "RangeDB.Disp.C93_example"
   ],
   "note": "False on an encrypted store: the returned events are the encrypted ones (counterexample proved). Proved for all histories: what is returned is, byte for byte and in this order, what was stored; apart from personal data it is what was raised; events without personal data are returned unchanged; a failing save does not stop Dispatch."
  },
  {
   "property": "C94",
   "status": "partial",
   "theorems": [
    "RangeDB.ES.C94_partial",
    "RangeDB.ES.C94_gcm",
    "RangeDB.ES.C94_gcm_full",
    "RangeDB.ES.C94_false",
    "RangeDB.ES.C94_false_cbc"
   ],
   "note": "Proved in full for AES/GCM; false for XChaCha20-Poly1305 and AES/CBC, whose decryption panics inside the reader (counterexamples proved). For every cipher: exactly what a reader gets, whatever the wrapped store holds."
  },
  {
   "property": "C95",
   "status": "partial",
   "theorems": [
    "RangeDB.Web.C95_partial",
    "RangeDB.Web.C95_false"
   ],
   "note": "False: rows and total are read one after the other, so a page can show two events in total and list one (counterexample proved). Proved for every schedule: every row and the total lie between those at the request and those at the answer, the rows add up to no more than the total even when the total is read in the middle of an update, and the page is exact if nothing arrives meanwhile."
  },
  {
   "property": "C96",
   "status": "partial",
   "theorems": [
    "RangeDB.Web.C96_partial",
    "RangeDB.Web.C96_messages",
    "RangeDB.Web.C96_false"
   ],
   "note": "False if numbers arrive out of order, as on PostgreSQL (C40): the loop never notices the later event with the smaller number (counterexample proved). Proved for numbers in order, under every schedule; every message of every schedule is consistent in the sense of C95."
  },
  {
   "property": "C97",
   "status": "partial",
   "theorems": [
    "RangeDB.Proc.C97_partial",
    "RangeDB.Proc.C97_any_time",
    "RangeDB.Proc.C97_progress",
    "RangeDB.Proc.C97_false"
   ],
   "note": "False: Serve returns as soon as Shutdown is called, and the goroutine then ends the process with log.Fatal (counterexample proved; possible at every moment from then on). Proved for every schedule: an end with status 0 is clean, and no HTTP request meets a closed store; WebSockets are not waited for."
  },
  {
   "property": "C98",
   "status": "partial",
   "theorems": [
    "RangeDB.Agg.C98_partial",
    "RangeDB.Agg.C98_apply_own",
    "RangeDB.Agg.C98_load",
    "RangeDB.Agg.C98_handle",
    "RangeDB.Agg.C98_rejected",
    "RangeDB.Agg.C98_keyword",
    "RangeDB.Agg.C98_false",
    "RangeDB.Agg.C98_apply",
    "RangeDB.Agg.C98_raise",
    "RangeDB.Agg.C98_case",
    "RangeDB.Agg.C98_unicode"
   ],
   "note": "False for names whose small form is a Go keyword or is used by the generated code, and for names that start with a longer rune (counterexamples proved): most do not compile, an event called Apply overflows the stack when loaded, an event called Raise is raised again when loaded. Proved for all other ASCII names."
  },
  {
   "property": "C99",
   "status": "partial",
   "theorems": [
    "RangeDB.Agg.C99_partial",
    "RangeDB.Agg.C99_name",
    "RangeDB.Agg.C99_false"
   ],
   "note": "False for an aggregate type with a backslash, a quote or a newline (counterexamples proved). Proved for all other texts, and so for all type names."
  }
 ]
}