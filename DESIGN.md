# Formal model of ubicloud/ubiblk: design

Everything lives in `/verif/lean` (Lake project, Lean 4.33.0). Layout:

* `Verif/Util/*`   – general lemmas (little-endian codecs, lists).
* `Verif/Model/*`  – the model, one file per group of Rust files. Each definition cites the lines it models.
* `Verif/Spec/*`   – small independent specifications (plain disk, key/value laws, ...).
* `Verif/Proof/*`  – helper lemmas and invariants.
* `Verif/Props/*`  – the property theorems only, with an `example` beside each showing its hypotheses are met.

## Trusted base

* Lean's kernel and the axioms `propext`, `Classical.choice`, `Quot.sound` (no others; no `sorry`,
  `native_decide`, `bv_decide`, no added axioms).
* The reading of the Rust code in `/repo` that the comments of `Verif/Model` record. The code is not executed.
* Environment models: the block device with a volatile cache (`Spec/Disk.lean`), the `mpsc` channel as a
  FIFO, atomics as sequentially consistent cells, cryptographic primitives as parameters with the law stated in each theorem.

## Plan per property

| id | what is modelled | how it is proved |
|----|------------------|------------------|
| C01 | `metadata/types.rs` codec on byte lists, real CRC-32 | round trip, induction over sectors |
| C02 | bitwise CRC-32 | the CRC step is injective in the state and in a 32-bit window; lifts to bursts |
| C03 | `from_bytes` with every check and assertion as an error value | case analysis; result only depends on the prefix in use |
| C04 | flusher's one-sector write | equality of byte images, induction over updates |
| C05 | lazy channel + fetcher + flusher + worker + devices as one transition system, one step per loop iteration | forward simulation into `Spec/Disk`. Past the end of the image the plain disk's initial content is chosen with the run (a prophecy `g`, decided when the stripe is copied): the simulation is carried for a family of such `g` and holds across power losses. Not covered: a read of one not yet fetched stripe answered straight from the image that reaches past its end (io_uring counts the short read as a success) |
| C06 | same, device with per-sector sets of surviving values | the simulation relation carries a crash clause; induction over epochs |
| C07, C08, C09, C13 | same | inductive invariants |
| C10 | same | consequence of the refinement: the spec completes an id only if in flight |
| C11, C12 | same with retry counters and buffer pool | inductive invariants |
| C14, C15 | shared-state counters | counting invariant |
| C16 | same | false when a metadata write fails: negation with a witness run, and blocking for every such failure (preserved predicate `Stuck`); partial theorem without lost updates (decreasing measure: the worker can finish its work, then every queue drains). Progress means that some continuation answers; fairness of the real threads is not modelled |
| C17 | buffers with contents (`Spec/LazyTail`) | false for raw images: `C17_false`, a run of seventeen fetches; partial: origin of every value in the tail, by an invariant on buffers, device writes and cached/persistent sectors; buffers are encrypted in place (`bdev_crypt.rs`), so ciphertext of earlier stripes is among the origins |
| C18 | lazy queue | history invariant |
| C19, C20 | crypt channel over an abstract sector cipher | refinement to a plain sector map; between the two files of a volume: `C20_across_files` |
| C21 | key wrapping over an abstract AEAD | round trip, length case analysis |
| C22, C24, C27 | archiver as a transition system over a store | invariant: every published name maps to a stored object |
| C23 | archive source decision path | case analysis under collision-freedom / unforgeability hypotheses |
| C25, C26 | byte encoders | injectivity / round trip |
| C28 | archive source bookkeeping | exact ledger invariant |
| C29 | export loop | invariant over the file map |
| C30–C32 | session and client as functions on byte streams | round trip, induction over the stream |
| C33, C34 | reconnect loop and remote source bookkeeping | induction over outcome lists, ledger invariant |
| C35 | legacy translation | case analysis |
| C36 | composition of server, remote source, init | composition of the above |
| C37–C40 | vhost request parsing and slot handling | induction over chains, ledger invariant; C40 false: witness |
| C41 | ublk handler | ledger invariant |
| C42 | tracker | fold over operations |
| C43 | get_config | list lemma |
| C44, C47 | config validation | decision logic stated outright |
| C45 | secret resolution as iteration over any order | fixpoint uniqueness, rank argument |
| C46 | TOML table merge | induction on trees |
| C48 | key prefixing | string lemmas on character lists |
| C49 | `init_metadata`, `ensure_metadata_file`, source builder, `save_to_bdev`, `load_from_bdev` | decision logic; the save as a run of `Spec/Disk` with power losses |
| C50 | buffer pool | ledger invariant over every history |
| C51 | aligned buffer | arithmetic for any address |
| C52 | stripe list printer | round trip through an independent reader of the text |
| C53 | `xts` tool | chunk loop = sector map; round trip over an abstract sector cipher |
| C54 | io_uring channel: queues, counters, kernel taking and completing requests | ledger invariant over every history; submit-error behaviour as negation |
| C55 | RPC loop with serde_json's writer (`Model/Rpc`); request parser and UTF-8 decoder are parameters (concrete in C102) | induction over lines; JSON read-back by mutual induction; false for lines that are not UTF-8 (`C55_false`) |
| C56 | GET_ID in the vhost handler | memory lemma |
| C57 | secret files | decision logic; negation for long base64 files |
| C58 | relative paths in configurations | decision logic; negation for archive targets |
| C59, C61 | deserialisation of every section with unknown keys refused | decision logic against a table of keys and defaults |
| C60 | S3 store with any number of workers | ledger invariant, history variable for the bucket |
| C62 | archive, initialisation, archive source, lazy device composed | partial: composition for equal stripe sizes and tracked volumes without a stripe written before it was fetched; in each other case false, with a witness (`C62_false_*`) |
| C63 | io_uring and synchronous engines over a kernel disk | forward simulation into `Spec/Disk` |
| C64 | death of the process as a restart over devices that keep their caches (`Model/LazyKill`, `Spec/DiskKill`) | false: `C64_false`; partial: forward simulation, with a second set of possible metadata contents carried along, for runs without a power loss between a death with unflushed metadata and the next metadata flush |
| C65 | `Model/Stack`: the lazy disk as an open system that exchanges events with its devices; each device is an engine (`Model/Uring`, `Model/SyncIo`), with or without the encrypting channel | the lists of exchanged events join the machines; each layer over a plain disk is a plain disk (`crypt_refines`, `C63_*`), completions delivered late are absorbed by the relation `Lag`, and the open system over plain disks is a run of the closed model (`open_closed`); converses (`C65_realised`, `Device.all_*`) show that nothing is lost |
| C66 | `Model/LazyRefused`: the lazy disk plus the entries that refused submissions of the fetcher left in the ring | false: `C66_false`, a concrete run whose visible trace no plain disk has; partial: without a left-over entry in the kernel the steps are those of C05 |
| C67 | `Model/Front`: one thread of `Model/Vhost` per queue on a common guest memory, exchanging events with the volume; `Spec/Front`: the request a chain asks for and what the guest finds, from guest memory alone | simulation: requests go by slot number below and by chain number above (`Proof/Rename`), completions are handled late (`Proof/Lag`); composed with C65 |
| C68 | `Model/UblkFront`: one handler of `Model/Ublk` per queue, exchanging events with the volume; `Spec/UblkFront`: the request an io descriptor asks for and what the kernel finds in the buffer | simulation: requests count as issued when handed over although the handler passes them on later (`Proof/Early`), completions are handled late (`Proof/Lag`); composed with C65 |
| C69 | `Model/GuestRefused`: the lazy disk plus the entries that refused submissions of waiting guest requests left in the ring | false: `C69_false` (a write reported as failed overwrites its acknowledged and flushed successor), `C69_false_twice` (a request is answered twice); partial: without a left-over entry in the kernel the steps are those of C05 |
| C70 | `Model/Lazy` with `Spec/LazyWork` (counting runs, work left, rest) | a measure over messages, stripes, retries, device sectors and guest requests that every useful step decreases: `C70_work_bounded`, `C70_quiet_work_bounded`; a state without useful steps holds no request: `C70_rest_all_answered`, `C70_every_schedule_answers`, `C70_rest_reached` |
| C71 | `Model/Archive`, `Model/ArchiveRead` with `Model/Leftover` (what a stopped run leaves) and `Spec/Rearchive` (what an archive should say) | two runs of the archiver, the second from the first one's store; the tag of the index ties it to the description: `C71_never_mixed`, `C71_mixed_unopenable`, `C71_new_complete`, `C71_old_kept_partial`. The claim that the old or the new archive can always be read is false (`C71_false`, `C71_false_cut`) |
| C72 | `Model/S3` with `Model/StoreWait` (`put_object`, `get_object`) | between calls nothing is under way for a name none of whose calls ran out of time: `C72_put_stored_partial`, `C72_read_back_partial`, `C72_get_current_partial`, `C72_put_unsure_partial`. After a timeout for the same name it is false (`C72_false`, `C72_false_get`) |
| C73 | `Model/DirStore` (paths, directories and files, `FileSystemStore`, the archiver on a directory) with `Spec/DirStore` (an object store) | in a tree, a plain name is one place and making directories changes no file: `C73_refines`, `C73_inside`, `C73_object_file`, `C73_put_succeeds`, `C73_read_back`, `C73_slash`; a simulation into runs of `Model/Archive`: `C73_archive`. For other names false: `C73_false_outside`, `C73_false_alias`; after a timeout: `C73_false_timeout` |
| C74 | `Model/Psk` (credentials, the two callbacks on the library's buffers, the accept loop with any number of sessions of `Model/Remote`) with `Spec/Psk`; of TLS only the law that a handshake completes when both ends use one key | invariant of every connection over all histories: `C74_auth`, `C74_isolated`, `C74_finishes`; `C74_admits`, `C74_other_client`, `C74_config`, `C74_arguments`. Refused peers do stop the server: `C74_false_crash`, `C74_false_accept`; `C74_survives_partial` gives the peers that do not |
| C75 | `Model/Names`: any number of backends over one file system, a system call at a time, with the Ctrl-C handler, faults, kills and other programs | frame over all histories: `C75_frame`; invariants of one backend and a path nobody else uses: `C75_link`, `C75_parents`, `C75_made`, `C75_serves`, `C75_removed`, `C75_keeps`, `C75_ended`, `C75_socket`, `C75_umask`; of all sockets: `C75_socket_tight`. Files in the way are deleted, shared or stale links are not handled: `C75_false_*` |
| C76 | `Model/Shell`: reading a line, the commands, the stripes kept, and the connection's unread bytes | lines: `C76_number`, `C76_number_only`, `C76_line`, `C76_line_only`; invariant over sessions in which replies arrive in time: `C76_dump_partial`, `C76_fetch`, `C76_header`, `C76_empty`, `C76_hex`; over all sessions: `C76_no_panic`, `C76_end`, `C76_line_quiet`. False of stripes only in the image and of late replies: `C76_false_*` |
| C77 | `Model/Base64`, `Model/LegacyConfig`: base64 in both directions, the key fields of an archive, `load_legacy_config` after parsing | induction over groups of four characters against a bit-level meaning of text (`Spec/Base64`): `C77_base64`, `C77_text`, `C77_one_meaning`; `C77_archive_keys`, `C77_archive_keys_only`; with C45: `C77_secret`, `C77_secret_fits`; decision logic: `C77_legacy`, `C77_legacy_forgotten` |
| C78 | `Model/Wait`: a program with a list of requests on a channel of its own, `poll` as any set of completions, time limit, failing submit, on the disk of `Spec/Disk` | invariant (one request in flight): `C78_in_turn`, `C78_so_far`; `C78_scan`; callers: `C78_load`, `C78_session`, `C78_serve`, `C78_source`, `C78_save`, `C78_init`; non-vacuity for every list: `C78_can_finish` |
| C79 | `Model/Assemble`: each program as a tree of questions to the system and what it does with any answer; `Spec/Assemble` says in terms of the configuration what may be asked and what the parts must be | triples over all runs: `C79_asked`, `C79_configured` and from them `C79_writable`, `C79_image_readonly`, `C79_created`, `C79_keyed`, `C79_credentials`, `C79_backend`, `C79_server_refuses`, `C79_fits`, `C79_archive`, `C79_server`, `C79_server_complete`, `C79_server_stripes`, `C79_psk_accepted`, `C79_export`; with the loader of `Model/Load`: `C79_secrets`, `C79_fetched_asks`, `C79_fetched_starts_partial`; `C79_dials`, `C79_retry`, `C79_retried`, `C79_workers`. False of raw sources with `copy_on_read` off: `C79_false_fetched_starts`, `C79_image_needed` |
| C80 | `Model/Tail`: reads and writes of one stripe by sector, both engines, with decryption in place, the pool's buffer going from stripe to stripe | `Spec/Tail` says by sector number what a stripe is: `C80_fetch_inside`, `C80_image_inside`, `C80_fetch_contents` for all sizes; `C80_archive_partial`, `C80_server_partial`, `C80_archive_all_partial` for whole stripes; what happens at a stripe the disk ends inside of: `C80_sync_refused`, `C80_archive_fails`, `C80_never_done` (with the archiver of `Model/Archive`), `C80_uring_tail`, `C80_server_tail`, `C80_stale_tail`; `C80_rounded_up` and `C80_false_same_size` (with `C79_fits`) |
| C81 | `Model/Wake`: `handle_event` and `process_queue` one shared access at a time, on a queue with both event words and both event descriptors; `Spec/Wake`: a driver that keeps to the virtio specification, what it means to be asleep | invariants over all interleavings: `C81_worker`, `C81_idle_partial` (worker's side), `C81_both_partial`, `C81_both_event_partial`, `C81_unseen_partial`, `C81_unseen_event_partial` (signals); a measure: `C81_bounded`, `C81_not_stuck`, `C81_comes_to_rest`; `C81_kinds` links to `Model/Vhost`; witnesses `C81_false_bad`, `C81_false_idle`, `C81_false_wrap` |
| C82 | `Model/Load`, `Model/Secrets`, `Model/Toml`; `Spec/Accept`: what the files of each kind of configuration have to say, in terms of the dotted keys they hold | both directions: `C82_config`, `C82_target`, `C82_export`, `C82_server`; `C82_prefix` spells out the check of an archive's prefix |
| C83 | `Model/Sessions`: `serve_vhost` and the loop around it, and what a change of client does to the event loop of `Model/Wake`; a `client` step in `Model/Front` | `C83_goes_on`, `C83_served` by induction on the sessions; the invariants of C81 carried through changes of client (`C83_idle_partial`, `C83_answered_partial`, `C83_seen_partial`); `C83_apart`, `C83_settled`, `C83_next_finds` over the simulation of C67, which now includes changes of client; witnesses `C83_false_protocol`, `C83_false_lost`, `C83_false_twice`, `C83_false_late` |
| C84 | `Model/MetaRing`: the metadata flusher once more, by itself: sixteen buffers with contents and order of reuse, whole batches, the io_uring queue that keeps refused entries, a kernel that reads buffers late | `C84_refused_metadata_partial` by an invariant (buffers of running updates are disjoint and hold the current image of their sector; every request in the kernel belongs to one update) through the loops of a call; `C84_all_accepted` is the case without refusals; `C84_not_forgotten`: requests are queued, under way, recorded or failed; false once a left-over entry reaches the kernel: `C84_false_refused_write`, `C84_false_refused_flush`, `C84_false_misplaced` |
| C85 | `Model/LiveArchive`: the archive tool's reads of metadata and data, one sector at a time, interleaved with the steps of `Model/Lazy`; spec: `Held` (a plain disk could hold that value then), `Snapshot` | `C85_held_partial` and the others by an invariant over the interleaving: a header once read says something that stays true (`FETCHED`: the disk is valid from then on; no `FETCHED`: the image was valid at that moment); `C85_false_half_written` (stripe marked written and not yet fetched), `C85_false_snapshot` (not one moment) are witnesses against the full claim |
| C86 | `Model/LiveServe`: the stripe server's sessions beside the steps of `Model/Lazy`, metadata loaded as in `Model/LiveArchive`, answers as in `Model/Remote`; spec: `Allowed` over `Held` | `C86_answers` by an invariant over the interleaving (what a running request has read was held since its start or the server's); `C86_acknowledged`, `C86_unwritten` follow; `C86_current_partial`: not older than the request for stripes on the disk when the server started; `C86_false_current` is the witness against it for all |
| C87 | `Model/Lend`: for each user of a channel, when memory is allocated, used, handed in and given back, and what the crypt and lazy channels do in between; `Model/LendRing`: such a program on the io_uring channels of `Model/Uring`, with the kernel moving bytes at any moment; spec: `Spec/Lend`, a ledger of allocations and unanswered requests | `Safe`: an invariant for each machine that links its pools and tables to the ledger; `C87_crypt`, `C87_lazy_partial`, `C87_threads` carry it through the layers and over threads; `C87_ring`, `C87_kernel`: on io_uring the answers are as required, so memory the kernel touches is the request's own; partial as to failed submissions, timeouts and disconnection without the event index (witnesses `C87_false_*`) |
| C88 | the archiver of `Model/Archive` and the export of `Model/ArchiveRead`; spec: `Spec/Ends` (counted runs, steps in which nothing goes wrong) | a measure of the stripes, reads and uploads left that every counted step decreases: `C88_archive_bounded`, `C88_export_bounded`; from the invariants of C22 and C29 a next step exists: `C88_archive_goes_on`, `C88_export_goes_on`; together `C88_archive_ends`, `C88_archive_reached`, `C88_export_ends`, `C88_archive_exports`; `C88_needs_a_buffer`: why one buffer is required |
| C89 | `Model/Durable`: the system calls of `init-metadata`, of puts to a directory (with the archiver of `Model/DirStore`), of `export-archive` and of `xts`; `Spec/Durable`: files with certain names and contents, what a power loss may leave | evaluation of the calls: `C89_init`; calls elsewhere keep what is certain: `C89_others`, `C89_archive_others`; no call syncs: `C89_false_archive`, `C89_false_files`; a run on a file that was left behind: `C89_false_init`, `C89_false_bare`; with the simulation of C73 and C23: `C89_archive_synced_partial`, `C89_archive_partial`, `C89_files_partial` |
| C90 | `Model/RpcServer`: the listener and one handler per client, in any interleaving, with the lines and answers of `Model/Rpc` | invariant per connection (the lines dealt with and the answers sent are those of one session): `C90_alone`; frame: `C90_others`, `C90_others_run`; the handler runs alone until it has answered all: `C90_answered`; `C90_up_partial`; runs: `C90_false_accept` (for every number of descriptors), `C90_false_spawn`, `C90_false_memory` |
| C91 | `Model/ArchiveSize`: `physical_size_bytes` along the runs of `Model/Archive`, the end of the archive command | invariant (the objects put so far with their contents, the manifest counted when stored) over that of C22-C24: `C91_physical`, `C91_report`, `C91_exit_partial`; `C91_false_exit` |
| C92 | `Model/RemoteLate`: a worker with its connection as bytes sent and bytes arrived so far, over the server of `Model/Remote`, time-outs and failed writes anywhere, redialling | invariant that nothing is outstanding on the connection, a reader's result does not depend on what comes after: `C92_right_partial`, `C92_redialled`; `C92_prompt` for a network that delivers, `C92_guest_partial` for the guest of the volume (through C36), `C92_reconnect` links it to the loop of C33; `C92_false_behind` (for all volumes and requests), `C92_false_late`, `C92_false_guest` |
| C93 | `Model/Reconfig`: runs of `Model/LazyKill` in which every start takes any configuration for the same volume | the invariants of C05, C06, C08 and C64 do not depend on the settings of the day: `C93_plain_disk_partial`, `C93_starts`, `C93_tracked`; a new invariant that without a source nothing is ever fetched: `C93_detached_read`, `C93_detached_write`, `C93_detached_keeps`; `C93_false_tracking` |
| C94 | `Spec/InitCrash` over `Model/Init` and `Model/Lazy`: the write of init-metadata cut anywhere on the disk of `Spec/Disk`, then the loader; the volume of C05 started on what a finished run leaves | every surviving sector is old or new, and a checksum tells a blank sector: `C94_blank_partial`, `C94_new`; for used files what can be found, exactly: `C94_again`, `C94_mixture`, `C94_false_torn`; link of C49 to C05: `C94_bootable`, `C94_from_image`; `C94_false_forgets` |
| C95 | `Model/FrontSetup` (masks, CPUs, sizes, with the integer types of the code) over `Model/Vhost`; `Spec/FrontSetup`: a guest within the announced limits, bytes allocated | settings arrive: `C95_queues`, `C95_cpus`, `C95_vhost_trackers`, `C95_ublk_partial`; memory by counting slots in use against chains outstanding: `C95_memory_partial`; every guest: `C95_any_guest`, `C95_never_less`; `C95_false_released`, `C95_false_depth` |
| C96 | `Model/Account` (the calls of the tracker beside each step of `Model/Vhost` and `Model/Ublk`) over `Model/Tracker`; `Spec/Account`: requests passed to the disk and not answered, read off the trace | invariant: entry of a slot = request in flight in it, chains unanswered = occupied slots: `C96_vhost_partial`, `C96_any_guest`, `C96_idle`, `C96_counters`, `C96_ublk_partial`, `C96_ublk_listed`, `C96_ublk_counters`; `C96_false_beyond`, `C96_false_submit` |
| C97 | `Model/Report` (error.rs, and the resolution of secrets with the texts of its errors); `Spec/Report`: lines of a text, parts of an error, the list of reports for the public part of a configuration | structure of the report by cases on the contexts, injectivity of every format; errors of the resolution by induction over passes; same values as `Model/Secrets`: `C97_context`, `C97_story_partial`, `C97_lossless_partial`, `C97_same_resolution`, `C97_report_partial`, `C97_few`, `C97_names_secret`, `C97_redacted`; `C97_false_forged`, `C97_false_base64`, `C97_false_variable`, `C97_false_unnamed`, `C97_false_derived_debug` |
| C98 | `Model/S3Workers` (worker threads, request and result queues, drop); `Spec/S3Workers`: requests taken, begun, carried out, what the user sees | invariant over runs; simulation by the store of `Model/S3`, so that C60 carries over; a measure of the workers' remaining steps: `C98_connections`, `C98_in_order`, `C98_refines`, `C98_answered_once`, `C98_contents`, `C98_stored`, `C98_drop`, `C98_drop_ends`, `C98_answered_partial`, `C98_refused`; `C98_false_lost` |
| C99 | `Model/Formats` (the JSON of the description, the CBOR of the index, readers of both); `Spec/Formats`: CBOR and JSON as relations between values and bytes, the values that stand for a description and an index | readers composed of parts, each of which reads exactly what was written and nothing shorter; induction on the entries; instances of C22 and C71: `C99_map_cbor`, `C99_file_cbor`, `C99_meta_json`, `C99_round_trip`, `C99_no_prefix`, `C99_cut`, `C99_range`, `C99_lawful`, `C99_index_size`, `C99_restore`, `C99_published`, `C99_never_mixed` |
| C100 | `Model/Hold` (the client's calls and the server's requests with the sizes of their buffers, the line buffer of an RPC connection); `Spec/Hold`: sums of sizes, lines of bounded length | the calls with sizes are those of C30 and C32; case analysis with the limits on announced sizes; invariant of the line buffer over all ways of cutting the input: `C100_same`, `C100_connect`, `C100_kept`, `C100_fetch`, `C100_source`, `C100_server`, `C100_no_bomb`, `C100_rpc_lines`, `C100_rpc_partial`; false for RPC connections: `C100_false_rpc` |
| C101 | `Model/Warn` (the loaders of C44 with what they log, flags ignored, modes of files); `Spec/Warn`: switches, loose modes, danger zones that are not enabled | the log is read off the common beginning of the four loaders; bits of a mode; induction over the resolution of secrets for the lack of effect: `C101_ignored_true`, `C101_ignored_all`, `C101_ignored_once`, `C101_loose_partial`, `C101_only_warns`, `C101_no_effect`; false for included files: `C101_false_included` |
| C102 | `Model/Request` (`serde_json` reading a request from text, UTF-8); `Spec/Request`: the grammar of RFC 8259 as inductive relations, requests in it | the reader is sound and complete for the grammar, by induction on its fuel and on the grammar; then C55 with these parameters: `C102_accepted`, `C102_session`, `C102_one_command`, `C102_expressible` |
| C103 | `Model/CoreDump` (steps of the nine programs, the two system calls, when a kernel dumps) | every prefix of a run with secrets has the calls behind it; the settings stay: `C103_serving_partial`, `C103_limit_partial`, `C103_warned`; false for the six other programs and if the calls fail: `C103_false_tools`, `C103_false_failing` |
| C104 | `Model/LiveDump` over `LiveArchive.Tool` and `LiveArchive.Beside` | the invariant of C85 on header bytes read at different moments, with the lists of C52 read back: `C104_prints`, `C104_source`, `C104_fetched`, `C104_fetched_before`, `C104_not_fetched`, `C104_written`, `C104_not_written` |
| C105 | `Model/WriteThrough` (the channels of `Model/Uring` and `Model/SyncIo` over a file opened with O_SYNC), `Spec/WriteThrough` (a disk that writes through) | refinement, then an invariant of the sector from the answer on: `C105_uring`, `C105_sync`, `C105_sync_plain`, `C105_lasts`, `C105_lasts_sync`, `C105_encrypted`, `C105_encrypted_sync`, `C105_encrypted_lasts`, `C105_volume`; a flush is no barrier for writes in flight: `C105_flush_does_nothing` |
| C106 | `Model/CacheMode` (features, configuration space, engine chosen by the configuration), `Spec/CacheMode` (virtio's rule, what the driver may count on) | the field and the flag of the opened file come from the same setting; then C105 or C63: `C106_offered`, `C106_told`, `C106_kept_partial`, `C106_encrypted_partial`; false if the driver accepts neither FLUSH nor CONFIG_WCE: `C106_false` |
| C107 | `Model/Lazy`, `Model/Stack` (the volume), `Model/NullDev` (placeholder device, a device as a stripe source) | with every stripe local no fetch step and no image read is enabled, so every step is also a step with another source: `C107_source_unused`, `C107_any_source`, `C107_same_histories`, `C107_local_disk`, `C107_volume`; arithmetic of the request and induction on the calls: `C107_null_source`, `C107_image_request`, `C107_replaced`, `C107_from_then_on`, `C107_null_answers`, `C107_null_reads` |

## What is modelled

| module | Rust files (under `/repo/src`) |
|--------|------------------------------|
| `Model/Crc32`, `Model/Metadata` | `block_device/bdev_lazy/metadata/{types,load,save}.rs`, sector writes of `metadata_flusher.rs` |
| `Model/Lazy` | `block_device/bdev_lazy/{device,bgworker,stripe_fetcher,metadata_flusher}.rs`, `metadata/shared_state.rs`, `stripe_source/bdev.rs` |
| `Model/Stack` | the same code as an open system, `block_device/bdev_crypt.rs`, stacking by `backends/common/mod.rs:486-519` |
| `Model/Front` | the threads of `backends/vhost/backend.rs:67-77` together, over `Model/Vhost` |
| `Model/LazyKill` | restart of `backends/common/mod.rs:135-183` over devices with unflushed contents |
| `Model/LazyRefused` | refused submissions on the fetcher's channel, `bdev_lazy/stripe_fetcher.rs:214-301` with `bdev_uring.rs:83, 123-134`; with power losses; a left-over write carries the data its buffer had when it was added |
| `Model/GuestRefused` | refused submissions of waiting guest requests, `bdev_lazy/device.rs:131-193` with `bdev_uring.rs:71-134`; with power losses |
| `Model/Rpc` | `backends/common/rpc.rs` |
| `Model/Crypt` | `block_device/bdev_crypt.rs`, `crypt/{block,key}.rs` |
| `Model/Archive`, `Model/ArchiveRead` | `archive/{archiver,mod,hmac,compression,stripe_hashes}.rs`, `stripe_source/archive.rs`, `export_archive.rs` |
| `Model/S3`, `Model/StoreWait` | `archive/s3_store.rs`, `archive/s3_store/s3_store_workers.rs`, the waiting calls of `archive/mod.rs:31-69` |
| `Model/Base64`, `Model/LegacyConfig` | base64 (library `base64`, `STANDARD`), `crypt/key_serialization.rs`, the keys of `ArchiveMetadata`, `load_legacy_config`; not YAML, nor the base64 reader `serde_with` uses on it |
| `Model/Sessions` | `serve_vhost` (`backends/vhost/backend_loop.rs`), the loop of `run_backend_loop` (`backends/common/mod.rs`); of vhost-user-backend, assumed: the exit event is handled only while the worker waits for events, and the workers are joined before the next session |
| `Model/MetaRing` | `MetadataFlusher` (`bdev_lazy/metadata_flusher.rs`) with real buffers, batches and the io_uring channel's queue (`bdev_uring.rs`); not: a full submission queue, O_DSYNC |
| `Model/LiveArchive` | `bin/archive.rs`, `ArchiverFetch` reads (`archiver.rs`), `load_from_bdev` beside a running backend; uploads and retries are in `Model/Archive` |
| `Model/LiveServe` | `remote-stripe-server.rs`, `session.rs` read requests, `prepare.rs` beside a running backend; bytes of requests and connections are in `Model/Remote` and `Model/Sessions` |
| `Model/Lend`, `Model/LendRing` | buffers of `backend_thread.rs`, `io_handler.rs`, `stripe_fetcher.rs`, `metadata_flusher.rs`, `archiver.rs`, `wait_for_completion.rs` and its callers, `bdev_crypt.rs`, `device.rs`; contents and decisions are in the models named for those files |
| `Model/NullDev` | bdev_null.rs 10-88, stripe_source/bdev.rs 22-61 and the device cases of builder.rs 42-95. The channel under a stripe source is not in it (C63); archive and remote sources are in `Model/Archive` and `Model/Remote` |
| `Model/CacheMode` | backend.rs 50-63, 130-151, 251-282 and common/mod.rs 441-462. About the file under the data device; the lazy layer and encryption are between it and the guest (C05, C65). What the library does with a `writeback` field set by the driver is not in /repo and not modelled |
| `Model/WriteThrough` | bdev_uring.rs 13-163 and bdev_sync.rs 13-101 with `write_through`. Assumed of the kernel: O_SYNC as in open(2), and success only for requests carried out in full. With the synchronous engine the histories are among those without write-through (`C105_sync_plain`), so C05 to C07 and all that rests on them apply; with io_uring they do not (`C105_flush_does_nothing`), and those properties are restated for it only between power losses (`C105_volume`). Encryption on top of either is covered (`C105_encrypted`) |
| `Model/LiveDump` | bin/dump-metadata.rs 127-154, 164-166 beside a running backend. Not modelled: its other lines; sectors of 512 bytes are read atomically; power stays on while the tool runs |
| `Model/CoreDump` | utils/security.rs 8-25 (Linux) and the order of steps in `main` and `run` of the programs in bin; when the kernel dumps is core(5). Not modelled: swap, hibernation, debuggers, `/proc` |
| `Model/Request` | backends/common/rpc.rs 36-39, 166, 174 as the library `serde_json` reads a request; the words of an error stay a parameter |
| `Spec/Request` | the grammar of JSON and the requests in it (no code of its own) |
| `Model/Warn` | config/v2/mod.rs 85-117 and config/v2/load.rs 19-23, 94-98, 120-124, 149-153, 203-230, 241-244. Warnings are kept as their parts, not as text |
| `Spec/Warn` | switches, loose modes, danger zones not enabled (no code of its own) |
| `Model/Hold` | stripe_server/client.rs 25-183, stripe_server/session.rs 42-177, metadata/types.rs 252-295 and backends/common/rpc.rs 160-192, with buffer sizes. Not counted: buffers of the system and of TLS, what an allocator adds |
| `Spec/Hold` | sums of sizes, lines of bounded length (no code of its own) |
| `Model/Formats` | archive/mod.rs 72-111 as `serde_json` writes it, archive/stripe_hashes.rs 23-41, 144-160 and archive/bytes32.rs as `ciborium` writes it. Not modelled: reading forms that no ubiblk program writes (other order of fields, white space inside, escapes, indefinite lengths) |
| `Spec/Formats` | CBOR and JSON as relations between values and bytes (no code of its own) |
| `Model/S3Workers` | archive/s3_store.rs 38-173 and s3_store_workers.rs 47-117, with the worker threads, the two channels and drop. Not modelled: a worker that panics, failure to spawn a thread |
| `Spec/S3Workers` | what is seen of the S3 store's workers (no code of its own) |
| `Model/Report` | error.rs; error_context; config/v2/secrets.rs with texts; crypt/key.rs 141-178 with texts; Debug in secrets.rs, psk.rs, block.rs, key.rs. Texts of the operating system and of libraries are parameters; logging calls are not modelled |
| `Spec/Report` | lines, parts of an error, reports for the public part of a configuration (no code of its own) |
| `Model/Account` | the calls of `IoTracker` in backends/vhost/backend_thread.rs and backends/ublk/io_handler.rs. The RPC thread looks between steps only |
| `Spec/Account` | requests in flight and totals, read off a trace (no code of its own) |
| `Model/FrontSetup` | backends/vhost/backend.rs: `new`, `maybe_pin_cpu`, `num_queues`, `max_queue_size`, `queues_per_thread`; backend_thread.rs: sizes in `new`, `pin_to_cpu`; ublk/mod.rs: parameters of `serve_ublk`; common/mod.rs: `build_io_trackers`. What libraries do with the numbers is not modelled |
| `Spec/FrontSetup` | outstanding chains, a guest within the limits, bytes allocated (no code of its own) |
| `Spec/InitCrash` | what is found after an interrupted `save_to_bdev`; what a configuration must agree on with the initialisation (no code of its own) |
| `Model/Reconfig` | starting the backend with another configuration for the same devices (`backends/common/mod.rs`); a new source is assumed to hold the same image |
| `Model/RemoteLate` | `fetch_with_reconnect` and the worker of `stripe_source/remote.rs` on connections with bytes (`stripe_server/client.rs`); the volume does not change meanwhile |
| `Model/ArchiveSize` | `physical_size_bytes` (`archive/archiver.rs`), the statistics of `bin/archive.rs`; their JSON text is not modelled |
| `Model/RpcServer` | `run_listener`, and any number of `handle_client` loops in any interleaving (`backends/common/rpc.rs`); a connection takes one descriptor; what the rest of the process does with descriptors is the parameter `lim` |
| `Model/Durable` | the system calls that change files of `init_metadata`, `ensure_metadata_file` (`backends/common/mod.rs`), `save_to_bdev`, `try_put_object` (`archive/fs_store.rs`), `export_archive`, `xts`; the rules for power losses are those of POSIX (a name is safe once its directory is synced), some file systems promise more |
| `Model/Wake` | `handle_event` (`backends/vhost/backend.rs`), the loop and the signalling of `process_queue` (`backend_thread.rs`); of the libraries: `needs_notification`, `enable_notification`, `add_used` (virtio-queue), `read_kick` (vhost-user-backend) |
| `Model/Tail` | ends of stripes in `stripe_fetcher.rs`, `stripe_source/{bdev,archive,remote}.rs`, `archiver.rs`, `session.rs`, `bdev_sync.rs`, `bdev_uring.rs`, `bdev_crypt.rs` |
| `Model/Assemble` | `common/mod.rs` (building), `stripe_source/builder.rs`, `utils/s3.rs` (client, retries), `client.rs` (connecting), `prepare.rs`, starts of `bin/archive.rs`, `bin/dump-metadata.rs`, `export_archive.rs` |
| `Model/Wait` | `wait_for_completion.rs`, `stripe_source/wait.rs`, `stripe_source/bdev.rs` (request), the requests of `save.rs`, `load.rs`, `session.rs`, `legacy.rs` |
| `Model/Shell` | `bin/remote-stripe-shell.rs`; not the line editor and the help text |
| `Model/Names` | `backends/common/rpc.rs:73-102`, `utils/umask_guard.rs`, the device link in `backends/ublk/mod.rs`; not the vhost socket, whose removal and binding a library does |
| `Model/Psk` | `stripe_server/psk.rs`, the accept loop of `bin/remote-stripe-server.rs`, credentials in `stripe_server/client.rs:205-228`; OpenSSL assumed: buffers of some length, identities cut at NUL, `memcmp::eq` panics on different lengths (its documentation) and, if `panicAborts`, a panic inside a callback called from C aborts the process |
| `Model/DirStore` | `archive/fs_store.rs`, the waiting calls of `archive/mod.rs:31-69` on it, the archiver writing to it; file system calls as the operating system defines them, without links and permissions; no power losses |
| `Model/Leftover` | what a stopped archive run leaves in a store: `archive/fs_store.rs:21-30`, `archive/archiver.rs:102-128` |
| `Model/Remote` | `stripe_server/*`, `stripe_source/remote.rs` |
| `Model/Vhost`, `Model/Ublk`, `Model/Tracker` | `backends/vhost/{request,backend_thread,backend}.rs`, `backends/ublk/*`, `backends/common/io_tracking.rs`, `utils/block.rs` |
| `Model/Toml`, `Model/Secrets`, `Model/Load` | `config/v2/*` |
| `Model/Init` | `bin/init-metadata.rs`, start-up checks of `backends/common/mod.rs`, `stripe_source/builder.rs` |
| `Model/Restore` | `bin/archive.rs:88-135`, `archive/archiver.rs:40-86,149-160`, `stripe_source/builder.rs:43-60`: what the archiver reads, what a volume initialised from an archive sees |
| `Model/Uring`, `Model/SyncIo` | `block_device/{bdev_uring,bdev_sync}.rs` |
| `Model/Util`, `Model/XtsTool` | `utils/aligned_buffer*.rs`, `bin/{dump-metadata,xts}.rs` |

Not modelled: TLS (beyond the law in `Model/Psk`), sockets and HTTP, the io_uring kernel ABI, the vhost-user protocol library, TOML parsing (CBOR and JSON: as written, `Model/Formats`),
zstd, AES and SHA themselves (parameters with stated laws, or out of scope), process start-up, CPU pinning, permissions,
logging, the line editor of the stripe shell, the failing test source `stripe_source/flaky.rs`.

## Where the code does not do what the property says

Proved as theorems about the model unless marked (reading).

* Requests: a device-writable buffer is accepted for writes, a read-only one for GET_ID (`C37_*`); four guest requests
  crash the backend (`C40_*`); no request is checked against the capacity (`C40_sector_not_checked`); a chain that cannot
  be parsed is returned without a signal (`C38_bad_chain_not_signalled`).
* Engines: requests of a failed submit are stranded (`C54_failed_submit_strands`); a short transfer counts as a success
  (`C54_short_transfer_is_success`); lengths of 2^23 sectors wrap to 0 (`C54_fields`); ublk answers the wrong request after a failed submit and
  stalls after an oversized last request of a batch (`C41_*`).
  With write-through a flush is answered at once although a write may be in flight (`C105_flush_does_nothing`).
* Lazy disk: a raw image that ends inside a stripe fills only the start of the pooled buffer (`stripe_source/bdev.rs` 31-40); the rest of the stripe on the
  local disk gets what an earlier stripe left in the buffer (`C17_false`). A guest can read that part if the disk is larger than the image.
  On an encrypted volume the buffer is encrypted in place before it is written, so the stale part is ciphertext of an earlier stripe, encrypted once more
  (`C17_tail_origin_partial`, the `enc` case of `Stale`).
* Encryption: the data device and the metadata device use the same XTS key and the same sector numbers as tweaks (reading).
* RPC: a line that is not UTF-8 ends the client's session without an answer (`C55_false`).
* Lazy disk: a metadata update that fails is not tried again. After a lost FETCHED update the stripe stays "not fetched" until restart; every request
  waiting for it, and every request behind that on the same queue, gets no answer (`C16_lost_update_blocks`, `C16_false`). After a lost WRITTEN update the
  waiting write goes on only if another write to the stripe arrives (reading).
* Restart: a backend killed after a FETCHED header reached the page cache of the metadata device and before its flush
  trusts that header after the restart. Guest writes to the stripe are then acknowledged and flushed on the data device only; a power loss can bring
  the old header back, and the stripe is read from the image again (`C64_false`). Flushing the metadata device at start-up would close the window.
* Refused submissions: a stripe copy whose submission fails is tried again with the same request id while its entry is still in the ring. The left-over
  write may be executed after the stripe counts as fetched and then undoes an acknowledged and flushed guest write (`C66_false`).
  A guest request that has waited for its stripe and whose submission fails is reported as failed, but its entry stays in the ring too: a write that
  "failed" overwrites its acknowledged successor, and its completion answers the request in the slot (`C69_false`, `C69_false_twice`).
  The vhost front end only logs a failed submit; the requests then wait for the next request of the guest (reading).
* Sources: a second request for a stripe of a remote source loses one (`C34_overlap_loses_a_request`).
* Archives: without a key-encryption key the archive is not protected against tampering (`C23_no_kek`); the XTS tweak is reused between compressed stripes.
  An archive of a volume without written tracking (the default) silently omits guest data in stripes without a source, acknowledged and flushed
  (`C62_false_untracked`; the stripe server handles this case, C36); a stripe marked written before it was fetched is archived from the local disk,
  not as the volume presents it (`C62_false_written_unfetched`); an archive restored with another stripe size is accepted and presents wrong
  contents, for every pair of sizes (`C62_false_other_stripe_size`). A last stripe that is not full is read past the end of the disk (C80).
* Configuration: base64 secret files are cut at 10929 bytes (`C57_base64_rest_dropped`); the path of an archive target is
  not resolved (`C58_target_not_resolved`); `poll_timeout_us = 0` is accepted although the message says otherwise (reading);
  queue sizes above 32768, which io_uring refuses, are accepted (reading); the ublk queue depth 65536 truncates to 0 (reading).
* Tracking: slots at or beyond queue size + 8 are not listed, a flush shows the previous location (`C42_*`).
* Tools: `xts encode --start` sizes the file for the window but writes at absolute sectors (`C53_start_kept`); an empty window
  encodes to a file that `decode` refuses (`C53_empty_window`); `init-metadata` cuts off a source larger than the target (reading).
* Documentation: `allow_unencrypted_disk` is described without its `enabled` switch; a header NOT_FETCHED is described that does not exist (reading).
* Memory handed to the kernel: without the event index a vhost thread is dropped with requests in flight, and their buffers with it (`C87_false_vhost`);
  when a submission fails the ublk handler, the stripe fetcher, the flag writer and the lazy channel give up requests whose entries stay in the ring, and use
  or hand in their memory again (`C87_false_ublk`, `C87_false_fetcher`, `C87_false_flusher`, `C87_false_lazy`); an archiver that fails, and a wait that times
  out, free memory the kernel may still write to (`C87_false_archiver`, `C87_false_waiting`).
* Archives: overwriting an existing archive puts the new `metadata.json` before the new stripe mapping; between the two neither archive can be opened
  (`C71_false`). In a directory a put cut short destroys an object the old archive may share (`C71_false_cut`).
* Archives: a put that is tried again after a timeout takes the completion of the earlier put for its own (`C72_false`), and a get may return what was
  stored before a put that has returned (`C72_false_get`). The code at this commit does not try again.
* Starting: a raw source with `copy_on_read` off (the default) needs its image for ever, also when every stripe has been fetched
  (`C79_image_needed`, `C79_false_fetched_starts`); of the connections made at the start only the first server's metadata are compared with
  the volume's, the others may have stripes of another size (`C79_false_pool`); the stripe server opens the volume for writing although it only
  reads, dump-metadata always opens the image with io_uring (`Program.opens`, `MayAsk`, reading); an archive source on a missing directory creates
  the directory before it fails (`buildStore`, reading); an S3 secret that is not UTF-8 and an empty PSK identity are accepted by the loader and
  fail at the start (`Err.notText`, `Err.credentials`, reading).

* Last stripe: a volume that is not a whole number of stripes and has data in its last stripe cannot be archived with synchronous I/O
  (`C80_sync_refused`, `C80_never_done`) nor served; with io_uring the archive's last stripe ends with data of an earlier stripe
  (`C80_stale_tail`, `C80_false_stale`), on encrypted volumes with that data decrypted once more (`C80_uring_tail`), and an encrypted volume's
  last stripe is served with the decryption of zeros at its end (`C80_false_server_zeros`). It cannot be restored or moved onto a disk of its
  own size: init-metadata succeeds, the backend refuses to start (`C80_rounded_up`, `C80_false_same_size`).

* Vhost event loop: a malformed chain is returned without a signal, so a driver that waits for it sleeps on (`C81_false_bad`); without the event
  index the worker may stop with a request in the channel, which matters when the client disconnects then (`C81_false_idle`); with the event index
  a burst of 65536 chains answered at once (get-id, unsupported or misaligned requests) ends without a signal (`C81_false_wrap`).

* Sessions: the backend survives only some ways in which a client can go. Any error of the vhost-user library other than a disconnect, a partial or invalid message or a broken socket, for instance a request with a bad parameter, ends the whole backend process (`C83_false_protocol`).
* Sessions: the worker waits for events with requests still in the channel when the driver has not negotiated the event index (C81), so the end of a session abandons them. The driver's request is never answered (`C83_false_lost`), or, if the client resumes from the used ring, one request is answered twice and another never (`C83_false_twice`). The abandoned write can also reach the disk after a write by the next client and undo it (`C83_false_late`). (reading) Their buffers are freed while the kernel may still read or fill them; the io_uring channel does not wait for them when dropped.
* Metadata: `cleanup_failed_submission` assumes that a refused submission leaves nothing in the submission queue ("the kernel never received the SQEs, so no completions will arrive"), but io_uring keeps the entries and the next accepted submission hands them over. The answer of the left-over entry is then taken for that of a newer update of the stripe, so a flag is announced that is not on the device (`C84_false_refused_write`, `C84_false_refused_flush`): a stripe counts as fetched, takes guest writes, and is fetched again over them after a restart. The entry's buffer has been given back: after sixteen updates of other sectors it holds another group's headers, which the left-over entry writes over the wrong sector with a valid checksum (`C84_false_misplaced`).
* Archiving a volume in use: nothing locks the files, and the documentation does not say that the backend must be stopped. The archive is not the content at one moment, not even what a power loss could leave: a write can be in it that the guest sent after an earlier one was acknowledged and flushed, and the earlier one not (`C85_false_snapshot`). A stripe whose metadata say written but not yet fetched is read from the disk before the copy is there, so sectors the guest never wrote are recorded as whatever the disk held, zeros for a new disk (`C85_false_half_written`).
* A stripe server on a volume in use works with the metadata of when it was started. A stripe the guest has written since, the write acknowledged, is answered with "no data" (`C86_false_current`); a stripe that was still to be fetched is read from the image for as long as the server runs.
* `docs/remote-stripe.md` says that the server refuses to start unless all source stripes have been fetched. The code does so only if no source is configured; with one it starts and reads such stripes from there (`stripe_server/prepare.rs`, `session.rs:114-135`).
* Power losses: only `init-metadata` syncs what it makes, and not the directory if the file was already there, for instance after a run that
  was stopped (`C89_false_init`) or one given a bare file name (`C89_false_bare`); `archive` into a directory, `export-archive` and `xts` report
  success with nothing synced (`C89_false_archive`, `C89_false_files`).
* RPC: clients that connect and stay idle use up the descriptors of the process; then `accept` fails, the listener ends and removes its socket,
  and nobody can connect again (`C90_false_accept`). A failed thread creation turns a client away without an answer (`C90_false_spawn`).
  Lines have no maximal length (`C90_false_memory`).
* `archive --stats`: if the statistics file cannot be written the command fails although the archive is complete (`C91_false_exit`).
* After a request that timed out and ten dials that failed (a network outage of some two minutes and a half), a worker of the remote stripe source goes on with its old connection. The late answer is then taken for the answer to the next request, and so on: every stripe this worker fetches from then on gets the data of the stripe it fetched before (`C92_false_behind`, `C92_false_late`). No error need be left behind: the request that failed is tried again, and the guest reads one stripe's data in the place of another's (`C92_false_guest`).
* Nothing compares the settings with those of the last run. Writes made while `track_written` is off stay unmarked when it is switched on later, and archives and stripe servers of the volume then leave them out (`C93_false_tracking`).
* `init-metadata` does not look at what the metadata file holds. Run on a volume in use, it succeeds and the image replaces flushed guest data on all stripes of the source (`C94_false_forgets`). Interrupted there, it leaves a mixture of old and new flags, in groups of 508 stripes, that loads without complaint (`C94_mixture`, `C94_false_torn`): the checksums are per sector and nothing ties the sectors together.
* The vhost backend believes the lengths in descriptors before it looks at guest memory: a read of almost 4 GiB into 4096 bytes of guest memory makes it allocate a buffer of that size, one for each such request at once, and it never frees one (`C95_false_released`).
* `queue_size = 65536` is accepted and documented, but the ublk backend casts it to `u16`, which gives a depth of 0 (`C95_false_depth`).
* ublk: when a submission fails, every request in flight is completed with an error, but its tracker entry is not cleared: the RPC server lists it until the tag is used again (`C96_false_submit`).
* vhost: requests in slots from `queue_size + 8` on are counted but not listed; a guest that exceeds the announced limits can have any number of them (`C96_false_beyond`).
* A secret that is not valid base64 is reported with the byte that is wrong and where it is; an environment variable that is not Unicode is reported with its whole value, as `VarError::NotUnicode` shows it (`C97_false_base64`, `C97_false_variable`).
* The report that an encrypted secret is not base64 does not name the secret: `decode` at secrets.rs:164 has no context (`C97_false_unnamed`).
* An error of a library that gets a context is located at error.rs:305, not where it happened (secrets.rs:245 is the location of the context only).
* If no worker's runtime can be built, requests made before the last worker has failed are discarded with the channel and never answered; only later requests are answered with a failure (`C98_false_lost`). `run_worker_loop` only logs that the runtime could not be built.
* Bytes behind the index in its object are not noticed: `from_reader` stops at the end of the first item and neither the tag nor a length covers the rest (`C99_round_trip`). They change nothing that is read.
* An RPC client that never ends its line makes the process hold as much as it sends, and the space a long line took stays taken until the connection closes (`C100_false_rpc`; rpc.rs:162-166, `read_line` without a limit). With lines of at most n bytes it is 8 KiB and twice n (`C100_rpc_partial`). The socket is for the operator, so this matters only if others can reach it.
* The data file and the metadata file of a volume are encrypted with the same key and both count sectors from zero, so an encrypted sector moved from one to the same place in the other decrypts there. Metadata written by a guest to the start of its disk become the volume's metadata if someone copies these sectors of the data file over the metadata file (`C20_across_files`; backends/common/mod.rs:56-65, 499-516).
* Only the configuration file itself is checked for loose permissions, not the files it includes, which may hold inline secrets just as well (`C101_false_included`; load.rs:205, includes.rs:93-101).
* RPC: an array that holds only a string is a request too, `["version"]` (`C102_accepted`; serde's form of a struct without names). A request with two fields named "command" is refused.
* Only `vhost-backend`, `ublk-backend` and `remote-stripe-server` switch core dumps off. `archive`, `export-archive`, `init-metadata`, `dump-metadata`, `xts` and `remote-stripe-shell` resolve the same secrets and do not (`C103_false_tools`).
* With write-through the io_uring engine answers a flush without asking the kernel. Data of a write in flight, seen by a read, can be lost although a later flush succeeded (`C105_flush_does_nothing`). No acknowledged write is lost (`C105_lasts`).
* A driver that accepts neither FLUSH nor CONFIG_WCE (boot firmware, for example) is entitled to write-through by the virtio rules. The backend only logs the accepted features, and unless `write_through` is configured such a driver loses acknowledged writes on a power loss (`C106_false`).
* Stripe shell: a stripe that is only in the image is dumped as zeros, although it was fetched and its data are in memory
  (`C76_false_source`); after a time-out the connection is used on, so that a late reply is taken for the next stripe and its bytes are
  shown as that stripe's (`C76_false_late`).
* Names: a regular file at the path of the device link or of the RPC socket is deleted at start (`C75_false_file`, `C75_false_socket_file`);
  of two backends given one link, the first to end removes the other's (`C75_false_shared`); a kill or a failing `run_target` leaves the link
  (`C75_false_stale`); a file put in the link's place at the wrong moment is deleted (`C75_false_race`).
* Stripe server: anyone who can connect takes the server down for everyone by sending no identity, or one of another length than the
  configured one (`C74_false_crash`: `openssl::memcmp::eq` asserts equal lengths inside a callback called from C); one failing `accept`
  ends it (`C74_false_accept`); an identity with a NUL never works (`C74_nul_identity`).
* Archives: the directory store takes names that begin with a slash or go up out of its directory (`C73_false_outside`), names one object twice
  (`C73_false_alias`), and after a timeout answers with an old result (`C73_false_timeout`). The archiver uses no such names.
* Archives (reading): the archiver's indexing panics if the device has more stripes than the metadata.
* Metadata (reading): the stripe count of the metadata is not compared with the size of the target; a WRITTEN update on a FETCHED header without
  HAS_SOURCE marks the stripe fetched; `init-metadata` given a bare file name fails after creating the file (the parent "" cannot be opened).
* Remote (reading): errors of every kind while dialling are tried again; a panic while connecting ends a worker for good; a source stripe that cannot be
  read is answered with 0xFF and the session is closed; an S3 worker whose runtime cannot be built exits silently.
