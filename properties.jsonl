{"id": "C01", "title": "Metadata save/load round trip", "statement": "Serialising volume metadata into any buffer large enough for it and loading it back returns exactly the same stripe size and the same flag byte for every stripe, whatever follows the metadata in the buffer.", "quantifier": "every stripe-size shift accepted by the loader, every list of stripe flag bytes shorter than 2^32, every sector-multiple buffer at least as large as the metadata", "why_tests_cant": "Tests use a few stripe counts; the claim covers every count (in particular every remainder modulo the 508 headers per sector) and every previous buffer content.", "anchors": ["src/block_device/bdev_lazy/metadata/types.rs:from_bytes", "src/block_device/bdev_lazy/metadata/types.rs:write_to_buf", "src/block_device/bdev_lazy/metadata/types.rs:write_sector_with_crc32"]}
{"id": "C02", "title": "Small metadata corruption is always detected", "statement": "If, in a stored metadata image, one run of at most four consecutive bytes inside one sector in use (payload, checksum or across the two) is changed, loading the image fails; it never returns altered flags.", "quantifier": "every metadata image produced by a save, every sector in use, every position and every replacement of up to four consecutive bytes", "why_tests_cant": "2^32 replacements at each of hundreds of positions for every image; only an argument about CRC-32 covers them.", "anchors": ["src/block_device/bdev_lazy/metadata/types.rs:sector_crc32_is_valid", "src/block_device/bdev_lazy/metadata/types.rs:from_bytes"]}
{"id": "C03", "title": "Loading arbitrary metadata bytes is total and safe", "statement": "Loading any byte string either fails with an error or returns metadata whose stripe size is at most 2^17 sectors, whose number of stripes equals the stored count and fits the buffer; no assertion or index in the loader can fail. Bytes after the sectors in use never influence the result.", "quantifier": "every byte string of every length", "why_tests_cant": "The input space is all byte strings.", "anchors": ["src/block_device/bdev_lazy/metadata/types.rs:from_bytes"]}
{"id": "C04", "title": "Incremental flag updates equal a full save", "statement": "After any sequence of single-stripe flag updates, each written as one metadata sector, the metadata device holds exactly the bytes a full save of the updated metadata would produce, and loads back to it.", "quantifier": "every initial metadata, every sequence of (stripe, new flag byte) updates", "why_tests_cant": "Depends on the whole history of updates and on stripe positions relative to sector boundaries.", "anchors": ["src/block_device/bdev_lazy/metadata_flusher.rs:start_writes", "src/block_device/bdev_lazy/metadata/types.rs:stripe_id_to_sector", "src/block_device/bdev_lazy/metadata/types.rs:write_to_buf"]}
{"id": "C05", "title": "A lazily fetched disk behaves like a plain disk preloaded with the image", "statement": "For every interleaving of guest requests on any number of queues, background fetching, device completions and I/O failures, every response the guest sees (including the data returned by reads) is a response that a plain disk, initially holding the image on the stripes that have a source and the old contents elsewhere, could have given. Where a stripe reaches past the end of the image the plain disk holds some content fixed for the whole history.", "quantifier": "every schedule, every number of queues, every set of guest reads/writes/flushes (except reads answered straight from the image that reach past its end), every pattern of device and source failures", "why_tests_cant": "Schedules and failure patterns are unbounded; a test exercises one interleaving at a time.", "anchors": ["src/block_device/bdev_lazy/device.rs", "src/block_device/bdev_lazy/stripe_fetcher.rs", "src/block_device/bdev_lazy/metadata_flusher.rs", "src/block_device/bdev_lazy/bgworker.rs"]}
{"id": "C06", "title": "Recovery after power loss", "statement": "At every instant, and for every choice of which unflushed sectors survive a power loss on the data and metadata devices, reloading the metadata succeeds and the disk the restarted backend presents is a state that the plain preloaded disk could have after the same power loss: flushed acknowledged writes are there, and un-flushed ones are per-sector either there or not. Holds again after any number of further runs and power losses.", "quantifier": "every schedule, every crash point, every subset of unflushed sectors surviving, any number of consecutive crash epochs", "why_tests_cant": "Crash points times surviving subsets times schedules cannot be enumerated.", "anchors": ["src/block_device/bdev_lazy/metadata_flusher.rs", "src/block_device/bdev_lazy/stripe_fetcher.rs", "src/block_device/bdev_lazy/device.rs", "src/block_device/bdev_lazy/metadata/load.rs"]}
{"id": "C07", "title": "A stripe is treated as local only after its flag and its data are durable", "statement": "Whenever a request is served from the local disk for a stripe that came from the source, the stripe's image data were already durable on the data device and its fetched flag was already durable on the metadata device.", "quantifier": "every reachable state and every crash state of it", "why_tests_cant": "Ordering across two devices and three threads under failures.", "anchors": ["src/block_device/bdev_lazy/stripe_fetcher.rs:poll_fetches", "src/block_device/bdev_lazy/metadata_flusher.rs:poll_channel"]}
{"id": "C08", "title": "Written-tracking never misses a write", "statement": "With written tracking enabled, before any guest write to a stripe is handed to the data device, the stripe's written flag is durable; so after any power loss a stripe whose loaded flags say not written still holds its original (source or initial) contents.", "quantifier": "every schedule, every crash point, with track_written on", "why_tests_cant": "Requires every crash point of every schedule.", "anchors": ["src/block_device/bdev_lazy/device.rs:add_write", "src/block_device/bdev_lazy/device.rs:process_queued_rw_requests", "src/block_device/bdev_lazy/metadata_flusher.rs"]}
{"id": "C09", "title": "Fetching never overwrites guest data", "statement": "No background copy of a stripe is in flight, queued or ever started again once a guest write to that stripe has been handed to the data device.", "quantifier": "every schedule including retries, autofetch, duplicated fetch requests from several queues", "why_tests_cant": "Race between background and guest writers.", "anchors": ["src/block_device/bdev_lazy/stripe_fetcher.rs:handle_fetch_request", "src/block_device/bdev_lazy/device.rs"]}
{"id": "C10", "title": "Each request completes at most once, and only if it was issued", "statement": "For every schedule, the completions reported on a queue form a sub-multiset of the requests issued on it; a request id reported complete was issued and not reported since.", "quantifier": "every schedule, every number of queues, ids may be reused after completion", "why_tests_cant": "Unbounded histories with id reuse.", "anchors": ["src/block_device/bdev_lazy/device.rs:poll", "src/block_device/bdev_lazy/device.rs:process_queued_rw_requests"]}
{"id": "C11", "title": "Bounded retries, then an error instead of wrong data", "statement": "A fetch request leads to at most four reads of the stripe from the source; when all fail the stripe is marked failed, requests that touch it fail, and no request that touches a stripe that is not local is ever served from the local disk.", "quantifier": "every failure pattern of source, target write and target flush", "why_tests_cant": "Failure patterns are unbounded sequences.", "anchors": ["src/block_device/bdev_lazy/stripe_fetcher.rs:fetch_completed", "src/block_device/bdev_lazy/device.rs:request_stripes_fetch_status"]}
{"id": "C12", "title": "At most sixteen concurrent fetches and exclusive buffers", "statement": "At any time at most sixteen stripes are being copied, and no two of them use the same memory buffer; a buffer goes back to the pool exactly when its fetch ends.", "quantifier": "every schedule and failure pattern", "why_tests_cant": "Buffer reuse bugs appear only for particular long failure histories.", "anchors": ["src/block_device/bdev_lazy/stripe_fetcher.rs", "src/utils/aligned_buffer_pool.rs"]}
{"id": "C13", "title": "Metadata updates are serialised per sector and never lost", "statement": "At most one update per metadata sector, and at most sixteen metadata writes in total, are in flight; a failed update of one stripe never clears a durable flag of another stripe, and a flag once visible stays durable for ever.", "quantifier": "every sequence of set-fetched/set-written requests, every failure pattern, every crash state", "why_tests_cant": "Lost-update races between stripes sharing a sector.", "anchors": ["src/block_device/bdev_lazy/metadata_flusher.rs:start_writes", "src/block_device/bdev_lazy/metadata_flusher.rs:poll_channel"]}
{"id": "C14", "title": "The source is dropped only when nothing more is needed from it", "statement": "Once the backend has disconnected from the source, every stripe that has a source is local, and stays local; no later request needs the source.", "quantifier": "every schedule, every initial metadata whose fetched stripes all have a source", "why_tests_cant": "Depends on counters staying in step with per-stripe state over whole histories.", "anchors": ["src/block_device/bdev_lazy/stripe_fetcher.rs:disconnect_from_source_if_all_fetched", "src/block_device/bdev_lazy/metadata/shared_state.rs"]}
{"id": "C15", "title": "Status report is consistent and monotone", "statement": "The reported number of fetched stripes never decreases, never exceeds the number of source stripes, equals the number of source stripes that are local, and the source count is constant.", "quantifier": "every schedule", "why_tests_cant": "Monotonicity over every history.", "anchors": ["src/block_device/bdev_lazy/status_report.rs", "src/block_device/bdev_lazy/metadata/shared_state.rs"]}
{"id": "C16", "title": "Queued requests can always make progress", "statement": "From every reachable state, a request waiting for a stripe can still be completed (success or error) by some continuation.", "quantifier": "every reachable state", "why_tests_cant": "Liveness over all histories, including failed metadata writes.", "anchors": ["src/block_device/bdev_lazy/metadata_flusher.rs:poll_channel", "src/block_device/bdev_lazy/stripe_fetcher.rs:handle_fetch_request", "src/block_device/bdev_lazy/device.rs"]}
{"id": "C17", "title": "Sectors past the end of the image do not expose other stripes", "statement": "When the image ends inside a stripe, the sectors of that stripe beyond the image never show data of other stripes.", "quantifier": "every image length, every schedule", "why_tests_cant": "Depends on which buffer a fetch happens to reuse.", "anchors": ["src/stripe_source/bdev.rs:request", "src/block_device/bdev_lazy/stripe_fetcher.rs:start_write"]}
{"id": "C18", "title": "Queued requests keep their order", "statement": "Requests of one queue that had to wait are handed to the data device in the order in which they were submitted.", "quantifier": "every schedule and queue", "why_tests_cant": "All schedules.", "anchors": ["src/block_device/bdev_lazy/device.rs:process_queued_rw_requests"]}
{"id": "C19", "title": "Encrypted disk round trip", "statement": "Through the encrypting device, a read returns the data last written to each sector, however reads and writes are split into requests, and whatever the order of unrelated requests in flight.", "quantifier": "every sequence of writes and reads of any offsets and lengths, every sector cipher that decrypts what it encrypts under the same sector number", "why_tests_cant": "Partitions of the disk into requests are unbounded.", "anchors": ["src/block_device/bdev_crypt.rs", "src/crypt/block.rs"]}
{"id": "C20", "title": "Only ciphertext under the sector's own number reaches the disk", "statement": "In each file, every sector handed to the underlying device is the encryption of the guest's sector under that sector's number, and two different sectors never share a tweak.", "quantifier": "every write request, all sector numbers below 2^64", "why_tests_cant": "All sector numbers and request splits.", "anchors": ["src/crypt/block.rs", "src/block_device/bdev_crypt.rs"]}
{"id": "C21", "title": "Wrapped keys round trip and malformed blobs are rejected", "statement": "Unwrapping what was wrapped under the same key-encryption key and associated name gives the key back; blobs shorter than nonce plus tag are rejected; keys of the wrong size are never accepted; with no key-encryption key the bytes are used as they are.", "quantifier": "every key, name, nonce, blob length, for every AEAD that opens what it seals", "why_tests_cant": "All lengths and contents.", "anchors": ["src/crypt/key.rs", "src/crypt/block.rs"]}
{"id": "C22", "title": "Archive then restore reproduces the disk", "statement": "Reading back every stripe of a finished archive through the archive source gives the data that was read for that stripe from the disk or its source while archiving, followed by zeros; stripes neither written nor in the source are absent and read as zeros; every stripe written or in the source was read.", "quantifier": "every disk content, stripe count and size, with and without compression and encryption, every completion order of uploads and fetches, every deduplication pattern", "why_tests_cant": "All contents and schedules.", "anchors": ["src/archive/archiver.rs", "src/stripe_source/archive.rs", "src/archive/compression.rs"]}
{"id": "C23", "title": "Tampered archives are rejected, never misread", "statement": "If any object, mapping or metadata of an archive is replaced by arbitrary bytes, a stripe read either fails or returns the archived data, assuming the hash is collision free on the strings involved and the MAC is unforgeable.", "quantifier": "every replacement of every stored object", "why_tests_cant": "All possible stored bytes.", "anchors": ["src/stripe_source/archive.rs:finish_stripe_fetch", "src/archive/stripe_hashes.rs", "src/archive/hmac.rs"]}
{"id": "C24", "title": "An archive's index is published only after all its objects", "statement": "The stripe mapping is stored only after every object it names has been stored successfully, each distinct object is uploaded at most once, and any failed read or upload aborts without publishing an index.", "quantifier": "every completion order and failure pattern, every deduplication pattern", "why_tests_cant": "Schedules and failure patterns.", "anchors": ["src/archive/archiver.rs"]}
{"id": "C25", "title": "The authenticated encoding of archive metadata is unambiguous", "statement": "Two different archive descriptions never produce the same authenticated byte string.", "quantifier": "all versions, stripe sizes, keys of any length below 2^32, compression settings", "why_tests_cant": "All pairs of metadata.", "anchors": ["src/archive/hmac.rs:metadata_hmac_input"]}
{"id": "C26", "title": "Compression framing round trip", "statement": "Adding the size header and padding and removing it gives the compressed bytes back, the framed length is a multiple of the sector size, and a frame whose header exceeds its body is rejected.", "quantifier": "every compressed payload of every length below 2^32, every frame", "why_tests_cant": "All lengths.", "anchors": ["src/archive/compression.rs"]}
{"id": "C27", "title": "No two archived sectors share an encryption tweak", "statement": "Within an archive, each encrypted sector of each distinct stripe and of the mapping is encrypted under a different sector number.", "quantifier": "every archive content and compression setting", "why_tests_cant": "Depends on the compressed size of each stripe.", "anchors": ["src/archive/archiver.rs:start_upload_stripe", "src/archive/stripe_hashes.rs"]}
{"id": "C28", "title": "Archive source answers each request exactly once", "statement": "Every stripe requested from an archive source gets exactly one completion, also when several stripes share one object or the object fails to load.", "quantifier": "every sequence of requests, polls and store completions", "why_tests_cant": "Coalescing races.", "anchors": ["src/stripe_source/archive.rs"]}
{"id": "C29", "title": "Exported file equals the archived disk", "statement": "A successful export writes a file of exactly the archive's size (through its last recorded stripe) whose stripe i holds the source's stripe i (zeros when absent); a failed stripe makes the export fail; at most sixteen fetches are in flight.", "quantifier": "every stripe count, every completion order, every failure pattern", "why_tests_cant": "All orders.", "anchors": ["src/export_archive.rs"]}
{"id": "C30", "title": "Stripe protocol round trip", "statement": "For every server state and every command, the client's decoding of the server's reply gives the server's answer: metadata arrives unchanged, stripe data arrives unchanged, and each failure is reported as what it is (out of range, server error, or stripe not available); metadata larger than the client's 64 MiB limit are refused.", "quantifier": "every metadata, stripe id, stripe content", "why_tests_cant": "All contents and ids.", "anchors": ["src/stripe_server/session.rs", "src/stripe_server/client.rs"]}
{"id": "C31", "title": "What the server sends for a stripe", "statement": "The server answers a read with data exactly when the stripe was written or has source data available, with 'no data' when it has neither, with 'invalid' when out of range, and the data are the volume's current contents of that stripe.", "quantifier": "every metadata, every stripe id in u64, with and without a source", "why_tests_cant": "All flag combinations at every stripe.", "anchors": ["src/stripe_server/session.rs"]}
{"id": "C32", "title": "The server stays in step with any client", "statement": "Fed any byte stream, the server produces exactly one well-formed reply per complete command in order, an unknown opcode costs one byte and one error reply, and a partial command produces nothing.", "quantifier": "every byte string, every split into reads", "why_tests_cant": "All byte streams.", "anchors": ["src/stripe_server/session.rs:handle_requests"]}
{"id": "C33", "title": "Reconnects are bounded and never change geometry", "statement": "A stripe fetch over a failing connection makes at most ten reconnect attempts, gives up at once on an error of the stripe request that is not a transport error, and never returns data from a server whose stripe size or count differs from the original.", "quantifier": "every sequence of connection outcomes", "why_tests_cant": "All outcome sequences.", "anchors": ["src/stripe_source/remote.rs"]}
{"id": "C34", "title": "Remote source delivers or fails, exactly once per request", "statement": "As long as a stripe is not requested again while outstanding, each requested stripe completes exactly once; on success the buffer holds the received bytes followed by zeros; a reply longer than the buffer fails.", "quantifier": "every sequence of requests and worker responses", "why_tests_cant": "All orders.", "anchors": ["src/stripe_source/remote.rs"]}
{"id": "C35", "title": "Legacy metadata translation", "statement": "A v0.2 metadata image is translated so that every stripe is served from where its current data live: stripes with a non-zero header from the disk, others from the image; malformed images are rejected; no index is out of range.", "quantifier": "every byte string and disk size", "why_tests_cant": "All images.", "anchors": ["src/stripe_server/legacy.rs"]}
{"id": "C36", "title": "Migration through a stripe server preserves the disk", "statement": "A new volume initialised from a stripe server and fully fetched, each stripe with the server's answer to the request for it (C92 says when late answers break this), shows the same contents as the served volume on every stripe the server has data for, and no source stripe is missed.", "quantifier": "every served volume state", "why_tests_cant": "Combines three components over all states.", "anchors": ["src/stripe_server/prepare.rs", "src/stripe_server/session.rs", "src/stripe_source/remote.rs", "src/block_device/bdev_lazy/metadata/types.rs:new_from_stripe_source"]}
{"id": "C37", "title": "Guest request parsing respects descriptor directions", "statement": "For every descriptor chain, a parsed read only contains device-writable data buffers, a parsed write only readable ones, the status byte is a device-writable last descriptor; malformed chains are rejected.", "quantifier": "every descriptor chain", "why_tests_cant": "All chains.", "anchors": ["src/backends/vhost/request.rs"]}
{"id": "C38", "title": "Every guest request gets exactly one completion and slots are never shared", "statement": "For every interleaving of new requests and device completions each descriptor chain popped is returned to the guest at most once, each slot in use belongs to exactly one chain, and when the device has completed everything every chain has been returned.", "quantifier": "every sequence of chains and completions", "why_tests_cant": "Unbounded histories.", "anchors": ["src/backends/vhost/backend_thread.rs"]}
{"id": "C39", "title": "Scatter/gather moves exactly the requested bytes", "statement": "A guest read places disk byte i at position i of the concatenated guest buffers and touches nothing else; a guest write sends the concatenation of the guest buffers in order.", "quantifier": "every list of buffer lengths and contents", "why_tests_cant": "All segmentations.", "anchors": ["src/backends/vhost/backend_thread.rs:write_to_guest", "src/backends/vhost/backend_thread.rs:process_write"]}
{"id": "C40", "title": "No guest request can crash the backend", "statement": "No request a guest can put on the queue makes the backend index out of range or underflow.", "quantifier": "every parsed guest request", "why_tests_cant": "All guest inputs.", "anchors": ["src/backends/vhost/backend_thread.rs", "src/block_device/bdev_lazy/device.rs"]}
{"id": "C41", "title": "ublk completes each tag once with the right result", "statement": "Each ublk request is completed exactly once, with the transferred byte count or a negative error, reads copy exactly the requested bytes, and oversized requests are refused.", "quantifier": "every sequence of tags, operations and backend completions", "why_tests_cant": "Histories with tag reuse.", "anchors": ["src/backends/ublk/io_handler.rs"]}
{"id": "C42", "title": "I/O accounting is exact", "statement": "Cumulative counters equal the number and byte totals of operations ever added and never decrease; the snapshot lists exactly the operations added and not yet cleared.", "quantifier": "every sequence of operations on every queue size", "why_tests_cant": "All histories.", "anchors": ["src/backends/common/io_tracking.rs"]}
{"id": "C43", "title": "Config-space reads are exact and zero padded", "statement": "Reading any window of the virtio config space returns the corresponding bytes of the configuration, zero padded to the requested size.", "quantifier": "every offset and size", "why_tests_cant": "All windows.", "anchors": ["src/backends/vhost/backend.rs:get_config"]}
{"id": "C44", "title": "Unsafe settings need two explicit switches", "statement": "A configuration is accepted without disk encryption, without connection PSK, or with a secret read from a regular file, the environment or inline plaintext only if the danger zone is enabled and the matching flag is set; an accepted encrypted configuration has a 64-byte key.", "quantifier": "every configuration", "why_tests_cant": "All combinations of switches and sections.", "anchors": ["src/config/v2/load.rs", "src/config/v2/secrets.rs", "src/config/v2/stripe_source.rs", "src/config/v2/mod.rs"]}
{"id": "C45", "title": "Secret resolution is complete and order independent", "statement": "Resolving named secrets succeeds only if every secret is resolved, each from its own source and its own key-encryption secret; the result does not depend on iteration order; cyclic or missing references are always reported; resolution always terminates.", "quantifier": "every set of secret definitions, every iteration order", "why_tests_cant": "All dependency graphs and hash orders.", "anchors": ["src/config/v2/secrets.rs:resolve_secrets"]}
{"id": "C46", "title": "Includes only add, never override", "statement": "A merged configuration contains exactly the settings of the root and the included files; any setting given twice is rejected; include paths cannot leave the configuration directory; the order of non-conflicting includes does not matter.", "quantifier": "every tree of tables, every list of includes", "why_tests_cant": "All trees.", "anchors": ["src/config/v2/includes.rs"]}
{"id": "C47", "title": "Tuning limits are enforced exactly", "statement": "A tuning section is accepted iff every field is inside its documented range.", "quantifier": "every field value", "why_tests_cant": "All values.", "anchors": ["src/config/v2/tuning.rs"]}
{"id": "C48", "title": "Archive object keys stay under the prefix and never collide", "statement": "Object keys sent to the store always start with the normalised prefix, distinct names give distinct keys, and prefixes that differ only in surrounding slashes are equivalent.", "quantifier": "every prefix and name", "why_tests_cant": "All strings.", "anchors": ["src/archive/s3_store.rs"]}
{"id": "C49", "title": "New metadata marks exactly the stripes the source has", "statement": "Initialising a volume yields one flag byte per stripe of the disk; a stripe is marked as having a source iff the source has it, nothing is marked fetched or written, and the metadata loads back, also after power losses. The metadata file is whole sectors, long enough, never shortened, and closed to other users; initialisation is refused exactly for the documented reasons.", "quantifier": "every disk size, shift, source, prior state of the metadata path, later history without writes to the file", "why_tests_cant": "All sizes.", "anchors": ["src/backends/common/mod.rs:init_metadata", "src/block_device/bdev_lazy/metadata/types.rs:new_from_stripe_source"]}
{"id": "C50", "title": "Buffer pool hands out each buffer once", "statement": "A buffer handed out is not handed out again before it is returned; at most the configured number are out; returning a foreign or free buffer is refused.", "quantifier": "every sequence of get and return", "why_tests_cant": "All histories.", "anchors": ["src/utils/aligned_buffer_pool.rs"]}
{"id": "C51", "title": "Aligned buffers", "statement": "The usable part of an aligned buffer starts at a multiple of the alignment, has the requested length and lies inside the allocation.", "quantifier": "every address, size and power-of-two alignment", "why_tests_cant": "All addresses.", "anchors": ["src/utils/aligned_buffer.rs"]}
{"id": "C52", "title": "Stripe lists printed by the dump tool denote exactly the set", "statement": "The compressed list printed for a set of stripe indices expands back to exactly that set.", "quantifier": "every ascending list of indices", "why_tests_cant": "All sets.", "anchors": ["src/bin/dump-metadata.rs:format_list"]}
{"id": "C53", "title": "Disk image encode/decode tool round trip", "statement": "Decoding the non-empty window [start, start+len) of an image encoded for the same window returns the original plaintext of that window; encoding and decoding are accepted exactly for whole-sector files and windows inside them; an image encoded whole and put behind an encrypted disk reads as the original. (An empty window encodes to an empty file, which decoding refuses.)", "quantifier": "every image, key, start and length", "why_tests_cant": "All windows.", "anchors": ["src/bin/xts.rs"]}
{"id": "C54", "title": "I/O channel over io_uring reports each accepted request once", "statement": "Every request added is reported exactly once when the kernel completes everything it was given; the busy flag is false exactly when nothing is outstanding.", "quantifier": "every sequence of adds, submits, completions; queue sizes", "why_tests_cant": "Histories; also submit errors.", "anchors": ["src/block_device/bdev_uring.rs"]}
{"id": "C55", "title": "RPC answers one line per request", "statement": "Each non-blank request line gets exactly one response line in order; unknown or malformed requests get an error response and do not end the session.", "quantifier": "every sequence of lines", "why_tests_cant": "All inputs.", "anchors": ["src/backends/common/rpc.rs"]}
{"id": "C56", "title": "The device identifies itself as configured", "statement": "A get-id request with a buffer of at least 20 bytes is answered with the configured device id, cut to 20 bytes or padded with zeros, and changes nothing else; a shorter buffer is refused and not written.", "quantifier": "every device id, guest memory and descriptor chain", "why_tests_cant": "All ids, buffers and addresses.", "anchors": ["src/backends/vhost/backend_thread.rs:process_get_device_id"]}
{"id": "C57", "title": "Secrets are never cut", "statement": "A secret read from a file is the whole file (or what its whole base64 text encodes); a file that is too long is refused rather than cut.", "quantifier": "all file contents, lengths and encodings", "why_tests_cant": "the read limit, the decoded limit and the trimming of white space interact only for particular lengths; tests try a few lengths", "anchors": ["src/config/v2/secrets.rs:load_file_source", "src/config/v2/secrets.rs:validate_secret_length"]}
{"id": "C58", "title": "Relative paths mean files next to the configuration", "statement": "Every relative path in a configuration is taken relative to the directory of the configuration file, wherever the program was started.", "quantifier": "every accepted configuration of every kind, every path", "why_tests_cant": "All paths and all sections.", "anchors": ["src/config/v2/load.rs:resolve_path", "src/config/v2/stripe_source.rs:resolve_paths", "src/config/v2/secrets.rs"]}
{"id": "C59", "title": "No setting is silently ignored", "statement": "If a configuration is accepted, every key in the file and its includes is one the program knows for that section and kind of source or storage; a misspelt or misplaced key is an error.", "quantifier": "every configuration, every key at any depth", "why_tests_cant": "All keys at all depths.", "anchors": ["src/config/v2/load.rs", "src/config/v2/mod.rs", "src/config/v2/stripe_source.rs", "src/config/v2/tuning.rs"]}
{"id": "C60", "title": "S3 store answers each operation once and returns what was uploaded", "statement": "Every started upload and download is reported exactly once under its name; a download reports only bytes uploaded under that name, and after a reported upload reports those bytes, whatever the number of workers and the order they finish in.", "quantifier": "every sequence of calls and every schedule of workers, including failing operations", "why_tests_cant": "Thread schedules and failures.", "anchors": ["src/archive/s3_store.rs", "src/archive/s3_store/s3_store_workers.rs"]}
{"id": "C61", "title": "Settings take effect as written", "statement": "In an accepted configuration every value in effect is the one written at its documented key, or the documented default if nothing is written there; secrets referred to exist and have the required sizes.", "quantifier": "every accepted configuration of every kind, every field", "why_tests_cant": "All combinations of fields, sections and includes.", "anchors": ["src/config/v2/mod.rs", "src/config/v2/stripe_source.rs", "src/config/v2/tuning.rs", "src/config/v2/secrets.rs", "src/config/v2/load.rs"]}
{"id": "C62", "title": "Restoring an archive reproduces the disk", "statement": "A volume initialised from an archive and fully fetched reads, in every sector, what the archived volume read when the archive was taken, and zeros where nothing was ever written.", "quantifier": "every archived volume, every compression, encryption and store setting, every order of fetches, any stripe size of the new volume that initialisation accepts", "why_tests_cant": "All contents, sizes and settings; a stripe size differing from the archive's.", "anchors": ["src/archive/archiver.rs", "src/archive/mod.rs", "src/stripe_source/archive.rs", "src/stripe_source/builder.rs", "src/bin/init-metadata.rs"]}
{"id": "C63", "title": "Both I/O engines present the file as one disk", "statement": "Whatever clients of an io_uring or synchronous device observe, on any number of channels and across power losses, they could have observed of a single plain disk with a volatile cache.", "quantifier": "every history of adds, submits, polls, completions in any order, failures and power losses; any number of channels; any queue size", "why_tests_cant": "All interleavings, completion orders and crash points.", "anchors": ["src/block_device/bdev_uring.rs", "src/block_device/bdev_sync.rs"]}
{"id": "C64", "title": "Killing and restarting the backend is harmless", "statement": "If the backend process dies and is started again on the same devices, the guest keeps seeing a plain disk: acknowledged writes are there, acknowledged flushes still protect against later power losses, and only the requests in flight at the death go unanswered.", "quantifier": "every history of requests, fetches, deaths of the process and power losses, in any order", "why_tests_cant": "All points of death combined with all later power losses and all subsets of unflushed sectors that survive.", "anchors": ["src/backends/common/mod.rs", "src/block_device/bdev_lazy/metadata_flusher.rs", "src/block_device/bdev_lazy/metadata/load.rs", "src/block_device/bdev_lazy/device.rs"]}
{"id": "C65", "title": "The assembled volume is a plain disk", "statement": "A volume put together from the real layers - the lazily fetched disk over encrypted or clear devices, each served by the io_uring or the synchronous engine - shows its guest a plain disk with a volatile cache, initially holding the image on the stripes still to be fetched and the decrypted local contents elsewhere; acknowledged and flushed writes survive power losses, and an encrypted device's file is only ever given ciphertext.", "quantifier": "every history of guest requests, background fetches, transfers and completions in any order, failures and power losses, with completions picked up by each layer at any later time; every lawful cipher, either engine per device, any queue size", "why_tests_cant": "All interleavings of four concurrent layers and all crash points; tests exercise the layers one at a time.", "anchors": ["src/backends/common/mod.rs", "src/block_device/bdev_lazy/device.rs", "src/block_device/bdev_lazy/stripe_fetcher.rs", "src/block_device/bdev_lazy/metadata_flusher.rs", "src/block_device/bdev_crypt.rs", "src/block_device/bdev_uring.rs", "src/block_device/bdev_sync.rs"]}
{"id": "C66", "title": "A refused submission of a background fetch is harmless", "statement": "If the kernel refuses a submission while a stripe is being copied in the background, and the copy is tried again, the guest still sees a plain disk: no acknowledged write is undone.", "quantifier": "every history of guest requests, fetches, refused and accepted submissions and power losses, and every time at which an entry left in the ring is executed", "why_tests_cant": "Needs a transient kernel refusal followed by every interleaving of the left-over entry with the retry and with guest writes.", "anchors": ["src/block_device/bdev_lazy/stripe_fetcher.rs", "src/block_device/bdev_uring.rs"]}
{"id": "C67", "title": "What a guest driver sees on its virtqueues is a plain disk", "statement": "A driver that puts well-formed request chains on the queues of a volume sees a plain disk with a volatile cache: a write's data are what its buffers held when the chain was taken, a read returned with status 0 has the disk's data in its buffers in order, an error status means the request failed, and data written and flushed with status 0 are read back after power losses, through the whole volume. Chains that ask for no disk request never reach the volume and are returned at once.", "quantifier": "every number of queues and slots, every content of guest memory and change of it by the guest, every mix of valid and invalid chains whose buffers do not overlap, completions in any order and handled late, failures, unmapped buffers, changes of client, power losses", "why_tests_cant": "All interleavings of several queues with slot reuse and guest memory changes, composed with all behaviours of the layers below.", "anchors": ["src/backends/vhost/backend.rs", "src/backends/vhost/backend_thread.rs: process_queue, poll_io, get_request_slot", "src/backends/vhost/request.rs: Request::parse", "src/backends/common/mod.rs"]}
{"id": "C68", "title": "What the kernel sees through ublk is a plain disk", "statement": "As long as submissions are accepted, the kernel sees a plain disk with a volatile cache on the queues of a ublk device: a write's data are what the tag's buffer held when the request was handed over, a read completed without error has the disk's data in the buffer, an error means the request failed, and data written and flushed without error are read back after power losses, through the whole volume. Unknown operations and transfers above the limit are completed with an error.", "quantifier": "every number of queues and tags, every sequence of operations, sizes and batches, completions in any order and handled late, failures, power losses", "why_tests_cant": "All interleavings of several queues with batches that wait while others are served, composed with all behaviours of the layers below; the real front end needs a kernel device.", "anchors": ["src/backends/ublk/io_handler.rs: handle, enqueue_request, complete_request, process_pending_requests", "src/backends/ublk/mod.rs: serve_ublk_queue, UblkOp::from_raw"]}
{"id": "C69", "title": "A guest request reported as failed stays failed", "statement": "If the kernel refuses the submission of guest requests that have waited for a stripe, they are reported as failed and are not executed later: the guest still sees a plain disk, no acknowledged later write is overwritten by them, and no request is answered twice.", "quantifier": "every history of guest requests, fetches, refused and accepted submissions and power losses, and every time at which an entry left in the ring is executed or completes", "why_tests_cant": "Needs a transient kernel refusal followed by every interleaving of the left-over entry with later requests.", "anchors": ["src/block_device/bdev_lazy/device.rs: process_queued_rw_requests", "src/block_device/bdev_uring.rs: submit"]}
{"id": "C70", "title": "The backend does not spin and comes to rest only with everything answered", "statement": "Since a start of the backend, the number of steps taken by it and its devices is bounded by the size of the image plus an amount proportional to the sizes of the requests issued, whatever fails and however often submissions are refused; so if the guest issues nothing more, work ends. If no metadata update was lost since the start, then when nothing is left to do every request has been answered: under every schedule that goes on until nothing is left, each waiting request gets its answer, and such an end is always within reach.", "quantifier": "every history of the volume up to a start, every interleaving of guest requests, polls, completions, failures, retries and refused submissions after it, every geometry", "why_tests_cant": "Termination under every schedule and every pattern of failures cannot be observed in finitely many runs; a livelock shows only as a test that has not finished yet.", "anchors": ["src/block_device/bdev_lazy/stripe_fetcher.rs: StripeFetcher::update, fetch_completed", "src/block_device/bdev_lazy/metadata_flusher.rs: MetadataFlusher::update", "src/block_device/bdev_lazy/bgworker.rs: BgWorker::run", "src/block_device/bdev_lazy/device.rs: process_queued_rw_requests, poll"]}
{"id": "C71", "title": "Archiving over an existing archive never mixes the two", "statement": "A second archive run into a bucket or directory that holds a finished archive under the same key-encryption key: whatever has been stored when it stops, at any point, opening the place gives an error, or the old archive (each stripe reads as archived then or fails to read), or the new one complete. As long as the new description has not been put, the old archive reads in full from an object store; once the second run has finished, the new archive reads in full.", "quantifier": "every pair of archive runs with every schedule of fetches, puts and failures, every point where the second stops, every cut of the puts then in flight", "why_tests_cant": "The states a stopped second run can leave are as many as its schedules and crash points; a test overwrites an archive only by running to the end.", "anchors": ["src/archive/archiver.rs: StripeArchiver::archive_all, put_metadata, put_stripe_mapping", "src/archive/fs_store.rs: FileSystemStore::start_put_object", "src/stripe_source/archive.rs: ArchiveStripeSource::new"]}
{"id": "C72", "title": "A waiting upload or download reports its own outcome", "statement": "When a waiting upload returns success, the bytes it was given are the ones stored under its name, and they stay until the next upload of that name; a waiting download that returns success gives the bytes stored under its name at that time. Calls for other names, also those that ran out of time, do not matter.", "quantifier": "every sequence of waiting calls on one store, every schedule of its workers, every failure and timeout, every order in which results are delivered", "why_tests_cant": "Results of earlier calls arrive late only under particular delays of the worker threads; a test sees one order.", "anchors": ["src/archive/mod.rs: ArchiveStore::put_object, get_object", "src/archive/s3_store.rs: S3Store", "src/archive/s3_store/s3_store_workers.rs"]}
{"id": "C73", "title": "A directory works as an object store for archives", "statement": "For names that are relative paths of ordinary components, every sequence of waiting puts and gets on a directory is answered as a store of named objects would: a put that reports success has replaced exactly its object, one that reports an error has left it alone or holding a first part of the bytes, a get that reports success gives the object, and nothing outside the directory changes. The names an archive uses are such names and none stands in another's way, so puts that meet no fault succeed; and an archive run into a directory that reports success leaves there an archive that opens with the same key and reads back every stripe.", "quantifier": "every directory tree, every sequence of calls, every fault at every system call, every schedule of the archiver, acts of other programs outside the directory", "why_tests_cant": "Names, tree contents and fault points are unbounded; a test stores a few names in an empty temporary directory.", "anchors": ["src/archive/fs_store.rs: FileSystemStore", "src/archive/mod.rs: ArchiveStore::put_object, get_object", "src/archive/archiver.rs: StripeArchiver::object_key"]}
{"id": "C74", "title": "Only holders of the credentials get service, and each session stands alone", "statement": "A stripe server configured with an identity and a secret writes bytes only to peers that sent exactly that identity and hold that secret; a client with the same credentials, within the library's limits, is admitted. What a session writes depends only on its own requests and the volume, whatever other connections do, and a session left running writes all its answers. A program runs without credentials only if none are configured. Refused peers do not stop the server.", "quantifier": "every set of peers, identities, secrets, request streams, every interleaving of connections and every break of any of them", "why_tests_cant": "A test connects a handful of clients with a few identities; the claim is about every stranger and every interleaving.", "anchors": ["src/stripe_server/psk.rs: PskCredentials, wrap_psk_client_stream, wrap_psk_server_stream, parse_psk_credentials", "src/bin/remote-stripe-server.rs: run", "src/stripe_server/client.rs: connect_to_stripe_server"]}
{"id": "C75", "title": "A backend's socket and device link are its own, tight, and cleaned up", "statement": "A backend changes no names but its RPC socket, its device link, and missing directories above the link. From the moment it exists the socket gives nothing to others, and while the backend runs it is in place with mode 0660, the umask being as before. While the backend serves, its link leads to its device; when it ends the link is gone; and things at the link's path that are not its link are left alone.", "quantifier": "every file system, every number of backends, every interleaving of their system calls and of the Ctrl-C handler, every failing call, kill, and act of other programs", "why_tests_cant": "Interleavings of system calls of several processes and crash points between bind and chmod are not reachable by unit tests.", "anchors": ["src/backends/ublk/mod.rs: serve_ublk, create_device_symlink, remove_device_symlink, handle_ctrlc_shutdown", "src/backends/common/rpc.rs: start_rpc_server", "src/utils/umask_guard.rs: UmaskGuard"]}
{"id": "C76", "title": "What the stripe shell shows is what the volume holds", "statement": "A line of the stripe shell is read as its command and numbers say. Dumping a range of a fetched stripe prints exactly these bytes of the stripe the volume holds, in hexadecimal; a range that leaves the stripe, a stripe outside the volume, and a stripe not yet fetched are refused with the right message. FETCHED is printed exactly when the server has the stripe's data, and the header is shown as it is. No input and no reply of the server makes the shell panic.", "quantifier": "every line, every session history, every volume, every cutting of replies into chunks, every failing read of the server, every late reply", "why_tests_cant": "Histories of commands and the arrival of replies relative to time-outs are unbounded; a unit test would see a few of them, and the shell has none.", "anchors": ["src/bin/remote-stripe-shell.rs: run, parse", "src/stripe_server/client.rs: fetch_stripe"]}
{"id": "C77", "title": "Key material written as text arrives unchanged", "statement": "A text is read as base64 exactly when it is the base64 of some bytes (RFC 4648), and gives these bytes; every string of bytes has exactly one text. The keys and tags of an archive read back as they were written. A secret given as base64 text, with or without white space after it, is what its text means, and every secret of allowed size fits. When an old volume is migrated its configuration is made exactly when its key can be had; the key arrives unchanged as the disk key, encrypted keys are never taken for the disk key when the key file is left out, and data, image and metadata are where the old configuration has them.", "quantifier": "every text, every string of bytes, every configuration of secrets, every legacy configuration and key file", "why_tests_cant": "A single wrong bit in a key makes a disk unreadable; the texts and keys are unbounded in number, and padding and left-over bits make rare cases.", "anchors": ["src/crypt/key_serialization.rs: encode_key, decode_key, encode_optional_key, decode_optional_key", "src/archive/mod.rs: ArchiveMetadata", "src/config/v2/secrets.rs: decode", "src/stripe_server/legacy.rs: load_legacy_config"]}
{"id": "C78", "title": "Code that waits for its requests gets its own answers", "statement": "The tools and the stripe server make device requests one at a time and wait for each with a time limit. However the device orders and splits its work, however completions are spread over polls, and whatever the clock does: if such a piece of code returns without an error, its requests had the effect they have one after the other, every buffer holds what its own request reads, and what ends with a flush is there after a power loss. Also after an error everything handed out before is right. In particular a stripe server sends exactly the stripe asked for, image stripes continued with zeros, and metadata reported as saved read back after any later events.", "quantifier": "every list of requests, every schedule of the device, every spreading of completions over polls, every moment at which the time limit strikes, every failing submit", "why_tests_cant": "Late completions, several completions in one poll and time-outs are schedules a unit test does not produce; taking a stale completion for the current one would hand out unread buffers.", "anchors": ["src/block_device/wait_for_completion.rs: wait_for_completion", "src/stripe_source/wait.rs: wait_for_stripe", "src/stripe_server/session.rs: read_stripe, read_stripe_from_source", "src/block_device/bdev_lazy/metadata/save.rs: save_to_bdev", "src/block_device/bdev_lazy/metadata/load.rs: load_from_bdev", "src/stripe_source/bdev.rs: request"]}
{"id": "C79", "title": "A program works with what its configuration names", "statement": "Whatever the system answers, the backend, the archive tool, the stripe server, init-metadata, dump-metadata and export-archive open, read, create and contact only the files, directories, buckets and servers their configuration names for that purpose, in the configured way: only the volume's data and metadata files are ever opened for writing, archive and dump-metadata open nothing for writing, only init-metadata creates or writes metadata at start, the data and metadata files always have the configured key in front of them and the image never has one, credentials go only to the place they are configured for. A program that gets going has the configured source, with the configured number of connections, or none if nothing is left to fetch. With an accepted configuration no program gives up for lack of a secret or because of its length. A volume with nothing left to fetch starts whatever has become of its source. Retries of the S3 client wait between the minimal delay and that plus the jitter.", "quantifier": "every configuration (accepted by loading, where said), every program, every answer of the system at every step", "why_tests_cant": "The combinations of source, store, encryption, flags and failures at each step are unbounded, and most of the code needs files, buckets and servers that unit tests do not have.", "anchors": ["src/backends/common/mod.rs: BackendEnv::build, build_bdev_lazy, build_block_device, build_raw_image_device, init_metadata", "src/stripe_source/builder.rs", "src/utils/s3.rs", "src/stripe_server/client.rs: connect_to_stripe_server", "src/stripe_server/prepare.rs", "src/bin/archive.rs, dump-metadata.rs, init-metadata.rs", "src/archive/export_archive.rs"]}
{"id": "C80", "title": "A disk need not be a whole number of stripes", "statement": "A volume, an image and a disk may have any number of sectors. Fetching writes, for each stripe of the source, exactly the disk's sectors of that stripe, none past the disk's end, and brings every sector of the image; an image is never read past its end. Archiving and serving a stripe gives the stripe's contents as the volume has them, whatever was done before with the same buffer, and a volume can be archived and restored, or moved through a stripe server, onto a disk of the same size.", "quantifier": "every disk, image and stripe size, every stripe, every buffer contents, both I/O engines, with and without encryption", "why_tests_cant": "The tests use devices that are a whole number of stripes, in memory; the outcome depends on sizes, on the engine's behaviour at the end of a file and on what passed through the buffer before.", "anchors": ["src/block_device/bdev_lazy/stripe_fetcher.rs: start_write", "src/stripe_source/bdev.rs: request", "src/archive/archiver.rs: start_fetch_stripe", "src/stripe_server/session.rs: read_stripe", "src/block_device/bdev_sync.rs: add_read", "src/block_device/bdev_uring.rs: poll", "src/stripe_source/archive.rs, remote.rs: sector_count"]}
{"id": "C81", "title": "Backend and driver never both sleep on unfinished work", "statement": "A request put on a vhost queue is noticed, answered and announced however the driver's and the backend's actions interleave: when the backend waits for a kick and none is due, every request made available has been taken and returned; when at the same time the driver waits for an interrupt and none is due, it has looked at all of them. The backend, left alone, comes back to waiting after a bounded amount of work, and it does not wait with requests left in the I/O channel.", "quantifier": "every interleaving of the driver's and the worker's accesses to the rings and event descriptors, every queue size, any number of requests (indices wrap around), with and without the event index", "why_tests_cant": "Lost wake-ups depend on the exact order in which two processors read and write the rings; tests run one order, and never 65536 requests.", "anchors": ["src/backends/vhost/backend.rs: handle_event", "src/backends/vhost/backend_thread.rs: process_queue, complete_io, complete_bad_chain, poll_io"]}
{"id": "C82", "title": "Exactly the configurations written as documented are accepted", "statement": "A configuration of any of the four kinds (device, archive target, archive to export, stripe server) is accepted if and only if its files are written as documented: the included files exist and do not contradict each other, only documented keys occur, every value is of its kind and in its range, every secret is defined, allowed by the danger zone and resolvable, and the secrets that keys refer to have the sizes their use demands.", "quantifier": "every configuration file, every set of included files, every state of the secret files and environment", "why_tests_cant": "Acceptance depends on the combination of dozens of optional keys spread over any number of files; tests accept a few good configurations and refuse a few bad ones.", "anchors": ["src/config/v2/load.rs: Config::load, load_merged, load_common, validate_top_level_keys", "src/config/v2/stripe_source.rs: validate", "src/config/v2/tuning.rs: validate", "src/config/v2/secrets.rs: parse_secrets, resolve_secrets"]}
{"id": "C83", "title": "Clients come and go without harm to each other or to the data", "statement": "A vhost backend goes on serving after a client disconnects, however the connection ends short of a protocol violation of another kind. A driver that keeps its queue across sessions gets every request answered exactly once, also those made available or in progress around a disconnect; a request of one client is never answered to another; and what a client has written with status 0 later clients read, through any number of changes of client.", "quantifier": "every sequence of sessions and of ways they end, every interleaving of driver, worker and disconnects, every number of queues, chains and memory contents", "why_tests_cant": "The moment of a disconnect relative to the event loop, to requests in the channel and to the signals of either side can be anything, and effects show only sessions later.", "anchors": ["src/backends/vhost/backend_loop.rs: serve_vhost", "src/backends/common/mod.rs: run_backend_loop", "src/backends/vhost/backend.rs: handle_event", "src/backends/vhost/backend_thread.rs: process_queue"]}
{"id": "C84", "title": "Stripe flags are recorded soundly in batches, with reused buffers and refused submissions", "statement": "Whatever updates of stripe flags are requested, however they are batched, carried out, failed or refused at submission, the metadata device at every moment, after a power loss too, shows every flag that was announced or was there from the start, shows no flag that was never asked for, and has valid checksums; other sectors are unchanged. When nothing is under way, every flag asked for is announced unless an error was reported.", "quantifier": "every number of stripes, every history of requests, every batching and order of answers, every I/O failure and refused submission, every power loss", "why_tests_cant": "The kernel reads a buffer when it carries a write out, not when it is queued, and the order of answers, failures and power losses can be anything.", "anchors": ["src/block_device/bdev_lazy/metadata_flusher.rs: start_writes, poll_channel, cleanup_failed_submission", "src/utils/aligned_buffer_pool.rs: AlignedBufferPool", "src/block_device/bdev_uring.rs: submit, poll"]}
{"id": "C85", "title": "An archive of a volume in use records what the volume held", "statement": "The archive tool may be started while a backend serves a guest on the same files: nothing locks them. Whatever the guest and the backend do meanwhile, the metadata load with the volume's stripes; every sector recorded holds what the volume held there at some moment while the tool ran, so a write acknowledged before the tool started is in the archive if nobody overwrites it; stripes left out were untouched at that time. The archive as a whole is the content at one moment.", "quantifier": "every volume, every guest workload before and during the archiving with power losses before it, every interleaving of the tool's reads, sector by sector, with the backend's steps, every sector", "why_tests_cant": "The tool reads metadata and data at times that fall anywhere between the backend's metadata updates, stripe copies and guest writes.", "anchors": ["src/bin/archive.rs: main", "src/archive/archiver.rs: archive_all, fetch_stripe, stripe_should_be_archived", "src/block_device/bdev_lazy/metadata/load.rs: load_from_bdev", "src/block_device/bdev_lazy/metadata_flusher.rs: start_writes"]}
{"id": "C86", "title": "A stripe server on a volume in use sends what the volume held", "statement": "The stripe server may be started on the files of a volume that a backend is serving: nothing locks them. Whatever the guest, the backend and other clients do, an answer with data shows in each sector what the volume held there at some moment since the server was started; \"no data\" is said only of a stripe that had its original content at such a moment, \"invalid\" only of stripes the volume does not have. A write acknowledged before the server started and not overwritten is in the answer. The answer is not older than the request.", "quantifier": "every volume, with or without written tracking, every guest workload before and after the server's start with power losses before it, every number of clients and requests, every interleaving of the server's reads, sector by sector, with the backend's steps", "why_tests_cant": "The server decides by metadata it loaded at one time and reads disk or image at other times, which fall anywhere between the backend's metadata updates, stripe copies and guest writes.", "anchors": ["src/bin/remote-stripe-server.rs: main", "src/stripe_server/session.rs: handle_read_stripe_request, read_stripe, read_stripe_from_source", "src/stripe_server/prepare.rs: prepare_stripe_server", "src/block_device/bdev_lazy/metadata/load.rs: load_from_bdev"]}
{"id": "C87", "title": "Memory handed to the kernel is left alone until the answer", "statement": "A buffer given to a disk channel with a read or write is not read, written, freed or given to another request by the program until that request has been answered; it was allocated and is large enough for the bytes the kernel is told to move; no unanswered request's number is used again. So the kernel never writes to memory the program uses for something else, whatever the order of its work and of the answers. This holds for the guest's requests, for the copying of stripes, the recording of flags, archiving and the tools, with encryption and lazy fetching in between, and for all threads of a volume together.", "quantifier": "every sequence of requests, every order and time of answers, every moment at which the kernel moves bytes of a submitted request, every interleaving of the threads, any number of buffers and any sizes", "why_tests_cant": "The kernel's accesses are invisible to the program and depend on timing; a buffer reused too early corrupts data only if the kernel is late.", "anchors": ["src/block_device/bdev_uring.rs: UringIoChannel", "src/backends/vhost/backend_thread.rs: get_request_slot, put_request_slot, poll_io", "src/backends/ublk/io_handler.rs: process_pending_requests", "src/block_device/bdev_lazy/stripe_fetcher.rs", "src/block_device/bdev_lazy/metadata_flusher.rs", "src/archive/archiver.rs", "src/block_device/bdev_crypt.rs", "src/block_device/bdev_lazy/device.rs", "src/block_device/wait_for_completion.rs"]}
{"id": "C88", "title": "Archiving and exporting come to an end", "statement": "Archiving a volume takes at most three steps per stripe and five more, exporting an archive at most two per stripe and one more, whatever fails; only the store's own work and looks at a store that has not answered are not counted. As long as the command has not returned it can go on, waiting for nothing but reads and uploads that are under way. If nothing goes wrong outside - reads and uploads succeed and the needed objects can be made - it does not fail, a run that cannot go on has made the archive or the file, and from every moment the end can be reached. So a finished archive can always be exported.", "quantifier": "every volume, every number of stripes and buffers (at least one), every order in which reads and uploads finish, every failure, every state reached", "why_tests_cant": "Termination and absence of deadlock under every order of completions; tests run a store that answers at once.", "anchors": ["src/archive/archiver.rs: archive_all_inner, poll_fetches, poll_uploads", "src/archive/mod.rs: put_object", "src/export_archive.rs: export_archive", "src/stripe_source/archive.rs: request, poll"]}
{"id": "C89", "title": "What a command reports as done is still there after a power loss", "statement": "When init-metadata, archive (into a directory), export-archive or xts has reported success, the files it made survive a power loss at any later moment, and no command ever endangers what was safely stored in other files. For init-metadata this holds when it makes the file itself or finds one whose name is safely stored; it fails when an earlier run was stopped after making the file (always so with a bare file name), because the directory is then never synced. The other commands sync nothing: a power loss may leave an archive that does not open, or an exported file that is empty or missing. Once the user has synced the files they survive, and whatever a power loss leaves of an archive, no stripe is read wrongly from it.", "quantifier": "every file system, path, image, archive run with every fault, every point at which the power fails, and every state of the files that the system calls allow after it", "why_tests_cant": "Tests see the page cache; what survives a power loss cannot be observed by running the commands.", "anchors": ["src/backends/common/mod.rs: init_metadata, ensure_metadata_file", "src/block_device/bdev_lazy/metadata/save.rs: save_to_bdev", "src/archive/fs_store.rs: try_put_object", "src/export_archive.rs: export_archive", "src/bin/xts.rs: decode, encode"]}
{"id": "C90", "title": "The RPC server serves every client, whatever the others do", "statement": "Any number of clients may be connected to the RPC socket and send requests in any interleaving: each client that is served gets exactly the answers it would get as the only client, no other client and not even the end of the listener disturbs or delays it, and the server goes on accepting new clients. The last part holds while fewer clients are connected than the process has free descriptors and accept does not fail otherwise; it is false in general: as many idle clients as there are free descriptors end the RPC server for good, and a client for which no thread can be made is turned away without an answer.", "quantifier": "every number of clients, everything they send, every interleaving, every failure of accept, thread creation, reading and writing", "why_tests_cant": "Tests use one or a few clients and one schedule and never run out of descriptors or threads.", "anchors": ["src/backends/common/rpc.rs: run_listener, handle_client, send_response"]}
{"id": "C91", "title": "The archive command reports the size of the archive, and success exactly when it is complete", "statement": "The physical size in the statistics is the total size of the objects that make up the archive (metadata.json, stripe-mapping and the data objects the mapping names, each counted once however many stripes share it), the logical size is the size of the device, statistics are written only for a complete archive, and the command succeeds exactly when the archive is complete. The last part is false when the statistics file cannot be written: the archive is complete and the command fails.", "quantifier": "every device, metadata, store, interleaving of fetches and uploads with every fault, and every outcome of writing the statistics", "why_tests_cant": "Tests archive a few stripes in one order; shared objects, failures and interleavings are unbounded.", "anchors": ["src/archive/archiver.rs: physical_size_bytes, start_upload_stripe, put_metadata, put_stripe_mapping", "src/bin/archive.rs: run"]}
{"id": "C92", "title": "A stripe from a stripe server is the stripe that was asked for", "statement": "Whatever the network delays, breaks and delivers late: if a request for a stripe through the remote stripe source is answered with data, these are the data of that stripe of the served volume, and if it is answered with an error of the server, this error is about that stripe. False: a worker whose request got no answer in time and whose dials all failed keeps its old connection, and once the network is back every later request to this worker is answered with the stripe asked for before.", "quantifier": "every served volume, list of requests, delay of every byte, failed write and failed dial", "why_tests_cant": "The answers that arrive late, and when connections break, are unbounded; tests use a mock or an undisturbed connection.", "anchors": ["src/stripe_source/remote.rs: fetch_with_reconnect, RemoteStripeSource::new", "src/stripe_server/client.rs: fetch_stripe, connect_to_stripe_server"]}
{"id": "C93", "title": "Settings may be changed between runs", "statement": "If the backend is started on a volume with different settings each time (another kind of source for the same image or none at all, autofetch, copy_on_read, track_written on or off), the guests see one and the same plain disk, the volume can always be started, and a stripe not marked as written still has its original content. Without the source, requests for stripes that were not fetched yet are never answered with success and stay to be fetched. False for power losses as in C64, and for the flags: writes made while tracking is off stay unmarked when it is switched on later.", "quantifier": "every volume, history of requests, power losses and deaths of the process, and settings of every start", "why_tests_cant": "The combinations of settings over a sequence of starts, and the states in which each start finds the volume, are unbounded; tests start with one configuration.", "anchors": ["src/backends/common/mod.rs: BackendEnv::build, build_raw_image_device", "src/stripe_source/builder.rs: StripeSourceBuilder::build", "src/block_device/bdev_lazy/metadata/types.rs: UbiMetadata"]}
{"id": "C94", "title": "Initialising a volume is all or nothing, and starts it from its image", "statement": "If init-metadata is interrupted at any point by a power loss or the death of the process, the next start of the volume either refuses the metadata or finds exactly those that were to be written. Once it has finished, the volume can be started and its guests see a plain disk with the image on the stripes of the source and the contents of the data file elsewhere. Nothing the guest wrote is lost by running it again. False for a volume that was initialised before: an interruption then leaves an unnoticed mixture of old and new flags, and a finished run puts the image back over flushed guest data.", "quantifier": "every set-up, stripe size, previous content of the metadata file, point of interruption, subset of sectors that survive, and run of the volume afterwards", "why_tests_cant": "The subsets of sectors that survive a torn write are exponentially many, and the later runs unbounded; tests initialise a fresh file without interruption.", "anchors": ["src/backends/common/mod.rs: init_metadata, ensure_metadata_file", "src/block_device/bdev_lazy/metadata/save.rs: save_to_bdev", "src/block_device/bdev_lazy/metadata/load.rs: load_from_bdev"]}
{"id": "C95", "title": "The front ends are as large as the configuration says", "statement": "With an accepted tuning section the vhost-user backend announces num_queues queues and serves each by exactly one thread, pinned once to the CPU listed for it; the ublk device has the configured number of queues, depth, buffer size and the size of the volume. The memory a backend thread holds for guest data is queue_size times seg_count_max times seg_size_max, whatever the guest does. False of guests that exceed the announced limits: they make the backend allocate without bound, and it keeps the memory after every request is answered. False of ublk with queue_size 65536: the depth asked for is zero.", "quantifier": "every accepted tuning section, guest memory and behaviour, schedule and length of run", "why_tests_cant": "Guest histories are unbounded, and the sizes range over all combinations of settings; tests use one small configuration.", "anchors": ["src/backends/vhost/backend.rs: new, maybe_pin_cpu, num_queues, max_queue_size, queues_per_thread", "src/backends/vhost/backend_thread.rs: new, get_request_slot, pin_to_cpu", "src/backends/ublk/mod.rs: serve_ublk"]}
{"id": "C96", "title": "The RPC server's account of a queue is what the guest has in flight", "statement": "At every moment the RPC server lists, for each queue, exactly the requests that were passed to the disk and have not been answered to the guest, each once, with kind, first sector and length as the guest asked; its totals count each request passed to the disk once, and none that was refused. False of vhost guests that exceed the announced limits: what lies beyond queue_size + 8 slots is not listed. False of ublk after a failed submission: requests that were completed with an error stay listed.", "quantifier": "every accepted tuning section, guest behaviour, memory contents, order of completions and length of run, both front ends, with and without failing submissions", "why_tests_cant": "The list depends on the whole history of slot reuse; tests look at the tracker alone or at one request.", "anchors": ["src/backends/common/io_tracking.rs: IoTracker", "src/backends/vhost/backend_thread.rs: process_read, process_write, process_flush, put_request_slot, poll_io", "src/backends/ublk/io_handler.rs: enqueue_request, process_pending_requests"]}
{"id": "C97", "title": "An error report tells the whole story and quotes no secret", "statement": "The report of an error shows every context that was added on its way up, the newest first, and then the cause, each with the source line where it happened, one per line, and the error can be read back from it; adding a context leaves the rest of the report as it was. A report that secrets cannot be resolved is made of the public part of the configuration only (names, paths, variable names, kinds of failure) and names the secret it is about; what is printed for debugging of resolved secrets, PSK credentials and keys does not depend on the secret bytes. False of messages with line breaks, which can look like further contexts. False of secrets in base64 and of environment variables that are not Unicode, of which the report shows a part or all. An encrypted secret that is not base64 is not named. The derived debug output of an inline secret's definition shows it.", "quantifier": "every error, message, number of contexts; every configuration of secrets, danger zone, file system, environment and value of the secrets", "why_tests_cant": "Tests format a few errors and check that a known secret is absent; that no secret can influence a report is about all pairs of secrets.", "anchors": ["src/error.rs: UbiblkError, ErrorMeta, ResultExt", "crates/ubiblk-macros/src/lib.rs: error_context", "src/config/v2/secrets.rs: resolve_secrets, maybe_resolve_secret", "src/crypt/key.rs: aes256gcm_decrypt, Debug for KeyEncryptionCipher", "src/stripe_server/psk.rs: Debug for PskCredentials", "src/crypt/block.rs: Debug for XtsBlockCipher"]}
{"id": "C98", "title": "The S3 store's workers keep to the connection limit, the order and the drop", "statement": "At no moment has an S3 archive store more requests at S3 than the configured number of connections (at least 1, at most 128). Requests are begun in the order in which they were made, each once. Whatever the workers' schedule, the store's answers and the bucket are as C60 says: no answer without its request and none twice, downloads give what was stored, a reported upload is stored. Dropping the store returns, and when it has, no request of the store is at S3 and every request it took has been carried out, if at least one worker started; if no worker is left further requests are answered with a failure. Every request can be answered, if at least one worker started. False otherwise: a request made before the last worker's runtime fails to start is lost and never answered.", "quantifier": "every number of connections, bucket, sequence of requests and polls, schedule of the workers, outcome of each request and of each worker's start, moment of the drop", "why_tests_cant": "Tests use a mocked client with one schedule; limits, order and the drop's promise are about all interleavings of up to 128 threads.", "anchors": ["src/archive/s3_store.rs: S3Store, drain_results, Drop for S3Store, start_put_object, start_get_object, poll_puts, poll_gets", "src/archive/s3_store/s3_store_workers.rs: spawn_workers, run_worker_loop, process_request"]}
{"id": "C99", "title": "The bytes of an archive's description and index", "statement": "The description of a finished archive is a JSON object of its six fields (version 1, the stripe size, the compression and a key just when there is one), keys and tag in base64. Its index is CBOR in the shortest form: the outer map of five fields, and inside, encrypted if there is a key, a map from stripe numbers to \"Zero\" or to the hash of the object. What is written is read back; the index whatever follows it, the description only if white space follows. No two are written alike, none is the beginning of another, and a document cut short anywhere is not read. What is read fits its types. The index of n stripes has at most 9+49n bytes. So the guarantees of C22 and C71 hold with nothing assumed about formats.", "quantifier": "every description, index, number of stripes below 2^58, bytes behind a document, place of the cut, run of the archiver", "why_tests_cant": "Tests round-trip a handful of documents; that no document is the prefix of another, and that every archive is written in the stated format, is about all of them.", "anchors": ["src/archive/mod.rs: ArchiveMetadata, ArchiveCompressionAlgorithm", "src/archive/stripe_hashes.rs: StripeMappingFile, StripeContentSpecifier, cbor_to_vec, cbor_from_slice, serialize_stripe_mapping", "src/archive/bytes32.rs: serialize, deserialize", "src/stripe_source/archive.rs: fetch_metadata"]}
{"id": "C100", "title": "What a peer can make a process hold", "statement": "A peer cannot make a ubiblk process hold memory at will. Whatever a stripe server sends while a client connects, the client makes buffers of at most 128 MiB and 14 bytes, and keeps at most 64 MiB of stripe flags; whatever it answers to a request for a stripe, at most 64 MiB and 18 bytes, since an announced size is not believed. A remote stripe source holds at most one stripe for each stripe that was asked for and not yet reported. A request to the stripe server makes it hold at most nine bytes and the larger of its own metadata and one stripe. Of an archive nothing is decompressed that the index does not vouch for. A connection to the RPC socket makes the process hold no more than a fixed number of bytes.", "quantifier": "every sequence of bytes a peer sends and every way it is cut into pieces, every run of a source, every served volume, every archive", "why_tests_cant": "A test sends a few malformed messages; the bound is for all of them.", "anchors": ["src/stripe_server/client.rs: fetch_metadata, hello, fetch_stripe", "src/stripe_server/session.rs: handle_single_request, handle_read_stripe_request", "src/block_device/bdev_lazy/metadata/types.rs: from_bytes", "src/backends/common/rpc.rs: handle_client"]}
{"id": "C101", "title": "What loading a configuration warns about", "statement": "Loading a configuration of any kind tells the operator about settings that do not do what they seem to, and changes nothing by it. A switch is reported as ignored only if the files set it and do not enable the danger zone, and in an accepted configuration every such switch is reported, once. Switches that are ignored have no effect: two configurations that differ only in them are refused for the same reason or accepted with the same settings and secrets. If someone other than the owner may access a file of the configuration there is a warning with its permissions, and otherwise not. No warning makes loading fail.", "quantifier": "every configuration of the four kinds with its included files and secrets, every mode of a file", "why_tests_cant": "That a switch has no effect is about all other settings it could be combined with; tests try each flag in one document.", "anchors": ["src/config/v2/mod.rs: DangerZone::ignored_flags, warn_ignored_flags", "src/config/v2/load.rs: load_root_toml, warn_if_loose_permissions, load_common"]}
{"id": "C102", "title": "Which lines the RPC server takes as requests", "statement": "A line is taken as a request for a command exactly when it is a JSON object with one field named \"command\" whose value is that string, or an array of that string alone. The spelling does not matter: white space, escapes, surrogate pairs, the order of the fields and any other fields of any depth. Whatever lines of text a client sends, each request is answered with the answer to its command and any other line that is not blank with an error, in their order. No line asks for two commands, and every command can be asked for.", "quantifier": "every text, every command, every sequence of lines and state of the backend", "why_tests_cant": "The grammar of JSON has infinitely many spellings of each request and values of any depth in fields the server does not know; tests send one spelling.", "anchors": ["src/backends/common/rpc.rs: RpcRequest, handle_client"]}
{"id": "C103", "title": "Secrets do not reach core dumps", "statement": "However a program dies, at any moment, the kernel writes no core dump with keys or other secrets in it. If the program cannot arrange that, it says so before it reads a secret.", "quantifier": "every program of the project, every moment of a run, every result of the two system calls, every inherited limit, dumps written as files or piped to a program", "why_tests_cant": "A test checks that the two settings are made once; that secrets are never in memory before, in any of the programs, is about all moments of all of them.", "anchors": ["src/utils/security.rs: disable_core_dumps", "src/bin/vhost-backend.rs, src/bin/ublk-backend.rs, src/bin/remote-stripe-server.rs, src/bin/archive.rs, src/bin/export-archive.rs, src/bin/init-metadata.rs, src/bin/dump-metadata.rs, src/bin/xts.rs, src/bin/remote-stripe-shell.rs: main, run"]}
{"id": "C104", "title": "The metadata dump of a volume in use can be relied on", "statement": "Run on a volume whose backend is serving a guest, the dump tool always prints its lists. A stripe listed as fetched is complete on the data device; a stripe complete before the tool was started is listed; a stripe with a source that is not listed showed the image at some moment while the tool ran. With written tracking, a stripe written before the tool was started is listed as written, and one not listed held its original contents at some moment while it ran. The has-source list is exact.", "quantifier": "every volume, every history of requests, fetches, restarts and power losses before the tool is started, every interleaving of the backend with the tool's reads of metadata sectors", "why_tests_cant": "The tool's read is not atomic: each sector may be from another moment, and tests dump volumes at rest.", "anchors": ["src/bin/dump-metadata.rs: run", "src/block_device/bdev_lazy/metadata/load.rs: load_from_bdev", "src/block_device/bdev_lazy/metadata_flusher.rs"]}
{"id": "C105", "title": "With write-through, an acknowledged write needs no flush", "statement": "On a device opened for write-through, with either I/O engine, a write that was answered with success is still there after any number of power losses, with no flush: as long as nobody writes the sector again, every successful read returns its data. Apart from that the device behaves as one disk, whatever the number of channels.", "quantifier": "every history of requests on any number of channels, every order of submission, transfer and completion, every failure and every power loss", "why_tests_cant": "A test cannot cut the power at every moment, nor try all interleavings of channels.", "anchors": ["src/block_device/bdev_uring.rs: UringIoChannel::new, add_flush, add_write, poll, UringBlockDevice::new", "src/block_device/bdev_sync.rs: SyncIoChannel::new, add_write, add_flush, SyncBlockDevice::new"]}
{"id": "C106", "title": "The cache mode the driver is told is the one it gets", "statement": "A driver of a vhost-user volume that goes by the cache mode virtio defines (the writeback field if it accepted CONFIG_WCE, a cache if it accepted only FLUSH, none if it accepted neither) finds its data after any power loss: acknowledged writes in write-through mode, acknowledged and flushed writes otherwise.", "quantifier": "every configuration, every set of accepted features, both I/O engines, every history of requests, failures and power losses", "why_tests_cant": "It ties the announced configuration to the data that survive at every crash point of every history.", "anchors": ["src/backends/vhost/backend.rs: UbiBlkBackend::new, features, acked_features, get_config", "src/backends/common/mod.rs: create_io_engine_device, build_block_device", "src/block_device/bdev_uring.rs: UringIoChannel", "src/block_device/bdev_sync.rs: SyncIoChannel"]}
{"id": "C107", "title": "A fully fetched volume needs its source no more", "statement": "Once the metadata mark every stripe that has a source as fetched, the volume never reads its source again, in that run or after any power loss: it is a plain disk with its local contents, and it behaves in the same way whatever the source holds, however large it is, whether it exists and whether background fetching is on. Once every such stripe is announced as fetched, every later start finds such metadata. The placeholder the backend then puts in the source's place holds no stripe and accepts no request.", "quantifier": "every volume and metadata with all stripes fetched, every history of guest requests, background work, failures and power losses, every content of the source, every stripe number", "why_tests_cant": "It compares all executions with one source to all executions with another, power losses included.", "anchors": ["src/stripe_source/builder.rs: StripeSourceBuilder::build", "src/block_device/bdev_null.rs: NullBlockDevice, NullIoChannel", "src/stripe_source/bdev.rs: BlockDeviceStripeSource::request, has_stripe", "src/block_device/bdev_lazy/device.rs: LazyIoChannel", "src/block_device/bdev_lazy/stripe_fetcher.rs: StripeFetcher"]}
