{
 "claims": [
  {
   "property": "C01",
   "status": "proved",
   "theorems": [
    "Verif.Metadata.C01_save_load"
   ],
   "note": ""
  },
  {
   "property": "C02",
   "status": "proved",
   "theorems": [
    "Verif.Metadata.C02_burst_detected"
   ],
   "note": ""
  },
  {
   "property": "C03",
   "status": "proved",
   "theorems": [
    "Verif.Metadata.C03_load_total"
   ],
   "note": ""
  },
  {
   "property": "C04",
   "status": "proved",
   "theorems": [
    "Verif.Metadata.C04_incremental_eq_full"
   ],
   "note": ""
  },
  {
   "property": "C05",
   "status": "proved",
   "theorems": [
    "Verif.Lazy.C05_refines_plain_disk",
    "Verif.Lazy.C05_refines_whole_image",
    "Verif.Lazy.C05_read_unwritten",
    "Verif.Lazy.C05_reads_agree",
    "Verif.Lazy.C05_read_after_write"
   ],
   "note": "Guest sees a trace of the plain preloaded disk, with any number of power losses; requests are non-empty and inside the disk. Past the end of the image the plain disk holds some fixed content; the only requests left out are reads answered straight from the image that reach past its end."
  },
  {
   "property": "C06",
   "status": "proved",
   "theorems": [
    "Verif.Lazy.C06_reload",
    "Verif.Lazy.C06_recovery",
    "Verif.Lazy.C06_flushed_survives"
   ],
   "note": ""
  },
  {
   "property": "C07",
   "status": "proved",
   "theorems": [
    "Verif.Lazy.C07_local_only_when_durable"
   ],
   "note": ""
  },
  {
   "property": "C08",
   "status": "proved",
   "theorems": [
    "Verif.Lazy.C08_written_before_data",
    "Verif.Lazy.C08_unwritten_is_original",
    "Verif.Lazy.C08_acknowledged_is_marked"
   ],
   "note": ""
  },
  {
   "property": "C09",
   "status": "proved",
   "theorems": [
    "Verif.Lazy.C09_no_copy_after_guest"
   ],
   "note": "Proved for every request handed to the data device, not only writes."
  },
  {
   "property": "C10",
   "status": "proved",
   "theorems": [
    "Verif.Lazy.C10_completes_once"
   ],
   "note": ""
  },
  {
   "property": "C11",
   "status": "proved",
   "theorems": [
    "Verif.Lazy.C11_bounded_retries",
    "Verif.Lazy.C11_given_up_is_failed",
    "Verif.Lazy.C11_failed_stripe_fails",
    "Verif.Lazy.C11_error_reported",
    "Verif.Lazy.C11_served_only_local"
   ],
   "note": ""
  },
  {
   "property": "C12",
   "status": "proved",
   "theorems": [
    "Verif.Lazy.C12_sixteen_exclusive_buffers"
   ],
   "note": ""
  },
  {
   "property": "C13",
   "status": "proved",
   "theorems": [
    "Verif.Lazy.C13_updates_serialised",
    "Verif.Lazy.C13_flags_stay"
   ],
   "note": "The bound of sixteen is on metadata writes; updates whose flush is in flight hold no buffer and are not bounded."
  },
  {
   "property": "C14",
   "status": "proved",
   "theorems": [
    "Verif.Lazy.C14_disconnect"
   ],
   "note": "Initial metadata mark as fetched only stripes with a source, as formatting and the flusher leave them."
  },
  {
   "property": "C15",
   "status": "proved",
   "theorems": [
    "Verif.Lazy.C15_status_monotone"
   ],
   "note": "Same hypothesis on the initial metadata as C14."
  },
  {
   "property": "C16",
   "status": "partial",
   "theorems": [
    "Verif.Lazy.C16_request_can_be_answered_partial",
    "Verif.Lazy.C16_lost_update_blocks",
    "Verif.Lazy.C16_false"
   ],
   "note": "The full claim is false: after a failed FETCHED update the stripe stays unfetched until restart and blocks its queue, for every such failure (C16_lost_update_blocks, C16_false). Proved: without lost metadata updates since the last start, some continuation answers every waiting request."
  },
  {
   "property": "C17",
   "status": "partial",
   "theorems": [
    "Verif.Lazy.C17_tail_origin_partial",
    "Verif.Lazy.C17_tail_origin_plain_partial",
    "Verif.Lazy.C17_tail_clean_partial",
    "Verif.Lazy.C17_false"
   ],
   "note": "The full claim is false: a raw image that ends inside a stripe leaves the tail of the pooled buffer as an earlier stripe left it (C17_false). Proved: the tail only ever shows its old local contents, what the guest itself wrote there, initial buffer contents or image data of the same offset in some stripe (or, on an encrypted volume, ciphertext of such a value); and the full claim when the image has nothing else at those offsets."
  },
  {
   "property": "C18",
   "status": "proved",
   "theorems": [
    "Verif.Lazy.C18_fifo",
    "Verif.Lazy.C18_unwait_is_service"
   ],
   "note": ""
  },
  {
   "property": "C19",
   "status": "proved",
   "theorems": [
    "Verif.Crypt.C19_refines_plain_disk",
    "Verif.Crypt.C19_read_after_write",
    "Verif.Crypt.C19_total",
    "Verif.Crypt.C19_composes"
   ],
   "note": "AES-256-XTS is a parameter: inverse permutations of 512-byte sectors for fixed keys and tweak."
  },
  {
   "property": "C20",
   "status": "proved",
   "theorems": [
    "Verif.Crypt.C20_ciphertext",
    "Verif.Crypt.C20_tweaks_distinct",
    "Verif.Crypt.C20_only_ciphertext_at_rest",
    "Verif.Assemble.C20_across_files"
   ],
   "note": "Per file, as stated. Between the data file and the metadata file of a volume it does not hold: they share keys and sector numbers (C20_across_files)."
  },
  {
   "property": "C21",
   "status": "proved",
   "theorems": [
    "Verif.Crypt.C21_unwrap_wrap",
    "Verif.Crypt.C21_disk_key",
    "Verif.Crypt.C21_rejects",
    "Verif.Crypt.C21_key_size",
    "Verif.Crypt.C21_no_kek"
   ],
   "note": "AES-256-GCM is a parameter: open inverts seal, tag of 16 bytes."
  },
  {
   "property": "C22",
   "status": "proved",
   "theorems": [
    "Verif.Archive.C22_restore",
    "Verif.Archive.C22_which"
   ],
   "note": "Every finished run of the archiver, every store history; hypotheses: library laws, key sizes fixed by types, no hash collision among the archive's own objects. The data is what was fetched for the stripe (for a raw source shorter than its last stripe the fetch buffer's tail is stale; see DESIGN.md)."
  },
  {
   "property": "C23",
   "status": "proved",
   "theorems": [
    "Verif.Archive.C23_tamper",
    "Verif.Archive.C23_no_kek"
   ],
   "note": "Adversary replaces any stored bytes; unforgeability, sealing and collision freedom are stated for the bytes actually stored. C23_no_kek shows the sealing hypothesis is needed: without a KEK another archive is accepted."
  },
  {
   "property": "C24",
   "status": "proved",
   "theorems": [
    "Verif.Archive.C24_uploaded_once",
    "Verif.Archive.C24_index_last",
    "Verif.Archive.C24_failure_aborts"
   ],
   "note": ""
  },
  {
   "property": "C25",
   "status": "proved",
   "theorems": [
    "Verif.Archive.C25_metadata_injective",
    "Verif.Archive.C25_mapping_injective"
   ],
   "note": ""
  },
  {
   "property": "C26",
   "status": "proved",
   "theorems": [
    "Verif.Archive.C26_frame_round_trip",
    "Verif.Archive.C26_frame_total",
    "Verif.Archive.C26_unframe_iff",
    "Verif.Archive.C26_decompress_compress"
   ],
   "note": ""
  },
  {
   "property": "C27",
   "status": "partial",
   "theorems": [
    "Verif.Archive.C27_tweaks_distinct_partial",
    "Verif.Archive.C27_uncompressed_partial",
    "Verif.Archive.C27_false_with_compression",
    "Verif.Archive.object_tweaks",
    "Verif.Archive.mapping_tweaks"
   ],
   "note": "False of the code with compression: for every lossless compressor some stripe contents make two objects share a sector number (proved). Holds without compression, or whenever no compressed object exceeds a stripe (proved)."
  },
  {
   "property": "C28",
   "status": "proved",
   "theorems": [
    "Verif.Archive.C28_exactly_once",
    "Verif.Archive.C28_drains",
    "Verif.Archive.C28_contents",
    "Verif.Archive.C28_served"
   ],
   "note": ""
  },
  {
   "property": "C29",
   "status": "proved",
   "theorems": [
    "Verif.Archive.C29_export",
    "Verif.Archive.C29_sixteen",
    "Verif.Archive.C29_failure",
    "Verif.Archive.C29_archive_export"
   ],
   "note": "The size is that of the archive: through its last recorded stripe."
  },
  {
   "property": "C30",
   "status": "proved",
   "theorems": [
    "Verif.Remote.C30_fetch_decodes",
    "Verif.Remote.C30_conversation",
    "Verif.Remote.C30_errors_distinct",
    "Verif.Remote.C30_large_metadata_refused",
    "Verif.Remote.C30_version",
    "Verif.Remote.C30_cut"
   ],
   "note": "'No data' and 'not fetched' both decode to 'unavailable'; metadata above the client's 64 MiB limit are refused (both in the statement)."
  },
  {
   "property": "C31",
   "status": "proved",
   "theorems": [
    "Verif.Remote.C31_answer",
    "Verif.Remote.C31_failure",
    "Verif.Remote.C31_data_iff",
    "Verif.Remote.C31_sector"
   ],
   "note": ""
  },
  {
   "property": "C32",
   "status": "proved",
   "theorems": [
    "Verif.Remote.C32_in_step",
    "Verif.Remote.C32_chunks",
    "Verif.Remote.C32_incomplete_ignored",
    "Verif.Remote.C32_unknown"
   ],
   "note": ""
  },
  {
   "property": "C33",
   "status": "proved",
   "theorems": [
    "Verif.Remote.C33_result",
    "Verif.Remote.C33_bounded",
    "Verif.Remote.C33_geometry",
    "Verif.Remote.C33_kept_connection",
    "Verif.Remote.C33_permanent"
   ],
   "note": ""
  },
  {
   "property": "C34",
   "status": "proved",
   "theorems": [
    "Verif.Remote.C34_exactly_once",
    "Verif.Remote.C34_not_stuck",
    "Verif.Remote.C34_drains",
    "Verif.Remote.C34_delivered",
    "Verif.Remote.C34_overlap_loses_a_request"
   ],
   "note": "For users that do not request a stripe again while it is outstanding, as both users of the source; without that a request is lost (proved)."
  },
  {
   "property": "C35",
   "status": "proved",
   "theorems": [
    "Verif.Remote.C35_translation",
    "Verif.Remote.C35_served",
    "Verif.Remote.C35_current_not_legacy",
    "Verif.Remote.C35_legacy_iff",
    "Verif.Remote.C35_image_needed",
    "Verif.Remote.C35_keys",
    "Verif.Remote.C35_key_round_trip"
   ],
   "note": "A legacy volume with unwritten stripes and no image is refused (C35_image_needed)."
  },
  {
   "property": "C36",
   "status": "proved",
   "theorems": [
    "Verif.Remote.C36_no_stripe_missed",
    "Verif.Remote.C36_contents",
    "Verif.Remote.C36_guest_reads",
    "Verif.Remote.C36_served",
    "Verif.Remote.C36_served_plain",
    "Verif.Remote.C36_end_to_end",
    "Verif.Remote.C36_source_size"
   ],
   "note": "Assumes that a result for a stripe is the server's answer to the request for it; C92 shows when the client gets this wrong (C92_false_guest) and when not (C92_guest_partial)."
  },
  {
   "property": "C37",
   "status": "partial",
   "theorems": [
    "Verif.Vhost.C37_parse_partial",
    "Verif.Vhost.C37_write_direction_unchecked",
    "Verif.Vhost.C37_get_id_writes_readable_buffer"
   ],
   "note": "What is accepted is characterised exactly; false of the code for writes (device-writable data buffers are accepted) and for get-id (a read-only buffer is accepted and written), both proved."
  },
  {
   "property": "C38",
   "status": "proved",
   "theorems": [
    "Verif.Vhost.C38_at_most_once",
    "Verif.Vhost.C38_slots_exclusive",
    "Verif.Vhost.C38_all_returned",
    "Verif.Vhost.C38_signalled",
    "Verif.Vhost.C38_bad_chain_not_signalled"
   ],
   "note": "A chain that cannot be parsed is returned but not signalled (proved)."
  },
  {
   "property": "C39",
   "status": "proved",
   "theorems": [
    "Verif.Vhost.C39_write",
    "Verif.Vhost.C39_read_issued",
    "Verif.Vhost.C39_read",
    "Verif.Vhost.C39_only_status"
   ],
   "note": ""
  },
  {
   "property": "C40",
   "status": "partial",
   "theorems": [
    "Verif.Vhost.C40_chain_partial",
    "Verif.Vhost.C40_poll_partial",
    "Verif.Vhost.C40_stripes_partial",
    "Verif.Vhost.C40_get_id_without_buffer_panics",
    "Verif.Vhost.C40_huge_write_panics",
    "Verif.Vhost.C40_empty_request_out_of_range",
    "Verif.Vhost.C40_sector_not_checked"
   ],
   "note": "False of the code: four guest requests that crash the backend are proved; the partial theorems give conditions under which none does."
  },
  {
   "property": "C41",
   "status": "partial",
   "theorems": [
    "Verif.Ublk.C41_exactly_once_partial",
    "Verif.Ublk.C41_all_completed_partial",
    "Verif.Ublk.C41_read_data",
    "Verif.Ublk.C41_write_data",
    "Verif.Ublk.C41_oversized_refused",
    "Verif.Ublk.C41_submit_failure_completes_wrong_request",
    "Verif.Ublk.C41_oversized_last_stalls_batch"
   ],
   "note": "Holds if submitting to the device never fails; false otherwise (proved)."
  },
  {
   "property": "C42",
   "status": "partial",
   "theorems": [
    "Verif.Tracker.C42_counters",
    "Verif.Tracker.C42_counters_grow",
    "Verif.Tracker.C42_snapshot_partial",
    "Verif.Tracker.C42_large_slot_not_listed",
    "Verif.Tracker.C42_flush_stale_location"
   ],
   "note": "Counters proved; the snapshot is exact for the slots below queue size + 8, not beyond (proved)."
  },
  {
   "property": "C43",
   "status": "partial",
   "theorems": [
    "Verif.Tracker.C43_window_partial",
    "Verif.Tracker.C43_fields",
    "Verif.Tracker.C43_other_fields",
    "Verif.Tracker.C43_offset_ignored",
    "Verif.Tracker.C43_offset_wrong"
   ],
   "note": "Windows from offset 0 proved; the offset is ignored by the code (proved), a documented choice."
  },
  {
   "property": "C55",
   "status": "partial",
   "theorems": [
    "Verif.Rpc.C55_one_answer_per_line_partial",
    "Verif.Rpc.C55_total",
    "Verif.Rpc.C55_send_failure",
    "Verif.Rpc.C55_not_text_ends_session",
    "Verif.Rpc.C55_false"
   ],
   "note": "Proved for all lines of text, every request parser and every state of the backend, down to the JSON bytes (one line each, read back exactly). A line that is not UTF-8 ends the session (proved)."
  },
  {
   "property": "C56",
   "status": "proved",
   "theorems": [
    "Verif.Vhost.C56_get_id",
    "Verif.Vhost.C56_short_buffer"
   ],
   "note": "For mapped buffers that do not contain the status byte."
  },
  {
   "property": "C45",
   "status": "proved",
   "theorems": [
    "Verif.Config.C45_values",
    "Verif.Config.C45_succeeds_iff",
    "Verif.Config.C45_order",
    "Verif.Config.C45_missing_reported",
    "Verif.Config.C45_cycle_reported"
   ],
   "note": "Termination is totality of the model's function. Files, environment, base64 and AES-256-GCM are parameters."
  },
  {
   "property": "C46",
   "status": "proved",
   "theorems": [
    "Verif.Config.C46_accepted_iff",
    "Verif.Config.C46_settings",
    "Verif.Config.C46_no_override",
    "Verif.Config.C46_order",
    "Verif.Config.C46_path_inside",
    "Verif.Config.C46_bad_path_refused"
   ],
   "note": "TOML parsing is a parameter; symbolic links are outside the model."
  },
  {
   "property": "C57",
   "status": "partial",
   "theorems": [
    "Verif.Config.C57_plain_whole_file",
    "Verif.Config.C57_base64_whole_file_partial",
    "Verif.Config.C57_base64_rest_dropped"
   ],
   "note": "False of the code for base64 files longer than 10929 bytes whose text is followed by white space (proved); holds for plain files and shorter ones."
  },
  {
   "property": "C44",
   "status": "proved",
   "theorems": [
    "Verif.Config.C44_env",
    "Verif.Config.C44_inline",
    "Verif.Config.C44_regular_file",
    "Verif.Config.C44_unencrypted_disk",
    "Verif.Config.C44_key",
    "Verif.Config.C44_connection",
    "Verif.Config.C44_server_connection"
   ],
   "note": "For all four kinds of configuration, in terms of what the configuration file and its includes say. Parsing of TOML text is a parameter."
  },
  {
   "property": "C47",
   "status": "proved",
   "theorems": [
    "Verif.Config.C47_accepted_iff",
    "Verif.Config.C47_in_effect"
   ],
   "note": "Including that the accepted values are the ones written, or the documented defaults."
  },
  {
   "property": "C48",
   "status": "proved",
   "theorems": [
    "Verif.S3.C48_key",
    "Verif.S3.C48_core",
    "Verif.S3.C48_no_prefix",
    "Verif.S3.C48_slashes",
    "Verif.S3.C48_injective",
    "Verif.S3.C48_no_parent"
   ],
   "note": ""
  },
  {
   "property": "C58",
   "status": "partial",
   "theorems": [
    "Verif.Config.C58_device_partial",
    "Verif.Config.C58_raw_source_partial",
    "Verif.Config.C58_archive_source_partial",
    "Verif.Config.C58_export_partial",
    "Verif.Config.C58_secret_file_partial",
    "Verif.Config.C58_target_not_resolved"
   ],
   "note": "Holds for the device, stripe source, export and secret paths; false of the code for the path of an archive target, which is used as written (proved)."
  },
  {
   "property": "C59",
   "status": "proved",
   "theorems": [
    "Verif.Config.C59_config",
    "Verif.Config.C59_target",
    "Verif.Config.C59_export",
    "Verif.Config.C59_server"
   ],
   "note": ""
  },
  {
   "property": "C60",
   "status": "proved",
   "theorems": [
    "Verif.S3.C60_reported_once",
    "Verif.S3.C60_drains",
    "Verif.S3.C60_provenance",
    "Verif.S3.C60_read_back",
    "Verif.S3.C60_stored"
   ],
   "note": "Bucket operations are atomic and nobody else writes keys under the prefix."
  },
  {
   "property": "C61",
   "status": "proved",
   "theorems": [
    "Verif.Config.C61_config",
    "Verif.Config.C61_target",
    "Verif.Config.C61_export",
    "Verif.Config.C61_server",
    "Verif.Config.C61_secrets"
   ],
   "note": "Every section of every kind of configuration; parsing of TOML text is a parameter."
  },
  {
   "property": "C49",
   "status": "proved",
   "theorems": [
    "Verif.Init.C49_accepts",
    "Verif.Init.C49_marks",
    "Verif.Init.C49_file",
    "Verif.Init.C49_durable"
   ],
   "note": "A source larger than the disk is cut off silently here (start-up refuses it); an archive's stripe size is not compared with the volume's (C62)."
  },
  {
   "property": "C50",
   "status": "proved",
   "theorems": [
    "Verif.Tools.C50_outstanding",
    "Verif.Tools.C50_get",
    "Verif.Tools.C50_return"
   ],
   "note": "Buffers of the pool are distinct allocations."
  },
  {
   "property": "C51",
   "status": "proved",
   "theorems": [
    "Verif.Tools.C51_aligned"
   ],
   "note": ""
  },
  {
   "property": "C52",
   "status": "proved",
   "theorems": [
    "Verif.Tools.C52_reads_back",
    "Verif.Tools.C52_lines"
   ],
   "note": ""
  },
  {
   "property": "C53",
   "status": "proved",
   "theorems": [
    "Verif.XtsTool.C53_encode",
    "Verif.XtsTool.C53_decode",
    "Verif.XtsTool.C53_round_trip",
    "Verif.XtsTool.C53_serves",
    "Verif.XtsTool.C53_start_kept",
    "Verif.XtsTool.C53_empty_window",
    "Verif.XtsTool.C53_keys"
   ],
   "note": "AES-256-XTS is a parameter."
  },
  {
   "property": "C54",
   "status": "proved",
   "theorems": [
    "Verif.Uring.C54_once",
    "Verif.Uring.C54_busy",
    "Verif.Uring.C54_drains",
    "Verif.Uring.C54_results",
    "Verif.Uring.C54_failed_submit_strands",
    "Verif.Uring.C54_fields",
    "Verif.Uring.C54_short_transfer_is_success"
   ],
   "note": "A submit that fails strands its requests, a short transfer counts as success and lengths of 2^23 sectors wrap (all proved)."
  },
  {
   "property": "C63",
   "status": "proved",
   "theorems": [
    "Verif.Uring.C63_uring",
    "Verif.SyncIo.C63_sync"
   ],
   "note": "The kernel is such a disk and reports success only for complete transfers. Devices opened for write-through are left out: there the code answers a flush at once."
  },
  {
   "property": "C62",
   "status": "partial",
   "theorems": [
    "Verif.Restore.C62_contents_partial",
    "Verif.Restore.C62_end_to_end_partial",
    "Verif.Restore.C62_guest_reads_partial",
    "Verif.Restore.C62_restored_sector",
    "Verif.Restore.C62_archived_sector",
    "Verif.Restore.C62_false_other_stripe_size",
    "Verif.Restore.C62_false_written_unfetched",
    "Verif.Restore.C62_false_untracked",
    "Verif.Archive.C22_can_finish"
   ],
   "note": "Proved for equal stripe sizes, written tracking and no stripe written before it was fetched; false in each of the other cases (C62_false_*)."
  },
  {
   "property": "C64",
   "status": "partial",
   "theorems": [
    "Verif.Lazy.C64_restart_partial",
    "Verif.Lazy.C64_no_power_loss_partial",
    "Verif.Lazy.C64_false"
   ],
   "note": "Proved when no power loss falls between a death with unflushed metadata and the next metadata flush; false in that window."
  },
  {
   "property": "C65",
   "status": "proved",
   "theorems": [
    "Verif.Stack.C65_stack",
    "Verif.Stack.C65_flushed_survives",
    "Verif.Stack.C65_only_ciphertext",
    "Verif.Stack.C65_realised"
   ],
   "note": "Layers joined by the events they exchange. Submissions to the engines are accepted; io_uring devices opened for write-through are left out (C105_volume has them while the power stays on); the kernel reports success only for complete transfers."
  },
  {
   "property": "C66",
   "status": "partial",
   "theorems": [
    "Verif.Lazy.C66_refused_partial",
    "Verif.Lazy.C66_false"
   ],
   "note": "Proved until a left-over entry reaches the kernel; false after that: an acknowledged write is undone (C66_false)."
  },
  {
   "property": "C67",
   "status": "proved",
   "theorems": [
    "Verif.Vhost.C67_guest_view",
    "Verif.Vhost.C67_other_chains",
    "Verif.Vhost.C67_stack",
    "Verif.Vhost.C67_flushed_survives"
   ],
   "note": "For chains whose buffers and status byte do not overlap and hold less than 4 GiB; submissions are accepted; no panic of a thread (C40)."
  },
  {
   "property": "C68",
   "status": "proved",
   "theorems": [
    "Verif.Ublk.C68_kernel_view",
    "Verif.Ublk.C68_refused",
    "Verif.Ublk.C68_stack",
    "Verif.Ublk.C68_flushed_survives"
   ],
   "note": "Submissions are accepted (refused ones: C41)."
  },
  {
   "property": "C69",
   "status": "partial",
   "theorems": [
    "Verif.Lazy.C69_guest_refused_partial",
    "Verif.Lazy.C69_false",
    "Verif.Lazy.C69_false_twice"
   ],
   "note": "Proved until a left-over entry reaches the kernel; false after that."
  },
  {
   "property": "C70",
   "status": "proved",
   "theorems": [
    "Verif.Lazy.C70_work_bounded",
    "Verif.Lazy.C70_quiet_work_bounded",
    "Verif.Lazy.C70_rest_all_answered",
    "Verif.Lazy.C70_every_schedule_answers",
    "Verif.Lazy.C70_rest_reached"
   ],
   "note": "Transfers that repeat an earlier one are not counted as steps. The part about answers is for runs that lose no metadata update; with a lost update it fails (C16_false)."
  },
  {
   "property": "C71",
   "status": "partial",
   "theorems": [
    "Verif.Archive.C71_never_mixed",
    "Verif.Archive.C71_mixed_unopenable",
    "Verif.Archive.C71_new_complete",
    "Verif.Archive.C71_old_kept_partial",
    "Verif.Archive.C71_false_window",
    "Verif.Archive.C71_false",
    "Verif.Archive.C71_false_cut"
   ],
   "note": "Never mixed and new complete are proved. That the old archive stays readable until the new one is complete is false: between the new description and the new index nothing opens (C71_false), and in a directory a cut put destroys an object of the old archive (C71_false_cut). Hypotheses: same key-encryption key, the new random tag key does not give an old tag, no hash collisions, cut JSON or CBOR does not parse."
  },
  {
   "property": "C72",
   "status": "partial",
   "theorems": [
    "Verif.S3.C72_put_stored_partial",
    "Verif.S3.C72_read_back_partial",
    "Verif.S3.C72_get_current_partial",
    "Verif.S3.C72_put_unsure_partial",
    "Verif.S3.C72_false",
    "Verif.S3.C72_false_get"
   ],
   "note": "Proved for names none of whose earlier calls ran out of time; after such a timeout the claim is false (C72_false, C72_false_get). The S3 store; programs that use only the waiting calls."
  },
  {
   "property": "C73",
   "status": "proved",
   "theorems": [
    "Verif.Dir.C73_refines",
    "Verif.Dir.C73_inside",
    "Verif.Dir.C73_object_file",
    "Verif.Dir.C73_put_succeeds",
    "Verif.Dir.C73_read_back",
    "Verif.Dir.C73_slash",
    "Verif.Dir.C73_archive",
    "Verif.Dir.ArchiveName.plain",
    "Verif.Dir.ArchiveName.apart",
    "Verif.Dir.C73_false_outside",
    "Verif.Dir.C73_false_alias",
    "Verif.Dir.C73_false_timeout"
   ],
   "note": "Plain names, which those of archives are; for other names it is false (C73_false_outside, C73_false_alias). No links, no power loss: the store never syncs, so a reported archive may be lost with the power."
  },
  {
   "property": "C74",
   "status": "partial",
   "theorems": [
    "Verif.Psk.C74_credentials",
    "Verif.Psk.C74_config",
    "Verif.Psk.C74_arguments",
    "Verif.Psk.C74_admits",
    "Verif.Psk.C74_other_client",
    "Verif.Psk.C74_auth",
    "Verif.Psk.C74_isolated",
    "Verif.Psk.C74_finishes",
    "Verif.Psk.C74_entered",
    "Verif.Psk.C74_survives_partial",
    "Verif.Psk.C74_false_crash",
    "Verif.Psk.C74_false_accept",
    "Verif.Psk.C74_nul_identity"
   ],
   "note": "Proved but for the last sentence, which is false: a peer with an identity of another length, or a failing accept, stops the server (C74_false_crash, C74_false_accept); C74_survives_partial: all other peers do not. TLS is assumed, as written in Model/Psk."
  },
  {
   "property": "C75",
   "status": "partial",
   "theorems": [
    "Verif.Names.C75_frame",
    "Verif.Names.C75_link",
    "Verif.Names.C75_parents",
    "Verif.Names.C75_made",
    "Verif.Names.C75_serves",
    "Verif.Names.C75_removed",
    "Verif.Names.C75_keeps",
    "Verif.Names.C75_ended",
    "Verif.Names.C75_socket_tight",
    "Verif.Names.C75_socket",
    "Verif.Names.C75_umask",
    "Verif.Names.C75_false_file",
    "Verif.Names.C75_false_socket_file",
    "Verif.Names.C75_false_shared",
    "Verif.Names.C75_false_stale",
    "Verif.Names.C75_false_race"
   ],
   "note": "Proved for paths no one else uses. False parts: files in the way are deleted at start, shared links are removed by the first to end, kills and failures leave the link (C75_false_*)."
  },
  {
   "property": "C76",
   "status": "partial",
   "theorems": [
    "Verif.Shell.C76_number",
    "Verif.Shell.C76_number_only",
    "Verif.Shell.C76_line",
    "Verif.Shell.C76_line_only",
    "Verif.Shell.C76_dump_partial",
    "Verif.Shell.C76_hex",
    "Verif.Shell.C76_fetch",
    "Verif.Shell.C76_header",
    "Verif.Shell.C76_empty",
    "Verif.Shell.C76_no_panic",
    "Verif.Shell.C76_end",
    "Verif.Shell.C76_line_quiet",
    "Verif.Shell.C76_false_source",
    "Verif.Shell.C76_false_late"
   ],
   "note": "Dumps proved for written stripes and replies that arrive in time. False: stripes only in the image are dumped as zeros (C76_false_source); after a time-out a late reply is taken for another stripe (C76_false_late)."
  },
  {
   "property": "C77",
   "status": "proved",
   "theorems": [
    "Verif.LegacyConfig.C77_base64",
    "Verif.LegacyConfig.C77_text",
    "Verif.LegacyConfig.C77_one_meaning",
    "Verif.LegacyConfig.C77_archive_keys",
    "Verif.LegacyConfig.C77_archive_keys_only",
    "Verif.LegacyConfig.C77_secret",
    "Verif.LegacyConfig.C77_secret_fits",
    "Verif.LegacyConfig.C77_legacy",
    "Verif.LegacyConfig.C77_legacy_forgotten"
   ],
   "note": "Base64 against RFC 4648 at the level of bits; archive keys; secrets; configuration of legacy volumes after YAML parsing."
  },
  {
   "property": "C78",
   "status": "proved",
   "theorems": [
    "Verif.Wait.C78_scan",
    "Verif.Wait.C78_in_turn",
    "Verif.Wait.C78_so_far",
    "Verif.Wait.C78_can_finish",
    "Verif.Wait.C78_load",
    "Verif.Wait.C78_session",
    "Verif.Wait.C78_serve",
    "Verif.Wait.C78_source",
    "Verif.Wait.C78_save",
    "Verif.Wait.C78_init"
   ],
   "note": "Refines the server model of C30-C33 (Srv.readStripe) and the save of C49."
  },
  {
   "property": "C79",
   "status": "partial",
   "theorems": [
    "Verif.Assemble.C79_asked",
    "Verif.Assemble.C79_configured",
    "Verif.Assemble.C79_writable",
    "Verif.Assemble.C79_image_readonly",
    "Verif.Assemble.C79_created",
    "Verif.Assemble.C79_keyed",
    "Verif.Assemble.C79_credentials",
    "Verif.Assemble.C79_backend",
    "Verif.Assemble.C79_server_refuses",
    "Verif.Assemble.C79_fits",
    "Verif.Assemble.C79_archive",
    "Verif.Assemble.C79_server",
    "Verif.Assemble.C79_server_complete",
    "Verif.Assemble.C79_server_stripes",
    "Verif.Assemble.C79_psk_accepted",
    "Verif.Assemble.C79_export",
    "Verif.Assemble.C79_secrets",
    "Verif.Assemble.C79_fetched_asks",
    "Verif.Assemble.C79_fetched_starts_partial",
    "Verif.Assemble.C79_image_needed",
    "Verif.Assemble.C79_false_fetched_starts",
    "Verif.Assemble.C79_false_pool",
    "Verif.Assemble.C79_dials",
    "Verif.Assemble.C79_retry",
    "Verif.Assemble.C79_retried",
    "Verif.Assemble.C79_workers"
   ],
   "note": "Partial because the sentence about fully fetched volumes is false of raw sources with copy_on_read off (witness proved); proved for all other sources."
  },
  {
   "property": "C80",
   "status": "partial",
   "theorems": [
    "Verif.Tail.C80_fetch_inside",
    "Verif.Tail.C80_image_inside",
    "Verif.Tail.C80_fetch_contents",
    "Verif.Tail.C80_archive_partial",
    "Verif.Tail.C80_server_partial",
    "Verif.Tail.C80_archive_all_partial",
    "Verif.Tail.C80_sync_refused",
    "Verif.Tail.C80_archive_fails",
    "Verif.Tail.C80_never_done",
    "Verif.Tail.C80_uring_tail",
    "Verif.Tail.C80_server_tail",
    "Verif.Tail.C80_stale_tail",
    "Verif.Tail.C80_rounded_up",
    "Verif.Tail.C80_false_same_size",
    "Verif.Tail.C80_false_stale",
    "Verif.Tail.C80_false_server_zeros",
    "Verif.Tail.C80_false_fetch_stale"
   ],
   "note": "The fetching half is proved for all sizes. Archiving, serving and restoring are proved for stripes that are whole on the disk; for the last, shorter stripe the claim is false and what happens is proved instead."
  },
  {
   "property": "C81",
   "status": "partial",
   "theorems": [
    "Verif.Wake.C81_worker",
    "Verif.Wake.C81_idle_partial",
    "Verif.Wake.C81_both_partial",
    "Verif.Wake.C81_unseen_partial",
    "Verif.Wake.C81_both_event_partial",
    "Verif.Wake.C81_unseen_event_partial",
    "Verif.Wake.C81_bounded",
    "Verif.Wake.C81_not_stuck",
    "Verif.Wake.C81_comes_to_rest",
    "Verif.Wake.C81_kinds",
    "Verif.Wake.C81_false_bad",
    "Verif.Wake.C81_false_idle",
    "Verif.Wake.C81_false_wrap"
   ],
   "note": "The worker's side is proved for all chains. That the driver sees what was answered is proved for chains that are not malformed, and with the event index if fewer than 65536 chains are answered between two decisions to signal (proved to hold when all chains go through the channel); outside that it is false, with witnesses."
  },
  {
   "property": "C82",
   "status": "proved",
   "theorems": [
    "Verif.Config.C82_config",
    "Verif.Config.C82_target",
    "Verif.Config.C82_export",
    "Verif.Config.C82_server",
    "Verif.Config.C82_prefix"
   ],
   "note": "Together with C61 (what an accepted configuration means). serde's alternative spellings (a section as an array of its fields) are not modelled."
  },
  {
   "property": "C83",
   "status": "partial",
   "theorems": [
    "Verif.Wake.C83_goes_on",
    "Verif.Wake.C83_served",
    "Verif.Wake.C83_idle_partial",
    "Verif.Wake.C83_answered_partial",
    "Verif.Wake.C83_seen_partial",
    "Verif.Vhost.C83_apart",
    "Verif.Vhost.C83_settled",
    "Verif.Vhost.C83_next_finds",
    "Verif.Wake.C83_false_protocol",
    "Verif.Wake.C83_false_lost",
    "Verif.Wake.C83_false_twice",
    "Verif.Vhost.C83_false_late"
   ],
   "note": "Partial: the exactly-once theorems are for drivers with the event index (false without, witnesses), and C83_next_finds asks that no earlier write be left unanswered (C83_settled says when that is so; C83_false_late is the witness). That workers stop only while waiting for events is assumed of the library."
  },
  {
   "property": "C84",
   "status": "partial",
   "theorems": [
    "Verif.MetaRing.C84_refused_metadata_partial",
    "Verif.MetaRing.C84_all_accepted",
    "Verif.MetaRing.C84_not_forgotten",
    "Verif.MetaRing.C84_false_refused_write",
    "Verif.MetaRing.C84_false_refused_flush",
    "Verif.MetaRing.C84_false_misplaced"
   ],
   "note": "Proved for every run until a submission is accepted while a refused entry is still queued (in particular when none is refused); false after that, with three witnesses."
  },
  {
   "property": "C85",
   "status": "partial",
   "theorems": [
    "Verif.LiveArchive.C85_loads",
    "Verif.LiveArchive.C85_held_partial",
    "Verif.LiveArchive.C85_left_out",
    "Verif.LiveArchive.C85_acknowledged_partial",
    "Verif.LiveArchive.C85_acknowledged_recorded",
    "Verif.LiveArchive.C85_unwritten_partial",
    "Verif.LiveArchive.C85_restored_partial",
    "Verif.LiveArchive.C85_false_half_written",
    "Verif.LiveArchive.C85_false_snapshot"
   ],
   "note": "Proved sector by sector except for stripes the loaded metadata mark written but not fetched (false, witness); the archive as one moment's content is false (witness)."
  },
  {
   "property": "C86",
   "status": "partial",
   "theorems": [
    "Verif.LiveServe.C86_answers",
    "Verif.LiveServe.C86_current_partial",
    "Verif.LiveServe.C86_acknowledged",
    "Verif.LiveServe.C86_unwritten",
    "Verif.LiveServe.C86_false_current"
   ],
   "note": "Answers show what the volume held since the server was started; that they are not older than the request is proved for stripes local at that time and answered with data, and false otherwise (witness)."
  },
  {
   "property": "C87",
   "status": "partial",
   "theorems": [
    "Verif.Lend.C87_ring",
    "Verif.Lend.C87_kernel",
    "Verif.Lend.C87_vhost_partial",
    "Verif.Lend.C87_ublk_partial",
    "Verif.Lend.C87_fetcher_partial",
    "Verif.Lend.C87_flusher_partial",
    "Verif.Lend.C87_archiver_partial",
    "Verif.Lend.C87_waiting_partial",
    "Verif.Lend.C87_crypt",
    "Verif.Lend.C87_lazy_partial",
    "Verif.Lend.C87_lazy_answers_partial",
    "Verif.Lend.C87_threads",
    "Verif.Lend.C87_volume_partial",
    "Verif.Lend.C87_false_vhost",
    "Verif.Lend.C87_false_ublk",
    "Verif.Lend.C87_false_fetcher",
    "Verif.Lend.C87_false_flusher",
    "Verif.Lend.C87_false_archiver",
    "Verif.Lend.C87_false_waiting",
    "Verif.Lend.C87_false_lazy"
   ],
   "note": "Proved as long as submissions succeed, waits do not time out, archiving does not fail and vhost clients use the event index or leave when nothing is in flight; false otherwise (a witness for each)."
  },
  {
   "property": "C88",
   "status": "proved",
   "theorems": [
    "Verif.Archive.C88_counted",
    "Verif.Archive.C88_archive_bounded",
    "Verif.Archive.C88_archive_goes_on",
    "Verif.Archive.C88_archive_not_failed",
    "Verif.Archive.C88_archive_ends",
    "Verif.Archive.C88_archive_reached",
    "Verif.Archive.C88_export_counted",
    "Verif.Archive.C88_export_bounded",
    "Verif.Archive.C88_export_goes_on",
    "Verif.Archive.C88_export_not_failed",
    "Verif.Archive.C88_export_ends",
    "Verif.Archive.C88_archive_exports",
    "Verif.Archive.C88_needs_a_buffer"
   ],
   "note": "Errors of file operations of the export end it and are not shown in the model."
  },
  {
   "property": "C89",
   "status": "partial",
   "theorems": [
    "Verif.Durable.C89_init",
    "Verif.Durable.C89_others",
    "Verif.Durable.C89_archive_others",
    "Verif.Durable.C89_archive_synced_partial",
    "Verif.Durable.C89_archive_partial",
    "Verif.Durable.C89_files_partial",
    "Verif.Durable.C89_false_init",
    "Verif.Durable.C89_false_bare",
    "Verif.Durable.C89_false_files",
    "Verif.Durable.C89_false_archive"
   ],
   "note": "False in general: the directory of a metadata file that was left by a stopped run is not synced, and archive, export-archive and xts sync nothing; proved for init-metadata on a new or safely named file, for other files, and for files synced afterwards."
  },
  {
   "property": "C90",
   "status": "partial",
   "theorems": [
    "Verif.RpcServer.C90_alone",
    "Verif.RpcServer.C90_others",
    "Verif.RpcServer.C90_others_run",
    "Verif.RpcServer.C90_answered",
    "Verif.RpcServer.C90_up_partial",
    "Verif.RpcServer.C90_false_accept",
    "Verif.RpcServer.C90_false_spawn",
    "Verif.RpcServer.C90_false_memory"
   ],
   "note": "False in general: the listener ends for good when descriptors run out, which idle clients can cause, and a failed thread creation drops a client; proved that each served client gets exactly its answers and that the server goes on while fewer clients are connected than there are descriptors."
  },
  {
   "property": "C91",
   "status": "partial",
   "theorems": [
    "Verif.Archive.C91_physical",
    "Verif.Archive.C91_report",
    "Verif.Archive.C91_exit_partial",
    "Verif.Archive.C91_false_exit"
   ],
   "note": "False in general: the command fails after completing the archive when the statistics cannot be written; proved that the sizes are right, that success means a complete archive, and the converse when the statistics can be written or are not asked for."
  },
  {
   "property": "C92",
   "status": "partial",
   "theorems": [
    "Verif.RemoteLate.C92_right_partial",
    "Verif.RemoteLate.C92_redialled",
    "Verif.RemoteLate.C92_prompt",
    "Verif.RemoteLate.C92_guest_partial",
    "Verif.RemoteLate.C92_reconnect",
    "Verif.RemoteLate.C92_false_behind",
    "Verif.RemoteLate.C92_false_late",
    "Verif.RemoteLate.C92_false_guest"
   ],
   "note": "False in general: a worker keeps a connection with an answer outstanding when its dials fail, and then takes each answer for that to the next request; proved right as long as every earlier request of the worker was answered, and always for answers over a connection dialled for the request."
  },
  {
   "property": "C93",
   "status": "partial",
   "theorems": [
    "Verif.Lazy.C93_plain_disk_partial",
    "Verif.Lazy.C93_starts",
    "Verif.Lazy.C93_tracked",
    "Verif.Lazy.C93_detached_read",
    "Verif.Lazy.C93_detached_write",
    "Verif.Lazy.C93_detached_keeps",
    "Verif.Lazy.C93_false_tracking"
   ],
   "note": "The data part has the gap of C64 (power loss after a death of the process with unflushed metadata); the flags part is false if tracking was off in an earlier run and proved if it was on in all of them."
  },
  {
   "property": "C94",
   "status": "partial",
   "theorems": [
    "Verif.Init.C94_blank_partial",
    "Verif.Init.C94_new",
    "Verif.Init.C94_again",
    "Verif.Init.C94_mixture",
    "Verif.Init.C94_false_torn",
    "Verif.Init.C94_bootable",
    "Verif.Init.C94_from_image",
    "Verif.Init.C94_false_forgets"
   ],
   "note": "All or nothing is proved for files without metadata and false for used ones, where the exact set of outcomes is proved; that guest data are kept is false."
  },
  {
   "property": "C95",
   "status": "partial",
   "theorems": [
    "Verif.Setup.C95_queues",
    "Verif.Setup.C95_cpus",
    "Verif.Setup.C95_memory_partial",
    "Verif.Setup.C95_any_guest",
    "Verif.Setup.C95_never_less",
    "Verif.Setup.C95_false_released",
    "Verif.Setup.C95_ublk_partial",
    "Verif.Setup.C95_vhost_trackers",
    "Verif.Setup.C95_false_depth"
   ],
   "note": "Memory is bounded for guests within the announced limits and false for others; ublk parameters are proved except for queue_size 65536, where they are wrong."
  },
  {
   "property": "C96",
   "status": "partial",
   "theorems": [
    "Verif.Setup.C96_vhost_partial",
    "Verif.Setup.C96_any_guest",
    "Verif.Setup.C96_idle",
    "Verif.Setup.C96_counters",
    "Verif.Setup.C96_false_beyond",
    "Verif.Ublk.C96_ublk_partial",
    "Verif.Ublk.C96_ublk_listed",
    "Verif.Ublk.C96_ublk_counters",
    "Verif.Ublk.C96_false_submit"
   ],
   "note": "Exact for vhost guests within the announced limits and for ublk without failing submissions; the other cases are false, and what remains true of them is proved."
  },
  {
   "property": "C97",
   "status": "partial",
   "theorems": [
    "Verif.Report.C97_context",
    "Verif.Report.C97_story_partial",
    "Verif.Report.C97_lossless_partial",
    "Verif.Report.C97_false_forged",
    "Verif.Report.C97_same_resolution",
    "Verif.Report.C97_report_partial",
    "Verif.Report.C97_few",
    "Verif.Report.C97_names_secret",
    "Verif.Report.C97_redacted",
    "Verif.Report.C97_false_derived_debug",
    "Verif.Report.C97_false_base64",
    "Verif.Report.C97_false_variable",
    "Verif.Report.C97_false_unnamed"
   ],
   "note": "The four false cases are proved false; the rest is proved for all errors, configurations and secrets."
  },
  {
   "property": "C98",
   "status": "partial",
   "theorems": [
    "Verif.S3W.C98_connections",
    "Verif.S3W.C98_in_order",
    "Verif.S3W.C98_refines",
    "Verif.S3W.C98_answered_once",
    "Verif.S3W.C98_contents",
    "Verif.S3W.C98_stored",
    "Verif.S3W.C98_drop",
    "Verif.S3W.C98_drop_ends",
    "Verif.S3W.C98_answered_partial",
    "Verif.S3W.C98_refused",
    "Verif.S3W.C98_false_lost"
   ],
   "note": "False when no worker starts (witness proved); proved for all schedules otherwise."
  },
  {
   "property": "C99",
   "status": "proved",
   "theorems": [
    "Verif.Formats.C99_map_cbor",
    "Verif.Formats.C99_file_cbor",
    "Verif.Formats.C99_meta_json",
    "Verif.Formats.C99_round_trip",
    "Verif.Formats.C99_no_prefix",
    "Verif.Formats.C99_cut",
    "Verif.Formats.C99_range",
    "Verif.Formats.C99_lawful",
    "Verif.Formats.C99_index_size",
    "Verif.Formats.C99_restore",
    "Verif.Formats.C99_published",
    "Verif.Formats.C99_never_mixed"
   ],
   "note": "The written forms and their reading are modelled; other forms the libraries accept are not."
  },
  {
   "property": "C100",
   "status": "partial",
   "theorems": [
    "Verif.Hold.C100_same",
    "Verif.Hold.C100_connect",
    "Verif.Hold.C100_kept",
    "Verif.Hold.C100_fetch",
    "Verif.Hold.C100_source",
    "Verif.Hold.C100_server",
    "Verif.Hold.C100_no_bomb",
    "Verif.Hold.C100_rpc_lines",
    "Verif.Hold.C100_rpc_partial",
    "Verif.Hold.C100_false_rpc"
   ],
   "note": "The RPC part is false: a line has no maximal length (C100_false_rpc); C100_rpc_partial bounds it by the longest line sent. The rest is proved in full."
  },
  {
   "property": "C101",
   "status": "partial",
   "theorems": [
    "Verif.Config.C101_ignored_true",
    "Verif.Config.C101_ignored_all",
    "Verif.Config.C101_ignored_once",
    "Verif.Config.C101_loose_partial",
    "Verif.Config.C101_only_warns",
    "Verif.Config.C101_no_effect",
    "Verif.Config.C101_false_included"
   ],
   "note": "The warning about permissions is proved for the configuration file itself (C101_loose_partial); for included files it is false (C101_false_included). The rest is proved in full."
  },
  {
   "property": "C102",
   "status": "proved",
   "theorems": [
    "Verif.Request.C102_accepted",
    "Verif.Request.C102_session",
    "Verif.Request.C102_one_command",
    "Verif.Request.C102_expressible"
   ],
   "note": "Text, UTF-8 and JSON are concrete; only the words of error messages are a parameter."
  },
  {
   "property": "C103",
   "status": "partial",
   "theorems": [
    "Verif.CoreDump.C103_serving_partial",
    "Verif.CoreDump.C103_limit_partial",
    "Verif.CoreDump.C103_warned",
    "Verif.CoreDump.C103_false_tools",
    "Verif.CoreDump.C103_false_failing"
   ],
   "note": "Proved for the two backends and the stripe server when the first call succeeds, or the second where dumps are files; false for the six other programs and when the calls fail."
  },
  {
   "property": "C104",
   "status": "proved",
   "theorems": [
    "Verif.LiveDump.C104_prints",
    "Verif.LiveDump.C104_source",
    "Verif.LiveDump.C104_fetched",
    "Verif.LiveDump.C104_fetched_before",
    "Verif.LiveDump.C104_not_fetched",
    "Verif.LiveDump.C104_written",
    "Verif.LiveDump.C104_not_written"
   ],
   "note": "Power stays on while the tool runs; what it printed may be undone by a power loss after it."
  },
  {
   "property": "C105",
   "status": "proved",
   "theorems": [
    "Verif.WriteThrough.C105_uring",
    "Verif.WriteThrough.C105_sync",
    "Verif.WriteThrough.C105_sync_plain",
    "Verif.WriteThrough.C105_lasts",
    "Verif.WriteThrough.C105_lasts_sync",
    "Verif.WriteThrough.C105_encrypted",
    "Verif.WriteThrough.C105_encrypted_sync",
    "Verif.WriteThrough.C105_encrypted_lasts",
    "Verif.WriteThrough.C105_volume",
    "Verif.WriteThrough.C105_flush_does_nothing"
   ],
   "note": "Both engines; the kernel is assumed to honour O_SYNC."
  },
  {
   "property": "C106",
   "status": "partial",
   "theorems": [
    "Verif.CacheMode.C106_offered",
    "Verif.CacheMode.C106_told",
    "Verif.CacheMode.C106_kept_partial",
    "Verif.CacheMode.C106_encrypted_partial",
    "Verif.CacheMode.C106_false"
   ],
   "note": "Proved for drivers that accept FLUSH or CONFIG_WCE; false for drivers that accept neither."
  },
  {
   "property": "C107",
   "status": "proved",
   "theorems": [
    "Verif.Lazy.C107_source_unused",
    "Verif.Lazy.C107_any_source",
    "Verif.Lazy.C107_same_histories",
    "Verif.Lazy.C107_local_disk",
    "Verif.Lazy.C107_volume",
    "Verif.Lazy.C107_null_source",
    "Verif.Lazy.C107_image_request",
    "Verif.Lazy.C107_replaced",
    "Verif.Lazy.C107_from_then_on",
    "Verif.Lazy.C107_null_answers",
    "Verif.Lazy.C107_null_reads"
   ],
   "note": "C107_any_source compares runs state by state with the same background fetching; C107_same_histories compares histories and device contents for any size of the source and either setting. Starting the backend without the source is C79."
  }
 ]
}
