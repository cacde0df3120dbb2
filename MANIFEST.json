{
 "claims": [
  {
   "property": "C01",
   "status": "proved",
   "theorems": [
    "Verif.HashSlot.C01_lookup_owner",
    "Verif.HashSlot.C01_lookup_fails",
    "Verif.HashSlot.C01_member"
   ],
   "note": "Every accepted table, every slot; slot texts parsed by the model of formatInt."
  },
  {
   "property": "C02",
   "status": "proved",
   "theorems": [
    "Verif.HashSlot.C02_accepted_iff_disjoint",
    "Verif.HashSlot.C02_single_owner",
    "Verif.HashSlot.C02_copy"
   ],
   "note": "Acceptance is equivalent to non-empty, pairwise disjoint ranges; for every sort function meeting its contract."
  },
  {
   "property": "C03",
   "status": "proved",
   "theorems": [
    "Verif.HashSlot.C03_slot_range",
    "Verif.HashSlot.C03_every_key_routed"
   ],
   "note": "CRC-32/IEEE modelled bit by bit."
  },
  {
   "property": "C04",
   "status": "proved",
   "theorems": [
    "Verif.HashSlot.C04_combine_is_union",
    "Verif.HashSlot.C04_combine_owner"
   ],
   "note": ""
  },
  {
   "property": "C05",
   "status": "proved",
   "theorems": [
    "Verif.HashSlot.C05_remove_is_difference"
   ],
   "note": ""
  },
  {
   "property": "C06",
   "status": "proved",
   "theorems": [
    "Verif.HashSlot.C06_migration_conserves"
   ],
   "note": "Hypothesis that the moved ranges are owned by the source is what C08 checks."
  },
  {
   "property": "C07",
   "status": "proved",
   "theorems": [
    "Verif.HashSlot.C07_text_roundtrip"
   ],
   "note": ""
  },
  {
   "property": "C08",
   "status": "partial",
   "theorems": [
    "Verif.HashSlot.C08_range_query",
    "Verif.HashSlot.C08_valid_sound",
    "Verif.HashSlot.C08_statement_fails",
    "Verif.HashSlot.C08_valid_iff_partial"
   ],
   "note": "Sound for all tables; completeness fails when the owner's ranges touch (witness proved)."
  },
  {
   "property": "C09",
   "status": "proved",
   "theorems": [
    "Verif.Wildcard.C09_match_is_glob",
    "Verif.Wildcard.C09_matchSimple_exact",
    "Verif.Wildcard.C09_matchSimple_doc_fails",
    "Verif.Wildcard.C09_matchSimple_doc_partial"
   ],
   "note": "Match is exactly the glob relation. MatchSimple treats ? as matching like Match; its doc comment disagrees, which is recorded as a counterexample."
  },
  {
   "property": "C10",
   "status": "partial",
   "theorems": [
    "Verif.Codec.C10_array_roundtrip",
    "Verif.Codec.C10_truncation_statement_fails",
    "Verif.Codec.C10_truncation_partial"
   ],
   "note": "Round trip proved for every array. Truncated input is not always reported as an error: counterexample proved, and the exact truncation points that are detected."
  },
  {
   "property": "C100",
   "status": "partial",
   "theorems": [
    "Verif.Perf.Life.C100_accounted",
    "Verif.Perf.Life.C100_none_dropped",
    "Verif.Perf.Life.C100_soon",
    "Verif.Perf.Life.C100_failed_waits",
    "Verif.Perf.Life.C100_close",
    "Verif.Perf.Life.C100_partial",
    "Verif.Perf.Life.C100_statement_fails",
    "Verif.Perf.Life.C100_loop_goes_on",
    "Verif.Perf.Life.C100_loop_ends",
    "Verif.Perf.Life.C100_no_interval",
    "Verif.Perf.Life.C100_memory",
    "Verif.Perf.Life.C100_created",
    "Verif.Perf.Life.C100_early_close"
   ],
   "note": "Refuted for the end: Close does not wait for the goroutines of PutAsync (C100_statement_fails), and a Close that fails or comes before the loop has begun does not end the loop (C100_loop_goes_on). Proved: nothing is lost inside the process (C100_accounted), records are stored an interval later (C100_soon), Close stores what has been put in (C100_close, C100_partial), which collector is created (C100_created)."
  },
  {
   "property": "C101",
   "status": "partial",
   "theorems": [
    "Verif.Conc.Requests.C101_routing",
    "Verif.Conc.Requests.C101_partial",
    "Verif.Conc.Requests.C101_rpc_panic",
    "Verif.Conc.Requests.C101_statement_fails",
    "Verif.Conc.Requests.C101_cause"
   ],
   "note": "Refuted for RPCs: the recovery interceptor panics again, the process ends (C101_rpc_panic, C101_statement_fails). Proved for HTTP and for RPCs that do not panic (C101_partial), the routing (C101_routing), and that the logger is the cause (C101_cause)."
  },
  {
   "property": "C102",
   "status": "partial",
   "theorems": [
    "Verif.Admin.Commands.C102_sent",
    "Verif.Admin.Commands.C102_done",
    "Verif.Admin.Commands.C102_partial",
    "Verif.Admin.Commands.C102_statement_fails",
    "Verif.Admin.Commands.C102_errors",
    "Verif.Admin.Commands.C102_peers",
    "Verif.Admin.Commands.C102_peers_fail",
    "Verif.Admin.Commands.C102_target",
    "Verif.Admin.Commands.C102_split_join",
    "Verif.Admin.Commands.C102_slots",
    "Verif.Admin.Commands.C102_slots_fail",
    "Verif.Admin.Commands.C102_slots_saved",
    "Verif.Admin.Commands.C102_incomplete",
    "Verif.Admin.Commands.C102_no_brackets"
   ],
   "note": "Refuted for leaving a Raft group: a refusal is answered with 200 (C102_statement_fails). Proved: what is sent where (C102_sent), the answer to every complete request (C102_done), 200 only if carried out for all other commands (C102_partial), error statuses, the address the source of a migration dials (C102_target, C102_split_join), the pages of peers and slots."
  },
  {
   "property": "C103",
   "status": "partial",
   "theorems": [
    "Verif.Meta.Rest.C103_refused_unchanged",
    "Verif.Meta.Rest.C103_carried_out",
    "Verif.Meta.Rest.C103_done",
    "Verif.Meta.Rest.C103_leader",
    "Verif.Meta.Rest.C103_gate",
    "Verif.Meta.Rest.C103_gate_guard",
    "Verif.Meta.Rest.C103_create_object",
    "Verif.Meta.Rest.C103_add_version",
    "Verif.Meta.Rest.C103_delete_object",
    "Verif.Meta.Rest.C103_latest",
    "Verif.Meta.Rest.C103_missing_version",
    "Verif.Meta.Rest.C103_get_version",
    "Verif.Meta.Rest.C103_list",
    "Verif.Meta.Rest.C103_list_buckets",
    "Verif.Meta.Rest.C103_list_versions",
    "Verif.Meta.Rest.C103_by_hash",
    "Verif.Meta.Rest.C103_create_bucket",
    "Verif.Meta.Rest.C103_list_bucket",
    "Verif.Meta.Rest.C103_partial",
    "Verif.Meta.Rest.C103_bad_update",
    "Verif.Meta.Rest.C103_statement_fails",
    "Verif.Meta.Rest.C103_created_twice",
    "Verif.Meta.Rest.C103_bad_version"
   ],
   "note": "Refuted: an update of an object with an unreadable body is carried out (C103_statement_fails). Proved: every refusal leaves the store unchanged (C103_refused_unchanged), well formed requests carry out their operation with its status, on a single server (C103_done) and on a leader (C103_leader, where \"exists\" is reported as success), malformed requests are refused for all other routes with readable version numbers (C103_partial), what was written is read."
  },
  {
   "property": "C104",
   "status": "partial",
   "theorems": [
    "Verif.Api.LocateSys.C104_entries",
    "Verif.Api.LocateSys.C104_no_panic",
    "Verif.Api.LocateSys.C104_all_named_partial",
    "Verif.Api.LocateSys.C104_answered",
    "Verif.Api.LocateSys.C104_removed",
    "Verif.Api.LocateSys.C104_left_for_good",
    "Verif.Api.LocateSys.C104_gone_for_good",
    "Verif.Api.LocateSys.C104_other_group",
    "Verif.Api.LocateSys.C104_shard_missed",
    "Verif.Api.LocateSys.C104_left_over",
    "Verif.Api.LocateSys.C104_fails",
    "Verif.Api.LocateSys.C104_rewatch_misses"
   ],
   "note": "Refuted: servers of other groups are named (C104_other_group, C104_fails), a shard nobody has is counted (C104_shard_missed), keys are left behind (C104_left_over). Proved for all executions: whoever is named had the shard during the search (C104_entries), with one holder for each shard nobody is missing (C104_all_named_partial), undisturbed searches succeed (C104_answered), no panic, and the key stays away when nothing of the search is pending (C104_gone_for_good)."
  },
  {
   "property": "C105",
   "status": "partial",
   "theorems": [
    "Verif.System.C105_recorded",
    "Verif.System.C105_get_partial",
    "Verif.System.C105_never_wrong_partial",
    "Verif.System.C105_losses_partial",
    "Verif.System.C105_repair_not_recorded",
    "Verif.System.C105_repair_does_not_count",
    "Verif.System.C105_stale_location",
    "Verif.System.C105_partial_read_poisons",
    "Verif.System.C105_short_announcement_poisons"
   ],
   "note": "Refuted: C105_repair_does_not_count, C105_stale_location, C105_partial_read_poisons, C105_short_announcement_poisons. Proved for all executions whose repairing reads go to the end of honest versions in layouts of whole pages: numbers are kept, GET returns the content while enough recorded servers hold what is recorded, nothing else is delivered, and losses are counted by recorded files. Compressed versions are not covered."
  },
  {
   "property": "C106",
   "status": "partial",
   "theorems": [
    "Verif.CmdLine.C106_sent",
    "Verif.CmdLine.C106_target",
    "Verif.CmdLine.C106_start",
    "Verif.CmdLine.C106_data",
    "Verif.CmdLine.C106_no_panic",
    "Verif.CmdLine.C106_voter",
    "Verif.CmdLine.C106_server",
    "Verif.CmdLine.C106_bootstrap",
    "Verif.CmdLine.C106_add_malformed_partial",
    "Verif.CmdLine.C106_index_ignored",
    "Verif.CmdLine.C106_host",
    "Verif.CmdLine.C106_add_half",
    "Verif.CmdLine.C106_number_misread"
   ],
   "note": "Refuted: an add_voter with a voter written wrongly adds the others (C106_add_half), a wrong number is sent as 0 (C106_number_misread). Proved for all arguments: proper commands send what they say to the typed port, others send nothing, nothing panics, bootstrap is all or nothing."
  },
  {
   "property": "C107",
   "status": "partial",
   "theorems": [
    "Verif.Identity.C107_pick",
    "Verif.Identity.C107_host",
    "Verif.Identity.C107_brackets",
    "Verif.Identity.C107_once",
    "Verif.Identity.C107_detected",
    "Verif.Identity.C107_no_ipv6",
    "Verif.Identity.C107_sid_stable",
    "Verif.Identity.C107_same_id",
    "Verif.Identity.C107_apart",
    "Verif.Identity.C107_partial",
    "Verif.Identity.C107_moved",
    "Verif.Identity.C107_statement_fails",
    "Verif.Identity.C107_meta_id",
    "Verif.Identity.C107_raft_address",
    "Verif.Identity.C107_found",
    "Verif.Identity.C107_found_only",
    "Verif.Identity.C107_group_partial",
    "Verif.Identity.C107_alone",
    "Verif.Identity.C107_group_statement_fails",
    "Verif.Identity.C107_not_listed",
    "Verif.Identity.C107_stays",
    "Verif.Identity.C107_stale_address",
    "Verif.Identity.C107_new_group",
    "Verif.Identity.C107_perf_file"
   ],
   "note": "Refuted: a changed address without configured id loses the files (C107_statement_fails) and an empty node list splits the group (C107_group_statement_fails). Proved for all configurations and runs: with a configured id or address, or an unchanged address, all objects are there after every restart; the exact condition for the same id; one group for a non-empty list."
  },
  {
   "property": "C108",
   "status": "partial",
   "theorems": [
    "Verif.Console.C108_api",
    "Verif.Console.C108_file",
    "Verif.Console.C108_start",
    "Verif.Console.C108_replaced",
    "Verif.Console.C108_only",
    "Verif.Console.C108_page_partial",
    "Verif.Console.C108_one_redirect",
    "Verif.Console.C108_circle",
    "Verif.Console.C108_unescaped",
    "Verif.Console.C108_statement_fails",
    "Verif.Console.C108_shadowed",
    "Verif.Console.C108_config",
    "Verif.Console.C108_config_range",
    "Verif.Console.C108_plain_range"
   ],
   "note": "Refuted for pages whose path has & # % or + (C108_statement_fails). Proved for all sites, routes, paths and queries: the rest of the statement, and the pages without these characters; C108_one_redirect needs the start page to be embedded (C108_circle otherwise)."
  },
  {
   "property": "C109",
   "status": "partial",
   "theorems": [
    "Verif.DbFile.C109_starts",
    "Verif.DbFile.C109_open",
    "Verif.DbFile.C109_seen",
    "Verif.DbFile.C109_recovers",
    "Verif.DbFile.C109_stop_partial",
    "Verif.DbFile.C109_plain",
    "Verif.DbFile.C109_race",
    "Verif.DbFile.C109_statement_fails",
    "Verif.DbFile.C109_crash",
    "Verif.DbFile.C109_path",
    "Verif.DbFile.C109_full"
   ],
   "note": "Refuted for an orderly stop while the first file is still to be removed (C109_statement_fails). Proved for all executions: the rest, and the stop when that file has been removed."
  },
  {
   "property": "C11",
   "status": "proved",
   "theorems": [
    "Verif.Codec.C11_int_roundtrip"
   ],
   "note": ""
  },
  {
   "property": "C110",
   "status": "partial",
   "theorems": [
    "Verif.Bodies.C110_careful",
    "Verif.Bodies.C110_statement_fails",
    "Verif.Bodies.C110_careless",
    "Verif.Bodies.C110_verify",
    "Verif.Bodies.C110_peers",
    "Verif.Bodies.C110_admin_download",
    "Verif.Bodies.C110_streams",
    "Verif.Bodies.C110_copy",
    "Verif.Bodies.C110_copy_partial",
    "Verif.Bodies.C110_copy_fails",
    "Verif.Bodies.C110_again",
    "Verif.Bodies.C110_get_copy",
    "Verif.Bodies.C110_rs",
    "Verif.Bodies.C110_rs_partial",
    "Verif.Bodies.C110_broken_off",
    "Verif.Bodies.C110_rs_fails"
   ],
   "note": "Refuted for the validator (C110_statement_fails), for answers other than 200 to downloads (C110_copy_fails) and for broken Reed-Solomon downloads (C110_rs_fails). Proved for all executions: 26 functions give everything back, and the exact number of bodies left by all others."
  },
  {
   "property": "C111",
   "status": "partial",
   "theorems": [
    "Verif.Remains.C111_rollback_partial",
    "Verif.Remains.C111_stored",
    "Verif.Remains.C111_success",
    "Verif.Remains.C111_refused",
    "Verif.Remains.C111_unflushed",
    "Verif.Remains.C111_orphans",
    "Verif.Remains.C111_statement_fails",
    "Verif.Remains.C111_lost_error",
    "Verif.Remains.C111_wait",
    "Verif.Remains.C111_wait_ends",
    "Verif.Remains.C111_wait_leaks",
    "Verif.Remains.C111_open_partial",
    "Verif.Remains.C111_open_stuck",
    "Verif.Remains.C111_open_ends",
    "Verif.Remains.C111_open_fails",
    "Verif.Remains.C111_open_hang",
    "Verif.Remains.C111_lost_refusal"
   ],
   "note": "Refuted for uploads (C111_statement_fails) and for opening downloads (C111_open_fails). Proved for all executions: nothing is left after a failed verification if the servers answer; what is stored was verified and written; exactly what remains in the other cases."
  },
  {
   "property": "C112",
   "status": "partial",
   "theorems": [
    "Verif.Perf.Clear.C112_both_partial",
    "Verif.Perf.Clear.C112_both_takes_more",
    "Verif.Perf.Clear.C112_statement_fails",
    "Verif.Perf.Clear.C112_one_refused",
    "Verif.Perf.Clear.C112_any_cursor",
    "Verif.Perf.Clear.C112_skipping_leaves",
    "Verif.Perf.Clear.C112_all",
    "Verif.Perf.Clear.C112_all_fails",
    "Verif.Perf.Clear.C112_etcd_one",
    "Verif.Perf.Clear.C112_etcd_one_partial",
    "Verif.Perf.Clear.C112_etcd_all",
    "Verif.Perf.Clear.C112_etcd_others",
    "Verif.Perf.Clear.C112_etcd_panics",
    "Verif.Perf.Clear.C112_etcd_takes_more",
    "Verif.Perf.Clear.C112_absent",
    "Verif.Perf.Clear.C112_etcd_failed",
    "Verif.Perf.Clear.C112_all_reported"
   ],
   "note": "Refuted in general (C112_statement_fails, for every cursor). Proved for all sequences of puts and clears by both conditions over names none of which starts another, with a cursor that goes on rightly; for one clear with any cursor; for the etcd store with an action named."
  },
  {
   "property": "C113",
   "status": "partial",
   "theorems": [
    "Verif.Object.Race.C113_alone_partial",
    "Verif.Object.Race.C113_commits_partial",
    "Verif.Object.Race.C113_small_partial",
    "Verif.Object.Race.C113_nothing_partial",
    "Verif.Object.Race.C113_cut",
    "Verif.Object.Race.C113_failed_stays",
    "Verif.Object.Race.C113_read_early",
    "Verif.Object.Race.C113_mixed",
    "Verif.Object.Race.C113_whole_fails",
    "Verif.Object.Race.C113_statement_fails",
    "Verif.Object.Race.C113_deleted"
   ],
   "note": "Refuted (bodies that break off, two writers at once, readers during a write). Proved for all interleavings of any number of requests: commits, deletions and reads without PUT; PUTs with whole bodies if no file is opened while somebody else writes; shards that fit into one buffer even if several write at once, except that a reader may get nothing."
  },
  {
   "property": "C114",
   "status": "partial",
   "theorems": [
    "Verif.Object.Direct.C114_read_iff",
    "Verif.Object.Direct.C114_append",
    "Verif.Object.Direct.C114_writes",
    "Verif.Object.Direct.C114_shard_partial",
    "Verif.Object.Direct.C114_shard_refused",
    "Verif.Object.Direct.C114_small_objects",
    "Verif.Object.Direct.C114_write_address",
    "Verif.Object.Direct.C114_negative",
    "Verif.Object.Direct.C114_statement_fails"
   ],
   "note": "Refuted for reads of fewer than 32 KB whose length is not a multiple of the block size (C114_statement_fails). Proved: exactly which reads are answered; all writes are accepted if the buffer is aligned."
  },
  {
   "property": "C115",
   "status": "partial",
   "theorems": [
    "Verif.Object.CacheRace.C115_exact_partial",
    "Verif.Object.CacheRace.C115_gone_partial",
    "Verif.Object.CacheRace.C115_large",
    "Verif.Object.CacheRace.C115_late_set",
    "Verif.Object.CacheRace.C115_late_put",
    "Verif.Object.CacheRace.C115_early_read",
    "Verif.Object.CacheRace.C115_statement_fails",
    "Verif.Object.CacheRace.C115_lost",
    "Verif.Object.CacheRace.C115_put_cached"
   ],
   "note": "Refuted (a deletion before the goroutine of an earlier request has run; a read during a write). Proved for all interleavings: the cache holds only the whole shard if no request reads the file while it is written; nothing is delivered without a file if deletions begin when nothing else is going on; shards above the limit are never cached."
  },
  {
   "property": "C116",
   "status": "partial",
   "theorems": [
    "Verif.Ui.C116_window",
    "Verif.Ui.C116_reach",
    "Verif.Ui.C116_rows_partial",
    "Verif.Ui.C116_server_page",
    "Verif.Ui.C116_stuck",
    "Verif.Ui.C116_search_empty",
    "Verif.Ui.C116_search_stuck",
    "Verif.Ui.C116_late_answer",
    "Verif.Ui.C116_statement_fails"
   ],
   "note": "Refuted (a search keeps the selected page and can leave the pager without effect; a late answer replaces that of a later request). Proved: the selected number is always on display; exactly when every page can be chosen and that otherwise no control has an effect; the rows are those of the selection if nothing is chosen while an answer is awaited; the page is the one that the administration server cuts out."
  },
  {
   "property": "C117",
   "status": "partial",
   "theorems": [
    "Verif.Ui.Session.C117_header",
    "Verif.Ui.Session.C117_name_ignored",
    "Verif.Ui.Session.C117_login_iff",
    "Verif.Ui.Session.C117_same_partial",
    "Verif.Ui.Session.C117_locked_out",
    "Verif.Ui.Session.C117_password_shown",
    "Verif.Ui.Session.C117_kept",
    "Verif.Ui.Session.C117_signed_out",
    "Verif.Ui.Session.C117_signed_out_served",
    "Verif.Ui.Session.C117_statement_fails",
    "Verif.Ui.Session.C117_logout_dialog",
    "Verif.Ui.Session.C117_logout_cookie",
    "Verif.Ui.Session.C117_reload",
    "Verif.Ui.Session.C117_login_reload"
   ],
   "note": "Refuted: the password is sent as user name, so that only clusters where both are the same can be signed in at. Proved: exactly when the dialog closes; the store and the header carry what they are given; refused credentials are never kept; none is sent after signing out."
  },
  {
   "property": "C118",
   "status": "partial",
   "theorems": [
    "Verif.Ui.Requests.C118_partial",
    "Verif.Ui.Requests.C118_download_partial",
    "Verif.Ui.Requests.C118_delete_partial",
    "Verif.Ui.Requests.C118_decoded",
    "Verif.Ui.Requests.C118_slash",
    "Verif.Ui.Requests.C118_uploaded_slash",
    "Verif.Ui.Requests.C118_uploaded_comma",
    "Verif.Ui.Requests.C118_removes_other",
    "Verif.Ui.Requests.C118_blanks",
    "Verif.Ui.Requests.C118_download_query",
    "Verif.Ui.Requests.C118_download_hash",
    "Verif.Ui.Requests.C118_download_amp",
    "Verif.Ui.Requests.C118_dots",
    "Verif.Ui.Requests.C118_climb",
    "Verif.Ui.Requests.C118_statement_fails"
   ],
   "note": "Refuted for names with %, ?, #, &, dots, backslashes or a blank at the end, each with what happens instead. Proved for all other names, up to the request that the API server reads and the bucket that is removed."
  },
  {
   "property": "C119",
   "status": "partial",
   "theorems": [
    "Verif.Ui.Slots.C119_form_partial",
    "Verif.Ui.Slots.C119_sent",
    "Verif.Ui.Slots.C119_form_fails",
    "Verif.Ui.Slots.C119_bars",
    "Verif.Ui.Slots.C119_offset_partial",
    "Verif.Ui.Slots.C119_click_partial",
    "Verif.Ui.Slots.C119_unknown_source",
    "Verif.Ui.Slots.C119_bars_fail",
    "Verif.Ui.Slots.C119_click_fails",
    "Verif.Ui.Slots.C119_statement_fails",
    "Verif.Ui.Slots.C119_statement_bars_fail"
   ],
   "note": "Proved that the bars are the routing table, that a text is a list of ranges exactly if both the form and the server accept it, and that nothing else is migrated. Refuted: the form lets other texts pass, gaps move bars, and with raft a click chooses a name that is no server's; the cases in which these parts hold are proved."
  },
  {
   "property": "C12",
   "status": "partial",
   "theorems": [
    "Verif.DataSize.C12_statement_fails",
    "Verif.DataSize.C12_parse_partial"
   ],
   "note": "Fails where the multiplication wraps at 2^64; proved below that bound."
  },
  {
   "property": "C120",
   "status": "partial",
   "theorems": [
    "Verif.Ui.Charts.C120_point",
    "Verif.Ui.Charts.C120_mean_partial",
    "Verif.Ui.Charts.C120_between",
    "Verif.Ui.Charts.C120_last_half",
    "Verif.Ui.Charts.C120_three",
    "Verif.Ui.Charts.C120_order",
    "Verif.Ui.Charts.C120_shifted",
    "Verif.Ui.Charts.C120_alarms_partial",
    "Verif.Ui.Charts.C120_alarms_hidden",
    "Verif.Ui.Charts.C120_sums",
    "Verif.Ui.Charts.C120_pie_partial",
    "Verif.Ui.Charts.C120_pie_fails",
    "Verif.Ui.Charts.C120_statement_fails",
    "Verif.Ui.Charts.C120_statement_parts_fail",
    "Verif.Ui.Charts.C120_alarms_early"
   ],
   "note": "Each part is refuted: three or more servers, servers started at different times, alarms before the first click, the pie after the first answer. Proved: what a point is made of for all timelines, the mean for one or two servers with common times, the bounds of every point, the messages after a selection, the sums."
  },
  {
   "property": "C121",
   "status": "partial",
   "theorems": [
    "Verif.Ui.Buckets.C121_delete",
    "Verif.Ui.Buckets.C121_sent",
    "Verif.Ui.Buckets.C121_removed",
    "Verif.Ui.Buckets.C121_table_partial",
    "Verif.Ui.Buckets.C121_form_partial",
    "Verif.Ui.Buckets.C121_closed_partial",
    "Verif.Ui.Buckets.C121_table_fails",
    "Verif.Ui.Buckets.C121_form_fails",
    "Verif.Ui.Buckets.C121_closed_fails",
    "Verif.Ui.Buckets.C121_twice",
    "Verif.Ui.Buckets.C121_statement_fails"
   ],
   "note": "Proved for all executions: what is removed was chosen and every request carries what its dialog showed. The other parts are refuted and proved under the conditions under which they hold (nothing typed into the dialog of a row, no deletion given up, no request on its way)."
  },
  {
   "property": "C122",
   "status": "partial",
   "theorems": [
    "Verif.DriveRace.C122_always",
    "Verif.DriveRace.C122_updated_partial",
    "Verif.DriveRace.C122_settled_partial",
    "Verif.DriveRace.C122_search_misses",
    "Verif.DriveRace.C122_listing_misses",
    "Verif.DriveRace.C122_drive_lost",
    "Verif.DriveRace.C122_stays_lost",
    "Verif.DriveRace.C122_wrong_choice",
    "Verif.DriveRace.C122_statement_fails"
   ],
   "note": "Refuted for requests that overlap with the first selection after an update. Proved for all interleavings: nothing but drives of the update, no wrong positive answer, no panic; everything is right until the first selection begins, and after one selection that ran alone, however many requests overlap then."
  },
  {
   "property": "C123",
   "status": "partial",
   "theorems": [
    "Verif.Maps.C123_guarded",
    "Verif.Maps.C123_writers",
    "Verif.Maps.C123_one_writer",
    "Verif.Maps.C123_read_only",
    "Verif.Maps.C123_lists_partial",
    "Verif.Maps.C123_services_partial",
    "Verif.Maps.C123_combine_race",
    "Verif.Maps.C123_construction_race",
    "Verif.Maps.C123_selectors_partial",
    "Verif.Maps.C123_selector_race",
    "Verif.Maps.C123_stat_init_partial",
    "Verif.Maps.C123_stat_inner_partial",
    "Verif.Maps.C123_stat_race",
    "Verif.Maps.C123_errors",
    "Verif.Maps.C123_set_partial",
    "Verif.Maps.C123_set_race",
    "Verif.Maps.C123_statement_fails"
   ],
   "note": "Refuted for the service lists (combine), the selectors and the figures of the admin server. Proved for all histories: the four disciplines (guarded, writers guarded, one writer, read only) and for each map the operations that keep to one."
  },
  {
   "property": "C124",
   "status": "partial",
   "theorems": [
    "Verif.Logs.C124_levels",
    "Verif.Logs.C124_other_names",
    "Verif.Logs.C124_errors_printed",
    "Verif.Logs.C124_monotone_partial",
    "Verif.Logs.C124_trace_prints_less",
    "Verif.Logs.C124_gin",
    "Verif.Logs.C124_mails",
    "Verif.Logs.C124_mailed_partial",
    "Verif.Logs.C124_last_words_lost",
    "Verif.Logs.C124_admin_silent",
    "Verif.Logs.C124_incomplete_silent",
    "Verif.Logs.C124_port",
    "Verif.Logs.C124_markup",
    "Verif.Logs.C124_statement_fails"
   ],
   "note": "Proved: errors are printed at every level; every serious entry has exactly one mail, sent, lost or under way, and when the process does not end and SMTP does not fail all are sent. Refuted: the last message of a process, the admin server, transaction times at level trace, messages as text."
  },
  {
   "property": "C125",
   "status": "partial",
   "theorems": [
    "Verif.Pages.C125_fresh",
    "Verif.Pages.C125_survives_one",
    "Verif.Pages.C125_open",
    "Verif.Pages.C125_shift",
    "Verif.Pages.C125_find_copied",
    "Verif.Pages.C125_find_partial",
    "Verif.Pages.C125_find_panics",
    "Verif.Pages.C125_migrate_copied",
    "Verif.Pages.C125_migrate_partial",
    "Verif.Pages.C125_wrong_bucket",
    "Verif.Pages.C125_value_changes",
    "Verif.Pages.C125_statement_fails"
   ],
   "note": "Proved: a slice is right until its page is used again, which takes two write transactions and no open reader; with copies FindByHash and migrateBuckets are right for all histories; as they are, they are right with at most one stale entry, and before the first removal. Refuted: two stale entries, removals while buckets are sent, values of buckets."
  },
  {
   "property": "C126",
   "status": "partial",
   "theorems": [
    "Verif.Admin.Gather.C126_waits_for_all",
    "Verif.Admin.Gather.C126_error_is_real",
    "Verif.Admin.Gather.C126_all_good",
    "Verif.Admin.Gather.C126_waiting_partial",
    "Verif.Admin.Gather.C126_error_lost",
    "Verif.Admin.Gather.C126_repair",
    "Verif.Admin.Gather.C126_page_partial",
    "Verif.Admin.Gather.C126_page_hides",
    "Verif.Admin.Gather.C126_stat_partial",
    "Verif.Admin.Gather.C126_stat_null",
    "Verif.Admin.Gather.C126_etcd",
    "Verif.Admin.Gather.C126_etcd_hides",
    "Verif.Admin.Gather.C126_statement_fails"
   ],
   "note": "Proved: an answer without error has the parts of all servers that did not fail, an error is the one reported first, without failures there is no error; with the handler waiting first no failure is lost. Refuted: for every set of failures an answer without error is possible."
  },
  {
   "property": "C127",
   "status": "partial",
   "theorems": [
    "Verif.Api.Spread.C127_member",
    "Verif.Api.Spread.C127_same_second",
    "Verif.Api.Spread.C127_one_server",
    "Verif.Api.Spread.C127_at_most_one_per_second",
    "Verif.Api.Spread.C127_read_is_select",
    "Verif.Api.Spread.C127_reads",
    "Verif.Api.Spread.C127_uploads",
    "Verif.Api.Spread.C127_overlap",
    "Verif.Api.Spread.C127_statement_fails",
    "Verif.Api.Spread.C127_repair"
   ],
   "note": "Proved: a server of the list is chosen. Refuted: the choice depends on the second and the list only, so any number of reads in a second goes to one member; with the seed set once the numbers are used one after the other."
  },
  {
   "property": "C128",
   "status": "partial",
   "theorems": [
    "Verif.CacheKeys.C128_three_tables_partial",
    "Verif.CacheKeys.C128_own_file",
    "Verif.CacheKeys.C128_record_read",
    "Verif.CacheKeys.C128_put_lost",
    "Verif.CacheKeys.C128_mark_read",
    "Verif.CacheKeys.C128_forged",
    "Verif.CacheKeys.C128_cleaner",
    "Verif.CacheKeys.C128_statement_fails"
   ],
   "note": "Proved (refinement): for all requests whose names are neither identifiers nor marks, which is so for requests of the API servers, the cache is equivalent to three tables. Refuted for other names: records are shown, forged, and used to read and write any file."
  },
  {
   "property": "C129",
   "status": "partial",
   "theorems": [
    "Verif.Escape.C129_path",
    "Verif.Escape.C129_distinct",
    "Verif.Escape.C129_confined_partial",
    "Verif.Escape.C129_nothing_read_partial",
    "Verif.Escape.C129_request_partial",
    "Verif.Escape.C129_own_requests",
    "Verif.Escape.C129_any_path",
    "Verif.Escape.C129_reads_any",
    "Verif.Escape.C129_creates_any",
    "Verif.Escape.C129_replaces_any",
    "Verif.Escape.C129_read_request",
    "Verif.Escape.C129_write_request",
    "Verif.Escape.C129_by_request",
    "Verif.Escape.C129_remove_root",
    "Verif.Escape.C129_statement_fails",
    "Verif.Escape.C129_delete_limits"
   ],
   "note": "Proved: confinement and noninterference for all sequences of operations whose names are components of paths, which holds for requests of the API servers. Refuted for other names: every file can be read and replaced."
  },
  {
   "property": "C13",
   "status": "proved",
   "theorems": [
    "Verif.Admin.C13_page",
    "Verif.Admin.C13_walk",
    "Verif.Admin.C13_complete",
    "Verif.Admin.C13_negative_page_panics"
   ],
   "note": "for page >= 1; negative page numbers (accepted by the request binding) panic"
  },
  {
   "property": "C130",
   "status": "partial",
   "theorems": [
    "Verif.Ui.Versions.C130_partial",
    "Verif.Ui.Versions.C130_exact",
    "Verif.Ui.Versions.C130_last_asked",
    "Verif.Ui.Versions.C130_other_object",
    "Verif.Ui.Versions.C130_stays",
    "Verif.Ui.Versions.C130_reopens",
    "Verif.Ui.Versions.C130_page_kept",
    "Verif.Ui.Versions.C130_repair",
    "Verif.Ui.Versions.C130_statement_fails"
   ],
   "note": "Proved: downloads are right if no request for versions is sent while another is on its way; what is asked for in general. Refuted for overlapping requests: a version of another object is downloaded."
  },
  {
   "property": "C131",
   "status": "proved",
   "theorems": [
    "Verif.Meta.Encoded.C131_refines",
    "Verif.Meta.Encoded.C131_no_decode_error",
    "Verif.Meta.Encoded.C131_reads",
    "Verif.Meta.Encoded.C131_faithful",
    "Verif.Meta.Encoded.C131_log",
    "Verif.Meta.Encoded.C131_same_bytes",
    "Verif.Meta.Encoded.C131_apply",
    "Verif.Meta.Encoded.C131_damaged",
    "Verif.Meta.Encoded.C131_damaged_record",
    "Verif.Meta.Encoded.C131_damaged_find"
   ],
   "note": "Refinement of the store of records by the store of bytes, and of the log of commands by the log of bytes, for all histories whose fields fit their Go types."
  },
  {
   "property": "C132",
   "status": "partial",
   "theorems": [
    "Verif.Object.Power.C132_process_partial",
    "Verif.Object.Power.C132_in_order_partial",
    "Verif.Object.Power.C132_written_back",
    "Verif.Object.Power.C132_gone",
    "Verif.Object.Power.C132_short",
    "Verif.Object.Power.C132_direct_part",
    "Verif.Object.Power.C132_never_heals",
    "Verif.Object.Power.C132_repair",
    "Verif.Object.Power.C132_statement_fails"
   ],
   "note": "Refuted for losses of power. Proved: ends of the process lose nothing; what is on the drive stays and is never changed; with ordered write-back shards committed by renaming are whole or absent; a commit that syncs keeps the full statement for uploads through temporary files."
  },
  {
   "property": "C133",
   "status": "partial",
   "theorems": [
    "Verif.Meta.Faults.C133_no_fault_partial",
    "Verif.Meta.Faults.C133_prefix",
    "Verif.Meta.Faults.C133_harmless",
    "Verif.Meta.Faults.C133_other_content",
    "Verif.Meta.Faults.C133_restart_exchanges",
    "Verif.Meta.Faults.C133_error_applied",
    "Verif.Meta.Faults.C133_sync_unnoticed",
    "Verif.Meta.Faults.C133_repair",
    "Verif.Meta.Faults.C133_statement_fails"
   ],
   "note": "Proved without failures (the state machine of C27), up to the first failure, and for failures of entries without effect. Refuted otherwise."
  },
  {
   "property": "C134",
   "status": "partial",
   "theorems": [
    "Verif.System.C134_never_freed_partial",
    "Verif.System.C134_all_removed",
    "Verif.System.C134_statement_fails",
    "Verif.System.C134_repair",
    "Verif.System.C134_repair_race",
    "Verif.System.C134_collected"
   ],
   "note": "Refuted: nothing is ever deleted. Proved: files never change or vanish, so no referenced content is deleted either."
  },
  {
   "property": "C135",
   "status": "partial",
   "theorems": [
    "Verif.BigDigest.C135_never_recorded_partial",
    "Verif.BigDigest.C135_upload_lost",
    "Verif.BigDigest.C135_statement_fails",
    "Verif.BigDigest.C135_unverified",
    "Verif.BigDigest.C135_poisons",
    "Verif.BigDigest.C135_empty_name",
    "Verif.BigDigest.C135_repair",
    "Verif.BigDigest.C135_names_alone",
    "Verif.BigDigest.C135_panics"
   ],
   "note": "Refuted: with checksums nothing is ever recorded. Proved: nothing with a wrong digest is recorded then (because nothing is); the repaired comparison is right."
  },
  {
   "property": "C136",
   "status": "partial",
   "theorems": [
    "Verif.Object.PowerCode.C136_blocks_partial",
    "Verif.Object.PowerCode.C136_in_order_partial",
    "Verif.Object.PowerCode.C136_cut",
    "Verif.Object.PowerCode.C136_short_fails",
    "Verif.Object.PowerCode.C136_one_server",
    "Verif.Object.PowerCode.C136_wrong_bytes",
    "Verif.Object.PowerCode.C136_statement_fails",
    "Verif.Object.PowerCode.C136_repair",
    "Verif.Object.PowerCode.C136_power_repair"
   ],
   "note": "Refuted: one file that ends within a block makes the object unreadable, and files cut at the same place deliver wrong bytes. Proved: files cut at the end of a block or not at all; a decoder that takes pieces of the wrong size for missing, for every cut."
  },
  {
   "property": "C137",
   "status": "partial",
   "theorems": [
    "Verif.Object.PowerCopy.C137_first_copy",
    "Verif.Object.PowerCopy.C137_prefix_partial",
    "Verif.Object.PowerCopy.C137_in_order_partial",
    "Verif.Object.PowerCopy.C137_cut",
    "Verif.Object.PowerCopy.C137_spreads",
    "Verif.Object.PowerCopy.C137_spread_short",
    "Verif.Object.PowerCopy.C137_lost",
    "Verif.Object.PowerCopy.C137_empty",
    "Verif.Object.PowerCopy.C137_statement_fails",
    "Verif.Object.PowerCopy.C137_repair"
   ],
   "note": "Refuted: a cut copy hides the whole ones after it, and repairing from it forgets them. Proved: kernels that write back in order; a reader that takes short copies for missing, for every cut."
  },
  {
   "property": "C138",
   "status": "partial",
   "theorems": [
    "Verif.DiskInfo.C138_adds_up",
    "Verif.DiskInfo.C138_used",
    "Verif.DiskInfo.C138_exact",
    "Verif.DiskInfo.C138_root_partial",
    "Verif.DiskInfo.C138_blind",
    "Verif.DiskInfo.C138_counted_again",
    "Verif.DiskInfo.C138_full",
    "Verif.DiskInfo.C138_statement_fails",
    "Verif.DiskInfo.C138_repair"
   ],
   "note": "Refuted: the page adds up the root directories of the machines. Proved: the sizes of one file system for every report; the page for servers that store on the root of a machine of their own; the page if servers report the drives of their tables."
  },
  {
   "property": "C139",
   "status": "partial",
   "theorems": [
    "Verif.Object.PowerMove.C139_until_deleted",
    "Verif.Object.PowerMove.C139_answer",
    "Verif.Object.PowerMove.C139_before_answer_partial",
    "Verif.Object.PowerMove.C139_written_back",
    "Verif.Object.PowerMove.C139_repair",
    "Verif.Object.PowerMove.C139_lost",
    "Verif.Object.PowerMove.C139_between",
    "Verif.Object.PowerMove.C139_statement_fails",
    "Verif.Object.PowerMove.C139_again_partial"
   ],
   "note": "Refuted: the receiver answers before anything is on its drive, and the sender deletes. Proved for all histories: nothing is lost until the deletion, nor if the receiver keeps its power after its answer or its kernel wrote back; the statement with a sync before the answer."
  },
  {
   "property": "C14",
   "status": "partial",
   "theorems": [
    "Verif.Admin.C14_buckets_partial",
    "Verif.Admin.C14_buckets_walk_partial",
    "Verif.Admin.C14_beyond_limit_refused",
    "Verif.Admin.C14_objects_statement_fails",
    "Verif.Admin.C14_one_bucket_statement_fails",
    "Verif.Admin.C14_objects_partial",
    "Verif.Admin.C14_totals"
   ],
   "note": "buckets proved up to entry 10000 (beyond that refused); objects fail because ID() order differs from key order (witnesses), proved when the orders agree"
  },
  {
   "property": "C140",
   "status": "partial",
   "theorems": [
    "Verif.Ticks.C140_rate",
    "Verif.Ticks.C140_burst",
    "Verif.Ticks.C140_at_once",
    "Verif.Ticks.C140_exact",
    "Verif.Ticks.C140_quiet_partial",
    "Verif.Ticks.C140_stops",
    "Verif.Ticks.C140_late",
    "Verif.Ticks.C140_stuck",
    "Verif.Ticks.C140_starts_partial",
    "Verif.Ticks.C140_feeder",
    "Verif.Ticks.C140_add_up",
    "Verif.Ticks.C140_statement_fails",
    "Verif.Ticks.C140_parts_fail",
    "Verif.Ticks.C140_repair",
    "Verif.Ticks.C140_repair_alive"
   ],
   "note": "Proved for all interleavings: the pace, the updates owed, silence once stop was seen. Refuted: the start can wait for ever, updates can follow stop, and the goroutine and the ticker of every start stay for ever. With a feeder that watches for stop everything ends."
  },
  {
   "property": "C141",
   "status": "partial",
   "theorems": [
    "Verif.Cut.C141_blind",
    "Verif.Cut.C141_other_object",
    "Verif.Cut.C141_nothing",
    "Verif.Cut.C141_headers",
    "Verif.Cut.C141_text",
    "Verif.Cut.C141_early",
    "Verif.Cut.C141_drive",
    "Verif.Cut.C141_object_partial",
    "Verif.Cut.C141_console_partial",
    "Verif.Cut.C141_at_worst",
    "Verif.Cut.C141_console_text",
    "Verif.Cut.C141_console_refused",
    "Verif.Cut.C141_statement_fails",
    "Verif.Cut.C141_console_statement_fails",
    "Verif.Cut.C141_repair",
    "Verif.Cut.C141_repair_works"
   ],
   "note": "Refuted: after the first byte every error is answered with 200 in order, before it by the API server too. Proved: what clients get for every failure; the object while nothing fails, through all hops; the statement for handlers that end the connection."
  },
  {
   "property": "C142",
   "status": "partial",
   "theorems": [
    "Verif.MovingWrites.C142_careful_partial",
    "Verif.MovingWrites.C142_under_way",
    "Verif.MovingWrites.C142_unlisted",
    "Verif.MovingWrites.C142_gap",
    "Verif.MovingWrites.C142_old_table",
    "Verif.MovingWrites.C142_statement_fails",
    "Verif.MovingWrites.C142_read_again",
    "Verif.MovingWrites.C142_repair",
    "Verif.MovingWrites.C142_repair_works"
   ],
   "note": "Refuted: writes under way when the migration starts, writes between lines 251 and 262, and writes of a source whose table is old are answered with success and missing at the new owner. Proved: nothing else is missing; the statement for a source that waits for writes and leaves migrate-to last."
  },
  {
   "property": "C143",
   "status": "partial",
   "theorems": [
    "Verif.MovingWrites.C143_target_partial",
    "Verif.MovingWrites.C143_source_partial",
    "Verif.MovingWrites.C143_not_found",
    "Verif.MovingWrites.C143_table",
    "Verif.MovingWrites.C143_nobody",
    "Verif.MovingWrites.C143_statement_fails",
    "Verif.MovingWrites.C143_careful_fails",
    "Verif.MovingWrites.C143_after",
    "Verif.MovingWrites.C143_repair"
   ],
   "note": "Refuted: from the removal of an object on, and until its table is renewed, the source answers reads with not found. Proved: answers before the removal and answers of the target are complete; the statement for a source that removes last."
  },
  {
   "property": "C144",
   "status": "partial",
   "theorems": [
    "Verif.Half.C144_kept",
    "Verif.Half.C144_latest",
    "Verif.Half.C144_clean_partial",
    "Verif.Half.C144_whole_partial",
    "Verif.Half.C144_half",
    "Verif.Half.C144_lost",
    "Verif.Half.C144_twice",
    "Verif.Half.C144_again",
    "Verif.Half.C144_statement_fails",
    "Verif.Half.C144_clean_fails",
    "Verif.Half.C144_repair",
    "Verif.Half.C144_repair_works",
    "Verif.Half.C144_limit",
    "Verif.Half.C144_insert_lost",
    "Verif.Half.C144_second_read"
   ],
   "note": "Refuted: an upload that fails between its two calls leaves an object without version; lost answers leave versions of failed uploads. Proved for all executions: acknowledged uploads stay or are followed by later ones, the newest version is never removed; the other two parts without failures; the first part for one call."
  },
  {
   "property": "C145",
   "status": "partial",
   "theorems": [
    "Verif.Watch.C145_change_partial",
    "Verif.Watch.C145_right_partial",
    "Verif.Watch.C145_missed",
    "Verif.Watch.C145_gone",
    "Verif.Watch.C145_forever",
    "Verif.Watch.C145_rounds",
    "Verif.Watch.C145_parts_fail",
    "Verif.Watch.C145_statement_fails",
    "Verif.Watch.C145_repair_right",
    "Verif.Watch.C145_repair_lives",
    "Verif.Watch.C145_first"
   ],
   "note": "Refuted in all three parts: changes between two watches are never learned, a failed first read ends discovery of the service, Close ends nothing. Proved: while a watch works all changes arrive and correct what was wrong; all parts for a goroutine that reads the list in every round."
  },
  {
   "property": "C146",
   "status": "partial",
   "theorems": [
    "Verif.Overlap.C146_twice",
    "Verif.Overlap.C146_mixed",
    "Verif.Overlap.C146_early",
    "Verif.Overlap.C146_statement_fails",
    "Verif.Overlap.C146_alone_partial",
    "Verif.Overlap.C146_repair",
    "Verif.Overlap.C146_cut_off"
   ],
   "note": "Refuted: parts that are sent twice at the same time are appended twice and committed; only the first data server is asked for the size. Proved: requests one after another, for any numbers of shards, blocks and requests; the statement for appends that name their place."
  },
  {
   "property": "C147",
   "status": "partial",
   "theorems": [
    "Verif.Recopy.C147_recorded",
    "Verif.Recopy.C147_again",
    "Verif.Recopy.C147_grows",
    "Verif.Recopy.C147_statement_fails",
    "Verif.Recopy.C147_whole_partial",
    "Verif.Recopy.C147_repair",
    "Verif.Recopy.C147_repair_once",
    "Verif.Recopy.C147_outage"
   ],
   "note": "Refuted: the server of a repaired shard is never recorded, so reads store it again and again. Proved: reads of whole objects write nothing; the statement if the server were recorded and none stops."
  },
  {
   "property": "C15",
   "status": "proved",
   "theorems": [
    "Verif.Meta.C15_create_refused",
    "Verif.Meta.C15_create_fresh",
    "Verif.Meta.C15_create_bad_name"
   ],
   "note": "over every store, one operation at a time; in raft mode the answer ErrExists is reported as success (see C27)"
  },
  {
   "property": "C16",
   "status": "proved",
   "theorems": [
    "Verif.Meta.C16_numbers_increase",
    "Verif.Meta.C16_number_above_stored",
    "Verif.Meta.C16_added_readable"
   ],
   "note": "over every reachable store and every history"
  },
  {
   "property": "C17",
   "status": "partial",
   "theorems": [
    "Verif.Meta.C17_statement_fails",
    "Verif.Meta.C17_latest_is_textual_max",
    "Verif.Meta.C17_latest_partial",
    "Verif.Meta.C17_named",
    "Verif.Meta.C17_no_version",
    "Verif.Meta.C17_first_last_number"
   ],
   "note": "false as stated: with ten versions the latest is 9; proved when all numbers have the same digit count, and the exact behaviour (textual maximum) proved for all stores"
  },
  {
   "property": "C18",
   "status": "partial",
   "theorems": [
    "Verif.Meta.C18_statement_fails",
    "Verif.Meta.C18_removes_textual_min",
    "Verif.Meta.C18_below_limit",
    "Verif.Meta.C18_removes_oldest_partial",
    "Verif.Meta.C18_at_most_remains",
    "Verif.Meta.C18_concurrent_uploads_exceed_limit"
   ],
   "note": "false as stated: the eleventh upload removes version 10; the limit is proved for all numbers, the oldest-first order only for equal digit counts; overlapping uploads exceed the limit"
  },
  {
   "property": "C19",
   "status": "proved",
   "theorems": [
    "Verif.Meta.C19_metadata",
    "Verif.Meta.C19_version",
    "Verif.Meta.C19_version_number",
    "Verif.Meta.C19_any_order"
   ],
   "note": ""
  },
  {
   "property": "C20",
   "status": "proved",
   "theorems": [
    "Verif.Meta.C20_delete",
    "Verif.Meta.C20_recreate",
    "Verif.Meta.C20_remove_all_versions"
   ],
   "note": ""
  },
  {
   "property": "C21",
   "status": "partial",
   "theorems": [
    "Verif.Meta.C21_complete",
    "Verif.Meta.C21_returns_stored",
    "Verif.Meta.C21_statement_fails",
    "Verif.Meta.C21_relocate_wrong_version",
    "Verif.Meta.C21_exact_partial"
   ],
   "note": "lookup by hash returns every stored version; it is not exact (witnesses), exact under the stated condition"
  },
  {
   "property": "C22",
   "status": "partial",
   "theorems": [
    "Verif.Meta.C22_reuse_statement_fails",
    "Verif.Meta.C22_retry_statement_fails",
    "Verif.Meta.C22_at_most_once_partial"
   ],
   "note": "at most once holds while the first version is stored; after removal the id stays blocked because removeVer removes under the wrong key"
  },
  {
   "property": "C23",
   "status": "proved",
   "theorems": [
    "Verif.Meta.C23_entries_decode",
    "Verif.Meta.C23_roundtrip",
    "Verif.Meta.C23_injective",
    "Verif.Meta.C23_parsers",
    "Verif.Meta.C23_written"
   ],
   "note": ""
  },
  {
   "property": "C24",
   "status": "proved",
   "theorems": [
    "Verif.Meta.C24_error_changes_nothing"
   ],
   "note": ""
  },
  {
   "property": "C25",
   "status": "partial",
   "theorems": [
    "Verif.Meta.C25_statement_fails",
    "Verif.Meta.C25_text_order_fails",
    "Verif.Meta.C25_pages_partial"
   ],
   "note": "pages have one entry too many and overlap; ten and more versions follow text order; coverage and order proved for numbers below ten"
  },
  {
   "property": "C26",
   "status": "partial",
   "theorems": [
    "Verif.Meta.C26_entries",
    "Verif.Meta.C26_objects",
    "Verif.Meta.C26_buckets",
    "Verif.Meta.C26_total_statement_fails",
    "Verif.Meta.C26_total_partial",
    "Verif.Meta.C26_total_with_prefix"
   ],
   "note": "listing proved; the reported total is not the number of matches"
  },
  {
   "property": "C27",
   "status": "proved",
   "theorems": [
    "Verif.Meta.C27_groups",
    "Verif.Meta.C27_replicas_identical",
    "Verif.Meta.C27_incomplete_commands_fail",
    "Verif.Meta.C27_single_or_batch",
    "Verif.Meta.C27_log_refines_store",
    "Verif.Meta.C27_log_is_run",
    "Verif.Meta.C15_cluster_statement_fails",
    "Verif.Meta.C22_cluster_retry_answers_zero",
    "Verif.Meta.C27_nil_version_crashes",
    "Verif.Meta.C27_apply_one",
    "Verif.Meta.C27_apply_one_differs",
    "Verif.Meta.C27_command_number",
    "Verif.Meta.C27_crash_iff"
   ],
   "note": "Replicas applying the same log, grouped into batches in any way, hold the same store and answers."
  },
  {
   "property": "C28",
   "status": "partial",
   "theorems": [
    "Verif.Meta.C28_only_through_log_partial",
    "Verif.Meta.C28_follower_refuses_partial",
    "Verif.Meta.C28_leader_logs",
    "Verif.Meta.C28_statement_fails",
    "Verif.Meta.C28_relocation_bypasses_log",
    "Verif.Meta.C28_search_bypasses_log",
    "Verif.Meta.C28_lost_leadership_bypasses_log",
    "Verif.Meta.C28_leader_logs_each"
   ],
   "note": "Full statement refuted: relocation, search by hash and loss of leadership between check and write bypass the log. Proved for the remaining requests."
  },
  {
   "property": "C29",
   "status": "partial",
   "theorems": [
    "Verif.Meta.C29_nothing_lost_partial",
    "Verif.Meta.C29_refused_during_replacement",
    "Verif.Meta.C29_flag_during_replacement",
    "Verif.Meta.C29_restore_reproduces",
    "Verif.Meta.C29_statement_fails"
   ],
   "note": "Full statement refuted: a write that passed the flag check before the replacement is lost. Proved when no such write is under way."
  },
  {
   "property": "C30",
   "status": "partial",
   "theorems": [
    "Verif.Meta.C30_sequential_partial",
    "Verif.Meta.C30_statement_fails",
    "Verif.Meta.C30_fill_race",
    "Verif.Meta.C30_cluster_stale",
    "Verif.Meta.C30_restore_stale",
    "Verif.Meta.C30_relocate_stale",
    "Verif.Meta.C30_key_collision",
    "Verif.Meta.C30_version_ten_stale"
   ],
   "note": "Full statement refuted by six witnesses. Proved: refinement of the uncached store for sequential use with non-clashing names and textually ordered version numbers."
  },
  {
   "property": "C31",
   "status": "partial",
   "theorems": [
    "Verif.MigStatus.C31_at_most_one",
    "Verif.MigStatus.C31_second_refused",
    "Verif.MigStatus.C31_published_idle_partial",
    "Verif.MigStatus.C31_publish_race",
    "Verif.MigStatus.C31_idle_when_quiet_partial",
    "Verif.MigStatus.C31_ends",
    "Verif.MigStatus.C31_stuck_race",
    "Verif.MigStatus.C31_deferred_finish",
    "Verif.MigStatus.C31_stream_ends_other"
   ],
   "note": "At most one migration, refusal of a second one: proved for all interleavings of single statements. Return to idle and publication only when idle: proved with the methods of HashSlotDB uninterrupted; refuted statement by statement (C31_stuck_race, C31_publish_race). A late finish ends another migration (C31_deferred_finish, C31_stream_ends_other)."
  },
  {
   "property": "C32",
   "status": "partial",
   "theorems": [
    "Verif.Meta.C32_no_copy_lost_partial",
    "Verif.Meta.C32_success_partial",
    "Verif.Meta.C32_failed_item_hides",
    "Verif.Meta.C32_statement_fails",
    "Verif.Meta.C32_etcd_failure_hides",
    "Verif.Meta.C32_target_failure_hides",
    "Verif.Meta.C32_move_back_loses",
    "Verif.Meta.C32_times_rewritten",
    "Verif.Meta.C32_number_reused"
   ],
   "note": "For every failure of the connection and of etcd a complete copy survives on one of the servers, given a target without remains of the moving keys; after success it is on the server the table names. Refuted: after a failure the table may name the other server or none; slots moved away and back lose all versions."
  },
  {
   "property": "C33",
   "status": "partial",
   "theorems": [
    "Verif.Object.C33_round_trip",
    "Verif.Object.C33_pieces_irrelevant",
    "Verif.Object.C33_block_positive",
    "Verif.Object.C33_statement_fails",
    "Verif.Object.C33_tiny_object_hangs",
    "Verif.Object.C33_changed_block_size_corrupts",
    "Verif.Object.C33_data_servers_partial",
    "Verif.Object.C33_stream_config_aligned",
    "Verif.Object.C33_padding_corrupts"
   ],
   "note": "Round trip proved for every code meeting the reedsolomon contract, every shape with a positive block size, every chunking and every read buffer size, and on the real data server files when blocks are a multiple of 4096 bytes per shard. The stated property fails for the streams the service creates: an object with fewer bytes than data shards gets block size 0 and its upload never ends, a changed configured block size makes stored objects read back permuted, and with other block sizes the data servers' padding corrupts every object longer than one block."
  },
  {
   "property": "C34",
   "status": "partial",
   "theorems": [
    "Verif.Object.C34_survives",
    "Verif.Object.C34_never_wrong",
    "Verif.Object.C34_too_many_lost",
    "Verif.Object.C34_truncated_shard_unreadable",
    "Verif.Object.C34_truncated_shards_wrong_bytes",
    "Verif.Object.C34_flipped_byte_delivered"
   ],
   "note": "Proved for lost shards, including servers failing during the read. Damaged (truncated, altered) shard files are not covered by the property's proof: counterexamples given."
  },
  {
   "property": "C35",
   "status": "proved",
   "theorems": [
    "Verif.Object.C35_shard_size"
   ],
   "note": "For all shapes with at least one data shard and a positive block size."
  },
  {
   "property": "C36",
   "status": "partial",
   "theorems": [
    "Verif.Object.C36_rs_tail",
    "Verif.Object.C36_copy_tail_partial",
    "Verif.Object.C36_copy_exact",
    "Verif.Object.C36_copy_zeros"
   ],
   "note": "Erasure coded objects: all offsets, buffer sizes, loss patterns. Replicated objects: the tail followed by padding zeros of the server file; exact iff offset is 0 or the size is a multiple of the page size (C36_copy_exact), with a witness of extra zeros."
  },
  {
   "property": "C37",
   "status": "partial",
   "theorems": [
    "Verif.Object.C37_rs_repair_partial",
    "Verif.Object.C37_ordered_file",
    "Verif.Object.C37_block_order_lost",
    "Verif.Object.C37_partial_read_commits",
    "Verif.Object.C37_truncated_shard_stays",
    "Verif.Object.C37_copy_content_partial",
    "Verif.Object.C37_copy_locations",
    "Verif.Object.C37_copy_locations_lost",
    "Verif.Object.C37_copy_range_read",
    "Verif.Object.C37_copy_tolerated"
   ],
   "note": "Erasure coded repair: a full read rebuilds every lost shard when the goroutines that write blocks run in order; the order of blocks is not enforced by the code, a partly read stream commits a partial shard (witnesses). Replicated repair: content and locations proved when all repairs succeed; a failed repair loses locations, a range read repairs with the tail only (witnesses)."
  },
  {
   "property": "C38",
   "status": "partial",
   "theorems": [
    "Verif.Object.C38_block_size",
    "Verif.Object.C38_every_copy_partial",
    "Verif.Object.C38_lost_error",
    "Verif.Object.C38_any_copy_suffices"
   ],
   "note": "Every chunking, failure pattern and copy count; partial because the racy wait may lose an error of one copy (C38_lost_error)."
  },
  {
   "property": "C39",
   "status": "partial",
   "theorems": [
    "Verif.Object.C39_commit_once",
    "Verif.Object.C39_nothing_after_commit",
    "Verif.Object.C39_write_after_commit",
    "Verif.Object.C39_success_partial",
    "Verif.Object.C39_mismatch_rejected",
    "Verif.Object.C39_broken_body_rejected",
    "Verif.Object.C39_empty_digest",
    "Verif.Object.C39_unchecked",
    "Verif.Object.C39_lost_error",
    "Verif.Object.C39_statement_fails",
    "Verif.Api.C39_recorded_partial",
    "Verif.Api.C39_rejected_partial",
    "Verif.Api.C39_dedup_unverified"
   ],
   "note": "Temp uploads are committed or aborted at most once; a mismatch or broken body is rejected; when the waits report errors a success means every server committed the complete shard. The stated property fails because the racy wait can lose an error (C39_lost_error)."
  },
  {
   "property": "C40",
   "status": "partial",
   "theorems": [
    "Verif.Object.C40_refines_partial",
    "Verif.Object.C40_client_partial",
    "Verif.Object.C40_completes_iff",
    "Verif.Object.C40_ack_partial",
    "Verif.Object.C40_ack_overstates",
    "Verif.Object.C40_shards_diverge",
    "Verif.Object.C40_padding_overstates",
    "Verif.Object.C40_recorded_uncommitted"
   ],
   "note": "Every history of PATCH requests refines a small specification (kept bytes, closed, overrun) for page-aligned block sizes when parallel request groups are performed by all servers or none; a client that sends parts of X always has a prefix of X kept, of exactly the reported size, and completion means the shards of X are committed. The stated property fails otherwise: 206 acknowledges bytes that are dropped, partly performed groups make shards diverge, padding makes HEAD overstate for unaligned blocks, the version is recorded before the commit (witnesses)."
  },
  {
   "property": "C41",
   "status": "partial",
   "theorems": [
    "Verif.Api.C41_answer",
    "Verif.Api.C41_entries",
    "Verif.Api.C41_one_holder_each_partial",
    "Verif.Api.C41_duplicate_answers",
    "Verif.Api.C41_no_panic"
   ],
   "note": "LocateObject and handlerLocate. Proved when no two answers are for the same shard; refuted for duplicate answers (C41_duplicate_answers): success is reported with an empty location."
  },
  {
   "property": "C42",
   "status": "partial",
   "theorems": [
    "Verif.Api.C42_same_key_partial",
    "Verif.Api.C42_same_object",
    "Verif.Api.C42_digest_lengths"
   ],
   "note": "UniqueHash. Proved up to collisions of SHA256 for digests of equal length; refuted for announced digests of different lengths, which nothing checks."
  },
  {
   "property": "C43",
   "status": "partial",
   "theorems": [
    "Verif.Api.C43_any_checks",
    "Verif.Api.C43_rejected_with_error",
    "Verif.Api.C43_api",
    "Verif.Api.C43_init_partial",
    "Verif.Api.C43_init_read_failure"
   ],
   "note": "The decision is proved for all configurations and requests. Partial because of the stored credential: when reading it fails at start, it is overwritten by the configured one, even an empty one, which then passes (C43_init_read_failure)."
  },
  {
   "property": "C44",
   "status": "proved",
   "theorems": [
    "Verif.Api.C44_even",
    "Verif.Api.C44_distinct",
    "Verif.Api.C44_no_servers",
    "Verif.Api.C44_no_memory_between_uploads"
   ],
   "note": "For any strategy that takes one server out of the list; within one object. Different uploads do not remember each other."
  },
  {
   "property": "C45",
   "status": "proved",
   "theorems": [
    "Verif.Api.C45_random_distinct",
    "Verif.Api.C45_random_even"
   ],
   "note": "For all random numbers."
  },
  {
   "property": "C46",
   "status": "proved",
   "theorems": [
    "Verif.Api.C46_least_loaded",
    "Verif.Api.C46_least_loaded_first",
    "Verif.Api.C46_distinct",
    "Verif.Api.C46_missing_header_preferred"
   ],
   "note": "For the load table at the moment of selection; a missing capacity header counts as load 0."
  },
  {
   "property": "C47",
   "status": "partial",
   "theorems": [
    "Verif.Api.C47_injective_partial",
    "Verif.Api.C47_isolated_partial",
    "Verif.Api.C47_needs_segments",
    "Verif.Api.C47_listing_mixes_buckets",
    "Verif.Api.Bind.C47_shared",
    "Verif.Api.Bind.C47_shared_get",
    "Verif.Api.Bind.C47_statement_fails"
   ],
   "note": "Proved for names without '/', which is what the parameter of a route is; buckets are arbitrary. Refuted for all names: a query parameter Name replaces the parameter of the route (C85), so names with '/' occur and two objects of different buckets can share their metadata. The cache of the metadata server is C30 (an object a.1 and version 1 of a share a cache entry)."
  },
  {
   "property": "C48",
   "status": "partial",
   "theorems": [
    "Verif.Object.C48_store_partial",
    "Verif.Object.C48_store_tail_partial",
    "Verif.Object.C48_offset_reads_padding",
    "Verif.Object.C48_unaligned_pieces",
    "Verif.Object.C48_statement_fails",
    "Verif.Object.C48_write_with_size_partial",
    "Verif.Object.C48_write_with_size_overwrites",
    "Verif.Object.C33_data_servers_partial",
    "Verif.Object.C33_padding_corrupts",
    "Verif.Object.C48_write_with_size_refuses"
   ],
   "note": "Proved when all pieces but the last have a length that is a multiple of 4096; false otherwise (witness)."
  },
  {
   "property": "C49",
   "status": "proved",
   "theorems": [
    "Verif.Object.C49_aligned_size",
    "Verif.Object.C49_padded",
    "Verif.Object.C49_padded_error",
    "Verif.Object.C49_limited",
    "Verif.Object.C49_limited_panics",
    "Verif.Object.C49_requests_aligned",
    "Verif.Object.C49_multi",
    "Verif.Object.C49_multi_hangs"
   ],
   "note": "Readers of the disk package, for every sequence of buffer sizes."
  },
  {
   "property": "C50",
   "status": "partial",
   "theorems": [
    "Verif.Object.C50_full_reads_partial",
    "Verif.Object.C50_uncached_tail_partial",
    "Verif.Object.C50_cache_ignores_offset",
    "Verif.Object.C50_offset_poisons_cache"
   ],
   "note": "Proved for whole-object reads over all request sequences; false for reads with an offset (witnesses)."
  },
  {
   "property": "C51",
   "status": "partial",
   "theorems": [
    "Verif.PathDb.C51_history_partial",
    "Verif.PathDb.C51_after_put_partial",
    "Verif.PathDb.C51_single_not_found",
    "Verif.PathDb.C51_one_left",
    "Verif.PathDb.C51_statement_fails",
    "Verif.PathDb.C51_removed_last",
    "Verif.PathDb.C51_removes_inside",
    "Verif.PathDb.C51_percent",
    "Verif.PathDb.C51_all_removed"
   ],
   "note": "All histories over paths that do not contain each other, without removal of the most recent of several paths: order and most recent path are right when there are two or more. Refuted: a single recorded path is never found; after removing the most recent one the empty path is returned; paths containing each other or %2C are confused."
  },
  {
   "property": "C52",
   "status": "proved",
   "theorems": [
    "Verif.Drives.C52_select",
    "Verif.Drives.C52_no_rotation",
    "Verif.Drives.C52_fallback_excluded",
    "Verif.Drives.C52_weighted_partial",
    "Verif.Drives.C52_weight_wraps",
    "Verif.Drives.C52_weighted_keeps"
   ],
   "note": "Proved for the balancer in use, over all histories of updates and selections of one request at a time and every admissible sort, for the free space reported at the last update; overlapping requests are C122. The weighted balancer (not used) is right only while no weight exceeds the free space. Findings: no rotation between updates; the fallback ignores the exclusions."
  },
  {
   "property": "C53",
   "status": "partial",
   "theorems": [
    "Verif.Rebalance.C53_join_plan",
    "Verif.Rebalance.C53_leave_plan",
    "Verif.Rebalance.C53_leave_room",
    "Verif.Rebalance.C53_join_enough",
    "Verif.Rebalance.C53_join_balanced_partial",
    "Verif.Rebalance.C53_leave_sends_all",
    "Verif.Rebalance.C53_quota_partial",
    "Verif.Rebalance.C53_join_overfills",
    "Verif.Rebalance.C53_exceeds_quota",
    "Verif.Rebalance.C53_statement_fails",
    "Verif.Rebalance.C53_leave_leaves_files",
    "Verif.Rebalance.C53_zero_total"
   ],
   "note": "The planned amounts are exactly surplus and deficit; a leave has room for and sends everything recorded; a join brings the new server to the average. Refuted: quotas are exceeded by up to one file, a join overfills the new server when others are below average."
  },
  {
   "property": "C54",
   "status": "partial",
   "theorems": [
    "Verif.Conc.C54_returns_first_error",
    "Verif.Conc.C54_no_spurious_error",
    "Verif.Conc.C54_success_waits_for_all",
    "Verif.Conc.C54_no_panic",
    "Verif.Conc.C54_no_deadlock",
    "Verif.Conc.C54_error_while_running_partial",
    "Verif.Conc.C54_error_lost",
    "Verif.Conc.C54_panic_lost",
    "Verif.Conc.C54_outcomes",
    "Verif.Conc.C54_limited"
   ],
   "note": "State machine over all interleavings of Todo/Error/Done/WaitUntilError/Close. A returned error is the first reported, nil is returned only after all tasks finished, no panic on the channel and no deadlock. The stated property fails: when the tasks have finished, the select may take the done case although an error is in the channel, and a panic is reported only after the counter was decremented (witness runs C54_error_lost, C54_panic_lost)."
  },
  {
   "property": "C55",
   "status": "partial",
   "theorems": [
    "Verif.Discovery.C55_mapping_partial",
    "Verif.Discovery.C55_views_partial",
    "Verif.Discovery.C55_exact_partial",
    "Verif.Discovery.C55_registry_partial",
    "Verif.Discovery.C55_follows",
    "Verif.Discovery.C55_id_with_role",
    "Verif.Discovery.C55_id_plain",
    "Verif.Discovery.C55_panics_iff",
    "Verif.Discovery.C55_id_shortened",
    "Verif.Discovery.C55_role_view",
    "Verif.Discovery.C55_role_lost",
    "Verif.Discovery.C55_missed_event",
    "Verif.Discovery.C55_statement_fails",
    "Verif.Discovery.C55_prefix_mixes",
    "Verif.Discovery.C55_self_is_master",
    "Verif.Discovery.C55_self_twice",
    "Verif.Discovery.C55_one_role_partial",
    "Verif.Discovery.C55_two_roles",
    "Verif.Discovery.C55_sid_ports",
    "Verif.Discovery.C55_sid_collide",
    "Verif.Discovery.C55_panic_all"
   ],
   "note": "Proved for all histories, when the watch misses no event, ids and service names are readable ('/' and '_' free) and no other service name extends this one. Refuted: events between the first read and the watch are lost; '_' in group or service name makes the mapping panic; ids with '_' are shortened or lose their role; own entry is role-less and permanent; failed unregistration leaves two roles."
  },
  {
   "property": "C56",
   "status": "proved",
   "theorems": [
    "Verif.Meta.C56_bucket_refinement",
    "Verif.Meta.C56_history",
    "Verif.Meta.C56_delete_idempotent"
   ],
   "note": ""
  },
  {
   "property": "C57",
   "status": "partial",
   "theorems": [
    "Verif.Range.C57_intervals",
    "Verif.Range.C57_refused_partial",
    "Verif.Range.C57_never_negative",
    "Verif.Range.C57_malformed_accepted",
    "Verif.Range.C57_get_open_range",
    "Verif.Range.C57_get_ignores_end"
   ],
   "note": "Well-formed headers proved; malformed ones are accepted (C57_malformed_accepted); the end of a range is ignored when answering."
  },
  {
   "property": "C58",
   "status": "partial",
   "theorems": [
    "Verif.Slices.C58_fill",
    "Verif.Slices.C58_fill_pattern",
    "Verif.Slices.C58_extremal",
    "Verif.Slices.C58_extremal_empty",
    "Verif.Slices.C58_search",
    "Verif.Slices.C58_replace",
    "Verif.Slices.C58_logic_mod_partial",
    "Verif.Slices.C58_logic_mod_out_of_range",
    "Verif.Slices.C58_safe_chunk_partial",
    "Verif.Slices.C58_safe_chunk_panics",
    "Verif.Slices.C58_min_max",
    "Verif.Slices.C58_ceil_div_partial",
    "Verif.Slices.C58_ceil_div_large"
   ],
   "note": "Helpers proved in the range in which they work; counterexamples for the rest."
  },
  {
   "property": "C59",
   "status": "partial",
   "theorems": [
    "Verif.Collections.C59_set",
    "Verif.Collections.C59_writers_exclude",
    "Verif.Collections.C59_read_during_write",
    "Verif.Collections.C59_map",
    "Verif.Collections.C59_cache_set_gob",
    "Verif.Collections.C59_cache_delete",
    "Verif.Collections.C59_cache_refresh",
    "Verif.Collections.C59_cache_set_inverted",
    "Verif.Collections.C59_cache_set_partial"
   ],
   "note": "Sets, maps and locking proved; Cache.Set reports the opposite of what happened."
  },
  {
   "property": "C60",
   "status": "partial",
   "theorems": [
    "Verif.Api.C60_readonly",
    "Verif.Api.C60_readonly_big",
    "Verif.Api.C60_layout",
    "Verif.Api.C60_client_cannot_choose",
    "Verif.Api.C60_big_layout_partial",
    "Verif.Api.C60_big_ignores_replication",
    "Verif.Api.C60_big_readonly_later",
    "Verif.Api.C60_put_request",
    "Verif.Api.C60_shard_size",
    "Verif.Api.C60_accepted",
    "Verif.Api.C60_big_token",
    "Verif.Api.C60_big_no_bucket",
    "Verif.Api.C60_big_recorded"
   ],
   "note": "Proved for StoreObject; for resumable uploads refuted in two ways: prescribed copies are ignored, and the end of an upload does not look at the read-only flag."
  },
  {
   "property": "C61",
   "status": "partial",
   "theorems": [
    "Verif.Meta.C61_foreign_key_refused",
    "Verif.Meta.C61_migration_refuses_partial",
    "Verif.Meta.C61_migration_statement_fails"
   ],
   "note": "Foreign keys are refused; the migration part is refuted by the requests without the check."
  },
  {
   "property": "C62",
   "status": "partial",
   "theorems": [
    "Verif.Meta.C62_replay_idempotent_partial",
    "Verif.Meta.C62_restart_partial",
    "Verif.Meta.C62_redelivery",
    "Verif.Meta.C62_statement_fails",
    "Verif.Meta.C62_acknowledged_version_lost",
    "Verif.Meta.C62_failed_command_applied"
   ],
   "note": "Full statement refuted (remove after create is replayed over later data). Proved for logs of creations and updates."
  },
  {
   "property": "C63",
   "status": "partial",
   "theorems": [
    "Verif.Api.C63_retention_partial",
    "Verif.Api.C63_overlapping",
    "Verif.Api.C63_lowered_limit"
   ],
   "note": "Proved for uploads that follow each other; refuted for overlapping uploads; the number of versions never falls after the limit was lowered."
  },
  {
   "property": "C64",
   "status": "partial",
   "theorems": [
    "Verif.Api.C64_same_config_partial",
    "Verif.Api.C64_default_bucket",
    "Verif.Api.C64_default_bucket_corrupts"
   ],
   "note": "Proved for buckets that prescribe erasure coding and for block sizes that are multiples of the packet size; refuted else, with delivered bytes that differ from the uploaded ones."
  },
  {
   "property": "C65",
   "status": "partial",
   "theorems": [
    "Verif.Api.C65_same_bucket_partial",
    "Verif.Api.C65_host_bypasses_callback",
    "Verif.Api.C65_any_bucket"
   ],
   "note": "Proved if the header Host has no dot; refuted else: the callback is asked about the first label of Host while the request acts on the header bucket."
  },
  {
   "property": "C66",
   "status": "partial",
   "theorems": [
    "Verif.Api.C66_replica",
    "Verif.Api.C66_stripe_bounds",
    "Verif.Api.C66_stripe_partial",
    "Verif.Api.C66_stripe_iff",
    "Verif.Api.C66_default_three_shards"
   ],
   "note": "Proved for replication and for numbers of data shards that divide the packet size; refuted for three data shards."
  },
  {
   "property": "C67",
   "status": "partial",
   "theorems": [
    "Verif.Paths.C67_serial_partial",
    "Verif.Paths.C67_no_delete_partial",
    "Verif.Paths.C67_late_mark",
    "Verif.Paths.C67_statement_fails",
    "Verif.Paths.C67_commit_lost",
    "Verif.Paths.C67_compressed_lost",
    "Verif.Paths.C67_unlisted_drive"
   ],
   "note": "Proved when goroutines end between requests and no shard is put twice on different drives after remains (Fresh), and for all interleavings without deletion. Refuted in general: a late mark makes a deleted shard exist; commits and compressed commits are not found; drives outside the table lose shards."
  },
  {
   "property": "C68",
   "status": "partial",
   "theorems": [
    "Verif.Relocate.C68_content",
    "Verif.Relocate.C68_named_partial",
    "Verif.Relocate.C68_most_partial",
    "Verif.Relocate.C68_dangling",
    "Verif.Relocate.C68_statement_fails",
    "Verif.Relocate.C68_minority",
    "Verif.Relocate.C68_same_size",
    "Verif.Relocate.C68_other_layout",
    "Verif.Relocate.C68_empty_hangs",
    "Verif.Relocate.C68_goes_through"
   ],
   "note": "Content: proved for all failures. Metadata: proved for at most two masters without deletions; for any number fewer than half are missed. Refuted: left-over index entries make the master answer 404, which counts as success; a minority of unreachable masters is ignored."
  },
  {
   "property": "C69",
   "status": "partial",
   "theorems": [
    "Verif.Lifecycle.C69_renewed_partial",
    "Verif.Lifecycle.C69_close",
    "Verif.Lifecycle.C69_stuck",
    "Verif.Lifecycle.C69_statement_fails",
    "Verif.Lifecycle.C69_gone"
   ],
   "note": "Proved while etcd grants every lease asked for. Refuted: after one failed grant the mutex stays locked, the loop waits for itself for ever and the server is never registered again."
  },
  {
   "property": "C70",
   "status": "partial",
   "theorems": [
    "Verif.Perf.C70_by_action",
    "Verif.Perf.C70_by_kind",
    "Verif.Perf.C70_both_partial",
    "Verif.Perf.C70_size",
    "Verif.Perf.C70_size_all",
    "Verif.Perf.C70_average",
    "Verif.Perf.C70_sum",
    "Verif.Perf.C70_average_once",
    "Verif.Perf.C70_all_garbled",
    "Verif.Perf.C70_both_misses",
    "Verif.Perf.C70_statement_fails",
    "Verif.Perf.C70_average_all_garbled",
    "Verif.Perf.C70_clear_fails",
    "Verif.Perf.C70_clear_prefix"
   ],
   "note": "Proved: queries by kind or by action, sizes, averages and sums over plain records; queries by both when no stored action properly extends the one asked for. Refuted: a query without conditions returns keys in place of actions; an action continued by a character below '.' hides the records asked for; clearing a kind fails whenever the kind occurs."
  },
  {
   "property": "C71",
   "status": "partial",
   "theorems": [
    "Verif.Perf.C71_kept_partial",
    "Verif.Perf.C71_limit",
    "Verif.Perf.C71_flushed",
    "Verif.Perf.C71_end_to_end",
    "Verif.Perf.C71_window",
    "Verif.Perf.C71_window_limit",
    "Verif.Perf.C71_sublist",
    "Verif.Perf.C71_over_limit",
    "Verif.Perf.C71_error_kept",
    "Verif.Perf.C71_statement_fails",
    "Verif.Perf.C71_lost"
   ],
   "note": "Proved: with FlushWhenReached nothing is lost or doubled; otherwise the memory is exactly the latest records. Refuted: while the store refuses, memory grows without bound; a Put that reports an error has kept the record."
  },
  {
   "property": "C72",
   "status": "partial",
   "theorems": [
    "Verif.System.C72_recorded",
    "Verif.System.C72_answered",
    "Verif.System.C72_stable",
    "Verif.System.C72_get_partial",
    "Verif.System.C72_read_after_write_partial",
    "Verif.System.C72_lost_error"
   ],
   "note": "Proved for all executions of the composed system (metadata server, data servers, uploads, deduplication) when waits report the errors they were told, the layout stores whole pages per shard, the client announced the right digest, the version is not compressed, and the hash values occurring in the execution do not collide. Refuted when a wait loses an error. Not in this model: repair while reading, rebalancing and slot migration (C37, C68, C32)."
  },
  {
   "property": "C73",
   "status": "proved",
   "theorems": [
    "Verif.Msgp.C73_Metadata_roundtrip",
    "Verif.Msgp.C73_Metadata_any_order",
    "Verif.Msgp.C73_Metadata_torn",
    "Verif.Msgp.C73_Metadata_distinct",
    "Verif.Msgp.C73_Metadata_bytes",
    "Verif.Msgp.C73_Version_roundtrip",
    "Verif.Msgp.C73_Version_any_order",
    "Verif.Msgp.C73_Version_torn",
    "Verif.Msgp.C73_Version_distinct",
    "Verif.Msgp.C73_Version_bytes",
    "Verif.Msgp.C73_Bucket_roundtrip",
    "Verif.Msgp.C73_Bucket_any_order",
    "Verif.Msgp.C73_Bucket_torn",
    "Verif.Msgp.C73_Bucket_distinct",
    "Verif.Msgp.C73_Bucket_bytes",
    "Verif.Msgp.C73_RaftData_roundtrip",
    "Verif.Msgp.C73_RaftData_any_order",
    "Verif.Msgp.C73_RaftData_torn",
    "Verif.Msgp.C73_RaftData_distinct",
    "Verif.Msgp.C73_RaftData_bytes",
    "Verif.Msgp.C73_SlotInfo_roundtrip",
    "Verif.Msgp.C73_SlotInfo_any_order",
    "Verif.Msgp.C73_SlotInfo_torn",
    "Verif.Msgp.C73_SlotInfo_distinct",
    "Verif.Msgp.C73_SlotInfo_bytes",
    "Verif.Msgp.C73_AdminCredential_roundtrip",
    "Verif.Msgp.C73_AdminCredential_any_order",
    "Verif.Msgp.C73_AdminCredential_torn",
    "Verif.Msgp.C73_AdminCredential_distinct",
    "Verif.Msgp.C73_AdminCredential_bytes",
    "Verif.Msgp.C73_DiskInfo_roundtrip",
    "Verif.Msgp.C73_DiskInfo_any_order",
    "Verif.Msgp.C73_DiskInfo_torn",
    "Verif.Msgp.C73_DiskInfo_distinct",
    "Verif.Msgp.C73_DiskInfo_bytes",
    "Verif.Msgp.C73_IOStats_roundtrip",
    "Verif.Msgp.C73_IOStats_any_order",
    "Verif.Msgp.C73_IOStats_torn",
    "Verif.Msgp.C73_IOStats_distinct",
    "Verif.Msgp.C73_IOStats_bytes",
    "Verif.Msgp.C73_MemStatus_roundtrip",
    "Verif.Msgp.C73_MemStatus_any_order",
    "Verif.Msgp.C73_MemStatus_torn",
    "Verif.Msgp.C73_MemStatus_distinct",
    "Verif.Msgp.C73_MemStatus_bytes",
    "Verif.Msgp.C73_CpuStat_roundtrip",
    "Verif.Msgp.C73_CpuStat_any_order",
    "Verif.Msgp.C73_CpuStat_torn",
    "Verif.Msgp.C73_CpuStat_distinct",
    "Verif.Msgp.C73_CpuStat_bytes",
    "Verif.Msgp.C73_SysInfo_roundtrip",
    "Verif.Msgp.C73_SysInfo_any_order",
    "Verif.Msgp.C73_SysInfo_torn",
    "Verif.Msgp.C73_SysInfo_distinct",
    "Verif.Msgp.C73_SysInfo_bytes",
    "Verif.Msgp.C73_Extra_roundtrip",
    "Verif.Msgp.C73_Extra_any_order",
    "Verif.Msgp.C73_Extra_torn",
    "Verif.Msgp.C73_Extra_distinct",
    "Verif.Msgp.C73_Extra_bytes",
    "Verif.Msgp.C73_version_list",
    "Verif.Msgp.C73_trailing_ignored"
   ],
   "note": "For all twelve generated record types, transcribed with their literal bytes. The batch flag of a raft log entry is not part of the encoded form. The msgp library's append and read functions are modelled (Verif/Msgp/Prim.lean). Bytes after a record are ignored, not reported (C73_trailing_ignored)."
  },
  {
   "property": "C74",
   "status": "partial",
   "theorems": [
    "Verif.Api.Errors.C74_status_partial",
    "Verif.Api.Errors.C74_statement_fails",
    "Verif.Api.Errors.C74_never_lost",
    "Verif.Api.Errors.C74_status_table",
    "Verif.Api.Errors.C74_bad_body",
    "Verif.Api.Errors.C74_refused",
    "Verif.Api.Errors.C74_insert_exists",
    "Verif.Api.Errors.C74_unavailable_is_200",
    "Verif.Api.Errors.C74_wire_code",
    "Verif.Api.Errors.C74_insert_other"
   ],
   "note": "Proved for seven of nine requests; refuted for listing and removing versions, whose errors all become 500 (C74_statement_fails). No error becomes success (C74_never_lost). Also proved as found: a malformed or invalid body is answered with 500 (C74_bad_body), a server in migration with 500 (C74_refused), ServiceUnavailableMsg with 200 (C74_unavailable_is_200)."
  },
  {
   "property": "C75",
   "status": "partial",
   "theorems": [
    "Verif.Api.MetaRpc.C75_version_partial",
    "Verif.Api.MetaRpc.C75_saved_version",
    "Verif.Api.MetaRpc.C75_saved_version_stays",
    "Verif.Api.MetaRpc.C75_refused_no_effect",
    "Verif.Api.MetaRpc.C75_incomplete_refused",
    "Verif.Api.MetaRpc.C75_statement_fails",
    "Verif.Api.MetaRpc.C75_shards_cut",
    "Verif.Api.MetaRpc.C75_update_always_refused",
    "Verif.Api.MetaRpc.C75_missing",
    "Verif.Api.MetaRpc.C75_saved_bucket",
    "Verif.Api.MetaRpc.C75_bucket_exists",
    "Verif.Api.MetaRpc.C75_saved_metadata",
    "Verif.Api.MetaRpc.C75_metadata_refused",
    "Verif.Api.MetaRpc.C75_server_update",
    "Verif.Api.MetaRpc.C75_read_metadata"
   ],
   "note": "Proved for complete versions whose numbers of shards fit 32 bits. Refuted beyond: versions of empty objects are refused with 500 (C75_incomplete_refused, C75_statement_fails), larger numbers of shards are cut (C75_shards_cut), UpdateVersion never updates anything (C75_update_always_refused). Without raft, caches and interceptors."
  },
  {
   "property": "C76",
   "status": "partial",
   "theorems": [
    "Verif.Admin.Stat.C76_timeline_partial",
    "Verif.Admin.Stat.C76_published",
    "Verif.Admin.Stat.C76_bounded",
    "Verif.Admin.Stat.C76_crash",
    "Verif.Admin.Stat.C76_statement_fails",
    "Verif.Admin.Stat.C76_usage_page",
    "Verif.Admin.Stat.C76_unknown_service",
    "Verif.Admin.Stat.C76_server_page",
    "Verif.Admin.Stat.C76_server_page_fails",
    "Verif.Admin.Stat.C76_overview_one_server",
    "Verif.Admin.Stat.C76_server_page_published",
    "Verif.Admin.Stat.C76_known_services"
   ],
   "note": "Proved while every sample is complete or unreadable and first reads succeed. Refuted beyond: an incomplete sample or a failed first read ends the admin server (C76_crash, C76_statement_fails); the overview shows the timeline of whichever server is visited last (C76_overview_one_server); one unreadable sample makes the server page fail (C76_server_page_fails). Unsynchronised map access of the watchers is not modelled."
  },
  {
   "property": "C77",
   "status": "partial",
   "theorems": [
    "Verif.Conc.Panics.C77_recover_partial",
    "Verif.Conc.Panics.C77_callback",
    "Verif.Conc.Panics.C77_recover_fails",
    "Verif.Conc.Panics.C77_recover_statement_fails",
    "Verif.Conc.Panics.C77_more_deferred",
    "Verif.Conc.Panics.C77_done_partial",
    "Verif.Conc.Panics.C77_done_panic",
    "Verif.Conc.Panics.C77_done_statement_fails",
    "Verif.Conc.Panics.C77_done_too_often",
    "Verif.Conc.Panics.C77_limit_panic",
    "Verif.Conc.Panics.C77_cause_recover",
    "Verif.Conc.Panics.C77_cause_done",
    "Verif.Conc.Panics.C77_first_only"
   ],
   "note": "Refuted: logging the panic panics again (logrus Panicf), so recovery never contains a panic (C77_recover_fails) and a group never gets the error (C77_done_panic, C77_limit_panic). Proved: what happens in every case, and that with a logging function that returns both full statements hold (C77_cause_recover, C77_cause_done). Trusted: the rules of panic, defer and recover, and logrus' Panicf."
  },
  {
   "property": "C78",
   "status": "partial",
   "theorems": [
    "Verif.Meta.Groups.C78_slots_partial",
    "Verif.Meta.Groups.C78_leader_change",
    "Verif.Meta.Groups.C78_restart",
    "Verif.Meta.Groups.C78_stale_slots",
    "Verif.Meta.Groups.C78_join_overwrites",
    "Verif.Meta.Groups.C78_statement_fails",
    "Verif.Meta.Groups.C78_two_owners"
   ],
   "note": "Proved for all histories in which no leader of a raft group shuts down orderly or joins another group. Refuted beyond: the next leader records the slots of its own configuration (C78_stale_slots), a leader that joins overwrites the slots of its new group (C78_join_overwrites); with two owners no routing table can be built (C78_two_owners). Events do not overlap."
  },
  {
   "property": "C79",
   "status": "partial",
   "theorems": [
    "Verif.Meta.Members.C79_remove_partial",
    "Verif.Meta.Members.C79_remove_node",
    "Verif.Meta.Members.C79_first_stays",
    "Verif.Meta.Members.C79_add_not_recorded",
    "Verif.Meta.Members.C79_nodes_statement_fails",
    "Verif.Meta.Members.C79_join_member",
    "Verif.Meta.Members.C79_join_old_group",
    "Verif.Meta.Members.C79_join_statement_fails",
    "Verif.Meta.Members.C79_leave_follower",
    "Verif.Meta.Members.C79_leave_leader",
    "Verif.Meta.Members.C79_last_stays",
    "Verif.Meta.Members.C79_malformed_node",
    "Verif.Meta.Members.C79_bootstrap_empty",
    "Verif.Meta.Members.C79_env_nodes",
    "Verif.Meta.Members.C79_join_stale"
   ],
   "note": "Proved: removing any but the first node, joining makes a member, leaving ends membership. Refuted: added members are not recorded (C79_add_not_recorded), the first node stays (C79_first_stays), a server that joins stays in its old group (C79_join_old_group), one malformed node makes bootstrapping fail, bootstrapping without nodes makes a group without the server, nodes given by the environment are always malformed. Trusted: hashicorp/raft's membership changes as written out."
  },
  {
   "property": "C80",
   "status": "partial",
   "theorems": [
    "Verif.Temp.C80_answers_partial",
    "Verif.Temp.C80_read",
    "Verif.Temp.C80_cleanup_partial",
    "Verif.Temp.C80_drains",
    "Verif.Temp.C80_root_cleans",
    "Verif.Temp.C80_stays",
    "Verif.Temp.C80_restart",
    "Verif.Temp.C80_commit_leaves",
    "Verif.Temp.C80_commit_moves",
    "Verif.Temp.C80_statement_fails",
    "Verif.Temp.C80_restart_fails",
    "Verif.Temp.C80_leave_fails"
   ],
   "note": "Proved for all histories: answers, isolation of uploads, committed objects. Removal is proved for servers whose only mount point is / and that neither leave nor restart; refuted for other mount points (C80_statement_fails), after restarts (C80_restart_fails) and after leaving and joining (C80_leave_fails); C80_stays shows that these files stay for ever. Requests are atomic, bodies arrive completely, identifiers are fresh."
  },
  {
   "property": "C81",
   "status": "partial",
   "theorems": [
    "Verif.Meta.Route.C81_age_partial",
    "Verif.Meta.Route.C81_reload_partial",
    "Verif.Meta.Route.C81_no_panic",
    "Verif.Meta.Route.C81_monotone",
    "Verif.Meta.Route.C81_reload_fails",
    "Verif.Meta.Route.C81_stale"
   ],
   "note": "Proved for all interleavings: age bound of 301 seconds plus the duration D of a refresh, monotone tables, no nil table. Refuted: a reload may return a table read before the call (C81_reload_fails), bounded by D (C81_reload_partial). Trusted: reads of etcd return its current contents; updatedAt is read and written atomically."
  },
  {
   "property": "C82",
   "status": "partial",
   "theorems": [
    "Verif.Perf.Etcd.C82_put_one_partial",
    "Verif.Perf.Etcd.C82_dropped",
    "Verif.Perf.Etcd.C82_nothing_invented",
    "Verif.Perf.Etcd.C82_size",
    "Verif.Perf.Etcd.C82_counted_partial",
    "Verif.Perf.Etcd.C82_limit_partial",
    "Verif.Perf.Etcd.C82_panics",
    "Verif.Perf.Etcd.C82_kind_lost",
    "Verif.Perf.Etcd.C82_other_kind",
    "Verif.Perf.Etcd.C82_collide",
    "Verif.Perf.Etcd.C82_lock_removed",
    "Verif.Perf.Etcd.C82_unbounded",
    "Verif.Perf.Etcd.C82_statement_fails",
    "Verif.Perf.Etcd.C82_read_fails",
    "Verif.Perf.Etcd.C82_stuck",
    "Verif.Perf.Etcd.C82_unit",
    "Verif.Perf.Etcd.C82_failed",
    "Verif.Perf.Etcd.C82_commit_failed"
   ],
   "note": "Proved: one allowed record per call is stored and nothing else changes, other actions are dropped, nothing is invented, Get and Size agree, limit up to 1 + number of lock keys if Size were exact. Refuted: the limit (Size does not wait for its goroutines), kind and cost of every record read, kinds that begin with another, records of one millisecond, the lock. Several records per call panic (C82_panics, C82_stuck) under the explicit hypothesis that Txn.Then panics when called twice; the source of the etcd client was not at hand to confirm it."
  },
  {
   "property": "C83",
   "status": "partial",
   "theorems": [
    "Verif.Admin.Auth.C83_own_token",
    "Verif.Admin.Auth.C83_forwarded_partial",
    "Verif.Admin.Auth.C83_forwarded_served",
    "Verif.Admin.Auth.C83_header_needed",
    "Verif.Admin.Auth.C83_login",
    "Verif.Admin.Auth.C83_history",
    "Verif.Admin.Auth.C83_any_token",
    "Verif.Admin.Auth.C83_open",
    "Verif.Admin.Auth.C83_guarded_fails",
    "Verif.Admin.Auth.C83_session_useless",
    "Verif.Admin.Auth.C83_session_fails",
    "Verif.Admin.Auth.C83_logout_keeps",
    "Verif.Admin.Auth.C83_logout_fails"
   ],
   "note": "Proved: operations left to the API server are done exactly for headers it accepts, the token used is always that of the same request, login is exact. Refuted: every other guarded operation (migration, join and leave, listings, configurations) is done for any non-empty header; the server pages need no token; sessions do not outlive the request; logout leaves the token in the cookie. Trusted: the API server's decision (C43) is a parameter, the session library rejects forged cookies."
  },
  {
   "property": "C84",
   "status": "partial",
   "theorems": [
    "Verif.Api.BucketHttp.C84_decode_spec",
    "Verif.Api.BucketHttp.C84_standard",
    "Verif.Api.BucketHttp.C84_param",
    "Verif.Api.BucketHttp.C84_get",
    "Verif.Api.BucketHttp.C84_delete_partial",
    "Verif.Api.BucketHttp.C84_update_partial",
    "Verif.Api.BucketHttp.C84_update_numbers",
    "Verif.Api.BucketHttp.C84_deletes_other",
    "Verif.Api.BucketHttp.C84_updates_other",
    "Verif.Api.BucketHttp.C84_other_server",
    "Verif.Api.BucketHttp.C84_confined",
    "Verif.Api.BucketHttp.C84_percent_stuck",
    "Verif.Api.BucketHttp.C84_query_fails",
    "Verif.Api.BucketHttp.C84_statement_fails",
    "Verif.Api.BucketHttp.C84_spelling",
    "Verif.Api.BucketHttp.C84_decoded_twice",
    "Verif.Api.BucketHttp.C84_undecoded"
   ],
   "note": "Proved: reading by the standard encoding for every name without a slash; updating and deleting for names without / ? # % and control characters (and + only without !'()*[]); at most one bucket of one server is ever removed. Refuted: for a name with ? or # after such a part the bucket named by the part before is deleted or overwritten with success; names with % are decoded twice or refused; spellings of one name act on different buckets. Trusted: net/url and gin path handling as modelled; JSON carries text and numbers unchanged; the log entry is applied at once (C27)."
  },
  {
   "property": "C85",
   "status": "partial",
   "theorems": [
    "Verif.Api.Bind.C85_last_error",
    "Verif.Api.Bind.C85_required",
    "Verif.Api.Bind.C85_last_wins",
    "Verif.Api.Bind.C85_put",
    "Verif.Api.Bind.C85_put_partial",
    "Verif.Api.Bind.C85_put_elsewhere",
    "Verif.Api.Bind.C85_get",
    "Verif.Api.Bind.C85_get_partial",
    "Verif.Api.Bind.C85_get_elsewhere",
    "Verif.Api.Bind.C85_big_partial",
    "Verif.Api.Bind.C85_big_name",
    "Verif.Api.Bind.C85_meta",
    "Verif.Api.Bind.C85_meta_partial",
    "Verif.Api.Bind.C85_versions_partial",
    "Verif.Api.Bind.C85_temp",
    "Verif.Api.Bind.C85_locate_partial",
    "Verif.Api.Bind.C85_locate_garbage",
    "Verif.Api.Bind.C85_asked_get_partial",
    "Verif.Api.Bind.C85_asked_put_partial",
    "Verif.Api.Bind.C85_reads_any",
    "Verif.Api.Bind.C85_writes_any",
    "Verif.Api.Bind.C85_bypass",
    "Verif.Api.Bind.C85_meta_version",
    "Verif.Api.Bind.C85_big_unreadable",
    "Verif.Api.Bind.C85_locate_index"
   ],
   "note": "Proved: for requests that do not use the Go names of the fields every request type is accepted exactly as documented and the callback was asked about what is read or stored; required fields are never empty, for every type and order of bindings. Refuted: the query parameters Name, Bucket and Hash replace the path and the headers, so whoever passes the callback for one object reads and stores any other; an unreadable flag, version or index is taken for its zero value where its binding is not the last. Trusted: the form mapping and validation of gin 1.9.1 and encoding/json as modelled."
  },
  {
   "property": "C86",
   "status": "proved",
   "theorems": [
    "Verif.Object.Client.C86_understood",
    "Verif.Object.Client.C86_never_other",
    "Verif.Object.Client.C86_distinct",
    "Verif.Object.Client.C86_shard_names",
    "Verif.Object.Client.C86_temp_ids",
    "Verif.Object.Client.C86_shard_names_differ",
    "Verif.Object.Client.C86_size_header",
    "Verif.Object.Client.C86_other_name",
    "Verif.Object.Client.C86_without_range"
   ],
   "note": "Proved for all names of shards (hexadecimal hash, dot, number) and of temporary objects. C86_other_name shows what happens to other names, which only a forged resume token can bring in. Trusted: the URL, query and binding rules of net/http, net/url and gin as modelled."
  },
  {
   "property": "C87",
   "status": "partial",
   "theorems": [
    "Verif.Object.Compress.C87_shard_partial",
    "Verif.Object.Compress.C87_repaired",
    "Verif.Object.Compress.C87_flag_matters",
    "Verif.Object.Compress.C87_same_answers",
    "Verif.Object.Compress.C87_object_partial",
    "Verif.Object.Compress.C87_copy",
    "Verif.Object.Compress.C87_range_fails",
    "Verif.Object.Compress.C87_range_empty",
    "Verif.Object.Compress.C87_put_flag",
    "Verif.Object.Compress.C87_resumable_partial",
    "Verif.Object.Compress.C87_resumable_lost"
   ],
   "note": "Proved: with the flag the files were written with, data servers answer for compressed erasure coded objects exactly as for others, so these are read back (for blocks of multiples of 4096 bytes per shard, as C33), replicated ones as a whole, repaired copies too; PUT records the flag it used. Refuted: offsets of replicated compressed objects are applied to the compressed file (offsets 1 to 9 fail for every codec, offsets behind its end deliver nothing without an error), and a resumable upload with compression records that it is not compressed: its object is never read back. Trusted: the contract of s2 as modelled; Reconstruct leaves present shards alone (only in C87_resumable_lost)."
  },
  {
   "property": "C88",
   "status": "partial",
   "theorems": [
    "Verif.Admin.Pages.C88_upload_partial",
    "Verif.Admin.Pages.C88_upload_renamed",
    "Verif.Admin.Pages.C88_download_partial",
    "Verif.Admin.Pages.C88_download_slash",
    "Verif.Admin.Pages.C88_round_trip_partial",
    "Verif.Admin.Pages.C88_round_trip_lost",
    "Verif.Admin.Pages.C88_download_query",
    "Verif.Admin.Pages.C88_download_fragment",
    "Verif.Admin.Pages.C88_download_encoded",
    "Verif.Admin.Pages.C88_download_elsewhere",
    "Verif.Admin.Pages.C88_versions_partial",
    "Verif.Admin.Pages.C88_page",
    "Verif.Admin.Pages.C88_delete_partial",
    "Verif.Admin.Pages.C88_deletes_other",
    "Verif.Admin.Pages.C88_deletes_decoded",
    "Verif.Admin.Pages.C88_update_partial",
    "Verif.Admin.Pages.C88_page_any"
   ],
   "note": "Proved: uploads for all names without / , ; and downloads, versions, deletions and updates for all names without the characters that have a meaning in a URL (? # % / and control characters); there a download reads what the upload stored. Refuted: uploads with , or ; are stored under the encoded name and not found again; downloads of a?b or a#b read the latest version of a, of an encoded name the decoded one, and a name can select any object of any bucket; the deletion page removes the bucket a for a?b. Trusted: net/url, net/http and gin as modelled."
  },
  {
   "property": "C89",
   "status": "partial",
   "theorems": [
    "Verif.Object.Capacity.C89_partial",
    "Verif.Object.Capacity.C89_warm_up_partial",
    "Verif.Object.Capacity.C89_warm_up_wrong",
    "Verif.Object.Capacity.C89_leave_sends_all_partial",
    "Verif.Object.Capacity.C89_compressed_commit_uncounted",
    "Verif.Object.Capacity.C89_compressed_leave",
    "Verif.Object.Capacity.C89_compressed_put_drifts",
    "Verif.Object.Capacity.C89_double_delete",
    "Verif.Object.Capacity.C89_commit_delete_race",
    "Verif.Object.Capacity.C89_finish_again",
    "Verif.Object.Capacity.C89_replaced_file",
    "Verif.Object.Capacity.C89_failed_write",
    "Verif.Object.Capacity.C89_statement_fails"
   ],
   "note": "Proved by induction over all executions in which no object is compressed, no write fails, events on one file do not overlap and a received file is new and announced once: the counter is the bytes of the files plus those of the directories met at start, and a leaving server then sends everything (with C53). Each condition is shown to be needed by a refutation: compressed commits are never counted, compressed uploads count the bytes of the request, overlapping deletions and a deletion before the goroutine of a commit make the counter negative, repeated announcements count again, replaced files are not taken off."
  },
  {
   "property": "C90",
   "status": "partial",
   "theorems": [
    "Verif.Object.JoinLeave.C90_commands",
    "Verif.Object.JoinLeave.C90_ended_unregistered",
    "Verif.Object.JoinLeave.C90_rejoin_lost",
    "Verif.Object.JoinLeave.C90_statement_fails",
    "Verif.Object.JoinLeave.C90_first_join_partial",
    "Verif.Object.JoinLeave.C90_join_too_early",
    "Verif.Object.JoinLeave.C90_overlap_leaks",
    "Verif.Object.JoinLeave.C90_leave_unregisters"
   ],
   "note": "Proved for all sequences of commands that do not overlap: tasks run exactly while an opening is in force and are started and stopped once each, in opposite order; and for a server that has never left: it is registered under a valid lease however many leases are lost. Refuted: a server that has left is never registered again, in every interleaving (its Lifecycle stays cancelled and revokes each new lease); a join that overlaps a leave starts tasks that run for ever. Trusted: KeepAlive with a cancelled context ends at once; etcd grants every lease asked for (otherwise C69)."
  },
  {
   "property": "C91",
   "status": "partial",
   "theorems": [
    "Verif.Registry.Roles.C91_serial_partial",
    "Verif.Registry.Roles.C91_leases",
    "Verif.Registry.Roles.C91_wrong_role",
    "Verif.Registry.Roles.C91_both_roles",
    "Verif.Registry.Roles.C91_lease_meanwhile",
    "Verif.Registry.Roles.C91_missed_change",
    "Verif.Registry.Roles.C91_statement_fails"
   ],
   "note": "Proved for all executions in which at most one change of leadership or lease is being handled at a time (leases may be lost at any moment): registered exactly once and in the right role; and for all executions: a registration hangs on the present lease or on none. Refuted with overlapping goroutines: the wrong role stays registered, both roles at once, a new lease during a change registers the old role, and a change before the subscription is never noticed."
  },
  {
   "property": "C92",
   "status": "partial",
   "theorems": [
    "Verif.Api.Token.C92_honest_partial",
    "Verif.Api.Token.C92_location",
    "Verif.Api.Token.C92_granted",
    "Verif.Api.Token.C92_garbage",
    "Verif.Api.Token.C92_gone",
    "Verif.Api.Token.C92_forged",
    "Verif.Api.Token.C92_any_address",
    "Verif.Api.Token.C92_crash",
    "Verif.Api.Token.C92_spin",
    "Verif.Api.Token.C92_statement_fails",
    "Verif.Api.Token.C92_twice",
    "Verif.Api.Token.C92_opened",
    "Verif.Api.Token.C92_copy",
    "Verif.Api.Token.C92_commit",
    "Verif.Api.Token.C92_commit_fails",
    "Verif.Api.Token.C92_upload",
    "Verif.Api.Token.C92_not_written",
    "Verif.Api.Token.C92_given_out",
    "Verif.Api.Token.C92_given_sound"
   ],
   "note": "Proved for all requests of users who send only the paths they were given, and that these paths lead back to their tokens; what is no token does nothing. Refuted for every lawful codec: tokens are not signed, so whoever may send a PATCH can record any version in any bucket (read-only or not), make the API server ask any address, end its process and keep it in a loop; and a token that was given out serves twice. Trusted: base64 and gob decode what they encode; C77 for the end of the process."
  },
  {
   "property": "C93",
   "status": "partial",
   "theorems": [
    "Verif.Entries.C93_registration_goes",
    "Verif.Entries.C93_statistics_go_partial",
    "Verif.Entries.C93_permanent",
    "Verif.Entries.C93_statistics_statement_fails",
    "Verif.Entries.C93_stop_partial",
    "Verif.Entries.C93_stop_statement_fails",
    "Verif.Entries.C93_serving_partial",
    "Verif.Entries.C93_new_lease_partial",
    "Verif.Entries.C93_late_request",
    "Verif.Entries.C93_alive_statement_fails",
    "Verif.Entries.C93_stale_lease",
    "Verif.Entries.C93_stale_happens",
    "Verif.Entries.C93_listen_ignored"
   ],
   "note": "Proved for all interleavings: every registration belongs to an existing lease and so goes with it; the statistics too unless the ticker read the lease before one was told; a stop during which ticker and notifications are at rest leaves nothing; a server at rest that is granted a lease has both entries under it and keeps and refreshes them. Refuted: statistics put without a lease stay for ever; a tick during the stop puts the statistics again; the request or the assignment of an older notification that comes last takes the server out of the registry or ends the refreshing; a server that cannot listen is registered all the same."
  },
  {
   "property": "C94",
   "status": "partial",
   "theorems": [
    "Verif.Config.C94_size_round_trip",
    "Verif.Config.C94_size_rounded",
    "Verif.Config.C94_size_zero",
    "Verif.Config.C94_size_written",
    "Verif.Config.C94_size_unreadable",
    "Verif.Config.C94_restart_partial",
    "Verif.Config.C94_restart_size",
    "Verif.Config.C94_written",
    "Verif.Config.C94_comes_back_partial",
    "Verif.Config.C94_whole_file",
    "Verif.Config.C94_one_writer",
    "Verif.Config.C94_id_stays",
    "Verif.Config.C94_truncated",
    "Verif.Config.C94_slots_partial",
    "Verif.Config.C94_stop_statement_fails",
    "Verif.Config.C94_last_slots_statement_fails",
    "Verif.Config.C94_id_statement_fails",
    "Verif.Config.C94_env_statement_fails",
    "Verif.Config.C94_zero_size_kills",
    "Verif.Config.C94_quit_statement_fails"
   ],
   "note": "Proved for every interleaving: after any change and once the goroutines are through, the file is the encoding of the running configuration (C94_written), and a restart gives the same configuration (C94_comes_back_partial) up to the rounding of the cache size, which is bounded (C94_restart_size). One writer at a time, the file is whole outside the lock, id and directory stay. Refuted: a stop during a write leaves an empty file and the server never starts again; of two saves the older may win; a server killed before its first write gets id and directory from its new address; a stop on request may still end in the middle of another goroutine's write; environment variables win over what was written; a cache size of 0 ends the process at the first save. yaml.v3 and cleanenv are represented by their contract, the floating point logarithm by FloatLog."
  },
  {
   "property": "C95",
   "status": "partial",
   "theorems": [
    "Verif.Shutdown.C95_drained",
    "Verif.Shutdown.C95_ends",
    "Verif.Shutdown.C95_api",
    "Verif.Shutdown.C95_store_statement_fails",
    "Verif.Shutdown.C95_store_no_time",
    "Verif.Shutdown.C95_store_partial"
   ],
   "note": "Proved for the API server (C95_api, C95_drained) and that every server goes on after the deadline (C95_ends). Refuted for the data server and the metadata server, whose Shutdown does not wait (C95_store_statement_fails, C95_store_no_time); for these C95_store_partial says what is left."
  },
  {
   "property": "C96",
   "status": "partial",
   "theorems": [
    "Verif.ConnPool.C96_one",
    "Verif.ConnPool.C96_same",
    "Verif.ConnPool.C96_no_deadlock",
    "Verif.ConnPool.C96_error_forgotten",
    "Verif.ConnPool.C96_race",
    "Verif.ConnPool.C96_race_partial"
   ],
   "note": "Proved but for the last part: the unlocked read races with the write (C96_race); C96_race_partial says that this is the only way."
  },
  {
   "property": "C97",
   "status": "partial",
   "theorems": [
    "Verif.Load.C97_average",
    "Verif.Load.C97_between",
    "Verif.Load.C97_order",
    "Verif.Load.C97_times_zero",
    "Verif.Load.C97_no_drives",
    "Verif.Load.C97_least_io_partial",
    "Verif.Load.C97_old_table",
    "Verif.Load.C97_fetch",
    "Verif.Load.C97_wraps",
    "Verif.Load.C97_least_statement_fails",
    "Verif.Load.C97_silent_preferred",
    "Verif.Load.C97_space_exact",
    "Verif.Load.C97_least_space",
    "Verif.Load.C97_space_adds_up",
    "Verif.Load.C97_space_sane",
    "Verif.Load.C97_space_error",
    "Verif.Load.C97_text"
   ],
   "note": "Proved for seven of the nine counters, for space, and for io-first with loads below 2^31-1 on servers with readable drives (C97_least_io_partial). Refuted: the times spent reading and writing are always 0 (C97_times_zero); larger loads wrap around and are preferred (C97_wraps, C97_least_statement_fails); a server that cannot read its counters is preferred (C97_silent_preferred); a machine without drives divides by zero (C97_no_drives)."
  },
  {
   "property": "C98",
   "status": "partial",
   "theorems": [
    "Verif.Config.Pages.C98_no_secrets",
    "Verif.Config.Pages.C98_stars",
    "Verif.Config.Pages.C98_unchanged",
    "Verif.Config.Pages.C98_shows_rest",
    "Verif.Config.Pages.C98_page_iff",
    "Verif.Config.Pages.C98_default_fails",
    "Verif.Config.Pages.C98_callback_shown",
    "Verif.Config.Pages.C98_admin_page",
    "Verif.Config.Pages.C98_admin_unknown",
    "Verif.Config.Pages.C98_hidden"
   ],
   "note": "Proved for the user names and passwords of etcd, of the API and of mail. Refuted: an API server without distinct-size in its configuration fails to show a page (C98_default_fails; C98_page_iff says exactly when there is one), and credentials in the URL of the callback are shown (C98_callback_shown)."
  },
  {
   "property": "C99",
   "status": "partial",
   "theorems": [
    "Verif.Reads.C99_available",
    "Verif.Reads.C99_member",
    "Verif.Reads.C99_spread",
    "Verif.Reads.C99_prefix",
    "Verif.Reads.C99_monotone",
    "Verif.Reads.C99_leader",
    "Verif.Reads.C99_caught_up",
    "Verif.Reads.C99_alone",
    "Verif.Reads.C99_statement_fails",
    "Verif.Reads.C99_back_in_time",
    "Verif.Reads.C99_new_leader"
   ],
   "note": "Refuted for groups: a member that has not applied a write yet is asked (C99_statement_fails), two reads may go back in time (C99_back_in_time), and a new leader may lag (C99_new_leader). Proved: answers correspond to a prefix of the writes (C99_prefix), one member never goes back (C99_monotone), the leader sees all (C99_leader), a server on its own sees all (C99_alone), and which servers are asked."
  }
 ]
}
