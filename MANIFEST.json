{
 "claims": [
  {
   "property": "C01",
   "status": "proved",
   "theorems": [
    "Ble.Props.uuid_parse_string",
    "Ble.Props.uuid_parse_iff",
    "Ble.Props.uuid_string_injective",
    "Ble.Props.uuid_parse_total",
    "Ble.Props.uuid_mustParse_panics_iff",
    "Ble.Props.uuid16_bytes",
    "Ble.Props.uuid_contains_iff"
   ],
   "note": ""
  },
  {
   "property": "C02",
   "status": "proved",
   "theorems": [
    "Ble.Props.reverse_spec",
    "Ble.Props.swapBuf_spec",
    "Ble.Props.reverse_swapBuf_involutive"
   ],
   "note": ""
  },
  {
   "property": "C03",
   "status": "partial",
   "theorems": [
    "Ble.Props.packet_never_exceeds_31",
    "Ble.Props.newPacket_le_31",
    "Ble.Props.append_all_or_nothing_partial",
    "Ble.Props.serviceData16_not_atomic",
    "Ble.Props.serviceData16_cases",
    "Ble.Props.apply_success",
    "Ble.Props.newPacket_bytes",
    "Ble.Props.newPacket_succeeds"
   ],
   "note": "The 31-byte bound holds for every sequence of options. Atomicity of a refused append holds for every field except ServiceData16, for which it is false of the code (serviceData16_not_atomic is the counterexample theorem)."
  },
  {
   "property": "C04",
   "status": "proved",
   "theorems": [
    "Ble.Props.advertised_is_decoded",
    "Ble.Props.advertised_flags",
    "Ble.Props.advertised_uuids",
    "Ble.Props.advertised_name",
    "Ble.Props.advertised_mfg",
    "Ble.Props.advertised_serviceData"
   ],
   "note": ""
  },
  {
   "property": "C05",
   "status": "partial",
   "theorems": [
    "Ble.Props.parse_panics_iff",
    "Ble.Props.parser_panics_on_radio_input",
    "Ble.Props.parse_returns_partial",
    "Ble.Props.newRawPacket_outcome",
    "Ble.Props.newRawPacket_err",
    "Ble.Props.getters_return"
   ],
   "note": "False of the code for some radio input: the parser panics exactly on the inputs characterised by parse_panics_iff; on all others it returns."
  },
  {
   "property": "C06",
   "status": "proved",
   "theorems": [
    "Ble.Props.parse_ok_iff",
    "Ble.Props.getters_exact",
    "Ble.Props.records_unique",
    "Ble.Props.parse_err"
   ],
   "note": ""
  },
  {
   "property": "C07",
   "status": "proved",
   "theorems": [
    "Ble.Props.iBeacon_layout",
    "Ble.Props.iBeacon_injective",
    "Ble.Props.iBeacon_bad_uuid"
   ],
   "note": ""
  },
  {
   "property": "C08",
   "status": "proved",
   "theorems": [
    "Ble.Props.table_handles",
    "Ble.Props.table_handles_unique",
    "Ble.Props.service_declaration",
    "Ble.Props.service_groups_adjacent",
    "Ble.Props.service_groups_disjoint",
    "Ble.Props.characteristic_declaration",
    "Ble.Props.descriptor_attributes"
   ],
   "note": ""
  },
  {
   "property": "C09",
   "status": "proved",
   "theorems": [
    "Ble.Props.lookup_exact",
    "Ble.Props.range_exact",
    "Ble.Props.bad_range_refused"
   ],
   "note": ""
  },
  {
   "property": "C10",
   "status": "partial",
   "theorems": [
    "Ble.Props.response_size",
    "Ble.Props.response_within_mtu_partial",
    "Ble.Props.prepare_echo_exceeds_mtu"
   ],
   "note": "Holds for every request but Prepare Write, whose echo has the size of the request; prepare_echo_exceeds_mtu is the counterexample."
  },
  {
   "property": "C11",
   "status": "partial",
   "theorems": [
    "Ble.Props.one_answer_partial",
    "Ble.Props.signed_write_command_answered"
   ],
   "note": "Holds except that unknown and signed commands are answered with an Error Response."
  },
  {
   "property": "C12",
   "status": "partial",
   "theorems": [
    "Ble.Props.request_panics_iff",
    "Ble.Props.server_returns_partial",
    "Ble.Props.server_returns_other_opcodes",
    "Ble.Props.crash_short_prepare",
    "Ble.Props.crash_execute_nothing",
    "Ble.Props.crash_short_cccd_write",
    "Ble.Props.crash_group_request"
   ],
   "note": "False of the code: request_panics_iff characterises exactly the crashing requests; all others are proved safe."
  },
  {
   "property": "C13",
   "status": "proved",
   "theorems": [
    "Ble.Props.findInfo_spec",
    "Ble.Props.findInfo_odd_type"
   ],
   "note": "findInfo_odd_type covers the remaining case of types that are neither 16 nor 128 bits."
  },
  {
   "property": "C14",
   "status": "proved",
   "theorems": [
    "Ble.Props.readByType_entries",
    "Ble.Props.readByType_static",
    "Ble.Props.readByType_not_found",
    "Ble.Props.readByType_first_fails"
   ],
   "note": ""
  },
  {
   "property": "C18",
   "status": "partial",
   "theorems": [
    "Ble.Props.write_request_delivers",
    "Ble.Props.write_command_delivers_partial",
    "Ble.Props.empty_write_command_ignored",
    "Ble.Props.write_without_handler",
    "Ble.Props.write_unknown_handle",
    "Ble.Props.write_reaches_characteristic"
   ],
   "note": "Write Commands with an empty value are ignored by the code (empty_write_command_ignored); everything else is proved."
  },
  {
   "property": "C19",
   "status": "partial",
   "theorems": [
    "Ble.Props.queued_write_delivered_partial",
    "Ble.Props.cancel_discards",
    "Ble.Props.queued_writes_merge_across_handles"
   ],
   "note": "Proved for fragments of one handle; across handles the claim is false of the code (queued_writes_merge_across_handles)."
  },
  {
   "property": "C20",
   "status": "partial",
   "theorems": [
    "Ble.Props.cccd_write_outcome",
    "Ble.Props.cccd_value_after",
    "Ble.Props.connection_history",
    "Ble.Props.cccd_read",
    "Ble.Props.cccd_write_request",
    "Ble.Props.notifier_runs_iff_bit_partial",
    "Ble.Props.disconnect_stops_notifiers_partial",
    "Ble.Props.refused_write_leaks_notifier"
   ],
   "note": "Values are proved for all histories; the notifier part excludes writes of the indicate bit to characteristics without that property, for which it is false (refused_write_leaks_notifier)."
  },
  {
   "property": "C21",
   "status": "proved",
   "theorems": [
    "Ble.Props.notification_pdu"
   ],
   "note": ""
  },
  {
   "property": "C49",
   "status": "partial",
   "theorems": [
    "Ble.Props.addService_duplicates_cccd",
    "Ble.Props.setServices_one_cccd_partial"
   ],
   "note": "False for AddService after another service (addService_duplicates_cccd); proved for SetServices."
  },
  {
   "property": "C16",
   "status": "proved",
   "theorems": [
    "Ble.Props.error_response_layout",
    "Ble.Props.unknown_handle_refused",
    "Ble.Props.client_reports_error"
   ],
   "note": ""
  },
  {
   "property": "C17",
   "status": "partial",
   "theorems": [
    "Ble.Props.mtu_follows_requests",
    "Ble.Props.mtu_request_accepted",
    "Ble.Props.mtu_request_refused",
    "Ble.Props.exchangeMTU_with_server_partial",
    "Ble.Props.exchangeMTU_not_min",
    "Ble.Props.exchangeMTU_bad_argument"
   ],
   "note": "Both sides proved for all values; the claim that both ends use the smaller value is false: the client always uses 515 (exchangeMTU_not_min)."
  },
  {
   "property": "C15",
   "status": "proved",
   "theorems": [
    "Ble.Props.discover_services",
    "Ble.Props.discover_services_filtered",
    "Ble.Props.discover_profile",
    "Ble.Props.discover_services_twice"
   ],
   "note": "discover_services_twice: a second forced discovery lists every service twice."
  },
  {
   "property": "C46",
   "status": "proved",
   "theorems": [
    "Ble.Props.discover_characteristics",
    "Ble.Props.discover_descriptors",
    "Ble.Props.discover_profile"
   ],
   "note": ""
  },
  {
   "property": "C50",
   "status": "partial",
   "theorems": [
    "Ble.Props.discover_profile_partial",
    "Ble.Props.discover_profile",
    "Ble.Props.discover_profile_forced_asks",
    "Ble.Props.discover_profile_after_failure",
    "Ble.Props.discover_profile_forced_doubles"
   ],
   "note": "Complete profile proved when nothing fails; false after a failed discovery (discover_profile_after_failure) and for a forced one (discover_profile_forced_doubles: every service twice)."
  },
  {
   "property": "C23",
   "status": "partial",
   "theorems": [
    "Ble.Props.client_simple_calls_total_partial",
    "Ble.Props.client_simple_calls_total",
    "Ble.Props.readList_panics_iff",
    "Ble.Props.discovery_loops_panic_iff",
    "Ble.Props.descriptor_loop_panics_iff",
    "Ble.Props.client_crashes",
    "Ble.Props.client_crashes_after_small_mtu",
    "Ble.Props.discoverServices_can_run_forever"
   ],
   "note": "Calls that look only at opcode and length never panic; for the list calls the exact panic condition is proved, so the full property is false."
  },
  {
   "property": "C24",
   "status": "partial",
   "theorems": [
    "Ble.Props.client_requests_decode_partial",
    "Ble.Props.client_requests_decode",
    "Ble.Props.prepareWrite_ignores_value",
    "Ble.Props.signedWrite_loses_value",
    "Ble.Props.executeWrite_panics"
   ],
   "note": "Proved for all calls except PrepareWrite, SignedWrite and ExecuteWrite, for which it is false."
  },
  {
   "property": "C25",
   "status": "partial",
   "theorems": [
    "Ble.Props.readLong_returns_value_partial",
    "Ble.Props.readLong_truncates",
    "Ble.Props.readLong_truncates_after_exchange",
    "Ble.Props.readLong_static"
   ],
   "note": "Proved when the client's MTU is at most the server's and the value is served by a handler; false otherwise, with the exact outcomes proved."
  },
  {
   "property": "C22",
   "status": "partial",
   "theorems": [
    "Ble.Props.call_returns_own_answer",
    "Ble.Props.call_returns_own_answer_partial",
    "Ble.Props.call_result_opcode",
    "Ble.Props.rspOfReq_spec",
    "Ble.Props.late_answer_goes_to_next_call",
    "Ble.Props.late_answer_blocks_loop"
   ],
   "note": "Proved for every interleaving without timeouts, and with timeouts up to answers of requests from the first timed-out one on; false after a timeout (late_answer_goes_to_next_call)."
  },
  {
   "property": "C26",
   "status": "partial",
   "theorems": [
    "Ble.Props.cccd_matches_subscriptions",
    "Ble.Props.cccd_matches_subscriptions_partial",
    "Ble.Props.failed_subscribe_leaves_peer_on",
    "Ble.Props.resubscribe_keeps_first_handler"
   ],
   "note": "Proved for every history whose last write to the CCCD in question succeeded; false after a failing write (failed_subscribe_leaves_peer_on)."
  },
  {
   "property": "C27",
   "status": "partial",
   "theorems": [
    "Ble.Props.value_goes_to_subscriber",
    "Ble.Props.indications_confirmed_once",
    "Ble.Props.values_in_order",
    "Ble.Props.values_complete_partial",
    "Ble.Props.seventeenth_value_dropped",
    "Ble.Props.handleNotification_panics_iff",
    "Ble.Props.loop_panics_iff"
   ],
   "note": "Dispatch, order and confirmations proved for all histories and interleavings; values can be dropped when 16 wait (exactly characterised), and short PDUs panic."
  },
  {
   "property": "C28",
   "status": "proved",
   "theorems": [
    "Ble.Props.h4_chunking_irrelevant",
    "Ble.Props.h4_delivers_packets",
    "Ble.Props.hci_receives_packets",
    "Ble.Props.hci_long_packet_ends_reception",
    "Ble.Props.h4_pause_forges_packet"
   ],
   "note": "Without the time-out condition it is false (h4_pause_forges_packet)."
  },
  {
   "property": "C29",
   "status": "partial",
   "theorems": [
    "Ble.Props.write_then_read_partial",
    "Ble.Props.writePDU_fragments",
    "Ble.Props.recombine_returns_frame",
    "Ble.Props.recvLoop_delivers_frames",
    "Ble.Props.write_then_read",
    "Ble.Props.writePDU_isFragmentation",
    "Ble.Props.connRead_returns_info",
    "Ble.Props.write_over_mtu_refused",
    "Ble.Props.writePDU_zero_buffer_diverges",
    "Ble.Props.short_start_fragment_crashes"
   ],
   "note": "Proved for every buffer size of at least 1 and every fragmentation whose first fragment contains the L2CAP header; false for buffer size 0 (never ends) and for a first fragment of fewer than 4 bytes (crash)."
  },
  {
   "property": "C30",
   "status": "partial",
   "theorems": [
    "Ble.Props.pool_each_buffer_in_one_place",
    "Ble.Props.pool_write_fails_exact",
    "Ble.Props.pool_cleanup_known",
    "Ble.Props.pool_completion_possible",
    "Ble.Props.pool_total",
    "Ble.Props.pool_write_takes_n",
    "Ble.Props.pool_never_overcommitted_partial",
    "Ble.Props.pool_completions_return_all_partial",
    "Ble.Props.pool_close_overcommits",
    "Ble.Props.pool_disconnected_returns_all",
    "Ble.Props.pool_no_leak_partial",
    "Ble.Props.pool_close_race_leaks",
    "Ble.Props.pool_disconnect_deadlock",
    "Ble.Props.hci_close_leaves_peripheral_connections_open"
   ],
   "note": "Conservation and return of buffers proved for all histories; over-commitment excluded when buffers are reclaimed only for dead links. False with a local Close (pool_close_overcommits), with a handle reused before Close's clean-up (pool_close_race_leaks), and a deadlock exists (pool_disconnect_deadlock)."
  },
  {
   "property": "C31",
   "status": "partial",
   "theorems": [
    "Ble.Props.command_complete_fields",
    "Ble.Props.command_status_fields",
    "Ble.Props.cmd_one_per_opcode",
    "Ble.Props.cmd_reply_has_own_opcode",
    "Ble.Props.cmd_reply_used_once",
    "Ble.Props.cmd_waiting_is_registered",
    "Ble.Props.cmd_answer_reaches_caller",
    "Ble.Props.cmd_one_outstanding_partial",
    "Ble.Props.cmd_allowance_le_announced",
    "Ble.Props.cmd_writes_le_allowance",
    "Ble.Props.stale_credit_overruns_controller",
    "Ble.Props.reduced_credit_is_ignored",
    "Ble.Props.vendor_command_ignores_command_complete",
    "Ble.Props.stuck_event_loop_is_permanent",
    "Ble.Props.late_reply_hangs_event_loop",
    "Ble.Props.duplicate_reply_hangs_event_loop",
    "Ble.Props.late_reply_goes_to_next_call",
    "Ble.Props.announced_commands_sent",
    "Ble.Props.announced_commands_example"
   ],
   "note": "Matching and exclusion proved for every interleaving; flow control only for controllers with one buffer, false in general (stale_credit_overruns_controller)."
  },
  {
   "property": "C36",
   "status": "proved",
   "theorems": [
    "Ble.Props.coc_frames_le_credits",
    "Ble.Props.coc_credits_bounded",
    "Ble.Props.coc_overflow_refused",
    "Ble.Props.coc_grant_adds",
    "Ble.Props.coc_frame_costs_one",
    "Ble.Props.coc_returns_one_credit",
    "Ble.Props.coc_no_credit_unknown",
    "Ble.Props.coc_early_credits_lost"
   ],
   "note": ""
  },
  {
   "property": "C37",
   "status": "proved",
   "theorems": [
    "Ble.Props.coc_local_ids_unique",
    "Ble.Props.coc_local_ids_never_reused",
    "Ble.Props.coc_remote_ids_unique",
    "Ble.Props.coc_open_has_id",
    "Ble.Props.coc_ids_run_out"
   ],
   "note": "coc_ids_run_out: identifiers are never reused, so a connection can open only finitely many channels over its life."
  },
  {
   "property": "C38",
   "status": "partial",
   "theorems": [
    "Ble.Props.coc_single_frame_sent_partial",
    "Ble.Props.coc_open_returns",
    "Ble.Props.coc_frames_carry_data",
    "Ble.Props.coc_multi_frame_send_malformed",
    "Ble.Props.coc_empty_sdu_not_sent",
    "Ble.Props.coc_mtu_not_checked",
    "Ble.Props.coc_single_frame_received_partial",
    "Ble.Props.coc_lookup_exact",
    "Ble.Props.coc_open_channel",
    "Ble.Props.coc_open_channel_receives_partial",
    "Ble.Props.coc_multi_frame_never_received",
    "Ble.Props.coc_no_subscriber",
    "Ble.Props.coc_surplus_delivered",
    "Ble.Props.coc_library_to_itself_fails"
   ],
   "note": "Proved for SDUs that fit one frame in each direction; false of the code for SDUs of several frames (malformed when sent, never delivered when received)."
  },
  {
   "property": "C39",
   "status": "partial",
   "theorems": [
    "Ble.Props.signal_roundtrip",
    "Ble.Props.signal_message_length",
    "Ble.Props.command_reject_loses_reason",
    "Ble.Props.signal_id_never_zero",
    "Ble.Props.signal_ids_distinct",
    "Ble.Props.signal_pdu_is_frame",
    "Ble.Props.signal_pdu_handled",
    "Ble.Props.signal_replies_carry_request_id",
    "Ble.Props.signal_request_answered_partial",
    "Ble.Props.credit_connection_request_unanswered",
    "Ble.Props.disconnect_of_channel_rejected",
    "Ble.Props.signal_over_mtu_rejected",
    "Ble.Props.signal_response_accepted",
    "Ble.Props.signal_wrong_response_refused",
    "Ble.Props.concurrent_signal_loses_response"
   ],
   "note": "Round trip, identifiers and answers proved; false for Command Reject's data (command_reject_loses_reason) and for incoming credit-based connection requests, which are never answered."
  },
  {
   "property": "C32",
   "status": "partial",
   "theorems": [
    "Ble.Props.recvLoop_no_panic_partial",
    "Ble.Props.short_start_fragment_crashes",
    "Ble.Props.oversized_att_frame_fails",
    "Ble.Props.surplus_data_makes_read_stale",
    "Ble.Props.signal_panics_iff",
    "Ble.Props.empty_signal_crashes",
    "Ble.Props.coc_receive_panics_iff",
    "Ble.Props.coc_conforming_peer_crashes",
    "Ble.Props.hci_packet_panics_iff",
    "Ble.Props.hci_spec_sized_packets_safe",
    "Ble.Props.hci_crashes",
    "Ble.Props.encryption_failure_crashes",
    "Ble.Props.advertising_panics_iff",
    "Ble.Props.report_before_scan_crashes",
    "Ble.Props.advertising_pair_crashes"
   ],
   "note": "False of the code: the exact panic conditions of signalling PDUs and credit frames are proved, with crashing inputs from the radio."
  },
  {
   "property": "C33",
   "status": "partial",
   "theorems": [
    "Ble.Props.advertisement_seen_partial",
    "Ble.Props.advertisement_seen",
    "Ble.Props.scan_response_paired",
    "Ble.Props.scan_response_unpaired",
    "Ble.Props.no_foreign_scan_response",
    "Ble.Props.advertisements_in_order",
    "Ble.Props.multi_report_event_dropped",
    "Ble.Props.unparseable_advertisement_dropped",
    "Ble.Props.oldest_remembered_not_searched",
    "Ble.Props.advertising_panics_iff",
    "Ble.Props.report_before_scan_crashes",
    "Ble.Props.advertising_pair_crashes",
    "Ble.Props.address_type_not_compared",
    "Ble.Props.advertisement_fields",
    "Ble.Props.int8_spec",
    "Ble.Props.srData_is_advertisement_data"
   ],
   "note": "Delivery, order and pairing proved for all histories; false for events with several reports and for data the parser rejects (both dropped), and the pairing ignores the address type."
  },
  {
   "property": "C34",
   "status": "partial",
   "theorems": [
    "Ble.Props.report_fields_partial",
    "Ble.Props.report_accessors_no_panic",
    "Ble.Props.report_fields",
    "Ble.Props.single_report_fields",
    "Ble.Props.truncated_report_safe",
    "Ble.Props.data_implies_other_fields",
    "Ble.Props.report_index_not_checked",
    "Ble.Props.report_negative_index",
    "Ble.Props.report_rows_misread"
   ],
   "note": "Proved for indices below the number of reports and the layout the library assumes; an index of the number of reports or more is not refused (report_index_not_checked), a negative one panics, and for several reports the layout assumed is not the one some controllers use (report_rows_misread)."
  },
  {
   "property": "C51",
   "status": "proved",
   "theorems": [
    "Ble.Props.packet_touches_named_only",
    "Ble.Props.acl_reaches_connection",
    "Ble.Props.disconnect_reaches_connection",
    "Ble.Props.encryption_reaches_connection",
    "Ble.Props.connection_event_creates",
    "Ble.Props.connection_event_fields",
    "Ble.Props.completed_reaches_connections",
    "Ble.Props.example_history"
   ],
   "note": "For all reachable states and packets."
  },
  {
   "property": "C52",
   "status": "partial",
   "theorems": [
    "Ble.Props.encryption_follows_events_partial",
    "Ble.Props.key_refresh_event_ignored",
    "Ble.Props.encryption_reaches_connection",
    "Ble.Props.connection_event_creates"
   ],
   "note": "Proved for all histories, for Encryption Change events; false for Encryption Key Refresh Complete, which is never noticed."
  },
  {
   "property": "C53",
   "status": "partial",
   "theorems": [
    "Ble.Props.close_closes_partial",
    "Ble.Props.connection_steps_crash_iff",
    "Ble.Props.unlisted_connection_frozen",
    "Ble.Props.closed_connection_frozen",
    "Ble.Props.close_closes",
    "Ble.Props.disconnected_only_if",
    "Ble.Props.open_until_closed",
    "Ble.Props.reused_handle_closes_wrong_connection",
    "Ble.Props.slave_never_announced_after_shutdown"
   ],
   "note": "At most once, only with a cause, and frozen afterwards: proved for all histories. False: when a handle is reused before the old entry is removed, Close closes the new connection and the old one is never announced; slave connections are not announced at shutdown."
  },
  {
   "property": "C35",
   "status": "partial",
   "theorems": [
    "Ble.Props.scan_params_exact",
    "Ble.Props.conn_params_accepted_iff",
    "Ble.Props.conn_params_sound_partial",
    "Ble.Props.supervision_boundary_accepted",
    "Ble.Props.allowed_conn_params_refused",
    "Ble.Props.conn_params_complete_partial",
    "Ble.Props.default_params_accepted"
   ],
   "note": "Scan parameters: exact. Connection parameters: the accepted set is characterised exactly; it differs from the specification in the supervision timeout condition (equality is accepted without latency; the latency is multiplied by 1.25, so some allowed parameters are refused)."
  },
  {
   "property": "C40",
   "status": "partial",
   "theorems": [
    "Ble.Props.pairing_method_partial",
    "Ble.Props.secure_connections_used",
    "Ble.Props.legacy_one_sided_oob",
    "Ble.Props.secure_despite_legacy_request",
    "Ble.Props.unassigned_io_just_works",
    "Ble.Props.pairing_method_example",
    "Ble.Props.security_request_downgrades",
    "Ble.Props.connection_pairing_request"
   ],
   "note": "The method is the specification's for every pair of feature sets with assigned IO capabilities outside two cases in which the code differs: legacy pairing with only one side having OOB data, and a request without the secure connections bit answered by a response with it. Both are proved to differ."
  },
  {
   "property": "C41",
   "status": "proved",
   "theorems": [
    "Ble.Props.f4_spec",
    "Ble.Props.f5_spec",
    "Ble.Props.f6_spec",
    "Ble.Props.g2_spec",
    "Ble.Props.c1_spec",
    "Ble.Props.s1_spec",
    "Ble.Props.passkey_spec",
    "Ble.Props.passkey_bit_spec",
    "Ble.Props.public_key_roundtrip",
    "Ble.Props.public_key_sound",
    "Ble.Props.just_works_completes",
    "Ble.Props.passkey_completes",
    "Ble.Props.legacy_completes",
    "Ble.Props.legacy_bonding_completes",
    "Ble.Props.wrong_confirm_rejected",
    "Ble.Props.wrong_passkey_bit_rejected",
    "Ble.Props.wrong_check_rejected",
    "Ble.Props.wrong_legacy_confirm_rejected",
    "Ble.Props.short_secret_fails",
    "Ble.Props.example_just_works"
   ],
   "note": "For every MAC, cipher and curve; the curve library's and AES-CMAC's own code is a parameter. short_secret_fails: if the curve library returned a secret shorter than 32 bytes pairing would fail."
  },
  {
   "property": "C42",
   "status": "partial",
   "theorems": [
    "Ble.Props.bond_saved_only_after_check_partial",
    "Ble.Props.only_two_messages_store",
    "Ble.Props.bond_forged",
    "Ble.Props.unsolicited_pairing",
    "Ble.Props.example_unsolicited"
   ],
   "note": "Proved for all histories without key distribution messages; with them it is false (bond_forged): two unauthenticated messages store a key of the attacker."
  },
  {
   "property": "C54",
   "status": "partial",
   "theorems": [
    "Ble.Props.message_crashes_iff_partial",
    "Ble.Props.message_crashes_iff",
    "Ble.Props.one_message_crashes",
    "Ble.Props.one_message_blocks",
    "Ble.Props.crashes_after_pairing",
    "Ble.Props.blocked_for_ever"
   ],
   "note": "The crashing messages are characterised exactly for all histories; several single messages crash the process or stop reception for ever, so the property as a user expects it is false."
  },
  {
   "property": "C55",
   "status": "partial",
   "theorems": [
    "Ble.Props.pair_nil_only_after_check_partial",
    "Ble.Props.forged_pair_success",
    "Ble.Props.pair_only_once",
    "Ble.Props.pair_refused_after_messages",
    "Ble.Props.unsolicited_pairing"
   ],
   "note": "For all histories, Pair returns nil only after a check passed or after a Master Identification message; the last is proved to be a forgery (forged_pair_success). Pair cannot be called again after it failed (pair_only_once): that half of the claim is false of the code."
  },
  {
   "property": "C56",
   "status": "partial",
   "theorems": [
    "Ble.Props.wrong_passkey_bit_rejected_partial",
    "Ble.Props.passkey_stolen",
    "Ble.Props.example_stolen"
   ],
   "note": "False of the code: passkey_stolen gives one strategy that, without knowing the passkey and not depending on it, completes passkey pairing for every passkey, because the host accepts a second confirm value for a round after it has revealed its nonce for that round."
  },
  {
   "property": "C43",
   "status": "partial",
   "theorems": [
    "Ble.Props.bond_store_is_map_partial",
    "Ble.Props.bond_store_is_map",
    "Ble.Props.bond_save_result",
    "Ble.Props.bond_empty_key",
    "Ble.Props.bond_find_crashes_iff"
   ],
   "note": "All histories without file errors, for bonds with a nonempty key; for an empty key Exists and Find disagree (bond_empty_key). bond_find_crashes_iff: a file edited by another program can crash Find. JSON is a parameter with the laws stated in Json (met: json_bonds)."
  },
  {
   "property": "C44",
   "status": "proved",
   "theorems": [
    "Ble.Props.cache_is_map",
    "Ble.Props.cache_load_after_store",
    "Ble.Props.cache_no_overwrite",
    "Ble.Props.cache_null_crashes",
    "Ble.Props.cache_clear_result"
   ],
   "note": "All histories without file errors; JSON is a parameter with stated laws, the profile's contents are opaque."
  },
  {
   "property": "C57",
   "status": "partial",
   "theorems": [
    "Ble.Props.bond_clean_failure_partial",
    "Ble.Props.bond_torn_save",
    "Ble.Props.bond_unreadable_for_ever",
    "Ble.Props.bond_crash_loses",
    "Ble.Props.cache_torn"
   ],
   "note": "Failures outside the middle of a write are harmless (bond_clean_failure_partial). A write interrupted in the middle loses all bonds or makes the store unusable for ever (bond_crash_loses): the claim is false of the code. The cache is then unreadable but can be cleared (cache_torn)."
  },
  {
   "property": "C58",
   "status": "partial",
   "theorems": [
    "Ble.Props.bond_linearizable_partial",
    "Ble.Props.bond_real_time",
    "Ble.Props.bond_concurrent_find_misses"
   ],
   "note": "All interleavings, if no bond with an empty key is stored. With one the claim is false: Find writes under the read lock (bond_concurrent_find_misses)."
  },
  {
   "property": "C45",
   "status": "proved",
   "theorems": [
    "Ble.Props.adv_name_services",
    "Ble.Props.FitCount_unique",
    "Ble.Props.adv_field",
    "Ble.Props.adv_adv",
    "Ble.Props.adv_arrays",
    "Ble.Props.adv_enable_result",
    "Ble.Props.adv_list_type",
    "Ble.Props.adv_incomplete_list_marked_complete",
    "Ble.Props.adv_later_uuid_hidden",
    "Ble.Props.adv_error_hidden"
   ],
   "note": "Any name and list of 2, 4 or 16-byte UUIDs, any previous state, controller accepting its commands. 'Fitting' is the longest prefix with one record per UUID: a UUID that does not fit hides later ones that would (adv_later_uuid_hidden), 8 to 13 16-bit UUIDs are announced as 7 in a 'complete' list (adv_incomplete_list_marked_complete), and a controller error on the data is reported as success without advertising (adv_error_hidden)."
  },
  {
   "property": "C47",
   "status": "partial",
   "theorems": [
    "Ble.Props.hci_cmd_packet",
    "Ble.Props.hci_cmd_on_the_wire_partial",
    "Ble.Props.hci_cmd_decodes",
    "Ble.Props.hci_cmd_opcodes_distinct",
    "Ble.Props.hci_cmd_wrong_opcode",
    "Ble.Props.hci_reply_partial",
    "Ble.Props.hci_reply_set_adv_data",
    "Ble.Props.hci_reply_loses",
    "Ble.Props.hci_send_status",
    "Ble.Props.hci_vendor_packet_partial",
    "Ble.Props.hci_vendor_long_crashes",
    "Ble.Props.hci_vendor_payload_lost",
    "Ble.Props.hci_vendor_unsized_crashes"
   ],
   "note": "All commands of the generated table, all field values. Two commands carry an opcode other than the specification's (hci_cmd_wrong_opcode), replies longer than the reply structure lose bytes (hci_reply_loses), vendor commands can crash or lose their payload."
  },
  {
   "property": "C48",
   "status": "partial",
   "theorems": [
    "Ble.Props.dial_addr_partial",
    "Ble.Props.dial_addr",
    "Ble.Props.dial_packet",
    "Ble.Props.dial_scanned",
    "Ble.Props.dial_remote_addr",
    "Ble.Props.dial_remote_again_is_public",
    "Ble.Props.dial_random_identity",
    "Ble.Props.addr_bytes"
   ],
   "note": "All address texts and parameters. False when the address came from a connection: RemoteAddr forgets that it was random (dial_remote_again_is_public)."
  },
  {
   "property": "C59",
   "status": "partial",
   "theorems": [
    "Ble.Props.dial_right_peer_partial",
    "Ble.Props.dial_returns_some_dialled_peer",
    "Ble.Props.dial_off_by_one"
   ],
   "note": "All executions of one Dial at a time with a controller that raises pending connection events before answering commands. With a later announcement the claim is false for any number of later calls (dial_off_by_one)."
  },
  {
   "property": "C60",
   "status": "partial",
   "theorems": [
    "Ble.Props.indication_success_confirmed_partial",
    "Ble.Props.indication_successes_le_confirmations",
    "Ble.Props.indication_results_ordered",
    "Ble.Props.requests_answered_in_order",
    "Ble.Props.waiting_indication_confirmed",
    "Ble.Props.early_confirmation_lost",
    "Ble.Props.late_confirmation_credits_next",
    "Ble.Props.mtu_exchange_blocks_confirmation",
    "Ble.Props.value_pdus_within_asked_mtu",
    "Ble.Props.value_pdus_bounded",
    "Ble.Props.notification_before_mtu_response"
   ],
   "note": "All executions of the transition system of server goroutines. Holds until a first timeout; false after it for any number of later calls (late_confirmation_credits_next); a confirmation read before the caller waits is lost (early_confirmation_lost); an MTU exchange and a write command between an indication and its confirmation block both for 30 s (mtu_exchange_blocks_confirmation). Disconnection and write errors are in C163."
  },
  {
   "property": "C61",
   "status": "partial",
   "theorems": [
    "Ble.Props.central_answers_in_order_partial",
    "Ble.Props.central_answers_all_partial",
    "Ble.Props.central_indications_counted",
    "Ble.Props.central_works_off_queue",
    "Ble.Props.central_without_server",
    "Ble.Props.central_answer_waits_for_own_call",
    "Ble.Props.central_answers_confirmation",
    "Ble.Props.central_indication_never_succeeds"
   ],
   "note": "All executions. In order and once for the requests queued; all when fewer than ten wait. False: the database is attached after the receiving goroutine has started and is looked for once (central_without_server: then nothing is ever answered); answers wait for the client's own call (central_answer_waits_for_own_call); confirmations are answered with an error (central_answers_confirmation); indications on a dialled connection always time out (central_indication_never_succeeds)."
  },
  {
   "property": "C62",
   "status": "partial",
   "theorems": [
    "Ble.Props.init_takes_controller_values_partial",
    "Ble.Props.init_zero_length_buffers",
    "Ble.Props.init_ignores_errors",
    "Ble.Props.init_power_unsigned"
   ],
   "note": "Address and buffers for controllers that answer. False: LE buffers announced with length zero make a pool of zero-length buffers on which every write loops (init_zero_length_buffers); errors are dropped (init_ignores_errors: address 00:..:00); the power level is read unsigned (init_power_unsigned). The commands whose replies are not used are in C160."
  },
  {
   "property": "C63",
   "status": "partial",
   "theorems": [
    "Ble.Props.pairing_addresses_partial",
    "Ble.Props.pairing_address_wrong_legacy",
    "Ble.Props.pairing_address_wrong_secure"
   ],
   "note": "Exact start of the pairing when the connection uses the adapter's address with the type its two top bits suggest. False for public addresses beginning with 11 (for instance DC:A6:32 of the Raspberry Pi), which are taken for random ones, and for connections made with a random own address (the public one is used): every legacy pairing fails (pairing_address_wrong_legacy, using only that AES is injective), and every secure one whose MACs differ (pairing_address_wrong_secure)."
  },
  {
   "property": "C64",
   "status": "partial",
   "theorems": [
    "Ble.Props.start_encryption_uses_bond_partial",
    "Ble.Props.start_encryption_no_bond",
    "Ble.Props.start_encryption_twice",
    "Ble.Props.start_encryption_short_key",
    "Ble.Props.start_encryption_refuses_zero",
    "Ble.Props.start_encryption_long_key",
    "Ble.Props.start_encryption_without_smp",
    "Ble.Props.encryption_result_told",
    "Ble.Props.paired_key_is_used",
    "Ble.Props.distributed_key_is_used_partial",
    "Ble.Props.encryption_never_crashes",
    "Ble.Props.example_start_encryption"
   ],
   "note": "Proved for 16-octet keys and, for legacy bonds, non-zero EDIV and Rand. Found: a legacy bond whose peer chose a zero EDIV or Rand is stored and then refused for ever; any failing Encryption Change status (also a timeout) deletes the bond; a stored key of more than 16 octets, or a connection without security manager, crashes; a second StartEncryption before the result takes the first caller's notification; the result is lost if the channel is not ready. The address type is not part of the key of the bond store."
  },
  {
   "property": "C65",
   "status": "proved",
   "theorems": [
    "Ble.Props.writes_arrive_whole",
    "Ble.Props.concurrent_writes_delivered",
    "Ble.Props.failed_write_breaks_next",
    "Ble.Props.example_concurrent_writes"
   ],
   "note": "The premise that no write failed is needed: failed_write_breaks_next shows that after a socket error in the middle of a PDU the next write follows the incomplete one and the receiver gives up the connection."
  },
  {
   "property": "C66",
   "status": "proved",
   "theorems": [
    "Ble.Props.received_in_order",
    "Ble.Props.unsolicited_response_stalls",
    "Ble.Props.indication_flood_stalls",
    "Ble.Props.bounded_work",
    "Ble.Props.stall_only_if",
    "Ble.Props.notifications_all_read",
    "Ble.Props.buffers_conserved",
    "Ble.Props.completed_frees",
    "Ble.Props.handed_over",
    "Ble.Props.sends_iff_buffer",
    "Ble.Props.example_stall",
    "Ble.Props.example_indication_stall",
    "Ble.Props.example_all_read"
   ],
   "note": "The stalls are findings about the code: handleACL blocks the event loop, holding the connection table's mutex, on the queue of one connection. Connections stay up in the model and every PDU is one packet."
  },
  {
   "property": "C67",
   "status": "partial",
   "theorems": [
    "Ble.Props.closed_calls_return",
    "Ble.Props.closed_new_call_fails",
    "Ble.Props.stopping_calls_fail",
    "Ble.Props.reply_means_answered",
    "Ble.Props.success_means_answered_partial",
    "Ble.Props.close_reports_success",
    "Ble.Props.close_cleans_up",
    "Ble.Props.close_hangs_on_new_central",
    "Ble.Props.failure_cleans_up",
    "Ble.Props.failure_forgotten",
    "Ble.Props.accept_hangs_after_failure",
    "Ble.Props.no_success_after_failure",
    "Ble.Props.example_close",
    "Ble.Props.example_close_hangs",
    "Ble.Props.example_failure"
   ],
   "note": "Return of all calls and shutdown are proved. False of the code: a command without return parameters that waits at Close reports success (close_reports_success, for every state without recorded error); a new central's connection at the time of Close hangs the event loop (close_hangs_on_new_central); after a transport failure the error is reset to nil and the error handler is told nil (failure_forgotten), and Accept and a Dial whose command has just been answered wait for ever (accept_hangs_after_failure)."
  },
  {
   "property": "C68",
   "status": "partial",
   "theorems": [
    "Ble.Props.connect_only_matching",
    "Ble.Props.connect_each_report_once",
    "Ble.Props.connect_cause",
    "Ble.Props.connect_reported",
    "Ble.Props.connect_deadline_partial",
    "Ble.Props.connect_hangs_on_cancel",
    "Ble.Props.connect_hangs_at_deadline",
    "Ble.Props.connect_reaches_dial",
    "Ble.Props.connect_leaks_handlers",
    "Ble.Props.connect_leak_example",
    "Ble.Props.connect_sync_deadlock",
    "Ble.Props.connect_sync_only_late",
    "Ble.Props.connect_sync_example",
    "Ble.Props.find_sound",
    "Ble.Props.find_complete_if_sequential",
    "Ble.Props.find_loses",
    "Ble.Props.find_example"
   ],
   "note": "Safety, and reaching the dial, are proved for all schedules. False of the code and shown: a caller that cancels (or whose deadline races with the watcher goroutine) before a match waits for ever in the receive; matching reports beyond the first leave goroutines waiting for ever; with OptAdvHandlerSync a match during the scan deadlocks the event loop for good, and Connect can only succeed after its context has ended; Find appends without a lock and loses advertisements when handlers overlap (complete when they do not)."
  },
  {
   "property": "C69",
   "status": "partial",
   "theorems": [
    "Ble.Props.notify_handle_current_partial",
    "Ble.Props.services_listed",
    "Ble.Props.custom_handler_served",
    "Ble.Props.notify_handle_current",
    "Ble.Props.addService_moves",
    "Ble.Props.notify_wrong_after_add",
    "Ble.Props.notify_wrong_example"
   ],
   "note": "Contents of the table for all histories, and correct handles for clients connected after the last change, are proved. False of the code: each AddService gives every notifying characteristic another CCCD, so the values of ALL application characteristics move up (exact amount proved) and clients connected before get every notification under a wrong handle; the handler given to NewServerWithNameAndHandler is served only after AddService and never after SetServices/RemoveAllServices (exact condition proved)."
  },
  {
   "property": "C70",
   "status": "proved",
   "theorems": [
    "Ble.Props.packet_never_exceeds_31",
    "Ble.Props.newPacket_le_31",
    "Ble.Props.newPacket_bytes",
    "Ble.Props.newPacket_succeeds",
    "Ble.Props.apply_success"
   ],
   "note": "The part of C03 that holds of the code, stated exactly; proved in full. The counterexamples to the rest of C03 are listed there."
  },
  {
   "property": "C71",
   "status": "proved",
   "theorems": [
    "Ble.Props.parse_panics_iff",
    "Ble.Props.newRawPacket_outcome",
    "Ble.Props.getters_return"
   ],
   "note": "The part of C05 that holds of the code, stated exactly; proved in full. The counterexamples to the rest of C05 are listed there."
  },
  {
   "property": "C72",
   "status": "proved",
   "theorems": [
    "Ble.Props.response_size"
   ],
   "note": "The part of C10 that holds of the code, stated exactly; proved in full. The counterexamples to the rest of C10 are listed there."
  },
  {
   "property": "C73",
   "status": "proved",
   "theorems": [
    "Ble.Props.request_panics_iff",
    "Ble.Props.server_returns_other_opcodes"
   ],
   "note": "The part of C12 that holds of the code, stated exactly; proved in full. The counterexamples to the rest of C12 are listed there."
  },
  {
   "property": "C74",
   "status": "proved",
   "theorems": [
    "Ble.Props.write_request_delivers",
    "Ble.Props.write_without_handler",
    "Ble.Props.write_unknown_handle",
    "Ble.Props.write_reaches_characteristic"
   ],
   "note": "The part of C18 that holds of the code, stated exactly; proved in full. The counterexamples to the rest of C18 are listed there."
  },
  {
   "property": "C75",
   "status": "proved",
   "theorems": [
    "Ble.Props.cccd_write_outcome",
    "Ble.Props.cccd_value_after",
    "Ble.Props.connection_history",
    "Ble.Props.cccd_read",
    "Ble.Props.cccd_write_request"
   ],
   "note": "The part of C20 that holds of the code, stated exactly; proved in full. The counterexamples to the rest of C20 are listed there."
  },
  {
   "property": "C76",
   "status": "proved",
   "theorems": [
    "Ble.Props.mtu_follows_requests",
    "Ble.Props.mtu_request_accepted",
    "Ble.Props.mtu_request_refused",
    "Ble.Props.new_server_exact"
   ],
   "note": "The part of C17 that holds of the code, stated exactly; proved in full. The counterexamples to the rest of C17 are listed there."
  },
  {
   "property": "C77",
   "status": "proved",
   "theorems": [
    "Ble.Props.call_returns_own_answer",
    "Ble.Props.call_result_opcode"
   ],
   "note": "The part of C22 that holds of the code, stated exactly; proved in full. The counterexamples to the rest of C22 are listed there."
  },
  {
   "property": "C78",
   "status": "proved",
   "theorems": [
    "Ble.Props.value_goes_to_subscriber",
    "Ble.Props.indications_confirmed_once",
    "Ble.Props.values_in_order"
   ],
   "note": "The part of C27 that holds of the code, stated exactly; proved in full. The counterexamples to the rest of C27 are listed there."
  },
  {
   "property": "C79",
   "status": "proved",
   "theorems": [
    "Ble.Props.writePDU_fragments",
    "Ble.Props.writePDU_isFragmentation",
    "Ble.Props.recombine_returns_frame",
    "Ble.Props.recvLoop_delivers_frames",
    "Ble.Props.write_then_read",
    "Ble.Props.connRead_returns_info",
    "Ble.Props.write_over_mtu_refused"
   ],
   "note": "The part of C29 that holds of the code, stated exactly; proved in full. The counterexamples to the rest of C29 are listed there."
  },
  {
   "property": "C80",
   "status": "proved",
   "theorems": [
    "Ble.Props.pool_each_buffer_in_one_place",
    "Ble.Props.pool_total",
    "Ble.Props.pool_disconnected_returns_all"
   ],
   "note": "The part of C30 that holds of the code, stated exactly; proved in full. The counterexamples to the rest of C30 are listed there."
  },
  {
   "property": "C81",
   "status": "proved",
   "theorems": [
    "Ble.Props.cmd_one_per_opcode",
    "Ble.Props.cmd_reply_has_own_opcode",
    "Ble.Props.cmd_reply_used_once",
    "Ble.Props.cmd_waiting_is_registered",
    "Ble.Props.cmd_answer_reaches_caller",
    "Ble.Props.command_complete_fields",
    "Ble.Props.command_status_fields"
   ],
   "note": "The part of C31 that holds of the code, stated exactly; proved in full. The counterexamples to the rest of C31 are listed there."
  },
  {
   "property": "C82",
   "status": "proved",
   "theorems": [
    "Ble.Props.advertisement_seen",
    "Ble.Props.scan_response_paired",
    "Ble.Props.scan_response_unpaired",
    "Ble.Props.no_foreign_scan_response",
    "Ble.Props.advertisements_in_order",
    "Ble.Props.advertisement_fields",
    "Ble.Props.srData_is_advertisement_data"
   ],
   "note": "The part of C33 that holds of the code, stated exactly; proved in full. The counterexamples to the rest of C33 are listed there."
  },
  {
   "property": "C83",
   "status": "proved",
   "theorems": [
    "Ble.Props.report_accessors_no_panic",
    "Ble.Props.report_fields",
    "Ble.Props.single_report_fields",
    "Ble.Props.truncated_report_safe",
    "Ble.Props.data_implies_other_fields"
   ],
   "note": "The part of C34 that holds of the code, stated exactly; proved in full. The counterexamples to the rest of C34 are listed there."
  },
  {
   "property": "C84",
   "status": "proved",
   "theorems": [
    "Ble.Props.connection_steps_crash_iff",
    "Ble.Props.unlisted_connection_frozen",
    "Ble.Props.closed_connection_frozen",
    "Ble.Props.close_closes",
    "Ble.Props.disconnected_only_if",
    "Ble.Readers.closed_only_if"
   ],
   "note": "The part of C53 that holds of the code, stated exactly; proved in full. The counterexamples to the rest of C53 are listed there."
  },
  {
   "property": "C85",
   "status": "proved",
   "theorems": [
    "Ble.Props.scan_params_exact",
    "Ble.Props.conn_params_accepted_iff",
    "Ble.Props.default_params_accepted",
    "Ble.Props.default_params_meaning"
   ],
   "note": "The part of C35 that holds of the code, stated exactly; proved in full. The counterexamples to the rest of C35 are listed there."
  },
  {
   "property": "C86",
   "status": "proved",
   "theorems": [
    "Ble.Props.signal_roundtrip",
    "Ble.Props.signal_message_length",
    "Ble.Props.signal_id_never_zero",
    "Ble.Props.signal_ids_distinct",
    "Ble.Props.signal_pdu_is_frame",
    "Ble.Props.signal_pdu_handled",
    "Ble.Props.signal_replies_carry_request_id",
    "Ble.Props.signal_replies_wellformed",
    "Ble.Props.signal_response_accepted",
    "Ble.Props.signal_wrong_response_refused"
   ],
   "note": "The part of C39 that holds of the code, stated exactly; proved in full. The counterexamples to the rest of C39 are listed there."
  },
  {
   "property": "C87",
   "status": "proved",
   "theorems": [
    "Ble.Props.bond_store_is_map",
    "Ble.Props.bond_save_result"
   ],
   "note": "The part of C43 that holds of the code, stated exactly; proved in full. The counterexamples to the rest of C43 are listed there."
  },
  {
   "property": "C88",
   "status": "proved",
   "theorems": [
    "Ble.Props.message_crashes_iff"
   ],
   "note": "The part of C54 that holds of the code, stated exactly; proved in full. The counterexamples to the rest of C54 are listed there."
  },
  {
   "property": "C89",
   "status": "proved",
   "theorems": [
    "Ble.Props.dial_addr",
    "Ble.Props.dial_packet",
    "Ble.Props.dial_scanned",
    "Ble.Props.addr_bytes"
   ],
   "note": "The part of C48 that holds of the code, stated exactly; proved in full. The counterexamples to the rest of C48 are listed there."
  },
  {
   "property": "C90",
   "status": "proved",
   "theorems": [
    "Ble.Props.hci_cmd_packet",
    "Ble.Props.hci_cmd_decodes",
    "Ble.Props.hci_cmd_opcodes_distinct",
    "Ble.Props.hci_send_status"
   ],
   "note": "The part of C47 that holds of the code, stated exactly; proved in full. The counterexamples to the rest of C47 are listed there."
  },
  {
   "property": "C91",
   "status": "proved",
   "theorems": [
    "Ble.Props.closed_calls_return",
    "Ble.Props.closed_new_call_fails",
    "Ble.Props.stopping_calls_fail",
    "Ble.Props.reply_means_answered",
    "Ble.Props.close_cleans_up",
    "Ble.Props.failure_cleans_up",
    "Ble.Props.no_success_after_failure"
   ],
   "note": "The part of C67 that holds of the code, stated exactly; proved in full. The counterexamples to the rest of C67 are listed there."
  },
  {
   "property": "C92",
   "status": "proved",
   "theorems": [
    "Ble.Props.connect_only_matching",
    "Ble.Props.connect_reaches_dial",
    "Ble.Props.find_sound",
    "Ble.Props.find_complete_if_sequential"
   ],
   "note": "The part of C68 that holds of the code, stated exactly; proved in full. The counterexamples to the rest of C68 are listed there."
  },
  {
   "property": "C93",
   "status": "proved",
   "theorems": [
    "Ble.Props.services_listed",
    "Ble.Props.notify_handle_current"
   ],
   "note": "The part of C69 that holds of the code, stated exactly; proved in full. The counterexamples to the rest of C69 are listed there."
  },
  {
   "property": "C94",
   "status": "proved",
   "theorems": [
    "Ble.Props.client_requests_decode",
    "Ble.Props.read_calls_return_value"
   ],
   "note": "The part of C24 that holds of the code, stated exactly; proved in full. The counterexamples to the rest of C24 are listed there."
  },
  {
   "property": "C95",
   "status": "proved",
   "theorems": [
    "Ble.Props.client_simple_calls_total",
    "Ble.Props.readList_panics_iff",
    "Ble.Props.discovery_loops_panic_iff",
    "Ble.Props.descriptor_loop_panics_iff"
   ],
   "note": "The part of C23 that holds of the code, stated exactly; proved in full. The counterexamples to the rest of C23 are listed there."
  },
  {
   "property": "C96",
   "status": "proved",
   "theorems": [
    "Ble.Props.hci_packet_panics_iff",
    "Ble.Props.signal_panics_iff",
    "Ble.Props.coc_receive_panics_iff",
    "Ble.Props.advertising_panics_iff",
    "Ble.Props.hci_spec_sized_packets_safe"
   ],
   "note": "The part of C32 that holds of the code, stated exactly; proved in full. The counterexamples to the rest of C32 are listed there."
  },
  {
   "property": "C97",
   "status": "proved",
   "theorems": [
    "Ble.Props.build_returns_iff",
    "Ble.Props.build_result",
    "Ble.Props.BuildAux.desc_prop",
    "Ble.Props.declared_bits",
    "Ble.Props.read_static",
    "Ble.Props.read_refused",
    "Ble.Props.read_handler",
    "Ble.Props.client_sees_properties",
    "Ble.Props.client_reads",
    "Ble.Props.client_writes",
    "Ble.Props.client_sees_descriptors",
    "Ble.Props.declaration_keeps_word",
    "Ble.Props.descriptor_built",
    "Ble.Props.service_built"
   ],
   "note": "Proved for all sequences of calls; a nil handler passed to HandleRead/HandleWrite still declares the property (visible in declared/lastRead). Direct assignment to exported fields is outside."
  },
  {
   "property": "C98",
   "status": "partial",
   "theorems": [
    "Ble.Props.find_partial",
    "Ble.Props.find_never_nil",
    "Ble.Props.find_nil_useless"
   ],
   "note": "False of the code: a nil *Service (etc.) is converted to interface{} and is never equal to nil, so callers like examples/blesh (u != nil) dereference a nil pointer. Proved: the pointer inside is the first match or nil; the interface is never nil."
  },
  {
   "property": "C99",
   "status": "proved",
   "theorems": [
    "Ble.Props.find_first",
    "Ble.Props.findService_spec"
   ],
   "note": "Proved against the flattened list of the profile."
  },
  {
   "property": "C100",
   "status": "partial",
   "theorems": [
    "Ble.Props.advertising_goes_on_partial",
    "Ble.Props.advertising_resumes",
    "Ble.Props.refused_once_dark_for_ever",
    "Ble.Props.dark_for_ever",
    "Ble.Props.example_dark"
   ],
   "note": "Proved when the controller never refuses to start advertising. It fails otherwise: re-enabling is tried once, right after a connection, and cleanupConnectionHandle (hci.go:863) tries again only when the device is closed (the test `!h.isOpen()` is inverted), so one refusal at the connection limit leaves the peripheral silent for ever (refused_once_dark_for_ever)."
  },
  {
   "property": "C101",
   "status": "proved",
   "theorems": [
    "Ble.Props.stop_is_final",
    "Ble.Props.each_call_accounted",
    "Ble.Props.example_stop"
   ],
   "note": "Holds because the value of the enable field is read when the command is marshalled under the opcode's lock, and not when the send was queued."
  },
  {
   "property": "C102",
   "status": "partial",
   "theorems": [
    "Ble.Props.every_central_served_partial",
    "Ble.Props.served_in_order",
    "Ble.Props.quiesces",
    "Ble.Props.internal_runs_bounded",
    "Ble.Props.listener_timeout_freezes",
    "Ble.Props.example_frozen",
    "Ble.Props.example_served"
   ],
   "note": "The safety part is proved for all histories, coming to rest for histories without a listener timeout. With OptListenerTimeout the accept loop ends at the first timeout while advertising goes on; the next connection then blocks the event loop for ever (listener_timeout_freezes)."
  },
  {
   "property": "C103",
   "status": "proved",
   "theorems": [
    "Ble.Props.options_last_wins",
    "Ble.Props.newDevice_ok_iff",
    "Ble.Props.refused_calls",
    "Ble.Props.example_last_wins"
   ],
   "note": "Security counts as set by a bond manager only."
  },
  {
   "property": "C104",
   "status": "partial",
   "theorems": [
    "Ble.Props.last_option_error_reported_partial",
    "Ble.Props.option_error_only_last",
    "Ble.Props.builtin_errors_dropped",
    "Ble.Props.pair_crashes_iff",
    "Ble.Props.example_security_dropped"
   ],
   "note": "Proved for an error of the last option. It fails otherwise: HCI.Option overwrites the error of every option but the last, and the package's own options drop the errors of the setters (OptPeripheralRole, OptCentralRole, and OptEnableSecurity with something that is not a bond manager): the device is made without security, and the first Pair crashes the program (pair_crashes_iff)."
  },
  {
   "property": "C105",
   "status": "partial",
   "theorems": [
    "Ble.Props.failed_newDevice_releases_partial",
    "Ble.Props.failed_newDevice_closed",
    "Ble.Props.newDevice_loops_iff",
    "Ble.Props.newDevice_leaks",
    "Ble.Props.example_leak"
   ],
   "note": "Fails when the connection or scan parameters are not valid: they are checked after the transport was opened, and Close only closes a channel that no loop listens on yet (newDevice_leaks)."
  },
  {
   "property": "C106",
   "status": "partial",
   "theorems": [
    "Ble.Props.device_advertise_partial",
    "Ble.Props.app_run_refines",
    "Ble.Props.advertise_while_advertising",
    "Ble.Props.refused_data_waits",
    "Ble.Props.example_device",
    "Ble.Props.example_twice",
    "Ble.Props.remembers_advertising"
   ],
   "note": "Proved from every state in which the device does not advertise, on a controller that keeps to the specification. While it advertises a second call returns Command Disallowed (gap.go:273 sends the parameters first) but has changed the data on the air; and if the controller refuses the data the call waits for its context as if it advertised (`return nil`, gap.go:85, 123, ...)."
  },
  {
   "property": "C107",
   "status": "proved",
   "theorems": [
    "Ble.Props.params_of_last_raw",
    "Ble.Props.raw_exact",
    "Ble.Props.adv_params_wire",
    "Ble.Props.app_step_refines"
   ],
   "note": ""
  },
  {
   "property": "C108",
   "status": "partial",
   "theorems": [
    "Ble.Sock.newSocketId_first",
    "Ble.Sock.newSocketId_iff",
    "Ble.Sock.newSocketId_retry_useless",
    "Ble.Sock.retry_closes_foreign",
    "Ble.Sock.newSocketId_fail_clean_partial"
   ],
   "note": "Proved: the call succeeds exactly if the first attempt does, with a socket bound to the adapter and nothing else changed; a failing call leaves no descriptor behind. FALSE of the code: the socket is closed after the first failed attempt and the same number is used again, so retries never succeed (newSocketId_retry_useless), and each retry closes whatever file was given that number (retry_closes_foreign)."
  },
  {
   "property": "C109",
   "status": "partial",
   "theorems": [
    "Ble.Sock.newSocketAny_partial",
    "Ble.Sock.newSocketAny_bound",
    "Ble.Sock.tryAll_spec",
    "Ble.Sock.newSocketAny_gap_wrong",
    "Ble.Sock.newSocketAny_takes_down",
    "Ble.Sock.newSocketAny_poll_wrong"
   ],
   "note": "Proved for adapters numbered 0, 1, \u2026 without a gap (at most 16) and sockets that report no error right after binding; and for all cases that the socket returned is bound to the adapter it stands for. FALSE of the code otherwise: the index in the list is used as the number (a machine with hci1 only has 'no device'), an error after binding makes all later adapters fail, and adapters that are in use are taken down on the way."
  },
  {
   "property": "C110",
   "status": "partial",
   "theorems": [
    "Ble.SockConc.closed_once_partial",
    "Ble.SockConc.close_returned",
    "Ble.SockConc.read_polled",
    "Ble.SockConc.read_not_free",
    "Ble.SockConc.late_calls",
    "Ble.SockConc.write_after_close_wrong",
    "Ble.SockConc.read_after_close_wrong"
   ],
   "note": "Proved: closed at most once and only while it is ours; closed when any Close has returned; a Read reads the file it polled; calls that begin after a Close has returned make no system call and give end of file. FALSE of the code for calls that began before: a Write (which shares no lock with Close) and a Read (which tests before it locks) can use a number that stands for a file of somebody else (two schedules)."
  },
  {
   "property": "C111",
   "status": "proved",
   "theorems": [
    "Ble.SockConc.progress",
    "Ble.SockConc.steps_bounded"
   ],
   "note": "No deadlock in any reachable state; at most five steps per call. System calls are assumed to return (Read polls for at most a second)."
  },
  {
   "property": "C112",
   "status": "proved",
   "theorems": [
    "Ble.H4Conc.reads_in_order",
    "Ble.H4Conc.reads_sublist",
    "Ble.H4Conc.taken_means_returned",
    "Ble.H4Conc.loss_cause",
    "Ble.H4Conc.queue_bound"
   ],
   "note": "Invariant over all runs: packets made = taken ++ held ++ queue ++ still to be queued."
  },
  {
   "property": "C113",
   "status": "partial",
   "theorems": [
    "Ble.H4Conc.close_returned",
    "Ble.H4Conc.rx_ends_partial",
    "Ble.H4Conc.rx_stuck",
    "Ble.H4Conc.rx_stuck_reachable"
   ],
   "note": "Proved: the connection is closed, and the loop ends if its packets fit on the queue. FALSE otherwise: with 64 unread packets and one more to queue, the loop stays for ever in the send on the queue, since a Read after Close does not take anything (rx_stuck; the state is reachable)."
  },
  {
   "property": "C114",
   "status": "proved",
   "theorems": [
    "Ble.H4Conc.waitIdle_idle",
    "Ble.H4Conc.waitIdle_ends",
    "Ble.H4Conc.waitIdle_late_wrong",
    "Ble.H4Conc.reset_bytes",
    "Ble.H4Conc.reset_write_fails",
    "Ble.H4Conc.reset_idle"
   ],
   "note": "Also shown: a transport that falls silent is refused if the read that finds out times out after the deadline (waitIdle_late_wrong)."
  },
  {
   "property": "C115",
   "status": "proved",
   "theorems": [
    "Ble.Smp.sends_wellformed",
    "Ble.Smp.sends_wellformed_new",
    "Ble.Smp.unknown_answered"
   ],
   "note": "The random numbers drawn are assumed to have the 16 bytes the code asks for."
  },
  {
   "property": "C116",
   "status": "partial",
   "theorems": [
    "Ble.Props.toMap_content_partial",
    "Ble.Props.toMap_returns",
    "Ble.Props.view_txPower",
    "Ble.Props.toMap_txPower_wrong",
    "Ble.Props.txPower_present"
   ],
   "note": "Content and absence of crashes proved for every report. FALSE for the transmit power: ToMap reads the byte as unsigned, so every negative power comes out 256 too large (toMap_txPower_wrong), while TxPowerLevel is signed."
  },
  {
   "property": "C117",
   "status": "partial",
   "theorems": [
    "Ble.Props.handed_out_stable_partial",
    "Ble.Props.heap_is_history",
    "Ble.Props.fresh_object",
    "Ble.Props.stable_without_responses",
    "Ble.Props.advertisement_changes"
   ],
   "note": "Proved on a model with shared objects that refines the history model: everything but the scan response and decoded content is stable; those change exactly by a scan response from the same address, for connectable/scannable undirected advertisements of the present scan. FALSE beyond that: the same object is handed out again and its content changes in place, on the receiving goroutine (advertisement_changes)."
  },
  {
   "property": "C118",
   "status": "proved",
   "theorems": [
    "Ble.Scanning.reports_dispatched_in_order",
    "Ble.Scanning.dispatched_to_latest",
    "Ble.Scanning.all_returned_all_quiet",
    "Ble.Scanning.scan_sequential",
    "Ble.Scanning.scanning_example"
   ],
   "note": "For all schedules. Dispatch is the start of the handler (go h.advHandler(a)), not its end. Time-outs of Send are not in this model (C31/C32 have them)."
  },
  {
   "property": "C119",
   "status": "partial",
   "theorems": [
    "Ble.Scanning.overlapping_scans_partial",
    "Ble.Scanning.reports_dispatched_in_order",
    "Ble.Scanning.all_returned_all_quiet",
    "Ble.Scanning.first_to_end_stops_all",
    "Ble.Scanning.second_takes_reports",
    "Ble.Scanning.scan_sends_stop",
    "Ble.Scanning.stop_sends_scan",
    "Ble.Scanning.called_after_failed_stop",
    "Ble.Scanning.scan_results"
   ],
   "note": "Proved: nothing is lost or reordered, and when all have returned scanning is off. FALSE otherwise: the first scan to end stops the others (first_to_end_stops_all), the second takes the reports of the first (second_takes_reports), and because the command is marshalled from shared parameters after the opcode lock, a scan can send the stop command and StopScan the start command (scan_sends_stop, stop_sends_scan)."
  },
  {
   "property": "C120",
   "status": "partial",
   "theorems": [
    "Ble.Locking.calls_return_partial",
    "Ble.Locking.one_at_a_time",
    "Ble.Locking.reentrant_handler_deadlocks",
    "Ble.Locking.deadlock_example",
    "Ble.Locking.strange_pdus_hold_the_call",
    "Ble.Locking.locking_example"
   ],
   "note": "Proved for all schedules if no handler calls a method of its own client. FALSE otherwise: the handler runs with the client's lock held, so a handler that calls any method (Unsubscribe, ReadCharacteristic, CancelConnection) blocks forever, with every other call, present or future (reentrant_handler_deadlocks); and a peer that keeps sending PDUs that are no answers restarts the two seconds each time (strange_pdus_hold_the_call)."
  },
  {
   "property": "C121",
   "status": "partial",
   "theorems": [
    "Ble.Props.att_pdus_are_spec",
    "Ble.Props.att_fill_partial",
    "Ble.Props.att_read_partial",
    "Ble.Props.att_set_other",
    "Ble.Props.att_set_get",
    "Ble.Props.att_accessor_panics_iff",
    "Ble.Props.signed_write_overlaps",
    "Ble.Props.att_pdu_example",
    "Ble.Props.set_opcode_exact",
    "Ble.Props.att_sig_short"
   ],
   "note": "All types of att_gen.go (generated table, compared with a table written from the specification). FALSE for Signed Write Command: the signature is written over the value (signed_write_overlaps gives the exact octets)."
  },
  {
   "property": "C122",
   "status": "partial",
   "theorems": [
    "Ble.Air.air_exchange_partial",
    "Ble.Air.air_calls",
    "Ble.Air.air_discover_profile",
    "Ble.Air.air_read_long",
    "Ble.Air.air_write",
    "Ble.Air.air_exchange_mtu",
    "Ble.Air.air_long_response_lost",
    "Ble.Air.transfer_delivers",
    "Ble.Air.cuttingRadio_faithful",
    "Ble.Air.air_example"
   ],
   "note": "By simulation: every call of the client model is parametric in what carries the requests. The link must keep the L2CAP header in the first packet (C29). FALSE for PrepareWrite: its response may be longer than the server is allowed to send and is then never sent (air_long_response_lost)."
  },
  {
   "property": "C123",
   "status": "proved",
   "theorems": [
    "Ble.Pipe.pipe_refines_loop",
    "Ble.Pipe.pipe_buffer_stable",
    "Ble.Pipe.pipe_give_free",
    "Ble.Pipe.pipe_bounded",
    "Ble.Pipe.pipe_quiet",
    "Ble.Pipe.pipe_crash",
    "Ble.Pipe.pipe_arrive"
   ],
   "note": "Refinement to the sequential server of C01-C20 by an invariant over the shared buffers; bounded by a measure. Handlers are atomic at their end (they look at the request then), as they may take any time before."
  },
  {
   "property": "C124",
   "status": "partial",
   "theorems": [
    "Ble.Pipe.pipe_confirmed_partial",
    "Ble.Pipe.pipe_stall",
    "Ble.Pipe.pipe_stall_timeout",
    "Ble.Pipe.indication_ends_with_connection"
   ],
   "note": "FALSE if any request or command arrives before the confirmation: the reader waits to hand it over to the goroutine that runs the handler, the confirmation is never read and the call fails after 30 s, and neither is the end of the connection noticed (pipe_stall). Proved if the confirmation is the next PDU."
  },
  {
   "property": "C125",
   "status": "partial",
   "theorems": [
    "Ble.EvtGen.evts_are_spec_partial",
    "Ble.EvtGen.evt_wrong_code",
    "Ble.EvtGen.evt_read",
    "Ble.EvtGen.evt_getter_panics_iff",
    "Ble.EvtGen.evt_valid_safe",
    "Ble.EvtGen.evt_valid_exact",
    "Ble.EvtGen.evt_example",
    "Ble.EvtGen.evt_addr_short"
   ],
   "note": "Generated table (tools/gen_evt.py) compared with a table written from the specification. FALSE for one constant: LEConnectionUpdateCompleteCode is the code of Command Complete (evt_wrong_code); the library does not use it. Events with arrays: C34."
  },
  {
   "property": "C126",
   "status": "partial",
   "theorems": [
    "Ble.Dials.dials_each_connection_once",
    "Ble.Dials.dials_distinct",
    "Ble.Dials.dials_some_peer",
    "Ble.Dials.dials_right_peer_partial",
    "Ble.Dials.dial_gets_other_peer",
    "Ble.Dials.dial_swaps",
    "Ble.Dials.dial_torn_target",
    "Ble.Dials.dials_drop_only_if_full"
   ],
   "note": "Proved: every connection made goes to exactly one call, is given up, or still waits; the peer is one some call asked for (address and type separately); right if all calls are for one peer. FALSE otherwise, for any two peers: the parameters are shared and marshalled after the opcode lock, so a call can connect to the other's peer (dial_gets_other_peer) or to one call's address with the other's type (dial_torn_target); and a connection is taken by whoever is first at the channel (dial_swaps)."
  },
  {
   "property": "C127",
   "status": "partial",
   "theorems": [
    "Ble.Props.packetsRead_eq",
    "Ble.Props.serial_to_connection",
    "Ble.Props.serial_frames_delivered",
    "Ble.Props.pdus_cross_both_hosts_partial",
    "Ble.Props.serial_example"
   ],
   "note": "Composition of the models H4, HciPkt, Conns, L2cap and Tx. Not covered because false of the code: failed writes, first fragments shorter than the L2CAP header, pauses of more than 500 ms inside a packet, controllers that announce buffers of no bytes. The queue between the event loop and the connection is taken as unbounded (blocking: C66)."
  },
  {
   "property": "C128",
   "status": "partial",
   "theorems": [
    "Ble.Interrupt.handler_needs_interrupt",
    "Ble.Interrupt.handler_at_most_once",
    "Ble.Interrupt.interrupt_kills_iff",
    "Ble.Interrupt.interrupt_reaches_handler",
    "Ble.Interrupt.interrupt_partial",
    "Ble.Interrupt.handler_called_late",
    "Ble.Interrupt.find_calls_handler_twice",
    "Ble.Interrupt.second_interrupt_swallowed",
    "Ble.Interrupt.goroutine_waits_for_context",
    "Ble.Interrupt.goroutines_remain",
    "Ble.Interrupt.interrupt_example",
    "Ble.Interrupt.killed_is_end"
   ],
   "note": "Proved: the function is called only for a signal that came during the call, at most once per call; a signal ends the process exactly if no such call is in progress; while the context goes on nothing can prevent the call of the function. False of the code: the function can run after the call returned (handler_called_late), one signal during Find calls it twice, a second signal is swallowed, and each returned call leaves a goroutine until its context ends (goroutines_remain)."
  },
  {
   "property": "C129",
   "status": "partial",
   "theorems": [
    "Ble.CocRx.coc_no_crash",
    "Ble.CocRx.coc_subscriber_gets_all",
    "Ble.CocRx.coc_loss_only_when_full",
    "Ble.CocRx.coc_receive_goes_on",
    "Ble.CocRx.coc_full_channel_stops_connection",
    "Ble.CocRx.coc_end_seen",
    "Ble.CocRx.coc_unsubscribe_closes",
    "Ble.CocRx.coc_end_iff_partial",
    "Ble.CocRx.coc_link_loss_unseen",
    "Ble.CocRx.cocrx_example",
    "Ble.CocRx.coc_short_frame_crashes",
    "Ble.CocRx.coc_down_no_frames",
    "Ble.CocRx.coc_unsubscribed_frame"
   ],
   "note": "All proved except the last sentence, which is false of the code (coc_link_loss_unseen: the channel of a subscription is never closed when the connection ends). SDUs in several frames: C38 (never delivered). While a channel is full the whole connection stops for up to five seconds per frame (coc_full_channel_stops_connection)."
  },
  {
   "property": "C130",
   "status": "partial",
   "theorems": [
    "Ble.SigConc.responses_never_block",
    "Ble.SigConc.serial_response_matches_partial",
    "Ble.SigConc.serial_own_response_partial",
    "Ble.SigConc.serial_response_returned",
    "Ble.SigConc.overlapping_calls_cross",
    "Ble.SigConc.returned_credit_breaks_open",
    "Ble.SigConc.overlapping_calls_share_id",
    "Ble.SigConc.sigconc_example",
    "Ble.SigConc.answer_once",
    "Ble.SigConc.serial_identifiers",
    "Ble.SigConc.identifiers_are_bytes"
   ],
   "note": "The last sentence is proved for all schedules. The rest is proved for calls that do not overlap (serial_\u2026), and false of the code otherwise: sigID is read again after other calls have changed it, so a call can return another call's response (overlapping_calls_cross), fail although it was answered (returned_credit_breaks_open), and share an identifier with another (overlapping_calls_share_id)."
  },
  {
   "property": "C131",
   "status": "partial",
   "theorems": [
    "Ble.Reenter.calls_can_return_partial",
    "Ble.Reenter.loop_callback_returns_partial",
    "Ble.Reenter.handler_command_answered_partial",
    "Ble.Reenter.no_reply_during_callback",
    "Ble.Reenter.loop_callback_command_fails",
    "Ble.Reenter.handler_same_opcode_deadlock",
    "Ble.Reenter.dead_controller_hangs_call",
    "Ble.Reenter.dead_controller_no_call_returns",
    "Ble.Reenter.late_reply_blocks_loop",
    "Ble.Reenter.sync_handler_example",
    "Ble.Reenter.handler_example"
   ],
   "note": "Proved: with an error handler that sends no commands every call, and every function the event loop calls, can return without the controller; a handler's command outside the event loop with a free opcode is answered. The rest is false of the code: a command sent by a function the event loop calls never succeeds and no other call gets a reply meanwhile (loop_callback_command_fails, no_reply_during_callback); an error handler that repeats the failed command hangs for ever, also after Close (handler_same_opcode_deadlock); with a controller that does not answer any command of the error handler leads there (dead_controller_hangs_call, dead_controller_no_call_returns)."
  },
  {
   "property": "C132",
   "status": "proved",
   "theorems": [
    "Ble.Dials.dials_all_return",
    "Ble.Dials.interrupted_dial_cancels",
    "Ble.Dials.dials_live_example"
   ],
   "note": "A measure that every step but a new call decreases, and an enabled step while a call has not returned. Commands are answered in the model (a controller that does not answer: C131 and the command claims)."
  },
  {
   "property": "C133",
   "status": "proved",
   "theorems": [
    "Ble.Whole.newDevice_leaks_iff",
    "Ble.Whole.newDevice_fails_clean",
    "Ble.Props.failed_newDevice_closed",
    "Ble.Props.example_leak"
   ],
   "note": "The whole truth about what C105 asks for."
  },
  {
   "property": "C134",
   "status": "proved",
   "theorems": [
    "Ble.Whole.option_error_iff",
    "Ble.Whole.builtin_never_fails"
   ],
   "note": "The whole truth about what C104 asks for."
  },
  {
   "property": "C135",
   "status": "proved",
   "theorems": [
    "Ble.Whole.peripheral_goes_on",
    "Ble.Props.served_in_order",
    "Ble.Props.example_served"
   ],
   "note": "C100 and C102 tell what happens otherwise."
  },
  {
   "property": "C136",
   "status": "proved",
   "theorems": [
    "Ble.Whole.advertising_calls_exact",
    "Ble.Props.example_device"
   ],
   "note": "Refinement of the specification airRun (C106)."
  },
  {
   "property": "C137",
   "status": "proved",
   "theorems": [
    "Ble.Whole.open_adapter_exact",
    "Ble.Whole.open_adapter_fails_clean",
    "Ble.Whole.open_first_adapter",
    "Ble.Sock.newSocketAny_bound"
   ],
   "note": "What holds of C108 and C109."
  },
  {
   "property": "C138",
   "status": "proved",
   "theorems": [
    "Ble.Whole.socket_closed_once",
    "Ble.SockConc.late_calls"
   ],
   "note": "What holds of C110."
  },
  {
   "property": "C139",
   "status": "proved",
   "theorems": [
    "Ble.Whole.rx_ends_iff",
    "Ble.H4Conc.close_returned",
    "Ble.H4Conc.rx_stuck_reachable"
   ],
   "note": "The whole truth about what C113 asks for."
  },
  {
   "property": "C140",
   "status": "proved",
   "theorems": [
    "Ble.Whole.handed_out_change_exact",
    "Ble.Props.fresh_object",
    "Ble.Props.heap_is_history",
    "Ble.Props.stable_without_responses"
   ],
   "note": "The whole truth about what C117 asks for."
  },
  {
   "property": "C141",
   "status": "proved",
   "theorems": [
    "Ble.Whole.client_calls_return",
    "Ble.Locking.locking_example"
   ],
   "note": "C120 has the deadlock otherwise."
  },
  {
   "property": "C142",
   "status": "proved",
   "theorems": [
    "Ble.Whole.att_pdu_fields",
    "Ble.Props.att_pdus_are_spec",
    "Ble.Props.att_set_get",
    "Ble.Props.att_accessor_panics_iff",
    "Ble.Props.set_opcode_exact",
    "Ble.Props.att_pdu_example"
   ],
   "note": "C121 has the exception."
  },
  {
   "property": "C143",
   "status": "proved",
   "theorems": [
    "Ble.Whole.evt_params_are_spec",
    "Ble.Whole.evt_params_read",
    "Ble.EvtGen.evt_valid_safe",
    "Ble.EvtGen.evt_valid_exact",
    "Ble.EvtGen.evt_example",
    "Ble.EvtGen.evt_addr_short"
   ],
   "note": "C125 has the one wrong event code."
  },
  {
   "property": "C144",
   "status": "proved",
   "theorems": [
    "Ble.Air.air_calls",
    "Ble.Air.air_discover_profile",
    "Ble.Air.air_read_long",
    "Ble.Air.air_write",
    "Ble.Air.air_exchange_mtu",
    "Ble.Air.air_example"
   ],
   "note": "The conditions (Link.Ok, Faithful) are in the statements; C122 has what fails outside them."
  },
  {
   "property": "C145",
   "status": "proved",
   "theorems": [
    "Ble.Dials.dials_each_connection_once",
    "Ble.Dials.dials_distinct",
    "Ble.Dials.dials_some_peer",
    "Ble.Dials.dials_drop_only_if_full",
    "Ble.Whole.dials_same_peer"
   ],
   "note": "C126 has calls for different peers, which can be swapped."
  },
  {
   "property": "C146",
   "status": "proved",
   "theorems": [
    "Ble.Interrupt.handler_needs_interrupt",
    "Ble.Interrupt.handler_at_most_once",
    "Ble.Interrupt.interrupt_kills_iff",
    "Ble.Interrupt.interrupt_reaches_handler",
    "Ble.Interrupt.interrupt_example",
    "Ble.Interrupt.killed_is_end"
   ],
   "note": "The exact conditions are in the theorems; C128 has what goes wrong."
  },
  {
   "property": "C147",
   "status": "proved",
   "theorems": [
    "Ble.CocRx.coc_no_crash",
    "Ble.CocRx.coc_subscriber_gets_all",
    "Ble.CocRx.coc_loss_only_when_full",
    "Ble.CocRx.coc_receive_goes_on",
    "Ble.CocRx.coc_end_seen",
    "Ble.CocRx.coc_unsubscribe_closes",
    "Ble.CocRx.cocrx_example",
    "Ble.Whole.coc_end_iff",
    "Ble.CocRx.coc_short_frame_crashes",
    "Ble.CocRx.coc_down_no_frames",
    "Ble.CocRx.coc_unsubscribed_frame"
   ],
   "note": "C129 has what fails."
  },
  {
   "property": "C148",
   "status": "proved",
   "theorems": [
    "Ble.Whole.serial_calls_get_their_response",
    "Ble.SigConc.responses_never_block",
    "Ble.SigConc.serial_response_returned",
    "Ble.SigConc.answer_once",
    "Ble.SigConc.sigconc_example",
    "Ble.SigConc.serial_identifiers",
    "Ble.SigConc.identifiers_are_bytes"
   ],
   "note": "C130 has overlapping calls."
  },
  {
   "property": "C149",
   "status": "proved",
   "theorems": [
    "Ble.Whole.calls_can_return",
    "Ble.Reenter.sync_handler_example"
   ],
   "note": "C131 has handlers that send commands."
  },
  {
   "property": "C150",
   "status": "proved",
   "theorems": [
    "Ble.Whole.indication_confirmed",
    "Ble.Whole.indication_overtaken",
    "Ble.Pipe.pipe_stall_timeout",
    "Ble.Pipe.indication_ends_with_connection"
   ],
   "note": "The whole truth about what C124 asks for."
  },
  {
   "property": "C151",
   "status": "proved",
   "theorems": [
    "Ble.Whole.pdus_cross_both_hosts",
    "Ble.Props.serial_to_connection",
    "Ble.Props.serial_frames_delivered",
    "Ble.Props.packetsRead_eq",
    "Ble.Props.serial_example"
   ],
   "note": "C127 has what fails outside the conditions."
  },
  {
   "property": "C152",
   "status": "proved",
   "theorems": [
    "Ble.Whole.toMap_exact",
    "Ble.Props.toMap_returns",
    "Ble.Props.txPower_present"
   ],
   "note": "C116 has the sign."
  },
  {
   "property": "C153",
   "status": "partial",
   "theorems": [
    "Ble.Errs.errors_told_partial",
    "Ble.Errs.adv_told_iff",
    "Ble.Errs.orphan_error_says_nothing",
    "Ble.Errs.unjoinable_response_told_twice",
    "Ble.Errs.vendor_event_tells_nil",
    "Ble.Errs.failures_not_told",
    "Ble.Errs.errs_example"
   ],
   "note": "FALSE of the code in four ways: a scan response without advertisement is reported with the text <nil>; one that cannot be parsed with its advertisement is reported twice; every vendor event calls the handler with nil; all other failures are only logged. Proved for advertising events that are not scan responses."
  },
  {
   "property": "C154",
   "status": "proved",
   "theorems": [
    "Ble.Errs.pkt_told_iff",
    "Ble.Errs.adv_told_exact",
    "Ble.Errs.tells_unique",
    "Ble.Errs.adv_agrees",
    "Ble.Errs.errs_example"
   ],
   "note": "The whole truth about what C153 asks for; adv_agrees ties the model to the one of C33."
  },
  {
   "property": "C155",
   "status": "proved",
   "theorems": [
    "Ble.Queue.writes_delivered_exact",
    "Ble.Queue.queue_example"
   ],
   "note": "The whole truth behind C18 and C19: values prepared for different handles are joined and written to the first handle."
  },
  {
   "property": "C156",
   "status": "proved",
   "theorems": [
    "Ble.Whole.answered_exactly",
    "Ble.Props.signed_write_command_answered"
   ],
   "note": "The exact form of C11."
  },
  {
   "property": "C157",
   "status": "proved",
   "theorems": [
    "Ble.Whole.readLong_exact",
    "Ble.Props.readLong_static",
    "Ble.Props.readLong_truncates_after_exchange"
   ],
   "note": "The exact form of C25."
  },
  {
   "property": "C158",
   "status": "proved",
   "theorems": [
    "Ble.Whole.coc_send_exact",
    "Ble.Whole.coc_receive_iff",
    "Ble.Props.coc_open_returns",
    "Ble.Props.coc_lookup_exact"
   ],
   "note": "The exact form of C38."
  },
  {
   "property": "C159",
   "status": "proved",
   "theorems": [
    "Ble.Whole.pairing_method_exact",
    "Ble.Props.secure_connections_used",
    "Ble.Props.pairing_method_example"
   ],
   "note": "The exact form of C40."
  },
  {
   "property": "C160",
   "status": "proved",
   "theorems": [
    "Ble.InitSeq.init_sends_only",
    "Ble.InitSeq.init_sends_exactly",
    "Ble.InitSeq.init_result",
    "Ble.InitSeq.initseq_example",
    "Ble.InitSeq.default_parameters"
   ],
   "note": "init_result reduces the values to C62."
  },
  {
   "property": "C161",
   "status": "partial",
   "theorems": [
    "Ble.InitSeq.handled_events_sent_partial",
    "Ble.InitSeq.parameter_requests_not_sent",
    "Ble.InitSeq.masks_refused",
    "Ble.InitSeq.initseq_example",
    "Ble.InitSeq.needed_events_sent"
   ],
   "note": "FALSE of the code in two ways: the mask lacks the bit of the LE Remote Connection Parameter Request, whose handler can therefore never run (parameter_requests_not_sent); and Init succeeds also if the controller refuses the mask, after which no LE event ever arrives (masks_refused). Proved for all other events and controllers that accept the masks."
  },
  {
   "property": "C162",
   "status": "proved",
   "theorems": [
    "Ble.PktEff.packet_does_exactly",
    "Ble.PktEff.pkteff_example"
   ],
   "note": "Which packets crash the host is C32; what is done with advertising reports is C33."
  },
  {
   "property": "C163",
   "status": "partial",
   "theorems": [
    "Ble.IndClose.success_confirmed_despite_failures_partial",
    "Ble.IndClose.no_success_after_end",
    "Ble.IndClose.ends_by_itself",
    "Ble.IndClose.waiting_call_closed",
    "Ble.IndClose.loss_unnoticed",
    "Ble.IndClose.indclose_example"
   ],
   "note": "Proved: success means confirmed (until a first time-out), nothing succeeds after the end, and from the moment the reader has ended every call and the loop end by themselves. FALSE: a reader blocked behind an MTU exchange does not notice the loss until the 30 s time-out (loss_unnoticed). The time-out case is C60."
  },
  {
   "property": "C164",
   "status": "partial",
   "theorems": [
    "Ble.Props.CacheProfSpec.cached_discovery_whole_partial",
    "Ble.Props.CacheProfSpec.failed_discovery_is_cached",
    "Ble.Props.CacheProfSpec.forced_second_call_caches_doubles",
    "Ble.Props.CacheProfSpec.stale_profile_returned",
    "Ble.Props.CacheProfSpec.torn_store_no_more_caching",
    "Ble.Props.CacheProfSpec.no_cache_crashes",
    "Ble.Props.CacheProfSpec.json_profiles",
    "Ble.Props.CacheProfSpec.example_proper",
    "Ble.Props.CacheProfSpec.example_visits",
    "Ble.Props.CacheProfSpec.example_failed_discovery"
   ],
   "note": "Proved for every history of first calls on their connections, forced and not, cache cleared at any time, without failures, peers keeping their tables. False otherwise: after a failed discovery the next call reports success and stores the incomplete profile for all later clients (failed_discovery_is_cached); a forced second call stores every service twice (forced_second_call_caches_doubles); a changed peer is not noticed (stale_profile_returned); after an interrupted write nothing is cached until Clear and every call returns an error (torn_store_no_more_caching); without a cache file every successful call crashes (no_cache_crashes)."
  },
  {
   "property": "C165",
   "status": "proved",
   "theorems": [
    "Ble.Props.CacheProfSpec.cached_profile_returned",
    "Ble.Props.CacheProfSpec.uncached_profile_discovered",
    "Ble.Props.CacheProfSpec.no_cache_crashes",
    "Ble.Props.CacheProfSpec.example_visits"
   ],
   "note": "For every peer and every state."
  },
  {
   "property": "C166",
   "status": "proved",
   "theorems": [
    "Ble.Props.stored_bond_origin",
    "Ble.Props.only_two_messages_store",
    "Ble.Props.bond_forged",
    "Ble.Props.example_told"
   ],
   "note": "The exact account of what C61 denies: keys told by the peer outside of any pairing are stored too (bond_forged, example_told)."
  },
  {
   "property": "C167",
   "status": "proved",
   "theorems": [
    "Ble.Props.table_at_start",
    "Ble.Props.table_size_after",
    "Ble.Props.service_after",
    "Ble.Props.characteristic_after",
    "Ble.Props.example_two_adds"
   ],
   "note": "The exact account of what C49 denies. A new server's table is the one of the default services (table_at_start). Services are values here: adding the same object twice is in C69 and C93."
  },
  {
   "property": "C168",
   "status": "proved",
   "theorems": [
    "Ble.Props.bond_found_was_saved",
    "Ble.Props.bond_durable",
    "Ble.Props.bond_call_outcomes",
    "Ble.Props.bond_unreadable_for_ever",
    "Ble.Props.bond_crash_loses",
    "Ble.Props.example_durable"
   ],
   "note": "The exact account of what C57 denies; keys saved are not empty, as in C58. JSON by its laws (Store/File)."
  },
  {
   "property": "C169",
   "status": "proved",
   "theorems": [
    "Ble.Props.pair_nil_causes",
    "Ble.Props.forged_pair_success",
    "Ble.Props.pair_only_once"
   ],
   "note": "The exact account of what C55 denies; forged_pair_success shows that the third cause is real, pair_only_once that later calls fail."
  },
  {
   "property": "C170",
   "status": "proved",
   "theorems": [
    "Ble.Props.encryption_is_last_change",
    "Ble.Props.encryption_reaches_connection",
    "Ble.Props.key_refresh_event_ignored",
    "Ble.Props.connection_event_creates",
    "Ble.Props.example_history"
   ],
   "note": "The part of C52 that holds; what fails there is that key refresh events are never noticed."
  },
  {
   "property": "C171",
   "status": "proved",
   "theorems": [
    "Ble.Props.bond_calls_linearizable",
    "Ble.Props.bond_real_time",
    "Ble.Props.example_interleaving"
   ],
   "note": "The part of C58 that holds. The empty key is the one way to make Find write under the read lock."
  },
  {
   "property": "C172",
   "status": "proved",
   "theorems": [
    "Ble.Props.dial_right_peer",
    "Ble.Props.dial_returns_some_dialled_peer",
    "Ble.Props.dial_off_by_one",
    "Ble.Props.example_prompt_dial"
   ],
   "note": "The part of C59 that holds; dial_off_by_one shows the failure for other controllers."
  },
  {
   "property": "C173",
   "status": "proved",
   "theorems": [
    "Ble.Props.central_answers",
    "Ble.Props.central_works_off_queue",
    "Ble.Props.central_indications_counted",
    "Ble.Props.example_call_and_request"
   ],
   "note": "The part of C61 that holds."
  },
  {
   "property": "C174",
   "status": "proved",
   "theorems": [
    "Ble.Props.indication_success",
    "Ble.Props.indication_results_ordered",
    "Ble.Props.waiting_indication_confirmed",
    "Ble.Props.example_confirmed_indication"
   ],
   "note": "The part of C60 that holds: after a time-out a late confirmation is taken for the next indication."
  },
  {
   "property": "C175",
   "status": "proved",
   "theorems": [
    "Ble.Props.cccd_after_successful_write",
    "Ble.Props.example_subscription_history"
   ],
   "note": "The part of C26 that holds; a failed write leaves the client's bits as if it had succeeded."
  },
  {
   "property": "C176",
   "status": "partial",
   "theorems": [
    "Ble.Props.cmd_reply_own_partial",
    "Ble.Props.cmd_reply_own_or_late",
    "Ble.Props.late_reply_answers_next_call",
    "Ble.Props.example_own_replies"
   ],
   "note": "Holds as long as no call with the opcode has failed. False after a time-out: replies are matched by opcode only, so the next call with the opcode can get the answer to the one that timed out (late_reply_answers_next_call). Always the answer is to a command with the same opcode, of this call or of one that has returned (cmd_reply_own_or_late). Vendor commands, which are answered by any vendor event, are in C31."
  },
  {
   "property": "C177",
   "status": "partial",
   "theorems": [
    "Ble.Props.rssi_own_partial",
    "Ble.Props.rssi_command",
    "Ble.Props.rssi_result",
    "Ble.Props.rssi_of_other_connection",
    "Ble.Props.rssi_in_table",
    "Ble.Props.example_own_replies"
   ],
   "note": "False after a time-out: the handle in the reply is not compared, and the late answer for another connection is returned (rssi_of_other_connection)."
  },
  {
   "property": "C178",
   "status": "proved",
   "theorems": [
    "Ble.FindType.find_by_type_value",
    "Ble.FindType.find_by_type_value_refused",
    "Ble.FindType.find_services_by_uuid",
    "Ble.FindType.find_example"
   ],
   "note": "find_services_by_uuid assumes that the application gives no characteristic or descriptor the UUID 0x2800."
  },
  {
   "property": "C179",
   "status": "proved",
   "theorems": [
    "Ble.AirSub.air_subscriptions",
    "Ble.AirSub.air_subscriptions_go_on",
    "Ble.AirSub.history_goes_through",
    "Ble.AirSub.table_is_table",
    "Ble.AirSub.heart_example",
    "Ble.AirSub.refused_subscription_forgets"
   ],
   "note": "table_is_table: any list of services that fits in the handles gives such a table. One thing at a time; values of a notifier that was closed are still sent, since Write does not look at it: a client that has subscribed again gets them."
  },
  {
   "property": "C180",
   "status": "proved",
   "theorems": [
    "Ble.Props.nonce_only_after_confirm",
    "Ble.Props.nonce_as_committed",
    "Ble.Props.example_committed"
   ],
   "note": "nonce_as_committed assumes that sends work and addresses have six bytes."
  },
  {
   "property": "C181",
   "status": "partial",
   "theorems": [
    "Ble.Props.nonce_fits_confirm_partial",
    "Ble.Props.nonce_chosen_late",
    "Ble.Props.numeric_comparison_unconfirmed",
    "Ble.Props.example_numeric"
   ],
   "note": "False of the code. nonce_chosen_late: a second Pairing Confirm replaces the first after the host has revealed its nonce. numeric_comparison_unconfirmed: nobody is asked, the value is never computed. Proved: a nonce is accepted only if the confirm value received last commits to it."
  },
  {
   "property": "C182",
   "status": "partial",
   "theorems": [
    "Ble.Pipe.kept_data_partial",
    "Ble.Pipe.kept_overwritten",
    "Ble.ExecBuf.execute_overwritten",
    "Ble.Pipe.kept_example"
   ],
   "note": "False of the code (kept_overwritten): the data is part of one of two buffers, and is overwritten by the PDU after the next request (data of an Execute Write: by the next Prepare Write, execute_overwritten). Proved: intact until the next request is handed to a handler."
  },
  {
   "property": "C183",
   "status": "proved",
   "theorems": [
    "Ble.Pipe.kept_until_next",
    "Ble.Pipe.kept_example"
   ],
   "note": ""
  },
  {
   "property": "C184",
   "status": "proved",
   "theorems": [
    "Ble.Props.security_request_bonded",
    "Ble.Props.security_request_stk",
    "Ble.Props.security_request_unusable",
    "Ble.Props.security_request_unbonded",
    "Ble.Props.security_request_new",
    "Ble.Props.usable_example"
   ],
   "note": ""
  },
  {
   "property": "C185",
   "status": "proved",
   "theorems": [
    "Ble.ExecBuf.execute_gives",
    "Ble.ExecBuf.execute_kept",
    "Ble.ExecBuf.execbuf_example",
    "Ble.Queue.writes_delivered_exact"
   ],
   "note": "Together with C155, which gives the bytes the handler gets. The memory is overwritten by the next Prepare Write: Ble.ExecBuf.execute_overwritten, listed under C182."
  },
  {
   "property": "C186",
   "status": "partial",
   "theorems": [
    "Ble.Props.key_size_partial",
    "Ble.Props.key_size_ignored",
    "Ble.Props.short_key_accepted",
    "Ble.Props.key_size_example"
   ],
   "note": "The code ignores the sizes: true only if both are 16 (key_size_partial); key_size_ignored and short_key_accepted show that with all other sizes 16 octets are used and that forbidden sizes are accepted."
  },
  {
   "property": "C187",
   "status": "partial",
   "theorems": [
    "Ble.Props.serviceData_complete_partial",
    "Ble.Props.serviceData_sound",
    "Ble.Props.serviceData32_lost",
    "Ble.Props.serviceData_example"
   ],
   "note": "True for 16 and 128 bit UUIDs (serviceData_complete_partial) and nothing is invented (serviceData_sound); service data with a 32 bit UUID, which the parser accepts, is lost because ble.Parse refuses that size (serviceData32_lost)."
  },
  {
   "property": "C188",
   "status": "partial",
   "theorems": [
    "Ble.Readers.closed_by_itself_partial",
    "Ble.Readers.closed_only_if",
    "Ble.Readers.whole_frames_never_fail",
    "Ble.Readers.stale_reader_closes_new_connection",
    "Ble.Readers.is_conns_history",
    "Ble.Readers.stale_reader_example"
   ],
   "note": "False in one case: a connection that ends within a PDU makes its reader fail, and the reader cleans up by handle after the handle may have been given to a new connection (stale_reader_closes_new_connection). closed_only_if lists all causes; with whole frames the case cannot occur (whole_frames_never_fail)."
  },
  {
   "property": "C189",
   "status": "partial",
   "theorems": [
    "Ble.Links.writes_reach_own_peer_partial",
    "Ble.Links.write_reaches_wrong_peer",
    "Ble.Links.links_example",
    "Ble.Links.misdirected_only_until_event_partial",
    "Ble.Links.orderly_without_close",
    "Ble.Links.misdirected_example"
   ],
   "note": "False if the controller uses a handle again before the host has removed the connection that had it; with Close running at the same time, for good (write_reaches_wrong_peer). Without such a Close only until the host has handled the event about the new connection (misdirected_only_until_event_partial)."
  },
  {
   "property": "C190",
   "status": "proved",
   "theorems": [
    "Ble.Links.write_reaches_link",
    "Ble.Links.closed_writes_nothing",
    "Ble.Links.links_example"
   ],
   "note": ""
  },
  {
   "property": "C191",
   "status": "proved",
   "theorems": [
    "Ble.Links.received_from_own_peer",
    "Ble.Links.nothing_lost_before_disconnected",
    "Ble.Links.received_example"
   ],
   "note": "Unlike sending (C189) this holds without any assumption about when the controller uses a handle again."
  },
  {
   "property": "C192",
   "status": "partial",
   "theorems": [
    "Ble.Links.disconnected_iff_link_gone_partial",
    "Ble.Links.events_can_be_handled",
    "Ble.Links.write_reaches_wrong_peer",
    "Ble.Links.orderly_without_close",
    "Ble.Links.settled_example"
   ],
   "note": "Holds for all histories without Close, and with Close as long as it does not overlap with reuse of the handle. False otherwise: a closed connection is never announced and a living one is (write_reaches_wrong_peer)."
  },
  {
   "property": "C193",
   "status": "partial",
   "theorems": [
    "Ble.Links.close_ends_own_link_partial",
    "Ble.Links.close_ends_other_link",
    "Ble.Links.settled_example"
   ],
   "note": "False if the link is gone, its handle has a new owner and the host has not handled the events yet: Close then ends the other device's link (close_ends_other_link)."
  },
  {
   "property": "C194",
   "status": "proved",
   "theorems": [
    "Ble.CacheConc.cache_linearizable",
    "Ble.CacheConc.cache_real_time",
    "Ble.CacheConc.concurrent_loads",
    "Ble.CacheConc.cache_calls_return",
    "Ble.CacheConc.example_cache_run"
   ],
   "note": "Reading the file and removing it are single steps, writing has every intermediate state."
  },
  {
   "property": "C195",
   "status": "partial",
   "theorems": [
    "Ble.CacheConc.devices_share_partial",
    "Ble.CacheConc.two_devices_lose"
   ],
   "note": "False if calls of different devices overlap: each device has a lock of its own (two_devices_lose). Holds whenever they do not."
  },
  {
   "property": "C196",
   "status": "proved",
   "theorems": [
    "Ble.BondCrash.bonds_linearizable",
    "Ble.BondCrash.bonds_real_time",
    "Ble.BondCrash.concurrent_find_was_saved",
    "Ble.BondCrash.concurrent_bond_durable",
    "Ble.BondCrash.bond_calls_return",
    "Ble.BondCrash.example_bond_run"
   ],
   "note": "C58 with failures and crashes, C168 with concurrency. Keys saved are not empty (C58 has the counterexample). loadBonds is one step."
  },
  {
   "property": "C197",
   "status": "partial",
   "theorems": [
    "Ble.BondCrash.managers_share_partial",
    "Ble.BondCrash.two_managers_lose"
   ],
   "note": "False if calls of different managers overlap: each has a lock of its own (two_managers_lose). Holds whenever they do not."
  },
  {
   "property": "C198",
   "status": "partial",
   "theorems": [
    "Ble.Props.connection_handle_tells_partial",
    "Ble.Props.connection_handles_alike"
   ],
   "note": "False for handles that agree in the low byte: the method returns 8 of the handle's 12 bits (connection_handles_alike)."
  },
  {
   "property": "C199",
   "status": "proved",
   "theorems": [
    "Ble.Props.tables_never_shared",
    "Ble.Props.example_program"
   ],
   "note": "Functions of the application that the library calls are taken to call no function of the library."
  },
  {
   "property": "C200",
   "status": "partial",
   "theorems": [
    "Ble.Props.variables_never_shared_partial",
    "Ble.Props.unguarded_variables_race",
    "Ble.Props.example_program"
   ],
   "note": "False: proved for the tables (C199); each of the other thirteen shared variables has a race in a program of two goroutines (unguarded_variables_race)."
  },
  {
   "property": "C201",
   "status": "proved",
   "theorems": [
    "Ble.Props.mutexes_never_deadlock",
    "Ble.Props.some_goroutine_can_go_on",
    "Ble.Props.unlocks_match",
    "Ble.Props.mutexes_exclude",
    "Ble.Props.unmarshallable_command_unlocks",
    "Ble.Props.example_program"
   ],
   "note": "About waiting for mutexes only; waiting for a channel with a mutex held is C66, C80, C130, C149, C202. The commands of the application are assumed to marshal (unmarshallable_command_unlocks shows what happens otherwise)."
  },
  {
   "property": "C202",
   "status": "partial",
   "theorems": [
    "Ble.PoolLive.hung_for_ever",
    "Ble.PoolLive.waits_for_ever_iff",
    "Ble.PoolLive.cleanup_ends_iff",
    "Ble.PoolLive.disconnection_handled_partial",
    "Ble.PoolLive.waiting_write_is_served",
    "Ble.PoolLive.link_loss_hangs_adapter",
    "Ble.PoolLive.live_example"
   ],
   "note": "False: link_loss_hangs_adapter (one connection, every number of buffers) reaches a state that is hung for ever. Proved: exactly when that is so (waits_for_ever_iff), exactly when a clean-up can end (cleanup_ends_iff), and that it does with enough free buffers."
  },
  {
   "property": "C203",
   "status": "partial",
   "theorems": [
    "Ble.CocObj.objects_distinct",
    "Ble.CocObj.subscription_own",
    "Ble.CocObj.open_object_own_partial",
    "Ble.CocObj.stale_object",
    "Ble.CocObj.old_object_acts_on_new_channel",
    "Ble.CocObj.two_channels_example"
   ],
   "note": "Send and Close look the channel up by the peer's identifier. Proved for objects whose channel is open, and for Subscribe and Unsubscribe always; stale_object says exactly what Send and Close of a closed object do, and old_object_acts_on_new_channel shows that they act on another channel when the peer uses its identifier again."
  },
  {
   "property": "C204",
   "status": "partial",
   "theorems": [
    "Ble.MtuHist.sizes_exact",
    "Ble.MtuHist.call_crashes_iff",
    "Ble.MtuHist.crash_possible_iff",
    "Ble.MtuHist.calls_do_not_crash_partial",
    "Ble.MtuHist.peer_request_crashes",
    "Ble.MtuHist.small_answer_crashes",
    "Ble.MtuHist.no_crash_example"
   ],
   "note": "False: the own server of a dialled connection changes the connection's MTU but not the client's transmit buffer (peer_request_crashes); an answer below 5 leaves a buffer that is too small (small_answer_crashes). Proved: the sizes after every history, exactly which call crashes then, exactly when some call would, and that no history crashes when the peer asks for no more than the buffer has and answers with at least 23."
  },
  {
   "property": "C205",
   "status": "partial",
   "theorems": [
    "Ble.Ending.comes_to_rest",
    "Ble.Ending.can_rest",
    "Ble.Ending.all_end_partial",
    "Ble.Ending.leak_iff",
    "Ble.Ending.leaked_for_ever",
    "Ble.Ending.loop_steps_bounded",
    "Ble.Ending.goroutine_leaks",
    "Ble.Ending.ending_example"
   ],
   "note": "False: the goroutine that recombines packets hands them on through a queue of 16 without watching for the end of the connection, and nobody reads the queue after the end (goroutine_leaks: a response nobody waits for and 17 PDUs more; leaked_for_ever). Proved: from every state in which a connection ends the library comes to rest within a bounded number of steps in every schedule; then everything but possibly that goroutine has ended; it stays exactly when more than 16 received PDUs are left unread, at most one being read after the others have noticed; with at most 16 unread at the end of the connection everything ends."
  },
  {
   "property": "C206",
   "status": "partial",
   "theorems": [
    "Ble.SrvEnd.handled_in_order",
    "Ble.SrvEnd.comes_to_rest",
    "Ble.SrvEnd.can_rest",
    "Ble.SrvEnd.all_end_partial",
    "Ble.SrvEnd.leaked_for_ever",
    "Ble.SrvEnd.goroutine_leaks",
    "Ble.SrvEnd.ending_example"
   ],
   "note": "False in one case: a PDU without octets makes the server stop reading, and if more than 16 PDUs follow the goroutine that recombines them waits for ever (goroutine_leaks, leaked_for_ever). Proved: order and uniqueness at every time; bounded time to rest from every state in every schedule; at rest the requests handled are exactly those received before a PDU that ends the connection (empty or too long); everything but possibly that goroutine has ended; with no empty PDU everything has."
  },
  {
   "property": "C207",
   "status": "partial",
   "theorems": [
    "Ble.FailedDisc.failed_discovery",
    "Ble.FailedDisc.profile_part_partial",
    "Ble.FailedDisc.cut_faulty",
    "Ble.FailedDisc.end_handle_wrong"
   ],
   "note": "False for the end of the range of the last characteristic listed for a service (end_handle_wrong): it is provisional until the next characteristic is seen. Everything else proved: failed_discovery for every peer with any requests failing, against the same peer without failures; profile_part_partial for this library's server."
  },
  {
   "property": "C208",
   "status": "partial",
   "theorems": [
    "Ble.DiscHist.discovered_true_partial",
    "Ble.DiscHist.services_found",
    "Ble.DiscHist.chars_found",
    "Ble.DiscHist.descs_found",
    "Ble.DiscHist.wrong_cccd",
    "Ble.DiscHist.two_meets",
    "Ble.DiscHist.history_example",
    "Ble.DiscHist.outcome_example"
   ],
   "note": "False after a DiscoverCharacteristics that fails between two responses: the last characteristic it found has the range of the rest of the service, and a later DiscoverDescriptors on it takes the CCCD of another characteristic for its own (wrong_cccd). Proved for all histories: everything true except that range, and descriptors and CCCD true for each characteristic whose range is right; completeness of calls that succeed."
  },
  {
   "property": "C209",
   "status": "proved",
   "theorems": [
    "Ble.LinkEnc.encryption_is_own",
    "Ble.LinkEnc.encryption_current",
    "Ble.LinkEnc.new_connection_unencrypted",
    "Ble.LinkEnc.next_event",
    "Ble.LinkEnc.encryption_example",
    "Ble.LinkEnc.crash_example"
   ],
   "note": "The host can handle every event, except that a failed encryption of a connection without security manager crashes (next_event, crash_example)."
  },
  {
   "property": "C210",
   "status": "partial",
   "theorems": [
    "Ble.LinkEnc.commands_reach_own_link_partial",
    "Ble.LinkEnc.commands_without_reuse_partial",
    "Ble.LinkEnc.commands_reach_other_device",
    "Ble.LinkEnc.update_request_iff",
    "Ble.LinkEnc.update_reaches_other_device",
    "Ble.LinkEnc.update_example",
    "Ble.LinkEnc.commands_example"
   ],
   "note": "False: none of them looks whether the connection has ended. On an ended connection whose handle has a new owner ReadRSSI returns the value of the other device, and StartEncryption starts encryption with the other device with the key of the first peer; the failure then deletes the bond of the other device (commands_reach_other_device); a parameter update request that the reader of the ended connection still finds in its queue changes the parameters of the link with the other device (update_reaches_other_device). Proved: right while the link exists, and for ever if its handle is not used again."
  },
  {
   "property": "C211",
   "status": "partial",
   "theorems": [
    "Ble.SrvFrag.handled_in_order",
    "Ble.SrvFrag.comes_to_rest",
    "Ble.SrvFrag.can_rest",
    "Ble.SrvFrag.all_end_partial",
    "Ble.SrvFrag.goroutine_leaks",
    "Ble.SrvFrag.fragments_example",
    "Ble.SrvFrag.interrupted_example"
   ],
   "note": "False in one case, that of C206 (goroutine_leaks, here with PDUs in two packets each). Proved: handled_in_order at every time, a bounded number of steps to rest in every schedule, at rest exactly the requests completely received before a PDU or packet that ends the connection are handled; all goroutines end if no PDU without octets was sent."
  },
  {
   "property": "C212",
   "status": "partial",
   "theorems": [
    "Ble.DialFrag.comes_to_rest",
    "Ble.DialFrag.can_rest",
    "Ble.DialFrag.all_end_partial",
    "Ble.DialFrag.leak_iff",
    "Ble.DialFrag.leaked_for_ever",
    "Ble.DialFrag.goroutine_leaks",
    "Ble.DialFrag.fragments_example",
    "Ble.DialFrag.interrupted_example"
   ],
   "note": "False in one case, that of C205: with more than 16 complete PDUs unread the recombining goroutine stays (goroutine_leaks; leak_iff says exactly when, counting complete ATT PDUs only)."
  },
  {
   "property": "C213",
   "status": "partial",
   "theorems": [
    "Ble.SrvBytes.handled_in_order",
    "Ble.SrvBytes.bounded",
    "Ble.SrvBytes.can_rest",
    "Ble.SrvBytes.at_rest",
    "Ble.SrvBytes.no_crash",
    "Ble.SrvBytes.delivered_iff",
    "Ble.SrvBytes.pdusOf_recombine",
    "Ble.SrvBytes.pdus_of_frames",
    "Ble.SrvBytes.requests_handled_partial",
    "Ble.SrvBytes.frames_ok",
    "Ble.SrvBytes.frames_example",
    "Ble.SrvBytes.crash_example"
   ],
   "note": "False for packets that crash the program (crash_example, as in C29, C32) and for PDUs without octets (C206). C211 with octets instead of a description of the packets: recombine and Read are those of L2cap (pdusOf_recombine). no_crash: no crash as long as what was received is accepted."
  },
  {
   "property": "C214",
   "status": "partial",
   "theorems": [
    "Ble.SrvAnswers.answers_in_order",
    "Ble.SrvAnswers.answers_partial",
    "Ble.SrvAnswers.crashes_only_if",
    "Ble.SrvAnswers.unname_name",
    "Ble.SrvAnswers.answers_example"
   ],
   "note": "C213 composed with the model of the attribute server, so what is proved of its loop (C10-C20, C72-C76 and others) holds of connections. False for packets that crash the program and PDUs without octets, as in C213; the server crashes exactly on requests that crash its handlers (crashes_only_if, C73)."
  }
 ]
}