c("C01","proved","uuid_parse_string uuid_parse_iff uuid_string_injective uuid_parse_total uuid_mustParse_panics_iff uuid16_bytes uuid_contains_iff","")
c("C02","proved","reverse_spec swapBuf_spec reverse_swapBuf_involutive","")
c("C03","partial","packet_never_exceeds_31 newPacket_le_31 append_all_or_nothing_partial serviceData16_not_atomic serviceData16_cases apply_success newPacket_bytes newPacket_succeeds","The 31-byte bound holds for every sequence of options. Atomicity of a refused append holds for every field except ServiceData16, for which it is false of the code (serviceData16_not_atomic is the counterexample theorem).")
c("C04","proved","advertised_is_decoded advertised_flags advertised_uuids advertised_name advertised_mfg advertised_serviceData","")
c("C05","partial","parse_panics_iff parser_panics_on_radio_input parse_returns_partial newRawPacket_outcome newRawPacket_err getters_return","False of the code for some radio input: the parser panics exactly on the inputs characterised by parse_panics_iff; on all others it returns.")
c("C06","proved","parse_ok_iff getters_exact records_unique parse_err","")
c("C07","proved","iBeacon_layout iBeacon_injective iBeacon_bad_uuid","")
c("C08","proved","table_handles table_handles_unique service_declaration service_groups_adjacent service_groups_disjoint characteristic_declaration descriptor_attributes","")
c("C09","proved","lookup_exact range_exact bad_range_refused","")
c("C10","partial","response_size response_within_mtu_partial prepare_echo_exceeds_mtu","Holds for every request but Prepare Write, whose echo has the size of the request; prepare_echo_exceeds_mtu is the counterexample.")
c("C11","partial","one_answer_partial signed_write_command_answered","Holds except that unknown and signed commands are answered with an Error Response.")
c("C12","partial","request_panics_iff server_returns_partial server_returns_other_opcodes crash_short_prepare crash_execute_nothing crash_short_cccd_write crash_group_request","False of the code: request_panics_iff characterises exactly the crashing requests; all others are proved safe.")
c("C13","proved","findInfo_spec findInfo_odd_type","findInfo_odd_type covers the remaining case of types that are neither 16 nor 128 bits.")
c("C14","proved","readByType_entries readByType_static readByType_not_found readByType_first_fails","")
c("C18","partial","write_request_delivers write_command_delivers_partial empty_write_command_ignored write_without_handler write_unknown_handle write_reaches_characteristic","Write Commands with an empty value are ignored by the code (empty_write_command_ignored); everything else is proved.")
c("C19","partial","queued_write_delivered_partial cancel_discards queued_writes_merge_across_handles","Proved for fragments of one handle; across handles the claim is false of the code (queued_writes_merge_across_handles).")
c("C20","partial","cccd_write_outcome cccd_value_after connection_history cccd_read cccd_write_request notifier_runs_iff_bit_partial disconnect_stops_notifiers_partial refused_write_leaks_notifier","Values are proved for all histories; the notifier part excludes writes of the indicate bit to characteristics without that property, for which it is false (refused_write_leaks_notifier).")
c("C21","proved","notification_pdu","")
c("C49","partial","addService_duplicates_cccd setServices_one_cccd_partial","False for AddService after another service (addService_duplicates_cccd); proved for SetServices.")
c("C16","proved","error_response_layout unknown_handle_refused client_reports_error","")
c("C17","partial","mtu_follows_requests mtu_request_accepted mtu_request_refused exchangeMTU_with_server_partial exchangeMTU_not_min exchangeMTU_bad_argument","Both sides proved for all values; the claim that both ends use the smaller value is false: the client always uses 515 (exchangeMTU_not_min).")
c("C15","proved","discover_services discover_services_filtered discover_profile discover_services_twice","discover_services_twice: a second forced discovery lists every service twice.")
c("C46","proved","discover_characteristics discover_descriptors discover_profile","")
c("C50","partial","discover_profile_partial discover_profile discover_profile_forced_asks discover_profile_after_failure discover_profile_forced_doubles","Complete profile proved when nothing fails; false after a failed discovery (discover_profile_after_failure) and for a forced one (discover_profile_forced_doubles: every service twice).")
c("C23","partial","client_simple_calls_total_partial client_simple_calls_total readList_panics_iff discovery_loops_panic_iff descriptor_loop_panics_iff client_crashes client_crashes_after_small_mtu discoverServices_can_run_forever","Calls that look only at opcode and length never panic; for the list calls the exact panic condition is proved, so the full property is false.")
c("C24","partial","client_requests_decode_partial client_requests_decode prepareWrite_ignores_value signedWrite_loses_value executeWrite_panics","Proved for all calls except PrepareWrite, SignedWrite and ExecuteWrite, for which it is false.")
c("C25","partial","readLong_returns_value_partial readLong_truncates readLong_truncates_after_exchange readLong_static","Proved when the client's MTU is at most the server's and the value is served by a handler; false otherwise, with the exact outcomes proved.")
c("C22","partial","call_returns_own_answer call_returns_own_answer_partial call_result_opcode rspOfReq_spec late_answer_goes_to_next_call late_answer_blocks_loop","Proved for every interleaving without timeouts, and with timeouts up to answers of requests from the first timed-out one on; false after a timeout (late_answer_goes_to_next_call).")
c("C26","partial","cccd_matches_subscriptions cccd_matches_subscriptions_partial failed_subscribe_leaves_peer_on resubscribe_keeps_first_handler","Proved for every history whose last write to the CCCD in question succeeded; false after a failing write (failed_subscribe_leaves_peer_on).")
c("C27","partial","value_goes_to_subscriber indications_confirmed_once values_in_order values_complete_partial seventeenth_value_dropped handleNotification_panics_iff loop_panics_iff","Dispatch, order and confirmations proved for all histories and interleavings; values can be dropped when 16 wait (exactly characterised), and short PDUs panic.")
c("C28","proved","h4_chunking_irrelevant h4_delivers_packets hci_receives_packets hci_long_packet_ends_reception h4_pause_forges_packet","Without the time-out condition it is false (h4_pause_forges_packet).")
c("C29","partial","write_then_read_partial writePDU_fragments recombine_returns_frame recvLoop_delivers_frames write_then_read writePDU_isFragmentation connRead_returns_info write_over_mtu_refused writePDU_zero_buffer_diverges short_start_fragment_crashes","Proved for every buffer size of at least 1 and every fragmentation whose first fragment contains the L2CAP header; false for buffer size 0 (never ends) and for a first fragment of fewer than 4 bytes (crash).")
c("C30","partial","pool_each_buffer_in_one_place pool_write_fails_exact pool_cleanup_known pool_completion_possible pool_total pool_write_takes_n pool_never_overcommitted_partial pool_completions_return_all_partial pool_close_overcommits pool_disconnected_returns_all pool_no_leak_partial pool_close_race_leaks pool_disconnect_deadlock hci_close_leaves_peripheral_connections_open","Conservation and return of buffers proved for all histories; over-commitment excluded when buffers are reclaimed only for dead links. False with a local Close (pool_close_overcommits), with a handle reused before Close's clean-up (pool_close_race_leaks), and a deadlock exists (pool_disconnect_deadlock).")
c("C31","partial","command_complete_fields command_status_fields cmd_one_per_opcode cmd_reply_has_own_opcode cmd_reply_used_once cmd_waiting_is_registered cmd_answer_reaches_caller cmd_one_outstanding_partial cmd_allowance_le_announced cmd_writes_le_allowance stale_credit_overruns_controller reduced_credit_is_ignored vendor_command_ignores_command_complete stuck_event_loop_is_permanent late_reply_hangs_event_loop duplicate_reply_hangs_event_loop late_reply_goes_to_next_call announced_commands_sent announced_commands_example","Matching and exclusion proved for every interleaving; flow control only for controllers with one buffer, false in general (stale_credit_overruns_controller).")
c("C36","proved","coc_frames_le_credits coc_credits_bounded coc_overflow_refused coc_grant_adds coc_frame_costs_one coc_returns_one_credit coc_no_credit_unknown coc_early_credits_lost","")
c("C37","proved","coc_local_ids_unique coc_local_ids_never_reused coc_remote_ids_unique coc_open_has_id coc_ids_run_out","coc_ids_run_out: identifiers are never reused, so a connection can open only finitely many channels over its life.")
c("C38","partial","coc_single_frame_sent_partial coc_open_returns coc_frames_carry_data coc_multi_frame_send_malformed coc_empty_sdu_not_sent coc_mtu_not_checked coc_single_frame_received_partial coc_lookup_exact coc_open_channel coc_open_channel_receives_partial coc_multi_frame_never_received coc_no_subscriber coc_surplus_delivered coc_library_to_itself_fails","Proved for SDUs that fit one frame in each direction; false of the code for SDUs of several frames (malformed when sent, never delivered when received).")
c("C39","partial","signal_roundtrip signal_message_length command_reject_loses_reason signal_id_never_zero signal_ids_distinct signal_pdu_is_frame signal_pdu_handled signal_replies_carry_request_id signal_request_answered_partial credit_connection_request_unanswered disconnect_of_channel_rejected signal_over_mtu_rejected signal_response_accepted signal_wrong_response_refused concurrent_signal_loses_response","Round trip, identifiers and answers proved; false for Command Reject's data (command_reject_loses_reason) and for incoming credit-based connection requests, which are never answered.")
c("C32","partial","recvLoop_no_panic_partial short_start_fragment_crashes oversized_att_frame_fails surplus_data_makes_read_stale signal_panics_iff empty_signal_crashes coc_receive_panics_iff coc_conforming_peer_crashes hci_packet_panics_iff hci_spec_sized_packets_safe hci_crashes encryption_failure_crashes advertising_panics_iff report_before_scan_crashes advertising_pair_crashes","False of the code: the exact panic conditions of signalling PDUs and credit frames are proved, with crashing inputs from the radio.")
c("C33","partial","advertisement_seen_partial advertisement_seen scan_response_paired scan_response_unpaired no_foreign_scan_response advertisements_in_order multi_report_event_dropped unparseable_advertisement_dropped oldest_remembered_not_searched advertising_panics_iff report_before_scan_crashes advertising_pair_crashes address_type_not_compared advertisement_fields int8_spec srData_is_advertisement_data","Delivery, order and pairing proved for all histories; false for events with several reports and for data the parser rejects (both dropped), and the pairing ignores the address type.")
c("C34","partial","report_fields_partial report_accessors_no_panic report_fields single_report_fields truncated_report_safe data_implies_other_fields report_index_not_checked report_negative_index report_rows_misread","Proved for indices below the number of reports and the layout the library assumes; an index of the number of reports or more is not refused (report_index_not_checked), a negative one panics, and for several reports the layout assumed is not the one some controllers use (report_rows_misread).")
c("C51","proved","packet_touches_named_only acl_reaches_connection disconnect_reaches_connection encryption_reaches_connection connection_event_creates connection_event_fields completed_reaches_connections example_history","For all reachable states and packets.")
c("C52","partial","encryption_follows_events_partial key_refresh_event_ignored encryption_reaches_connection connection_event_creates","Proved for all histories, for Encryption Change events; false for Encryption Key Refresh Complete, which is never noticed.")
c("C53","partial","close_closes_partial connection_steps_crash_iff unlisted_connection_frozen closed_connection_frozen close_closes disconnected_only_if open_until_closed reused_handle_closes_wrong_connection slave_never_announced_after_shutdown","At most once, only with a cause, and frozen afterwards: proved for all histories. False: when a handle is reused before the old entry is removed, Close closes the new connection and the old one is never announced; slave connections are not announced at shutdown.")
c("C35","partial","scan_params_exact conn_params_accepted_iff conn_params_sound_partial supervision_boundary_accepted allowed_conn_params_refused conn_params_complete_partial default_params_accepted","Scan parameters: exact. Connection parameters: the accepted set is characterised exactly; it differs from the specification in the supervision timeout condition (equality is accepted without latency; the latency is multiplied by 1.25, so some allowed parameters are refused).")
c("C40","partial","pairing_method_partial secure_connections_used legacy_one_sided_oob secure_despite_legacy_request unassigned_io_just_works pairing_method_example security_request_downgrades connection_pairing_request","The method is the specification's for every pair of feature sets with assigned IO capabilities outside two cases in which the code differs: legacy pairing with only one side having OOB data, and a request without the secure connections bit answered by a response with it. Both are proved to differ.")
c("C41","proved","f4_spec f5_spec f6_spec g2_spec c1_spec s1_spec passkey_spec passkey_bit_spec public_key_roundtrip public_key_sound just_works_completes passkey_completes legacy_completes legacy_bonding_completes wrong_confirm_rejected wrong_passkey_bit_rejected wrong_check_rejected wrong_legacy_confirm_rejected short_secret_fails example_just_works","For every MAC, cipher and curve; the curve library's and AES-CMAC's own code is a parameter. short_secret_fails: if the curve library returned a secret shorter than 32 bytes pairing would fail.")
c("C42","partial","bond_saved_only_after_check_partial only_two_messages_store bond_forged unsolicited_pairing example_unsolicited","Proved for all histories without key distribution messages; with them it is false (bond_forged): two unauthenticated messages store a key of the attacker.")
c("C54","partial","message_crashes_iff_partial message_crashes_iff one_message_crashes one_message_blocks crashes_after_pairing blocked_for_ever","The crashing messages are characterised exactly for all histories; several single messages crash the process or stop reception for ever, so the property as a user expects it is false.")
c("C55","partial","pair_nil_only_after_check_partial forged_pair_success pair_only_once pair_refused_after_messages unsolicited_pairing","For all histories, Pair returns nil only after a check passed or after a Master Identification message; the last is proved to be a forgery (forged_pair_success). Pair cannot be called again after it failed (pair_only_once): that half of the claim is false of the code.")
c("C56","partial","wrong_passkey_bit_rejected_partial passkey_stolen example_stolen","False of the code: passkey_stolen gives one strategy that, without knowing the passkey and not depending on it, completes passkey pairing for every passkey, because the host accepts a second confirm value for a round after it has revealed its nonce for that round.")
c("C43","partial","bond_store_is_map_partial bond_store_is_map bond_save_result bond_empty_key bond_find_crashes_iff","All histories without file errors, for bonds with a nonempty key; for an empty key Exists and Find disagree (bond_empty_key). bond_find_crashes_iff: a file edited by another program can crash Find. JSON is a parameter with the laws stated in Json (met: json_bonds).")
c("C44","proved","cache_is_map cache_load_after_store cache_no_overwrite cache_null_crashes cache_clear_result","All histories without file errors; JSON is a parameter with stated laws, the profile's contents are opaque.")
c("C57","partial","bond_clean_failure_partial bond_torn_save bond_unreadable_for_ever bond_crash_loses cache_torn","Failures outside the middle of a write are harmless (bond_clean_failure_partial). A write interrupted in the middle loses all bonds or makes the store unusable for ever (bond_crash_loses): the claim is false of the code. The cache is then unreadable but can be cleared (cache_torn).")
c("C58","partial","bond_linearizable_partial bond_real_time bond_concurrent_find_misses","All interleavings, if no bond with an empty key is stored. With one the claim is false: Find writes under the read lock (bond_concurrent_find_misses).")
c("C45","proved","adv_name_services FitCount_unique adv_field adv_adv adv_arrays adv_enable_result adv_list_type adv_incomplete_list_marked_complete adv_later_uuid_hidden adv_error_hidden","Any name and list of 2, 4 or 16-byte UUIDs, any previous state, controller accepting its commands. 'Fitting' is the longest prefix with one record per UUID: a UUID that does not fit hides later ones that would (adv_later_uuid_hidden), 8 to 13 16-bit UUIDs are announced as 7 in a 'complete' list (adv_incomplete_list_marked_complete), and a controller error on the data is reported as success without advertising (adv_error_hidden).")
c("C47","partial","hci_cmd_packet hci_cmd_on_the_wire_partial hci_cmd_decodes hci_cmd_opcodes_distinct hci_cmd_wrong_opcode hci_reply_partial hci_reply_set_adv_data hci_reply_loses hci_send_status hci_vendor_packet_partial hci_vendor_long_crashes hci_vendor_payload_lost hci_vendor_unsized_crashes","All commands of the generated table, all field values. Two commands carry an opcode other than the specification's (hci_cmd_wrong_opcode), replies longer than the reply structure lose bytes (hci_reply_loses), vendor commands can crash or lose their payload.")
c("C48","partial","dial_addr_partial dial_addr dial_packet dial_scanned dial_remote_addr dial_remote_again_is_public dial_random_identity addr_bytes","All address texts and parameters. False when the address came from a connection: RemoteAddr forgets that it was random (dial_remote_again_is_public).")
c("C59","partial","dial_right_peer_partial dial_returns_some_dialled_peer dial_off_by_one","All executions of one Dial at a time with a controller that raises pending connection events before answering commands. With a later announcement the claim is false for any number of later calls (dial_off_by_one).")
c("C60","partial","indication_success_confirmed_partial indication_successes_le_confirmations indication_results_ordered requests_answered_in_order waiting_indication_confirmed early_confirmation_lost late_confirmation_credits_next mtu_exchange_blocks_confirmation value_pdus_within_asked_mtu value_pdus_bounded notification_before_mtu_response","All executions of the transition system of server goroutines. Holds until a first timeout; false after it for any number of later calls (late_confirmation_credits_next); a confirmation read before the caller waits is lost (early_confirmation_lost); an MTU exchange and a write command between an indication and its confirmation block both for 30 s (mtu_exchange_blocks_confirmation). Disconnection and write errors are in C163.")
c("C61","partial","central_answers_in_order_partial central_answers_all_partial central_indications_counted central_works_off_queue central_without_server central_answer_waits_for_own_call central_answers_confirmation central_indication_never_succeeds","All executions. In order and once for the requests queued; all when fewer than ten wait. False: the database is attached after the receiving goroutine has started and is looked for once (central_without_server: then nothing is ever answered); answers wait for the client's own call (central_answer_waits_for_own_call); confirmations are answered with an error (central_answers_confirmation); indications on a dialled connection always time out (central_indication_never_succeeds).")
c("C62","partial","init_takes_controller_values_partial init_zero_length_buffers init_ignores_errors init_power_unsigned","Address and buffers for controllers that answer. False: LE buffers announced with length zero make a pool of zero-length buffers on which every write loops (init_zero_length_buffers); errors are dropped (init_ignores_errors: address 00:..:00); the power level is read unsigned (init_power_unsigned). The commands whose replies are not used are in C160.")
c("C63","partial","pairing_addresses_partial pairing_address_wrong_legacy pairing_address_wrong_secure","Exact start of the pairing when the connection uses the adapter's address with the type its two top bits suggest. False for public addresses beginning with 11 (for instance DC:A6:32 of the Raspberry Pi), which are taken for random ones, and for connections made with a random own address (the public one is used): every legacy pairing fails (pairing_address_wrong_legacy, using only that AES is injective), and every secure one whose MACs differ (pairing_address_wrong_secure).")
c("C64","partial","start_encryption_uses_bond_partial start_encryption_no_bond start_encryption_twice start_encryption_short_key start_encryption_refuses_zero start_encryption_long_key start_encryption_without_smp encryption_result_told paired_key_is_used distributed_key_is_used_partial encryption_never_crashes example_start_encryption","Proved for 16-octet keys and, for legacy bonds, non-zero EDIV and Rand. Found: a legacy bond whose peer chose a zero EDIV or Rand is stored and then refused for ever; any failing Encryption Change status (also a timeout) deletes the bond; a stored key of more than 16 octets, or a connection without security manager, crashes; a second StartEncryption before the result takes the first caller's notification; the result is lost if the channel is not ready. The address type is not part of the key of the bond store.")
c("C65","proved","writes_arrive_whole concurrent_writes_delivered failed_write_breaks_next example_concurrent_writes","The premise that no write failed is needed: failed_write_breaks_next shows that after a socket error in the middle of a PDU the next write follows the incomplete one and the receiver gives up the connection.")
c("C66","proved","received_in_order unsolicited_response_stalls indication_flood_stalls bounded_work stall_only_if notifications_all_read buffers_conserved completed_frees handed_over sends_iff_buffer example_stall example_indication_stall example_all_read","The stalls are findings about the code: handleACL blocks the event loop, holding the connection table's mutex, on the queue of one connection. Connections stay up in the model and every PDU is one packet.")
c("C67","partial","closed_calls_return closed_new_call_fails stopping_calls_fail reply_means_answered success_means_answered_partial close_reports_success close_cleans_up close_hangs_on_new_central failure_cleans_up failure_forgotten accept_hangs_after_failure no_success_after_failure example_close example_close_hangs example_failure","Return of all calls and shutdown are proved. False of the code: a command without return parameters that waits at Close reports success (close_reports_success, for every state without recorded error); a new central's connection at the time of Close hangs the event loop (close_hangs_on_new_central); after a transport failure the error is reset to nil and the error handler is told nil (failure_forgotten), and Accept and a Dial whose command has just been answered wait for ever (accept_hangs_after_failure).")
c("C68","partial","connect_only_matching connect_each_report_once connect_cause connect_reported connect_deadline_partial connect_hangs_on_cancel connect_hangs_at_deadline connect_reaches_dial connect_leaks_handlers connect_leak_example connect_sync_deadlock connect_sync_only_late connect_sync_example find_sound find_complete_if_sequential find_loses find_example","Safety, and reaching the dial, are proved for all schedules. False of the code and shown: a caller that cancels (or whose deadline races with the watcher goroutine) before a match waits for ever in the receive; matching reports beyond the first leave goroutines waiting for ever; with OptAdvHandlerSync a match during the scan deadlocks the event loop for good, and Connect can only succeed after its context has ended; Find appends without a lock and loses advertisements when handlers overlap (complete when they do not).")
c("C69","partial","notify_handle_current_partial services_listed custom_handler_served notify_handle_current addService_moves notify_wrong_after_add notify_wrong_example","Contents of the table for all histories, and correct handles for clients connected after the last change, are proved. False of the code: each AddService gives every notifying characteristic another CCCD, so the values of ALL application characteristics move up (exact amount proved) and clients connected before get every notification under a wrong handle; the handler given to NewServerWithNameAndHandler is served only after AddService and never after SetServices/RemoveAllServices (exact condition proved).")
c("C70","proved","packet_never_exceeds_31 newPacket_le_31 newPacket_bytes newPacket_succeeds apply_success","The part of C03 that holds of the code, stated exactly; proved in full. The counterexamples to the rest of C03 are listed there.")
c("C71","proved","parse_panics_iff newRawPacket_outcome getters_return","The part of C05 that holds of the code, stated exactly; proved in full. The counterexamples to the rest of C05 are listed there.")
c("C72","proved","response_size","The part of C10 that holds of the code, stated exactly; proved in full. The counterexamples to the rest of C10 are listed there.")
c("C73","proved","request_panics_iff server_returns_other_opcodes","The part of C12 that holds of the code, stated exactly; proved in full. The counterexamples to the rest of C12 are listed there.")
c("C74","proved","write_request_delivers write_without_handler write_unknown_handle write_reaches_characteristic","The part of C18 that holds of the code, stated exactly; proved in full. The counterexamples to the rest of C18 are listed there.")
c("C75","proved","cccd_write_outcome cccd_value_after connection_history cccd_read cccd_write_request","The part of C20 that holds of the code, stated exactly; proved in full. The counterexamples to the rest of C20 are listed there.")
c("C76","proved","mtu_follows_requests mtu_request_accepted mtu_request_refused new_server_exact","The part of C17 that holds of the code, stated exactly; proved in full. The counterexamples to the rest of C17 are listed there.")
c("C77","proved","call_returns_own_answer call_result_opcode","The part of C22 that holds of the code, stated exactly; proved in full. The counterexamples to the rest of C22 are listed there.")
c("C78","proved","value_goes_to_subscriber indications_confirmed_once values_in_order","The part of C27 that holds of the code, stated exactly; proved in full. The counterexamples to the rest of C27 are listed there.")
c("C79","proved","writePDU_fragments writePDU_isFragmentation recombine_returns_frame recvLoop_delivers_frames write_then_read connRead_returns_info write_over_mtu_refused","The part of C29 that holds of the code, stated exactly; proved in full. The counterexamples to the rest of C29 are listed there.")
c("C80","proved","pool_each_buffer_in_one_place pool_total pool_disconnected_returns_all","The part of C30 that holds of the code, stated exactly; proved in full. The counterexamples to the rest of C30 are listed there.")
c("C81","proved","cmd_one_per_opcode cmd_reply_has_own_opcode cmd_reply_used_once cmd_waiting_is_registered cmd_answer_reaches_caller command_complete_fields command_status_fields","The part of C31 that holds of the code, stated exactly; proved in full. The counterexamples to the rest of C31 are listed there.")
c("C82","proved","advertisement_seen scan_response_paired scan_response_unpaired no_foreign_scan_response advertisements_in_order advertisement_fields srData_is_advertisement_data","The part of C33 that holds of the code, stated exactly; proved in full. The counterexamples to the rest of C33 are listed there.")
c("C83","proved","report_accessors_no_panic report_fields single_report_fields truncated_report_safe data_implies_other_fields","The part of C34 that holds of the code, stated exactly; proved in full. The counterexamples to the rest of C34 are listed there.")
c("C84","proved","connection_steps_crash_iff unlisted_connection_frozen closed_connection_frozen close_closes disconnected_only_if Ble.Readers.closed_only_if","The part of C53 that holds of the code, stated exactly; proved in full. The counterexamples to the rest of C53 are listed there.")
c("C85","proved","scan_params_exact conn_params_accepted_iff default_params_accepted default_params_meaning","The part of C35 that holds of the code, stated exactly; proved in full. The counterexamples to the rest of C35 are listed there.")
c("C86","proved","signal_roundtrip signal_message_length signal_id_never_zero signal_ids_distinct signal_pdu_is_frame signal_pdu_handled signal_replies_carry_request_id signal_replies_wellformed signal_response_accepted signal_wrong_response_refused","The part of C39 that holds of the code, stated exactly; proved in full. The counterexamples to the rest of C39 are listed there.")
c("C87","proved","bond_store_is_map bond_save_result","The part of C43 that holds of the code, stated exactly; proved in full. The counterexamples to the rest of C43 are listed there.")
c("C88","proved","message_crashes_iff","The part of C54 that holds of the code, stated exactly; proved in full. The counterexamples to the rest of C54 are listed there.")
c("C89","proved","dial_addr dial_packet dial_scanned addr_bytes","The part of C48 that holds of the code, stated exactly; proved in full. The counterexamples to the rest of C48 are listed there.")
c("C90","proved","hci_cmd_packet hci_cmd_decodes hci_cmd_opcodes_distinct hci_send_status","The part of C47 that holds of the code, stated exactly; proved in full. The counterexamples to the rest of C47 are listed there.")
c("C91","proved","closed_calls_return closed_new_call_fails stopping_calls_fail reply_means_answered close_cleans_up failure_cleans_up no_success_after_failure","The part of C67 that holds of the code, stated exactly; proved in full. The counterexamples to the rest of C67 are listed there.")
c("C92","proved","connect_only_matching connect_reaches_dial find_sound find_complete_if_sequential","The part of C68 that holds of the code, stated exactly; proved in full. The counterexamples to the rest of C68 are listed there.")
c("C93","proved","services_listed notify_handle_current","The part of C69 that holds of the code, stated exactly; proved in full. The counterexamples to the rest of C69 are listed there.")
c("C94","proved","client_requests_decode read_calls_return_value","The part of C24 that holds of the code, stated exactly; proved in full. The counterexamples to the rest of C24 are listed there.")
c("C95","proved","client_simple_calls_total readList_panics_iff discovery_loops_panic_iff descriptor_loop_panics_iff","The part of C23 that holds of the code, stated exactly; proved in full. The counterexamples to the rest of C23 are listed there.")
c("C96","proved","hci_packet_panics_iff signal_panics_iff coc_receive_panics_iff advertising_panics_iff hci_spec_sized_packets_safe","The part of C32 that holds of the code, stated exactly; proved in full. The counterexamples to the rest of C32 are listed there.")
c("C97","proved","build_returns_iff build_result Ble.Props.BuildAux.desc_prop declared_bits read_static read_refused read_handler client_sees_properties client_reads client_writes client_sees_descriptors declaration_keeps_word descriptor_built service_built","Proved for all sequences of calls; a nil handler passed to HandleRead/HandleWrite still declares the property (visible in declared/lastRead). Direct assignment to exported fields is outside.")
c("C98","partial","find_partial find_never_nil find_nil_useless","False of the code: a nil *Service (etc.) is converted to interface{} and is never equal to nil, so callers like examples/blesh (u != nil) dereference a nil pointer. Proved: the pointer inside is the first match or nil; the interface is never nil.")
c("C99","proved","find_first findService_spec","Proved against the flattened list of the profile.")
c("C100","partial","advertising_goes_on_partial advertising_resumes refused_once_dark_for_ever dark_for_ever example_dark","Proved when the controller never refuses to start advertising. It fails otherwise: re-enabling is tried once, right after a connection, and cleanupConnectionHandle (hci.go:863) tries again only when the device is closed (the test `!h.isOpen()` is inverted), so one refusal at the connection limit leaves the peripheral silent for ever (refused_once_dark_for_ever).")
c("C101","proved","stop_is_final each_call_accounted example_stop","Holds because the value of the enable field is read when the command is marshalled under the opcode's lock, and not when the send was queued.")
c("C102","partial","every_central_served_partial served_in_order quiesces internal_runs_bounded listener_timeout_freezes example_frozen example_served","The safety part is proved for all histories, coming to rest for histories without a listener timeout. With OptListenerTimeout the accept loop ends at the first timeout while advertising goes on; the next connection then blocks the event loop for ever (listener_timeout_freezes).")
c("C103","proved","options_last_wins newDevice_ok_iff refused_calls example_last_wins","Security counts as set by a bond manager only.")
c("C104","partial","last_option_error_reported_partial option_error_only_last builtin_errors_dropped pair_crashes_iff example_security_dropped","Proved for an error of the last option. It fails otherwise: HCI.Option overwrites the error of every option but the last, and the package's own options drop the errors of the setters (OptPeripheralRole, OptCentralRole, and OptEnableSecurity with something that is not a bond manager): the device is made without security, and the first Pair crashes the program (pair_crashes_iff).")
c("C105","partial","failed_newDevice_releases_partial failed_newDevice_closed newDevice_loops_iff newDevice_leaks example_leak","Fails when the connection or scan parameters are not valid: they are checked after the transport was opened, and Close only closes a channel that no loop listens on yet (newDevice_leaks).")
c("C106","partial","device_advertise_partial app_run_refines advertise_while_advertising refused_data_waits example_device example_twice remembers_advertising","Proved from every state in which the device does not advertise, on a controller that keeps to the specification. While it advertises a second call returns Command Disallowed (gap.go:273 sends the parameters first) but has changed the data on the air; and if the controller refuses the data the call waits for its context as if it advertised (`return nil`, gap.go:85, 123, ...).")
c("C107","proved","params_of_last_raw raw_exact adv_params_wire app_step_refines","")
c("C108","partial","Ble.Sock.newSocketId_first Ble.Sock.newSocketId_iff Ble.Sock.newSocketId_retry_useless Ble.Sock.retry_closes_foreign Ble.Sock.newSocketId_fail_clean_partial","Proved: the call succeeds exactly if the first attempt does, with a socket bound to the adapter and nothing else changed; a failing call leaves no descriptor behind. FALSE of the code: the socket is closed after the first failed attempt and the same number is used again, so retries never succeed (newSocketId_retry_useless), and each retry closes whatever file was given that number (retry_closes_foreign).")
c("C109","partial","Ble.Sock.newSocketAny_partial Ble.Sock.newSocketAny_bound Ble.Sock.tryAll_spec Ble.Sock.newSocketAny_gap_wrong Ble.Sock.newSocketAny_takes_down Ble.Sock.newSocketAny_poll_wrong","Proved for adapters numbered 0, 1, … without a gap (at most 16) and sockets that report no error right after binding; and for all cases that the socket returned is bound to the adapter it stands for. FALSE of the code otherwise: the index in the list is used as the number (a machine with hci1 only has 'no device'), an error after binding makes all later adapters fail, and adapters that are in use are taken down on the way.")
c("C110","partial","Ble.SockConc.closed_once_partial Ble.SockConc.close_returned Ble.SockConc.read_polled Ble.SockConc.read_not_free Ble.SockConc.late_calls Ble.SockConc.write_after_close_wrong Ble.SockConc.read_after_close_wrong","Proved: closed at most once and only while it is ours; closed when any Close has returned; a Read reads the file it polled; calls that begin after a Close has returned make no system call and give end of file. FALSE of the code for calls that began before: a Write (which shares no lock with Close) and a Read (which tests before it locks) can use a number that stands for a file of somebody else (two schedules).")
c("C111","proved","Ble.SockConc.progress Ble.SockConc.steps_bounded","No deadlock in any reachable state; at most five steps per call. System calls are assumed to return (Read polls for at most a second).")
c("C112","proved","Ble.H4Conc.reads_in_order Ble.H4Conc.reads_sublist Ble.H4Conc.taken_means_returned Ble.H4Conc.loss_cause Ble.H4Conc.queue_bound","Invariant over all runs: packets made = taken ++ held ++ queue ++ still to be queued.")
c("C113","partial","Ble.H4Conc.close_returned Ble.H4Conc.rx_ends_partial Ble.H4Conc.rx_stuck Ble.H4Conc.rx_stuck_reachable","Proved: the connection is closed, and the loop ends if its packets fit on the queue. FALSE otherwise: with 64 unread packets and one more to queue, the loop stays for ever in the send on the queue, since a Read after Close does not take anything (rx_stuck; the state is reachable).")
c("C114","proved","Ble.H4Conc.waitIdle_idle Ble.H4Conc.waitIdle_ends Ble.H4Conc.waitIdle_late_wrong Ble.H4Conc.reset_bytes Ble.H4Conc.reset_write_fails Ble.H4Conc.reset_idle","Also shown: a transport that falls silent is refused if the read that finds out times out after the deadline (waitIdle_late_wrong).")
c("C115","proved","Ble.Smp.sends_wellformed Ble.Smp.sends_wellformed_new Ble.Smp.unknown_answered","The random numbers drawn are assumed to have the 16 bytes the code asks for.")
c("C116","partial","toMap_content_partial toMap_returns view_txPower toMap_txPower_wrong txPower_present","Content and absence of crashes proved for every report. FALSE for the transmit power: ToMap reads the byte as unsigned, so every negative power comes out 256 too large (toMap_txPower_wrong), while TxPowerLevel is signed.")
c("C117","partial","handed_out_stable_partial heap_is_history fresh_object stable_without_responses advertisement_changes","Proved on a model with shared objects that refines the history model: everything but the scan response and decoded content is stable; those change exactly by a scan response from the same address, for connectable/scannable undirected advertisements of the present scan. FALSE beyond that: the same object is handed out again and its content changes in place, on the receiving goroutine (advertisement_changes).")
c("C118","proved","Ble.Scanning.reports_dispatched_in_order Ble.Scanning.dispatched_to_latest Ble.Scanning.all_returned_all_quiet Ble.Scanning.scan_sequential Ble.Scanning.scanning_example","For all schedules. Dispatch is the start of the handler (go h.advHandler(a)), not its end. Time-outs of Send are not in this model (C31/C32 have them).")
c("C119","partial","Ble.Scanning.overlapping_scans_partial Ble.Scanning.reports_dispatched_in_order Ble.Scanning.all_returned_all_quiet Ble.Scanning.first_to_end_stops_all Ble.Scanning.second_takes_reports Ble.Scanning.scan_sends_stop Ble.Scanning.stop_sends_scan Ble.Scanning.called_after_failed_stop Ble.Scanning.scan_results","Proved: nothing is lost or reordered, and when all have returned scanning is off. FALSE otherwise: the first scan to end stops the others (first_to_end_stops_all), the second takes the reports of the first (second_takes_reports), and because the command is marshalled from shared parameters after the opcode lock, a scan can send the stop command and StopScan the start command (scan_sends_stop, stop_sends_scan).")
c("C120","partial","Ble.Locking.calls_return_partial Ble.Locking.one_at_a_time Ble.Locking.reentrant_handler_deadlocks Ble.Locking.deadlock_example Ble.Locking.strange_pdus_hold_the_call Ble.Locking.locking_example","Proved for all schedules if no handler calls a method of its own client. FALSE otherwise: the handler runs with the client's lock held, so a handler that calls any method (Unsubscribe, ReadCharacteristic, CancelConnection) blocks forever, with every other call, present or future (reentrant_handler_deadlocks); and a peer that keeps sending PDUs that are no answers restarts the two seconds each time (strange_pdus_hold_the_call).")
c("C121","partial","att_pdus_are_spec att_fill_partial att_read_partial att_set_other att_set_get att_accessor_panics_iff signed_write_overlaps att_pdu_example set_opcode_exact att_sig_short","All types of att_gen.go (generated table, compared with a table written from the specification). FALSE for Signed Write Command: the signature is written over the value (signed_write_overlaps gives the exact octets).")
c("C122","partial","Ble.Air.air_exchange_partial Ble.Air.air_calls Ble.Air.air_discover_profile Ble.Air.air_read_long Ble.Air.air_write Ble.Air.air_exchange_mtu Ble.Air.air_long_response_lost Ble.Air.transfer_delivers Ble.Air.cuttingRadio_faithful Ble.Air.air_example","By simulation: every call of the client model is parametric in what carries the requests. The link must keep the L2CAP header in the first packet (C29). FALSE for PrepareWrite: its response may be longer than the server is allowed to send and is then never sent (air_long_response_lost).")
c("C123","proved","Ble.Pipe.pipe_refines_loop Ble.Pipe.pipe_buffer_stable Ble.Pipe.pipe_give_free Ble.Pipe.pipe_bounded Ble.Pipe.pipe_quiet Ble.Pipe.pipe_crash Ble.Pipe.pipe_arrive","Refinement to the sequential server of C01-C20 by an invariant over the shared buffers; bounded by a measure. Handlers are atomic at their end (they look at the request then), as they may take any time before.")
c("C124","partial","Ble.Pipe.pipe_confirmed_partial Ble.Pipe.pipe_stall Ble.Pipe.pipe_stall_timeout Ble.Pipe.indication_ends_with_connection","FALSE if any request or command arrives before the confirmation: the reader waits to hand it over to the goroutine that runs the handler, the confirmation is never read and the call fails after 30 s, and neither is the end of the connection noticed (pipe_stall). Proved if the confirmation is the next PDU.")
c("C125","partial","Ble.EvtGen.evts_are_spec_partial Ble.EvtGen.evt_wrong_code Ble.EvtGen.evt_read Ble.EvtGen.evt_getter_panics_iff Ble.EvtGen.evt_valid_safe Ble.EvtGen.evt_valid_exact Ble.EvtGen.evt_example Ble.EvtGen.evt_addr_short","Generated table (tools/gen_evt.py) compared with a table written from the specification. FALSE for one constant: LEConnectionUpdateCompleteCode is the code of Command Complete (evt_wrong_code); the library does not use it. Events with arrays: C34.")
c("C126","partial","Ble.Dials.dials_each_connection_once Ble.Dials.dials_distinct Ble.Dials.dials_some_peer Ble.Dials.dials_right_peer_partial Ble.Dials.dial_gets_other_peer Ble.Dials.dial_swaps Ble.Dials.dial_torn_target Ble.Dials.dials_drop_only_if_full","Proved: every connection made goes to exactly one call, is given up, or still waits; the peer is one some call asked for (address and type separately); right if all calls are for one peer. FALSE otherwise, for any two peers: the parameters are shared and marshalled after the opcode lock, so a call can connect to the other's peer (dial_gets_other_peer) or to one call's address with the other's type (dial_torn_target); and a connection is taken by whoever is first at the channel (dial_swaps).")
c("C127","partial","Ble.Props.packetsRead_eq Ble.Props.serial_to_connection Ble.Props.serial_frames_delivered Ble.Props.pdus_cross_both_hosts_partial Ble.Props.serial_example","Composition of the models H4, HciPkt, Conns, L2cap and Tx. Not covered because false of the code: failed writes, first fragments shorter than the L2CAP header, pauses of more than 500 ms inside a packet, controllers that announce buffers of no bytes. The queue between the event loop and the connection is taken as unbounded (blocking: C66).")
c("C128","partial","Ble.Interrupt.handler_needs_interrupt Ble.Interrupt.handler_at_most_once Ble.Interrupt.interrupt_kills_iff Ble.Interrupt.interrupt_reaches_handler Ble.Interrupt.interrupt_partial Ble.Interrupt.handler_called_late Ble.Interrupt.find_calls_handler_twice Ble.Interrupt.second_interrupt_swallowed Ble.Interrupt.goroutine_waits_for_context Ble.Interrupt.goroutines_remain Ble.Interrupt.interrupt_example Ble.Interrupt.killed_is_end","Proved: the function is called only for a signal that came during the call, at most once per call; a signal ends the process exactly if no such call is in progress; while the context goes on nothing can prevent the call of the function. False of the code: the function can run after the call returned (handler_called_late), one signal during Find calls it twice, a second signal is swallowed, and each returned call leaves a goroutine until its context ends (goroutines_remain).")
c("C129","partial","Ble.CocRx.coc_no_crash Ble.CocRx.coc_subscriber_gets_all Ble.CocRx.coc_loss_only_when_full Ble.CocRx.coc_receive_goes_on Ble.CocRx.coc_full_channel_stops_connection Ble.CocRx.coc_end_seen Ble.CocRx.coc_unsubscribe_closes Ble.CocRx.coc_end_iff_partial Ble.CocRx.coc_link_loss_unseen Ble.CocRx.cocrx_example Ble.CocRx.coc_short_frame_crashes Ble.CocRx.coc_down_no_frames Ble.CocRx.coc_unsubscribed_frame","All proved except the last sentence, which is false of the code (coc_link_loss_unseen: the channel of a subscription is never closed when the connection ends). SDUs in several frames: C38 (never delivered). While a channel is full the whole connection stops for up to five seconds per frame (coc_full_channel_stops_connection).")
c("C130","partial","Ble.SigConc.responses_never_block Ble.SigConc.serial_response_matches_partial Ble.SigConc.serial_own_response_partial Ble.SigConc.serial_response_returned Ble.SigConc.overlapping_calls_cross Ble.SigConc.returned_credit_breaks_open Ble.SigConc.overlapping_calls_share_id Ble.SigConc.sigconc_example Ble.SigConc.answer_once Ble.SigConc.serial_identifiers Ble.SigConc.identifiers_are_bytes","The last sentence is proved for all schedules. The rest is proved for calls that do not overlap (serial_…), and false of the code otherwise: sigID is read again after other calls have changed it, so a call can return another call's response (overlapping_calls_cross), fail although it was answered (returned_credit_breaks_open), and share an identifier with another (overlapping_calls_share_id).")
c("C131","partial","Ble.Reenter.calls_can_return_partial Ble.Reenter.loop_callback_returns_partial Ble.Reenter.handler_command_answered_partial Ble.Reenter.no_reply_during_callback Ble.Reenter.loop_callback_command_fails Ble.Reenter.handler_same_opcode_deadlock Ble.Reenter.dead_controller_hangs_call Ble.Reenter.dead_controller_no_call_returns Ble.Reenter.late_reply_blocks_loop Ble.Reenter.sync_handler_example Ble.Reenter.handler_example","Proved: with an error handler that sends no commands every call, and every function the event loop calls, can return without the controller; a handler's command outside the event loop with a free opcode is answered. The rest is false of the code: a command sent by a function the event loop calls never succeeds and no other call gets a reply meanwhile (loop_callback_command_fails, no_reply_during_callback); an error handler that repeats the failed command hangs for ever, also after Close (handler_same_opcode_deadlock); with a controller that does not answer any command of the error handler leads there (dead_controller_hangs_call, dead_controller_no_call_returns).")
c("C132","proved","Ble.Dials.dials_all_return Ble.Dials.interrupted_dial_cancels Ble.Dials.dials_live_example","A measure that every step but a new call decreases, and an enabled step while a call has not returned. Commands are answered in the model (a controller that does not answer: C131 and the command claims).")
c("C133","proved","Ble.Whole.newDevice_leaks_iff Ble.Whole.newDevice_fails_clean Ble.Props.failed_newDevice_closed Ble.Props.example_leak","The whole truth about what C105 asks for.")
c("C134","proved","Ble.Whole.option_error_iff Ble.Whole.builtin_never_fails","The whole truth about what C104 asks for.")
c("C135","proved","Ble.Whole.peripheral_goes_on Ble.Props.served_in_order Ble.Props.example_served","C100 and C102 tell what happens otherwise.")
c("C136","proved","Ble.Whole.advertising_calls_exact Ble.Props.example_device","Refinement of the specification airRun (C106).")
c("C137","proved","Ble.Whole.open_adapter_exact Ble.Whole.open_adapter_fails_clean Ble.Whole.open_first_adapter Ble.Sock.newSocketAny_bound","What holds of C108 and C109.")
c("C138","proved","Ble.Whole.socket_closed_once Ble.SockConc.late_calls","What holds of C110.")
c("C139","proved","Ble.Whole.rx_ends_iff Ble.H4Conc.close_returned Ble.H4Conc.rx_stuck_reachable","The whole truth about what C113 asks for.")
c("C140","proved","Ble.Whole.handed_out_change_exact Ble.Props.fresh_object Ble.Props.heap_is_history Ble.Props.stable_without_responses","The whole truth about what C117 asks for.")
c("C141","proved","Ble.Whole.client_calls_return Ble.Locking.locking_example","C120 has the deadlock otherwise.")
c("C142","proved","Ble.Whole.att_pdu_fields Ble.Props.att_pdus_are_spec Ble.Props.att_set_get Ble.Props.att_accessor_panics_iff Ble.Props.set_opcode_exact Ble.Props.att_pdu_example","C121 has the exception.")
c("C143","proved","Ble.Whole.evt_params_are_spec Ble.Whole.evt_params_read Ble.EvtGen.evt_valid_safe Ble.EvtGen.evt_valid_exact Ble.EvtGen.evt_example Ble.EvtGen.evt_addr_short","C125 has the one wrong event code.")
c("C144","proved","Ble.Air.air_calls Ble.Air.air_discover_profile Ble.Air.air_read_long Ble.Air.air_write Ble.Air.air_exchange_mtu Ble.Air.air_example","The conditions (Link.Ok, Faithful) are in the statements; C122 has what fails outside them.")
c("C145","proved","Ble.Dials.dials_each_connection_once Ble.Dials.dials_distinct Ble.Dials.dials_some_peer Ble.Dials.dials_drop_only_if_full Ble.Whole.dials_same_peer","C126 has calls for different peers, which can be swapped.")
c("C146","proved","Ble.Interrupt.handler_needs_interrupt Ble.Interrupt.handler_at_most_once Ble.Interrupt.interrupt_kills_iff Ble.Interrupt.interrupt_reaches_handler Ble.Interrupt.interrupt_example Ble.Interrupt.killed_is_end","The exact conditions are in the theorems; C128 has what goes wrong.")
c("C147","proved","Ble.CocRx.coc_no_crash Ble.CocRx.coc_subscriber_gets_all Ble.CocRx.coc_loss_only_when_full Ble.CocRx.coc_receive_goes_on Ble.CocRx.coc_end_seen Ble.CocRx.coc_unsubscribe_closes Ble.CocRx.cocrx_example Ble.Whole.coc_end_iff Ble.CocRx.coc_short_frame_crashes Ble.CocRx.coc_down_no_frames Ble.CocRx.coc_unsubscribed_frame","C129 has what fails.")
c("C148","proved","Ble.Whole.serial_calls_get_their_response Ble.SigConc.responses_never_block Ble.SigConc.serial_response_returned Ble.SigConc.answer_once Ble.SigConc.sigconc_example Ble.SigConc.serial_identifiers Ble.SigConc.identifiers_are_bytes","C130 has overlapping calls.")
c("C149","proved","Ble.Whole.calls_can_return Ble.Reenter.sync_handler_example","C131 has handlers that send commands.")
c("C150","proved","Ble.Whole.indication_confirmed Ble.Whole.indication_overtaken Ble.Pipe.pipe_stall_timeout Ble.Pipe.indication_ends_with_connection","The whole truth about what C124 asks for.")
c("C151","proved","Ble.Whole.pdus_cross_both_hosts Ble.Props.serial_to_connection Ble.Props.serial_frames_delivered Ble.Props.packetsRead_eq Ble.Props.serial_example","C127 has what fails outside the conditions.")
c("C152","proved","Ble.Whole.toMap_exact Ble.Props.toMap_returns Ble.Props.txPower_present","C116 has the sign.")
c("C153","partial","Ble.Errs.errors_told_partial Ble.Errs.adv_told_iff Ble.Errs.orphan_error_says_nothing Ble.Errs.unjoinable_response_told_twice Ble.Errs.vendor_event_tells_nil Ble.Errs.failures_not_told Ble.Errs.errs_example","FALSE of the code in four ways: a scan response without advertisement is reported with the text <nil>; one that cannot be parsed with its advertisement is reported twice; every vendor event calls the handler with nil; all other failures are only logged. Proved for advertising events that are not scan responses.")
c("C154","proved","Ble.Errs.pkt_told_iff Ble.Errs.adv_told_exact Ble.Errs.tells_unique Ble.Errs.adv_agrees Ble.Errs.errs_example","The whole truth about what C153 asks for; adv_agrees ties the model to the one of C33.")
c("C155","proved","Ble.Queue.writes_delivered_exact Ble.Queue.queue_example","The whole truth behind C18 and C19: values prepared for different handles are joined and written to the first handle.")
c("C156","proved","Ble.Whole.answered_exactly signed_write_command_answered","The exact form of C11.")
c("C157","proved","Ble.Whole.readLong_exact readLong_static readLong_truncates_after_exchange","The exact form of C25.")
c("C158","proved","Ble.Whole.coc_send_exact Ble.Whole.coc_receive_iff coc_open_returns coc_lookup_exact","The exact form of C38.")
c("C159","proved","Ble.Whole.pairing_method_exact secure_connections_used pairing_method_example","The exact form of C40.")
c("C160","proved","Ble.InitSeq.init_sends_only Ble.InitSeq.init_sends_exactly Ble.InitSeq.init_result Ble.InitSeq.initseq_example Ble.InitSeq.default_parameters","init_result reduces the values to C62.")
c("C161","partial","Ble.InitSeq.handled_events_sent_partial Ble.InitSeq.parameter_requests_not_sent Ble.InitSeq.masks_refused Ble.InitSeq.initseq_example Ble.InitSeq.needed_events_sent","FALSE of the code in two ways: the mask lacks the bit of the LE Remote Connection Parameter Request, whose handler can therefore never run (parameter_requests_not_sent); and Init succeeds also if the controller refuses the mask, after which no LE event ever arrives (masks_refused). Proved for all other events and controllers that accept the masks.")
c("C162","proved","Ble.PktEff.packet_does_exactly Ble.PktEff.pkteff_example","Which packets crash the host is C32; what is done with advertising reports is C33.")
c("C163","partial","Ble.IndClose.success_confirmed_despite_failures_partial Ble.IndClose.no_success_after_end Ble.IndClose.ends_by_itself Ble.IndClose.waiting_call_closed Ble.IndClose.loss_unnoticed Ble.IndClose.indclose_example","Proved: success means confirmed (until a first time-out), nothing succeeds after the end, and from the moment the reader has ended every call and the loop end by themselves. FALSE: a reader blocked behind an MTU exchange does not notice the loss until the 30 s time-out (loss_unnoticed). The time-out case is C60.")
c("C164","partial","Ble.Props.CacheProfSpec.cached_discovery_whole_partial Ble.Props.CacheProfSpec.failed_discovery_is_cached Ble.Props.CacheProfSpec.forced_second_call_caches_doubles Ble.Props.CacheProfSpec.stale_profile_returned Ble.Props.CacheProfSpec.torn_store_no_more_caching Ble.Props.CacheProfSpec.no_cache_crashes Ble.Props.CacheProfSpec.json_profiles Ble.Props.CacheProfSpec.example_proper Ble.Props.CacheProfSpec.example_visits Ble.Props.CacheProfSpec.example_failed_discovery","Proved for every history of first calls on their connections, forced and not, cache cleared at any time, without failures, peers keeping their tables. False otherwise: after a failed discovery the next call reports success and stores the incomplete profile for all later clients (failed_discovery_is_cached); a forced second call stores every service twice (forced_second_call_caches_doubles); a changed peer is not noticed (stale_profile_returned); after an interrupted write nothing is cached until Clear and every call returns an error (torn_store_no_more_caching); without a cache file every successful call crashes (no_cache_crashes).")
c("C165","proved","Ble.Props.CacheProfSpec.cached_profile_returned Ble.Props.CacheProfSpec.uncached_profile_discovered Ble.Props.CacheProfSpec.no_cache_crashes Ble.Props.CacheProfSpec.example_visits","For every peer and every state.")
c("C166","proved","stored_bond_origin only_two_messages_store bond_forged example_told","The exact account of what C61 denies: keys told by the peer outside of any pairing are stored too (bond_forged, example_told).")
c("C167","proved","table_at_start table_size_after service_after characteristic_after example_two_adds","The exact account of what C49 denies. A new server's table is the one of the default services (table_at_start). Services are values here: adding the same object twice is in C69 and C93.")
c("C168","proved","bond_found_was_saved bond_durable bond_call_outcomes bond_unreadable_for_ever bond_crash_loses example_durable","The exact account of what C57 denies; keys saved are not empty, as in C58. JSON by its laws (Store/File).")
c("C169","proved","pair_nil_causes forged_pair_success pair_only_once","The exact account of what C55 denies; forged_pair_success shows that the third cause is real, pair_only_once that later calls fail.")
c("C170","proved","encryption_is_last_change encryption_reaches_connection key_refresh_event_ignored connection_event_creates example_history","The part of C52 that holds; what fails there is that key refresh events are never noticed.")
c("C171","proved","bond_calls_linearizable bond_real_time example_interleaving","The part of C58 that holds. The empty key is the one way to make Find write under the read lock.")
c("C172","proved","dial_right_peer dial_returns_some_dialled_peer dial_off_by_one example_prompt_dial","The part of C59 that holds; dial_off_by_one shows the failure for other controllers.")
c("C173","proved","central_answers central_works_off_queue central_indications_counted example_call_and_request","The part of C61 that holds.")
c("C174","proved","indication_success indication_results_ordered waiting_indication_confirmed example_confirmed_indication","The part of C60 that holds: after a time-out a late confirmation is taken for the next indication.")
c("C175","proved","cccd_after_successful_write example_subscription_history","The part of C26 that holds; a failed write leaves the client's bits as if it had succeeded.")
c("C176","partial","cmd_reply_own_partial cmd_reply_own_or_late late_reply_answers_next_call example_own_replies","Holds as long as no call with the opcode has failed. False after a time-out: replies are matched by opcode only, so the next call with the opcode can get the answer to the one that timed out (late_reply_answers_next_call). Always the answer is to a command with the same opcode, of this call or of one that has returned (cmd_reply_own_or_late). Vendor commands, which are answered by any vendor event, are in C31.")
c("C177","partial","rssi_own_partial rssi_command rssi_result rssi_of_other_connection rssi_in_table example_own_replies","False after a time-out: the handle in the reply is not compared, and the late answer for another connection is returned (rssi_of_other_connection).")
c("C178","proved","Ble.FindType.find_by_type_value Ble.FindType.find_by_type_value_refused Ble.FindType.find_services_by_uuid Ble.FindType.find_example","find_services_by_uuid assumes that the application gives no characteristic or descriptor the UUID 0x2800.")
c("C179","proved","Ble.AirSub.air_subscriptions Ble.AirSub.air_subscriptions_go_on Ble.AirSub.history_goes_through Ble.AirSub.table_is_table Ble.AirSub.heart_example Ble.AirSub.refused_subscription_forgets","table_is_table: any list of services that fits in the handles gives such a table. One thing at a time; values of a notifier that was closed are still sent, since Write does not look at it: a client that has subscribed again gets them.")
c("C180","proved","nonce_only_after_confirm nonce_as_committed example_committed","nonce_as_committed assumes that sends work and addresses have six bytes.")
c("C181","partial","nonce_fits_confirm_partial nonce_chosen_late numeric_comparison_unconfirmed example_numeric","False of the code. nonce_chosen_late: a second Pairing Confirm replaces the first after the host has revealed its nonce. numeric_comparison_unconfirmed: nobody is asked, the value is never computed. Proved: a nonce is accepted only if the confirm value received last commits to it.")
c("C182","partial","Ble.Pipe.kept_data_partial Ble.Pipe.kept_overwritten Ble.ExecBuf.execute_overwritten Ble.Pipe.kept_example","False of the code (kept_overwritten): the data is part of one of two buffers, and is overwritten by the PDU after the next request (data of an Execute Write: by the next Prepare Write, execute_overwritten). Proved: intact until the next request is handed to a handler.")
c("C183","proved","Ble.Pipe.kept_until_next Ble.Pipe.kept_example","")
c("C184","proved","security_request_bonded security_request_stk security_request_unusable security_request_unbonded security_request_new usable_example","")
c("C185","proved","Ble.ExecBuf.execute_gives Ble.ExecBuf.execute_kept Ble.ExecBuf.execbuf_example Ble.Queue.writes_delivered_exact","Together with C155, which gives the bytes the handler gets. The memory is overwritten by the next Prepare Write: Ble.ExecBuf.execute_overwritten, listed under C182.")
c("C186","partial","key_size_partial key_size_ignored short_key_accepted key_size_example","The code ignores the sizes: true only if both are 16 (key_size_partial); key_size_ignored and short_key_accepted show that with all other sizes 16 octets are used and that forbidden sizes are accepted.")
c("C187","partial","serviceData_complete_partial serviceData_sound serviceData32_lost serviceData_example","True for 16 and 128 bit UUIDs (serviceData_complete_partial) and nothing is invented (serviceData_sound); service data with a 32 bit UUID, which the parser accepts, is lost because ble.Parse refuses that size (serviceData32_lost).")
c("C188","partial","Ble.Readers.closed_by_itself_partial Ble.Readers.closed_only_if Ble.Readers.whole_frames_never_fail Ble.Readers.stale_reader_closes_new_connection Ble.Readers.is_conns_history Ble.Readers.stale_reader_example","False in one case: a connection that ends within a PDU makes its reader fail, and the reader cleans up by handle after the handle may have been given to a new connection (stale_reader_closes_new_connection). closed_only_if lists all causes; with whole frames the case cannot occur (whole_frames_never_fail).")
c("C189","partial","Ble.Links.writes_reach_own_peer_partial Ble.Links.write_reaches_wrong_peer Ble.Links.links_example Ble.Links.misdirected_only_until_event_partial Ble.Links.orderly_without_close Ble.Links.misdirected_example","False if the controller uses a handle again before the host has removed the connection that had it; with Close running at the same time, for good (write_reaches_wrong_peer). Without such a Close only until the host has handled the event about the new connection (misdirected_only_until_event_partial).")
c("C190","proved","Ble.Links.write_reaches_link Ble.Links.closed_writes_nothing Ble.Links.links_example","")
c("C191","proved","Ble.Links.received_from_own_peer Ble.Links.nothing_lost_before_disconnected Ble.Links.received_example","Unlike sending (C189) this holds without any assumption about when the controller uses a handle again.")
c("C192","partial","Ble.Links.disconnected_iff_link_gone_partial Ble.Links.events_can_be_handled Ble.Links.write_reaches_wrong_peer Ble.Links.orderly_without_close Ble.Links.settled_example","Holds for all histories without Close, and with Close as long as it does not overlap with reuse of the handle. False otherwise: a closed connection is never announced and a living one is (write_reaches_wrong_peer).")
c("C193","partial","Ble.Links.close_ends_own_link_partial Ble.Links.close_ends_other_link Ble.Links.settled_example","False if the link is gone, its handle has a new owner and the host has not handled the events yet: Close then ends the other device's link (close_ends_other_link).")
c("C194","proved","Ble.CacheConc.cache_linearizable Ble.CacheConc.cache_real_time Ble.CacheConc.concurrent_loads Ble.CacheConc.cache_calls_return Ble.CacheConc.example_cache_run","Reading the file and removing it are single steps, writing has every intermediate state.")
c("C195","partial","Ble.CacheConc.devices_share_partial Ble.CacheConc.two_devices_lose","False if calls of different devices overlap: each device has a lock of its own (two_devices_lose). Holds whenever they do not.")
c("C196","proved","Ble.BondCrash.bonds_linearizable Ble.BondCrash.bonds_real_time Ble.BondCrash.concurrent_find_was_saved Ble.BondCrash.concurrent_bond_durable Ble.BondCrash.bond_calls_return Ble.BondCrash.example_bond_run","C58 with failures and crashes, C168 with concurrency. Keys saved are not empty (C58 has the counterexample). loadBonds is one step.")
c("C197","partial","Ble.BondCrash.managers_share_partial Ble.BondCrash.two_managers_lose","False if calls of different managers overlap: each has a lock of its own (two_managers_lose). Holds whenever they do not.")
c("C198","partial","connection_handle_tells_partial connection_handles_alike","False for handles that agree in the low byte: the method returns 8 of the handle's 12 bits (connection_handles_alike).")
c("C199","proved","tables_never_shared example_program","Functions of the application that the library calls are taken to call no function of the library.")
c("C200","partial","variables_never_shared_partial unguarded_variables_race example_program","False: proved for the tables (C199); each of the other thirteen shared variables has a race in a program of two goroutines (unguarded_variables_race).")
c("C201","proved","mutexes_never_deadlock some_goroutine_can_go_on unlocks_match mutexes_exclude unmarshallable_command_unlocks example_program","About waiting for mutexes only; waiting for a channel with a mutex held is C66, C80, C130, C149, C202. The commands of the application are assumed to marshal (unmarshallable_command_unlocks shows what happens otherwise).")
c("C202","partial","Ble.PoolLive.hung_for_ever Ble.PoolLive.waits_for_ever_iff Ble.PoolLive.cleanup_ends_iff Ble.PoolLive.disconnection_handled_partial Ble.PoolLive.waiting_write_is_served Ble.PoolLive.link_loss_hangs_adapter Ble.PoolLive.live_example","False: link_loss_hangs_adapter (one connection, every number of buffers) reaches a state that is hung for ever. Proved: exactly when that is so (waits_for_ever_iff), exactly when a clean-up can end (cleanup_ends_iff), and that it does with enough free buffers.")
c("C203","partial","Ble.CocObj.objects_distinct Ble.CocObj.subscription_own Ble.CocObj.open_object_own_partial Ble.CocObj.stale_object Ble.CocObj.old_object_acts_on_new_channel Ble.CocObj.two_channels_example","Send and Close look the channel up by the peer's identifier. Proved for objects whose channel is open, and for Subscribe and Unsubscribe always; stale_object says exactly what Send and Close of a closed object do, and old_object_acts_on_new_channel shows that they act on another channel when the peer uses its identifier again.")
c("C204","partial","Ble.MtuHist.sizes_exact Ble.MtuHist.call_crashes_iff Ble.MtuHist.crash_possible_iff Ble.MtuHist.calls_do_not_crash_partial Ble.MtuHist.peer_request_crashes Ble.MtuHist.small_answer_crashes Ble.MtuHist.no_crash_example","False: the own server of a dialled connection changes the connection's MTU but not the client's transmit buffer (peer_request_crashes); an answer below 5 leaves a buffer that is too small (small_answer_crashes). Proved: the sizes after every history, exactly which call crashes then, exactly when some call would, and that no history crashes when the peer asks for no more than the buffer has and answers with at least 23.")
c("C205","partial","Ble.Ending.comes_to_rest Ble.Ending.can_rest Ble.Ending.all_end_partial Ble.Ending.leak_iff Ble.Ending.leaked_for_ever Ble.Ending.loop_steps_bounded Ble.Ending.goroutine_leaks Ble.Ending.ending_example","False: the goroutine that recombines packets hands them on through a queue of 16 without watching for the end of the connection, and nobody reads the queue after the end (goroutine_leaks: a response nobody waits for and 17 PDUs more; leaked_for_ever). Proved: from every state in which a connection ends the library comes to rest within a bounded number of steps in every schedule; then everything but possibly that goroutine has ended; it stays exactly when more than 16 received PDUs are left unread, at most one being read after the others have noticed; with at most 16 unread at the end of the connection everything ends.")
c("C206","partial","Ble.SrvEnd.handled_in_order Ble.SrvEnd.comes_to_rest Ble.SrvEnd.can_rest Ble.SrvEnd.all_end_partial Ble.SrvEnd.leaked_for_ever Ble.SrvEnd.goroutine_leaks Ble.SrvEnd.ending_example","False in one case: a PDU without octets makes the server stop reading, and if more than 16 PDUs follow the goroutine that recombines them waits for ever (goroutine_leaks, leaked_for_ever). Proved: order and uniqueness at every time; bounded time to rest from every state in every schedule; at rest the requests handled are exactly those received before a PDU that ends the connection (empty or too long); everything but possibly that goroutine has ended; with no empty PDU everything has.")
c("C207","partial","Ble.FailedDisc.failed_discovery Ble.FailedDisc.profile_part_partial Ble.FailedDisc.cut_faulty Ble.FailedDisc.end_handle_wrong","False for the end of the range of the last characteristic listed for a service (end_handle_wrong): it is provisional until the next characteristic is seen. Everything else proved: failed_discovery for every peer with any requests failing, against the same peer without failures; profile_part_partial for this library's server.")
c("C208","partial","Ble.DiscHist.discovered_true_partial Ble.DiscHist.services_found Ble.DiscHist.chars_found Ble.DiscHist.descs_found Ble.DiscHist.wrong_cccd Ble.DiscHist.two_meets Ble.DiscHist.history_example Ble.DiscHist.outcome_example","False after a DiscoverCharacteristics that fails between two responses: the last characteristic it found has the range of the rest of the service, and a later DiscoverDescriptors on it takes the CCCD of another characteristic for its own (wrong_cccd). Proved for all histories: everything true except that range, and descriptors and CCCD true for each characteristic whose range is right; completeness of calls that succeed.")
c("C209","proved","Ble.LinkEnc.encryption_is_own Ble.LinkEnc.encryption_current Ble.LinkEnc.new_connection_unencrypted Ble.LinkEnc.next_event Ble.LinkEnc.encryption_example Ble.LinkEnc.crash_example","The host can handle every event, except that a failed encryption of a connection without security manager crashes (next_event, crash_example).")
c("C210","partial","Ble.LinkEnc.commands_reach_own_link_partial Ble.LinkEnc.commands_without_reuse_partial Ble.LinkEnc.commands_reach_other_device Ble.LinkEnc.update_request_iff Ble.LinkEnc.update_reaches_other_device Ble.LinkEnc.update_example Ble.LinkEnc.commands_example","False: none of them looks whether the connection has ended. On an ended connection whose handle has a new owner ReadRSSI returns the value of the other device, and StartEncryption starts encryption with the other device with the key of the first peer; the failure then deletes the bond of the other device (commands_reach_other_device); a parameter update request that the reader of the ended connection still finds in its queue changes the parameters of the link with the other device (update_reaches_other_device). Proved: right while the link exists, and for ever if its handle is not used again.")
c("C211","partial","Ble.SrvFrag.handled_in_order Ble.SrvFrag.comes_to_rest Ble.SrvFrag.can_rest Ble.SrvFrag.all_end_partial Ble.SrvFrag.goroutine_leaks Ble.SrvFrag.fragments_example Ble.SrvFrag.interrupted_example","False in one case, that of C206 (goroutine_leaks, here with PDUs in two packets each). Proved: handled_in_order at every time, a bounded number of steps to rest in every schedule, at rest exactly the requests completely received before a PDU or packet that ends the connection are handled; all goroutines end if no PDU without octets was sent.")
c("C212","partial","Ble.DialFrag.comes_to_rest Ble.DialFrag.can_rest Ble.DialFrag.all_end_partial Ble.DialFrag.leak_iff Ble.DialFrag.leaked_for_ever Ble.DialFrag.goroutine_leaks Ble.DialFrag.fragments_example Ble.DialFrag.interrupted_example","False in one case, that of C205: with more than 16 complete PDUs unread the recombining goroutine stays (goroutine_leaks; leak_iff says exactly when, counting complete ATT PDUs only).")
c("C213","partial","Ble.SrvBytes.handled_in_order Ble.SrvBytes.bounded Ble.SrvBytes.can_rest Ble.SrvBytes.at_rest Ble.SrvBytes.no_crash Ble.SrvBytes.delivered_iff Ble.SrvBytes.pdusOf_recombine Ble.SrvBytes.pdus_of_frames Ble.SrvBytes.requests_handled_partial Ble.SrvBytes.frames_ok Ble.SrvBytes.frames_example Ble.SrvBytes.crash_example","False for packets that crash the program (crash_example, as in C29, C32) and for PDUs without octets (C206). C211 with octets instead of a description of the packets: recombine and Read are those of L2cap (pdusOf_recombine). no_crash: no crash as long as what was received is accepted.")
c("C214","partial","Ble.SrvAnswers.answers_in_order Ble.SrvAnswers.answers_partial Ble.SrvAnswers.crashes_only_if Ble.SrvAnswers.unname_name Ble.SrvAnswers.answers_example","C213 composed with the model of the attribute server, so what is proved of its loop (C10-C20, C72-C76 and others) holds of connections. False for packets that crash the program and PDUs without octets, as in C213; the server crashes exactly on requests that crash its handlers (crashes_only_if, C73).")
