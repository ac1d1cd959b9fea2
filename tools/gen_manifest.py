#!/usr/bin/env python3
"""Writes MANIFEST.json from the table below."""
import json, os
CLAIMS = [
 ("C01","partial",["C01_roundtrip_iff_partial","C01_roundtrip_flat_partial","C01_false_truncated_string","C01_false_nested"],
  "The unconditional claim is false (two witnesses, and C81_false_changed). Proved: exact characterization of the packets that round-trip."),
 ("C02","proved",["C02_any_chunking","C02_C03_prefix"],""),
 ("C03","proved",["C03_no_premature_packet","C02_C03_prefix"],""),
 ("C04","proved",["C04_resync"],""),
 ("C05","partial",["C05_unknown_packet_partial","C05_false_equal_length","C05_false_late_content"],
  "False in general: (a) a following packet with the same first 8 bytes (same length) is lost, (b) content arriving after the error is parsed as packets. Proved when the whole unknown packet has arrived and the length fields differ."),
 ("C06","partial",["C06_extension_skipped_partial","C06_false_late_junk","C06_low_tag_error"],
  "False when the extension bytes arrive after nextPackets() was called; proved when the whole packet is there."),
 ("C07","proved",["C07_tags","C07_duplicates_refused","C07_refused_without_duplicates"],""),
 ("C08","proved",["C08_serialized_is_complete","C08_decoded_may_be_incomplete"],""),
 ("C09","partial",["C09_uint_range","C09_limits","C09_assign","C09_from_float","C09_uint_wire","C09_unsigned_roundtrip","C09_signed_partial","C09_false_signed"],
  "The unsigned half is proved; the signed half is false (INT8 accepts 200), with the exact ranges proved."),
 ("C10","partial",["C10_rejected_partial","C10_accepted_is_valid","C10_false_number","C10_false_list","C10_rejected_value_is_sent","C10_unset_list_comes_back"],
  "False for numbers and lists; proved for all other field types, with the exact resulting state for numbers."),
 ("C11","partial",["C11_strings_iff_ascii_partial","C11_string_prefix","C01_false_truncated_string"],
  "False for non-ASCII strings; proved exactly for ASCII ones."),
 ("C12","proved",["C12_header","C12_prefix_free"],""),
 ("C13","partial",["C13_short_fields_partial","C13_false"],"False; proved for packets whose strings and buffers are short."),
 ("C14","proved",["C14_write","C14_read","C14_roundtrip","C14_false_overread"],
  "Reads that ask for no more than the payload; asking for more when bytes follow the frame over-reads (C14_false_overread)."),
 ("C15","proved",["C15_outcome","C15_position","C15_read_raises_start","C15_read_raises_end","C15_close_incomplete","C15_no_progress"],
  "C15_no_progress: after a bad prefix check sum the position is the same magic number again, so a retry fails again."),
 ("C16","proved",["C16_bijection","C16_inverse_agrees","C16_assignment","C16_deletion","C16_iteration_raises"],
  "Iteration (not part of the claim) always raises AttributeError."),
 ("C17","proved",["C17_immutable","C17_inverse_inverse"],""),
 ("C18","proved",["C18_flat"],""),
 ("C19","proved",["C19_iteration","C19_iteration_flat"],""),
 ("C20","partial",["C20_lookup_partial","C20_most_recent_partial","C20_independent","C20_other_version_raises","C20_false","C20_false_negative_version"],
  "False: an unregistered version of a known identifier raises NameError (undefined name findCompatibleVersion); MOST_RECENT fails for negative versions. The rest is proved."),
 ("C21","proved",["C21_restored","C21_not_visible_outside","C21_new_silo_empty","C21_false_explicit_silo"],
  "The outer silo is unchanged unless the block names it with reuse=True. An explicit DEFINITIONS_SILO_NAME always raises."),
 ("C22","proved",["C22_roundtrip","C22_accepts_iff","C22_rejects","C22_codec"],""),
 ("C53","partial",["C53_outcomes","C53_false_two_versions"],
  "The last clause is false: another version always raises NameError. Exact outcome of every sequence proved."),
 ("C23","proved",["C23_refines_fifo","C23_conservation","C23_peek_is_next_read","C23_peek_zero"],""),
 ("C24","partial",["C24_within_buffers_partial","C24_false_boundary","C24_false_empty"],
  "False: a read ending at the boundary of two updates; and the empty result is '' instead of b''. Proved for the exact class of histories stated."),
 ("C25","proved",["C25_address_roundtrip","C25_block_roundtrip","C25_address_accepts_iff","C25_block_accepts_iff","C25_equality","C25_false_isValid"],
  "C25_false_isValid: IsValidAddressString accepts strings FromString rejects (negative parts)."),
 ("C26","proved",["C26_chain","C26_isParentBlock_iff","C26_parents_are_ancestors","C26_parent_is_parent","C26_spawn","Addr.C26_prefix","C26_false_noncanonical","Addr.C26_false_prefix"],
  "For addresses. For blocks with a wild card before a number the chain is different (C26_false_noncanonical)."),
 ("C27","proved",["C27_no_error","C27_links","C27_links_block","C27_fuel","SwNet.C27_forward","SwNet.C27_batching","C27_false_noncanonical"],
  "A registration whose string is not the canonical one (01.1.1.1) never receives anything (C27_false_noncanonical)."),
 ("C28","partial",["C28_ignored_partial","C28_valid_registered","C28_raises_iff","SwNet.C28_net_ignored_partial","C28_false_negative","SwNet.C28_false_postponed"],
  "False for addresses with a negative part: they are registered, and as destination they raise inside the packet loop, which postpones the rest of the chunk. Proved for all other strings."),
 ("C29","partial",["Frag.C29_sender","Frag.C29_sender_small","Frag.C29_chunk_iff","Frag.C29_reassembled_partial","Frag.C29_false_stale"],
  "False: when one chunk of bytes completes a message and then holds an incomplete fragment, the old data is delivered again under the new header. Proved for every history without that (exact characterisation C29_chunk_iff)."),
 ("C30","partial",["Frag.C30_independent_partial","Frag.C30_unfragmented_partial","Frag.C30_false_same_id"],
  "False when two senders pick the same 32 bit fragment identifier; proved when identifiers differ."),
 ("C31","proved",["Vnic.C31_unique","Vnic.C31_outbound","Vnic.C31_exhausted","Vnic.C31_listen"],""),
 ("C32","proved",["Vnic.C32_stream","Vnic.C32_own","Vnic.C32_now","Vnic.C32_attach"],
  "A connection whose callback connection never gets attached keeps its data."),
 ("C33","proved",["Vnic.C33_accepts","Vnic.C33_dropped"],""),
 ("C34","partial",["Vnic.C34_close_packet_partial","Vnic.C34_control_lost_partial","Vnic.C34_idempotent","Vnic.C34_false_opening"],
  "False for connections whose callback connection is still being opened; everything else proved."),
 ("C35","partial",["Vnic.C35_response_partial","Vnic.C35_only","Vnic.C35_false_other","Vnic.C35_refused_keeps_id"],
  "False for an open packet with both or none of connect and listen data, and for connect when all ports are in use (C31_exhausted); proved for all other requests."),
 ("C36","partial",["Cli.C36_ids","Cli.C36_future","Cli.C36_unknown_response","Cli.C36_unknown_id","Cli.C36_at_most_once","Cli.C36_announced","Cli.C36_false_unknown_announcement","Cli.C36_second_announcement"],
   "Everything except the last clause: an announcement with an id the client never sent raises KeyError (C36_false_unknown_announcement); cancelled futures are excluded from at-most-once."),
 ("C37","partial",["Callback.C37_stream","Callback.C37_connection_first_partial","Callback.C37_announcement_first_partial","Callback.C37_false_same_port","Callback.C37_false_lost"],
   "C37_stream holds for every history; pairing in either order is proved when the TCP port number is not reused meanwhile and the connection is not lost before; both restrictions are necessary (the two _false_ theorems)."),
 ("C38","partial",["Prom.C38_announced_partial","Prom.C38_level_partial","Prom.C38_switch","Prom.C38_false_reopen"],
   "All levels and addresses and all histories in which a new switch connection is opened only when there is none, as launch_vnic does; C38_false_reopen shows what happens otherwise."),
 ("C39","proved",["Wan.C39_real","Wan.C39_direct","Wan.C39_prefixes"],""),
 ("C40","partial",["Wan.C40_shortest_partial","Wan.C40_unreachable_partial","Wan.C40_self","Wan.C40_false_failed"],
   "All graphs and histories, for different prefixes, as long as the last setDirectConnections did not fail half way (C40_false_failed shows the restriction is necessary); routes from a prefix to itself are C40_self."),
 ("C41","partial",["Wan.C41_follow_partial","Wan.C41_no_loop_partial","Wan.C41_no_route"],
   "Under the same restriction as C40."),
 ("C42","proved",["Timer.C42_not_early","Timer.C42_extended","Timer.C42_cancelled","Timer.C42_expired","Timer.C42_exact","Timer.C42_extension","Timer.C42_false_reuse"],
   "For a timer that is started once; using it again after it was called is C42_false_reuse. The first four hold for any event loop, however late; C42_exact gives the exact time for a loop that is never late."),
 ("C43","partial",["Lines.C43_lines_partial","Lines.C43_chunking_partial","Lines.C43_sent","Lines.C43_conserved","Lines.C43_false_boundary","Lines.C43_false_handler"],
   "Any non-empty delimiter and maximum, all data and chunkings, for lines that with all but one byte of the delimiter are within the maximum (C43_false_boundary: else it depends on the cut) and a handler that returns nothing (C43_false_handler)."),
 ("C46","partial",["Obs.C46_methods","Obs.C46_sent_partial","Obs.C46_false_late","Obs.C46_false_shared","Obs.C46_false_twice"],
   "Connection and received data: all histories. Sent data: histories in which protocols and transports are paired one to one and the listener was there when the connection was made; each restriction is necessary (the _false_ theorems)."),
 ("C47","partial",["Stack.C47_order","Stack.C47_attached","Stack.C47_data","Stack.C47_end_to_end","Stack.C47_false_empty","Stack.C47_false_nested"],
   "Layers are arbitrary transducers, each direction with its own state and not re-entered while it passes on data (for layers in general see C80); false for empty stacks and for stacks used as layers of stacks."),
 ("C48","partial",["Unrel.C48_exact","Unrel.C48_lengths","Unrel.C48_cut_partial","Unrel.C48_delay_all","Unrel.C48_delay_order","Unrel.C48_false_cut","Unrel.C48_false_settings"],
   "All writes and draws as long as the error rate is not changed in the middle (C48_false_settings); independence of the cut holds up to the horizon and not beyond (C48_false_cut), where C48_exact gives the exact result. Also the delaying transport."),
 ("C45","partial",["Cipher.C45_roundtrip_partial","Cipher.C45_length","Cipher.C45_rejects","Cipher.C45_short","Cipher.C45_authentic","Cipher.C45_false_same_object","Cipher.C45_false_second"],
   "Round trip between two new objects with the same keys, any good block cipher and MAC; the same object raises AlreadyFinalized because decrypt finalizes the encrypter, and each object handles one message only."),
 ("C49","partial",["Routes.C49_table","Routes.C49_lookup_partial","Routes.C49_destroyed","Routes.C49_false_bad_route","Routes.C49_false_removed"],
   "Lookups are proved when all routes are address blocks; addRoute accepts anything, and a bad route makes lookups raise; removeRoute is not saved, so a removed route is back after a restart."),
 ("C50","partial",["Device.C50_enabled_only","Device.C50_only_self","Device.C50_enable_outcome","Device.C50_enable_works","Device.C50_disable_partial","Device.C50_disable_fails","Device.C50_restart","Device.C50_false_waiting","Device.C50_false_disable_waiting","Device.C50_false_dependants","Device.C50_false_crashed"],
   "All histories of calls, crashes and restarts; false for waiting devices, for devices that depend on a device that is disabled, and for disabling a device whose process crashed."),
 ("C44","partial",["Spmp.C44_unauthorized","Spmp.C44_unauthorized_silent","Spmp.C44_only_authorized","Spmp.C44_each_once_partial","Spmp.C44_client_partial","Spmp.C44_end_to_end_partial","Spmp.Fits.plain","Spmp.C44_hidden","Spmp.C44_hidden_errors","Spmp.C44_hidden_once_partial","Spmp.C44_hidden_raise","Spmp.C44_false_silent","Spmp.C44_false_long","Spmp.C44_false_stale","Spmp.C44_false_no_args"],
   "The part about unauthorized peers holds for all bytes. One response for each authorized request is proved for requests and responses within the limits of the format (Fits); a result that is too long gets no response, an exception without a message is reported as success, a query with a random id used before returns the old answer, a request without arguments raises. On a connection of another protocol, a packet that raises ends the call: those behind it wait for the next data (C44_hidden_raise)."),
 ("C51","proved",["C51_nextPackets_terminates","C51_events_bounded"],""),
 ("C54","partial",["C54_format","C54_prefix","C54_any_chunking","C54_no_premature","C54_only_frames","C54_no_magic_no_packet","C54_resync_partial","C54_false_nonascii","C54_false_resync"],
  "Proved for every list of packets with ASCII strings and without packets inside, and every chunking; false for other strings (as C01). Also proved for all byte streams: every packet delivered has an intact frame of its own. After garbage a frame may be lost (witness); it is not lost if all bytes are there before the first nextPackets()."),
 ("C55","partial",["C55_wrong_length_error","C55_padding_skipped"],
  "For packets with ASCII strings within the limits of C01, and for the skipping a next packet of different length (else C05_false_equal_length applies)."),
 ("C56","partial",["WanNet.C56_local","WanNet.C56_only_neighbours","WanNet.C56_never_beyond_next_hop","WanNet.C56_direct_partial","WanNet.C56_overheard","WanNet.C56_unlocated","WanNet.C56_reannounce","WanNet.C56_no_key_error","WanNet.C56_false_multihop","WanNet.C56_false_once","WanNet.C56_false_removed","WanNet.C56_false_zero","WanNet.C56_false_lost_announcement"],
  "Within a prefix and for devices without a location: as stated, for all histories. Between direct neighbours: at least one copy when nothing is lost (C56_direct_partial; two copies are possible, C56_false_once). Packets never get further than one hop (C56_never_beyond_next_hop), so that the property is false for longer routes."),
 ("C57","partial",["Spmp.C57_prefix","Spmp.C57_complete","Spmp.C57_demux","Spmp.C57_wrap","Spmp.C57_written","Spmp.C57_device_partial","Spmp.C57_client_partial","Spmp.C57_end_to_end_partial","Spmp.C57_unauthorized","Spmp.C57_only_authorized","Spmp.C57_raises","Spmp.C57_false_stuck","Spmp.C57_false_unset"],
  "The demultiplexing holds for all protocols, also raising ones (C57_prefix), completely as long as none raises (C57_complete, C57_false_stuck). The requests are restricted as in C44, packets to those of C54. The part about unauthorized peers holds for all bytes. A wrapper without payload destroys a request that has partly arrived (C57_false_unset)."),
 ("C58","partial",["Link.C58_network","Link.C58_routed_unique","Link.C58_received","Link.C58_received_sofar","Link.C58_delivered_sofar","Link.C58_delivered_small","Link.C58_delivered_alone","Link.C58_delivered_large_partial","Link.C58_reaches","Link.C58_can_drain","Link.C58_false_stale","Link.C58_false_uncalm"],
  "C58_network holds for all histories. Messages of at most 2^16 bytes are delivered unconditionally (while the receiver stays registered and no destination makes the switch raise, C58_false_uncalm). For larger ones, C58_delivered_alone needs that no other message is routed to the receiver meanwhile, C58_delivered_large_partial that chunks to the receiver have at most 67 bytes, and both that the fragment identifier is not in use: the reassembly uses a stale packet when a chunk ends several packets (C58_false_stale, C29)."),
 ("C59","partial",["Pnms.C59_commands_partial","Pnms.C59_all_commands","Pnms.C59_step_unique","Pnms.C59_steps_unique","Pnms.C59_closed","Pnms.C59_crash_partial","Pnms.C59_false_removed_route","Pnms.C59_false_case","Pnms.C59_false_crash","Pnms.C59_false_remove_crash"],
  "For names and routes in lower case. C59_commands_partial excludes the command that removes a route, whose effect is lost when the process ends (C59_false_removed_route; C59_all_commands says what happens with it). A device whose name is not in lower case can be added and then no command works any more (C59_false_case). Crashes: C59_crash_partial excludes `remove` (C59_false_remove_crash) and the moment when the file is truncated (C59_false_crash)."),
 ("C60","partial",["E2E.C60_stream_sofar","E2E.C60_stream","E2E.C60_source","E2E.C60_sockets","E2E.C60_distinct","E2E.C60_can_arrive","E2E.C60_unseen","E2E.C60_stays_open","E2E.C60_false_told","E2E.C60_false_nobody","E2E.C60_false_middle","E2E.C60_false_hijack"],
  "Proved while the receiving VNIC stays attached, not promiscuous, and its connection is open (or accepted) throughout, for writes of at most 2^16 bytes (larger ones: C58_false_stale). The stream is only from one VNIC if no other uses the key: C60_sockets derives this without raw packets and promiscuous VNICs; otherwise C60_false_hijack. The other end is never told of a connect or close (C60_unseen, C60_stays_open, C60_false_told, C60_false_nobody), so a stream can begin in the middle (C60_false_middle)."),
 ("C61","partial",["Connect.C61_own_partial","Connect.C61_one_vnic","Connect.C61_false_two_vnics","Connect.C61_false_concurrent","Connect.C61_false_late"],
  "Proved if no call over another control connection uses the same connection id, hence for one control connection. Ids are counted per control connection but looked up in one callback service, so with two VNICs, or a server and a client started at the same time, a call returns the application of another (C61_false_two_vnics, C61_false_concurrent). After a timeout the connection may still come up (C61_false_late)."),
 ("C62","partial",["Connect.C62_completes_partial","Connect.C62_direct_partial","Connect.C62_stuck","Connect.C62_false_lost_wakeup","Connect.C62_false_closed_early","Connect.C62_dial_failed","Connect.C62_dead_control"],
  "Proved if never two calls wait for callback connections, or if the callback connection is there first. Otherwise false: the notification goes to the wrong call, which waits again (C62_stuck, C62_false_lost_wakeup); a connection closed early (C62_false_closed_early); after a failed dial all later calls poll forever (C62_dial_failed); after a lost control connection all later calls time out (C62_dead_control)."),
 ("C63","partial",["Connect.C63_close_partial","Connect.C63_one_vnic","Connect.C63_once","Connect.C63_false_two_vnics","Connect.C63_false_late"],
  "Under the hypothesis of C61; otherwise C63_false_two_vnics. A connection announced before the close whose callback connection comes after it stays open (C63_false_late)."),
 ("C64","partial",["Host.C64_pair","Host.C64_one","Host.C64_in","Host.C64_out","Host.C64_client_partial","Host.C64_client_one","Host.C64_in_can","Host.C64_out_can","Host.C64_server","Host.C64_no_early"],
  "Model/Host.lean puts the VNIC (C32-C36) and the connector (C61-C63) together. Proved for one connector process with all its locations at one VNIC and any number of other processes; the returned connection under the condition of C61, without it for one control connection."),
 ("C65","partial",["Apps.C65_sofar","Apps.C65_all","Apps.C65_can","Apps.C65_between","Apps.C65_to_server","Apps.C65_to_client"],
  "Model/Apps.lean puts C60 and C64 together. C65_can: all that was written can still arrive (a continuation exists in which bytes only arrive). Proved while both VNICs stay attached, no VNIC is promiscuous or sends raw packets, the address of the writing VNIC is its own, its port is not reused for the same destination, and bytes reach a VNIC in pieces of at most 65536 (larger ones are fragmented and break as in C29). C60_false_hijack and C60_false_middle show what happens otherwise."),
 ("C66","partial",["Shell.C66_space","Shlex.C66_words","Shlex.C66_one_reading","Shlex.C66_bad_line","Shlex.C66_typed","Shell.C66_one","Shell.C66_runs","Shell.C66_refused","Shell.C66_nothing","Shell.C66_frame","Shell.C66_typed_means","Shell.C66_keeps","Shell.C66_register","Shell.C66_configure","Shell.C66_configureSub","Shell.C66_builtin","Shell.C66_help","Shell.C66_end_to_end","Shell.C66_false_empty","Shell.C66_false_blank"],
  "Proved with what the shell does to a line before: white space at the ends and empty words are removed. So an empty argument cannot be given (C66_false_empty) and a line that ends in an escaped blank fails (C66_false_blank). shlex.split is modelled from the standard library."),
 ("C67","partial",["Shell.C67_prefix","Shell.C67_one_file","Shell.C67_order","Shell.C67_over","Shell.C67_progress","Shell.C67_false_plain","Shell.C67_false_help","Shell.C67_false_blank"],
  "Order, prefix, ends and progress are proved. 'All lines run unless one fails' is false: a command that gives nothing to await counts as failed after it ran, as do blank lines (C67_false_plain, C67_false_help, C67_false_blank)."),
 ("C68","partial",["Launch.C68_trace","Launch.C68_at_most_one","Launch.C68_one_partial","Launch.C68_due_partial","Launch.C68_refused","Launch.C68_dials","Launch.C68_accepted","Launch.C68_recovers_partial","Launch.C68_never_closes","Launch.C68_live","Launch.C68_announced","Launch.C68_false_dead"],
  "At most one of link, attempt and timer, the 30 seconds, switch-live and the announcements hold always. That there is always one of them is false when writing the status file raises while a link is lost and its listener comes first in the set: the daemon then never tries again (C68_false_dead). Proved when the write succeeds or the other listener comes first."),
 ("C69","partial",["Launch.C69_file_partial","Launch.C69_written","Launch.C69_visible_partial","Launch.C69_port","Launch.C69_status","Launch.C69_pnms_partial","Launch.C69_false_name","Launch.C69_false_unwritten","Launch.C69_false_cut","Launch.C69_false_moment"],
  "Proved when the writes succeed and the name of the switch does not contain the word disconnected; each condition has a witness that it is needed. The file is emptied before it is written, which a reader can see."),
 ("C70","partial",["Logging.C70_stderr","Logging.C70_file","Logging.C70_once","Logging.C70_playground_partial","Logging.C70_off","Logging.C70_tag","Logging.C70_tag_round","Logging.C70_cmd_long","Logging.C70_false_plain","Logging.C70_false_aux","Logging.C70_false_sticky","Logging.C70_false_unknown","Logging.C70_false_file"],
  "Exactly what is written is proved for every history; it is what the log level says for loggers below playground only. For the others the levels set before matter (filters stay attached to the stderr handler, added modules stay), loggers without a dot are never written, and levels that raise change what is written: witnesses."),
 ("C71","partial",["Service.C71_get_partial","Service.C71_first_partial","Service.C71_family","Service.C71_plain","Service.C71_scheme","Service.C71_two","Service.C71_create","Service.C71_serve","Service.C71_false_nopath","Service.C71_false_dies","Service.C71_false_failed_reload","Service.C71_false_syspath"],
  "Proved for all histories in which no load was broken off in the middle. Without a Playground directory every call raises, also for connectors the program set (C71_false_nopath); after a load broken off by sys.exit() or an unreadable directory the program's connectors are treated as the modules' (C71_false_dies); a forced reload that raises loses the modules' connectors for good (C71_false_failed_reload)."),
 ("C72","proved",["Config.C72_current","Config.C72_add","Config.C72_initialize"],"All sequences of custom paths, environments and file systems."),
 ("C73","partial",["Config.C73_frame","Config.C73_read_only","Config.C73_open","Config.C73_saved","Config.C73_reload_partial","Config.C73_false_stale","Config.C73_false_lost","Config.C73_read_overwrites","Config.C73_path","Config.C73_distinct","Config.C73_false_names"],
  "Everything but reload is proved. reload compares the time of the file always with the time of opening: it shows changes with a later time only (C73_false_stale), and throws away unsaved changes as soon as the file has ever changed since opening, also by its own save (C73_false_lost)."),
 ("C74","partial",["WanApi.C74_calls","WanApi.C74_route","WanApi.C74_shortest_partial","WanApi.C74_text","WanApi.C74_add","WanApi.C74_direct","WanApi.C74_direct_refused","WanApi.C74_location","WanApi.C74_no_connection","WanApi.C74_routes","WanApi.C74_connections","WanApi.C74_reads","WanApi.C74_settings","WanApi.C74_managed_partial","WanApi.C74_remote","WanApi.C74_false_atomic","WanApi.C74_false_remove","WanApi.C74_false_location","WanApi.C74_false_shortest"],
  "Proved for all histories, except: add-switches registers the prefixes before the first bad one and then fails (C74_false_atomic); remove-switches answers as if it had worked and does nothing (C74_false_remove); set-location to a prefix that is not registered answers Changed and cuts the device off (C74_false_location); a set-direct-connections that fails leaves the direct connections it made, but not the routes (C74_false_shortest), so C74_shortest_partial asks that the last one did not fail so. C74_managed_partial is about one connection with requests whose serialization is short enough for the framing."),
 ("C75","partial",["SwitchApi.C75_settings","SwitchApi.C75_set","SwitchApi.C75_reads","SwitchApi.C75_reliable_verbs","SwitchApi.C75_frame","SwitchApi.C75_receivers","SwitchApi.C75_connected","SwitchApi.C75_unchanged","SwitchApi.C75_reliable","SwitchApi.C75_delayed","SwitchApi.C75_exactly","SwitchApi.C75_lengths","SwitchApi.C75_once","SwitchApi.C75_errors_partial","SwitchApi.C75_managed_partial","SwitchApi.C75_false_rate","SwitchApi.C75_false_impossible","SwitchApi.C75_false_change","SwitchApi.C75_false_delay"],
  "Settings, routing, at-most-once, and delivery with no errors are proved for all histories. False: a device that announces itself again gets a second pair of transports, so errors and delays apply twice or cancel (C75_false_rate, C75_false_delay); a negative horizon is accepted and then packets and announcements are lost (C75_false_impossible); a change of the error rate can lose packets altogether (C75_false_change). So C75_errors_partial asks for one announcement and a rate that stays the same. C75_managed_partial is about requests whose serialization is short enough for the framing."),
 ("C76","partial",["Choose.C76_connect_partial","Choose.C76_text","Choose.C76_localhost","Choose.C76_named","Choose.C76_server_default","Choose.C76_server_host","Choose.C76_raw","Choose.C76_reads","Choose.C76_removed","Choose.C76_false_localhost","Choose.C76_false_stale","Choose.C76_false_host","Choose.C76_false_bad_route","Choose.C76_false_raw","Choose.C76_false_disabled","Choose.C76_false_named_switch"],
  "Proved for a service made after any commands (names in lower case, as in C59), if all routes are address blocks. False: one route that is no address block makes all connections fail (C76_false_bad_route); localhost goes through the interface that the routes give for its address, not the default one (C76_false_localhost); the configuration is read once in a process (C76_false_stale); a connection through an interface that is not enabled goes to (None, None), and the next one through any such interface waits forever (C76_false_disabled); the host of a server is compared as a string (C76_false_host); raw_vnic_connection fails for every name (C76_false_raw); the name of an access point is taken for that of an interface (C76_false_named_switch)."),
 ("C77","partial",["Power.C77_on_partial","Power.C77_on_only","Power.C77_on_twice","Power.C77_off","Power.C77_off_works","Power.C77_status","Power.C77_load","Power.C77_enable_message","Power.C77_disable","Power.C77_false_once","Power.C77_false_status","Power.C77_false_rest","Power.C77_false_off","Power.C77_false_removed"],
  "Proved exactly, for every history: what runs after on, off, enable, disable and a command that only looks. False: after the process of a switch has died, on starts it again and ends the interfaces on it (C77_false_once; a second on repairs it: C77_on_twice), and so does any other command (C77_false_status); the first device that raises ends on and off (C77_false_rest, C77_false_off); a removed device keeps running and off does not reach it (C77_false_removed)."),
 ("C78","partial",["Mock.C78_loop","Mock.C78_loop_complete","Mock.C78_data","Mock.C78_no_exceptions","Mock.C78_closed_partial","Mock.C78_closed_once","Mock.C78_count","Mock.C78_stream","Mock.C78_delayed_partial","Mock.C78_false_delay","Mock.C78_false_pending","Mock.C78_false_told","Mock.C78_false_talk","Mock.C78_false_exception"],
  "Proved for pairs and streams without delays, with arbitrary protocols that may call the transports while they are called, and for the loop. False: a delay with the test loop never delivers data, because call_later takes the bytes for the list of arguments (C78_false_delay; with a loop like asyncio's, C78_delayed_partial); data under way when the other end closes is lost with an exception (C78_false_pending); a protocol that raises in connection_lost keeps the other from being told (C78_false_told); a conversation without end is a RecursionError (C78_false_talk); a function that raises keeps the other due ones from running in this call (C78_false_exception)."),
 ("C79","partial",["VnicApi.C79_level","VnicApi.C79_packet","VnicApi.C79_set","VnicApi.C79_announced","VnicApi.C79_live","VnicApi.C79_dials","VnicApi.C79_quiet","VnicApi.C79_log","VnicApi.C79_setLog","VnicApi.C79_log_means_partial","VnicApi.C79_verbs","VnicApi.C79_arguments","VnicApi.C79_same_partial","VnicApi.C79_managed_partial","VnicApi.C79_false_level","VnicApi.C79_false_refused","VnicApi.C79_false_same","VnicApi.C79_false_halfway"],
  "Proved for all histories, and through the protocol with packets within the limits of the format. False: before the first set-log-level the answer is NONE although everything is logged (C79_false_level); a refused set-log-level turns logging off and get-log-level still answers the level before (C79_false_refused), or leaves it half changed (C79_false_halfway); the first request for level 0, which is the level, announces the address again (C79_false_same)."),
 ("C80","partial",["StackRun.C80_local","StackRun.C80_interfaces","StackRun.C80_composed","StackRun.C80_calm","StackRun.C80_composed_calm","StackRun.C80_plain","StackRun.C80_packet_prefix","StackRun.C80_packet_all","StackRun.C80_packet_stack","StackRun.C80_false_reentered","StackRun.C80_false_exception"],
  "Proved for histories without exceptions. False with them: the callback connection catches the exception of a protocol and goes on, so that data in the middle of the stream is lost (C80_false_exception). A layer that passes up several pieces need only work in calm histories (not re-entered from below) if the transports of the stack do not call up (C80_calm); in others it reorders (C80_false_reentered)."),
 ("C81","partial",["C81_read_exact","C81_relay","C81_nearest","C81_overflow","C81_error","C81_order","C81_singles","C81_accepted","C81_limits","C81_packet","C81_packet_iff","C81_still_accepted","C81_false_changed","C81_false_refused","C81_false_unsendable","C81_false_range"],
  "False in part: the Bits validators limit FLOAT32 to numbers up to 2^32 - 1 (FLOAT64 to 2^64 - 1) but have no lower limit; 4294967295.0 in a FLOAT32 field is accepted, rounded to 2^32 when sent and refused by every receiver; -1e39 is accepted and cannot be sent. Proved: the exact set of accepted numbers, IEEE rounding (nearest, even), exactness of widening, order, error bound, and for whole packets that they arrive with exactly the FLOAT32 numbers rounded."),
 ("C82","partial",["C82_valid","C82_relay","C82_relay_same","C82_relay_flat","C82_false_required"],
  "False in part: a packet may arrive without its required fields; it can be read but not sent on. Proved for all bytes and histories: class, validity of all values, depth; the exact conditions for sending on."),
 ("C83","partial",["Extra.C83_inherits","Extra.C83_own","Extra.C83_layers","Extra.C83_keeps","Extra.C83_app","Extra.C83_client","Extra.C83_server","Apps.C83_mirror","Apps.C83_both","Extra.C83_false_shared","Extra.C83_false_default","Extra.C83_false_late","Apps.Ex.C83_false_forged"],
  "False in part: a dictionary given to two StackingTransports is shared (the second reports the first's addresses), the default of get_extra_info is ignored for names the lower transport lacks, and a process can send raw packets with any source, so that a server sees an address that no VNIC has. Proved: inheritance through any number of layers, stability, and for every history that applications see the addresses of their sockets, client and server mirrored."),
 ("C84","partial",["Alias.C84_lists_belong","Alias.C84_typed","Alias.C84_struct","Alias.C84_local","Alias.C84_apart","Alias.C84_history","Alias.C84_new","Alias.C84_copy","Alias.C84_fields_apart","Alias.C84_self","Alias.C84_copy_std","Alias.Ex.C84_false_shared","Alias.Ex.C84_false_depends","Alias.Ex.C84_false_nan","Alias.Ex.C84_false_zero","Alias.Ex.C84_false_refused"],
  "False in part: a struct assigned to two packets is one object, shared by both; whether the structs of a list are shared after p.l = q.l depends on whether the lists were equal before; p.l = p.l empties a list with a NaN; -0.0 is not copied over 0.0; a refused list assignment loses the old elements and keeps the refused one. Proved for every history: no two places hold the same list, an operation changes only what its target is part of, packets that share nothing stay apart, p.l = q.l makes equal values, new packets are apart from all others."),
 ("C85","partial",["Cli.C85_usage","Cli.C85_usage_unique","Cli.C85_history_partial","Cli.C85_success_partial","Cli.C85_status_partial","Cli.C85_preinit","Cli.C85_unknown_partial","Cli.C85_false_status_device","Cli.C85_false_routes","Cli.C85_false_upper","Cli.C85_false_zero","Cli.C85_false_port","Cli.C85_false_stale_pid"],
  "False in part: `status <device>` and `routes` fail whatever the network is; a command that raises has exit status 0 when the user answers the question about the stack trace; a port that is no number is accepted and then status fails for all devices; a device that does not run is shown with the number of a dead process. Proved, for names in lower case: which calls are understood, that any history of calls leaves the network that they were meant to make (but for C59's lost route removals), which configuring commands succeed, and that status reports exactly the devices, each as it should, if what it reads is there. Arguments that begin with - are not modelled."),
 ("C86","partial",["C86_iff","C86_symm","C86_trans","C86_self_partial","C86_limited","C86_bytes_partial","C86_sent_partial","C86_two_partial","C86_false_sent","C86_false_bytes","C86_false_self"],
  "False in part: a packet with a NaN is not equal to itself (a float field without limits accepts it; with limits it is refused, but stays: C10); packets with 0.0 and -0.0 are equal and have different bytes; 0.1 in a FLOAT32 field is not equal to what arrives. Proved: == is exactly sameness of class and contents with numbers compared by value, it is symmetric and transitive, reflexive exactly without NaN (so always where float fields have limits and values are accepted); equal packets without zero floats have the same bytes; what arrives is equal exactly without NaN and with singles in fields of 32 bits. The recursion limit of Python is not in this model (it is in that of C84)."),
 ("C87","partial",["C87_last_partial","C87_value","C87_order_partial","C87_permuted_partial","C87_serialized","C87_false_struct","C87_false_order"],
  "False in part: a struct that comes twice is merged (the receiver has a struct nobody wrote), and with a packet inside the order matters (a buffer before it is read, the same buffer behind it is not: C13). Proved for all fields without packets inside, ASCII strings and singles (as C01), any order and repetition; structs by the merge, everything else by the last value. The order inside of a struct is that of __serialize__."),
 ("C88","partial",["Spmp.Ask.C88_own","Spmp.Ask.C88_settles","Spmp.Ask.C88_idle","Spmp.Ask.C88_in_order_partial","Spmp.Ask.C88_alone_partial","Spmp.Ask.C88_returns_in_order_partial","Spmp.Ask.C88_stream_partial","Spmp.Ask.C88_stuck","Spmp.Ask.C88_false_overtaken","Spmp.Ask.C88_false_unanswered","Spmp.Ask.C88_false_cancelled","Spmp.Ask.C88_false_lost"],
  "What is returned is always the own answer (all histories). That an answered call returns is false in part: a response wakes only the first waiter, so responses in another order, a request without answer, or a cancelled call leave another call waiting for ever although its response is there, and a lost connection wakes nobody (witnesses). Proved for responses in the order of the requests (from the bytes in any chunks, any number of calls), and for one call at a time with any responses."),
 ("C89","partial",["Shell.C89_names_partial","Shell.C89_files_partial","Shell.C89_other_partial","Shell.C89_extends_partial","Shell.C89_entered_partial","Shell.C89_false_none","Shell.C89_false_relative","Shell.C89_false_quoting","Shell.C89_false_blank","Shell.C89_false_slashes"],
  "Exactness for names without blanks, at any depth, and for files. False in part (witnesses): a name with a blank is not completed; a path without a directory or with ~ is replaced by another text; a file name with a blank is offered without quotes and cannot be entered; at the end of the list a TypeError is raised where None is meant."),
 ("C90","partial",["Stdio.C90_told","Stdio.C90_all_told","Stdio.C90_one_at_a_time_partial","Stdio.C90_closed","Stdio.C90_ends","Stdio.C90_next_partial","Stdio.C90_false_other","Stdio.C90_false_stop","Stdio.C90_false_early","Stdio.C90_false_close"],
  "Order, exactly once, connected first and lost last: all schedules. One command at a time and the next prompt: while the event loop does not stop; false if it stops and starts again, if a command returns a true value that is no future (the user is never asked again: a theorem for all continuations), and if the terminal is made before the event loop runs. After closing no prompt; but the line being typed still runs (witness)."),
 ("C91","partial",["Spmp.AskNet.C91_own_partial","Spmp.AskNet.C91_returns_partial","Spmp.AskNet.C91_settles","Spmp.AskNet.C91_quiet","Spmp.AskNet.C91_completes_partial","Spmp.AskNet.C91_false_refused","Spmp.AskNet.C91_false_same_id"],
  "For authorized requests with different ids, requests and responses within the limits of the format, all interleavings and chunkings. False otherwise: a refused call never returns (for all continuations), a call whose random id was used before returns the old answer at once. Long results: C44_false_long. Lost connections and cancelled calls: C88."),
 ("C92","partial",["Vnic.C92_seen","Vnic.C92_unnoticed","Vnic.C92_raw","Vnic.C92_false_outgoing","Link.C92_false_write"],
  "For arriving packets: all histories. Packets that go out are not copied (C92_false_outgoing). Raw packets are accepted from every control connection with any source address (C92_raw), but VNICDumpProtocol.write, the client for it, raises for all arguments (C92_false_write)."),
 ("C93","partial",["Control.C93_carried_out_partial","Control.C93_commands","Control.C93_any","Control.C93_false_neither","Control.C93_false_slips","Control.C93_false_swallowed","Control.C93_false_after_raw"],
  "Without raw packets it holds for all sequences (C93_commands). A raw packet is written in a frame but read by a Deserializer without frames, which resynchronises unless the last byte of the checksum of the frame is the complement of the last byte of the size: then the packet is lost (C93_false_slips), possibly with the commands behind it (C93_false_swallowed); so is a command of size 175 directly behind a raw packet (C93_false_after_raw). For all other sizes it is proved (C93_carried_out_partial)."),
 ("C94","partial",["Session.C94_conversation","Session.C94_future","Session.C94_listen_partial","Session.C94_connect_partial","Session.C94_false_cancelled"],
  "Proved for all histories without cancelled futures, for values that fit their fields; listen needs that the VNIC does not hang in its search for a free port. With a cancelled future it is false: its answer makes the handler raise, and the answers behind it in the chunk wait for the next chunk (C94_false_cancelled)."),
 ("C95","partial",["Deferred.C95_calls_partial","Deferred.C95_once","Deferred.C95_falsy_never","Deferred.C95_false_falsy"],
  "Proved for all histories whose result or exception is a true value. False for false values (0, the empty string, None, an exception class with a false truth value): the wrapper tests the value itself, so no function is ever called (C95_falsy_never, C95_false_falsy)."),
 ("C96","partial",["Section.C96_plain","Section.C96_readOnly_partial","Section.C96_write","Section.C96_false_delete","Section.C96_false_update","Section.C96_read","Section.C96_false_in"],
  "Proved for all histories in which read-only views are used for reads, assignment and save. False for del, which has no check, and for update, setdefault, pop, clear and rawSection, which are passed on to the section (C96_false_delete, C96_false_update), and for `in` with capitals (C96_false_in)."),
 ("C97","partial",["Dispatch.C97_nearest","Dispatch.C97_none","Dispatch.C97_register","Dispatch.C97_derived","Dispatch.C97_data","Dispatch.C97_builtin","Dispatch.C97_lists","Dispatch.C97_classes","Dispatch.C97_packets_partial","Dispatch.C97_simple","Dispatch.C97_false_mixed","Dispatch.C97_false_list"],
  "Proved: the nearest registered type decides (by distance), registration, all single derivations, and further bases for which nothing is registered. False with bases for which something else is registered: a packet class whose first base is a struct class is sent as a struct where it is the type of a field (C97_false_mixed); and a list of a packet class itself is handed to the encoder of packets (C97_false_list)."),
 ("C98","partial",["C98_roundtrip_partial","C98_flat_partial","C98_truncated","C98_false_string","C98_false_nested"],
  "Proved for ASCII strings and singles, and where behind a packet no string or buffer is longer than it. False otherwise (C98_false_string, C98_false_nested), as for C01."),
 ("C99","partial",["Seekable.C99_file_partial","Seekable.C99_rest","Seekable.C99_span","Seekable.C99_length","Seekable.C99_negative","Seekable.C99_cur","Seekable.C99_closed","Seekable.C99_false_span","Seekable.C99_false_calls"],
  "Proved for all programs whose reads stay in one buffer or take everything and that seek absolutely or from the end; and exactly what every other call does. False for reads over the end of a buffer, which go on at the beginning of the stream (C99_false_span, characterised by C99_span), SEEK_CUR, read(0), positions below zero and after close (C99_false_calls)."),
 ("C100","partial",["Connect.C100_sockets_partial","Connect.C100_one_vnic","Connect.C100_name","Connect.C100_false_names","Connect.C100_false_dead","Connect.C100_false_two_vnics"],
  "Proved: which connections are listed, for all histories in which connection ids are not used over two control connections, and always with one VNIC. False: the sockets of connections are named by a protocol object (C100_false_names), connections lost before their announcement stay listed (C100_false_dead), with two VNICs those of the other server are listed (C100_false_two_vnics)."),
 ("C101","partial",["Proc.C101_alive","Proc.C101_lines","Proc.C101_running","Proc.C101_wait","Proc.C101_shutdown","Proc.C101_shutdown_none","Proc.C101_refines","Proc.C101_launch","Proc.C101_launch_else","Proc.C101_false_died","Proc.C101_false_header","Proc.C101_false_reuse","Proc.C101_false_empty"],
  "Proved for every ps with a header that begins with PID and for all behaviours of the processes, and shown to be what C50 assumes of the end (C101_refines) and the start (C101_launch) of a process. False: a process that dies while it starts makes the start raise (C101_false_died),  with another header alive and dead are swapped (C101_false_header), a number that is used again is taken for the device's (C101_false_reuse), an empty pid file raises (C101_false_empty), a dead process cannot be shut down (C101_shutdown_none)."),
 ("C102","partial",["C102_loop","C102_complete_partial","C102_bare","C102_false_truncated","C102_false_short"],
  "Proved: it ends in the first turn of its loop or never. False: for every packet cut short anywhere, and every string of fewer than 16 bytes, it never ends."),
 ("C103","partial",["Loader.C103_permitted_partial","Loader.C103_routes_partial","Loader.C103_names","Loader.C103_define","Loader.C103_false_override","Loader.C103_false_inherited","Loader.C103_false_retry"],
  "Proved: names are unique and stand for their class; permissions are those of the class and of all classes above it. False: a class cannot take back what a class above it may (C103_false_override), the name of a class has to be set again in every class below (C103_false_inherited), a failed definition uses up its name (C103_false_retry)."),
 ("C104","partial",["Delegate.C104_write_partial","Delegate.C104_history","Delegate.C104_transparent","Delegate.C104_false_assign"],
  "Proved: exactly which assignments are seen. False: an assignment through an adapter to a name that it does not list is lost (C104_false_assign)."),
 ("C105","partial",["Constant.C105_eq_partial","Constant.C105_tuple","Constant.C105_inverse","Constant.C105_false_raises"],
  "False only for comparisons with what is neither a key nor four values: they raise."),
 ("C106","partial",["Constant.C106_convert","Constant.C106_truth","Constant.C106_text_partial","Constant.C106_text_empty","Constant.C106_states","Constant.C106_false_truth","Constant.C106_false_text"],
  "False: a constant with only a text has no truth value (it raises), and zero has an empty text. Not expressed: that a constant is equal to itself only (object identity)."),
 ("C107","partial",["Cert.C107_accepts","Cert.C107_rejects","Cert.C107_parts","Cert.C107_names","Cert.C107_false_trust","Cert.C107_false_names"],
  "Proved: accepted exactly the chains in which each is signed by the next. False: a key that is not RSA makes it raise instead of False (C107_rejects); of several names of a kind only the last is told. C107_false_trust states what acceptance does not mean."),
 ("C108","partial",["Cert.C108_verifies","Cert.C108_public","Cert.C108_roundtrip_partial","Cert.C108_rejects","Cert.C108_false_size","Cert.C108_false_default"],
  "Proved for keys of 2048 bits. False for every other size: everything that was encrypted is taken for a forgery (C108_false_size). Assumed of the library: GoodPair."),
 ("C109","partial",["Format.C109_first","Format.C109_all_partial","Format.C109_args_partial","Format.C109_ordinary","Format.C109_missing","Format.C109_missing_special","Format.C109_false_percent","Format.C109_false_args"],
  "Proved for the first handler, also when a field has no value; for all handlers if there is no percent sign in the data and no doubled one in the message. False otherwise: each handler changes the record, and the next one formats what it left."),
 ("C110","partial",["RawLines.C110_chunking_partial","RawLines.C110_short","RawLines.C110_bodies","RawLines.C110_false_boundary"],
  "Proved if no line is found too long, and for all divisions if the lines are shorter than the maximum by the delimiter. False for lines of the maximal length: these are lost, with all that follows, when their delimiter comes in two parts."),
 ("C111","partial",["LevelNet.C111_answer_partial","LevelNet.C111_only_partial","LevelNet.C111_mute_partial","LevelNet.C111_level_partial","LevelNet.C111_false_range","LevelNet.C111_false_reopen"],
  "Proved for the levels that fit into the packet's field, a new link being opened only when there is none. False otherwise: with a level such as 256 or -1, which setPromiscuousLevel would take, the client says nothing; and while a second link is being opened the level is set but not answered. Either client waits for ever."),
 ("C112","proved",["Shell.C112_suffix","Shell.C112_usage","Shell.C112_help","Shell.C112_means","Shell.C112_works","Shell.C112_all","Shell.C112_told","Shell.C112_one","Shell.C112_unknown","Shell.C112_raises","Shell.C112_raises_one","Shell.C112_terminal","Shell.C112_terminal_one","Shell.C112_false_cycle","Shell.C112_false_bare"],
  "C112_false_cycle: configureSubcommand accepts the command itself; then help ends in a RecursionError for ever, and lists no command registered later, although they work. C112_false_bare: at the terminal the help of a command with nothing configured raises, as AdvancedStdio.write does for an empty text. The recursion limit counts the nested calls of usageHelp (help) only; formatText is not modelled."),
 ("C113","partial",["Logging.C113_only","Logging.C113_written_partial","Logging.C113_once","Logging.C113_disabled","Logging.C113_false_cleared"],
  "That a handler writes nothing else is proved for all histories; that it writes all messages that are for it, if it was not enabled when clearAllHandlers (or EnablePresetLogging) was called. Otherwise false: the old filter stays attached to it and goes on filtering."),
 ("C114","partial",["Attrs.C114_given","Attrs.C114_value","Attrs.C114_ends","Attrs.C114_valid","Attrs.C114_copy","Attrs.C114_new","Attrs.C114_copies","Attrs.C114_copy_valid_partial","Attrs.C114_false_copy","Attrs.C114_false_bits"],
  "Which attributes and values a field and its copies have is proved in full. False: that a copy takes the same data (a field with Bits n takes 2^n, its copies do not, C114_false_copy), and that what follows from new attributes takes their place (C114_false_bits); which data a copy takes is proved exactly."),
 ("C52","proved",["C52_truncated_never_returns"],""),
]
here=os.path.dirname(os.path.abspath(__file__))
json.dump({"claims":[{"property":p,"status":s,"theorems":["Verif."+x for x in t],"note":n} for p,s,t,n in CLAIMS]},
          open(os.path.join(here,"..","MANIFEST.json"),"w"),indent=1)
