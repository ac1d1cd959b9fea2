{
 "claims": [
  {
   "property": "C01",
   "status": "partial",
   "theorems": [
    "Verif.C01_roundtrip_iff_partial",
    "Verif.C01_roundtrip_flat_partial",
    "Verif.C01_false_truncated_string",
    "Verif.C01_false_nested"
   ],
   "note": "The unconditional claim is false (two witnesses, and C81_false_changed). Proved: exact characterization of the packets that round-trip."
  },
  {
   "property": "C02",
   "status": "proved",
   "theorems": [
    "Verif.C02_any_chunking",
    "Verif.C02_C03_prefix"
   ],
   "note": ""
  },
  {
   "property": "C03",
   "status": "proved",
   "theorems": [
    "Verif.C03_no_premature_packet",
    "Verif.C02_C03_prefix"
   ],
   "note": ""
  },
  {
   "property": "C04",
   "status": "proved",
   "theorems": [
    "Verif.C04_resync"
   ],
   "note": ""
  },
  {
   "property": "C05",
   "status": "partial",
   "theorems": [
    "Verif.C05_unknown_packet_partial",
    "Verif.C05_false_equal_length",
    "Verif.C05_false_late_content"
   ],
   "note": "False in general: (a) a following packet with the same first 8 bytes (same length) is lost, (b) content arriving after the error is parsed as packets. Proved when the whole unknown packet has arrived and the length fields differ."
  },
  {
   "property": "C06",
   "status": "partial",
   "theorems": [
    "Verif.C06_extension_skipped_partial",
    "Verif.C06_false_late_junk",
    "Verif.C06_low_tag_error"
   ],
   "note": "False when the extension bytes arrive after nextPackets() was called; proved when the whole packet is there."
  },
  {
   "property": "C07",
   "status": "proved",
   "theorems": [
    "Verif.C07_tags",
    "Verif.C07_duplicates_refused",
    "Verif.C07_refused_without_duplicates"
   ],
   "note": ""
  },
  {
   "property": "C08",
   "status": "proved",
   "theorems": [
    "Verif.C08_serialized_is_complete",
    "Verif.C08_decoded_may_be_incomplete"
   ],
   "note": ""
  },
  {
   "property": "C09",
   "status": "partial",
   "theorems": [
    "Verif.C09_uint_range",
    "Verif.C09_limits",
    "Verif.C09_assign",
    "Verif.C09_from_float",
    "Verif.C09_uint_wire",
    "Verif.C09_unsigned_roundtrip",
    "Verif.C09_signed_partial",
    "Verif.C09_false_signed"
   ],
   "note": "The unsigned half is proved; the signed half is false (INT8 accepts 200), with the exact ranges proved."
  },
  {
   "property": "C10",
   "status": "partial",
   "theorems": [
    "Verif.C10_rejected_partial",
    "Verif.C10_accepted_is_valid",
    "Verif.C10_false_number",
    "Verif.C10_false_list",
    "Verif.C10_rejected_value_is_sent",
    "Verif.C10_unset_list_comes_back"
   ],
   "note": "False for numbers and lists; proved for all other field types, with the exact resulting state for numbers."
  },
  {
   "property": "C11",
   "status": "partial",
   "theorems": [
    "Verif.C11_strings_iff_ascii_partial",
    "Verif.C11_string_prefix",
    "Verif.C01_false_truncated_string"
   ],
   "note": "False for non-ASCII strings; proved exactly for ASCII ones."
  },
  {
   "property": "C12",
   "status": "proved",
   "theorems": [
    "Verif.C12_header",
    "Verif.C12_prefix_free"
   ],
   "note": ""
  },
  {
   "property": "C13",
   "status": "partial",
   "theorems": [
    "Verif.C13_short_fields_partial",
    "Verif.C13_false"
   ],
   "note": "False; proved for packets whose strings and buffers are short."
  },
  {
   "property": "C14",
   "status": "proved",
   "theorems": [
    "Verif.C14_write",
    "Verif.C14_read",
    "Verif.C14_roundtrip",
    "Verif.C14_false_overread"
   ],
   "note": "Reads that ask for no more than the payload; asking for more when bytes follow the frame over-reads (C14_false_overread)."
  },
  {
   "property": "C15",
   "status": "proved",
   "theorems": [
    "Verif.C15_outcome",
    "Verif.C15_position",
    "Verif.C15_read_raises_start",
    "Verif.C15_read_raises_end",
    "Verif.C15_close_incomplete",
    "Verif.C15_no_progress"
   ],
   "note": "C15_no_progress: after a bad prefix check sum the position is the same magic number again, so a retry fails again."
  },
  {
   "property": "C16",
   "status": "proved",
   "theorems": [
    "Verif.C16_bijection",
    "Verif.C16_inverse_agrees",
    "Verif.C16_assignment",
    "Verif.C16_deletion",
    "Verif.C16_iteration_raises"
   ],
   "note": "Iteration (not part of the claim) always raises AttributeError."
  },
  {
   "property": "C17",
   "status": "proved",
   "theorems": [
    "Verif.C17_immutable",
    "Verif.C17_inverse_inverse"
   ],
   "note": ""
  },
  {
   "property": "C18",
   "status": "proved",
   "theorems": [
    "Verif.C18_flat"
   ],
   "note": ""
  },
  {
   "property": "C19",
   "status": "proved",
   "theorems": [
    "Verif.C19_iteration",
    "Verif.C19_iteration_flat"
   ],
   "note": ""
  },
  {
   "property": "C20",
   "status": "partial",
   "theorems": [
    "Verif.C20_lookup_partial",
    "Verif.C20_most_recent_partial",
    "Verif.C20_independent",
    "Verif.C20_other_version_raises",
    "Verif.C20_false",
    "Verif.C20_false_negative_version"
   ],
   "note": "False: an unregistered version of a known identifier raises NameError (undefined name findCompatibleVersion); MOST_RECENT fails for negative versions. The rest is proved."
  },
  {
   "property": "C21",
   "status": "proved",
   "theorems": [
    "Verif.C21_restored",
    "Verif.C21_not_visible_outside",
    "Verif.C21_new_silo_empty",
    "Verif.C21_false_explicit_silo"
   ],
   "note": "The outer silo is unchanged unless the block names it with reuse=True. An explicit DEFINITIONS_SILO_NAME always raises."
  },
  {
   "property": "C22",
   "status": "proved",
   "theorems": [
    "Verif.C22_roundtrip",
    "Verif.C22_accepts_iff",
    "Verif.C22_rejects",
    "Verif.C22_codec"
   ],
   "note": ""
  },
  {
   "property": "C53",
   "status": "partial",
   "theorems": [
    "Verif.C53_outcomes",
    "Verif.C53_false_two_versions"
   ],
   "note": "The last clause is false: another version always raises NameError. Exact outcome of every sequence proved."
  },
  {
   "property": "C23",
   "status": "proved",
   "theorems": [
    "Verif.C23_refines_fifo",
    "Verif.C23_conservation",
    "Verif.C23_peek_is_next_read",
    "Verif.C23_peek_zero"
   ],
   "note": ""
  },
  {
   "property": "C24",
   "status": "partial",
   "theorems": [
    "Verif.C24_within_buffers_partial",
    "Verif.C24_false_boundary",
    "Verif.C24_false_empty"
   ],
   "note": "False: a read ending at the boundary of two updates; and the empty result is '' instead of b''. Proved for the exact class of histories stated."
  },
  {
   "property": "C25",
   "status": "proved",
   "theorems": [
    "Verif.C25_address_roundtrip",
    "Verif.C25_block_roundtrip",
    "Verif.C25_address_accepts_iff",
    "Verif.C25_block_accepts_iff",
    "Verif.C25_equality",
    "Verif.C25_false_isValid"
   ],
   "note": "C25_false_isValid: IsValidAddressString accepts strings FromString rejects (negative parts)."
  },
  {
   "property": "C26",
   "status": "proved",
   "theorems": [
    "Verif.C26_chain",
    "Verif.C26_isParentBlock_iff",
    "Verif.C26_parents_are_ancestors",
    "Verif.C26_parent_is_parent",
    "Verif.C26_spawn",
    "Verif.Addr.C26_prefix",
    "Verif.C26_false_noncanonical",
    "Verif.Addr.C26_false_prefix"
   ],
   "note": "For addresses. For blocks with a wild card before a number the chain is different (C26_false_noncanonical)."
  },
  {
   "property": "C27",
   "status": "proved",
   "theorems": [
    "Verif.C27_no_error",
    "Verif.C27_links",
    "Verif.C27_links_block",
    "Verif.C27_fuel",
    "Verif.SwNet.C27_forward",
    "Verif.SwNet.C27_batching",
    "Verif.C27_false_noncanonical"
   ],
   "note": "A registration whose string is not the canonical one (01.1.1.1) never receives anything (C27_false_noncanonical)."
  },
  {
   "property": "C28",
   "status": "partial",
   "theorems": [
    "Verif.C28_ignored_partial",
    "Verif.C28_valid_registered",
    "Verif.C28_raises_iff",
    "Verif.SwNet.C28_net_ignored_partial",
    "Verif.C28_false_negative",
    "Verif.SwNet.C28_false_postponed"
   ],
   "note": "False for addresses with a negative part: they are registered, and as destination they raise inside the packet loop, which postpones the rest of the chunk. Proved for all other strings."
  },
  {
   "property": "C29",
   "status": "partial",
   "theorems": [
    "Verif.Frag.C29_sender",
    "Verif.Frag.C29_sender_small",
    "Verif.Frag.C29_chunk_iff",
    "Verif.Frag.C29_reassembled_partial",
    "Verif.Frag.C29_false_stale"
   ],
   "note": "False: when one chunk of bytes completes a message and then holds an incomplete fragment, the old data is delivered again under the new header. Proved for every history without that (exact characterisation C29_chunk_iff)."
  },
  {
   "property": "C30",
   "status": "partial",
   "theorems": [
    "Verif.Frag.C30_independent_partial",
    "Verif.Frag.C30_unfragmented_partial",
    "Verif.Frag.C30_false_same_id"
   ],
   "note": "False when two senders pick the same 32 bit fragment identifier; proved when identifiers differ."
  },
  {
   "property": "C31",
   "status": "proved",
   "theorems": [
    "Verif.Vnic.C31_unique",
    "Verif.Vnic.C31_outbound",
    "Verif.Vnic.C31_exhausted",
    "Verif.Vnic.C31_listen"
   ],
   "note": ""
  },
  {
   "property": "C32",
   "status": "proved",
   "theorems": [
    "Verif.Vnic.C32_stream",
    "Verif.Vnic.C32_own",
    "Verif.Vnic.C32_now",
    "Verif.Vnic.C32_attach"
   ],
   "note": "A connection whose callback connection never gets attached keeps its data."
  },
  {
   "property": "C33",
   "status": "proved",
   "theorems": [
    "Verif.Vnic.C33_accepts",
    "Verif.Vnic.C33_dropped"
   ],
   "note": ""
  },
  {
   "property": "C34",
   "status": "partial",
   "theorems": [
    "Verif.Vnic.C34_close_packet_partial",
    "Verif.Vnic.C34_control_lost_partial",
    "Verif.Vnic.C34_idempotent",
    "Verif.Vnic.C34_false_opening"
   ],
   "note": "False for connections whose callback connection is still being opened; everything else proved."
  },
  {
   "property": "C35",
   "status": "partial",
   "theorems": [
    "Verif.Vnic.C35_response_partial",
    "Verif.Vnic.C35_only",
    "Verif.Vnic.C35_false_other",
    "Verif.Vnic.C35_refused_keeps_id"
   ],
   "note": "False for an open packet with both or none of connect and listen data, and for connect when all ports are in use (C31_exhausted); proved for all other requests."
  },
  {
   "property": "C36",
   "status": "partial",
   "theorems": [
    "Verif.Cli.C36_ids",
    "Verif.Cli.C36_future",
    "Verif.Cli.C36_unknown_response",
    "Verif.Cli.C36_unknown_id",
    "Verif.Cli.C36_at_most_once",
    "Verif.Cli.C36_announced",
    "Verif.Cli.C36_false_unknown_announcement",
    "Verif.Cli.C36_second_announcement"
   ],
   "note": "Everything except the last clause: an announcement with an id the client never sent raises KeyError (C36_false_unknown_announcement); cancelled futures are excluded from at-most-once."
  },
  {
   "property": "C37",
   "status": "partial",
   "theorems": [
    "Verif.Callback.C37_stream",
    "Verif.Callback.C37_connection_first_partial",
    "Verif.Callback.C37_announcement_first_partial",
    "Verif.Callback.C37_false_same_port",
    "Verif.Callback.C37_false_lost"
   ],
   "note": "C37_stream holds for every history; pairing in either order is proved when the TCP port number is not reused meanwhile and the connection is not lost before; both restrictions are necessary (the two _false_ theorems)."
  },
  {
   "property": "C38",
   "status": "partial",
   "theorems": [
    "Verif.Prom.C38_announced_partial",
    "Verif.Prom.C38_level_partial",
    "Verif.Prom.C38_switch",
    "Verif.Prom.C38_false_reopen"
   ],
   "note": "All levels and addresses and all histories in which a new switch connection is opened only when there is none, as launch_vnic does; C38_false_reopen shows what happens otherwise."
  },
  {
   "property": "C39",
   "status": "proved",
   "theorems": [
    "Verif.Wan.C39_real",
    "Verif.Wan.C39_direct",
    "Verif.Wan.C39_prefixes"
   ],
   "note": ""
  },
  {
   "property": "C40",
   "status": "partial",
   "theorems": [
    "Verif.Wan.C40_shortest_partial",
    "Verif.Wan.C40_unreachable_partial",
    "Verif.Wan.C40_self",
    "Verif.Wan.C40_false_failed"
   ],
   "note": "All graphs and histories, for different prefixes, as long as the last setDirectConnections did not fail half way (C40_false_failed shows the restriction is necessary); routes from a prefix to itself are C40_self."
  },
  {
   "property": "C41",
   "status": "partial",
   "theorems": [
    "Verif.Wan.C41_follow_partial",
    "Verif.Wan.C41_no_loop_partial",
    "Verif.Wan.C41_no_route"
   ],
   "note": "Under the same restriction as C40."
  },
  {
   "property": "C42",
   "status": "proved",
   "theorems": [
    "Verif.Timer.C42_not_early",
    "Verif.Timer.C42_extended",
    "Verif.Timer.C42_cancelled",
    "Verif.Timer.C42_expired",
    "Verif.Timer.C42_exact",
    "Verif.Timer.C42_extension",
    "Verif.Timer.C42_false_reuse"
   ],
   "note": "For a timer that is started once; using it again after it was called is C42_false_reuse. The first four hold for any event loop, however late; C42_exact gives the exact time for a loop that is never late."
  },
  {
   "property": "C43",
   "status": "partial",
   "theorems": [
    "Verif.Lines.C43_lines_partial",
    "Verif.Lines.C43_chunking_partial",
    "Verif.Lines.C43_sent",
    "Verif.Lines.C43_conserved",
    "Verif.Lines.C43_false_boundary",
    "Verif.Lines.C43_false_handler"
   ],
   "note": "Any non-empty delimiter and maximum, all data and chunkings, for lines that with all but one byte of the delimiter are within the maximum (C43_false_boundary: else it depends on the cut) and a handler that returns nothing (C43_false_handler)."
  },
  {
   "property": "C46",
   "status": "partial",
   "theorems": [
    "Verif.Obs.C46_methods",
    "Verif.Obs.C46_sent_partial",
    "Verif.Obs.C46_false_late",
    "Verif.Obs.C46_false_shared",
    "Verif.Obs.C46_false_twice"
   ],
   "note": "Connection and received data: all histories. Sent data: histories in which protocols and transports are paired one to one and the listener was there when the connection was made; each restriction is necessary (the _false_ theorems)."
  },
  {
   "property": "C47",
   "status": "partial",
   "theorems": [
    "Verif.Stack.C47_order",
    "Verif.Stack.C47_attached",
    "Verif.Stack.C47_data",
    "Verif.Stack.C47_end_to_end",
    "Verif.Stack.C47_false_empty",
    "Verif.Stack.C47_false_nested"
   ],
   "note": "Layers are arbitrary transducers, each direction with its own state and not re-entered while it passes on data (for layers in general see C80); false for empty stacks and for stacks used as layers of stacks."
  },
  {
   "property": "C48",
   "status": "partial",
   "theorems": [
    "Verif.Unrel.C48_exact",
    "Verif.Unrel.C48_lengths",
    "Verif.Unrel.C48_cut_partial",
    "Verif.Unrel.C48_delay_all",
    "Verif.Unrel.C48_delay_order",
    "Verif.Unrel.C48_false_cut",
    "Verif.Unrel.C48_false_settings"
   ],
   "note": "All writes and draws as long as the error rate is not changed in the middle (C48_false_settings); independence of the cut holds up to the horizon and not beyond (C48_false_cut), where C48_exact gives the exact result. Also the delaying transport."
  },
  {
   "property": "C45",
   "status": "partial",
   "theorems": [
    "Verif.Cipher.C45_roundtrip_partial",
    "Verif.Cipher.C45_length",
    "Verif.Cipher.C45_rejects",
    "Verif.Cipher.C45_short",
    "Verif.Cipher.C45_authentic",
    "Verif.Cipher.C45_false_same_object",
    "Verif.Cipher.C45_false_second"
   ],
   "note": "Round trip between two new objects with the same keys, any good block cipher and MAC; the same object raises AlreadyFinalized because decrypt finalizes the encrypter, and each object handles one message only."
  },
  {
   "property": "C49",
   "status": "partial",
   "theorems": [
    "Verif.Routes.C49_table",
    "Verif.Routes.C49_lookup_partial",
    "Verif.Routes.C49_destroyed",
    "Verif.Routes.C49_false_bad_route",
    "Verif.Routes.C49_false_removed"
   ],
   "note": "Lookups are proved when all routes are address blocks; addRoute accepts anything, and a bad route makes lookups raise; removeRoute is not saved, so a removed route is back after a restart."
  },
  {
   "property": "C50",
   "status": "partial",
   "theorems": [
    "Verif.Device.C50_enabled_only",
    "Verif.Device.C50_only_self",
    "Verif.Device.C50_enable_outcome",
    "Verif.Device.C50_enable_works",
    "Verif.Device.C50_disable_partial",
    "Verif.Device.C50_disable_fails",
    "Verif.Device.C50_restart",
    "Verif.Device.C50_false_waiting",
    "Verif.Device.C50_false_disable_waiting",
    "Verif.Device.C50_false_dependants",
    "Verif.Device.C50_false_crashed"
   ],
   "note": "All histories of calls, crashes and restarts; false for waiting devices, for devices that depend on a device that is disabled, and for disabling a device whose process crashed."
  },
  {
   "property": "C44",
   "status": "partial",
   "theorems": [
    "Verif.Spmp.C44_unauthorized",
    "Verif.Spmp.C44_unauthorized_silent",
    "Verif.Spmp.C44_only_authorized",
    "Verif.Spmp.C44_each_once_partial",
    "Verif.Spmp.C44_client_partial",
    "Verif.Spmp.C44_end_to_end_partial",
    "Verif.Spmp.Fits.plain",
    "Verif.Spmp.C44_hidden",
    "Verif.Spmp.C44_hidden_errors",
    "Verif.Spmp.C44_hidden_once_partial",
    "Verif.Spmp.C44_hidden_raise",
    "Verif.Spmp.C44_false_silent",
    "Verif.Spmp.C44_false_long",
    "Verif.Spmp.C44_false_stale",
    "Verif.Spmp.C44_false_no_args"
   ],
   "note": "The part about unauthorized peers holds for all bytes. One response for each authorized request is proved for requests and responses within the limits of the format (Fits); a result that is too long gets no response, an exception without a message is reported as success, a query with a random id used before returns the old answer, a request without arguments raises. On a connection of another protocol, a packet that raises ends the call: those behind it wait for the next data (C44_hidden_raise)."
  },
  {
   "property": "C51",
   "status": "proved",
   "theorems": [
    "Verif.C51_nextPackets_terminates",
    "Verif.C51_events_bounded"
   ],
   "note": ""
  },
  {
   "property": "C54",
   "status": "partial",
   "theorems": [
    "Verif.C54_format",
    "Verif.C54_prefix",
    "Verif.C54_any_chunking",
    "Verif.C54_no_premature",
    "Verif.C54_only_frames",
    "Verif.C54_no_magic_no_packet",
    "Verif.C54_resync_partial",
    "Verif.C54_false_nonascii",
    "Verif.C54_false_resync"
   ],
   "note": "Proved for every list of packets with ASCII strings and without packets inside, and every chunking; false for other strings (as C01). Also proved for all byte streams: every packet delivered has an intact frame of its own. After garbage a frame may be lost (witness); it is not lost if all bytes are there before the first nextPackets()."
  },
  {
   "property": "C55",
   "status": "partial",
   "theorems": [
    "Verif.C55_wrong_length_error",
    "Verif.C55_padding_skipped"
   ],
   "note": "For packets with ASCII strings within the limits of C01, and for the skipping a next packet of different length (else C05_false_equal_length applies)."
  },
  {
   "property": "C56",
   "status": "partial",
   "theorems": [
    "Verif.WanNet.C56_local",
    "Verif.WanNet.C56_only_neighbours",
    "Verif.WanNet.C56_never_beyond_next_hop",
    "Verif.WanNet.C56_direct_partial",
    "Verif.WanNet.C56_overheard",
    "Verif.WanNet.C56_unlocated",
    "Verif.WanNet.C56_reannounce",
    "Verif.WanNet.C56_no_key_error",
    "Verif.WanNet.C56_false_multihop",
    "Verif.WanNet.C56_false_once",
    "Verif.WanNet.C56_false_removed",
    "Verif.WanNet.C56_false_zero",
    "Verif.WanNet.C56_false_lost_announcement"
   ],
   "note": "Within a prefix and for devices without a location: as stated, for all histories. Between direct neighbours: at least one copy when nothing is lost (C56_direct_partial; two copies are possible, C56_false_once). Packets never get further than one hop (C56_never_beyond_next_hop), so that the property is false for longer routes."
  },
  {
   "property": "C57",
   "status": "partial",
   "theorems": [
    "Verif.Spmp.C57_prefix",
    "Verif.Spmp.C57_complete",
    "Verif.Spmp.C57_demux",
    "Verif.Spmp.C57_wrap",
    "Verif.Spmp.C57_written",
    "Verif.Spmp.C57_device_partial",
    "Verif.Spmp.C57_client_partial",
    "Verif.Spmp.C57_end_to_end_partial",
    "Verif.Spmp.C57_unauthorized",
    "Verif.Spmp.C57_only_authorized",
    "Verif.Spmp.C57_raises",
    "Verif.Spmp.C57_false_stuck",
    "Verif.Spmp.C57_false_unset"
   ],
   "note": "The demultiplexing holds for all protocols, also raising ones (C57_prefix), completely as long as none raises (C57_complete, C57_false_stuck). The requests are restricted as in C44, packets to those of C54. The part about unauthorized peers holds for all bytes. A wrapper without payload destroys a request that has partly arrived (C57_false_unset)."
  },
  {
   "property": "C58",
   "status": "partial",
   "theorems": [
    "Verif.Link.C58_network",
    "Verif.Link.C58_routed_unique",
    "Verif.Link.C58_received",
    "Verif.Link.C58_received_sofar",
    "Verif.Link.C58_delivered_sofar",
    "Verif.Link.C58_delivered_small",
    "Verif.Link.C58_delivered_alone",
    "Verif.Link.C58_delivered_large_partial",
    "Verif.Link.C58_reaches",
    "Verif.Link.C58_can_drain",
    "Verif.Link.C58_false_stale",
    "Verif.Link.C58_false_uncalm"
   ],
   "note": "C58_network holds for all histories. Messages of at most 2^16 bytes are delivered unconditionally (while the receiver stays registered and no destination makes the switch raise, C58_false_uncalm). For larger ones, C58_delivered_alone needs that no other message is routed to the receiver meanwhile, C58_delivered_large_partial that chunks to the receiver have at most 67 bytes, and both that the fragment identifier is not in use: the reassembly uses a stale packet when a chunk ends several packets (C58_false_stale, C29)."
  },
  {
   "property": "C59",
   "status": "partial",
   "theorems": [
    "Verif.Pnms.C59_commands_partial",
    "Verif.Pnms.C59_all_commands",
    "Verif.Pnms.C59_step_unique",
    "Verif.Pnms.C59_steps_unique",
    "Verif.Pnms.C59_closed",
    "Verif.Pnms.C59_crash_partial",
    "Verif.Pnms.C59_false_removed_route",
    "Verif.Pnms.C59_false_case",
    "Verif.Pnms.C59_false_crash",
    "Verif.Pnms.C59_false_remove_crash"
   ],
   "note": "For names and routes in lower case. C59_commands_partial excludes the command that removes a route, whose effect is lost when the process ends (C59_false_removed_route; C59_all_commands says what happens with it). A device whose name is not in lower case can be added and then no command works any more (C59_false_case). Crashes: C59_crash_partial excludes `remove` (C59_false_remove_crash) and the moment when the file is truncated (C59_false_crash)."
  },
  {
   "property": "C60",
   "status": "partial",
   "theorems": [
    "Verif.E2E.C60_stream_sofar",
    "Verif.E2E.C60_stream",
    "Verif.E2E.C60_source",
    "Verif.E2E.C60_sockets",
    "Verif.E2E.C60_distinct",
    "Verif.E2E.C60_can_arrive",
    "Verif.E2E.C60_unseen",
    "Verif.E2E.C60_stays_open",
    "Verif.E2E.C60_false_told",
    "Verif.E2E.C60_false_nobody",
    "Verif.E2E.C60_false_middle",
    "Verif.E2E.C60_false_hijack"
   ],
   "note": "Proved while the receiving VNIC stays attached, not promiscuous, and its connection is open (or accepted) throughout, for writes of at most 2^16 bytes (larger ones: C58_false_stale). The stream is only from one VNIC if no other uses the key: C60_sockets derives this without raw packets and promiscuous VNICs; otherwise C60_false_hijack. The other end is never told of a connect or close (C60_unseen, C60_stays_open, C60_false_told, C60_false_nobody), so a stream can begin in the middle (C60_false_middle)."
  },
  {
   "property": "C61",
   "status": "partial",
   "theorems": [
    "Verif.Connect.C61_own_partial",
    "Verif.Connect.C61_one_vnic",
    "Verif.Connect.C61_false_two_vnics",
    "Verif.Connect.C61_false_concurrent",
    "Verif.Connect.C61_false_late"
   ],
   "note": "Proved if no call over another control connection uses the same connection id, hence for one control connection. Ids are counted per control connection but looked up in one callback service, so with two VNICs, or a server and a client started at the same time, a call returns the application of another (C61_false_two_vnics, C61_false_concurrent). After a timeout the connection may still come up (C61_false_late)."
  },
  {
   "property": "C62",
   "status": "partial",
   "theorems": [
    "Verif.Connect.C62_completes_partial",
    "Verif.Connect.C62_direct_partial",
    "Verif.Connect.C62_stuck",
    "Verif.Connect.C62_false_lost_wakeup",
    "Verif.Connect.C62_false_closed_early",
    "Verif.Connect.C62_dial_failed",
    "Verif.Connect.C62_dead_control"
   ],
   "note": "Proved if never two calls wait for callback connections, or if the callback connection is there first. Otherwise false: the notification goes to the wrong call, which waits again (C62_stuck, C62_false_lost_wakeup); a connection closed early (C62_false_closed_early); after a failed dial all later calls poll forever (C62_dial_failed); after a lost control connection all later calls time out (C62_dead_control)."
  },
  {
   "property": "C63",
   "status": "partial",
   "theorems": [
    "Verif.Connect.C63_close_partial",
    "Verif.Connect.C63_one_vnic",
    "Verif.Connect.C63_once",
    "Verif.Connect.C63_false_two_vnics",
    "Verif.Connect.C63_false_late"
   ],
   "note": "Under the hypothesis of C61; otherwise C63_false_two_vnics. A connection announced before the close whose callback connection comes after it stays open (C63_false_late)."
  },
  {
   "property": "C64",
   "status": "partial",
   "theorems": [
    "Verif.Host.C64_pair",
    "Verif.Host.C64_one",
    "Verif.Host.C64_in",
    "Verif.Host.C64_out",
    "Verif.Host.C64_client_partial",
    "Verif.Host.C64_client_one",
    "Verif.Host.C64_in_can",
    "Verif.Host.C64_out_can",
    "Verif.Host.C64_server",
    "Verif.Host.C64_no_early"
   ],
   "note": "Model/Host.lean puts the VNIC (C32-C36) and the connector (C61-C63) together. Proved for one connector process with all its locations at one VNIC and any number of other processes; the returned connection under the condition of C61, without it for one control connection."
  },
  {
   "property": "C65",
   "status": "partial",
   "theorems": [
    "Verif.Apps.C65_sofar",
    "Verif.Apps.C65_all",
    "Verif.Apps.C65_can",
    "Verif.Apps.C65_between",
    "Verif.Apps.C65_to_server",
    "Verif.Apps.C65_to_client"
   ],
   "note": "Model/Apps.lean puts C60 and C64 together. C65_can: all that was written can still arrive (a continuation exists in which bytes only arrive). Proved while both VNICs stay attached, no VNIC is promiscuous or sends raw packets, the address of the writing VNIC is its own, its port is not reused for the same destination, and bytes reach a VNIC in pieces of at most 65536 (larger ones are fragmented and break as in C29). C60_false_hijack and C60_false_middle show what happens otherwise."
  },
  {
   "property": "C66",
   "status": "partial",
   "theorems": [
    "Verif.Shell.C66_space",
    "Verif.Shlex.C66_words",
    "Verif.Shlex.C66_one_reading",
    "Verif.Shlex.C66_bad_line",
    "Verif.Shlex.C66_typed",
    "Verif.Shell.C66_one",
    "Verif.Shell.C66_runs",
    "Verif.Shell.C66_refused",
    "Verif.Shell.C66_nothing",
    "Verif.Shell.C66_frame",
    "Verif.Shell.C66_typed_means",
    "Verif.Shell.C66_keeps",
    "Verif.Shell.C66_register",
    "Verif.Shell.C66_configure",
    "Verif.Shell.C66_configureSub",
    "Verif.Shell.C66_builtin",
    "Verif.Shell.C66_help",
    "Verif.Shell.C66_end_to_end",
    "Verif.Shell.C66_false_empty",
    "Verif.Shell.C66_false_blank"
   ],
   "note": "Proved with what the shell does to a line before: white space at the ends and empty words are removed. So an empty argument cannot be given (C66_false_empty) and a line that ends in an escaped blank fails (C66_false_blank). shlex.split is modelled from the standard library."
  },
  {
   "property": "C67",
   "status": "partial",
   "theorems": [
    "Verif.Shell.C67_prefix",
    "Verif.Shell.C67_one_file",
    "Verif.Shell.C67_order",
    "Verif.Shell.C67_over",
    "Verif.Shell.C67_progress",
    "Verif.Shell.C67_false_plain",
    "Verif.Shell.C67_false_help",
    "Verif.Shell.C67_false_blank"
   ],
   "note": "Order, prefix, ends and progress are proved. 'All lines run unless one fails' is false: a command that gives nothing to await counts as failed after it ran, as do blank lines (C67_false_plain, C67_false_help, C67_false_blank)."
  },
  {
   "property": "C68",
   "status": "partial",
   "theorems": [
    "Verif.Launch.C68_trace",
    "Verif.Launch.C68_at_most_one",
    "Verif.Launch.C68_one_partial",
    "Verif.Launch.C68_due_partial",
    "Verif.Launch.C68_refused",
    "Verif.Launch.C68_dials",
    "Verif.Launch.C68_accepted",
    "Verif.Launch.C68_recovers_partial",
    "Verif.Launch.C68_never_closes",
    "Verif.Launch.C68_live",
    "Verif.Launch.C68_announced",
    "Verif.Launch.C68_false_dead"
   ],
   "note": "At most one of link, attempt and timer, the 30 seconds, switch-live and the announcements hold always. That there is always one of them is false when writing the status file raises while a link is lost and its listener comes first in the set: the daemon then never tries again (C68_false_dead). Proved when the write succeeds or the other listener comes first."
  },
  {
   "property": "C69",
   "status": "partial",
   "theorems": [
    "Verif.Launch.C69_file_partial",
    "Verif.Launch.C69_written",
    "Verif.Launch.C69_visible_partial",
    "Verif.Launch.C69_port",
    "Verif.Launch.C69_status",
    "Verif.Launch.C69_pnms_partial",
    "Verif.Launch.C69_false_name",
    "Verif.Launch.C69_false_unwritten",
    "Verif.Launch.C69_false_cut",
    "Verif.Launch.C69_false_moment"
   ],
   "note": "Proved when the writes succeed and the name of the switch does not contain the word disconnected; each condition has a witness that it is needed. The file is emptied before it is written, which a reader can see."
  },
  {
   "property": "C70",
   "status": "partial",
   "theorems": [
    "Verif.Logging.C70_stderr",
    "Verif.Logging.C70_file",
    "Verif.Logging.C70_once",
    "Verif.Logging.C70_playground_partial",
    "Verif.Logging.C70_off",
    "Verif.Logging.C70_tag",
    "Verif.Logging.C70_tag_round",
    "Verif.Logging.C70_cmd_long",
    "Verif.Logging.C70_false_plain",
    "Verif.Logging.C70_false_aux",
    "Verif.Logging.C70_false_sticky",
    "Verif.Logging.C70_false_unknown",
    "Verif.Logging.C70_false_file"
   ],
   "note": "Exactly what is written is proved for every history; it is what the log level says for loggers below playground only. For the others the levels set before matter (filters stay attached to the stderr handler, added modules stay), loggers without a dot are never written, and levels that raise change what is written: witnesses."
  },
  {
   "property": "C71",
   "status": "partial",
   "theorems": [
    "Verif.Service.C71_get_partial",
    "Verif.Service.C71_first_partial",
    "Verif.Service.C71_family",
    "Verif.Service.C71_plain",
    "Verif.Service.C71_scheme",
    "Verif.Service.C71_two",
    "Verif.Service.C71_create",
    "Verif.Service.C71_serve",
    "Verif.Service.C71_false_nopath",
    "Verif.Service.C71_false_dies",
    "Verif.Service.C71_false_failed_reload",
    "Verif.Service.C71_false_syspath"
   ],
   "note": "Proved for all histories in which no load was broken off in the middle. Without a Playground directory every call raises, also for connectors the program set (C71_false_nopath); after a load broken off by sys.exit() or an unreadable directory the program's connectors are treated as the modules' (C71_false_dies); a forced reload that raises loses the modules' connectors for good (C71_false_failed_reload)."
  },
  {
   "property": "C72",
   "status": "proved",
   "theorems": [
    "Verif.Config.C72_current",
    "Verif.Config.C72_add",
    "Verif.Config.C72_initialize"
   ],
   "note": "All sequences of custom paths, environments and file systems."
  },
  {
   "property": "C73",
   "status": "partial",
   "theorems": [
    "Verif.Config.C73_frame",
    "Verif.Config.C73_read_only",
    "Verif.Config.C73_open",
    "Verif.Config.C73_saved",
    "Verif.Config.C73_reload_partial",
    "Verif.Config.C73_false_stale",
    "Verif.Config.C73_false_lost",
    "Verif.Config.C73_read_overwrites",
    "Verif.Config.C73_path",
    "Verif.Config.C73_distinct",
    "Verif.Config.C73_false_names"
   ],
   "note": "Everything but reload is proved. reload compares the time of the file always with the time of opening: it shows changes with a later time only (C73_false_stale), and throws away unsaved changes as soon as the file has ever changed since opening, also by its own save (C73_false_lost)."
  },
  {
   "property": "C74",
   "status": "partial",
   "theorems": [
    "Verif.WanApi.C74_calls",
    "Verif.WanApi.C74_route",
    "Verif.WanApi.C74_shortest_partial",
    "Verif.WanApi.C74_text",
    "Verif.WanApi.C74_add",
    "Verif.WanApi.C74_direct",
    "Verif.WanApi.C74_direct_refused",
    "Verif.WanApi.C74_location",
    "Verif.WanApi.C74_no_connection",
    "Verif.WanApi.C74_routes",
    "Verif.WanApi.C74_connections",
    "Verif.WanApi.C74_reads",
    "Verif.WanApi.C74_settings",
    "Verif.WanApi.C74_managed_partial",
    "Verif.WanApi.C74_remote",
    "Verif.WanApi.C74_false_atomic",
    "Verif.WanApi.C74_false_remove",
    "Verif.WanApi.C74_false_location",
    "Verif.WanApi.C74_false_shortest"
   ],
   "note": "Proved for all histories, except: add-switches registers the prefixes before the first bad one and then fails (C74_false_atomic); remove-switches answers as if it had worked and does nothing (C74_false_remove); set-location to a prefix that is not registered answers Changed and cuts the device off (C74_false_location); a set-direct-connections that fails leaves the direct connections it made, but not the routes (C74_false_shortest), so C74_shortest_partial asks that the last one did not fail so. C74_managed_partial is about one connection with requests whose serialization is short enough for the framing."
  },
  {
   "property": "C75",
   "status": "partial",
   "theorems": [
    "Verif.SwitchApi.C75_settings",
    "Verif.SwitchApi.C75_set",
    "Verif.SwitchApi.C75_reads",
    "Verif.SwitchApi.C75_reliable_verbs",
    "Verif.SwitchApi.C75_frame",
    "Verif.SwitchApi.C75_receivers",
    "Verif.SwitchApi.C75_connected",
    "Verif.SwitchApi.C75_unchanged",
    "Verif.SwitchApi.C75_reliable",
    "Verif.SwitchApi.C75_delayed",
    "Verif.SwitchApi.C75_exactly",
    "Verif.SwitchApi.C75_lengths",
    "Verif.SwitchApi.C75_once",
    "Verif.SwitchApi.C75_errors_partial",
    "Verif.SwitchApi.C75_managed_partial",
    "Verif.SwitchApi.C75_false_rate",
    "Verif.SwitchApi.C75_false_impossible",
    "Verif.SwitchApi.C75_false_change",
    "Verif.SwitchApi.C75_false_delay"
   ],
   "note": "Settings, routing, at-most-once, and delivery with no errors are proved for all histories. False: a device that announces itself again gets a second pair of transports, so errors and delays apply twice or cancel (C75_false_rate, C75_false_delay); a negative horizon is accepted and then packets and announcements are lost (C75_false_impossible); a change of the error rate can lose packets altogether (C75_false_change). So C75_errors_partial asks for one announcement and a rate that stays the same. C75_managed_partial is about requests whose serialization is short enough for the framing."
  },
  {
   "property": "C76",
   "status": "partial",
   "theorems": [
    "Verif.Choose.C76_connect_partial",
    "Verif.Choose.C76_text",
    "Verif.Choose.C76_localhost",
    "Verif.Choose.C76_named",
    "Verif.Choose.C76_server_default",
    "Verif.Choose.C76_server_host",
    "Verif.Choose.C76_raw",
    "Verif.Choose.C76_reads",
    "Verif.Choose.C76_removed",
    "Verif.Choose.C76_false_localhost",
    "Verif.Choose.C76_false_stale",
    "Verif.Choose.C76_false_host",
    "Verif.Choose.C76_false_bad_route",
    "Verif.Choose.C76_false_raw",
    "Verif.Choose.C76_false_disabled",
    "Verif.Choose.C76_false_named_switch"
   ],
   "note": "Proved for a service made after any commands (names in lower case, as in C59), if all routes are address blocks. False: one route that is no address block makes all connections fail (C76_false_bad_route); localhost goes through the interface that the routes give for its address, not the default one (C76_false_localhost); the configuration is read once in a process (C76_false_stale); a connection through an interface that is not enabled goes to (None, None), and the next one through any such interface waits forever (C76_false_disabled); the host of a server is compared as a string (C76_false_host); raw_vnic_connection fails for every name (C76_false_raw); the name of an access point is taken for that of an interface (C76_false_named_switch)."
  },
  {
   "property": "C77",
   "status": "partial",
   "theorems": [
    "Verif.Power.C77_on_partial",
    "Verif.Power.C77_on_only",
    "Verif.Power.C77_on_twice",
    "Verif.Power.C77_off",
    "Verif.Power.C77_off_works",
    "Verif.Power.C77_status",
    "Verif.Power.C77_load",
    "Verif.Power.C77_enable_message",
    "Verif.Power.C77_disable",
    "Verif.Power.C77_false_once",
    "Verif.Power.C77_false_status",
    "Verif.Power.C77_false_rest",
    "Verif.Power.C77_false_off",
    "Verif.Power.C77_false_removed"
   ],
   "note": "Proved exactly, for every history: what runs after on, off, enable, disable and a command that only looks. False: after the process of a switch has died, on starts it again and ends the interfaces on it (C77_false_once; a second on repairs it: C77_on_twice), and so does any other command (C77_false_status); the first device that raises ends on and off (C77_false_rest, C77_false_off); a removed device keeps running and off does not reach it (C77_false_removed)."
  },
  {
   "property": "C78",
   "status": "partial",
   "theorems": [
    "Verif.Mock.C78_loop",
    "Verif.Mock.C78_loop_complete",
    "Verif.Mock.C78_data",
    "Verif.Mock.C78_no_exceptions",
    "Verif.Mock.C78_closed_partial",
    "Verif.Mock.C78_closed_once",
    "Verif.Mock.C78_count",
    "Verif.Mock.C78_stream",
    "Verif.Mock.C78_delayed_partial",
    "Verif.Mock.C78_false_delay",
    "Verif.Mock.C78_false_pending",
    "Verif.Mock.C78_false_told",
    "Verif.Mock.C78_false_talk",
    "Verif.Mock.C78_false_exception"
   ],
   "note": "Proved for pairs and streams without delays, with arbitrary protocols that may call the transports while they are called, and for the loop. False: a delay with the test loop never delivers data, because call_later takes the bytes for the list of arguments (C78_false_delay; with a loop like asyncio's, C78_delayed_partial); data under way when the other end closes is lost with an exception (C78_false_pending); a protocol that raises in connection_lost keeps the other from being told (C78_false_told); a conversation without end is a RecursionError (C78_false_talk); a function that raises keeps the other due ones from running in this call (C78_false_exception)."
  },
  {
   "property": "C79",
   "status": "partial",
   "theorems": [
    "Verif.VnicApi.C79_level",
    "Verif.VnicApi.C79_packet",
    "Verif.VnicApi.C79_set",
    "Verif.VnicApi.C79_announced",
    "Verif.VnicApi.C79_live",
    "Verif.VnicApi.C79_dials",
    "Verif.VnicApi.C79_quiet",
    "Verif.VnicApi.C79_log",
    "Verif.VnicApi.C79_setLog",
    "Verif.VnicApi.C79_log_means_partial",
    "Verif.VnicApi.C79_verbs",
    "Verif.VnicApi.C79_arguments",
    "Verif.VnicApi.C79_same_partial",
    "Verif.VnicApi.C79_managed_partial",
    "Verif.VnicApi.C79_false_level",
    "Verif.VnicApi.C79_false_refused",
    "Verif.VnicApi.C79_false_same",
    "Verif.VnicApi.C79_false_halfway"
   ],
   "note": "Proved for all histories, and through the protocol with packets within the limits of the format. False: before the first set-log-level the answer is NONE although everything is logged (C79_false_level); a refused set-log-level turns logging off and get-log-level still answers the level before (C79_false_refused), or leaves it half changed (C79_false_halfway); the first request for level 0, which is the level, announces the address again (C79_false_same)."
  },
  {
   "property": "C80",
   "status": "partial",
   "theorems": [
    "Verif.StackRun.C80_local",
    "Verif.StackRun.C80_interfaces",
    "Verif.StackRun.C80_composed",
    "Verif.StackRun.C80_calm",
    "Verif.StackRun.C80_composed_calm",
    "Verif.StackRun.C80_plain",
    "Verif.StackRun.C80_packet_prefix",
    "Verif.StackRun.C80_packet_all",
    "Verif.StackRun.C80_packet_stack",
    "Verif.StackRun.C80_false_reentered",
    "Verif.StackRun.C80_false_exception"
   ],
   "note": "Proved for histories without exceptions. False with them: the callback connection catches the exception of a protocol and goes on, so that data in the middle of the stream is lost (C80_false_exception). A layer that passes up several pieces need only work in calm histories (not re-entered from below) if the transports of the stack do not call up (C80_calm); in others it reorders (C80_false_reentered)."
  },
  {
   "property": "C81",
   "status": "partial",
   "theorems": [
    "Verif.C81_read_exact",
    "Verif.C81_relay",
    "Verif.C81_nearest",
    "Verif.C81_overflow",
    "Verif.C81_error",
    "Verif.C81_order",
    "Verif.C81_singles",
    "Verif.C81_accepted",
    "Verif.C81_limits",
    "Verif.C81_packet",
    "Verif.C81_packet_iff",
    "Verif.C81_still_accepted",
    "Verif.C81_false_changed",
    "Verif.C81_false_refused",
    "Verif.C81_false_unsendable",
    "Verif.C81_false_range"
   ],
   "note": "False in part: the Bits validators limit FLOAT32 to numbers up to 2^32 - 1 (FLOAT64 to 2^64 - 1) but have no lower limit; 4294967295.0 in a FLOAT32 field is accepted, rounded to 2^32 when sent and refused by every receiver; -1e39 is accepted and cannot be sent. Proved: the exact set of accepted numbers, IEEE rounding (nearest, even), exactness of widening, order, error bound, and for whole packets that they arrive with exactly the FLOAT32 numbers rounded."
  },
  {
   "property": "C82",
   "status": "partial",
   "theorems": [
    "Verif.C82_valid",
    "Verif.C82_relay",
    "Verif.C82_relay_same",
    "Verif.C82_relay_flat",
    "Verif.C82_false_required"
   ],
   "note": "False in part: a packet may arrive without its required fields; it can be read but not sent on. Proved for all bytes and histories: class, validity of all values, depth; the exact conditions for sending on."
  },
  {
   "property": "C83",
   "status": "partial",
   "theorems": [
    "Verif.Extra.C83_inherits",
    "Verif.Extra.C83_own",
    "Verif.Extra.C83_layers",
    "Verif.Extra.C83_keeps",
    "Verif.Extra.C83_app",
    "Verif.Extra.C83_client",
    "Verif.Extra.C83_server",
    "Verif.Apps.C83_mirror",
    "Verif.Apps.C83_both",
    "Verif.Extra.C83_false_shared",
    "Verif.Extra.C83_false_default",
    "Verif.Extra.C83_false_late",
    "Verif.Apps.Ex.C83_false_forged"
   ],
   "note": "False in part: a dictionary given to two StackingTransports is shared (the second reports the first's addresses), the default of get_extra_info is ignored for names the lower transport lacks, and a process can send raw packets with any source, so that a server sees an address that no VNIC has. Proved: inheritance through any number of layers, stability, and for every history that applications see the addresses of their sockets, client and server mirrored."
  },
  {
   "property": "C84",
   "status": "partial",
   "theorems": [
    "Verif.Alias.C84_lists_belong",
    "Verif.Alias.C84_typed",
    "Verif.Alias.C84_struct",
    "Verif.Alias.C84_local",
    "Verif.Alias.C84_apart",
    "Verif.Alias.C84_history",
    "Verif.Alias.C84_new",
    "Verif.Alias.C84_copy",
    "Verif.Alias.C84_fields_apart",
    "Verif.Alias.C84_self",
    "Verif.Alias.C84_copy_std",
    "Verif.Alias.Ex.C84_false_shared",
    "Verif.Alias.Ex.C84_false_depends",
    "Verif.Alias.Ex.C84_false_nan",
    "Verif.Alias.Ex.C84_false_zero",
    "Verif.Alias.Ex.C84_false_refused"
   ],
   "note": "False in part: a struct assigned to two packets is one object, shared by both; whether the structs of a list are shared after p.l = q.l depends on whether the lists were equal before; p.l = p.l empties a list with a NaN; -0.0 is not copied over 0.0; a refused list assignment loses the old elements and keeps the refused one. Proved for every history: no two places hold the same list, an operation changes only what its target is part of, packets that share nothing stay apart, p.l = q.l makes equal values, new packets are apart from all others."
  },
  {
   "property": "C85",
   "status": "partial",
   "theorems": [
    "Verif.Cli.C85_usage",
    "Verif.Cli.C85_usage_unique",
    "Verif.Cli.C85_history_partial",
    "Verif.Cli.C85_success_partial",
    "Verif.Cli.C85_status_partial",
    "Verif.Cli.C85_preinit",
    "Verif.Cli.C85_unknown_partial",
    "Verif.Cli.C85_false_status_device",
    "Verif.Cli.C85_false_routes",
    "Verif.Cli.C85_false_upper",
    "Verif.Cli.C85_false_zero",
    "Verif.Cli.C85_false_port",
    "Verif.Cli.C85_false_stale_pid"
   ],
   "note": "False in part: `status <device>` and `routes` fail whatever the network is; a command that raises has exit status 0 when the user answers the question about the stack trace; a port that is no number is accepted and then status fails for all devices; a device that does not run is shown with the number of a dead process. Proved, for names in lower case: which calls are understood, that any history of calls leaves the network that they were meant to make (but for C59's lost route removals), which configuring commands succeed, and that status reports exactly the devices, each as it should, if what it reads is there. Arguments that begin with - are not modelled."
  },
  {
   "property": "C86",
   "status": "partial",
   "theorems": [
    "Verif.C86_iff",
    "Verif.C86_symm",
    "Verif.C86_trans",
    "Verif.C86_self_partial",
    "Verif.C86_limited",
    "Verif.C86_bytes_partial",
    "Verif.C86_sent_partial",
    "Verif.C86_two_partial",
    "Verif.C86_false_sent",
    "Verif.C86_false_bytes",
    "Verif.C86_false_self"
   ],
   "note": "False in part: a packet with a NaN is not equal to itself (a float field without limits accepts it; with limits it is refused, but stays: C10); packets with 0.0 and -0.0 are equal and have different bytes; 0.1 in a FLOAT32 field is not equal to what arrives. Proved: == is exactly sameness of class and contents with numbers compared by value, it is symmetric and transitive, reflexive exactly without NaN (so always where float fields have limits and values are accepted); equal packets without zero floats have the same bytes; what arrives is equal exactly without NaN and with singles in fields of 32 bits. The recursion limit of Python is not in this model (it is in that of C84)."
  },
  {
   "property": "C87",
   "status": "partial",
   "theorems": [
    "Verif.C87_last_partial",
    "Verif.C87_value",
    "Verif.C87_order_partial",
    "Verif.C87_permuted_partial",
    "Verif.C87_serialized",
    "Verif.C87_false_struct",
    "Verif.C87_false_order"
   ],
   "note": "False in part: a struct that comes twice is merged (the receiver has a struct nobody wrote), and with a packet inside the order matters (a buffer before it is read, the same buffer behind it is not: C13). Proved for all fields without packets inside, ASCII strings and singles (as C01), any order and repetition; structs by the merge, everything else by the last value. The order inside of a struct is that of __serialize__."
  },
  {
   "property": "C88",
   "status": "partial",
   "theorems": [
    "Verif.Spmp.Ask.C88_own",
    "Verif.Spmp.Ask.C88_settles",
    "Verif.Spmp.Ask.C88_idle",
    "Verif.Spmp.Ask.C88_in_order_partial",
    "Verif.Spmp.Ask.C88_alone_partial",
    "Verif.Spmp.Ask.C88_returns_in_order_partial",
    "Verif.Spmp.Ask.C88_stream_partial",
    "Verif.Spmp.Ask.C88_stuck",
    "Verif.Spmp.Ask.C88_false_overtaken",
    "Verif.Spmp.Ask.C88_false_unanswered",
    "Verif.Spmp.Ask.C88_false_cancelled",
    "Verif.Spmp.Ask.C88_false_lost"
   ],
   "note": "What is returned is always the own answer (all histories). That an answered call returns is false in part: a response wakes only the first waiter, so responses in another order, a request without answer, or a cancelled call leave another call waiting for ever although its response is there, and a lost connection wakes nobody (witnesses). Proved for responses in the order of the requests (from the bytes in any chunks, any number of calls), and for one call at a time with any responses."
  },
  {
   "property": "C89",
   "status": "partial",
   "theorems": [
    "Verif.Shell.C89_names_partial",
    "Verif.Shell.C89_files_partial",
    "Verif.Shell.C89_other_partial",
    "Verif.Shell.C89_extends_partial",
    "Verif.Shell.C89_entered_partial",
    "Verif.Shell.C89_false_none",
    "Verif.Shell.C89_false_relative",
    "Verif.Shell.C89_false_quoting",
    "Verif.Shell.C89_false_blank",
    "Verif.Shell.C89_false_slashes"
   ],
   "note": "Exactness for names without blanks, at any depth, and for files. False in part (witnesses): a name with a blank is not completed; a path without a directory or with ~ is replaced by another text; a file name with a blank is offered without quotes and cannot be entered; at the end of the list a TypeError is raised where None is meant."
  },
  {
   "property": "C90",
   "status": "partial",
   "theorems": [
    "Verif.Stdio.C90_told",
    "Verif.Stdio.C90_all_told",
    "Verif.Stdio.C90_one_at_a_time_partial",
    "Verif.Stdio.C90_closed",
    "Verif.Stdio.C90_ends",
    "Verif.Stdio.C90_next_partial",
    "Verif.Stdio.C90_false_other",
    "Verif.Stdio.C90_false_stop",
    "Verif.Stdio.C90_false_early",
    "Verif.Stdio.C90_false_close"
   ],
   "note": "Order, exactly once, connected first and lost last: all schedules. One command at a time and the next prompt: while the event loop does not stop; false if it stops and starts again, if a command returns a true value that is no future (the user is never asked again: a theorem for all continuations), and if the terminal is made before the event loop runs. After closing no prompt; but the line being typed still runs (witness)."
  },
  {
   "property": "C91",
   "status": "partial",
   "theorems": [
    "Verif.Spmp.AskNet.C91_own_partial",
    "Verif.Spmp.AskNet.C91_returns_partial",
    "Verif.Spmp.AskNet.C91_settles",
    "Verif.Spmp.AskNet.C91_quiet",
    "Verif.Spmp.AskNet.C91_completes_partial",
    "Verif.Spmp.AskNet.C91_false_refused",
    "Verif.Spmp.AskNet.C91_false_same_id"
   ],
   "note": "For authorized requests with different ids, requests and responses within the limits of the format, all interleavings and chunkings. False otherwise: a refused call never returns (for all continuations), a call whose random id was used before returns the old answer at once. Long results: C44_false_long. Lost connections and cancelled calls: C88."
  },
  {
   "property": "C92",
   "status": "partial",
   "theorems": [
    "Verif.Vnic.C92_seen",
    "Verif.Vnic.C92_unnoticed",
    "Verif.Vnic.C92_raw",
    "Verif.Vnic.C92_false_outgoing",
    "Verif.Link.C92_false_write"
   ],
   "note": "For arriving packets: all histories. Packets that go out are not copied (C92_false_outgoing). Raw packets are accepted from every control connection with any source address (C92_raw), but VNICDumpProtocol.write, the client for it, raises for all arguments (C92_false_write)."
  },
  {
   "property": "C93",
   "status": "partial",
   "theorems": [
    "Verif.Control.C93_carried_out_partial",
    "Verif.Control.C93_commands",
    "Verif.Control.C93_any",
    "Verif.Control.C93_false_neither",
    "Verif.Control.C93_false_slips",
    "Verif.Control.C93_false_swallowed",
    "Verif.Control.C93_false_after_raw"
   ],
   "note": "Without raw packets it holds for all sequences (C93_commands). A raw packet is written in a frame but read by a Deserializer without frames, which resynchronises unless the last byte of the checksum of the frame is the complement of the last byte of the size: then the packet is lost (C93_false_slips), possibly with the commands behind it (C93_false_swallowed); so is a command of size 175 directly behind a raw packet (C93_false_after_raw). For all other sizes it is proved (C93_carried_out_partial)."
  },
  {
   "property": "C94",
   "status": "partial",
   "theorems": [
    "Verif.Session.C94_conversation",
    "Verif.Session.C94_future",
    "Verif.Session.C94_listen_partial",
    "Verif.Session.C94_connect_partial",
    "Verif.Session.C94_false_cancelled"
   ],
   "note": "Proved for all histories without cancelled futures, for values that fit their fields; listen needs that the VNIC does not hang in its search for a free port. With a cancelled future it is false: its answer makes the handler raise, and the answers behind it in the chunk wait for the next chunk (C94_false_cancelled)."
  },
  {
   "property": "C95",
   "status": "partial",
   "theorems": [
    "Verif.Deferred.C95_calls_partial",
    "Verif.Deferred.C95_once",
    "Verif.Deferred.C95_falsy_never",
    "Verif.Deferred.C95_false_falsy"
   ],
   "note": "Proved for all histories whose result or exception is a true value. False for false values (0, the empty string, None, an exception class with a false truth value): the wrapper tests the value itself, so no function is ever called (C95_falsy_never, C95_false_falsy)."
  },
  {
   "property": "C96",
   "status": "partial",
   "theorems": [
    "Verif.Section.C96_plain",
    "Verif.Section.C96_readOnly_partial",
    "Verif.Section.C96_write",
    "Verif.Section.C96_false_delete",
    "Verif.Section.C96_false_update",
    "Verif.Section.C96_read",
    "Verif.Section.C96_false_in"
   ],
   "note": "Proved for all histories in which read-only views are used for reads, assignment and save. False for del, which has no check, and for update, setdefault, pop, clear and rawSection, which are passed on to the section (C96_false_delete, C96_false_update), and for `in` with capitals (C96_false_in)."
  },
  {
   "property": "C97",
   "status": "partial",
   "theorems": [
    "Verif.Dispatch.C97_nearest",
    "Verif.Dispatch.C97_none",
    "Verif.Dispatch.C97_register",
    "Verif.Dispatch.C97_derived",
    "Verif.Dispatch.C97_data",
    "Verif.Dispatch.C97_builtin",
    "Verif.Dispatch.C97_lists",
    "Verif.Dispatch.C97_classes",
    "Verif.Dispatch.C97_packets_partial",
    "Verif.Dispatch.C97_simple",
    "Verif.Dispatch.C97_false_mixed",
    "Verif.Dispatch.C97_false_list"
   ],
   "note": "Proved: the nearest registered type decides (by distance), registration, all single derivations, and further bases for which nothing is registered. False with bases for which something else is registered: a packet class whose first base is a struct class is sent as a struct where it is the type of a field (C97_false_mixed); and a list of a packet class itself is handed to the encoder of packets (C97_false_list)."
  },
  {
   "property": "C98",
   "status": "partial",
   "theorems": [
    "Verif.C98_roundtrip_partial",
    "Verif.C98_flat_partial",
    "Verif.C98_truncated",
    "Verif.C98_false_string",
    "Verif.C98_false_nested"
   ],
   "note": "Proved for ASCII strings and singles, and where behind a packet no string or buffer is longer than it. False otherwise (C98_false_string, C98_false_nested), as for C01."
  },
  {
   "property": "C99",
   "status": "partial",
   "theorems": [
    "Verif.Seekable.C99_file_partial",
    "Verif.Seekable.C99_rest",
    "Verif.Seekable.C99_span",
    "Verif.Seekable.C99_length",
    "Verif.Seekable.C99_negative",
    "Verif.Seekable.C99_cur",
    "Verif.Seekable.C99_closed",
    "Verif.Seekable.C99_false_span",
    "Verif.Seekable.C99_false_calls"
   ],
   "note": "Proved for all programs whose reads stay in one buffer or take everything and that seek absolutely or from the end; and exactly what every other call does. False for reads over the end of a buffer, which go on at the beginning of the stream (C99_false_span, characterised by C99_span), SEEK_CUR, read(0), positions below zero and after close (C99_false_calls)."
  },
  {
   "property": "C100",
   "status": "partial",
   "theorems": [
    "Verif.Connect.C100_sockets_partial",
    "Verif.Connect.C100_one_vnic",
    "Verif.Connect.C100_name",
    "Verif.Connect.C100_false_names",
    "Verif.Connect.C100_false_dead",
    "Verif.Connect.C100_false_two_vnics"
   ],
   "note": "Proved: which connections are listed, for all histories in which connection ids are not used over two control connections, and always with one VNIC. False: the sockets of connections are named by a protocol object (C100_false_names), connections lost before their announcement stay listed (C100_false_dead), with two VNICs those of the other server are listed (C100_false_two_vnics)."
  },
  {
   "property": "C101",
   "status": "partial",
   "theorems": [
    "Verif.Proc.C101_alive",
    "Verif.Proc.C101_lines",
    "Verif.Proc.C101_running",
    "Verif.Proc.C101_wait",
    "Verif.Proc.C101_shutdown",
    "Verif.Proc.C101_shutdown_none",
    "Verif.Proc.C101_refines",
    "Verif.Proc.C101_launch",
    "Verif.Proc.C101_launch_else",
    "Verif.Proc.C101_false_died",
    "Verif.Proc.C101_false_header",
    "Verif.Proc.C101_false_reuse",
    "Verif.Proc.C101_false_empty"
   ],
   "note": "Proved for every ps with a header that begins with PID and for all behaviours of the processes, and shown to be what C50 assumes of the end (C101_refines) and the start (C101_launch) of a process. False: a process that dies while it starts makes the start raise (C101_false_died),  with another header alive and dead are swapped (C101_false_header), a number that is used again is taken for the device's (C101_false_reuse), an empty pid file raises (C101_false_empty), a dead process cannot be shut down (C101_shutdown_none)."
  },
  {
   "property": "C102",
   "status": "partial",
   "theorems": [
    "Verif.C102_loop",
    "Verif.C102_complete_partial",
    "Verif.C102_bare",
    "Verif.C102_false_truncated",
    "Verif.C102_false_short"
   ],
   "note": "Proved: it ends in the first turn of its loop or never. False: for every packet cut short anywhere, and every string of fewer than 16 bytes, it never ends."
  },
  {
   "property": "C103",
   "status": "partial",
   "theorems": [
    "Verif.Loader.C103_permitted_partial",
    "Verif.Loader.C103_routes_partial",
    "Verif.Loader.C103_names",
    "Verif.Loader.C103_define",
    "Verif.Loader.C103_false_override",
    "Verif.Loader.C103_false_inherited",
    "Verif.Loader.C103_false_retry"
   ],
   "note": "Proved: names are unique and stand for their class; permissions are those of the class and of all classes above it. False: a class cannot take back what a class above it may (C103_false_override), the name of a class has to be set again in every class below (C103_false_inherited), a failed definition uses up its name (C103_false_retry)."
  },
  {
   "property": "C104",
   "status": "partial",
   "theorems": [
    "Verif.Delegate.C104_write_partial",
    "Verif.Delegate.C104_history",
    "Verif.Delegate.C104_transparent",
    "Verif.Delegate.C104_false_assign"
   ],
   "note": "Proved: exactly which assignments are seen. False: an assignment through an adapter to a name that it does not list is lost (C104_false_assign)."
  },
  {
   "property": "C105",
   "status": "partial",
   "theorems": [
    "Verif.Constant.C105_eq_partial",
    "Verif.Constant.C105_tuple",
    "Verif.Constant.C105_inverse",
    "Verif.Constant.C105_false_raises"
   ],
   "note": "False only for comparisons with what is neither a key nor four values: they raise."
  },
  {
   "property": "C106",
   "status": "partial",
   "theorems": [
    "Verif.Constant.C106_convert",
    "Verif.Constant.C106_truth",
    "Verif.Constant.C106_text_partial",
    "Verif.Constant.C106_text_empty",
    "Verif.Constant.C106_states",
    "Verif.Constant.C106_false_truth",
    "Verif.Constant.C106_false_text"
   ],
   "note": "False: a constant with only a text has no truth value (it raises), and zero has an empty text. Not expressed: that a constant is equal to itself only (object identity)."
  },
  {
   "property": "C107",
   "status": "partial",
   "theorems": [
    "Verif.Cert.C107_accepts",
    "Verif.Cert.C107_rejects",
    "Verif.Cert.C107_parts",
    "Verif.Cert.C107_names",
    "Verif.Cert.C107_false_trust",
    "Verif.Cert.C107_false_names"
   ],
   "note": "Proved: accepted exactly the chains in which each is signed by the next. False: a key that is not RSA makes it raise instead of False (C107_rejects); of several names of a kind only the last is told. C107_false_trust states what acceptance does not mean."
  },
  {
   "property": "C108",
   "status": "partial",
   "theorems": [
    "Verif.Cert.C108_verifies",
    "Verif.Cert.C108_public",
    "Verif.Cert.C108_roundtrip_partial",
    "Verif.Cert.C108_rejects",
    "Verif.Cert.C108_false_size",
    "Verif.Cert.C108_false_default"
   ],
   "note": "Proved for keys of 2048 bits. False for every other size: everything that was encrypted is taken for a forgery (C108_false_size). Assumed of the library: GoodPair."
  },
  {
   "property": "C109",
   "status": "partial",
   "theorems": [
    "Verif.Format.C109_first",
    "Verif.Format.C109_all_partial",
    "Verif.Format.C109_args_partial",
    "Verif.Format.C109_ordinary",
    "Verif.Format.C109_missing",
    "Verif.Format.C109_missing_special",
    "Verif.Format.C109_false_percent",
    "Verif.Format.C109_false_args"
   ],
   "note": "Proved for the first handler, also when a field has no value; for all handlers if there is no percent sign in the data and no doubled one in the message. False otherwise: each handler changes the record, and the next one formats what it left."
  },
  {
   "property": "C110",
   "status": "partial",
   "theorems": [
    "Verif.RawLines.C110_chunking_partial",
    "Verif.RawLines.C110_short",
    "Verif.RawLines.C110_bodies",
    "Verif.RawLines.C110_false_boundary"
   ],
   "note": "Proved if no line is found too long, and for all divisions if the lines are shorter than the maximum by the delimiter. False for lines of the maximal length: these are lost, with all that follows, when their delimiter comes in two parts."
  },
  {
   "property": "C111",
   "status": "partial",
   "theorems": [
    "Verif.LevelNet.C111_answer_partial",
    "Verif.LevelNet.C111_only_partial",
    "Verif.LevelNet.C111_mute_partial",
    "Verif.LevelNet.C111_level_partial",
    "Verif.LevelNet.C111_false_range",
    "Verif.LevelNet.C111_false_reopen"
   ],
   "note": "Proved for the levels that fit into the packet's field, a new link being opened only when there is none. False otherwise: with a level such as 256 or -1, which setPromiscuousLevel would take, the client says nothing; and while a second link is being opened the level is set but not answered. Either client waits for ever."
  },
  {
   "property": "C112",
   "status": "proved",
   "theorems": [
    "Verif.Shell.C112_suffix",
    "Verif.Shell.C112_usage",
    "Verif.Shell.C112_help",
    "Verif.Shell.C112_means",
    "Verif.Shell.C112_works",
    "Verif.Shell.C112_all",
    "Verif.Shell.C112_told",
    "Verif.Shell.C112_one",
    "Verif.Shell.C112_unknown",
    "Verif.Shell.C112_raises",
    "Verif.Shell.C112_raises_one",
    "Verif.Shell.C112_terminal",
    "Verif.Shell.C112_terminal_one",
    "Verif.Shell.C112_false_cycle",
    "Verif.Shell.C112_false_bare"
   ],
   "note": "C112_false_cycle: configureSubcommand accepts the command itself; then help ends in a RecursionError for ever, and lists no command registered later, although they work. C112_false_bare: at the terminal the help of a command with nothing configured raises, as AdvancedStdio.write does for an empty text. The recursion limit counts the nested calls of usageHelp (help) only; formatText is not modelled."
  },
  {
   "property": "C113",
   "status": "partial",
   "theorems": [
    "Verif.Logging.C113_only",
    "Verif.Logging.C113_written_partial",
    "Verif.Logging.C113_once",
    "Verif.Logging.C113_disabled",
    "Verif.Logging.C113_false_cleared"
   ],
   "note": "That a handler writes nothing else is proved for all histories; that it writes all messages that are for it, if it was not enabled when clearAllHandlers (or EnablePresetLogging) was called. Otherwise false: the old filter stays attached to it and goes on filtering."
  },
  {
   "property": "C114",
   "status": "partial",
   "theorems": [
    "Verif.Attrs.C114_given",
    "Verif.Attrs.C114_value",
    "Verif.Attrs.C114_ends",
    "Verif.Attrs.C114_valid",
    "Verif.Attrs.C114_copy",
    "Verif.Attrs.C114_new",
    "Verif.Attrs.C114_copies",
    "Verif.Attrs.C114_copy_valid_partial",
    "Verif.Attrs.C114_false_copy",
    "Verif.Attrs.C114_false_bits"
   ],
   "note": "Which attributes and values a field and its copies have is proved in full. False: that a copy takes the same data (a field with Bits n takes 2^n, its copies do not, C114_false_copy), and that what follows from new attributes takes their place (C114_false_bits); which data a copy takes is proved exactly."
  },
  {
   "property": "C52",
   "status": "proved",
   "theorems": [
    "Verif.C52_truncated_never_returns"
   ],
   "note": ""
  }
 ]
}