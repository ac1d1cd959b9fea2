'Verif.C01_roundtrip_iff_partial' depends on axioms: [propext, Classical.choice, Quot.sound]
'Verif.C01_roundtrip_flat_partial' depends on axioms: [propext, Classical.choice, Quot.sound]
'Verif.C01_false_truncated_string' depends on axioms: [propext, Classical.choice, Quot.sound]
'Verif.C01_false_nested' depends on axioms: [propext, Classical.choice, Quot.sound]
'Verif.C02_any_chunking' depends on axioms: [propext, Classical.choice, Quot.sound]
'Verif.C02_C03_prefix' depends on axioms: [propext, Classical.choice, Quot.sound]
'Verif.C03_no_premature_packet' depends on axioms: [propext, Classical.choice, Quot.sound]
'Verif.C02_C03_prefix' depends on axioms: [propext, Classical.choice, Quot.sound]
'Verif.C04_resync' depends on axioms: [propext, Classical.choice, Quot.sound]
'Verif.C05_unknown_packet_partial' depends on axioms: [propext, Classical.choice, Quot.sound]
'Verif.C05_false_equal_length' depends on axioms: [propext, Classical.choice, Quot.sound]
'Verif.C05_false_late_content' depends on axioms: [propext, Classical.choice, Quot.sound]
'Verif.C06_extension_skipped_partial' depends on axioms: [propext, Classical.choice, Quot.sound]
'Verif.C06_false_late_junk' depends on axioms: [propext, Classical.choice, Quot.sound]
'Verif.C06_low_tag_error' depends on axioms: [propext, Classical.choice, Quot.sound]
'Verif.C07_tags' depends on axioms: [propext, Classical.choice, Quot.sound]
'Verif.C07_duplicates_refused' depends on axioms: [propext, Classical.choice, Quot.sound]
'Verif.C07_refused_without_duplicates' depends on axioms: [propext, Quot.sound]
'Verif.C08_serialized_is_complete' depends on axioms: [propext, Quot.sound]
'Verif.C08_decoded_may_be_incomplete' depends on axioms: [propext, Classical.choice, Quot.sound]
'Verif.C09_uint_range' depends on axioms: [propext, Quot.sound]
'Verif.C09_limits' depends on axioms: [propext, Classical.choice, Quot.sound]
'Verif.C09_assign' depends on axioms: [propext, Classical.choice, Quot.sound]
'Verif.C09_from_float' depends on axioms: [propext, Classical.choice, Quot.sound]
'Verif.C09_uint_wire' depends on axioms: [propext, Classical.choice, Quot.sound]
'Verif.C09_unsigned_roundtrip' depends on axioms: [propext, Classical.choice, Quot.sound]
'Verif.C09_signed_partial' depends on axioms: [propext, Classical.choice, Quot.sound]
'Verif.C09_false_signed' depends on axioms: [propext, Quot.sound]
'Verif.C10_rejected_partial' depends on axioms: [propext]
'Verif.C10_accepted_is_valid' depends on axioms: [propext, Quot.sound]
'Verif.C10_false_number' depends on axioms: [propext]
'Verif.C10_false_list' depends on axioms: [propext]
'Verif.C10_rejected_value_is_sent' depends on axioms: [propext, Quot.sound]
'Verif.C10_unset_list_comes_back' depends on axioms: [propext]
'Verif.C11_strings_iff_ascii_partial' depends on axioms: [propext, Classical.choice, Quot.sound]
'Verif.C11_string_prefix' depends on axioms: [propext, Classical.choice, Quot.sound]
'Verif.C01_false_truncated_string' depends on axioms: [propext, Classical.choice, Quot.sound]
'Verif.C12_header' depends on axioms: [propext, Quot.sound]
'Verif.C12_prefix_free' depends on axioms: [propext, Classical.choice, Quot.sound]
'Verif.C13_short_fields_partial' depends on axioms: [propext, Classical.choice, Quot.sound]
'Verif.C13_false' depends on axioms: [propext, Classical.choice, Quot.sound]
'Verif.C14_write' depends on axioms: [propext, Classical.choice, Quot.sound]
'Verif.C14_read' depends on axioms: [propext, Classical.choice, Quot.sound]
'Verif.C14_roundtrip' depends on axioms: [propext, Classical.choice, Quot.sound]
'Verif.C14_false_overread' does not depend on any axioms
'Verif.C15_outcome' depends on axioms: [propext, Classical.choice, Quot.sound]
'Verif.C15_position' depends on axioms: [propext, Classical.choice, Quot.sound]
'Verif.C15_read_raises_start' depends on axioms: [propext, Classical.choice, Quot.sound]
'Verif.C15_read_raises_end' depends on axioms: [propext, Classical.choice, Quot.sound]
'Verif.C15_close_incomplete' depends on axioms: [propext, Classical.choice, Quot.sound]
'Verif.C15_no_progress' does not depend on any axioms
'Verif.C16_bijection' depends on axioms: [propext, Classical.choice, Quot.sound]
'Verif.C16_inverse_agrees' depends on axioms: [propext, Classical.choice, Quot.sound]
'Verif.C16_assignment' depends on axioms: [propext, Classical.choice, Quot.sound]
'Verif.C16_deletion' depends on axioms: [propext, Classical.choice, Quot.sound]
'Verif.C16_iteration_raises' does not depend on any axioms
'Verif.C17_immutable' depends on axioms: [propext, Classical.choice, Quot.sound]
'Verif.C17_inverse_inverse' does not depend on any axioms
'Verif.C18_flat' depends on axioms: [propext, Quot.sound]
'Verif.C19_iteration' depends on axioms: [propext, Quot.sound]
'Verif.C19_iteration_flat' depends on axioms: [propext, Quot.sound]
'Verif.C20_lookup_partial' depends on axioms: [propext, Quot.sound]
'Verif.C20_most_recent_partial' depends on axioms: [propext, Quot.sound]
'Verif.C20_independent' depends on axioms: [propext, Quot.sound]
'Verif.C20_other_version_raises' depends on axioms: [propext, Quot.sound]
'Verif.C20_false' depends on axioms: [propext, Quot.sound]
'Verif.C20_false_negative_version' does not depend on any axioms
'Verif.C21_restored' depends on axioms: [propext, Classical.choice, Quot.sound]
'Verif.C21_not_visible_outside' depends on axioms: [propext, Classical.choice, Quot.sound]
'Verif.C21_new_silo_empty' depends on axioms: [propext, Classical.choice, Quot.sound]
'Verif.C21_false_explicit_silo' depends on axioms: [propext]
'Verif.C22_roundtrip' depends on axioms: [propext, Quot.sound]
'Verif.C22_accepts_iff' depends on axioms: [propext, Classical.choice, Quot.sound]
'Verif.C22_rejects' depends on axioms: [propext, Quot.sound]
'Verif.C22_codec' depends on axioms: [propext, Quot.sound]
'Verif.C53_outcomes' depends on axioms: [propext, Quot.sound]
'Verif.C53_false_two_versions' depends on axioms: [propext, Quot.sound]
'Verif.C23_refines_fifo' depends on axioms: [propext, Quot.sound]
'Verif.C23_conservation' depends on axioms: [propext, Quot.sound]
'Verif.C23_peek_is_next_read' depends on axioms: [propext, Quot.sound]
'Verif.C23_peek_zero' depends on axioms: [propext, Quot.sound]
'Verif.C24_within_buffers_partial' depends on axioms: [propext, Classical.choice, Quot.sound]
'Verif.C24_false_boundary' depends on axioms: [propext]
'Verif.C24_false_empty' depends on axioms: [propext]
'Verif.C25_address_roundtrip' depends on axioms: [propext, Quot.sound]
'Verif.C25_block_roundtrip' depends on axioms: [propext, Quot.sound]
'Verif.C25_address_accepts_iff' depends on axioms: [propext, Classical.choice, Quot.sound]
'Verif.C25_block_accepts_iff' depends on axioms: [propext, Classical.choice, Quot.sound]
'Verif.C25_equality' depends on axioms: [propext, Quot.sound]
'Verif.C25_false_isValid' depends on axioms: [propext, Classical.choice, Quot.sound]
'Verif.C26_chain' depends on axioms: [propext, Quot.sound]
'Verif.C26_isParentBlock_iff' depends on axioms: [propext, Quot.sound]
'Verif.C26_parents_are_ancestors' depends on axioms: [propext, Quot.sound]
'Verif.C26_parent_is_parent' depends on axioms: [propext, Quot.sound]
'Verif.C26_spawn' depends on axioms: [propext, Quot.sound]
'Verif.Addr.C26_prefix' depends on axioms: [propext, Quot.sound]
'Verif.C26_false_noncanonical' does not depend on any axioms
'Verif.Addr.C26_false_prefix' depends on axioms: [propext, Classical.choice, Quot.sound]
'Verif.C27_no_error' depends on axioms: [propext, Classical.choice, Quot.sound]
'Verif.C27_links' depends on axioms: [propext, Classical.choice, Quot.sound]
'Verif.C27_links_block' depends on axioms: [propext, Classical.choice, Quot.sound]
'Verif.C27_fuel' depends on axioms: [propext, Quot.sound]
'Verif.SwNet.C27_forward' depends on axioms: [propext, Classical.choice, Quot.sound]
'Verif.SwNet.C27_batching' depends on axioms: [propext, Classical.choice, Quot.sound]
'Verif.C27_false_noncanonical' depends on axioms: [propext, Classical.choice, Quot.sound]
'Verif.C28_ignored_partial' depends on axioms: [propext, Classical.choice, Quot.sound]
'Verif.C28_valid_registered' depends on axioms: [propext, Quot.sound]
'Verif.C28_raises_iff' depends on axioms: [propext, Classical.choice, Quot.sound]
'Verif.SwNet.C28_net_ignored_partial' depends on axioms: [propext, Classical.choice, Quot.sound]
'Verif.C28_false_negative' depends on axioms: [propext, Classical.choice, Quot.sound]
'Verif.SwNet.C28_false_postponed' depends on axioms: [propext, Classical.choice, Quot.sound]
'Verif.Frag.C29_sender' depends on axioms: [propext, Quot.sound]
'Verif.Frag.C29_sender_small' does not depend on any axioms
'Verif.Frag.C29_chunk_iff' depends on axioms: [propext, Quot.sound]
'Verif.Frag.C29_reassembled_partial' depends on axioms: [propext, Classical.choice, Quot.sound]
'Verif.Frag.C29_false_stale' depends on axioms: [propext, Quot.sound]
'Verif.Frag.C30_independent_partial' depends on axioms: [propext, Classical.choice, Quot.sound]
'Verif.Frag.C30_unfragmented_partial' depends on axioms: [propext, Quot.sound]
'Verif.Frag.C30_false_same_id' depends on axioms: [propext, Quot.sound]
'Verif.Vnic.C31_unique' depends on axioms: [propext, Classical.choice, Quot.sound]
'Verif.Vnic.C31_outbound' depends on axioms: [propext, Classical.choice, Quot.sound]
'Verif.Vnic.C31_exhausted' depends on axioms: [propext, Classical.choice, Quot.sound]
'Verif.Vnic.C31_listen' depends on axioms: [propext, Classical.choice, Quot.sound]
'Verif.Vnic.C32_stream' depends on axioms: [propext, Classical.choice, Quot.sound]
'Verif.Vnic.C32_own' depends on axioms: [propext, Classical.choice, Quot.sound]
'Verif.Vnic.C32_now' depends on axioms: [propext, Quot.sound]
'Verif.Vnic.C32_attach' depends on axioms: [propext, Quot.sound]
'Verif.Vnic.C33_accepts' depends on axioms: [propext, Classical.choice, Quot.sound]
'Verif.Vnic.C33_dropped' depends on axioms: [propext, Classical.choice, Quot.sound]
'Verif.Vnic.C34_close_packet_partial' depends on axioms: [propext, Classical.choice, Quot.sound]
'Verif.Vnic.C34_control_lost_partial' depends on axioms: [propext, Classical.choice, Quot.sound]
'Verif.Vnic.C34_idempotent' depends on axioms: [propext, Classical.choice, Quot.sound]
'Verif.Vnic.C34_false_opening' depends on axioms: [propext, Classical.choice, Quot.sound]
'Verif.Vnic.C35_response_partial' depends on axioms: [propext, Classical.choice, Quot.sound]
'Verif.Vnic.C35_only' depends on axioms: [propext, Quot.sound]
'Verif.Vnic.C35_false_other' depends on axioms: [propext, Classical.choice, Quot.sound]
'Verif.Vnic.C35_refused_keeps_id' depends on axioms: [propext, Classical.choice, Quot.sound]
'Verif.Cli.C36_ids' depends on axioms: [propext, Classical.choice, Quot.sound]
'Verif.Cli.C36_future' depends on axioms: [propext, Classical.choice, Quot.sound]
'Verif.Cli.C36_unknown_response' depends on axioms: [propext]
'Verif.Cli.C36_unknown_id' depends on axioms: [propext, Classical.choice, Quot.sound]
'Verif.Cli.C36_at_most_once' depends on axioms: [propext, Classical.choice, Quot.sound]
'Verif.Cli.C36_announced' depends on axioms: [propext, Classical.choice, Quot.sound]
'Verif.Cli.C36_false_unknown_announcement' depends on axioms: [propext]
'Verif.Cli.C36_second_announcement' depends on axioms: [propext]
'Verif.Callback.C37_stream' depends on axioms: [propext, Classical.choice, Quot.sound]
'Verif.Callback.C37_connection_first_partial' depends on axioms: [propext, Classical.choice, Quot.sound]
'Verif.Callback.C37_announcement_first_partial' depends on axioms: [propext, Classical.choice, Quot.sound]
'Verif.Callback.C37_false_same_port' depends on axioms: [propext]
'Verif.Callback.C37_false_lost' depends on axioms: [propext]
'Verif.Prom.C38_announced_partial' depends on axioms: [propext, Classical.choice, Quot.sound]
'Verif.Prom.C38_level_partial' depends on axioms: [propext, Classical.choice, Quot.sound]
'Verif.Prom.C38_switch' depends on axioms: [propext, Classical.choice, Quot.sound]
'Verif.Prom.C38_false_reopen' depends on axioms: [propext, Classical.choice, Quot.sound]
'Verif.Wan.C39_real' depends on axioms: [propext, Quot.sound]
'Verif.Wan.C39_direct' depends on axioms: [propext, Quot.sound]
'Verif.Wan.C39_prefixes' depends on axioms: [propext, Quot.sound]
'Verif.Wan.C40_shortest_partial' depends on axioms: [propext, Quot.sound]
'Verif.Wan.C40_unreachable_partial' depends on axioms: [propext, Quot.sound]
'Verif.Wan.C40_self' depends on axioms: [propext, Classical.choice, Quot.sound]
'Verif.Wan.C40_false_failed' depends on axioms: [propext, Quot.sound]
'Verif.Wan.C41_follow_partial' depends on axioms: [propext, Quot.sound]
'Verif.Wan.C41_no_loop_partial' depends on axioms: [propext, Quot.sound]
'Verif.Wan.C41_no_route' depends on axioms: [propext]
'Verif.Timer.C42_not_early' depends on axioms: [propext, Quot.sound]
'Verif.Timer.C42_extended' depends on axioms: [propext, Classical.choice, Quot.sound]
'Verif.Timer.C42_cancelled' depends on axioms: [propext, Quot.sound]
'Verif.Timer.C42_expired' depends on axioms: [propext, Quot.sound]
'Verif.Timer.C42_exact' depends on axioms: [propext, Quot.sound]
'Verif.Timer.C42_extension' depends on axioms: [propext]
'Verif.Timer.C42_false_reuse' does not depend on any axioms
'Verif.Lines.C43_lines_partial' depends on axioms: [propext, Classical.choice, Quot.sound]
'Verif.Lines.C43_chunking_partial' depends on axioms: [propext, Classical.choice, Quot.sound]
'Verif.Lines.C43_sent' depends on axioms: [propext, Classical.choice, Quot.sound]
'Verif.Lines.C43_conserved' depends on axioms: [propext, Quot.sound]
'Verif.Lines.C43_false_boundary' does not depend on any axioms
'Verif.Lines.C43_false_handler' does not depend on any axioms
'Verif.Obs.C46_methods' depends on axioms: [propext, Classical.choice, Quot.sound]
'Verif.Obs.C46_sent_partial' depends on axioms: [propext, Classical.choice, Quot.sound]
'Verif.Obs.C46_false_late' depends on axioms: [propext, Quot.sound]
'Verif.Obs.C46_false_shared' depends on axioms: [propext, Quot.sound]
'Verif.Obs.C46_false_twice' depends on axioms: [propext, Quot.sound]
'Verif.Stack.C47_order' depends on axioms: [propext, Quot.sound]
'Verif.Stack.C47_attached' depends on axioms: [propext, Classical.choice, Quot.sound]
'Verif.Stack.C47_data' depends on axioms: [propext, Classical.choice, Quot.sound]
'Verif.Stack.C47_end_to_end' depends on axioms: [propext, Classical.choice, Quot.sound]
'Verif.Stack.C47_false_empty' depends on axioms: [propext]
'Verif.Stack.C47_false_nested' depends on axioms: [propext]
'Verif.Unrel.C48_exact' depends on axioms: [propext, Classical.choice, Quot.sound]
'Verif.Unrel.C48_lengths' depends on axioms: [propext, Classical.choice, Quot.sound]
'Verif.Unrel.C48_cut_partial' depends on axioms: [propext, Classical.choice, Quot.sound]
'Verif.Unrel.C48_delay_all' depends on axioms: [propext, Quot.sound]
'Verif.Unrel.C48_delay_order' depends on axioms: [propext]
'Verif.Unrel.C48_false_cut' depends on axioms: [propext, Quot.sound]
'Verif.Unrel.C48_false_settings' depends on axioms: [propext, Quot.sound]
'Verif.Cipher.C45_roundtrip_partial' depends on axioms: [propext, Classical.choice, Quot.sound]
'Verif.Cipher.C45_length' depends on axioms: [propext, Quot.sound]
'Verif.Cipher.C45_rejects' depends on axioms: [propext, Quot.sound]
'Verif.Cipher.C45_short' depends on axioms: [propext, Quot.sound]
'Verif.Cipher.C45_authentic' depends on axioms: [propext, Quot.sound]
'Verif.Cipher.C45_false_same_object' depends on axioms: [propext, Quot.sound]
'Verif.Cipher.C45_false_second' depends on axioms: [propext, Quot.sound]
'Verif.Routes.C49_table' depends on axioms: [propext, Classical.choice, Quot.sound]
'Verif.Routes.C49_lookup_partial' depends on axioms: [propext, Classical.choice, Quot.sound]
'Verif.Routes.C49_destroyed' depends on axioms: [propext, Classical.choice, Quot.sound]
'Verif.Routes.C49_false_bad_route' depends on axioms: [propext, Classical.choice, Quot.sound]
'Verif.Routes.C49_false_removed' depends on axioms: [propext, Classical.choice, Quot.sound]
'Verif.Device.C50_enabled_only' depends on axioms: [propext, Classical.choice, Quot.sound]
'Verif.Device.C50_only_self' depends on axioms: [propext, Classical.choice, Quot.sound]
'Verif.Device.C50_enable_outcome' depends on axioms: [propext, Classical.choice, Quot.sound]
'Verif.Device.C50_enable_works' depends on axioms: [propext, Classical.choice, Quot.sound]
'Verif.Device.C50_disable_partial' depends on axioms: [propext, Classical.choice, Quot.sound]
'Verif.Device.C50_disable_fails' depends on axioms: [propext, Classical.choice, Quot.sound]
'Verif.Device.C50_restart' depends on axioms: [propext, Classical.choice, Quot.sound]
'Verif.Device.C50_false_waiting' depends on axioms: [propext, Quot.sound]
'Verif.Device.C50_false_disable_waiting' depends on axioms: [propext, Quot.sound]
'Verif.Device.C50_false_dependants' depends on axioms: [propext, Quot.sound]
'Verif.Device.C50_false_crashed' depends on axioms: [propext, Quot.sound]
'Verif.Spmp.C44_unauthorized' depends on axioms: [propext, Classical.choice, Quot.sound]
'Verif.Spmp.C44_unauthorized_silent' depends on axioms: [propext, Classical.choice, Quot.sound]
'Verif.Spmp.C44_only_authorized' depends on axioms: [propext, Classical.choice, Quot.sound]
'Verif.Spmp.C44_each_once_partial' depends on axioms: [propext, Classical.choice, Quot.sound]
'Verif.Spmp.C44_client_partial' depends on axioms: [propext, Classical.choice, Quot.sound]
'Verif.Spmp.C44_end_to_end_partial' depends on axioms: [propext, Classical.choice, Quot.sound]
'Verif.Spmp.Fits.plain' depends on axioms: [propext, Classical.choice, Quot.sound]
'Verif.Spmp.C44_hidden' depends on axioms: [propext, Classical.choice, Quot.sound]
'Verif.Spmp.C44_hidden_errors' depends on axioms: [propext, Quot.sound]
'Verif.Spmp.C44_hidden_once_partial' depends on axioms: [propext, Classical.choice, Quot.sound]
'Verif.Spmp.C44_hidden_raise' depends on axioms: [propext, Classical.choice, Quot.sound]
'Verif.Spmp.C44_false_silent' depends on axioms: [propext, Classical.choice, Quot.sound]
'Verif.Spmp.C44_false_long' depends on axioms: [propext, Classical.choice, Quot.sound]
'Verif.Spmp.C44_false_stale' depends on axioms: [propext, Classical.choice, Quot.sound]
'Verif.Spmp.C44_false_no_args' depends on axioms: [propext, Classical.choice, Quot.sound]
'Verif.C51_nextPackets_terminates' depends on axioms: [propext, Classical.choice, Quot.sound]
'Verif.C51_events_bounded' depends on axioms: [propext, Classical.choice, Quot.sound]
'Verif.C54_format' depends on axioms: [propext, Quot.sound]
'Verif.C54_prefix' depends on axioms: [propext, Classical.choice, Quot.sound]
'Verif.C54_any_chunking' depends on axioms: [propext, Classical.choice, Quot.sound]
'Verif.C54_no_premature' depends on axioms: [propext, Classical.choice, Quot.sound]
'Verif.C54_only_frames' depends on axioms: [propext, Classical.choice, Quot.sound]
'Verif.C54_no_magic_no_packet' depends on axioms: [propext, Classical.choice, Quot.sound]
'Verif.C54_resync_partial' depends on axioms: [propext, Classical.choice, Quot.sound]
'Verif.C54_false_nonascii' depends on axioms: [propext, Classical.choice, Quot.sound]
'Verif.C54_false_resync' depends on axioms: [propext, Classical.choice, Quot.sound]
'Verif.C55_wrong_length_error' depends on axioms: [propext, Classical.choice, Quot.sound]
'Verif.C55_padding_skipped' depends on axioms: [propext, Classical.choice, Quot.sound]
'Verif.WanNet.C56_local' depends on axioms: [propext, Classical.choice, Quot.sound]
'Verif.WanNet.C56_only_neighbours' depends on axioms: [propext, Classical.choice, Quot.sound]
'Verif.WanNet.C56_never_beyond_next_hop' depends on axioms: [propext, Classical.choice, Quot.sound]
'Verif.WanNet.C56_direct_partial' depends on axioms: [propext, Classical.choice, Quot.sound]
'Verif.WanNet.C56_overheard' depends on axioms: [propext, Classical.choice, Quot.sound]
'Verif.WanNet.C56_unlocated' depends on axioms: [propext, Classical.choice, Quot.sound]
'Verif.WanNet.C56_reannounce' depends on axioms: [propext, Classical.choice, Quot.sound]
'Verif.WanNet.C56_no_key_error' depends on axioms: [propext, Classical.choice, Quot.sound]
'Verif.WanNet.C56_false_multihop' depends on axioms: [propext, Classical.choice, Quot.sound]
'Verif.WanNet.C56_false_once' depends on axioms: [propext, Classical.choice, Quot.sound]
'Verif.WanNet.C56_false_removed' depends on axioms: [propext, Classical.choice, Quot.sound]
'Verif.WanNet.C56_false_zero' depends on axioms: [propext, Classical.choice, Quot.sound]
'Verif.WanNet.C56_false_lost_announcement' depends on axioms: [propext, Classical.choice, Quot.sound]
'Verif.Spmp.C57_prefix' depends on axioms: [propext, Classical.choice, Quot.sound]
'Verif.Spmp.C57_complete' depends on axioms: [propext, Classical.choice, Quot.sound]
'Verif.Spmp.C57_demux' depends on axioms: [propext, Classical.choice, Quot.sound]
'Verif.Spmp.C57_wrap' depends on axioms: [propext, Classical.choice, Quot.sound]
'Verif.Spmp.C57_written' depends on axioms: [propext, Classical.choice, Quot.sound]
'Verif.Spmp.C57_device_partial' depends on axioms: [propext, Classical.choice, Quot.sound]
'Verif.Spmp.C57_client_partial' depends on axioms: [propext, Classical.choice, Quot.sound]
'Verif.Spmp.C57_end_to_end_partial' depends on axioms: [propext, Classical.choice, Quot.sound]
'Verif.Spmp.C57_unauthorized' depends on axioms: [propext, Classical.choice, Quot.sound]
'Verif.Spmp.C57_only_authorized' depends on axioms: [propext, Classical.choice, Quot.sound]
'Verif.Spmp.C57_raises' depends on axioms: [propext, Classical.choice, Quot.sound]
'Verif.Spmp.C57_false_stuck' depends on axioms: [propext, Classical.choice, Quot.sound]
'Verif.Spmp.C57_false_unset' depends on axioms: [propext, Classical.choice, Quot.sound]
'Verif.Link.C58_network' depends on axioms: [propext, Classical.choice, Quot.sound]
'Verif.Link.C58_routed_unique' depends on axioms: [propext, Quot.sound]
'Verif.Link.C58_received' depends on axioms: [propext, Classical.choice, Quot.sound]
'Verif.Link.C58_received_sofar' depends on axioms: [propext, Classical.choice, Quot.sound]
'Verif.Link.C58_delivered_sofar' depends on axioms: [propext, Classical.choice, Quot.sound]
'Verif.Link.C58_delivered_small' depends on axioms: [propext, Classical.choice, Quot.sound]
'Verif.Link.C58_delivered_alone' depends on axioms: [propext, Classical.choice, Quot.sound]
'Verif.Link.C58_delivered_large_partial' depends on axioms: [propext, Classical.choice, Quot.sound]
'Verif.Link.C58_reaches' depends on axioms: [propext, Classical.choice, Quot.sound]
'Verif.Link.C58_can_drain' depends on axioms: [propext, Quot.sound]
'Verif.Link.C58_false_stale' depends on axioms: [propext, Classical.choice, Quot.sound]
'Verif.Link.C58_false_uncalm' depends on axioms: [propext, Classical.choice, Quot.sound]
'Verif.Pnms.C59_commands_partial' depends on axioms: [propext, Classical.choice, Quot.sound]
'Verif.Pnms.C59_all_commands' depends on axioms: [propext, Classical.choice, Quot.sound]
'Verif.Pnms.C59_step_unique' depends on axioms: [propext, Classical.choice, Quot.sound]
'Verif.Pnms.C59_steps_unique' depends on axioms: [propext, Classical.choice, Quot.sound]
'Verif.Pnms.C59_closed' depends on axioms: [propext, Classical.choice, Quot.sound]
'Verif.Pnms.C59_crash_partial' depends on axioms: [propext, Classical.choice, Quot.sound]
'Verif.Pnms.C59_false_removed_route' depends on axioms: [propext, Classical.choice, Quot.sound]
'Verif.Pnms.C59_false_case' depends on axioms: [propext, Classical.choice, Quot.sound]
'Verif.Pnms.C59_false_crash' depends on axioms: [propext, Classical.choice, Quot.sound]
'Verif.Pnms.C59_false_remove_crash' depends on axioms: [propext, Classical.choice, Quot.sound]
'Verif.E2E.C60_stream_sofar' depends on axioms: [propext, Classical.choice, Quot.sound]
'Verif.E2E.C60_stream' depends on axioms: [propext, Classical.choice, Quot.sound]
'Verif.E2E.C60_source' depends on axioms: [propext, Classical.choice, Quot.sound]
'Verif.E2E.C60_sockets' depends on axioms: [propext, Classical.choice, Quot.sound]
'Verif.E2E.C60_distinct' depends on axioms: [propext, Classical.choice, Quot.sound]
'Verif.E2E.C60_can_arrive' depends on axioms: [propext, Classical.choice, Quot.sound]
'Verif.E2E.C60_unseen' depends on axioms: [propext, Classical.choice, Quot.sound]
'Verif.E2E.C60_stays_open' depends on axioms: [propext, Quot.sound]
'Verif.E2E.C60_false_told' depends on axioms: [propext, Classical.choice, Quot.sound]
'Verif.E2E.C60_false_nobody' depends on axioms: [propext, Classical.choice, Quot.sound]
'Verif.E2E.C60_false_middle' depends on axioms: [propext, Classical.choice, Quot.sound]
'Verif.E2E.C60_false_hijack' depends on axioms: [propext, Classical.choice, Quot.sound]
'Verif.Connect.C61_own_partial' depends on axioms: [propext, Classical.choice, Quot.sound]
'Verif.Connect.C61_one_vnic' depends on axioms: [propext, Classical.choice, Quot.sound]
'Verif.Connect.C61_false_two_vnics' depends on axioms: [propext, Quot.sound]
'Verif.Connect.C61_false_concurrent' depends on axioms: [propext, Quot.sound]
'Verif.Connect.C61_false_late' depends on axioms: [propext, Quot.sound]
'Verif.Connect.C62_completes_partial' depends on axioms: [propext, Classical.choice, Quot.sound]
'Verif.Connect.C62_direct_partial' depends on axioms: [propext, Classical.choice, Quot.sound]
'Verif.Connect.C62_stuck' depends on axioms: [propext, Quot.sound]
'Verif.Connect.C62_false_lost_wakeup' depends on axioms: [propext, Quot.sound]
'Verif.Connect.C62_false_closed_early' depends on axioms: [propext, Quot.sound]
'Verif.Connect.C62_dial_failed' depends on axioms: [propext, Quot.sound]
'Verif.Connect.C62_dead_control' depends on axioms: [propext, Classical.choice, Quot.sound]
'Verif.Connect.C63_close_partial' depends on axioms: [propext, Classical.choice, Quot.sound]
'Verif.Connect.C63_one_vnic' depends on axioms: [propext, Classical.choice, Quot.sound]
'Verif.Connect.C63_once' depends on axioms: [propext, Quot.sound]
'Verif.Connect.C63_false_two_vnics' depends on axioms: [propext, Quot.sound]
'Verif.Connect.C63_false_late' depends on axioms: [propext, Quot.sound]
'Verif.Host.C64_pair' depends on axioms: [propext, Classical.choice, Quot.sound]
'Verif.Host.C64_one' depends on axioms: [propext, Classical.choice, Quot.sound]
'Verif.Host.C64_in' depends on axioms: [propext, Classical.choice, Quot.sound]
'Verif.Host.C64_out' depends on axioms: [propext, Classical.choice, Quot.sound]
'Verif.Host.C64_client_partial' depends on axioms: [propext, Classical.choice, Quot.sound]
'Verif.Host.C64_client_one' depends on axioms: [propext, Classical.choice, Quot.sound]
'Verif.Host.C64_in_can' depends on axioms: [propext, Classical.choice, Quot.sound]
'Verif.Host.C64_out_can' depends on axioms: [propext, Classical.choice, Quot.sound]
'Verif.Host.C64_server' depends on axioms: [propext, Classical.choice, Quot.sound]
'Verif.Host.C64_no_early' depends on axioms: [propext, Classical.choice, Quot.sound]
'Verif.Apps.C65_sofar' depends on axioms: [propext, Classical.choice, Quot.sound]
'Verif.Apps.C65_all' depends on axioms: [propext, Classical.choice, Quot.sound]
'Verif.Apps.C65_can' depends on axioms: [propext, Classical.choice, Quot.sound]
'Verif.Apps.C65_between' depends on axioms: [propext, Classical.choice, Quot.sound]
'Verif.Apps.C65_to_server' depends on axioms: [propext, Classical.choice, Quot.sound]
'Verif.Apps.C65_to_client' depends on axioms: [propext, Classical.choice, Quot.sound]
'Verif.Shell.C66_space' depends on axioms: [propext, Classical.choice, Quot.sound]
'Verif.Shlex.C66_words' depends on axioms: [propext, Classical.choice, Quot.sound]
'Verif.Shlex.C66_one_reading' depends on axioms: [propext, Classical.choice, Quot.sound]
'Verif.Shlex.C66_bad_line' depends on axioms: [propext, Classical.choice, Quot.sound]
'Verif.Shlex.C66_typed' depends on axioms: [propext, Classical.choice, Quot.sound]
'Verif.Shell.C66_one' depends on axioms: [propext, Classical.choice, Quot.sound]
'Verif.Shell.C66_runs' depends on axioms: [propext, Classical.choice, Quot.sound]
'Verif.Shell.C66_refused' depends on axioms: [propext, Classical.choice, Quot.sound]
'Verif.Shell.C66_nothing' depends on axioms: [propext, Classical.choice, Quot.sound]
'Verif.Shell.C66_frame' depends on axioms: [propext]
'Verif.Shell.C66_typed_means' depends on axioms: [propext, Classical.choice, Quot.sound]
'Verif.Shell.C66_keeps' depends on axioms: [propext, Classical.choice, Quot.sound]
'Verif.Shell.C66_register' depends on axioms: [propext, Classical.choice, Quot.sound]
'Verif.Shell.C66_configure' depends on axioms: [propext, Classical.choice, Quot.sound]
'Verif.Shell.C66_configureSub' depends on axioms: [propext, Classical.choice, Quot.sound]
'Verif.Shell.C66_builtin' depends on axioms: [propext, Classical.choice, Quot.sound]
'Verif.Shell.C66_help' depends on axioms: [propext, Classical.choice, Quot.sound]
'Verif.Shell.C66_end_to_end' depends on axioms: [propext, Classical.choice, Quot.sound]
'Verif.Shell.C66_false_empty' depends on axioms: [propext, Classical.choice, Quot.sound]
'Verif.Shell.C66_false_blank' depends on axioms: [propext, Classical.choice, Quot.sound]
'Verif.Shell.C67_prefix' depends on axioms: [propext, Classical.choice, Quot.sound]
'Verif.Shell.C67_one_file' depends on axioms: [propext, Classical.choice, Quot.sound]
'Verif.Shell.C67_order' depends on axioms: [propext, Classical.choice, Quot.sound]
'Verif.Shell.C67_over' depends on axioms: [propext, Classical.choice, Quot.sound]
'Verif.Shell.C67_progress' depends on axioms: [propext, Classical.choice, Quot.sound]
'Verif.Shell.C67_false_plain' depends on axioms: [propext, Classical.choice, Quot.sound]
'Verif.Shell.C67_false_help' depends on axioms: [propext, Classical.choice, Quot.sound]
'Verif.Shell.C67_false_blank' depends on axioms: [propext, Classical.choice, Quot.sound]
'Verif.Launch.C68_trace' depends on axioms: [propext, Classical.choice, Quot.sound]
'Verif.Launch.C68_at_most_one' depends on axioms: [propext, Classical.choice, Quot.sound]
'Verif.Launch.C68_one_partial' depends on axioms: [propext, Classical.choice, Quot.sound]
'Verif.Launch.C68_due_partial' depends on axioms: [propext, Classical.choice, Quot.sound]
'Verif.Launch.C68_refused' depends on axioms: [propext, Classical.choice, Quot.sound]
'Verif.Launch.C68_dials' depends on axioms: [propext, Classical.choice, Quot.sound]
'Verif.Launch.C68_accepted' depends on axioms: [propext, Classical.choice, Quot.sound]
'Verif.Launch.C68_recovers_partial' depends on axioms: [propext, Classical.choice, Quot.sound]
'Verif.Launch.C68_never_closes' depends on axioms: [propext, Classical.choice, Quot.sound]
'Verif.Launch.C68_live' depends on axioms: [propext, Classical.choice, Quot.sound]
'Verif.Launch.C68_announced' depends on axioms: [propext, Classical.choice, Quot.sound]
'Verif.Launch.C68_false_dead' depends on axioms: [propext, Classical.choice, Quot.sound]
'Verif.Launch.C69_file_partial' depends on axioms: [propext, Classical.choice, Quot.sound]
'Verif.Launch.C69_written' depends on axioms: [propext, Classical.choice, Quot.sound]
'Verif.Launch.C69_visible_partial' depends on axioms: [propext, Classical.choice, Quot.sound]
'Verif.Launch.C69_port' depends on axioms: [propext, Classical.choice, Quot.sound]
'Verif.Launch.C69_status' depends on axioms: [propext, Classical.choice, Quot.sound]
'Verif.Launch.C69_pnms_partial' depends on axioms: [propext, Classical.choice, Quot.sound]
'Verif.Launch.C69_false_name' depends on axioms: [propext, Classical.choice, Quot.sound]
'Verif.Launch.C69_false_unwritten' depends on axioms: [propext, Classical.choice, Quot.sound]
'Verif.Launch.C69_false_cut' depends on axioms: [propext, Classical.choice, Quot.sound]
'Verif.Launch.C69_false_moment' depends on axioms: [propext, Classical.choice, Quot.sound]
'Verif.Logging.C70_stderr' depends on axioms: [propext, Classical.choice, Quot.sound]
'Verif.Logging.C70_file' depends on axioms: [propext, Classical.choice, Quot.sound]
'Verif.Logging.C70_once' depends on axioms: [propext, Classical.choice, Quot.sound]
'Verif.Logging.C70_playground_partial' depends on axioms: [propext, Classical.choice, Quot.sound]
'Verif.Logging.C70_off' depends on axioms: [propext, Classical.choice, Quot.sound]
'Verif.Logging.C70_tag' depends on axioms: [propext, Classical.choice, Quot.sound]
'Verif.Logging.C70_tag_round' depends on axioms: [propext, Classical.choice, Quot.sound]
'Verif.Logging.C70_cmd_long' depends on axioms: [propext, Classical.choice, Quot.sound]
'Verif.Logging.C70_false_plain' depends on axioms: [propext, Classical.choice, Quot.sound]
'Verif.Logging.C70_false_aux' depends on axioms: [propext, Classical.choice, Quot.sound]
'Verif.Logging.C70_false_sticky' depends on axioms: [propext, Classical.choice, Quot.sound]
'Verif.Logging.C70_false_unknown' depends on axioms: [propext, Classical.choice, Quot.sound]
'Verif.Logging.C70_false_file' depends on axioms: [propext, Classical.choice, Quot.sound]
'Verif.Service.C71_get_partial' depends on axioms: [propext, Classical.choice, Quot.sound]
'Verif.Service.C71_first_partial' depends on axioms: [propext, Classical.choice, Quot.sound]
'Verif.Service.C71_family' depends on axioms: [propext, Classical.choice, Quot.sound]
'Verif.Service.C71_plain' depends on axioms: [propext, Classical.choice, Quot.sound]
'Verif.Service.C71_scheme' depends on axioms: [propext, Classical.choice, Quot.sound]
'Verif.Service.C71_two' depends on axioms: [propext, Classical.choice, Quot.sound]
'Verif.Service.C71_create' depends on axioms: [propext, Classical.choice, Quot.sound]
'Verif.Service.C71_serve' depends on axioms: [propext, Classical.choice, Quot.sound]
'Verif.Service.C71_false_nopath' depends on axioms: [propext, Classical.choice, Quot.sound]
'Verif.Service.C71_false_dies' depends on axioms: [propext, Classical.choice, Quot.sound]
'Verif.Service.C71_false_failed_reload' depends on axioms: [propext, Classical.choice, Quot.sound]
'Verif.Service.C71_false_syspath' depends on axioms: [propext]
'Verif.Config.C72_current' depends on axioms: [propext, Classical.choice, Quot.sound]
'Verif.Config.C72_add' depends on axioms: [propext, Classical.choice, Quot.sound]
'Verif.Config.C72_initialize' depends on axioms: [propext, Classical.choice, Quot.sound]
'Verif.Config.C73_frame' depends on axioms: [propext, Classical.choice, Quot.sound]
'Verif.Config.C73_read_only' depends on axioms: [propext, Classical.choice, Quot.sound]
'Verif.Config.C73_open' depends on axioms: [propext, Classical.choice, Quot.sound]
'Verif.Config.C73_saved' depends on axioms: [propext, Classical.choice, Quot.sound]
'Verif.Config.C73_reload_partial' depends on axioms: [propext, Classical.choice, Quot.sound]
'Verif.Config.C73_false_stale' depends on axioms: [propext, Classical.choice, Quot.sound]
'Verif.Config.C73_false_lost' depends on axioms: [propext, Classical.choice, Quot.sound]
'Verif.Config.C73_read_overwrites' depends on axioms: [propext, Classical.choice, Quot.sound]
'Verif.Config.C73_path' depends on axioms: [propext, Classical.choice, Quot.sound]
'Verif.Config.C73_distinct' depends on axioms: [propext, Classical.choice, Quot.sound]
'Verif.Config.C73_false_names' depends on axioms: [propext, Classical.choice, Quot.sound]
'Verif.WanApi.C74_calls' depends on axioms: [propext, Classical.choice, Quot.sound]
'Verif.WanApi.C74_route' depends on axioms: [propext, Classical.choice, Quot.sound]
'Verif.WanApi.C74_shortest_partial' depends on axioms: [propext, Classical.choice, Quot.sound]
'Verif.WanApi.C74_text' depends on axioms: [propext, Quot.sound]
'Verif.WanApi.C74_add' depends on axioms: [propext, Classical.choice, Quot.sound]
'Verif.WanApi.C74_direct' depends on axioms: [propext, Classical.choice, Quot.sound]
'Verif.WanApi.C74_direct_refused' depends on axioms: [propext, Classical.choice, Quot.sound]
'Verif.WanApi.C74_location' depends on axioms: [propext, Classical.choice, Quot.sound]
'Verif.WanApi.C74_no_connection' depends on axioms: [propext, Classical.choice, Quot.sound]
'Verif.WanApi.C74_routes' depends on axioms: [propext, Classical.choice, Quot.sound]
'Verif.WanApi.C74_connections' depends on axioms: [propext, Classical.choice, Quot.sound]
'Verif.WanApi.C74_reads' depends on axioms: [propext, Classical.choice, Quot.sound]
'Verif.WanApi.C74_settings' depends on axioms: [propext, Classical.choice, Quot.sound]
'Verif.WanApi.C74_managed_partial' depends on axioms: [propext, Classical.choice, Quot.sound]
'Verif.WanApi.C74_remote' depends on axioms: [propext, Classical.choice, Quot.sound]
'Verif.WanApi.C74_false_atomic' depends on axioms: [propext, Classical.choice, Quot.sound]
'Verif.WanApi.C74_false_remove' depends on axioms: [propext, Classical.choice, Quot.sound]
'Verif.WanApi.C74_false_location' depends on axioms: [propext, Classical.choice, Quot.sound]
'Verif.WanApi.C74_false_shortest' depends on axioms: [propext, Classical.choice, Quot.sound]
'Verif.SwitchApi.C75_settings' depends on axioms: [propext, Classical.choice, Quot.sound]
'Verif.SwitchApi.C75_set' depends on axioms: [propext, Classical.choice, Quot.sound]
'Verif.SwitchApi.C75_reads' depends on axioms: [propext, Classical.choice, Quot.sound]
'Verif.SwitchApi.C75_reliable_verbs' depends on axioms: [propext, Classical.choice, Quot.sound]
'Verif.SwitchApi.C75_frame' depends on axioms: [propext, Classical.choice, Quot.sound]
'Verif.SwitchApi.C75_receivers' depends on axioms: [propext, Classical.choice, Quot.sound]
'Verif.SwitchApi.C75_connected' depends on axioms: [propext, Classical.choice, Quot.sound]
'Verif.SwitchApi.C75_unchanged' depends on axioms: [propext, Classical.choice, Quot.sound]
'Verif.SwitchApi.C75_reliable' depends on axioms: [propext, Classical.choice, Quot.sound]
'Verif.SwitchApi.C75_delayed' depends on axioms: [propext, Classical.choice, Quot.sound]
'Verif.SwitchApi.C75_exactly' depends on axioms: [propext, Classical.choice, Quot.sound]
'Verif.SwitchApi.C75_lengths' depends on axioms: [propext, Classical.choice, Quot.sound]
'Verif.SwitchApi.C75_once' depends on axioms: [propext, Classical.choice, Quot.sound]
'Verif.SwitchApi.C75_errors_partial' depends on axioms: [propext, Classical.choice, Quot.sound]
'Verif.SwitchApi.C75_managed_partial' depends on axioms: [propext, Classical.choice, Quot.sound]
'Verif.SwitchApi.C75_false_rate' depends on axioms: [propext, Classical.choice, Quot.sound]
'Verif.SwitchApi.C75_false_impossible' depends on axioms: [propext, Classical.choice, Quot.sound]
'Verif.SwitchApi.C75_false_change' depends on axioms: [propext, Classical.choice, Quot.sound]
'Verif.SwitchApi.C75_false_delay' depends on axioms: [propext, Classical.choice, Quot.sound]
'Verif.Choose.C76_connect_partial' depends on axioms: [propext, Classical.choice, Quot.sound]
'Verif.Choose.C76_text' depends on axioms: [propext, Classical.choice, Quot.sound]
'Verif.Choose.C76_localhost' depends on axioms: [propext, Classical.choice, Quot.sound]
'Verif.Choose.C76_named' depends on axioms: [propext, Classical.choice, Quot.sound]
'Verif.Choose.C76_server_default' depends on axioms: [propext, Classical.choice, Quot.sound]
'Verif.Choose.C76_server_host' depends on axioms: [propext, Classical.choice, Quot.sound]
'Verif.Choose.C76_raw' depends on axioms: [propext, Classical.choice, Quot.sound]
'Verif.Choose.C76_reads' depends on axioms: [propext, Classical.choice, Quot.sound]
'Verif.Choose.C76_removed' depends on axioms: [propext, Classical.choice, Quot.sound]
'Verif.Choose.C76_false_localhost' depends on axioms: [propext, Classical.choice, Quot.sound]
'Verif.Choose.C76_false_stale' depends on axioms: [propext, Classical.choice, Quot.sound]
'Verif.Choose.C76_false_host' depends on axioms: [propext, Classical.choice, Quot.sound]
'Verif.Choose.C76_false_bad_route' depends on axioms: [propext, Classical.choice, Quot.sound]
'Verif.Choose.C76_false_raw' depends on axioms: [propext, Classical.choice, Quot.sound]
'Verif.Choose.C76_false_disabled' depends on axioms: [propext, Classical.choice, Quot.sound]
'Verif.Choose.C76_false_named_switch' depends on axioms: [propext, Classical.choice, Quot.sound]
'Verif.Power.C77_on_partial' depends on axioms: [propext, Classical.choice, Quot.sound]
'Verif.Power.C77_on_only' depends on axioms: [propext, Classical.choice, Quot.sound]
'Verif.Power.C77_on_twice' depends on axioms: [propext, Classical.choice, Quot.sound]
'Verif.Power.C77_off' depends on axioms: [propext, Classical.choice, Quot.sound]
'Verif.Power.C77_off_works' depends on axioms: [propext, Classical.choice, Quot.sound]
'Verif.Power.C77_status' depends on axioms: [propext, Classical.choice, Quot.sound]
'Verif.Power.C77_load' depends on axioms: [propext, Classical.choice, Quot.sound]
'Verif.Power.C77_enable_message' depends on axioms: [propext, Classical.choice, Quot.sound]
'Verif.Power.C77_disable' depends on axioms: [propext, Classical.choice, Quot.sound]
'Verif.Power.C77_false_once' depends on axioms: [propext, Quot.sound]
'Verif.Power.C77_false_status' depends on axioms: [propext, Quot.sound]
'Verif.Power.C77_false_rest' depends on axioms: [propext, Quot.sound]
'Verif.Power.C77_false_off' depends on axioms: [propext, Quot.sound]
'Verif.Power.C77_false_removed' depends on axioms: [propext, Classical.choice, Quot.sound]
'Verif.Mock.C78_loop' depends on axioms: [propext, Classical.choice, Quot.sound]
'Verif.Mock.C78_loop_complete' depends on axioms: [propext, Classical.choice, Quot.sound]
'Verif.Mock.C78_data' depends on axioms: [propext, Classical.choice, Quot.sound]
'Verif.Mock.C78_no_exceptions' depends on axioms: [propext]
'Verif.Mock.C78_closed_partial' depends on axioms: [propext, Classical.choice, Quot.sound]
'Verif.Mock.C78_closed_once' depends on axioms: [propext, Quot.sound]
'Verif.Mock.C78_count' depends on axioms: [propext, Quot.sound]
'Verif.Mock.C78_stream' depends on axioms: [propext]
'Verif.Mock.C78_delayed_partial' depends on axioms: [propext, Classical.choice, Quot.sound]
'Verif.Mock.C78_false_delay' depends on axioms: [propext]
'Verif.Mock.C78_false_pending' depends on axioms: [propext]
'Verif.Mock.C78_false_told' depends on axioms: [propext]
'Verif.Mock.C78_false_talk' depends on axioms: [propext]
'Verif.Mock.C78_false_exception' depends on axioms: [propext]
'Verif.VnicApi.C79_level' depends on axioms: [propext, Classical.choice, Quot.sound]
'Verif.VnicApi.C79_packet' depends on axioms: [propext, Classical.choice, Quot.sound]
'Verif.VnicApi.C79_set' depends on axioms: [propext, Classical.choice, Quot.sound]
'Verif.VnicApi.C79_announced' depends on axioms: [propext, Classical.choice, Quot.sound]
'Verif.VnicApi.C79_live' depends on axioms: [propext, Classical.choice, Quot.sound]
'Verif.VnicApi.C79_dials' depends on axioms: [propext, Classical.choice, Quot.sound]
'Verif.VnicApi.C79_quiet' depends on axioms: [propext, Classical.choice, Quot.sound]
'Verif.VnicApi.C79_log' depends on axioms: [propext, Classical.choice, Quot.sound]
'Verif.VnicApi.C79_setLog' depends on axioms: [propext, Classical.choice, Quot.sound]
'Verif.VnicApi.C79_log_means_partial' depends on axioms: [propext, Classical.choice, Quot.sound]
'Verif.VnicApi.C79_verbs' depends on axioms: [propext, Classical.choice, Quot.sound]
'Verif.VnicApi.C79_arguments' depends on axioms: [propext, Classical.choice, Quot.sound]
'Verif.VnicApi.C79_same_partial' depends on axioms: [propext, Classical.choice, Quot.sound]
'Verif.VnicApi.C79_managed_partial' depends on axioms: [propext, Classical.choice, Quot.sound]
'Verif.VnicApi.C79_false_level' depends on axioms: [propext, Classical.choice, Quot.sound]
'Verif.VnicApi.C79_false_refused' depends on axioms: [propext, Classical.choice, Quot.sound]
'Verif.VnicApi.C79_false_same' depends on axioms: [propext, Classical.choice, Quot.sound]
'Verif.VnicApi.C79_false_halfway' depends on axioms: [propext, Classical.choice, Quot.sound]
'Verif.StackRun.C80_local' depends on axioms: [propext, Classical.choice, Quot.sound]
'Verif.StackRun.C80_interfaces' depends on axioms: [propext, Classical.choice, Quot.sound]
'Verif.StackRun.C80_composed' depends on axioms: [propext, Classical.choice, Quot.sound]
'Verif.StackRun.C80_calm' depends on axioms: [propext, Classical.choice, Quot.sound]
'Verif.StackRun.C80_composed_calm' depends on axioms: [propext, Classical.choice, Quot.sound]
'Verif.StackRun.C80_plain' depends on axioms: [propext]
'Verif.StackRun.C80_packet_prefix' depends on axioms: [propext, Classical.choice, Quot.sound]
'Verif.StackRun.C80_packet_all' depends on axioms: [propext, Classical.choice, Quot.sound]
'Verif.StackRun.C80_packet_stack' depends on axioms: [propext, Classical.choice, Quot.sound]
'Verif.StackRun.C80_false_reentered' depends on axioms: [propext]
'Verif.StackRun.C80_false_exception' depends on axioms: [propext, Quot.sound]
'Verif.C81_read_exact' depends on axioms: [propext, Classical.choice, Quot.sound]
'Verif.C81_relay' depends on axioms: [propext, Classical.choice, Quot.sound]
'Verif.C81_nearest' depends on axioms: [propext, Classical.choice, Quot.sound]
'Verif.C81_overflow' depends on axioms: [propext, Classical.choice, Quot.sound]
'Verif.C81_error' depends on axioms: [propext, Classical.choice, Quot.sound]
'Verif.C81_order' depends on axioms: [propext, Classical.choice, Quot.sound]
'Verif.C81_singles' depends on axioms: [propext, Classical.choice, Quot.sound]
'Verif.C81_accepted' depends on axioms: [propext, Quot.sound]
'Verif.C81_limits' depends on axioms: [propext, Quot.sound]
'Verif.C81_packet' depends on axioms: [propext, Classical.choice, Quot.sound]
'Verif.C81_packet_iff' depends on axioms: [propext, Classical.choice, Quot.sound]
'Verif.C81_still_accepted' depends on axioms: [propext, Classical.choice, Quot.sound]
'Verif.C81_false_changed' depends on axioms: [propext, Classical.choice, Quot.sound]
'Verif.C81_false_refused' depends on axioms: [propext, Classical.choice, Quot.sound]
'Verif.C81_false_unsendable' depends on axioms: [propext, Classical.choice, Quot.sound]
'Verif.C81_false_range' does not depend on any axioms
'Verif.C82_valid' depends on axioms: [propext, Classical.choice, Quot.sound]
'Verif.C82_relay' depends on axioms: [propext, Classical.choice, Quot.sound]
'Verif.C82_relay_same' depends on axioms: [propext, Classical.choice, Quot.sound]
'Verif.C82_relay_flat' depends on axioms: [propext, Classical.choice, Quot.sound]
'Verif.C82_false_required' depends on axioms: [propext, Classical.choice, Quot.sound]
'Verif.Extra.C83_inherits' depends on axioms: [propext, Classical.choice, Quot.sound]
'Verif.Extra.C83_own' depends on axioms: [propext, Classical.choice, Quot.sound]
'Verif.Extra.C83_layers' depends on axioms: [propext, Classical.choice, Quot.sound]
'Verif.Extra.C83_keeps' depends on axioms: [propext, Classical.choice, Quot.sound]
'Verif.Extra.C83_app' depends on axioms: [propext, Classical.choice, Quot.sound]
'Verif.Extra.C83_client' depends on axioms: [propext, Classical.choice, Quot.sound]
'Verif.Extra.C83_server' depends on axioms: [propext, Classical.choice, Quot.sound]
'Verif.Apps.C83_mirror' depends on axioms: [propext, Classical.choice, Quot.sound]
'Verif.Apps.C83_both' depends on axioms: [propext, Classical.choice, Quot.sound]
'Verif.Extra.C83_false_shared' depends on axioms: [propext, Classical.choice, Quot.sound]
'Verif.Extra.C83_false_default' depends on axioms: [propext, Classical.choice, Quot.sound]
'Verif.Extra.C83_false_late' depends on axioms: [propext, Classical.choice, Quot.sound]
'Verif.Apps.Ex.C83_false_forged' depends on axioms: [propext, Classical.choice, Quot.sound]
'Verif.Alias.C84_lists_belong' depends on axioms: [propext, Classical.choice, Quot.sound]
'Verif.Alias.C84_typed' depends on axioms: [propext, Classical.choice, Quot.sound]
'Verif.Alias.C84_struct' depends on axioms: [propext, Classical.choice, Quot.sound]
'Verif.Alias.C84_local' depends on axioms: [propext, Classical.choice, Quot.sound]
'Verif.Alias.C84_apart' depends on axioms: [propext, Classical.choice, Quot.sound]
'Verif.Alias.C84_history' depends on axioms: [propext, Classical.choice, Quot.sound]
'Verif.Alias.C84_new' depends on axioms: [propext, Classical.choice, Quot.sound]
'Verif.Alias.C84_copy' depends on axioms: [propext, Classical.choice, Quot.sound]
'Verif.Alias.C84_fields_apart' depends on axioms: [propext, Classical.choice, Quot.sound]
'Verif.Alias.C84_self' depends on axioms: [propext, Classical.choice, Quot.sound]
'Verif.Alias.C84_copy_std' depends on axioms: [propext, Classical.choice, Quot.sound]
'Verif.Alias.Ex.C84_false_shared' depends on axioms: [propext]
'Verif.Alias.Ex.C84_false_depends' depends on axioms: [propext]
'Verif.Alias.Ex.C84_false_nan' depends on axioms: [propext]
'Verif.Alias.Ex.C84_false_zero' depends on axioms: [propext]
'Verif.Alias.Ex.C84_false_refused' depends on axioms: [propext]
'Verif.Cli.C85_usage' depends on axioms: [propext, Classical.choice, Quot.sound]
'Verif.Cli.C85_usage_unique' depends on axioms: [propext, Classical.choice, Quot.sound]
'Verif.Cli.C85_history_partial' depends on axioms: [propext, Classical.choice, Quot.sound]
'Verif.Cli.C85_success_partial' depends on axioms: [propext, Classical.choice, Quot.sound]
'Verif.Cli.C85_status_partial' depends on axioms: [propext, Classical.choice, Quot.sound]
'Verif.Cli.C85_preinit' depends on axioms: [propext, Classical.choice, Quot.sound]
'Verif.Cli.C85_unknown_partial' depends on axioms: [propext, Classical.choice, Quot.sound]
'Verif.Cli.C85_false_status_device' depends on axioms: [propext, Classical.choice, Quot.sound]
'Verif.Cli.C85_false_routes' depends on axioms: [propext, Classical.choice, Quot.sound]
'Verif.Cli.C85_false_upper' depends on axioms: [propext, Classical.choice, Quot.sound]
'Verif.Cli.C85_false_zero' depends on axioms: [propext, Classical.choice, Quot.sound]
'Verif.Cli.C85_false_port' depends on axioms: [propext, Classical.choice, Quot.sound]
'Verif.Cli.C85_false_stale_pid' depends on axioms: [propext, Classical.choice, Quot.sound]
'Verif.C86_iff' depends on axioms: [propext, Classical.choice, Quot.sound]
'Verif.C86_symm' depends on axioms: [propext, Classical.choice, Quot.sound]
'Verif.C86_trans' depends on axioms: [propext, Classical.choice, Quot.sound]
'Verif.C86_self_partial' depends on axioms: [propext, Classical.choice, Quot.sound]
'Verif.C86_limited' depends on axioms: [propext, Classical.choice, Quot.sound]
'Verif.C86_bytes_partial' depends on axioms: [propext, Classical.choice, Quot.sound]
'Verif.C86_sent_partial' depends on axioms: [propext, Classical.choice, Quot.sound]
'Verif.C86_two_partial' depends on axioms: [propext, Classical.choice, Quot.sound]
'Verif.C86_false_sent' depends on axioms: [propext, Classical.choice, Quot.sound]
'Verif.C86_false_bytes' depends on axioms: [propext, Classical.choice, Quot.sound]
'Verif.C86_false_self' depends on axioms: [propext]
'Verif.C87_last_partial' depends on axioms: [propext, Classical.choice, Quot.sound]
'Verif.C87_value' depends on axioms: [propext, Classical.choice, Quot.sound]
'Verif.C87_order_partial' depends on axioms: [propext, Classical.choice, Quot.sound]
'Verif.C87_permuted_partial' depends on axioms: [propext, Classical.choice, Quot.sound]
'Verif.C87_serialized' depends on axioms: [propext, Quot.sound]
'Verif.C87_false_struct' depends on axioms: [propext, Classical.choice, Quot.sound]
'Verif.C87_false_order' depends on axioms: [propext, Classical.choice, Quot.sound]
'Verif.Spmp.Ask.C88_own' depends on axioms: [propext, Classical.choice, Quot.sound]
'Verif.Spmp.Ask.C88_settles' depends on axioms: [propext, Classical.choice, Quot.sound]
'Verif.Spmp.Ask.C88_idle' depends on axioms: [propext]
'Verif.Spmp.Ask.C88_in_order_partial' depends on axioms: [propext, Classical.choice, Quot.sound]
'Verif.Spmp.Ask.C88_alone_partial' depends on axioms: [propext, Classical.choice, Quot.sound]
'Verif.Spmp.Ask.C88_returns_in_order_partial' depends on axioms: [propext, Classical.choice, Quot.sound]
'Verif.Spmp.Ask.C88_stream_partial' depends on axioms: [propext, Classical.choice, Quot.sound]
'Verif.Spmp.Ask.C88_stuck' depends on axioms: [propext, Classical.choice, Quot.sound]
'Verif.Spmp.Ask.C88_false_overtaken' depends on axioms: [propext, Classical.choice, Quot.sound]
'Verif.Spmp.Ask.C88_false_unanswered' depends on axioms: [propext, Classical.choice, Quot.sound]
'Verif.Spmp.Ask.C88_false_cancelled' depends on axioms: [propext, Classical.choice, Quot.sound]
'Verif.Spmp.Ask.C88_false_lost' depends on axioms: [propext, Classical.choice, Quot.sound]
'Verif.Shell.C89_names_partial' depends on axioms: [propext, Classical.choice, Quot.sound]
'Verif.Shell.C89_files_partial' depends on axioms: [propext, Classical.choice, Quot.sound]
'Verif.Shell.C89_other_partial' depends on axioms: [propext, Classical.choice, Quot.sound]
'Verif.Shell.C89_extends_partial' depends on axioms: [propext, Classical.choice, Quot.sound]
'Verif.Shell.C89_entered_partial' depends on axioms: [propext, Classical.choice, Quot.sound]
'Verif.Shell.C89_false_none' depends on axioms: [propext, Classical.choice, Quot.sound]
'Verif.Shell.C89_false_relative' depends on axioms: [propext, Classical.choice, Quot.sound]
'Verif.Shell.C89_false_quoting' depends on axioms: [propext, Classical.choice, Quot.sound]
'Verif.Shell.C89_false_blank' depends on axioms: [propext, Classical.choice, Quot.sound]
'Verif.Shell.C89_false_slashes' depends on axioms: [propext, Classical.choice, Quot.sound]
'Verif.Stdio.C90_told' depends on axioms: [propext, Quot.sound]
'Verif.Stdio.C90_all_told' depends on axioms: [propext, Quot.sound]
'Verif.Stdio.C90_one_at_a_time_partial' depends on axioms: [propext, Classical.choice, Quot.sound]
'Verif.Stdio.C90_closed' depends on axioms: [propext, Quot.sound]
'Verif.Stdio.C90_ends' depends on axioms: [propext, Quot.sound]
'Verif.Stdio.C90_next_partial' depends on axioms: [propext, Classical.choice, Quot.sound]
'Verif.Stdio.C90_false_other' depends on axioms: [propext, Classical.choice, Quot.sound]
'Verif.Stdio.C90_false_stop' depends on axioms: [propext, Classical.choice, Quot.sound]
'Verif.Stdio.C90_false_early' depends on axioms: [propext, Quot.sound]
'Verif.Stdio.C90_false_close' depends on axioms: [propext, Classical.choice, Quot.sound]
'Verif.Spmp.AskNet.C91_own_partial' depends on axioms: [propext, Classical.choice, Quot.sound]
'Verif.Spmp.AskNet.C91_returns_partial' depends on axioms: [propext, Classical.choice, Quot.sound]
'Verif.Spmp.AskNet.C91_settles' depends on axioms: [propext, Classical.choice, Quot.sound]
'Verif.Spmp.AskNet.C91_quiet' depends on axioms: [propext, Classical.choice, Quot.sound]
'Verif.Spmp.AskNet.C91_completes_partial' depends on axioms: [propext, Classical.choice, Quot.sound]
'Verif.Spmp.AskNet.C91_false_refused' depends on axioms: [propext, Classical.choice, Quot.sound]
'Verif.Spmp.AskNet.C91_false_same_id' depends on axioms: [propext, Classical.choice, Quot.sound]
'Verif.Vnic.C92_seen' depends on axioms: [propext, Classical.choice, Quot.sound]
'Verif.Vnic.C92_unnoticed' depends on axioms: [propext, Classical.choice, Quot.sound]
'Verif.Vnic.C92_raw' depends on axioms: [propext, Quot.sound]
'Verif.Vnic.C92_false_outgoing' depends on axioms: [propext, Quot.sound]
'Verif.Link.C92_false_write' depends on axioms: [propext, Classical.choice, Quot.sound]
'Verif.Control.C93_carried_out_partial' depends on axioms: [propext, Classical.choice, Quot.sound]
'Verif.Control.C93_commands' depends on axioms: [propext, Classical.choice, Quot.sound]
'Verif.Control.C93_any' depends on axioms: [propext, Quot.sound]
'Verif.Control.C93_false_neither' depends on axioms: [propext, Classical.choice, Quot.sound]
'Verif.Control.C93_false_slips' depends on axioms: [propext, Classical.choice, Quot.sound]
'Verif.Control.C93_false_swallowed' depends on axioms: [propext, Classical.choice, Quot.sound]
'Verif.Control.C93_false_after_raw' depends on axioms: [propext, Classical.choice, Quot.sound]
'Verif.Session.C94_conversation' depends on axioms: [propext, Classical.choice, Quot.sound]
'Verif.Session.C94_future' depends on axioms: [propext, Classical.choice, Quot.sound]
'Verif.Session.C94_listen_partial' depends on axioms: [propext, Classical.choice, Quot.sound]
'Verif.Session.C94_connect_partial' depends on axioms: [propext, Classical.choice, Quot.sound]
'Verif.Session.C94_false_cancelled' depends on axioms: [propext, Classical.choice, Quot.sound]
'Verif.Deferred.C95_calls_partial' depends on axioms: [propext, Quot.sound]
'Verif.Deferred.C95_once' depends on axioms: [propext, Quot.sound]
'Verif.Deferred.C95_falsy_never' depends on axioms: [propext, Quot.sound]
'Verif.Deferred.C95_false_falsy' depends on axioms: [propext]
'Verif.Section.C96_plain' depends on axioms: [propext]
'Verif.Section.C96_readOnly_partial' depends on axioms: [propext]
'Verif.Section.C96_write' depends on axioms: [propext, Quot.sound]
'Verif.Section.C96_false_delete' depends on axioms: [propext]
'Verif.Section.C96_false_update' depends on axioms: [propext]
'Verif.Section.C96_read' depends on axioms: [propext, Quot.sound]
'Verif.Section.C96_false_in' depends on axioms: [propext]
'Verif.Dispatch.C97_nearest' depends on axioms: [propext, Quot.sound]
'Verif.Dispatch.C97_none' depends on axioms: [propext, Quot.sound]
'Verif.Dispatch.C97_register' depends on axioms: [propext, Quot.sound]
'Verif.Dispatch.C97_derived' depends on axioms: [propext, Quot.sound]
'Verif.Dispatch.C97_data' depends on axioms: [propext, Quot.sound]
'Verif.Dispatch.C97_builtin' does not depend on any axioms
'Verif.Dispatch.C97_lists' depends on axioms: [propext, Quot.sound]
'Verif.Dispatch.C97_classes' depends on axioms: [propext, Classical.choice, Quot.sound]
'Verif.Dispatch.C97_packets_partial' depends on axioms: [propext, Classical.choice, Quot.sound]
'Verif.Dispatch.C97_simple' depends on axioms: [propext, Classical.choice, Quot.sound]
'Verif.Dispatch.C97_false_mixed' depends on axioms: [propext, Classical.choice, Quot.sound]
'Verif.Dispatch.C97_false_list' depends on axioms: [propext, Classical.choice, Quot.sound]
'Verif.C98_roundtrip_partial' depends on axioms: [propext, Classical.choice, Quot.sound]
'Verif.C98_flat_partial' depends on axioms: [propext, Classical.choice, Quot.sound]
'Verif.C98_truncated' depends on axioms: [propext, Classical.choice, Quot.sound]
'Verif.C98_false_string' depends on axioms: [propext, Classical.choice, Quot.sound]
'Verif.C98_false_nested' depends on axioms: [propext, Classical.choice, Quot.sound]
'Verif.Seekable.C99_file_partial' depends on axioms: [propext, Classical.choice, Quot.sound]
'Verif.Seekable.C99_rest' depends on axioms: [propext, Quot.sound]
'Verif.Seekable.C99_span' depends on axioms: [propext, Classical.choice, Quot.sound]
'Verif.Seekable.C99_length' depends on axioms: [propext, Classical.choice, Quot.sound]
'Verif.Seekable.C99_negative' depends on axioms: [propext]
'Verif.Seekable.C99_cur' depends on axioms: [propext]
'Verif.Seekable.C99_closed' depends on axioms: [propext]
'Verif.Seekable.C99_false_span' depends on axioms: [propext]
'Verif.Seekable.C99_false_calls' depends on axioms: [propext]
'Verif.Connect.C100_sockets_partial' depends on axioms: [propext, Classical.choice, Quot.sound]
'Verif.Connect.C100_one_vnic' depends on axioms: [propext, Classical.choice, Quot.sound]
'Verif.Connect.C100_name' depends on axioms: [propext]
'Verif.Connect.C100_false_names' depends on axioms: [propext, Quot.sound]
'Verif.Connect.C100_false_dead' depends on axioms: [propext, Quot.sound]
'Verif.Connect.C100_false_two_vnics' depends on axioms: [propext, Quot.sound]
'Verif.Proc.C101_alive' depends on axioms: [propext, Classical.choice, Quot.sound]
'Verif.Proc.C101_lines' depends on axioms: [propext, Classical.choice, Quot.sound]
'Verif.Proc.C101_running' depends on axioms: [propext, Classical.choice, Quot.sound]
'Verif.Proc.C101_wait' depends on axioms: [propext, Classical.choice, Quot.sound]
'Verif.Proc.C101_shutdown' depends on axioms: [propext, Classical.choice, Quot.sound]
'Verif.Proc.C101_shutdown_none' depends on axioms: [propext, Classical.choice, Quot.sound]
'Verif.Proc.C101_refines' depends on axioms: [propext, Classical.choice, Quot.sound]
'Verif.Proc.C101_launch' depends on axioms: [propext, Classical.choice, Quot.sound]
'Verif.Proc.C101_launch_else' depends on axioms: [propext, Classical.choice, Quot.sound]
'Verif.Proc.C101_false_died' depends on axioms: [propext, Classical.choice, Quot.sound]
'Verif.Proc.C101_false_header' depends on axioms: [propext, Classical.choice, Quot.sound]
'Verif.Proc.C101_false_reuse' depends on axioms: [propext, Classical.choice, Quot.sound]
'Verif.Proc.C101_false_empty' depends on axioms: [propext, Classical.choice, Quot.sound]
'Verif.C102_loop' depends on axioms: [propext, Quot.sound]
'Verif.C102_complete_partial' depends on axioms: [propext, Quot.sound]
'Verif.C102_bare' depends on axioms: [propext, Quot.sound]
'Verif.C102_false_truncated' depends on axioms: [propext, Classical.choice, Quot.sound]
'Verif.C102_false_short' depends on axioms: [propext, Quot.sound]
'Verif.Loader.C103_permitted_partial' depends on axioms: [propext, Quot.sound]
'Verif.Loader.C103_routes_partial' depends on axioms: [propext, Quot.sound]
'Verif.Loader.C103_names' depends on axioms: [propext, Quot.sound]
'Verif.Loader.C103_define' depends on axioms: [propext, Quot.sound]
'Verif.Loader.C103_false_override' depends on axioms: [propext, Quot.sound]
'Verif.Loader.C103_false_inherited' depends on axioms: [propext, Quot.sound]
'Verif.Loader.C103_false_retry' depends on axioms: [propext, Classical.choice, Quot.sound]
'Verif.Delegate.C104_write_partial' depends on axioms: [propext, Classical.choice, Quot.sound]
'Verif.Delegate.C104_history' depends on axioms: [propext, Classical.choice, Quot.sound]
'Verif.Delegate.C104_transparent' depends on axioms: [propext]
'Verif.Delegate.C104_false_assign' depends on axioms: [propext]
'Verif.Constant.C105_eq_partial' depends on axioms: [propext]
'Verif.Constant.C105_tuple' depends on axioms: [propext]
'Verif.Constant.C105_inverse' does not depend on any axioms
'Verif.Constant.C105_false_raises' depends on axioms: [propext]
'Verif.Constant.C106_convert' depends on axioms: [propext, Classical.choice, Quot.sound]
'Verif.Constant.C106_truth' depends on axioms: [propext]
'Verif.Constant.C106_text_partial' depends on axioms: [propext, Classical.choice, Quot.sound]
'Verif.Constant.C106_text_empty' depends on axioms: [propext, Classical.choice, Quot.sound]
'Verif.Constant.C106_states' depends on axioms: [propext, Classical.choice, Quot.sound]
'Verif.Constant.C106_false_truth' does not depend on any axioms
'Verif.Constant.C106_false_text' depends on axioms: [propext, Classical.choice, Quot.sound]
'Verif.Cert.C107_accepts' depends on axioms: [propext, Quot.sound]
'Verif.Cert.C107_rejects' depends on axioms: [propext]
'Verif.Cert.C107_parts' depends on axioms: [propext, Quot.sound]
'Verif.Cert.C107_names' depends on axioms: [propext, Quot.sound]
'Verif.Cert.C107_false_trust' depends on axioms: [propext]
'Verif.Cert.C107_false_names' depends on axioms: [propext]
'Verif.Cert.C108_verifies' does not depend on any axioms
'Verif.Cert.C108_public' does not depend on any axioms
'Verif.Cert.C108_roundtrip_partial' depends on axioms: [propext, Classical.choice, Quot.sound]
'Verif.Cert.C108_rejects' depends on axioms: [propext, Quot.sound]
'Verif.Cert.C108_false_size' depends on axioms: [propext, Quot.sound]
'Verif.Cert.C108_false_default' does not depend on any axioms
'Verif.Format.C109_first' depends on axioms: [propext, Classical.choice, Quot.sound]
'Verif.Format.C109_all_partial' depends on axioms: [propext, Classical.choice, Quot.sound]
'Verif.Format.C109_args_partial' depends on axioms: [propext, Classical.choice, Quot.sound]
'Verif.Format.C109_ordinary' depends on axioms: [propext, Classical.choice, Quot.sound]
'Verif.Format.C109_missing' depends on axioms: [propext, Classical.choice, Quot.sound]
'Verif.Format.C109_missing_special' depends on axioms: [propext, Classical.choice, Quot.sound]
'Verif.Format.C109_false_percent' depends on axioms: [propext, Classical.choice, Quot.sound]
'Verif.Format.C109_false_args' depends on axioms: [propext, Classical.choice, Quot.sound]
'Verif.RawLines.C110_chunking_partial' depends on axioms: [propext, Classical.choice, Quot.sound]
'Verif.RawLines.C110_short' depends on axioms: [propext, Classical.choice, Quot.sound]
'Verif.RawLines.C110_bodies' depends on axioms: [propext, Classical.choice, Quot.sound]
'Verif.RawLines.C110_false_boundary' does not depend on any axioms
'Verif.LevelNet.C111_answer_partial' depends on axioms: [propext, Classical.choice, Quot.sound]
'Verif.LevelNet.C111_only_partial' depends on axioms: [propext, Classical.choice, Quot.sound]
'Verif.LevelNet.C111_mute_partial' depends on axioms: [propext, Classical.choice, Quot.sound]
'Verif.LevelNet.C111_level_partial' depends on axioms: [propext, Classical.choice, Quot.sound]
'Verif.LevelNet.C111_false_range' depends on axioms: [propext, Classical.choice, Quot.sound]
'Verif.LevelNet.C111_false_reopen' depends on axioms: [propext, Classical.choice, Quot.sound]
'Verif.Shell.C112_suffix' depends on axioms: [propext, Classical.choice, Quot.sound]
'Verif.Shell.C112_usage' depends on axioms: [propext, Classical.choice, Quot.sound]
'Verif.Shell.C112_help' depends on axioms: [propext, Classical.choice, Quot.sound]
'Verif.Shell.C112_means' depends on axioms: [propext, Classical.choice, Quot.sound]
'Verif.Shell.C112_works' depends on axioms: [propext, Classical.choice, Quot.sound]
'Verif.Shell.C112_all' depends on axioms: [propext, Classical.choice, Quot.sound]
'Verif.Shell.C112_told' depends on axioms: [propext, Classical.choice, Quot.sound]
'Verif.Shell.C112_one' depends on axioms: [propext, Classical.choice, Quot.sound]
'Verif.Shell.C112_unknown' depends on axioms: [propext, Classical.choice, Quot.sound]
'Verif.Shell.C112_raises' depends on axioms: [propext, Classical.choice, Quot.sound]
'Verif.Shell.C112_raises_one' depends on axioms: [propext, Classical.choice, Quot.sound]
'Verif.Shell.C112_terminal' depends on axioms: [propext, Classical.choice, Quot.sound]
'Verif.Shell.C112_terminal_one' depends on axioms: [propext, Classical.choice, Quot.sound]
'Verif.Shell.C112_false_cycle' depends on axioms: [propext, Classical.choice, Quot.sound]
'Verif.Shell.C112_false_bare' depends on axioms: [propext, Classical.choice, Quot.sound]
'Verif.Logging.C113_only' depends on axioms: [propext, Classical.choice, Quot.sound]
'Verif.Logging.C113_written_partial' depends on axioms: [propext, Classical.choice, Quot.sound]
'Verif.Logging.C113_once' depends on axioms: [propext, Classical.choice, Quot.sound]
'Verif.Logging.C113_disabled' depends on axioms: [propext, Classical.choice, Quot.sound]
'Verif.Logging.C113_false_cleared' depends on axioms: [propext, Classical.choice, Quot.sound]
'Verif.Attrs.C114_given' depends on axioms: [propext, Quot.sound]
'Verif.Attrs.C114_value' depends on axioms: [propext, Quot.sound]
'Verif.Attrs.C114_ends' depends on axioms: [propext, Quot.sound]
'Verif.Attrs.C114_valid' depends on axioms: [propext, Quot.sound]
'Verif.Attrs.C114_copy' depends on axioms: [propext, Quot.sound]
'Verif.Attrs.C114_new' depends on axioms: [propext, Quot.sound]
'Verif.Attrs.C114_copies' depends on axioms: [propext, Quot.sound]
'Verif.Attrs.C114_copy_valid_partial' depends on axioms: [propext, Quot.sound]
'Verif.Attrs.C114_false_copy' depends on axioms: [propext, Quot.sound]
'Verif.Attrs.C114_false_bits' depends on axioms: [propext]
'Verif.C52_truncated_never_returns' depends on axioms: [propext, Classical.choice, Quot.sound]
