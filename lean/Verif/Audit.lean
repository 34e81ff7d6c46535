import Verif.Lemmas.Calling
import Verif.Lemmas.CallingAll
import Verif.Lemmas.CallingSim
import Verif.Lemmas.Grammar
import Verif.Lemmas.Losing
import Verif.Lemmas.MqueryRun
import Verif.Lemmas.Origin
import Verif.Lemmas.Reacting
import Verif.Lemmas.Safety
import Verif.Lemmas.Spinning
import Verif.Lemmas.Tailq
import Verif.Model.AddrAlloc
import Verif.Model.Alloc
import Verif.Model.Blocks
import Verif.Model.Buffers
import Verif.Model.Calling
import Verif.Model.ConfAlloc
import Verif.Model.Daemon
import Verif.Model.Ending
import Verif.Model.IfaceAlloc
import Verif.Model.Inet
import Verif.Model.LoadAlloc
import Verif.Model.LogStart
import Verif.Model.LogSys
import Verif.Model.LogTime
import Verif.Model.MqueryAlloc
import Verif.Model.MqueryRun
import Verif.Model.Reacting
import Verif.Model.Reload
import Verif.Model.Tailq
import Verif.Model.TxtAlloc
import Verif.Model.UniAlloc
import Verif.Model.Waiting
import Verif.Model.XhtAlloc
import Verif.Model.XhtHeap
import Verif.Props.Abiding
import Verif.Props.AddrAlloc
import Verif.Props.Addresses
import Verif.Props.Alloc
import Verif.Props.AllocLimits
import Verif.Props.Blocking
import Verif.Props.Blocks
import Verif.Props.Bounded
import Verif.Props.Buffers
import Verif.Props.Builder
import Verif.Props.Cache
import Verif.Props.Calling
import Verif.Props.Conf
import Verif.Props.ConfAlloc
import Verif.Props.Departure
import Verif.Props.Discovery
import Verif.Props.Ended
import Verif.Props.Ending
import Verif.Props.Finding
import Verif.Props.Flush
import Verif.Props.Free
import Verif.Props.Glob
import Verif.Props.Hash
import Verif.Props.Hex
import Verif.Props.Iface
import Verif.Props.IfaceAlloc
import Verif.Props.Inet
import Verif.Props.Isolation
import Verif.Props.Lasting
import Verif.Props.Leaving
import Verif.Props.LoadAlloc
import Verif.Props.Loading
import Verif.Props.Log
import Verif.Props.LogStart
import Verif.Props.LogSys
import Verif.Props.LogTime
import Verif.Props.Lookups
import Verif.Props.MainLoop
import Verif.Props.Memory
import Verif.Props.Missed
import Verif.Props.Mquery
import Verif.Props.MqueryAlloc
import Verif.Props.MqueryBrowse
import Verif.Props.MqueryMain
import Verif.Props.MqueryOut
import Verif.Props.MqueryRun
import Verif.Props.MqueryTxt
import Verif.Props.Names
import Verif.Props.Netlink
import Verif.Props.Network
import Verif.Props.Options
import Verif.Props.Origin
import Verif.Props.Pacing
import Verif.Props.Packets
import Verif.Props.ParserSafety
import Verif.Props.Pidfile
import Verif.Props.Process
import Verif.Props.Prompt
import Verif.Props.QOptions
import Verif.Props.Queries
import Verif.Props.Questions
import Verif.Props.Reacting
import Verif.Props.Received
import Verif.Props.Receiving
import Verif.Props.Records
import Verif.Props.Refresh
import Verif.Props.Reload
import Verif.Props.Renaming
import Verif.Props.Renewal
import Verif.Props.Rivals
import Verif.Props.RoundTrip
import Verif.Props.Route
import Verif.Props.SdTxt
import Verif.Props.Service
import Verif.Props.Signals
import Verif.Props.Sleep
import Verif.Props.Sockets
import Verif.Props.Spelling
import Verif.Props.Spinning
import Verif.Props.Staying
import Verif.Props.Step
import Verif.Props.Sweep
import Verif.Props.Tailq
import Verif.Props.Telling
import Verif.Props.TxtAlloc
import Verif.Props.TxtDecode
import Verif.Props.UniAlloc
import Verif.Props.Waiting
import Verif.Props.Wide
import Verif.Props.Wire
import Verif.Props.Xht
import Verif.Props.XhtAlloc
import Verif.Props.XhtHeap
import Lean.Elab.Command
import Lean.Util.CollectAxioms

/-!
Checks, while building, that no theorem named in MANIFEST.json depends on an
axiom other than `propext`, `Classical.choice` and `Quot.sound`.
Generated by tools/manifest.py.
-/

open Lean Elab Command in
elab "#audit " ids:ident* : command => do
  for i in ids do
    let n ← liftCoreM <| Lean.Elab.realizeGlobalConstNoOverloadWithInfo i
    let ax ← collectAxioms n
    for a in ax do
      unless a == ``propext || a == ``Classical.choice || a == ``Quot.sound do
        throwErrorAt i "{n} depends on {a}"

#audit
  Mdns.Blocks.C111_all_freed
  Mdns.Blocks.C111_held
  Mdns.Blocks.C111_life_partial
  Mdns.Blocks.C111_never_twice
  Mdns.Blocks.C111_own_data_counterexample
  Mdns.Blocks.C111_own_host_counterexample
  Mdns.Blocks.C111_readable_partial
  Mdns.Blocks.C111_texts
  Mdns.Buf.C107_home_counterexample
  Mdns.Buf.C107_hostname
  Mdns.Buf.C107_pattern
  Mdns.Buf.C107_strlcpy
  Mdns.Buf.C107_system_counterexample
  Mdns.Buf.C107_tilde_counterexample
  Mdns.C01_long_round_trip
  Mdns.C01_short_round_trip
  Mdns.C02_large_counterexample
  Mdns.C02_local_names_decode_partial
  Mdns.C02_names_decode_partial
  Mdns.C02_prefix_counterexample
  Mdns.C03_build_parse_partial
  Mdns.C03_prefix_counterexample
  Mdns.C04_parse_terminates
  Mdns.C05_parse_writes_inside
  Mdns.C05_writes_padding_byte
  Mdns.C06_overread_counterexample
  Mdns.C06_parse_reads_bounded_partial
  Mdns.C07_header_round_trip
  Mdns.C08_built_packets_partial
  Mdns.C08_self_contained_partial
  Mdns.C08_stale_bytes_counterexample
  Mdns.C09_parsed_names_bounded
  Mdns.C101_answered_partial
  Mdns.C101_case_counterexample
  Mdns.C101_unasked
  Mdns.C101_unicast_counterexample
  Mdns.C103_large_counterexample
  Mdns.C103_short_counterexample
  Mdns.C103_sweep_counterexample
  Mdns.C103_waits_partial
  Mdns.C105_any_counterexample
  Mdns.C105_cached
  Mdns.C105_endedExpiry_partial
  Mdns.C105_ended_partial
  Mdns.C105_expiry_partial
  Mdns.C105_final_partial
  Mdns.C105_plain
  Mdns.C105_safe_partial
  Mdns.C105_sending_counterexample
  Mdns.C105_told_partial
  Mdns.C105_twice_counterexample
  Mdns.C105_twin_counterexample
  Mdns.C106_clear_counterexample
  Mdns.C106_given_up_partial
  Mdns.C106_kept_partial
  Mdns.C106_next_counterexample
  Mdns.C106_own_counterexample
  Mdns.C106_plain
  Mdns.C106_renamed_partial
  Mdns.C106_safe_partial
  Mdns.C108_again_counterexample
  Mdns.C108_asked
  Mdns.C108_cached_partial
  Mdns.C108_ending
  Mdns.C108_expiry_partial
  Mdns.C108_published_partial
  Mdns.C108_queues_partial
  Mdns.C108_reacting
  Mdns.C108_renamed_partial
  Mdns.C108_safe_partial
  Mdns.C108_sending_counterexample
  Mdns.C108_told_partial
  Mdns.C108_twice_counterexample
  Mdns.C10_append_only
  Mdns.C10_packet_length
  Mdns.C116_enough
  Mdns.C116_interface_partial
  Mdns.C116_stale_counterexample
  Mdns.C116_v4_partial
  Mdns.C116_v6_partial
  Mdns.C17_bucket_in_range
  Mdns.C18_no_duplicates
  Mdns.C19_known_answer_refreshes
  Mdns.C20_any_counterexample
  Mdns.C20_goodbye_removes_partial
  Mdns.C21_flush_replaces_partial
  Mdns.C21_several_counterexample
  Mdns.C22_list_exact
  Mdns.C23_expiry_partial
  Mdns.C23_gone_after_a_day
  Mdns.C23_report_counterexample
  Mdns.C24_answers_fit
  Mdns.C24_flush_answer_reported
  Mdns.C24_new_answer_reported
  Mdns.C25_any_counterexample
  Mdns.C25_stopped_is_final_partial
  Mdns.C25_unregistered_is_final
  Mdns.C26_asked
  Mdns.C26_at_most_three
  Mdns.C27_any_counterexample
  Mdns.C27_complete_partial
  Mdns.C27_known_answers
  Mdns.C27_stale_counterexample
  Mdns.C28_callback_may_stop_partial
  Mdns.C28_expiry_counterexample
  Mdns.C28_keep_on_expiry
  Mdns.C29_probing_ends
  Mdns.C29_spacing_counterexample
  Mdns.C29_spacing_partial
  Mdns.C29_three_probes_partial
  Mdns.C30_additional_counterexample
  Mdns.C30_no_early_answers_partial
  Mdns.C30_unicast_counterexample
  Mdns.C31_at_most_four
  Mdns.C31_four_announcements_partial
  Mdns.C31_silenced_counterexample
  Mdns.C31_spacing_counterexample
  Mdns.C31_spacing_partial
  Mdns.C32_any_counterexample
  Mdns.C32_discovery_counterexample
  Mdns.C32_known_not_queued_partial
  Mdns.C32_queued
  Mdns.C33_discovery_counterexample
  Mdns.C33_queued_sent_partial
  Mdns.C34_never_set_counterexample
  Mdns.C34_one_goodbye_at_most
  Mdns.C34_one_goodbye_partial
  Mdns.C34_probing_silent
  Mdns.C34_unicast_counterexample
  Mdns.C35_goodbyes_partial
  Mdns.C36_only_then
  Mdns.C36_probe_counterexample
  Mdns.C36_reported_partial
  Mdns.C36_response_counterexample
  Mdns.C36_set_counterexample
  Mdns.C36_taken_counterexample
  Mdns.C36_twice_counterexample
  Mdns.C37_new_address_counterexample
  Mdns.C37_own_ignored_partial
  Mdns.C38_idempotent
  Mdns.C38_interface_partial
  Mdns.C38_v4_exact_partial
  Mdns.C38_v4_others
  Mdns.C38_v6_exact_partial
  Mdns.C38_v6_others
  Mdns.C38_withdrawn_counterexample
  Mdns.C39_answers_distinct
  Mdns.C39_crowded_counterexample
  Mdns.C39_no_repeat_partial
  Mdns.C39_supplement
  Mdns.C40_frame_counterexample
  Mdns.C40_no_overrun_partial
  Mdns.C40_overrun_counterexample
  Mdns.C40_response_partial
  Mdns.C41_fraction_counterexample
  Mdns.C41_mixed_counterexample
  Mdns.C41_sleep_partial
  Mdns.C41_usec_counterexample
  Mdns.C42_bucket_counterexample
  Mdns.C42_query_counterexample
  Mdns.C42_refresh_partial
  Mdns.C42_unicast_counterexample
  Mdns.C43_any_datagram
  Mdns.C43_every_call_partial
  Mdns.C43_no_conflict_callback_counterexample
  Mdns.C43_no_memory_errors_partial
  Mdns.C43_set_address_counterexample
  Mdns.C43_shutdown_counterexample
  Mdns.C44_find
  Mdns.C44_has_query_counterexample
  Mdns.C44_has_query_no
  Mdns.C44_has_query_partial
  Mdns.C44_published_counterexample
  Mdns.C44_published_partial
  Mdns.C45_clear
  Mdns.C46_destination
  Mdns.C46_discovery_counterexample
  Mdns.C46_replied_partial
  Mdns.C46_several_counterexample
  Mdns.C55_any_counterexample
  Mdns.C55_discovered_partial
  Mdns.C56_raw_data_limit
  Mdns.C57_settles
  Mdns.C58_crowded_counterexample
  Mdns.C58_parting_counterexample
  Mdns.C58_supplements_sent_partial
  Mdns.C59_entries
  Mdns.C61_expiry_counterexample
  Mdns.C61_out_ends_partial
  Mdns.C61_step_ends_partial
  Mdns.C61_step_sound_partial
  Mdns.C62_built_datagrams
  Mdns.C62_grouping_counterexample
  Mdns.C62_grouping_partial
  Mdns.C62_one_by_one_partial
  Mdns.C65_all_freed
  Mdns.C67_asked_found_partial
  Mdns.C67_labels_counterexample
  Mdns.C68_answered_partial
  Mdns.C68_enumeration_counterexample
  Mdns.C68_found_partial
  Mdns.C68_waiting_sent_partial
  Mdns.C69_held_back_partial
  Mdns.C69_milliseconds_counterexample
  Mdns.C72_early_counterexample
  Mdns.C72_goodbyes_partial
  Mdns.C72_refused_counterexample
  Mdns.C72_silent_partial
  Mdns.C76_bounded
  Mdns.C76_provoked
  Mdns.C76_unprovoked
  Mdns.C78_network
  Mdns.C78_responses
  Mdns.C78_responses_idle
  Mdns.C78_silence
  Mdns.C79_left_partial
  Mdns.C79_withdrawn_partial
  Mdns.C80_listed
  Mdns.C80_reported
  Mdns.C83_again_partial
  Mdns.C83_late_counterexample
  Mdns.C83_shorter_counterexample
  Mdns.C84_shorter_counterexample
  Mdns.C84_stays_partial
  Mdns.C87_known_partial
  Mdns.C88_any_counterexample
  Mdns.C88_cached_counterexample
  Mdns.C88_exact_partial
  Mdns.C88_learned_partial
  Mdns.C88_listed_told_partial
  Mdns.C88_told_listed_partial
  Mdns.C92_lasts
  Mdns.C92_reported_only
  Mdns.C93_type_counterexample
  Mdns.C94_flush_counterexample
  Mdns.C94_nothing_partial
  Mdns.C96_addresses
  Mdns.C96_addresses_counterexample
  Mdns.C96_effect_partial
  Mdns.C96_enough
  Mdns.C96_host_counterexample
  Mdns.C96_nameless_counterexample
  Mdns.C96_packet_partial
  Mdns.C96_raw
  Mdns.C96_raw_counterexample
  Mdns.C96_sound_partial
  Mdns.C96_states_partial
  Mdns.C98_rate
  Mdns.C98_rounds
  Mdns.Conf.C102_named_counterexample
  Mdns.Conf.C102_settled_partial
  Mdns.Conf.C114_empty_counterexample
  Mdns.Conf.C114_enough
  Mdns.Conf.C114_exact
  Mdns.Conf.C114_null_counterexample
  Mdns.Conf.C114_published_partial
  Mdns.Conf.C115_enough
  Mdns.Conf.C115_exact
  Mdns.Conf.C115_null_counterexample
  Mdns.Conf.C115_published_partial
  Mdns.Conf.C47_rooted_partial
  Mdns.Conf.C47_two_dots_counterexample
  Mdns.Conf.C48_configured_partial
  Mdns.Conf.C48_distinct
  Mdns.Conf.C48_full_counterexample
  Mdns.Conf.C48_never_again
  Mdns.Conf.C48_numbers
  Mdns.Conf.C48_pending_counterexample
  Mdns.Conf.C48_renamed_partial
  Mdns.Conf.C48_suffix
  Mdns.Conf.C48_targets_distinct
  Mdns.Conf.C51_empty_line_counterexample
  Mdns.Conf.C51_lines_partial
  Mdns.Conf.C51_long_line_counterexample
  Mdns.Conf.C51_port_partial
  Mdns.Conf.C63_addresses_partial
  Mdns.Conf.C63_advertised_partial
  Mdns.Conf.C63_collision_counterexample
  Mdns.Conf.C63_empty_key_counterexample
  Mdns.Conf.C63_files_partial
  Mdns.Conf.C63_keeps_others
  Mdns.Conf.C63_txt_partial
  Mdns.Conf.C64_again_partial
  Mdns.Conf.C64_moved_partial
  Mdns.Conf.C64_readdressed_partial
  Mdns.Conf.C64_single
  Mdns.Conf.C64_stays_partial
  Mdns.Conf.C64_twice_partial
  Mdns.Conf.C77_advertised_partial
  Mdns.Conf.C77_goodbye_counterexample
  Mdns.Conf.C77_probed_again
  Mdns.Conf.C77_reload_partial
  Mdns.Conf.C77_said
  Mdns.Conf.Mem.C109_default_counterexample
  Mdns.Conf.Mem.C109_enough
  Mdns.Conf.Mem.C109_freed
  Mdns.Conf.Mem.C109_loaded
  Mdns.Conf.Mem.C109_renamed_counterexample
  Mdns.Conf.Mem.C109_short_partial
  Mdns.Conf.Mem.C109_txt_counterexample
  Mdns.Glob.C97_advertised_partial
  Mdns.Glob.C97_background_partial
  Mdns.Glob.C97_directory_partial
  Mdns.Glob.C97_file
  Mdns.Glob.C97_folder_counterexample
  Mdns.Glob.C97_missing
  Mdns.Glob.C97_pattern_fits
  Mdns.Glob.C97_relative_counterexample
  Mdns.Glob.C97_services_partial
  Mdns.Glob.C97_special_counterexample
  Mdns.Glob.C97_tilde_counterexample
  Mdns.Hex.C91_printed_partial
  Mdns.Hex.C91_text_counterexample
  Mdns.Iface.C117_end_counterexample
  Mdns.Iface.C117_exact
  Mdns.Iface.C117_known_partial
  Mdns.Iface.C117_new_exists
  Mdns.Iface.C49_best_class_partial
  Mdns.Iface.C49_zeronet_counterexample
  Mdns.Iface.C50_configured
  Mdns.Iface.C50_flagged_iff
  Mdns.Iface.C50_same_again
  Mdns.Iface.C50_vanished
  Mdns.Inet.C122_any
  Mdns.Inet.C122_back
  Mdns.Inet.C122_distinct
  Mdns.Inet.C122_multicast
  Mdns.Inet.C122_port
  Mdns.Log.C118_defined_iff
  Mdns.Log.C118_level
  Mdns.Log.C118_same_partial
  Mdns.Log.C118_shift_counterexample
  Mdns.Log.C123_carry_counterexample
  Mdns.Log.C123_far_counterexample
  Mdns.Log.C123_level_counterexample
  Mdns.Log.C123_quiet
  Mdns.Log.C123_time_partial
  Mdns.Log.C52_decimal
  Mdns.Log.C52_error
  Mdns.Log.C52_names
  Mdns.Log.C52_numbers
  Mdns.Log.C52_shown
  Mdns.Log.C52_unknown_counterexample
  Mdns.MainLoop.C66_fraction_counterexample
  Mdns.MainLoop.C66_reload_counterexample
  Mdns.MainLoop.C66_rescans
  Mdns.MainLoop.C66_waits_partial
  Mdns.Mquery.C113_enough
  Mdns.Mquery.C113_exact
  Mdns.Mquery.C113_null_counterexample
  Mdns.Mquery.C113_safe_partial
  Mdns.Mquery.C113_same_partial
  Mdns.Mquery.C54_addresses_partial
  Mdns.Mquery.C54_devices_partial
  Mdns.Mquery.C54_instances_partial
  Mdns.Mquery.C54_long_name_counterexample
  Mdns.Mquery.C54_products_partial
  Mdns.Mquery.C73_detail_partial
  Mdns.Mquery.C73_dotted_counterexample
  Mdns.Mquery.C73_found_partial
  Mdns.Mquery.C73_newline_counterexample
  Mdns.Mquery.C73_table_partial
  Mdns.Mquery.C74_case_counterexample
  Mdns.Mquery.C74_detail_partial
  Mdns.Mquery.C74_selected_partial
  Mdns.Mquery.C75_ends_partial
  Mdns.Mquery.C75_freed
  Mdns.Mquery.C75_not_early
  Mdns.Mquery.C75_quiet_partial
  Mdns.Mquery.C75_silent_counterexample
  Mdns.Mquery.C75_sleeps_counterexample
  Mdns.Mquery.C75_waits_partial
  Mdns.Mquery.C81_asks
  Mdns.Mquery.C81_devices
  Mdns.Mquery.C81_follows
  Mdns.Mquery.C81_missed_counterexample
  Mdns.Mquery.C81_services
  Mdns.Mquery.C81_shown_partial
  Mdns.Mquery.C82_described
  Mdns.Mquery.C82_follows
  Mdns.Mquery.C82_gone_counterexample
  Mdns.Mquery.C82_lines
  Mdns.Mquery.C82_missed_counterexample
  Mdns.Mquery.C82_seconds_counterexample
  Mdns.Mquery.C82_shown_partial
  Mdns.Net.C89_deaf_counterexample
  Mdns.Net.C89_default_counterexample
  Mdns.Net.C89_foreign_counterexample
  Mdns.Net.C89_group
  Mdns.Net.C89_hops
  Mdns.Net.C89_link
  Mdns.Net.C89_own
  Mdns.Net.C89_ready
  Mdns.Net.C89_refused
  Mdns.Net.C89_together
  Mdns.Netlink.C53_events_partial
  Mdns.Netlink.C53_large_counterexample
  Mdns.Netlink.C53_unpadded_counterexample
  Mdns.Opt.C121_background
  Mdns.Opt.C121_messages_partial
  Mdns.Opt.C121_negative_counterexample
  Mdns.Opt.C121_shift_counterexample
  Mdns.Opt.C93_default_counterexample
  Mdns.Opt.C93_exit_counterexample
  Mdns.Opt.C93_number_counterexample
  Mdns.Opt.C93_query
  Mdns.Opt.C93_query_understood
  Mdns.Opt.C93_started
  Mdns.Opt.C93_syslog_counterexample
  Mdns.Opt.C93_syslog_partial
  Mdns.Opt.C93_ttl
  Mdns.Opt.C93_understood
  Mdns.Pid.C90_child
  Mdns.Pid.C90_failed
  Mdns.Pid.C90_other_counterexample
  Mdns.Pid.C90_removed
  Mdns.Pid.C90_theft_counterexample
  Mdns.Pid.C90_written_partial
  Mdns.Proc.C117_goodbye_counterexample
  Mdns.Proc.C120_daemon_partial
  Mdns.Proc.C120_number
  Mdns.Proc.C120_others
  Mdns.Proc.C120_wakes_partial
  Mdns.Proc.C120_zero
  Mdns.Proc.C120_zero_counterexample
  Mdns.Proc.C70_held_partial
  Mdns.Proc.C70_large_counterexample
  Mdns.Proc.C70_numbers_partial
  Mdns.Proc.C70_released_partial
  Mdns.Proc.C70_zero_address_counterexample
  Mdns.Proc.C71_back_partial
  Mdns.Proc.C71_given_up_partial
  Mdns.Proc.C71_ipv6_counterexample
  Mdns.Received.C100_log_inside
  Mdns.Received.C100_log_says_partial
  Mdns.Received.C100_next_counterexample
  Mdns.Received.C99_intact
  Mdns.Received.C99_structures
  Mdns.Route.C95_first_partial
  Mdns.Route.C95_given
  Mdns.Route.C95_tunnel_counterexample
  Mdns.Route.C95_wanted_partial
  Mdns.SdTxt.C114_read
  Mdns.SdTxt.C114_read_null
  Mdns.SdTxt.C11_long_entry_counterexample
  Mdns.SdTxt.C11_txt_round_trip_partial
  Mdns.SdTxt.C12_txt2sd_ignores_following
  Mdns.SdTxt.C12_txt2sd_in_bounds
  Mdns.SdTxt.C13_sd2txt_length
  Mdns.SdTxt.C60_txt_values
  Mdns.SdTxt.ValueOf.unique
  Mdns.Sig.C85_lost_counterexample
  Mdns.Sig.C85_reloads_partial
  Mdns.Sig.C86_ends
  Mdns.Sig.C86_goes_on
  Mdns.Tailq.C104_chain
  Mdns.Tailq.C104_freed
  Mdns.Tailq.C104_safe_partial
  Mdns.Tailq.C104_same
  Mdns.Uni.C112_enough
  Mdns.Uni.C112_same
  Mdns.Uni.C112_silent_counterexample
  Mdns.Uni.C112_sound_partial
  Mdns.Xht.C110_all_freed_partial
  Mdns.Xht.C110_freed_once
  Mdns.Xht.C110_lost_counterexample
  Mdns.Xht.C110_no_dangling
  Mdns.Xht.C110_null
  Mdns.Xht.C110_values
  Mdns.Xht.C110_walk
  Mdns.Xht.C119_freed
  Mdns.Xht.C119_same
  Mdns.Xht.C14_table_is_a_map
  Mdns.Xht.C15_copies_freed_exactly_once
  Mdns.Xht.C15_no_dangling
  Mdns.Xht.C15_no_double_free
  Mdns.Xht.C16_walk_visits_each_once
  Mdns.nameHash_range
  Mdns.sample_ok
