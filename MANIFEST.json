{"claims": [
  {"property": "C01", "status": "proved", "theorems": ["Verif.Mantissa.C01_decoder_is_rfc", "Verif.Mantissa.C01_encoder_total", "Verif.Mantissa.C01_bounded_loss", "Verif.Mantissa.C01_encoder_optimal", "Verif.Mantissa.C01_saturates", "Verif.Mantissa.C01_small_intervals", "Verif.Mantissa.C01_loss_bound_fails_below_125"], "note": "Bounds are exact; the side claim about loss below 125 ms is refuted by C01_loss_bound_fails_below_125, which lies outside the claimed range."},
  {"property": "C02", "status": "proved", "theorems": ["Verif.Mantissa.C02_monotone", "Verif.Mantissa.C02_reencode_identity", "Verif.Mantissa.C02_reencode_close", "Verif.Mantissa.C02_reencode_not_identity"], "note": "Monotone; re-encoding gives the same interval for every byte up to the truncation to whole milliseconds (C02_reencode_close); exact byte identity fails (C02_reencode_not_identity)."},
  {"property": "C03", "status": "proved", "theorems": ["Verif.Seqno.C03_greater_iff", "Verif.Seqno.C03_irreflexive", "Verif.Seqno.C03_asymmetric", "Verif.Seqno.C03_total", "Verif.Seqno.C03_transitive", "Verif.Seqno.C03_not_globally_transitive", "Verif.Seqno.C03_diff_spec"], "note": "All 65536x65536 pairs."},
  {"property": "C04", "status": "partial", "theorems": ["Verif.Dup.C04_no_second_acceptance_partial", "Verif.Dup.C04_first_message_accepted_twice", "Verif.Dup.C04_forgotten_at_clock_wrap"], "note": "Proved for originators that already have an entry. False for the first message of an originator (C04_first_message_accepted_twice) and when the 32-bit clock wraps (C04_forgotten_at_clock_wrap)."},
  {"property": "C05", "status": "proved", "theorems": ["Verif.Dup.C05_restart_recovers", "Verif.Dup.C05_resync_recovers_faster"], "note": "Any history before, any interleaving after; also the faster resynchronisation after an empty TC."},
  {"property": "C06", "status": "proved", "theorems": ["Verif.Dup.C06_duplicate_only_if_seen", "Verif.Dup.C06_newer_never_suppressed"], "note": "Any history from the empty set, unbounded."},
  {"property": "C07", "status": "proved", "theorems": ["Verif.SchedTime.C07_not_expired_before", "Verif.SchedTime.C07_expired_after", "Verif.SchedTime.C07_expired_iff", "Verif.SchedTime.C07_time_due_close", "Verif.SchedTime.C07_time_due_inexact", "Verif.SchedTime.C07_time_due_overflow"], "note": "Also the inexactness of the remaining-time computation across the wrap."},
  {"property": "C08", "status": "partial", "theorems": ["Verif.Timer.C08_expiry_time", "Verif.Timer.C08_never_early", "Verif.Timer.C08_none_overdue_after_walk_partial", "Verif.Timer.C08_never_twice", "Verif.Timer.C08_due_timer_fired_partial", "Verif.Timer.C08_lost_at_clock_wrap"], "note": "Proved for every sequence of timer operations and callbacks while the 32-bit millisecond clock does not wrap during the walk; false at the wrap (C08_lost_at_clock_wrap)."},
  {"property": "C09", "status": "proved", "theorems": ["Verif.SchedTime.C09_jitter_bounds", "Verif.SchedTime.C09_jitter_out_of_range_random"], "note": "For every random value in the documented range."},
  {"property": "C10", "status": "proved", "theorems": ["Verif.Ipcalc.C10_prefix_roundtrip", "Verif.Ipcalc.C10_netmask_roundtrip", "Verif.Ipcalc.C10_too_long_refused"], "note": "Every buffer content, every length 1..31 bytes (4 and 16 in use), every prefix length."},
  {"property": "C11", "status": "partial", "theorems": ["Verif.Ipcalc.C11_examined_bytes_partial", "Verif.Ipcalc.C11_hole_accepted", "Verif.Ipcalc.C11_bogus_mask_prefix_undefined"], "note": "False: 255.0.255.0 is accepted as /8 (C11_hole_accepted). Proved for the bytes that are examined."},
  {"property": "C12", "status": "partial", "theorems": ["Verif.Parser.C12_messages_partial", "Verif.Parser.C12_messages_inside", "Verif.Parser.C12_messages_unique", "Verif.Parser.C12_two_byte_datagram", "Verif.Parser.C12_two_byte_datagram_overread"], "note": "Proved for every datagram of 4 bytes or more. False for 2-byte datagrams: the length computation wraps and stale buffer contents are parsed, possibly past the buffer (C12_two_byte_datagram, C12_two_byte_datagram_overread)."},
  {"property": "C13", "status": "partial", "theorems": ["Verif.Parser.C13_own_ignored_partial", "Verif.Parser.C13_secondary_address_processed"], "note": "Proved for the main address and denied addresses. Messages carrying one of the node's other interface addresses are processed (C13_secondary_address_processed)."},
  {"property": "C14", "status": "partial", "theorems": ["Verif.Forward.C14_forward_decision", "Verif.Forward.C14_forwarded_copies_partial", "Verif.Forward.C14_not_forwarded_twice", "Verif.Forward.C14_ether_ttl_not_decremented"], "note": "Decision rule and per-interface copies proved; on Ethernet-mode interfaces messages with exhausted TTL are retransmitted unchanged (C14_ether_ttl_not_decremented)."},
  {"property": "C15", "status": "proved", "theorems": ["Verif.Netbuf.C15_netbuf", "Verif.Netbuf.C15_push_accepts", "Verif.Netbuf.C15_output_empties", "Verif.Netbuf.C15_reachable_defined"], "note": "Any MTU, any operation sequence; packet transform functions of plugins not included."},
  {"property": "C16", "status": "partial", "theorems": ["Verif.Netbuf.C16_reserved_available_partial", "Verif.Netbuf.C16_second_reservation_drops_first", "Verif.Netbuf.C16_bytes_left_accepted"], "note": "Proved for one reservation; a second reservation drops the first (C16_second_reservation_drops_first)."},
  {"property": "C17", "status": "partial", "theorems": ["Verif.BuildMsg.C17_roundtrip_partial", "Verif.BuildMsg.C17_small_buffer_loses"], "note": "C17_roundtrip_partial: both families, any interface list and buffer state, provided an empty buffer takes one address. C17_small_buffer_loses: without that, IPv4 loses addresses silently."},
  {"property": "C18", "status": "partial", "theorems": ["Verif.BuildMsg.C18_roundtrip_partial", "Verif.BuildMsg.C18_8191_entries_exit"], "note": "C18_roundtrip_partial: both families, any list, any foreign receiver; smart gateway entries are C67/C68. C18_8191_entries_exit: 8191 IPv4 entries can end the program through a 16-bit size estimate."},
  {"property": "C19", "status": "partial", "theorems": ["Verif.TcPkt.C19_list", "Verif.TcPkt.C19_fragments_partial", "Verif.TcPkt.C19_small_buffer_aborts", "Verif.TcPkt.C19_header"], "note": "C19_list: the list is exactly the neighbours to be advertised, once each, sorted. C19_fragments_partial: every fragment fits and together they are the list, if an empty buffer has room for one neighbour; C19_small_buffer_aborts: otherwise the assertion fails. C19_header: the header is read back as written."},
  {"property": "C20", "status": "partial", "theorems": ["Verif.Hello.C20_roundtrip_partial", "Verif.Hello.C20_small_buffer_aborts", "Verif.Hello.C20_announced", "Verif.Hello.C20_links_partial", "Verif.Hello.C20_duplicates"], "note": "C20_roundtrip_partial, C20_announced and C20_links_partial: both families, every link set and state of the buffer, provided an empty buffer takes one neighbour; otherwise C20_small_buffer_aborts."},
  {"property": "C21", "status": "partial", "theorems": ["Verif.Hello.C21_hello_partial", "Verif.Hello.C21_hello_overreads", "Verif.Hello.C21_hello_block_overreads", "Verif.TcSet.C21_tc_exact", "Verif.TcSet.C21_tc_partial", "Verif.TcSet.C21_tc_overreads"], "note": "HELLO: C21_hello_partial for whole blocks; false otherwise (C21_hello_overreads, C21_hello_block_overreads). TC: C21_tc_exact, C21_tc_partial; false otherwise (C21_tc_overreads)."},
  {"property": "C22", "status": "proved", "theorems": ["Verif.LqMpr.C22_coverage", "Verif.LqMpr.C22_cheapest", "Verif.LqMpr.C22_detour", "Verif.LqMpr.C22_only_needed"], "note": "Whole of olsr_calculate_lq_mpr. Coverage, choice of the cheapest, frugality, and the case of a two-hop neighbour that is a symmetric neighbour as well."},
  {"property": "C23", "status": "partial", "theorems": ["Verif.LqMpr.C23_lq_symmetric_partial", "Verif.LqMpr.C23_lq_always_selected", "Verif.LqMpr.C23_lq_never_selected", "Verif.Mpr.C23_rfc_willing_partial", "Verif.Mpr.C23_rfc_always_selected", "Verif.Mpr.C23_rfc_asymmetric_selected"], "note": "Link-quality selection: selected implies symmetric (proved), but willingness NEVER is ignored (counterexample). RFC selection: selected implies willing (proved), but a non-symmetric neighbour can be selected (counterexample)."},
  {"property": "C24", "status": "partial", "theorems": ["Verif.Mpr.C24_always_partial", "Verif.Mpr.C24_single_link_partial", "Verif.Mpr.C24_uncovered_optimized", "Verif.Mpr.C24_uncovered_greedy", "Verif.Mpr.C24_loop_ends"], "note": "False of the code: two concrete well-formed neighbourhoods with symmetric neighbours only in which a two-hop neighbour ends up without MPR, one through the optimisation step and one through the greedy loop. Proved for two-hop neighbours with a single link and for those seen by a WILL_ALWAYS neighbour; termination proved."},
  {"property": "C25", "status": "partial", "theorems": ["Verif.Spf.C25_shortest_partial", "Verif.Spf.C25_1024_nodes_partial", "Verif.Spf.C25_overflow", "Verif.Spf.C25_own_links"], "note": "Dijkstra run and neighbour loop modelled. Proved: exact shortest costs, path list = reachable nodes by ascending cost, termination, no undefined behaviour, whenever nodes times largest link cost stays below 2^32-1, in particular for up to 1024 nodes. Refuted for 1025 nodes (32-bit sum wraps, deletion from a tree the node is not in)."},
  {"property": "C26", "status": "partial", "theorems": ["Verif.Spf.C26_next_hop_partial", "Verif.Spf.C26_stale_link_wrong_hop", "Verif.Spf.C26_stale_link_no_route"], "note": "Proved when this node has no left-over link in the database. Refuted with a left-over link, which the code leaves behind when a link entry of a neighbour with a differing main address is deleted."},
  {"property": "C27", "status": "partial", "theorems": ["Verif.Route.C27_order_independent", "Verif.Route.C27_best_partial", "Verif.Route.C27_default_route_sticks", "Verif.Route.C27_announcement_order"], "note": "Proved: order independence in general; lexicographic minimum for every destination other than that of the current internet gateway; same kernel route whatever the announcement order and history. Refuted for the default route, where the current gateway's cost is multiplied by the NAT threshold."},
  {"property": "C28", "status": "partial", "theorems": ["Verif.Route.C28_sync_partial", "Verif.Route.C28_linklocal_stale", "Verif.Route.C28_approx_stale_metric"], "note": "Proved for every reachable state and every destination, with the exact operations. Missing: link-local destinations (refuted, a stale route stays), the metric with FIBMetric approx (refuted), failing kernel calls."},
  {"property": "C29", "status": "proved", "theorems": ["Verif.Avl.C29_refines", "Verif.Avl.C29_height", "Verif.Avl.C29_tree"], "note": "All operation sequences. The parent pointers are modelled by a path to the root and the next/prev chain by a list; the comparison function is a total order on numbers."},
  {"property": "C30", "status": "proved", "theorems": ["Verif.LList.C30_refines", "Verif.LList.C30_remove_twice", "Verif.LList.C30_merge_prepends"], "note": "All operation sequences on all sets of lists, called properly. Removing a node that is on no list dereferences NULL (C30_remove_twice); list_merge prepends although its comment says it appends (C30_merge_prepends)."},
  {"property": "C31", "status": "proved", "theorems": ["Verif.GwSpeed.C31_decode_bounds", "Verif.GwSpeed.C31_special", "Verif.GwSpeed.C31_reencode", "Verif.GwSpeed.C31_not_monotone"], "note": "All speeds and all bytes. Beyond the property: the code is not monotone, 33 kbit/s is announced as less than 32 kbit/s (C31_not_monotone)."},
  {"property": "C32", "status": "partial", "theorems": ["Verif.GwList.C32_once_and_counted", "Verif.GwList.C32_sorted_partial", "Verif.GwList.C32_lost_route_unsorted"], "note": "Proved for every reachable state: each gateway once, count is the length, length bounded. Ordering and best/worst proved as long as no listed gateway loses its route; refuted otherwise (the previous cost is read after it was reset)."},
  {"property": "C33", "status": "partial", "theorems": ["Verif.GwCost.C33_no_int64_overflow", "Verif.GwCost.C33_monotone_partial", "Verif.GwCost.C33_monotone_ordinary", "Verif.GwCost.C33_weighted_path_cost_wraps", "Verif.GwCost.C33_best_bandwidth_dearer", "Verif.GwCost.C33_unusable_infinite"], "note": "Proved: no 64-bit overflow for all path costs and configurations in range; monotone in path cost and bandwidth while the weighted path cost fits in 32 bits and both sides take the same branch; unusable gateways cost infinity. Refuted beyond that: the weighted path cost wraps in 32 bits, and the top bandwidth branch is dearer or cheaper out of order."},
  {"property": "C34", "status": "partial", "theorems": ["Verif.GwCost.C34_minimal", "Verif.GwCost.C34_hysteresis_partial", "Verif.GwCost.C34_unreachable_current_overflows", "Verif.GwCost.C34_unusable_current_kept"], "note": "Proved: the chosen gateway is a selectable one of minimal cost among those passing the threshold; a new one is chosen only below threshold percent of the current cost. Refuted: with a current gateway of infinite cost the threshold computation overflows; a current gateway that became unusable is kept."},
  {"property": "C35", "status": "partial", "theorems": ["Verif.Lq.C35_ff_range", "Verif.Lq.C35_ff_strict", "Verif.Lq.C35_ffeth_range", "Verif.Lq.C35_ffeth_mono", "Verif.Lq.C35_fpm_range_partial", "Verif.Lq.C35_fpm_strict", "Verif.Lq.C35_fpm_usable_broken"], "note": "etx_ff and etx_ffeth proved in full. etx_fpm: everything except that usable links are never broken, which is false (C35_fpm_usable_broken). The floating-point plugin is not modelled."},
  {"property": "C36", "status": "partial", "theorems": ["Verif.Lq.C36_window_partial", "Verif.Lq.C36_counter_wraps", "Verif.Lq.C36_lossless", "Verif.Lq.C36_ffeth_boost"], "note": "Proved for fewer than 256 packets per tick; above that the 16-bit counter of expected packets wraps (C36_counter_wraps)."},
  {"property": "C37", "status": "partial", "theorems": ["Verif.Lq.C37_in_range", "Verif.Lq.C37_received", "Verif.Lq.C37_loss_partial", "Verif.Lq.C37_loss_stalls", "Verif.Lq.C37_loss_stalls_from"], "note": "Range, absence of overflow and monotonicity proved; convergence to zero is false, the rounding stalls (C37_loss_stalls)."},
  {"property": "C38", "status": "partial", "theorems": ["Verif.TcSet.C38_windows", "Verif.TcSet.C38_old_ignored_partial", "Verif.TcSet.C38_old_run_partial", "Verif.TcSet.C38_others", "Verif.TcSet.C38_replaces_partial", "Verif.TcSet.C38_collects", "Verif.TcSet.C38_fragments", "Verif.TcSet.C38_empty", "Verif.TcSet.C38_main_zero", "Verif.TcSet.C38_no_edges", "Verif.TcSet.C38_thirty_three_old", "Verif.TcSet.C38_two_strays", "Verif.TcSet.C38_stale_edge_survives"], "note": "C38_old_ignored_partial, C38_old_run_partial: an older ANSN changes nothing while fewer than 33 such messages arrive in a row and no second stray sequence number does; C38_no_edges, C38_thirty_three_old, C38_two_strays are the exceptions. C38_replaces_partial: a message that is next replaces exactly the edges in its range, except those with an ANSN that is not older (C38_stale_edge_survives). C38_others: other originators are untouched. C38_collects, C38_empty: messages without range. C38_fragments: all fragments of a TC, on any host, leave exactly the advertised edges. C38_main_zero: NULL dereference without main address. C38_windows: the sequence number windows."},
  {"property": "C39", "status": "partial", "theorems": ["Verif.Link.C39_bookkeeping", "Verif.Link.C39_link_history", "Verif.Link.C39_hello_repairs", "Verif.Link.C39_sym_link_partial", "Verif.Link.C39_status_partial", "Verif.Link.C39_asym_expiry_keeps_sym", "Verif.Link.C39_interface_removal_keeps_sym", "Verif.Link.C39_unknown_alias_loses_sym"], "note": "False of the code in three ways, each with a witness: a sym timer that runs out after a HELLO announcing the link as asymmetric leaves the neighbour symmetric (C39_asym_expiry_keeps_sym), removing the symmetric one of several links does too (C39_interface_removal_keeps_sym), and the first HELLO from an unknown second address makes a symmetric neighbour asymmetric (C39_unknown_alias_loses_sym). C39_status_partial proves both directions for all other event sequences, C39_sym_link_partial one direction for all sequences with a complete MID table, C39_link_history and C39_bookkeeping hold for all sequences. Without hysteresis; change of a main address not modelled."},
  {"property": "C40", "status": "proved", "theorems": ["Verif.Mid.C40_resolution", "Verif.Mid.C40_mid_registers", "Verif.Mid.C40_mid_prunes", "Verif.Mid.C40_mid_others"], "note": "C40_resolution for every sequence of HELLOs, MID messages, expiries and link deletions; C40_mid_registers, C40_mid_prunes and C40_mid_others say what one MID message does to the resolution."},
  {"property": "C41", "status": "partial", "theorems": ["Verif.Str.C41_strscpy", "Verif.Str.C41_strscat_partial", "Verif.Str.C41_strscat_overrun"], "note": "strscpy proved in full. strscat proved when the destination holds a terminated string within size; otherwise size - strlen wraps and the bound is lost (C41_strscat_overrun)."},
  {"property": "C42", "status": "partial", "theorems": ["Verif.Abuf.C42_content_partial", "Verif.Abuf.C42_step_partial", "Verif.Abuf.C42_terminated_partial", "Verif.Abuf.C42_pull_unterminated", "Verif.Abuf.C42_overflow", "Verif.Abuf.C42_refused", "Verif.Abuf.C42_concat_nul"], "note": "Proved up to 4 KiB below the 16 MiB limit for every operation sequence. Above it memory is overrun (C42_overflow) or text refused (C42_refused); abuf_pull leaves the content unterminated (C42_pull_unterminated); NUL bytes break abuf_concat (C42_concat_nul). abuf_strftime and allocation failure are not modelled."},
  {"property": "C43", "status": "partial", "theorems": ["Verif.Hist.C43_unknown_not_seen", "Verif.Hist.C43_seen_iff", "Verif.Hist.C43_prune_exact", "Verif.Hist.C43_prune_empties", "Verif.Hist.C43_late_prune_keeps"], "note": "C43_unknown_not_seen, C43_seen_iff, C43_prune_exact, C43_prune_empties for every event sequence in which clean-ups run within 24 days of a deadline; C43_late_prune_keeps beyond that."},
  {"property": "C44", "status": "partial", "theorems": ["Verif.SecAuth.C44_slack", "Verif.SecAuth.C44_unsigned_rejected", "Verif.SecAuth.C44_exchange_partial", "Verif.SecAuth.C44_unsigned_challenge_validates", "Verif.SecAuth.C44_tracking", "Verif.SecAuth.C44_drift"], "note": "C44_slack (exact acceptance rule), C44_tracking, C44_unsigned_rejected for all states; C44_exchange_partial for every event sequence in which challenges to this node are rightly signed. Without that it is false: C44_unsigned_challenge_validates. C44_drift: the slack does not bound the age of accepted packets. The digests are parameters."},
  {"property": "C45", "status": "partial", "theorems": ["Verif.SgwConf.C45_accepted_blocks_safe", "Verif.SgwConf.C45_used_partial", "Verif.SgwConf.C45_truncated_to_reserved", "Verif.SgwConf.C45_truncated_to_zero", "Verif.SgwConf.C45_large_offset_outside", "Verif.SgwConf.C45_count_wraps"], "note": "Proved: an accepted configuration describes safe blocks, and the numbers used are these blocks if they end below 256. Refuted beyond: the numbers are stored in 8 bits, so accepted offsets lead to the system tables or to zero; and 257 egress interfaces are accepted."},
  {"property": "C46", "status": "partial", "theorems": ["Verif.Timer.C46_oneshot_rearm_is_lost", "Verif.Timer.C46_periodic_rearm_partial"], "note": "Periodic timers re-armed by their callback are kept; one-shot timers re-armed by their own callback are lost (C46_oneshot_rearm_is_lost)."},
  {"property": "C47", "status": "proved", "theorems": ["Verif.Ipcalc.C47_ipv4", "Verif.Ipcalc.C47_ipv6", "Verif.Ipcalc.C47_ipv6_overread"], "note": "All addresses, all prefix lengths in range; out-of-range lengths read past the address (C47_ipv6_overread)."},
  {"property": "C48", "status": "partial", "theorems": ["Verif.Ipcalc.C48_gateway_prefix_partial", "Verif.Ipcalc.C48_any_slash3_is_gateway"], "note": "False for length 3: any /3 prefix counts (C48_any_slash3_is_gateway), memcmp compares 3/8 = 0 bytes."},
  {"property": "C49", "status": "proved", "theorems": ["Verif.Wire.C49_sent_messages_received"], "note": "Composition of the buffer and the parser models."},
  {"property": "C50", "status": "proved", "theorems": ["Verif.Lq.C50_smoothed_close", "Verif.Lq.C50_change_reported"], "note": "etx_ff; the initial cost of a new link is LINK_COST_BROKEN, the cost of qualities (0,0)."},
  {"property": "C51", "status": "partial", "theorems": ["Verif.LqMpr.C51_lq_gain_signalled_partial", "Verif.LqMpr.C51_lq_loss_not_signalled", "Verif.Mpr.C51_rfc_loss_signalled_partial", "Verif.Mpr.C51_rfc_gain_not_signalled"], "note": "Link-quality selection signals exactly the gains, RFC selection exactly the losses; both halves proved, both missing halves refuted by a concrete run."},
  {"property": "C52", "status": "partial", "theorems": ["Verif.Spf.C52_neighbour_reached_partial", "Verif.Spf.C52_new_neighbour_unreachable"], "note": "Proved for neighbours whose link was in the database before; refuted for a new neighbour, whose link is created with the broken cost."},
  {"property": "C53", "status": "partial", "theorems": ["Verif.GwList.C53_takedown_partial", "Verif.GwList.C53_nothing_to_take", "Verif.GwList.C53_unreachable_current_overflows"], "note": "Proved for ordered lists; refuted for an unreachable current gateway, where the boundary overflows."},
  {"property": "C54", "status": "partial", "theorems": ["Verif.GwList.C54_current_listed_partial", "Verif.GwList.C54_defined", "Verif.GwList.C54_failed_tunnel_dangling"], "note": "Proved while tunnels can be created, then no operation but the takedown is undefined; refuted for a failing tunnel with a full list."},
  {"property": "C55", "status": "partial", "theorems": ["Verif.Egress.C55_best_partial", "Verif.Egress.C55_first_link_unchecked"], "note": "Proved if the first link declared is really up when marked so; refuted otherwise, the first link is never checked."},
  {"property": "C56", "status": "partial", "theorems": ["Verif.Egress.C56_link_route_partial", "Verif.Egress.C56_never_blackhole", "Verif.Egress.C56_unwanted"], "note": "Proved when there is an egress link; the blackhole route is proved never to be installed."},
  {"property": "C58", "status": "partial", "theorems": ["Verif.Link.C58_is_link", "Verif.Link.C58_best_partial", "Verif.Link.C58_none", "Verif.Link.C58_misses_symmetric"], "note": "False of the code: a cheaper asymmetric link hides symmetric ones (C58_misses_symmetric). C58_best_partial proves it when no asymmetric link is as cheap as the cheapest symmetric one. LQ case only."},
  {"property": "C59", "status": "partial", "theorems": ["Verif.Mid.C59_pointers_partial", "Verif.Mid.C59_live_partial", "Verif.Mid.C59_self_alias_reads_freed", "Verif.Mid.C59_moved_address_reads_freed", "Verif.Mid.C59_merge_reads_freed", "Verif.Mid.C59_neighbour_without_links"], "note": "False of the code: a MID message that lists its own originator (C59_self_alias_reads_freed), an address that moves between neighbours (C59_moved_address_reads_freed), and a merge of two neighbours (C59_merge_reads_freed) all end in a read of a freed entry; a rename leaves a neighbour without links for ever (C59_neighbour_without_links). C59_pointers_partial proves it in full for events that do not touch the main address of a neighbour, C59_live_partial proves that links are live for all others as long as no link is deleted."},
  {"property": "C60", "status": "partial", "theorems": ["Verif.TcPkt.C60_border_storage", "Verif.TcPkt.C60_writes_outside", "Verif.TcPkt.C60_own_flags_partial"], "note": "False of the code: C60_border_storage gives the exact set of harmless flags, C60_writes_outside has messages that write before the address. C60_own_flags_partial: the flags this code generates are harmless."},
  {"property": "C61", "status": "partial", "theorems": ["Verif.TcPkt.C61_consecutive", "Verif.TcPkt.C61_tile_partial", "Verif.TcPkt.C61_little_endian"], "note": "C61_tile_partial proves it for IPv6 and for big-endian hosts. False for IPv4 on little-endian hosts: C61_little_endian; there the ranges are still consecutive (C61_consecutive), only the neighbours may lie outside."},
  {"property": "C62", "status": "partial", "theorems": ["Verif.TcSet.C62_allowed_partial", "Verif.TcSet.C62_denied_garbles", "Verif.TcSet.C62_denied_overreads"], "note": "False of the code: C62_denied_garbles (wrong neighbours registered), C62_denied_overreads. C62_allowed_partial: without denied addresses every neighbour is registered as announced."},
  {"property": "C63", "status": "partial", "theorems": ["Verif.TcSet.C63_known_partial", "Verif.TcSet.C63_skips_neighbours", "Verif.TcSet.C63_overreads"], "note": "False of the code: C63_skips_neighbours, C63_overreads. C63_known_partial: right if the receiver knows all announced neighbours already."},
  {"property": "C64", "status": "proved", "theorems": ["Verif.TcInv.C64_inverse", "Verif.TcInv.C64_mutual", "Verif.TcInv.C64_no_freed", "Verif.TcInv.C64_unique"], "note": "C64_inverse, C64_mutual, C64_no_freed, C64_unique: an invariant over all events of an object-level model with freed objects."},
  {"property": "C65", "status": "partial", "theorems": ["Verif.TcInv.C65_own_entry_partial", "Verif.TcInv.C65_configured", "Verif.TcInv.C65_link_without_own_entry"], "note": "False of the code: C65_link_without_own_entry. C65_own_entry_partial: it holds once the own entry exists; C65_configured: always, if the main address is configured."},
  {"property": "C66", "status": "partial", "theorems": ["Verif.BuildMsg.C66_mid4", "Verif.BuildMsg.C66_mid6_partial", "Verif.BuildMsg.C66_mid6_overreads", "Verif.BuildMsg.C66_hna"], "note": "C66_mid4 and C66_hna hold; IPv6 MID: C66_mid6_partial gives the exact condition, C66_mid6_overreads is the violation."},
  {"property": "C67", "status": "partial", "theorems": ["Verif.BuildMsg.C67_announced_partial", "Verif.BuildMsg.C67_slash3_undefined", "Verif.BuildMsg.C67_prefix_never_learned"], "note": "C67_announced_partial for 0.0.0.0/0 and ::ffff:0:0/96. False of the code otherwise: C67_slash3_undefined (one byte written behind the local netmask), C67_prefix_never_learned."},
  {"property": "C68", "status": "partial", "theorems": ["Verif.BuildMsg.C68_withdrawn_partial", "Verif.BuildMsg.C68_window", "Verif.BuildMsg.C68_zero_speed_drops", "Verif.BuildMsg.C68_ipv6_default_route"], "note": "C68_withdrawn_partial and C68_window for IPv4. False for IPv6: C68_ipv6_default_route (the withdrawal is a default route)."},
  {"property": "C69", "status": "partial", "theorems": ["Verif.Hello.C69_no_leak_partial", "Verif.Hello.C69_leaks"], "note": "C69_no_leak_partial for whole blocks; C69_leaks: a block of size zero makes the reader lose all neighbours allocated so far."},
  {"property": "C70", "status": "partial", "theorems": ["Verif.Crc.C70_table_is_crc32", "Verif.Crc.C70_defined", "Verif.Crc.C70_packet_unchanged", "Verif.Crc.C70_ttl_irrelevant", "Verif.Crc.C70_burst_detected", "Verif.Crc.C70_tail_ignored", "Verif.Crc.C70_different_packets_confused", "Verif.Crc.C70_zero_length"], "note": "C70_table_is_crc32, C70_defined, C70_packet_unchanged, C70_ttl_irrelevant, C70_burst_detected (first 256 bytes). False beyond: C70_tail_ignored, C70_different_packets_confused; C70_zero_length: total length 0."},
  {"property": "C71", "status": "partial", "theorems": ["Verif.Cksum.C71_multicast_untouched", "Verif.Cksum.C71_only_destination", "Verif.Cksum.C71_header_checksum_partial", "Verif.Cksum.C71_header_checksum_broken", "Verif.Cksum.C71_udp_checksum_partial", "Verif.Cksum.C71_udp_checksum_invented"], "note": "C71_multicast_untouched and C71_only_destination in full; C71_header_checksum_partial and C71_udp_checksum_partial give the exact condition; C71_header_checksum_broken and C71_udp_checksum_invented are the witnesses against the rest."},
  {"property": "C72", "status": "partial", "theorems": ["Verif.Bmf.C72_only_received_partial", "Verif.Bmf.C72_discloses", "Verif.Bmf.C72_leaves_buffer", "Verif.Bmf.C72_truncates"], "note": "C72_only_received_partial when the inner IP length fits the datagram, which the code does not check; C72_discloses, C72_leaves_buffer, C72_truncates otherwise."},
  {"property": "C73", "status": "proved", "theorems": ["Verif.Bmf.C73_destinations", "Verif.Bmf.C73_limit_needed", "Verif.Bmf.C73_captured_raw", "Verif.Bmf.C73_captured_encap", "Verif.Bmf.C73_encapsulated", "Verif.Bmf.C73_encapsulated_from", "Verif.Bmf.C73_captured_whole"], "note": "C73_destinations with the fan-out limits the option parser accepts (C73_limit_needed); C73_captured_raw, C73_captured_encap, C73_encapsulated for the interfaces."},
  {"property": "C74", "status": "partial", "theorems": ["Verif.Bmf.C74_once", "Verif.Bmf.C74_recorded", "Verif.Bmf.C74_forged_suppresses"], "note": "C74_once and C74_recorded for every event sequence; that a packet received for the first time is passed on is false, since fingerprints in headers are believed (C74_forged_suppresses)."},
  {"property": "C75", "status": "partial", "theorems": ["Verif.SecSig.C75_layouts", "Verif.SecSig.C75_verifies_partial", "Verif.SecSig.C75_lp64_sha1_fails", "Verif.SecSig.C75_tampering_detected", "Verif.SecSig.C75_algorithm_ignored"], "note": "C75_verifies_partial for all layouts but SHA-1 with 64-bit time, C75_tampering_detected for all; C75_lp64_sha1_fails is the exception. C75_algorithm_ignored: the announced algorithm is not checked."},
  {"property": "C76", "status": "partial", "theorems": ["Verif.SecSig.C76_room_partial", "Verif.SecSig.C76_full_buffer_overflows"], "note": "C76_room_partial gives the exact condition; it is not ensured: C76_full_buffer_overflows."},
  {"property": "C77", "status": "partial", "theorems": ["Verif.SecAuth.C77_exchange", "Verif.SecAuth.C77_unvalidated_silent", "Verif.SecAuth.C77_entry_stays", "Verif.SecAuth.C77_retry_partial", "Verif.SecAuth.C77_crossed_challenges", "Verif.SecAuth.C77_forged_challenge_blocks", "Verif.SecAuth.C77_first_seconds"], "note": "C77_exchange for the intended order of messages. False in general: C77_crossed_challenges, C77_unvalidated_silent, C77_entry_stays, C77_forged_challenge_blocks, C77_first_seconds; C77_retry_partial with zeroed memory."},
  {"property": "C57", "status": "partial", "theorems": ["Verif.Nl.C57_route_partial", "Verif.Nl.C57_large_table_lost", "Verif.Nl.C57_attributes", "Verif.Nl.C57_ipv6_host_route", "Verif.Nl.C57_ipv6_prefix_32"], "note": "C57_route_partial for tables below 256 and, for IPv6, all but host routes and /32 prefixes without gateway; C57_large_table_lost, C57_ipv6_host_route, C57_ipv6_prefix_32 are the exceptions. The reading of requests is a specification of the kernel side."},
  {"property": "C78", "status": "partial", "theorems": ["Verif.Nl.C78_matched_partial", "Verif.Nl.C78_off_by_one"], "note": "C78_matched_partial without interrupted reads; C78_off_by_one: after one interrupted read every answer is that of the request before."},
  {"property": "C79", "status": "partial", "theorems": ["Verif.Nl.C79_add_acknowledged", "Verif.Nl.C79_delete_acknowledged", "Verif.Nl.C79_bounded", "Verif.Nl.C79_delete_adds", "Verif.Nl.C79_fuzzy_deletion_names_gateway"], "note": "C79_add_acknowledged, C79_delete_acknowledged, C79_bounded for IPv4 and all answers; C79_delete_adds and C79_fuzzy_deletion_names_gateway are false parts."},
  {"property": "C80", "status": "partial", "theorems": ["Verif.Nl.C80_rule_partial", "Verif.Nl.C80_rule_table_truncated", "Verif.Nl.C80_address"], "note": "C80_address in full, C80_rule_partial for tables below 256; C80_rule_table_truncated beyond."},
  {"property": "C81", "status": "partial", "theorems": ["Verif.TwoHop.C81_consistent_partial", "Verif.TwoHop.C81_hello", "Verif.TwoHop.C81_deletions", "Verif.TwoHop.C81_alias_neighbour_dangles", "Verif.TwoHop.C81_alias_chain_dangles"], "note": "C81_consistent_partial for all operations except the deletion of the neighbour entry of an alias and for MID sets without chains of aliases; C81_hello and C81_deletions describe the effects; C81_alias_neighbour_dangles and C81_alias_chain_dangles show use of freed memory in the excluded cases."},
  {"property": "C82", "status": "partial", "theorems": ["Verif.TwoHop.C82_refresh_partial", "Verif.TwoHop.C82_expire", "Verif.TwoHop.C82_first_time_no_timer", "Verif.TwoHop.C82_stays_for_ever"], "note": "C82_refresh_partial (listed again) and C82_expire; false of the first listing: C82_first_time_no_timer, C82_stays_for_ever."},
  {"property": "C83", "status": "proved", "theorems": ["Verif.TwoHop.C83_best_path", "Verif.TwoHop.C83_no_link"], "note": "C83_best_path, C83_no_link; costs up to LINK_COST_BROKEN (that link costs are is C35), so the sum does not wrap."},
  {"property": "C84", "status": "proved", "theorems": ["Verif.Ansn.C84_selected", "Verif.Ansn.C84_selectors", "Verif.Ansn.C84_loss_keeps"], "note": "C84_selected on the bytes of well-formed messages, C84_selectors for every sequence of events; C84_loss_keeps notes that the loss of a neighbour removes nothing (RFC 3626 8.5 does)."},
  {"property": "C85", "status": "partial", "theorems": ["Verif.Ansn.C85_advertised", "Verif.Ansn.C85_signalled_partial", "Verif.Ansn.C85_number_partial", "Verif.Ansn.C85_number_too_late", "Verif.Ansn.C85_status_change"], "note": "C85_signalled_partial, C85_number_partial; false parts C85_number_too_late (message generated between a change and the end of the round) and C85_status_change (redundancy 0 or 1)."},
  {"property": "C86", "status": "partial", "theorems": ["Verif.Ansn.C86_empty_partial", "Verif.Ansn.C86_shorter_than_validity", "Verif.Ansn.C86_sent_again"], "note": "C86_empty_partial with three times the emission interval in place of the validity time; C86_shorter_than_validity and C86_sent_again are the false parts."},
  {"property": "C87", "status": "proved", "theorems": ["Verif.Hna.C87_content", "Verif.Hna.C87_tidy", "Verif.Hna.C87_kept", "Verif.Hna.C87_message"], "note": "C87_content, C87_tidy, C87_kept for every sequence of events, C87_message for a whole message as read by C18; time does not wrap in this model (C07, C08 treat the wrap)."},
  {"property": "C88", "status": "partial", "theorems": ["Verif.Hna.C88_no_stale_partial", "Verif.Hna.C88_route_partial", "Verif.Hna.C88_announced", "Verif.Hna.C88_withdrawn", "Verif.Hna.C88_expiry_loses_route", "Verif.Hna.C88_host_route_lost", "Verif.Hna.C88_alias_route_stays"], "note": "C88_withdrawn (empty TC), C88_no_stale_partial (an alias announced at some time instead of registered at present), C88_route_partial (networks that are not single hosts, topology entry not timed out), C88_announced; false parts C88_expiry_loses_route, C88_host_route_lost, C88_alias_route_stays."},
  {"property": "C89", "status": "partial", "theorems": ["Verif.Hna.C89_flagged_partial", "Verif.Hna.C89_new_network", "Verif.Hna.C89_unflagged"], "note": "C89_flagged_partial (an empty TC only if the host still has the path to its own address), C89_new_network; C89_unflagged is the false part."},
  {"property": "C90", "status": "partial", "theorems": ["Verif.RfcHello.C90_roundtrip_partial", "Verif.RfcHello.C90_hidden6_announced", "Verif.RfcHello.C90_hello6_exits"], "note": "C90_roundtrip_partial (IPv6: no hidden links, and the room left in the buffer not between 28 and 47 bytes); false parts C90_hidden6_announced and C90_hello6_exits."},
  {"property": "C91", "status": "partial", "theorems": ["Verif.RfcHello.C91_announced", "Verif.RfcHello.C91_symmetric_heard_partial", "Verif.RfcHello.C91_hidden_unannounced"], "note": "C91_announced in full; C91_symmetric_heard_partial for neighbours without a hidden link on the interface, composed with the writer and the reader; false part C91_hidden_unannounced."},
  {"property": "C92", "status": "proved", "theorems": ["Verif.RfcTc.C92_roundtrip", "Verif.RfcTc.C92_small_buffer_exits"], "note": "C92_roundtrip; C92_small_buffer_exits is the case its hypothesis on the buffer excludes."},
  {"property": "C93", "status": "partial", "theorems": ["Verif.GwEnt.C93_defined", "Verif.GwEnt.C93_on_offer_partial", "Verif.GwEnt.C93_expires_partial", "Verif.GwEnt.C93_ipv6_never_expires", "Verif.GwEnt.C93_withdrawn", "Verif.GwEnt.C93_lost", "Verif.GwEnt.C93_plain_takes_away", "Verif.GwEnt.C93_only_announced_partial"], "note": "C93_on_offer_partial (no plain announcement of the Internet by the same originator), C93_expires_partial and C93_only_announced_partial for IPv4, C93_withdrawn, C93_lost and C93_defined in full; false parts C93_ipv6_never_expires and C93_plain_takes_away."},
  {"property": "C94", "status": "partial", "theorems": ["Verif.GwEnt.C94_older_ignored", "Verif.GwEnt.C94_first_counts", "Verif.GwEnt.C94_forgotten_partial", "Verif.GwEnt.C94_remembered", "Verif.GwEnt.C94_ipv6_never_forgotten"], "note": "C94_older_ignored, C94_first_counts and C94_remembered in full; C94_forgotten_partial for IPv4; false part C94_ipv6_never_forgotten."},
  {"property": "C95", "status": "partial", "theorems": ["Verif.Name.C95_round_trip_partial", "Verif.Name.C95_last_name_lost", "Verif.Name.C95_round_trip_false_nul", "Verif.Name.C95_round_trip_false_prefix"], "note": "C95_round_trip_partial: holds if the last name is followed by a NUL and no entry is taken for an earlier one. The full statement RoundTrip is refuted by C95_round_trip_false_nul (see also C95_last_name_lost) and C95_round_trip_false_prefix."},
  {"property": "C96", "status": "partial", "theorems": ["Verif.Name.C96_inside_partial", "Verif.Name.C96_own_messages_inside", "Verif.Name.C96_reads_behind", "Verif.Name.C96_reads_behind_buffer", "Verif.Name.C96_unterminated", "Verif.Name.C96_limit", "Verif.Name.C96_generation_partial"], "note": "C96_inside_partial: if processing is defined on the message alone, nothing behind it matters; C96_own_messages_inside for messages with a padded last name; C96_limit: where reading stops. Violated: C96_reads_behind, C96_reads_behind_buffer, C96_unterminated. C96_generation_partial: when the generation stays in its buffer."},
  {"property": "C97", "status": "partial", "theorems": ["Verif.Name.C97_refresh_partial", "Verif.Name.C97_macs_grow", "Verif.Name.C97_nothing_withdrawn", "Verif.Name.C97_new_address_ignored"], "note": "C97_refresh_partial for names, DNS servers and services; false for MACs (C97_macs_grow), for withdrawn entries (C97_nothing_withdrawn) and for new addresses (C97_new_address_ignored)."},
  {"property": "C98", "status": "proved", "theorems": ["Verif.Name.C98_stored", "Verif.Name.C98_changes_flagged", "Verif.Name.C98_file_current", "Verif.Name.C98_flag_means_change", "Verif.Name.C98_position_length"], "note": "C98_stored, C98_changes_flagged and C98_file_current over all reachable states; C98_flag_means_change: no needless flag; C98_position_length records that the length field of a position may be stale. The syntax of services, MACs and positions is a parameter."},
  {"property": "C99", "status": "partial", "theorems": ["Verif.NsSel.C99_best_three_partial", "Verif.NsSel.C99_few", "Verif.NsSel.C99_fourth_line"], "note": "C99_best_three_partial (the first three lines, in full) and C99_few; C99_fourth_line: a fourth line is written that is not the fourth best."},
  {"property": "C100", "status": "proved", "theorems": ["Verif.Cookie.C100_calls_succeed", "Verif.Cookie.C100_contents", "Verif.Cookie.C100_new_block", "Verif.Cookie.C100_distinct"], "note": ""},
  {"property": "C101", "status": "proved", "theorems": ["Verif.Cookie.C101_counts", "Verif.Cookie.C101_accounted", "Verif.Cookie.C101_free_list", "Verif.Cookie.C101_new_id"], "note": ""},
  {"property": "C102", "status": "partial", "theorems": ["Verif.Cookie.C102_overrun_partial", "Verif.Cookie.C102_double_free_partial", "Verif.Cookie.C102_wrong_owner_partial", "Verif.Cookie.C102_double_free_missed", "Verif.Cookie.C102_wrong_owner_missed", "Verif.Cookie.C102_no_assertions"], "note": "C102_overrun_partial, C102_double_free_partial (block still on the free list) and C102_wrong_owner_partial (same block size). Not detected: C102_double_free_missed, C102_wrong_owner_missed, C102_no_assertions."},
  {"property": "C103", "status": "proved", "theorems": ["Verif.Tunnel.C103_tunnels_in_use", "Verif.Tunnel.C103_none_left", "Verif.Tunnel.C103_refusal", "Verif.Tunnel.C103_cleanup"], "note": ""},
  {"property": "C104", "status": "partial", "theorems": ["Verif.Tunnel.C104_names_partial", "Verif.Tunnel.C104_never_refused_partial", "Verif.Tunnel.C104_two_families_clash"], "note": "C104_names_partial and C104_never_refused_partial for one address family; false for two: C104_two_families_clash."},
  {"property": "C105", "status": "partial", "theorems": ["Verif.Hyst.C105_status_partial", "Verif.Hyst.C105_stale", "Verif.Hyst.C105_wrap", "Verif.Hyst.C105_new_link_lost"], "note": "C105_status_partial while the uptime is below 2^32 ms and the last decision is less than 2^31 ms old. False beyond: C105_stale, C105_wrap. Departure from RFC 3626: C105_new_link_lost."},
  {"property": "C106", "status": "proved", "theorems": ["Verif.Hyst.C106_losses", "Verif.Hyst.C106_early_stop", "Verif.Hyst.C106_timeout"], "note": ""},
  {"property": "C107", "status": "partial", "theorems": ["Verif.Zebra.C107_delivery_partial", "Verif.Zebra.C107_fragment_lost", "Verif.Zebra.C107_hang", "Verif.Zebra.C107_zero_hang", "Verif.Zebra.C107_eof_missed"], "note": "C107_delivery_partial if every burst of data holds whole packets and at most 65535 bytes. False otherwise: C107_fragment_lost, C107_hang, C107_zero_hang, C107_eof_missed."},
  {"property": "C108", "status": "partial", "theorems": ["Verif.Zebra.C108_route", "Verif.Zebra.C108_add", "Verif.Zebra.C108_del", "Verif.Zebra.C108_write", "Verif.Zebra.C108_leak", "Verif.Zebra.C108_localpref"], "note": "Messages and writing are proved: C108_route, C108_add, C108_del, C108_write. Two parts are false: C108_leak, C108_localpref."},
  {"property": "C109", "status": "partial", "theorems": ["Verif.Zebra.C109_parse_partial", "Verif.Zebra.C109_route_partial", "Verif.Zebra.C109_header_partial", "Verif.Zebra.C109_length_partial", "Verif.Zebra.C109_prefix_overflow", "Verif.Zebra.C109_read_overflow", "Verif.Zebra.C109_prefix_unchecked"], "note": "C109_parse_partial and C109_route_partial for messages as zebra sends them, C109_header_partial and C109_length_partial for two kinds of wrong ones. False otherwise: C109_prefix_overflow, C109_read_overflow, C109_prefix_unchecked."},
  {"property": "C110", "status": "partial", "theorems": ["Verif.Zebra.C110_entries_partial", "Verif.Zebra.C110_reconnect"], "note": "C110_entries_partial for one connection; false for several: C110_reconnect."},
  {"property": "C111", "status": "partial", "theorems": ["Verif.Json.C111_document_partial", "Verif.Json.C111_too_deep", "Verif.Json.C111_string", "Verif.Json.C111_unescaped_negation"], "note": "C111_document_partial for strings and keys without quotes, backslashes and control characters and floats as texts of %f; C111_too_deep, C111_string (a string is read back iff it needs no escaping). False otherwise: C111_unescaped_negation."},
  {"property": "C112", "status": "partial", "theorems": ["Verif.Info.C112_reply_partial", "Verif.Info.C112_empty_partial", "Verif.Info.C112_uncached_partial"], "note": "C112_reply_partial, C112_empty_partial and C112_uncached_partial for plugins with header members and reports that nest and escape properly."},
  {"property": "C113", "status": "proved", "theorems": ["Verif.InfoHttp.C113_framing", "Verif.InfoHttp.C113_status", "Verif.InfoHttp.C113_plain"], "note": "C113_framing, C113_plain, C113_status."},
  {"property": "C114", "status": "partial", "theorems": ["Verif.InfoHttp.C114_ipv4", "Verif.InfoHttp.C114_ipv6_partial", "Verif.InfoHttp.C114_ipv6_negation"], "note": "C114_ipv4 in full; for IPv6 only C114_ipv6_partial, the rest is false: C114_ipv6_negation."},
  {"property": "C115", "status": "partial", "theorems": ["Verif.InfoReq.C115_request_partial", "Verif.InfoReq.C115_empty_negation", "Verif.InfoReq.C115_too_large_negation"], "note": "C115_request_partial for requests with something left between the stripped parts. False otherwise: C115_empty_negation (reads in front of the buffer), C115_too_large_negation (too long requests are cut and answered)."},
  {"property": "C116", "status": "proved", "theorems": ["Verif.InfoOut.C116_replies", "Verif.InfoOut.C116_slots", "Verif.InfoOut.C116_stalled_negation"], "note": "C116_replies, C116_slots. C116_stalled_negation: there is no time limit, eight clients which do not read keep all others out."},
  {"property": "C117", "status": "partial", "theorems": ["Verif.InfoCmd.C117_composite", "Verif.InfoCmd.C117_commands", "Verif.InfoCmd.C117_written_partial", "Verif.InfoCmd.C117_mixed_negation", "Verif.InfoCmd.C117_pop_partial", "Verif.InfoCmd.C117_pop_crash"], "note": "C117_composite and C117_commands in full; C117_written_partial for reports of one kind (C117_mixed_negation), C117_pop_partial for names and values without equals signs (C117_pop_crash: a request of equals signs only)."},
  {"property": "C118", "status": "partial", "theorems": ["Verif.Sock.C118_trace", "Verif.Sock.C118_list", "Verif.Sock.C118_cleaned", "Verif.Sock.C118_round", "Verif.Sock.C118_own_partial", "Verif.Sock.C118_flags", "Verif.Sock.C118_remove", "Verif.Sock.C118_stale_negation", "Verif.Sock.C118_disabled_negation"], "note": "C118_trace, C118_list, C118_cleaned, C118_round, C118_remove and C118_flags in full. That the readiness was asked for by the called handler itself only in C118_own_partial (no handler adds entries, no shared descriptors); false otherwise: C118_stale_negation, C118_disabled_negation."},
  {"property": "C119", "status": "partial", "theorems": ["Verif.MdnsElect.C119_active", "Verif.MdnsElect.C119_single", "Verif.MdnsElect.C119_hello", "Verif.MdnsElect.C119_own", "Verif.MdnsElect.C119_unique_partial", "Verif.MdnsElect.C119_master_partial", "Verif.MdnsElect.C119_five_partial", "Verif.MdnsElect.C119_six_negation", "Verif.MdnsElect.C119_network_negation", "Verif.MdnsElect.C119_crash_partial", "Verif.MdnsElect.C119_send_negation", "Verif.MdnsElect.C119_early_negation", "Verif.MdnsElect.C119_leak_negation"], "note": "C119_active characterises the decision for every history, C119_single, C119_hello and C119_own in full. Unique master and its existence under mutual hearing within the life time of the entries (C119_unique_partial, C119_master_partial; C119_five_partial for up to five interfaces). False beyond: with six interfaces an entry can expire between two hellos (C119_six_negation), the configured network is overwritten (C119_network_negation), a failed send or an early hello crashes (C119_send_negation, C119_early_negation; C119_crash_partial), hellos of the other family leak (C119_leak_negation)."},
  {"property": "C120", "status": "partial", "theorems": ["Verif.Mdns.C120_unpack_partial", "Verif.Mdns.C120_tunnel_partial", "Verif.Mdns.C120_capture", "Verif.Mdns.C120_gen_partial", "Verif.Mdns.C120_stack_negation", "Verif.Mdns.C120_v6_negation", "Verif.Mdns.C120_inactive_negation", "Verif.Mdns.C120_length_negation", "Verif.Mdns.C120_read_negation", "Verif.Mdns.C120_overflow_negation", "Verif.Mdns.C120_undefined_negation", "Verif.Mdns.C120_passive", "Verif.Mdns.C120_taken", "Verif.Mdns.C120_forward"], "note": "For well-formed IPv4 packets (C120_unpack_partial, C120_tunnel_partial, C120_gen_partial; C120_capture, C120_taken, C120_passive and C120_forward in full). False for IPv6: two bytes of the source address are overwritten (C120_v6_negation) and 84 stack bytes are sent (C120_stack_negation). The length inside the packet is trusted (C120_length_negation, C120_read_negation), a long frame overruns the buffer (C120_overflow_negation), undefined bytes decide (C120_undefined_negation), an interface without mastership stops the others (C120_inactive_negation)."},
  {"property": "C121", "status": "partial", "theorems": ["Verif.Dl.C121_list", "Verif.Dl.C121_backward", "Verif.Dl.C121_tail_negation", "Verif.Dl.C121_filter_partial", "Verif.Dl.C121_apart_partial", "Verif.Dl.C121_safe", "Verif.Dl.C121_clock_negation", "Verif.Dl.C121_renew_negation"], "note": "C121_list, C121_backward and C121_safe in full. The filter needs a clock that does not run backwards (C121_filter_partial, C121_apart_partial); without it a copy within the timeout can pass (C121_clock_negation). Duplicates do not renew an entry (C121_renew_negation), and the tail of an emptied list dangles (C121_tail_negation)."},
  {"property": "C122", "status": "partial", "theorems": ["Verif.P2pd.C122_checksum", "Verif.P2pd.C122_checksum_negation", "Verif.P2pd.C122_capture_partial", "Verif.P2pd.C122_sent", "Verif.P2pd.C122_tunnel_partial", "Verif.P2pd.C122_gen_partial", "Verif.P2pd.C122_ttl_negation", "Verif.P2pd.C122_wanted", "Verif.P2pd.C122_mac", "Verif.P2pd.C122_mac_negation", "Verif.P2pd.C122_loop_negation", "Verif.P2pd.C122_turns_partial", "Verif.P2pd.C122_recent_negation", "Verif.P2pd.C122_abort_negation", "Verif.P2pd.C122_stack_negation", "Verif.P2pd.C122_length_negation", "Verif.P2pd.C122_overflow_negation", "Verif.P2pd.C122_forward", "Verif.P2pd.C122_ttl_partial", "Verif.P2pd.C122_capture6_partial", "Verif.P2pd.C122_tunnel6_partial", "Verif.P2pd.C122_wanted6"], "note": "C122_wanted, C122_wanted6, C122_mac, C122_sent, C122_forward in full; capture and tunnel without the table of recent packets (C122_capture_partial, C122_tunnel_partial, C122_gen_partial, C122_capture6_partial, C122_tunnel6_partial). C122_checksum says exactly when the checksum is right; it is not always (C122_checksum_negation). Packets circulate for ever in the default configuration (C122_loop_negation), at most 254 turns with the decrement (C122_turns_partial). False also: copies are not recognised and different packets are confused (C122_recent_negation), the daemon aborts (C122_abort_negation), stack and memory contents are sent (C122_stack_negation, C122_length_negation), a buffer is overrun (C122_overflow_negation), IPv6 goes to link-layer address 0 (C122_mac_negation), a configured time to live of 256 is 0 (C122_ttl_negation; C122_ttl_partial)."},
  {"property": "C123", "status": "partial", "theorems": ["Verif.PudPos.C123_latitude", "Verif.PudPos.C123_half_negation", "Verif.PudPos.C123_again", "Verif.PudPos.C123_longitude", "Verif.PudPos.C123_angle_abort", "Verif.PudPos.C123_altitude", "Verif.PudPos.C123_speed", "Verif.PudPos.C123_track_partial", "Verif.PudPos.C123_track_negation", "Verif.PudPos.C123_hdop_partial", "Verif.PudPos.C123_hdop_negation", "Verif.PudPos.C123_time", "Verif.PudPos.C123_leap_negation", "Verif.PudPos.C123_validity_partial", "Verif.PudPos.C123_validity_negation"], "note": "C123_latitude, C123_longitude bound the error by one unit, C123_altitude, C123_speed by half a unit, C123_time in full, C123_angle_abort. False: half a unit for angles (C123_half_negation), stability (C123_again says how a position moves), validity times just below fifteen bounds fail an assertion (C123_validity_negation is exact; C123_validity_partial for all others), track angles and negative dilutions wrap (C123_track_negation, C123_hdop_negation; C123_track_partial, C123_hdop_partial), leap seconds (C123_leap_negation). Doubles are rationals with a rounding function."},
  {"property": "C124", "status": "partial", "theorems": ["Verif.PudId.C124_number", "Verif.PudId.C124_range", "Verif.PudId.C124_table", "Verif.PudId.C124_no_abort", "Verif.PudId.C124_accept_negation", "Verif.PudId.C124_zeros_negation", "Verif.PudId.C124_uuid_partial", "Verif.PudId.C124_uuid_negation", "Verif.PudId.C124_mip_partial", "Verif.PudId.C124_mip_negation", "Verif.PudId.C124_mac", "Verif.PudId.C124_dns", "Verif.PudId.C124_dns_room", "Verif.PudId.C124_inside_partial", "Verif.PudId.C124_inside_negation"], "note": "C124_number, C124_range, C124_table, C124_mac, C124_dns, C124_no_abort in full. False for UUIDs with a half that begins with a zero (C124_uuid_negation; C124_uuid_partial for the others) and MIP numbers with leading zeros (C124_mip_negation; C124_mip_partial). Texts that are not numbers are accepted (C124_accept_negation), leading zeros are lost (C124_zeros_negation). Long names overrun the transmit buffer (C124_dns_room is exact), short messages make the receiver read behind them (C124_inside_negation; C124_inside_partial)."},
  {"property": "C125", "status": "partial", "theorems": ["Verif.PudMsg.C125_layout", "Verif.PudMsg.C125_padding_partial", "Verif.PudMsg.C125_padding_negation", "Verif.PudMsg.C125_downlink_partial", "Verif.PudMsg.C125_uplink", "Verif.PudMsg.C125_hang_negation", "Verif.PudMsg.C125_ends_partial", "Verif.PudMsg.C125_header_negation", "Verif.PudMsg.C125_dedup", "Verif.PudMsg.C125_forward_partial", "Verif.PudMsg.C125_relay_partial", "Verif.PudMsg.C125_flood_negation"], "note": "C125_layout, C125_uplink and C125_dedup in full. Padding only for some kinds of ids (C125_padding_partial); otherwise a byte of stale memory is sent and the byte behind the message is overwritten (C125_padding_negation). Datagrams made of messages: C125_downlink_partial; other datagrams may loop for ever (C125_hang_negation; C125_ends_partial says when not) and headers are read where nothing was received (C125_header_negation). Forwarding: C125_forward_partial, C125_relay_partial; the list of recent messages suppresses forwarding (C125_flood_negation)."},
  {"property": "C126", "status": "partial", "theorems": ["Verif.EgFile.C126_read", "Verif.EgFile.C126_line", "Verif.EgFile.C126_refused", "Verif.EgFile.C126_classes", "Verif.EgFile.C126_none", "Verif.EgFile.C126_value", "Verif.EgFile.C126_lines_partial", "Verif.EgFile.C126_long_negation", "Verif.EgFile.C126_indent_negation", "Verif.EgFile.C126_poll_partial", "Verif.EgFile.C126_stamp_negation", "Verif.EgFile.C126_notice_partial", "Verif.EgFile.C126_notice_negation", "Verif.EgFile.C126_classic_negation"], "note": "In full: C126_read, C126_line, C126_refused, C126_classes, C126_value, C126_none. Lines up to 254 characters (C126_lines_partial); what follows the 255th character is read as a line of its own, even of a comment (C126_long_negation), and an indented entry is taken for a comment (C126_indent_negation). The parameters follow the file over every sequence of polls and link events (C126_poll_partial), except that a change within the granularity of the modification time, or a time of 0, is missed (C126_stamp_negation). The caller is told exactly if the cost, the network or the gateway differ (C126_notice_partial); a change of the bandwidth alone can go unnoticed, with the default divider always (C126_notice_negation), so the announced bandwidth stays old. With the default divider an interface that is up and has no entry costs nothing and is preferred (C126_classic_negation)."},
  {"property": "C127", "status": "partial", "theorems": ["Verif.EgRoute.C127_table_partial", "Verif.EgRoute.C127_stop_partial", "Verif.EgRoute.C127_stale_negation", "Verif.EgRoute.C127_stop_negation", "Verif.EgRoute.C127_idle", "Verif.EgRoute.C127_never_negation"], "note": "C127_table_partial and C127_stop_partial over all event sequences, provided that the interface is up with a carrier, or its routes are gone, whenever routes are changed, and that the kernel accepts them. Without that it is false: routes are not removed when the carrier is lost, so a network that the file no longer has stays in the table (C127_stale_negation) and routes outlive the daemon (C127_stop_negation); a route that could not be made at its moment is never made later (C127_never_negation; C127_idle says that repeated messages change nothing)."},
  {"property": "C128", "status": "partial", "theorems": ["Verif.Overall.C128_link", "Verif.Overall.C128_announced", "Verif.Overall.C128_route_partial", "Verif.Overall.C128_stop_partial", "Verif.Overall.C128_gateway_negation", "Verif.Overall.C128_stale_negation", "Verif.Overall.C128_never_negation"], "note": "C128_link (the choice is right) and C128_announced (the announced bandwidth) hold over all sequences in which the callers report what has changed. C128_route_partial and C128_stop_partial: the routes in the kernel, provided that the operating system follows at once and that the gateway and index of the best link stay. Without that it is false: a new gateway in the egress file for the link that is the best does not reach the override routes (C128_gateway_negation), the routes stay when the only link loses its carrier and outlive the daemon (C128_stale_negation), and a route that could not be made at its moment is never made (C128_never_negation)."},
  {"property": "C129", "status": "partial", "theorems": ["Verif.Iface.C129_poll", "Verif.Iface.C129_quiet", "Verif.Iface.C129_links_partial", "Verif.Iface.C129_exit_partial", "Verif.Iface.C129_socket", "Verif.Iface.C129_message", "Verif.Iface.C129_hello", "Verif.Iface.C129_alone", "Verif.Iface.C129_links_negation", "Verif.Iface.C129_exit_negation", "Verif.Iface.C129_turn_negation", "Verif.Iface.C129_src_negation", "Verif.Iface.C129_index_negation", "Verif.Iface.C129_double_negation", "Verif.Iface.C129_main_negation"], "note": "C129_poll, C129_quiet, C129_socket, C129_message, C129_hello and C129_alone hold over all runs. C129_links_partial (links, sockets, no entry left behind) and C129_exit_partial need that the kernel does not change address or index of an interface in use. Without that it is false: chk_if_changed writes the new address into the entry before it removes the entry, so the links with the old address stay with a pointer to freed memory and are reused for ever, and the neighbour is never announced again (C129_links_negation); the only interface with a new address ends the daemon (C129_exit_negation), as does a configured IPv4SrcIp that is not the first address (C129_src_negation), and one interface that replaces another between two checks (C129_turn_negation); a device made anew keeps the old sockets (C129_index_negation) or is entered twice (C129_double_negation); the main address is never changed (C129_main_negation)."},
  {"property": "C130", "status": "partial", "theorems": ["Verif.Conf.C130_values_partial", "Verif.Conf.C130_check", "Verif.Conf.C130_mark", "Verif.Conf.C130_mult", "Verif.Conf.C130_mult_partial", "Verif.Conf.C130_cli", "Verif.Conf.C130_twice_negation", "Verif.Conf.C130_crash_negation", "Verif.Conf.C130_again_negation", "Verif.Conf.C130_zero_negation", "Verif.Conf.C130_cli_negation"], "note": "C130_values_partial, C130_check and C130_mark for all files in which no block names an interface twice; C130_mult says which multiplier a link gets, C130_mult_partial that it is the wanted one if the interface has at most one for the address and none is 0. Missing because the code does not have it: a block that names an interface twice changes another interface (C130_twice_negation) or crashes (C130_crash_negation); of two multipliers of an interface for an address the first counts (C130_again_negation); 0 means 1 (C130_zero_negation); the interface options of the command line have no effect (C130_cli, C130_cli_negation)."},
  {"property": "C131", "status": "partial", "theorems": ["Verif.Conf.C131_values_partial", "Verif.Conf.C131_mult_partial", "Verif.Conf.C131_back_negation", "Verif.Conf.C131_lost_negation", "Verif.Conf.C131_auto_negation"], "note": "C131_values_partial and C131_mult_partial by composing the writer with the reader of C130. Conditions that the code needs: no interface goes back to a built-in value where the defaults have another (C131_back_negation), only the first interface has multipliers (C131_lost_negation: if_appendf takes the address for the comment sign), AutoDetectChanges is at its built-in value (C131_auto_negation); numbers are short enough for %3.1f and %0.2f."},
  {"property": "C132", "status": "partial", "theorems": ["Verif.Proc.C132_restored_partial", "Verif.Proc.C132_start", "Verif.Proc.C132_up", "Verif.Proc.C132_foreign", "Verif.Proc.C132_readdress_negation", "Verif.Proc.C132_removed_negation", "Verif.Proc.C132_failed_negation", "Verif.Proc.C132_reappear_negation"], "note": "C132_restored_partial over all calm event sequences with arbitrary failures at the start and at interfaces coming up; C132_start, C132_up and C132_foreign without restriction. Without calmness it is false: an interface that is removed and made again loses its original settings (C132_readdress_negation), one removed before the end is not restored (C132_removed_negation), one whose socket could not be made neither (C132_failed_negation), and a device replaced in between gets the settings of the old one (C132_reappear_negation)."},
  {"property": "C133", "status": "partial", "theorems": ["Verif.PlParam.C133_port_partial", "Verif.PlParam.C133_int_partial", "Verif.PlParam.C133_long_partial", "Verif.PlParam.C133_refused", "Verif.PlParam.C133_port_negation", "Verif.PlParam.C133_int_negation", "Verif.PlParam.C133_long_negation", "Verif.PlParam.C133_flag", "Verif.PlParam.C133_string", "Verif.PlParam.C133_order", "Verif.PlParam.C133_accepted", "Verif.PlParam.C133_first", "Verif.PlParam.C133_generated_order", "Verif.PlParam.C133_generated_partial", "Verif.PlParam.C133_generated_negation"], "note": "C133_refused, C133_flag, C133_string, C133_order, C133_accepted, C133_first and C133_generated_order without restriction on files and texts (tables with different names and variables). C133_port_partial, C133_int_partial and C133_long_partial for numbers in range: the conversions do not check for overflow, so 4294967376 is accepted as port 80 (C133_port_negation, C133_int_negation) and a too large long as the largest one (C133_long_negation). C133_generated_partial for plugins without repeated keys: a repeated key takes the other value after saving and loading (C133_generated_negation)."},
  {"property": "C134", "status": "partial", "theorems": ["Verif.HnaConf.C134_networks_partial", "Verif.HnaConf.C134_accepted_partial", "Verif.HnaConf.C134_gateway4", "Verif.HnaConf.C134_hole", "Verif.HnaConf.C134_bogus", "Verif.HnaConf.C134_late6", "Verif.HnaConf.C134_late4", "Verif.HnaConf.C134_octal", "Verif.HnaConf.C134_wrap", "Verif.HnaConf.C134_hostbits6", "Verif.HnaConf.C134_gateway6"], "note": "C134_networks_partial, C134_accepted_partial and C134_gateway4 for all files with IpVersion (if any) at the beginning, and integers without leading zero below 2^32 (and proper masks for the first and third). The full claim is false: masks with holes (C134_hole), bogus masks (C134_bogus), IpVersion after the entries (C134_late6, C134_late4), leading zeros read as octal (C134_octal), integers modulo 2^32 (C134_wrap), IPv6 addresses with host bits (C134_hostbits6), gateway flags of an IPv6 daemon (C134_gateway6)."},
  {"property": "C135", "status": "partial", "theorems": ["Verif.HnaConf.C135_allowed_partial", "Verif.HnaConf.C135_hole", "Verif.HnaConf.C135_bogus", "Verif.HnaConf.C135_host6", "Verif.HnaConf.C135_only_allowed", "Verif.HnaConf.C135_served_partial", "Verif.HnaConf.C135_gone", "Verif.HnaConf.C135_cut"], "note": "C135_only_allowed and C135_gone without restriction. C135_allowed_partial for IPv4 daemons with proper masks: a mask with a hole opens too much (C135_hole), a bogus mask makes the check undefined (C135_bogus), and in an IPv6 daemon a Host entry is compared with memory never written (C135_host6). C135_served_partial as long as nobody else connects: a refused connection ends the service of the allowed one (C135_cut)."},
  {"property": "C136", "status": "partial", "theorems": ["Verif.Niit.C136_mapped", "Verif.Niit.C136_routes_partial", "Verif.Niit.C136_exact_partial", "Verif.Niit.C136_static_partial", "Verif.Niit.C136_shutdown_partial", "Verif.Niit.C136_lost", "Verif.Niit.C136_failed", "Verif.Niit.C136_hna"], "note": "C136_routes_partial, C136_exact_partial and C136_shutdown_partial for all event sequences in which no destination is lost with its interface (for the second, all additions succeed; for the third, the HNA list does not change); C136_static_partial for all sequences that do not change the HNA list; C136_mapped without restriction. The full claim is false: a route lost with its interface leaves its IPv4 route behind for good (C136_lost), a destination that could not be installed gets an IPv4 route (C136_failed), HNA networks added or removed at run time do not get or lose their route (C136_hna)."},
  {"property": "C137", "status": "partial", "theorems": ["Verif.Arp.C137_filter", "Verif.Arp.C137_accepts_partial", "Verif.Arp.C137_other", "Verif.Arp.C137_header", "Verif.Arp.C137_entry", "Verif.Arp.C137_dead", "Verif.Arp.C137_only_received", "Verif.Arp.C137_all_partial", "Verif.Arp.C137_stops", "Verif.Arp.C137_routed"], "note": "C137_filter, C137_other, C137_entry, C137_only_received and C137_dead for all frames and histories. C137_accepts_partial for all well-formed IPv4 headers: a header length below 5 is not refused (C137_header). C137_all_partial if no request to the kernel is refused: the first refusal ends the plugin (C137_stops). The entries need not be of neighbours: a forwarded packet to port 698 binds its remote source to the router (C137_routed)."},
  {"property": "C138", "status": "partial", "theorems": ["Verif.Fgw.C138_gateway", "Verif.Fgw.C138_lists", "Verif.Fgw.C138_fini", "Verif.Fgw.C138_filtered_partial", "Verif.Fgw.C138_gateways_only", "Verif.Fgw.C138_others", "Verif.Fgw.C138_full_fails", "Verif.Fgw.C138_any"], "note": "C138_lists, C138_gateway, C138_others and C138_any for all parameters and messages. C138_filtered_partial for all messages with at least one network that is no gateway. A message with gateways only keeps the last one, which olsr_input_hna then processes: the refusal of the filter only stops the forwarding (C138_gateways_only, C138_full_fails). C138_fini: a plugin with an originator crashes at the end."},
  {"property": "C139", "status": "partial", "theorems": ["Verif.DynGw.C139_groups", "Verif.DynGw.C139_table", "Verif.DynGw.C139_twice", "Verif.DynGw.C139_announced_partial", "Verif.DynGw.C139_no_ping", "Verif.DynGw.C139_unprobed", "Verif.DynGw.C139_default", "Verif.DynGw.C139_static", "Verif.DynGw.C139_verdict_partial", "Verif.DynGw.C139_verdict_stale", "Verif.DynGw.C139_stale"], "note": "C139_groups, C139_default, C139_verdict_stale for all parameters. C139_table, C139_announced_partial, C139_no_ping and C139_unprobed if no two networks of the plugin are the same and none is among the other HNA entries: the second of two is never found (C139_twice), an entry of the configuration is removed together with that of the plugin (C139_static). C139_verdict_partial if a network of the group is in the table at the check: otherwise the old verdict stays, and the network is announced again as soon as its route is back (C139_stale). The checks of one group are taken to happen at once."},
  {"property": "C140", "status": "proved", "theorems": ["Verif.DynGwPlain.C140_announced", "Verif.DynGwPlain.C140_removed"], "note": "C140_announced for all histories in which nobody else adds or removes the entry for the Internet (the quantifier of the property). C140_removed: if somebody does remove it, it does not come back."},
  {"property": "C141", "status": "partial", "theorems": ["Verif.Dedup.C141_sent_partial", "Verif.Dedup.C141_between", "Verif.Dedup.C141_own", "Verif.Dedup.C141_off", "Verif.Dedup.C141_zero", "Verif.Dedup.C141_depth"], "note": "C141_sent_partial for depths below 2^64/20: for greater ones the size of the memory overflows and the first message is written outside of it (C141_depth). C141_between, C141_own, C141_off and C141_zero without restriction. The part of C125 on the same list does not have the memory, the loopback and the distance."},
  {"property": "C142", "status": "proved", "theorems": ["Verif.PudState.C142_external", "Verif.PudState.C142_internal", "Verif.PudState.C142_result", "Verif.PudState.C142_changed", "Verif.PudState.C142_settles"], "note": "C142_external with the specification `visible`, which looks at the observations only; C142_internal, C142_result, C142_changed and C142_settles."},
  {"property": "C143", "status": "partial", "theorems": ["Verif.PudUplink.C143_best_partial", "Verif.PudUplink.C143_lowest", "Verif.PudUplink.C143_niit", "Verif.PudUplink.C143_none"], "note": "C143_best_partial in IPv4 networks and in IPv6 networks without access to IPv4, for the order of the addresses as words in memory (IPv4) or byte by byte (IPv6). On a little endian machine the former is not the order of the addresses as they are written (C143_lowest). With NIIT the first four bytes of IPv6 addresses are compared for some gateways (C143_niit)."},
  {"property": "C144", "status": "partial", "theorems": ["Verif.PosAvg.C144_average", "Verif.PosAvg.C144_fix", "Verif.PosAvg.C144_sig_partial", "Verif.PosAvg.C144_sig_negation", "Verif.PosAvg.C144_rest", "Verif.PosAvg.C144_small"], "note": "C144_average and C144_fix for all series, with exact numbers in place of double; C144_small: smaller lists are refused. C144_sig_partial unless \"differential\" and \"fix\" occur together: then the code takes the better one (C144_sig_negation). C144_rest: height and the two values of DGPS are always 0 although their flags are set. Rounding, the functions of angles and the size of the memory are not modelled."},
  {"property": "C145", "status": "proved", "theorems": ["Verif.PudMove.C145_moving", "Verif.PudMove.C145_resting", "Verif.PudMove.C145_inside", "Verif.PudMove.C145_exclusive", "Verif.PudMove.C145_no_precision", "Verif.PudMove.C145_sent"], "note": "C145_moving, C145_resting, C145_inside, C145_exclusive, C145_no_precision and C145_sent, with exact numbers in place of double and the distance on the ellipsoid as a parameter."},
  {"property": "C146", "status": "proved", "theorems": ["Verif.NmeaFrame.C146_sentences", "Verif.NmeaFrame.C146_unique", "Verif.NmeaFrame.C146_pieces", "Verif.NmeaFrame.C146_generated", "Verif.NmeaFrame.C146_single_error", "Verif.NmeaFrame.C146_no_checksum"], "note": "C146_sentences with the specification `Sentences`, which knows no states; C146_unique, C146_pieces, C146_generated, C146_single_error and C146_no_checksum. The fields of a sentence are not modelled."},
  {"property": "C147", "status": "partial", "theorems": ["Verif.NmeaSane.C147_sane", "Verif.NmeaSane.C147_time_partial", "Verif.NmeaSane.C147_time_negation", "Verif.NmeaSane.C147_keeps", "Verif.NmeaSane.C147_twice", "Verif.NmeaSane.C147_tracks", "Verif.NmeaSane.C147_position_partial", "Verif.NmeaSane.C147_position_negation", "Verif.NmeaSane.C147_satellites"], "note": "C147_sane, C147_keeps, C147_twice, C147_tracks and C147_satellites (for azimuths that do not overflow) with exact numbers. C147_time_partial: the time is brought into its range if the date is present too; a time without a date is not (C147_time_negation). C147_position_partial for whole degrees; with minutes 90° 30′ becomes 89° 70′ (C147_position_negation). Not modelled: the metric form, values that are not finite, the satellites in use."},
  {"property": "C148", "status": "proved", "theorems": ["Verif.NmeaGsv.C148_count", "Verif.NmeaGsv.C148_safe", "Verif.NmeaGsv.C148_prefix", "Verif.NmeaGsv.C148_transfer", "Verif.NmeaGsv.C148_order", "Verif.NmeaGsv.C148_printed", "Verif.NmeaGsv.C148_accepted", "Verif.NmeaGsv.C148_parse", "Verif.NmeaGsv.C148_refused", "Verif.NmeaGsv.C148_number_only", "Verif.NmeaGsv.C148_generate_outside"], "note": "C148_transfer, C148_prefix, C148_printed, C148_parse, C148_accepted, C148_refused, C148_number_only, C148_count and C148_safe. C148_order: read in another order satellites are lost. C148_generate_outside: a pack with satellites but without their number, which the library does not make itself, is read outside of its array. The text of a sentence is not modelled."},
  {"property": "C149", "status": "partial", "theorems": ["Verif.Fpm.C149_integer", "Verif.Fpm.C149_sum", "Verif.Fpm.C149_difference_partial", "Verif.Fpm.C149_difference_negation", "Verif.Fpm.C149_product_partial", "Verif.Fpm.C149_product_negation", "Verif.Fpm.C149_quotient_integer", "Verif.Fpm.C149_quotient_partial", "Verif.Fpm.C149_quotient_negation", "Verif.Fpm.C149_macros", "Verif.Fpm.C149_text", "Verif.Fpm.C149_text_negation", "Verif.Fpm.C149_text_fits", "Verif.Fpm.C149_text_stays"], "note": "C149_integer, C149_sum, C149_quotient_integer, C149_text_fits and C149_text_stays in full. False: a difference that is the greatest number stops the program (C149_difference_negation), the product 2^63 overflows (C149_product_negation), a quotient with a dividend from 2^53 or the divisor 0 is undefined (C149_quotient_negation), the text of a negative fraction is wrong (C149_text_negation; C149_text says exactly when it is right). The partial theorems hold for everything else. C149_macros: with NDEBUG nothing is checked. The products of two double in the assertions are taken as exact; the conversions from and to floating point are not modelled."},
  {"property": "C150", "status": "partial", "theorems": ["Verif.Lock.C150_holds", "Verif.Lock.C150_exclusive_negation", "Verif.Lock.C150_exclusive_partial", "Verif.Lock.C150_second", "Verif.Lock.C150_no_lock", "Verif.Lock.C150_removes", "Verif.Lock.C150_killed", "Verif.Lock.C150_attempts"], "note": "C150_holds, C150_killed and C150_attempts over all reachable states. False: two daemons run at the same time (C150_exclusive_negation), a second one even gets its lock with its second attempt whenever a first one runs (C150_second), and without host emulation no lock is asked for at all (C150_no_lock); every end removes the file (C150_removes). C150_exclusive_partial: as long as nobody has removed the file at most one of the daemons that asked for the lock runs. Not modelled: Windows, an empty name of the file."},
  {"property": "C151", "status": "partial", "theorems": ["Verif.Switch.C151_command", "Verif.Switch.C151_route", "Verif.Switch.C151_chance_partial", "Verif.Switch.C151_chance_negation", "Verif.Switch.C151_all_partial", "Verif.Switch.C151_all_negation", "Verif.Switch.C151_connect", "Verif.Switch.C151_disconnect"], "note": "C151_command, C151_route, C151_connect and C151_disconnect over all reachable states. The chance is the quality only for 0 and 100 (C151_chance_partial), otherwise 101 less the quality (C151_chance_negation). C151_all_partial: the command that deletes all links does so between the connected clients; links to a client that has left stay (C151_all_negation). The text of the command and the counters are not modelled."},
  {"property": "C152", "status": "partial", "theorems": ["Verif.Will.C152_ac", "Verif.Will.C152_percent", "Verif.Will.C152_percent_edges", "Verif.Will.C152_files", "Verif.Will.C152_default", "Verif.Will.C152_default_percent", "Verif.Will.C152_number", "Verif.Will.C152_case", "Verif.Will.C152_willingness_partial", "Verif.Will.C152_low_negation", "Verif.Will.C152_range", "Verif.Will.C152_range_negation", "Verif.Will.C152_undefined", "Verif.Will.C152_apm", "Verif.Will.C152_no_battery"], "note": "C152_ac, C152_no_battery, C152_files, C152_default, C152_default_percent, C152_number, C152_case, C152_percent and C152_percent_edges describe what is read; C152_apm the other interface. C152_willingness_partial: the levels are as documented only above 78, from 52 to 77 and at 26 percent; C152_low_negation gives percentages where they differ. C152_range: with ACPI the result is at most 3, or 6; with APM it can be 255 (C152_range_negation). C152_undefined gives files with undefined behaviour. The choice of the interface at the start, and the scanning of the APM line, are not modelled."},
  {"property": "C153", "status": "partial", "theorems": ["Verif.NmeaTime.C153_time", "Verif.NmeaTime.C153_white", "Verif.NmeaTime.C153_accept_partial", "Verif.NmeaTime.C153_accept_negation", "Verif.NmeaTime.C153_sane", "Verif.NmeaTime.C153_time_roundtrip", "Verif.NmeaTime.C153_date", "Verif.NmeaTime.C153_date_roundtrip_partial", "Verif.NmeaTime.C153_date_roundtrip_negation", "Verif.NmeaTime.C153_date_sane", "Verif.NmeaTime.C153_text_negation"], "note": "C153_time, C153_white, C153_date, C153_sane, C153_date_sane and C153_time_roundtrip hold in full. C153_accept_partial: times in thousandths are accepted only outside the last five of a second (C153_accept_negation). C153_date_roundtrip_partial: a printed date is read back exactly from 1991 on (C153_date_roundtrip_negation). C153_text_negation: text that is no time is accepted. nmeaScanf is modelled for the formats of the time and the date only."},
  {"property": "C154", "status": "partial", "theorems": ["Verif.NmeaGsa.C154_to_partial", "Verif.NmeaGsa.C154_to_negation", "Verif.NmeaGsa.C154_history", "Verif.NmeaGsa.C154_from", "Verif.NmeaGsa.C154_roundtrip_partial", "Verif.NmeaGsa.C154_parse", "Verif.NmeaGsa.C154_other", "Verif.NmeaGsa.C154_from_absent"], "note": "C154_parse, C154_other, C154_from and C154_from_absent hold in full. C154_to_partial: the number and the first satellites are those of the sentence, the entries after them are old ones; C154_history says which ones after any sequence, and C154_to_negation is a witness. C154_roundtrip_partial holds if no satellites were in use before. The text and the dilution of precision are not modelled."},
  {"property": "C155", "status": "partial", "theorems": ["Verif.Collide.C155_test", "Verif.Collide.C155_own_partial", "Verif.Collide.C155_own_negation", "Verif.Collide.C155_next_negation", "Verif.Collide.C155_registered", "Verif.Collide.C155_calls", "Verif.Collide.C155_hour_partial", "Verif.Collide.C155_hour_negation"], "note": "C155_test, C155_calls and C155_registered hold in full. C155_own_partial: the last 32768 own messages are not reported; older ones are (C155_own_negation). A foreign message with the number that comes next is not reported (C155_next_negation). C155_hour_partial: the number of warnings and of those said to be skipped; one is lost (C155_hour_negation). Handlers that change the list while they are called, and the text of the warnings, are not modelled."},
  {"property": "C156", "status": "partial", "theorems": ["Verif.Wifi.C156_bandwidth_partial", "Verif.Wifi.C156_bandwidth_negation", "Verif.Wifi.C156_signal", "Verif.Wifi.C156_signal_mono", "Verif.Wifi.C156_broken", "Verif.Wifi.C156_cost_mono", "Verif.Wifi.C156_cost_value", "Verif.Wifi.C156_cost_one", "Verif.Wifi.C156_cost_ether", "Verif.Wifi.C156_apply", "Verif.Wifi.C156_station_zero", "Verif.Wifi.C156_station_undefined", "Verif.Wifi.C156_get_partial", "Verif.Wifi.C156_get_negation", "Verif.Wifi.C156_roundtrip", "Verif.Wifi.C156_wire"], "note": "The signal, the cost and the message hold in full. C156_bandwidth_partial: rates up to 54 Mbit/s; above the penalty wraps around (C156_bandwidth_negation). C156_get_partial: at least one station; without one the old penalties stay (C156_get_negation). A station without a signal or a rate is undefined (C156_station_undefined). The messages of netlink and the lookup of the address of a neighbour are not modelled."},
  {"property": "C157", "status": "partial", "theorems": ["Verif.PosFile.C157_parse", "Verif.PosFile.C157_parse_sound", "Verif.PosFile.C157_parse_longest", "Verif.PosFile.C157_no_sign", "Verif.PosFile.C157_comment", "Verif.PosFile.C157_space", "Verif.PosFile.C157_indent_negation", "Verif.PosFile.C157_names", "Verif.PosFile.C157_number", "Verif.PosFile.C157_words", "Verif.PosFile.C157_key", "Verif.PosFile.C157_word", "Verif.PosFile.C157_bad_line", "Verif.PosFile.C157_accept", "Verif.PosFile.C157_other", "Verif.PosFile.C157_last", "Verif.PosFile.C157_cache_partial", "Verif.PosFile.C157_cache_negation"], "note": "C157_parse, C157_comment, C157_key, C157_word, C157_number, C157_bad_line and C157_last hold in full. A setting with white space in front is taken for a comment (C157_indent_negation). C157_cache_partial: times of modification other than 0; a file with the time 0 is never read (C157_cache_negation). readDouble is a parameter; lines of more than 255 characters and the conversions after reading are not modelled."}
]}
