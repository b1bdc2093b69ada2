{"id": "C01", "title": "Advertised validity times survive the one-byte wire encoding with bounded loss", "statement": "Encoding a time interval (in milliseconds) into the one-byte vtime/htime field and decoding it again never yields a longer interval than the one encoded, for every interval from 125 ms up to the largest representable value (3 968 000 ms), and never loses as much as one sixteenth of it plus a constant one-millisecond-scale rounding term; intervals above the maximum saturate to exactly the maximum; no shift or subtraction in the codec leaves its defined range.", "quantifier": "for every 32-bit interval", "why_tests_cant": "4 294 967 296 intervals; the mantissa/exponent carries and the unsigned subtractions go wrong only on boundary values that samples miss", "anchors": ["src/mantissa.c:reltime_to_me", "src/mantissa.c:me_to_reltime"]}
{"id": "C02", "title": "Vtime bytes are stable under re-encoding and ordered", "statement": "Decoding any of the 256 vtime bytes and encoding the result again gives a byte that decodes to the same interval, up to the documented truncation to whole milliseconds; a longer interval never encodes to a byte that decodes to a shorter one (monotonicity).", "quantifier": "for every byte and every pair of intervals", "why_tests_cant": "monotonicity quantifies over pairs of 32-bit intervals", "anchors": ["src/mantissa.c:reltime_to_me", "src/mantissa.c:me_to_reltime"]}
{"id": "C03", "title": "Sequence-number comparison is a strict order on any half-window", "statement": "The wrap-around 16-bit sequence comparison used for ANSNs never declares both of two numbers newer, never declares a number newer than itself, always declares exactly one of two distinct numbers at circular distance other than 32768 newer, and is transitive on any set of numbers spanning less than half the number space.", "quantifier": "for every pair and triple of 16-bit sequence numbers", "why_tests_cant": "2^48 triples; ordering bugs hide at the wrap point", "anchors": ["src/olsr_protocol.h:SEQNO_GREATER_THAN", "src/duplicate_set.c:olsr_seqno_diff"]}
{"id": "C04", "title": "A flooded message is accepted at most once per originator and sequence number", "statement": "After the duplicate detector has answered 'not a duplicate' for a message (originator, sequence number), it answers 'duplicate' for every further copy of it, whatever other messages from any originator arrive in between, as long as the number stays within 31 of the highest number seen from that originator.", "quantifier": "for every interleaving of messages from every set of originators", "why_tests_cant": "depends on the whole arrival history of 16-bit numbers, with wrap-around", "anchors": ["src/duplicate_set.c:olsr_message_is_duplicate", "src/duplicate_set.c:olsr_create_duplicate_entry"]}
{"id": "C05", "title": "A restarted node is heard again after a bounded number of messages", "statement": "If a node restarts with arbitrary sequence numbers that all look too old, the duplicate detector suppresses at most sixteen of its messages in a row; the next one is accepted and resynchronises the window.", "quantifier": "for every window state and every sequence of too-old numbers", "why_tests_cant": "quantifies over all detector states and message histories", "anchors": ["src/duplicate_set.c:olsr_message_is_duplicate", "src/duplicate_set.h:DUP_MAX_TOO_LOW"]}
{"id": "C06", "title": "New sequence numbers are never mistaken for duplicates", "statement": "A message whose sequence number lies ahead (circularly, by 1 to 32767) of the highest number seen from its originator is never reported as duplicate, and a number inside the 32-number window is reported as duplicate only if it was accepted or recorded before.", "quantifier": "for every history of arrivals", "why_tests_cant": "all histories; a shift count or mask error only shows up at particular distances", "anchors": ["src/duplicate_set.c:olsr_message_is_duplicate"]}
{"id": "C07", "title": "Deadlines are judged correctly across the 32-bit clock wrap", "statement": "A deadline set d milliseconds (0 < d < 2^31) ahead is reported as not expired for every later clock reading that is less than d milliseconds after it was set, and as expired for every reading at or after d up to d plus 2^31 minus 1, including when the 32-bit millisecond clock wraps in between.", "quantifier": "for every clock value and every delay below 2^31 ms", "why_tests_cant": "2^63 combinations; needs the clock to wrap (49 days)", "anchors": ["src/scheduler.c:olsr_getTimestamp", "src/scheduler.c:olsr_isTimedOut", "src/scheduler.c:olsr_getTimeDue"]}
{"id": "C08", "title": "Timers fire neither early nor lost", "statement": "In every run of the timer service (starting, stopping and changing timers, the clock advancing by arbitrary steps, the timer walk executed at arbitrary times) a timer's callback is never invoked before its expiry time, and after a timer walk at time t no running timer with expiry at or before t remains unfired.", "quantifier": "for every sequence of timer operations and clock advances", "why_tests_cant": "unbounded histories; wheel-slot arithmetic fails only for particular gaps between walks", "anchors": ["src/scheduler.c:walk_timers", "src/scheduler.c:olsr_start_timer", "src/scheduler.c:olsr_change_timer", "src/scheduler.c:olsr_stop_timer"]}
{"id": "C09", "title": "Timer jitter only shortens, and only by the configured percentage", "statement": "A timer started with period p and jitter j percent expires no later than p after now and no earlier than p minus j percent of p (within rounding), for every random value.", "quantifier": "for every period, jitter percentage and random draw", "why_tests_cant": "random input; all 2^32 draws", "anchors": ["src/scheduler.c:calc_jitter"]}
{"id": "C10", "title": "Prefix length and netmask conversions are inverse", "statement": "For IPv4 and IPv6, converting a prefix length to a netmask and back returns the same prefix length, and a netmask made of leading one bits converted to a prefix length and back returns the same netmask.", "quantifier": "for every prefix length and every contiguous netmask", "why_tests_cant": "needs every prefix length at both address sizes, and the error branch for every non-contiguous mask", "anchors": ["src/ipcalc.c:prefix_to_netmask", "src/ipcalc.c:netmask_to_prefix"]}
{"id": "C11", "title": "Non-contiguous netmasks are rejected", "statement": "A received netmask that is not a run of one bits followed by zero bits is never converted into a usable prefix length.", "quantifier": "for every 4-byte and 16-byte netmask", "why_tests_cant": "2^32 and 2^128 masks", "anchors": ["src/ipcalc.c:netmask_to_prefix", "src/hna_set.c:olsr_input_hna"]}
{"id": "C12", "title": "The packet parser never hands out a message that reaches outside the datagram", "statement": "For every received datagram, every message passed to a message handler lies completely inside the datagram, messages are disjoint, are visited in order, have a size that is a multiple of four and at least the header size, and parsing terminates.", "quantifier": "for every datagram of every length", "why_tests_cant": "every byte string; malformed length fields are adversarial", "anchors": ["src/parser.c:parse_packet"]}
{"id": "C13", "title": "Own messages and messages from invalid originators are ignored", "statement": "A message whose originator is one of this node's own addresses or an invalid address is never processed and never forwarded, while the messages following it in the same packet still are.", "quantifier": "for every packet content", "why_tests_cant": "all packet contents", "anchors": ["src/parser.c:parse_packet", "src/net_olsr.c:olsr_validate_address"]}
{"id": "C14", "title": "Forwarding rule: only for MPR selectors, only once, with TTL decremented and hop count incremented", "statement": "A flooded message is retransmitted only if the previous hop is a symmetric neighbour that selected this node as multipoint relay and the message was not seen before; the retransmitted copy has TTL one lower and hop count one higher and is otherwise unchanged, and neither byte wraps around.", "quantifier": "for every message, neighbour state and interface set", "why_tests_cant": "every header value and every combination of state", "anchors": ["src/olsr.c:olsr_forward_message"]}
{"id": "C15", "title": "Outgoing packets never exceed the interface MTU and messages are never reordered, split or lost", "statement": "For every sequence of message enqueue and flush operations on an interface, each datagram handed to the socket is at most as long as the buffer, consists of the packet header followed by whole messages in the order they were accepted, and every accepted message appears in exactly one datagram.", "quantifier": "for every sequence of enqueue/flush operations", "why_tests_cant": "unbounded operation sequences and sizes", "anchors": ["src/net_olsr.c:net_outbuffer_push", "src/net_olsr.c:net_output", "src/net_olsr.c:net_add_buffer"]}
{"id": "C16", "title": "Reserved buffer space is always available to its owner", "statement": "Space reserved in an interface output buffer can be used by a reserved push whatever ordinary pushes happen in between, and the buffer is never written past its end.", "quantifier": "for every sequence of reservations and pushes", "why_tests_cant": "unbounded operation sequences", "anchors": ["src/net_olsr.c:net_reserve_bufspace", "src/net_olsr.c:net_outbuffer_push_reserved", "src/net_olsr.c:net_outbuffer_bytes_left"]}
{"id": "C17", "title": "MID announcement round trip", "statement": "Parsing a MID message built by a node with a given main address and set of interface addresses yields exactly those interface addresses and that main address.", "quantifier": "for every address list that fits", "why_tests_cant": "all address lists and both address families", "anchors": ["src/build_msg.c:serialize_mid4", "src/build_msg.c:serialize_mid6", "src/mid_set.c:olsr_input_mid"]}
{"id": "C18", "title": "HNA announcement round trip", "statement": "Parsing an HNA message built from a list of network/prefix pairs yields exactly those pairs in order.", "quantifier": "for every list of prefixes that fits", "why_tests_cant": "all prefix lists", "anchors": ["src/build_msg.c:serialize_hna4", "src/hna_set.c:olsr_input_hna"]}
{"id": "C19", "title": "TC announcement round trip across fragmentation", "statement": "However many fragments a TC has to be split into, each fragment fits in the available buffer, and together the fragments announce every advertised neighbour exactly once, with its link quality, and nothing else.", "quantifier": "for every neighbour list and every buffer size", "why_tests_cant": "all list lengths relative to buffer boundaries", "anchors": ["src/lq_packet.c:serialize_lq_tc", "src/lq_packet.c:create_lq_tc", "src/tc_set.c:olsr_input_tc"]}
{"id": "C20", "title": "HELLO announcement round trip across grouping and fragmentation", "statement": "Parsing the HELLO messages generated from a link list yields every link exactly once, with the link type, neighbour type and link quality it was announced with, and each generated message fits the buffer.", "quantifier": "for every link list and buffer size", "why_tests_cant": "grouping by link code and splitting interact at every boundary", "anchors": ["src/lq_packet.c:serialize_lq_hello", "src/process_package.c:deserialize_hello"]}
{"id": "C21", "title": "Received HELLO and TC bodies are never read past the end of the message", "statement": "Processing a HELLO or TC message of any content never reads beyond the announced message size.", "quantifier": "for every message body", "why_tests_cant": "adversarial bodies", "anchors": ["src/process_package.c:deserialize_hello", "src/tc_set.c:olsr_input_tc"]}
{"id": "C22", "title": "Every reachable two-hop neighbour is covered by enough MPRs", "statement": "After MPR selection with link quality, every two-hop neighbour that is not itself a symmetric neighbour and is reachable through k usable neighbours is covered by at least min(k, configured coverage) selected MPRs.", "quantifier": "for every neighbourhood graph", "why_tests_cant": "all graphs; greedy selection failures need particular topologies", "anchors": ["src/lq_mpr.c:olsr_calculate_lq_mpr"]}
{"id": "C23", "title": "Only symmetric, willing neighbours become MPRs", "statement": "No neighbour that is not symmetric or has willingness NEVER is ever selected as multipoint relay.", "quantifier": "for every neighbourhood graph", "why_tests_cant": "all graphs", "anchors": ["src/mpr.c:olsr_calculate_mpr", "src/lq_mpr.c:olsr_calculate_lq_mpr"]}
{"id": "C24", "title": "RFC MPR selection covers all two-hop neighbours", "statement": "After MPR selection without link quality, every strict two-hop neighbour reachable through a willing symmetric neighbour is adjacent to at least one selected MPR.", "quantifier": "for every neighbourhood graph", "why_tests_cant": "all graphs", "anchors": ["src/mpr.c:olsr_calculate_mpr", "src/mpr.c:olsr_optimize_mpr_set"]}
{"id": "C25", "title": "Route calculation yields shortest paths", "statement": "After a route calculation, the cost recorded for every node equals the minimum, over all paths of usable links from this node, of the sum of link costs, and unreachable nodes are recorded as unreachable.", "quantifier": "for every link-state graph", "why_tests_cant": "all graphs and cost assignments", "anchors": ["src/olsr_spf.c:olsr_spf_run_full", "src/olsr_spf.c:olsr_spf_relax"]}
{"id": "C26", "title": "Next hops lie on a shortest path", "statement": "After a route calculation, the next hop recorded for a reachable node is the link to a direct neighbour that is the first hop of some path whose cost is the node's recorded cost.", "quantifier": "for every link-state graph", "why_tests_cant": "all graphs", "anchors": ["src/olsr_spf.c:olsr_spf_relax", "src/olsr_spf.c:olsr_calculate_routing_table"]}
{"id": "C27", "title": "Best-route selection is independent of insertion order", "statement": "Among the announcers of a prefix the route selected is the one with the lowest cost, ties broken by hop count and then by originator address, whatever the order in which the announcements arrived.", "quantifier": "for every set of announcers and every insertion order", "why_tests_cant": "all permutations", "anchors": ["src/routing_table.c:olsr_rt_best", "src/routing_table.c:olsr_cmp_rtp"]}
{"id": "C28", "title": "The kernel routing table converges to the computed table", "statement": "After the routing table update finishes and every kernel call succeeded, the set of kernel routes equals the set of best routes; routes that disappeared are deleted and changed ones replaced, each by exactly one kernel operation sequence.", "quantifier": "for every sequence of routing table updates", "why_tests_cant": "unbounded histories of updates", "anchors": ["src/process_routes.c:olsr_update_rib_routes", "src/process_routes.c:olsr_update_kernel_routes"]}
{"id": "C29", "title": "The balanced tree behaves as a sorted map", "statement": "After every sequence of insertions and deletions, the tree used for all protocol databases contains exactly the inserted and not yet deleted keys, in order, with a height logarithmic in their number.", "quantifier": "for every operation sequence", "why_tests_cant": "unbounded sequences; rotation bugs need particular shapes", "anchors": ["src/common/olsrd_avl.c:olsrd_avl_insert", "src/common/olsrd_avl.c:olsrd_avl_delete", "src/common/olsrd_avl.c:olsrd_avl_find"]}
{"id": "C30", "title": "The linked-list primitives preserve list structure", "statement": "After every sequence of list operations the forward traversal and the backward traversal of every list visit the same elements in opposite order, an element is on at most one list, and removing an element removes exactly it.", "quantifier": "for every operation sequence on every set of lists", "why_tests_cant": "pointer structures: all shapes and aliasing patterns", "anchors": ["src/common/list.c:list_add_after", "src/common/list.c:list_add_before", "src/common/list.c:list_remove", "src/common/list.c:list_merge"]}
{"id": "C31", "title": "Smart-gateway speed codec", "statement": "A link speed encoded into the one-byte gateway speed field and decoded again is never larger than the original (except that 1 kbit/s becomes 2 kbit/s... i.e. a non-zero speed never becomes zero), loses less than a quarter, saturates at the maximum, and every encoded byte decodes back to a speed that encodes to the same speed.", "quantifier": "for every speed and every byte", "why_tests_cant": "2^32 speeds", "anchors": ["src/gateway.c:serialize_gw_speed", "src/gateway.c:deserialize_gw_speed"]}
{"id": "C32", "title": "The active gateway list stays sorted and bounded", "statement": "After every sequence of additions, cost updates and removals the active-gateway list is ordered by path cost, contains each gateway once, its count matches its length, and the best and worst accessors return its minimum and maximum.", "quantifier": "for every operation sequence", "why_tests_cant": "unbounded histories", "anchors": ["src/gateway_list.c:olsr_gw_list_add", "src/gateway_list.c:olsr_gw_list_update", "src/gateway_list.c:olsr_gw_list_remove"]}
{"id": "C33", "title": "Gateway cost weighing is monotone and free of overflow", "statement": "For every weight configuration, a gateway with lower path cost and at least the same bandwidth never gets a higher cost, the result is never negative, and no intermediate computation overflows.", "quantifier": "for every bandwidth, path cost and weight setting", "why_tests_cant": "2^128 inputs", "anchors": ["src/gateway_costs.c:gw_costs_weigh"]}
{"id": "C34", "title": "Gateway hysteresis", "statement": "The default gateway selector switches away from a usable current gateway only to a gateway whose cost is below the configured percentage threshold of the current one's, and otherwise chooses a gateway of minimal cost.", "quantifier": "for every gateway table", "why_tests_cant": "all tables and thresholds", "anchors": ["src/gateway_default_handler.c:gw_default_choose_gateway", "src/gateway_default_handler.c:gw_default_calc_threshold"]}
{"id": "C35", "title": "Link cost is bounded, monotone and never zero", "statement": "The ETX link cost derived from a pair of link qualities is at least one, is smaller for better qualities, equals the best cost for perfect qualities, and is reported broken exactly when either quality is below the usable minimum.", "quantifier": "for every pair of link qualities", "why_tests_cant": "all pairs and the order between pairs", "anchors": ["src/lq_plugin_default_ff.c:default_lq_calc_cost_ff", "src/lq_plugin_default_fpm.c:default_lq_calc_cost_fpm", "src/lq_plugin_default_ffeth.c:default_lq_calc_cost_ffeth"]}
{"id": "C36", "title": "Measured link quality always fits its byte", "statement": "Whatever sequence of packets (with arbitrary sequence numbers) and window ticks occurs, the measured link quality of the packet-loss window never exceeds 255 and the number of packets counted as received in a window never exceeds the number expected.", "quantifier": "for every packet and tick sequence", "why_tests_cant": "unbounded arrival histories with 16-bit wrap-around", "anchors": ["src/lq_plugin_default_ff.c:default_lq_parser_ff", "src/lq_plugin_default_ff.c:default_lq_ff_timer"]}
{"id": "C37", "title": "Exponential link-quality averaging stays in range and converges", "statement": "The fixed-point exponential average of HELLO reception never leaves the byte range, never overflows, does not decrease on reception of a HELLO when loss multiplier is neutral, and decreases to zero under permanent loss.", "quantifier": "for every loss sequence and aging setting", "why_tests_cant": "unbounded sequences; rounding can create fixed points", "anchors": ["src/lq_plugin_default_fpm.c:default_lq_packet_loss_worker_fpm"]}
{"id": "C38", "title": "Stale topology information never replaces newer information", "statement": "A TC message whose ANSN is older than the one already known from its originator never changes the topology set; one with a newer ANSN completely replaces the originator's edges inside the address range it covers.", "quantifier": "for every TC history of every originator", "why_tests_cant": "all histories and wrap-around", "anchors": ["src/tc_set.c:olsr_input_tc", "src/tc_set.c:olsr_tc_update_edge"]}
{"id": "C39", "title": "Neighbour status follows its links", "statement": "A neighbour is symmetric exactly if it has a symmetric link, after every sequence of link updates and expiries.", "quantifier": "for every sequence of HELLO receptions and timer expiries", "why_tests_cant": "unbounded histories", "anchors": ["src/link_set.c:update_link_entry", "src/link_set.c:lookup_link_status", "src/neighbor_table.c:update_neighbor_status"]}
{"id": "C40", "title": "Alias resolution is consistent", "statement": "After every sequence of MID messages and expiries, an interface address resolves to at most one main address, and the aliases listed for a main address all resolve to it.", "quantifier": "for every MID history", "why_tests_cant": "unbounded histories of conflicting announcements", "anchors": ["src/mid_set.c:insert_mid_alias", "src/mid_set.c:mid_lookup_main_addr"]}
{"id": "C41", "title": "String copy helpers never overrun and always terminate", "statement": "Bounded string copy and concatenation write only inside the destination buffer, leave it NUL-terminated whenever it has room for at least one byte, and yield the longest prefix that fits.", "quantifier": "for every source, destination content and size", "why_tests_cant": "all lengths relative to the size", "anchors": ["src/common/string_handling.c:strscpy", "src/common/string_handling.c:strscat"]}
{"id": "C42", "title": "The growable buffer contains exactly the concatenation of what was appended", "statement": "After every sequence of append and pull operations the buffer holds exactly the appended text minus the pulled prefix, is NUL-terminated and never written past its allocation.", "quantifier": "for every operation sequence and size", "why_tests_cant": "unbounded sequences; growth boundaries", "anchors": ["src/common/autobuf.c:abuf_puts", "src/common/autobuf.c:abuf_memcpy", "src/common/autobuf.c:abuf_pull", "src/common/autobuf.c:autobuf_enlarge"]}
{"id": "C43", "title": "Multicast forwarding history never forgets early and never reports a fresh packet as seen", "statement": "The packet history used for duplicate suppression answers 'seen' for a checksum exactly if the same checksum was recorded and has not been pruned since, whatever other checksums share its hash bucket; pruning never removes an entry before its hold time.", "quantifier": "for every sequence of packets, prunes and clock values", "why_tests_cant": "unbounded histories with hash collisions", "anchors": ["lib/bmf/src/PacketHistory.c:CheckAndMarkRecentPacket", "lib/bmf/src/PacketHistory.c:PrunePacketHistory"]}
{"id": "C44", "title": "Replay protection window of the signed-packet plugin", "statement": "A signed packet is accepted only from a host that completed the challenge exchange and only if its timestamp differs from the tracked offset by no more than the configured slack.", "quantifier": "for every timestamp and state", "why_tests_cant": "all timestamps and histories", "anchors": ["lib/secure/src/olsrd_secure.c:check_timestamp", "lib/secure/src/olsrd_secure.c:validate_packet"]}
{"id": "C45", "title": "Routing table and rule numbers accepted by the configuration check do not collide with reserved ones", "statement": "Whenever the configuration check accepts the smart-gateway table and rule offsets, the ranges of tables and rules used do not overlap the reserved kernel tables 253 to 255 or the reserved rules 32766 and 32767, do not wrap around 32 bits and do not include zero.", "quantifier": "for every offset and interface count", "why_tests_cant": "2^64 combinations with wrap-around", "anchors": ["src/cfgparser/olsrd_conf.c:olsrd_sanity_check_cnf"]}
{"id": "C46", "title": "A timer re-armed from its own callback fires again", "statement": "If the callback of a timer sets that same timer to a new delay before returning, the timer stays armed and fires again after the new delay, for one-shot and periodic timers alike.", "quantifier": "every timer, every delay and jitter, every state of the timer service in which the timer fires", "why_tests_cant": "The outcome depends on the interplay of the callback with the bookkeeping done after it returns; tests exercise only the callbacks that exist today.", "anchors": ["src/scheduler.c: walk_timers, olsr_change_timer, olsr_set_timer, olsr_stop_timer"]}
{"id": "C47", "title": "Network membership test compares exactly the prefix bits", "statement": "ip_in_net(addr, net) is true if and only if the first prefix_len bits of addr and of the network address are equal, for IPv4 prefix lengths 0..32 and IPv6 prefix lengths 0..128, and no memory outside the two addresses is read.", "quantifier": "all pairs of addresses and all prefix lengths in range", "why_tests_cant": "2^64 (2^256) address pairs; word boundary cases (32, 64, 96) and the zero-length case are easy to miss", "anchors": ["src/ipcalc.c:226-262"]}
{"id": "C48", "title": "Only the default route counts as an Internet gateway announcement", "statement": "is_prefix_inetgw is true exactly for 0.0.0.0/0 in IPv4 and for 2000::/3 and ::ffff:0:0/96 in IPv6.", "quantifier": "all addresses and prefix lengths", "why_tests_cant": "A test with the expected prefixes passes even if the comparison ignores the address", "anchors": ["src/ipcalc.c:264-274", "src/ipcalc.h:203-219"]}
{"id": "C49", "title": "A receiver sees exactly the messages the sender queued", "statement": "If complete messages are pushed into an interface's output buffer in any order, interleaved with flushes, then every datagram sent is accepted by the packet parser of a receiver of the same address family, which treats exactly the messages of that datagram, byte for byte and in order, and no others.", "quantifier": "for all message sequences, flush points, MTUs below 65536 and receiver states", "why_tests_cant": "it relates two components over all interleavings of pushes and flushes; a test exercises a handful of packets", "anchors": ["src/net_olsr.c:net_outbuffer_push", "src/net_olsr.c:net_output", "src/parser.c:parse_packet"]}
{"id": "C50", "title": "Advertised link quality follows measured link quality", "statement": "After every pass of the smoothing step the advertised qualities of every link are within a tenth of the measured ones, a measured perfect quality is advertised as such, the link cost is the cost of the advertised qualities, and a topology change is signalled exactly if some link had drifted further than that; in that case all imperfect links are brought up to date.", "quantifier": "for every set of links and all qualities", "why_tests_cant": "relates every link's state after a pass to all links' states before it", "anchors": ["src/lq_plugin_default_ff.c:default_lq_ff_handle_lqchange"]}
{"id": "C51", "title": "A change of the MPR set is signalled", "statement": "Whenever an MPR selection run changes which neighbours are multipoint relays and TC redundancy is above zero, link changes are signalled so that a new topology sequence number is issued; nothing is signalled when the set is unchanged.", "quantifier": "for every neighbourhood graph and every previous MPR set", "why_tests_cant": "all graphs and all previous sets; a missed signal only delays a TC and looks like normal convergence", "anchors": ["src/lq_mpr.c:olsr_calculate_lq_mpr", "src/mpr.c:olsr_check_mpr_changes"]}
{"id": "C52", "title": "A live symmetric neighbour is reachable", "statement": "After a route calculation every symmetric neighbour whose best link is alive and not broken, and which has itself announced a link to this node, is on the path list with a cost no higher than that of its best link.", "quantifier": "for every link-state database, neighbour table and link quality", "why_tests_cant": "all databases and neighbour tables; the failing case heals by itself at the next calculation, so a test that waits sees nothing", "anchors": ["src/olsr_spf.c:olsr_calculate_routing_table", "src/tc_set.c:olsr_add_tc_edge_entry"]}
{"id": "C53", "title": "Taking down expensive gateways", "statement": "When expensive gateways are taken down, the gateways removed from the active list are those that cost at least the configured percentage boundary over the current gateway and come after it; the current gateway and every gateway below the boundary stay, and the computation of the boundary never leaves the 64-bit range.", "quantifier": "for every reachable gateway list, every percentage and every assignment of costs", "why_tests_cant": "The boundary depends on 64-bit costs over their whole range, and the list on the history of cost updates; a test covers a handful of either.", "anchors": ["src/gateway.c:749-798"]}
{"id": "C54", "title": "The current gateway is on the list", "statement": "After every sequence of gateway choices, cost updates, losses and takedowns, the current gateway is either unset or one of the gateways on the active list; the pointer to it never refers to a freed entry.", "quantifier": "for every sequence of events, including tunnels that cannot be created", "why_tests_cant": "The failing case needs a full list, a particular worst entry and a failing tunnel creation at the same time.", "anchors": ["src/gateway.c:726-739", "src/gateway.c:1515-1645", "src/gateway.c:1410-1460"]}
{"id": "C55", "title": "The egress link is the cheapest usable one", "statement": "The egress link of a multi-smart-gateway is a link that is up, of minimal cost among the links that are up, and the first declared among equals; there is none only if no link is up.", "quantifier": "for every list of egress links with every combination of states and costs", "why_tests_cant": "The defect depends on which position in the configuration the failing interface has and on a state of the operating system that lags behind.", "anchors": ["src/gateway.c:1684-1727"]}
{"id": "C56", "title": "Route of the egress link", "statement": "After every change of the egress links the routing table for tunnelled traffic holds a default route over the chosen link, or a blackhole route if there is none.", "quantifier": "for every sequence of changes of the egress links and interfaces", "why_tests_cant": "The table is a result of the whole history of changes, and the missing blackhole route only shows when no link is left.", "anchors": ["src/gateway.c:1809-1839", "src/gateway.c:1951-2068", "src/gateway.c:2385-2412"]}
{"id": "C58", "title": "Best link to a neighbour is a cheapest symmetric one", "statement": "When a neighbour is reachable over at least one symmetric link with finite cost, get_best_link_to_neighbor returns a symmetric link whose cost is minimal among the symmetric links to that neighbour.", "quantifier": "for every list of links, every neighbour, all costs", "why_tests_cant": "Depends on the order and on the relative cost of several parallel links of mixed symmetry; a test fixes a few of them.", "anchors": ["src/link_set.c:217"]}
{"id": "C59", "title": "Links never point at a freed neighbour entry", "statement": "At every moment each entry of the link set points at a neighbour entry that is in the neighbour table, and the link count of each neighbour entry is the number of links that point at it. So no HELLO, MID message or expiry ever reads a freed neighbour entry, and a neighbour without links is not kept.", "quantifier": "for every sequence of HELLOs from any address with any main address, MID messages with any alias list, MID expiries and link deletions", "why_tests_cant": "The fault needs a HELLO and a MID message that disagree about which address is the main one, or a MID message that lists its own originator; the freed entry is only read by a later event, and tests with well-behaved peers never see it.", "anchors": ["src/mid_set.c:155", "src/mid_set.c:262", "src/link_set.c:368", "src/link_set.c:531", "src/neighbor_table.c:156"]}
{"id": "C60", "title": "Border flags of a TC never make the receiver write outside the border address", "statement": "Whatever the two border flags of a received TC message are, computing the border addresses from the first and the last announced address writes only inside those two addresses.", "quantifier": "for every pair of flag bytes, every first and last address, IPv4 and IPv6", "why_tests_cant": "Only a few flag values are ever generated; the harmful ones must be crafted, and the stray write hits the stack silently, so a run with ordinary peers shows nothing.", "anchors": ["src/tc_set.c:728", "src/lq_packet.c:516"]}
{"id": "C61", "title": "The address ranges of TC fragments tile the address space", "statement": "When a TC is split, the ranges that receivers compute from the border flags are consecutive: the first starts at the lowest address, each starts where the one before ends, the last ends at the highest address, and each fragment announces only neighbours inside its range.", "quantifier": "for every sorted neighbour list, every buffer size that does not abort, on every kind of host", "why_tests_cant": "Only large neighbourhoods produce fragments, and whether a range has a gap depends on the bit patterns of the two addresses at each split; a test cannot enumerate them.", "anchors": ["src/lq_packet.c:516", "src/lq_packet.c:545", "src/tc_set.c:728"]}
{"id": "C62", "title": "A denied address in a TC does not disturb the other neighbours", "statement": "When a TC message announces an address that the receiver does not accept, that neighbour is skipped, and all other announced neighbours are registered with the link quality they were announced with.", "quantifier": "for every list of announced neighbours, every set of denied addresses and every state of the topology set", "why_tests_cant": "Denied addresses appear only when a peer is misconfigured or hostile, and the garbled edges look like ordinary ones; the over-read that follows stays inside the receive buffer, so nothing crashes.", "anchors": ["src/tc_set.c:611", "src/tc_set.c:885", "src/net_olsr.c:438"]}
{"id": "C63", "title": "Without link quality, a TC registers exactly the announced neighbours", "statement": "With the link quality extension off on both sides, processing the TC message that the sender builds from a list of neighbours leaves exactly those neighbours as edges, and reads nothing beyond the message.", "quantifier": "for every list of announced neighbours and every state of the topology set", "why_tests_cant": "The RFC-only mode is seldom exercised, and a receiver that knows some neighbours already skips a different set of neighbours than a fresh one, so any single run shows only one of many outcomes.", "anchors": ["src/tc_set.c:611", "src/build_msg.c:576", "src/build_msg.c:693"]}
{"id": "C64", "title": "Inverse edges of the topology set are exact and never dangle", "statement": "In every reachable state of the topology set, the inverse-edge pointer of an edge A to B is the edge B to A exactly when that edge exists, the two edges point at each other, and no operation ever uses a freed entry or edge.", "quantifier": "for every sequence of received messages, expiries, route calculations and link deletions, including nodes that announce themselves", "why_tests_cant": "The pointers are maintained incrementally from many places; a stale one only matters in the rare order of events in which one of the two edges goes away first, and then corrupts freed memory silently.", "anchors": ["src/tc_set.c:435", "src/tc_set.c:507", "src/tc_set.c:281", "src/olsr_spf.c:249"]}
{"id": "C65", "title": "The own entry of the topology set is there whenever it is used", "statement": "Whenever the own entry of the topology set is used, it exists and has the main address of the node.", "quantifier": "for every start configuration and every sequence of events", "why_tests_cant": "The entry is missing only between the first interface coming up late and the first route calculation, a window that ordinary tests never hit.", "anchors": ["src/tc_set.c:226", "src/link_set.c:374", "src/olsr_spf.c:383", "src/unix/ifnet.c:817"]}
{"id": "C66", "title": "MID and HNA messages are read within their announced size", "statement": "Processing a MID or HNA message never reads beyond the announced size of the message.", "quantifier": "for every content and every size the packet parser lets through, both address families", "why_tests_cant": "An over-read of a few bytes returns stale buffer contents and no test notices; only odd sizes trigger it.", "anchors": ["src/rebuild_packet.c:64-165", "src/hna_set.c:368-482"]}
{"id": "C67", "title": "A smart gateway announcement carries the gateway settings", "statement": "From the HNA message of a smart gateway every receiver that uses smart gateways learns the speeds of the gateway (up to the precision of the speed byte), whether it offers IPv4, NAT and IPv6, and its external IPv6 prefix; other networks in the same message are learned unchanged.", "quantifier": "for all gateway settings and all lists of announced networks, both address families", "why_tests_cant": "The settings are hidden in the host part of a netmask at an offset that depends on the prefix length; tests run with IPv4 only.", "anchors": ["src/gateway.c:1154-1175", "src/gateway.c:1184-1210", "src/gateway.c:1246-1296", "src/build_msg.c:977-1032", "src/build_msg.c:1135-1196"]}
{"id": "C68", "title": "A gateway that loses its uplink withdraws its announcement", "statement": "When a node stops being a smart gateway it sends, once per HNA interval until the validity time of its last announcement has run out, a message that makes the receivers drop the gateway.", "quantifier": "for every state of the output buffer, every remaining time and both address families", "why_tests_cant": "The withdrawal is only sent in a window after a change of state; what receivers make of it needs a second node.", "anchors": ["src/build_msg.c:1115-1136", "src/build_msg.c:1279-1300", "src/gateway.c:1223-1232"]}
{"id": "C69", "title": "Reading a HELLO message loses no memory", "statement": "Every neighbour record that is allocated while a HELLO message is read is handed on with the message, and freed with it, or freed at once.", "quantifier": "for every content of the message, both address families, with and without link quality", "why_tests_cant": "A leak of a few dozen bytes per message is invisible to functional tests, and the path that leaks needs a malformed message.", "anchors": ["src/process_package.c:deserialize_hello", "src/process_package.c:olsr_input_hello"]}
{"id": "C70", "title": "The multicast fingerprint depends on the packet and not on its hop count", "statement": "The fingerprint of an IP packet is the same at every hop (time-to-live and header checksum do not enter it), computing it leaves the packet as it was, and two packets that differ elsewhere have different fingerprints whenever they differ only within one 32-bit burst.", "quantifier": "for every packet content and length", "why_tests_cant": "Collision and invariance claims range over all packet contents; tests compare a handful of packets.", "anchors": ["lib/bmf/src/PacketHistory.c:PacketCrc32", "lib/bmf/src/PacketHistory.c:CalcCrcCcitt"]}
{"id": "C71", "title": "Rewriting the local broadcast address keeps the checksums right", "statement": "When the plug-in replaces the destination of a local broadcast packet, only the destination and the checksums change, and a packet whose IP header checksum and UDP checksum were right still has right checksums afterwards.", "quantifier": "for every packet, every old and new broadcast address", "why_tests_cant": "The incremental checksum update goes wrong for isolated values out of 2^32 combinations.", "anchors": ["lib/bmf/src/NetworkInterfaces.c:CheckAndUpdateLocalBroadcast"]}
{"id": "C72", "title": "The multicast plug-in passes on only bytes it received", "statement": "Whatever is sent to another interface, to a neighbour or to the local network stack lies within the bytes of the packet that was received.", "quantifier": "for every received datagram, interface set and configuration", "why_tests_cant": "A length field that disagrees with the size of the datagram needs a crafted packet, and the surplus bytes look like any payload.", "anchors": ["lib/bmf/src/Bmf.c:BmfEncapsulationPacketReceived", "lib/bmf/src/Bmf.c:BmfPacketCaptured"]}
{"id": "C73", "title": "The multicast plug-in sends to exactly the neighbours that still need the packet", "statement": "A packet is relayed to the neighbours on an OLSR interface that are not its source, its forwarder or its addressee, whose link works and is the best link to them, and that the forwarder does not reach more cheaply itself; by unicast to the cheapest of them, by unicast to all of them, or by broadcast, as configured. It never goes back unencapsulated to the network it came from.", "quantifier": "for every link set, topology, interface list and configuration", "why_tests_cant": "The conditions combine link set, topology and configuration; a wrong combination only causes duplicates or loss.", "anchors": ["lib/bmf/src/NetworkInterfaces.c:FindNeighbors", "lib/bmf/src/Bmf.c:EncapsulateAndForwardPacket", "lib/bmf/src/Bmf.c:BmfPacketCaptured", "lib/bmf/src/Bmf.c:BmfEncapsulationPacketReceived"]}
{"id": "C74", "title": "A multicast packet is relayed at most once within the hold time", "statement": "A packet is passed on at most once within its hold time, and is passed on at all if no copy of it was received before.", "quantifier": "for every sequence of captured and encapsulated packets and clean-ups", "why_tests_cant": "Needs arbitrary interleavings of two reception paths with the clean-up timer.", "anchors": ["lib/bmf/src/Bmf.c:BmfEncapsulationPacketReceived", "lib/bmf/src/Bmf.c:BmfPacketCaptured", "lib/bmf/src/PacketHistory.c:CheckAndMarkRecentPacket"]}
{"id": "C75", "title": "A signed packet verifies, a changed one does not", "statement": "A packet that was signed with a key is accepted by a receiver with the same key, which sees the packet as it was before signing together with originator and timestamp of the signer. A packet that differs before its digest from an accepted one and carries the same digest is rejected unless the digest function collides.", "quantifier": "for every digest function, key, packet, structure layout (32/64-bit time, MD5/SHA-1)", "why_tests_cant": "Sender and receiver are the same binary in tests on one platform; structure padding differs per platform and the contents are unbounded.", "anchors": ["lib/secure/src/olsrd_secure.c:add_signature", "lib/secure/src/olsrd_secure.c:validate_packet"]}
{"id": "C76", "title": "Signing a packet stays inside the output buffer", "statement": "Appending the signature message to a pending packet writes only inside the output buffer, whatever amount the buffer has been filled to.", "quantifier": "for every interface MTU and every fill level the buffer can reach", "why_tests_cant": "Only exactly full packets overflow, by a few bytes into adjacent heap memory.", "anchors": ["lib/secure/src/olsrd_secure.c:add_signature", "src/net_olsr.c:net_outbuffer_push"]}
{"id": "C77", "title": "Two hosts that hear each other complete the timestamp exchange", "statement": "Hosts with the same key that do not know each other yet complete the challenge exchange and end with valid entries with the true clock offset; a failed exchange is tried again after the exchange time; hosts without the key cannot prevent it.", "quantifier": "for every order and time of the messages, every clock and uninitialised memory content", "why_tests_cant": "Crossing messages, early start-up seconds and uninitialised memory are timing dependent and not reproducible in tests.", "anchors": ["lib/secure/src/olsrd_secure.c:parse_challenge", "lib/secure/src/olsrd_secure.c:send_challenge", "lib/secure/src/olsrd_secure.c:parse_cres", "lib/secure/src/olsrd_secure.c:parse_rres", "lib/secure/src/olsrd_secure.c:timeout_timestamps"]}
{"id": "C57", "title": "A kernel route request says what was asked for", "statement": "The bytes sent to the kernel for setting or deleting a route, read by the rules of the netlink protocol, give exactly the table, destination, prefix length, gateway, interface, metric, source address, protocol, scope, type and flags that were asked for; a host route without gateway names its destination as gateway.", "quantifier": "for every address family, table, prefix, gateway, metric and combination of flags", "why_tests_cant": "The kernel accepts a wrong request as readily as a right one; the difference shows only in another routing table.", "anchors": ["src/linux/kernel_routes_nl.c:olsr_new_netlink_route", "src/linux/kernel_routes_nl.c:olsr_netlink_addreq"]}
{"id": "C78", "title": "The answer of the kernel belongs to the request", "statement": "What is returned for a netlink request is the answer of the kernel to this request, or an error if none could be read.", "quantifier": "for every series of requests, answers and failed system calls", "why_tests_cant": "Needs a system call that is interrupted at one moment; afterwards every answer is off by one.", "anchors": ["src/linux/kernel_routes_nl.c:olsr_netlink_send"]}
{"id": "C79", "title": "Success of a route operation means that the kernel did it", "statement": "If adding a route is reported as successful, the kernel acknowledged exactly this route (destination, next hop, interface, table, metric of the best path) last; if deleting one is, it acknowledged the deletion of exactly the installed route or said that there is none. Deleting never adds a route, and resolving a conflict asks for the deletion of the conflicting route.", "quantifier": "for every route, configuration and every answer of the kernel", "why_tests_cant": "Error answers of the kernel are rare and the recovery code runs only then.", "anchors": ["src/linux/kernel_routes_nl.c:olsr_os_process_rt_entry"]}
{"id": "C80", "title": "Policy rule and address requests say what was asked for", "statement": "The bytes sent to the kernel for a policy rule give family, table, priority and interface name, those for an address give family, full prefix length, interface, address and label as asked for.", "quantifier": "for every family, table, priority, name, address", "why_tests_cant": "A wrong byte layout is accepted silently by the kernel.", "anchors": ["src/linux/kernel_routes_nl.c:olsr_os_policy_rule", "src/linux/kernel_routes_nl.c:olsr_add_ip"]}
{"id": "C81", "title": "The neighbour and two-hop neighbour tables stay consistent", "statement": "In every reachable state each two-hop list entry of a neighbour leads to an existing two-hop neighbour that lists this neighbour and vice versa, each pair is there once, the pointer counter equals the number of one-hop neighbours, no two-hop neighbour without one is kept, and no operation touches freed memory. A HELLO adds exactly the addresses it lists; deleting a neighbour, a neighbour becoming symmetric, and a new alias remove exactly their records.", "quantifier": "for every sequence of HELLO messages, timer expiries, neighbour insertions, deletions, renamings and status changes, and alias declarations", "why_tests_cant": "Dangling pointers need particular interleavings of alias declarations and timeouts and usually go unnoticed.", "anchors": ["src/process_package.c:process_message_neighbors", "src/two_hop_neighbor_table.c:olsr_delete_two_hop_neighbor_table", "src/neighbor_table.c:olsr_delete_neighbor_table", "src/neighbor_table.c:olsr_expire_nbr2_list", "src/mid_set.c:insert_mid_tuple"]}
{"id": "C82", "title": "Two-hop neighbours are kept for the announced validity time", "statement": "A two-hop neighbour listed by a HELLO is kept until the validity time of the last HELLO listing it has passed, and removed then.", "quantifier": "for every state, HELLO message, validity time and later sequence of events", "why_tests_cant": "A missing timer shows only as an entry that is still there much later.", "anchors": ["src/process_package.c:process_message_neighbors", "src/neighbor_table.c:olsr_expire_nbr2_list"]}
{"id": "C83", "title": "The cost of a two-hop path is the best announced one", "statement": "After a HELLO with link quality, the cost recorded for reaching a listed two-hop neighbour through the sender is the smallest sum of the cost of the link to the sender and an announced cost, or \"broken\" if all of them are.", "quantifier": "for every state, every message with any number of (repeated) listings, all costs up to LINK_COST_BROKEN", "why_tests_cant": "All combinations of repeated listings and aliases.", "anchors": ["src/process_package.c:process_message_neighbors"]}
{"id": "C84", "title": "MPR selectors are the neighbours whose last HELLO choosing this host is still valid", "statement": "A HELLO selects this host exactly if its last announcement of the receiving interface on a symmetric link says MPR; the selector set holds each host whose last selecting HELLO has not timed out, once, with the time of that HELLO.", "quantifier": "for every well-formed HELLO message and every sequence of events", "why_tests_cant": "All orders of blocks in a message and all interleavings of HELLOs and timers.", "anchors": ["src/process_package.c:lookup_mpr_status", "src/mpr_selector_set.c:olsr_update_mprs_set", "src/mpr_selector_set.c:olsr_expire_mpr_sel_entry"]}
{"id": "C85", "title": "The ANSN identifies the advertised neighbour set", "statement": "Two TC messages with the same sequence number of advertised neighbours (ANSN), generated less than 65536 changes apart, advertise the same neighbours.", "quantifier": "for every configuration of TC redundancy and every sequence of events", "why_tests_cant": "Needs the observation of a change falling between two particular points of the main loop.", "anchors": ["src/scheduler.c:olsr_scheduler", "src/lq_packet.c:create_lq_tc", "src/packet.c:olsr_build_tc_packet", "src/neighbor_table.c:update_neighbor_status"]}
{"id": "C86", "title": "Empty TC messages are sent as long as earlier ones are valid", "statement": "When a node has no neighbours to advertise any more it sends empty TC messages until the TC messages it sent before are no longer valid, and none after that.", "quantifier": "for every emission interval, every validity time and all generation times", "why_tests_cant": "Wrap-around of the clock takes 24 days; the times differ only by configuration.", "anchors": ["src/lq_packet.c:olsr_output_lq_tc", "src/packet.c:olsr_build_tc_packet", "src/unix/ifnet.c:chk_if_up"]}
{"id": "C87", "title": "The HNA set holds exactly the announcements that are still valid", "statement": "At any time the set contains exactly the networks that were announced by their gateway and neither withdrawn by an empty TC nor timed out since, once each, with the timer of the last announcement; a network never times out before 95 percent of its validity time have passed.", "quantifier": "for every sequence of HNA messages, timer expiries, empty TC messages, MID messages and topology changes", "why_tests_cant": "All interleavings of announcements and timeouts over several gateways with common networks.", "anchors": ["src/hna_set.c:olsr_update_hna_entry", "src/hna_set.c:olsr_delete_hna_net_entry", "src/hna_set.c:olsr_cleanup_hna", "src/hna_set.c:olsr_input_hna"]}
{"id": "C88", "title": "Routes exist for exactly what is announced", "statement": "A prefix hangs off the topology entry of a host exactly if it is the address of the host, one of its registered aliases or a network that it announces at present.", "quantifier": "for every sequence of HNA, MID and TC messages and timeouts", "why_tests_cant": "Needs one host to announce the same prefix in two ways, or a topology entry to time out between two HNA messages.", "anchors": ["src/routing_table.c:olsr_insert_routing_table", "src/routing_table.c:olsr_delete_routing_table", "src/tc_set.c:olsr_delete_tc_entry", "src/mid_set.c:olsr_input_mid", "src/hna_set.c:olsr_delete_hna_net_entry"]}
{"id": "C89", "title": "A change of prefixes triggers the recalculation of routes", "statement": "Whenever a prefix of some topology entry comes or goes, changes_hna or changes_topology is set.", "quantifier": "for every reachable state and every event", "why_tests_cant": "A missing flag only delays the effect until the next unrelated change.", "anchors": ["src/routing_table.c:olsr_insert_routing_table", "src/routing_table.c:olsr_delete_routing_table", "src/tc_set.c:olsr_delete_tc_entry", "src/hna_set.c:olsr_update_hna_entry"]}
{"id": "C90", "title": "HELLO messages without link quality read back as what was announced", "statement": "With link quality level 0, reading the HELLO messages generated yields every neighbour whose link is not hidden exactly once, with its link type and neighbour type; messages are split when they do not fit; the daemon does not terminate.", "quantifier": "for every list of neighbours, both address families and every state of the output buffer", "why_tests_cant": "Splitting depends on how full the buffer is when the HELLO is due; hidden links need the hysteresis with IPv6.", "anchors": ["src/build_msg.c:serialize_hello4", "src/build_msg.c:serialize_hello6", "src/process_package.c:deserialize_hello"]}
{"id": "C91", "title": "The HELLO messages on an interface tell of every neighbour", "statement": "Without link quality the HELLO on an interface has one entry for each link on it and, with several interfaces, one for each other neighbour; receivers learn of every symmetric neighbour.", "quantifier": "for every link set, neighbour table and interface", "why_tests_cant": "Needs neighbours that are reachable over several interfaces with different link states.", "anchors": ["src/packet.c:olsr_build_hello_packet", "src/build_msg.c:serialize_hello4", "src/build_msg.c:serialize_hello6"]}
{"id": "C92", "title": "TC messages without link quality read back as what was announced", "statement": "With link quality level 0, a reader of the format of RFC 3626 gets from the TC messages generated exactly the announced addresses in order, under one ANSN and consecutive sequence numbers; no message is empty unless there is nothing to announce and an empty one is asked for.", "quantifier": "for every list of addresses, both address families and every state of the output buffer", "why_tests_cant": "Splitting depends on how full the buffer is when the TC is due.", "anchors": ["src/build_msg.c:serialize_tc4", "src/build_msg.c:serialize_tc6"]}
{"id": "C93", "title": "A gateway is on offer exactly while its announcement is valid", "statement": "After a smart gateway announcement is heard, the entry in the gateway tree offers exactly what was announced until the validity time is over, the originator is lost from the topology, or something newer is announced; nothing else is ever on offer; no freed timer or entry is used.", "quantifier": "for every sequence of announcements, losses and passing time, both address families", "why_tests_cant": "Two timers per entry are started, changed and stopped from five places; expiry is only seen after the validity time, and only IPv6 networks show that it does not work.", "anchors": ["src/gateway.c:olsr_update_gateway_entry", "src/gateway.c:olsr_delete_gateway_tree_entry", "src/gateway.c:expire_gateway_handler", "src/gateway.c:cleanup_gateway_handler", "src/hna_set.c:olsr_delete_hna_net_entry"]}
{"id": "C94", "title": "A gateway announcement is replaced only by a newer one, and a restarted gateway is heard again", "statement": "An announcement that is not newer than the last one heard changes nothing; of several gateway networks in one message the first counts; 30 seconds after an announcement ran out the number is forgotten, so that a restarted gateway is heard.", "quantifier": "for every sequence of announcements and passing time", "why_tests_cant": "Restarting a gateway with an older sequence number while its entry lingers needs a timing that tests do not produce.", "anchors": ["src/gateway.c:olsr_update_gateway_entry", "src/gateway.c:cleanup_gateway_handler", "src/duplicate_set.c:olsr_seqno_diff"]}
{"id": "C95", "title": "What a node announces with the nameservice plugin is what others learn", "statement": "A receiver that knows nothing of a node holds, after one of its messages, exactly the announced names, DNS servers, services, MACs and position, each with its address; the tables of other nodes are unchanged; bytes behind the message do not matter.", "quantifier": "for all lists of valid entries and all bytes that follow the message", "why_tests_cant": "The loss depends on the length of the last name modulo four and on the byte that happens to follow in the receive buffer.", "anchors": ["lib/nameservice/src/nameservice.c:encap_namemsg", "lib/nameservice/src/nameservice.c:create_packet", "lib/nameservice/src/nameservice.c:update_name_entry", "lib/nameservice/src/nameservice.c:decap_namemsg", "lib/nameservice/src/nameservice.c:insert_new_name_in_list"]}
{"id": "C96", "title": "A received nameservice message is read inside its bounds", "statement": "Processing a message reads only the bytes of the message: its outcome does not depend on what follows in the receive buffer and nothing behind the buffer is read.", "quantifier": "for all message bytes, size fields and following bytes", "why_tests_cant": "Reads behind a message stay inside the static receive buffer in nearly all runs and then go unnoticed.", "anchors": ["lib/nameservice/src/nameservice.c:update_name_entry", "lib/nameservice/src/nameservice.c:decap_namemsg", "src/parser.c:olsr_input"]}
{"id": "C97", "title": "Repeated announcements change nothing, changed ones replace the old", "statement": "Receiving the same message again leaves the tables as they are; a name that is no longer announced or has a new address is updated.", "quantifier": "for all messages, all states of the tables and any number of receptions", "why_tests_cant": "The growth of a table by one entry every two minutes is not seen in a short test.", "anchors": ["lib/nameservice/src/nameservice.c:decap_namemsg", "lib/nameservice/src/nameservice.c:insert_new_name_in_list"]}
{"id": "C98", "title": "Only well-formed entries reach the files, and every change is written", "statement": "Every entry in the tables has the type of its table, a name of at most 127 bytes without NUL, backslash and apostrophe and of the syntax of its type, so that no line of the hosts file can be forged; every change of a table sets its changed flag.", "quantifier": "for all sequences of messages with arbitrary bytes, expiries and writes of files", "why_tests_cant": "Forged names can be any bytes; the flag must be right for each of the five types.", "anchors": ["lib/nameservice/src/nameservice.c:decap_namemsg", "lib/nameservice/src/nameservice.c:free_name_entry_list", "lib/nameservice/src/nameservice.c:is_name_wellformed"]}
{"id": "C99", "title": "The resolver configuration names the three best DNS servers", "statement": "Of all announced DNS servers with a route the three with the best routes are written, the best one first; if there are fewer all are written.", "quantifier": "for all lists of candidates in any order and every ordering of routes", "why_tests_cant": "The selection is an insertion into an array with empty places; a wrong order shows only for certain arrival orders of four or more servers.", "anchors": ["lib/nameservice/src/nameservice.c:select_best_nameserver", "lib/nameservice/src/nameservice.c:write_resolv_file"]}
{"id": "C100", "title": "The block allocator hands out clean blocks that nobody uses", "statement": "After any sequence of allowed calls every allowed call succeeds without tripping an assertion or touching memory outside the blocks; an allocated block, new or recycled, is cleared and is not one in use; every block in use holds what its user has stored.", "quantifier": "for all sequences of cookie creations and deletions, allocations, frees and writes, any addresses from calloc and any list pointers in freed blocks", "why_tests_cant": "A recycled block carries old data and list pointers; an error shows only for certain orders of frees and allocations.", "anchors": ["src/olsr_cookie.c:olsr_cookie_malloc", "src/olsr_cookie.c:olsr_cookie_free", "src/olsr_cookie.c:olsr_alloc_cookie", "src/olsr_cookie.c:olsr_free_cookie"]}
{"id": "C101", "title": "The accounts of the block allocator", "statement": "The usage count is the number of blocks in use; memory is either in use or on exactly one free list, once; the free list grows only while it is shorter than 10 or a tenth of the blocks in use; a new cookie gets the smallest unused id.", "quantifier": "for all reachable states", "why_tests_cant": "A leaked or doubly listed block has no visible effect for a long time.", "anchors": ["src/olsr_cookie.c:olsr_cookie_malloc", "src/olsr_cookie.c:olsr_cookie_free", "src/olsr_cookie.c:olsr_alloc_cookie"]}
{"id": "C102", "title": "Misuse of blocks is detected", "statement": "A block that was overrun, is freed twice or is freed for the wrong cookie trips an assertion when it is freed.", "quantifier": "for all reachable states, all overruns of up to eight bytes, all blocks and cookies", "why_tests_cant": "The checks read memory that the misuse has changed in arbitrary ways; whether a double free is seen depends on the length of the free list.", "anchors": ["src/olsr_cookie.c:olsr_cookie_free", "Makefile.inc:335"]}
{"id": "C103", "title": "A tunnel exists exactly as long as a gateway is used through it", "statement": "The tunnels in the kernel are those to the gateways in use, one each with different names; a tunnel shared by both families stays until the last use ends; after a refusal nothing is left behind; cleanup removes all.", "quantifier": "for all sequences of choices and losses of gateways for both families and all refusals of the kernel", "why_tests_cant": "The reference counts depend on the interleaving of the two families and on failing system calls.", "anchors": ["src/linux/kernel_tunnel.c:olsr_os_add_ipip_tunnel", "src/linux/kernel_tunnel.c:olsr_os_del_ipip_tunnel", "src/linux/kernel_tunnel.c:olsr_os_cleanup_iptunnel", "src/gateway.c:olsr_set_inet_gateway", "src/gateway.c:removeGatewayFromList"]}
{"id": "C104", "title": "Each gateway in use has its own tunnel interface name", "statement": "With several gateways every gateway in use has exactly one of the configured names, its tunnel bears it, and a chosen gateway is never refused because of its name.", "quantifier": "for all sequences of choices and losses and all numbers of names", "why_tests_cant": "The clash needs a gateway used for both families that is displaced in one of them.", "anchors": ["src/gateway.c:find_interfaceName", "src/gateway.c:get_unused_iptunnel_name", "src/gateway.c:set_unused_iptunnel_name", "src/gateway.c:olsr_set_inet_gateway"]}
{"id": "C105", "title": "Link hysteresis announces a link by its last decisive quality", "statement": "A link is announced normally when the last quality outside of the band between the thresholds was above it; when it was below, the link is lost for 20 seconds (at most until its entry expires) and hidden afterwards; before the first decision it is lost for the validity time and then hidden.", "quantifier": "for all sequences of packets, HELLOs and timeouts, all times, qualities and thresholds", "why_tests_cant": "The status depends on the time since the last decision, up to weeks, and on the position of the wrapping clock.", "anchors": ["src/hysteresis.c:olsr_process_hysteresis", "src/link_set.c:lookup_link_status", "src/link_set.c:olsr_expire_link_hello_timer", "src/link_set.c:add_link_entry"]}
{"id": "C106", "title": "Hysteresis counts each lost packet once", "statement": "A packet whose number is k above the expected one (k below 100, modulo 65536) counts one reception and k losses, with an early stop that does not change the comparison with the low threshold; otherwise it counts one reception; a HELLO timeout counts one loss, which is not counted again.", "quantifier": "for all links, sequence numbers, gaps and qualities", "why_tests_cant": "The number of losses is found by a loop over wrapping sequence numbers.", "anchors": ["src/hysteresis.c:update_hysteresis_incoming", "src/link_set.c:olsr_expire_link_hello_timer"]}
{"id": "C107", "title": "Every message of zebra reaches the plugin", "statement": "Over successive calls zclient_read returns the bytes zebra has sent, all, in order and once, cut only between packets; it always ends; it notices when zebra closes the connection.", "quantifier": "for all sequences of framed packets, all ways to cut them into reads and all pauses between them", "why_tests_cant": "The failures need a pause within a packet or more than 65536 bytes read without a packet boundary at the end of a read.", "anchors": ["lib/quagga/src/client.c:zclient_read"]}
{"id": "C108", "title": "Zebra gets the routes of olsrd", "statement": "A packet of zpacket_route read by the rules of zebra gives back all fields of the route; for every route zebra_addroute and zebra_delroute send a message with its destination, its gateway or interface, distance and metric; the whole packet goes to the socket whatever parts it takes; the options take effect and nothing is leaked.", "quantifier": "for all protocol versions, both families, all routes, next hops, distances and all results of write", "why_tests_cant": "Encoder and decoder are in different programs, and the layout depends on version, family and flags.", "anchors": ["lib/quagga/src/packet.c:zpacket_route", "lib/quagga/src/quagga.c:zebra_addroute", "lib/quagga/src/quagga.c:zebra_delroute", "lib/quagga/src/client.c:zclient_write", "lib/quagga/src/plugin.c:zplugin_localpref"]}
{"id": "C109", "title": "The plugin reads the messages of zebra", "statement": "zparse adds and removes the HNA entries named by the messages in their order and ignores others; a message that is not well formed does no harm beyond the end of olsrd.", "quantifier": "for all sequences of messages, protocol versions and both families", "why_tests_cant": "Counts and lengths in a message decide how much memory is read and written.", "anchors": ["lib/quagga/src/parse.c:zparse", "lib/quagga/src/parse.c:zparse_route"]}
{"id": "C110", "title": "The HNA entries follow the routes of zebra", "statement": "The HNA entries are those of the configuration together with the routes zebra has, each once.", "quantifier": "for all sequences of routes added and removed, any configured entries, any number of connections", "why_tests_cant": "Duplicates and stale entries show only after certain histories, such as a restart of zebra.", "anchors": ["lib/quagga/src/parse.c:zparse", "lib/quagga/src/client.c:zclient_reconnect", "src/cfgparser/olsrd_conf.c:ip_prefix_list_add", "src/cfgparser/olsrd_conf.c:ip_prefix_list_remove"]}
{"id": "C111", "title": "The JSON writer writes the document it is told", "statement": "The text written by a properly nested sequence of calls, read by the JSON grammar, is the object with exactly the given keys, nesting, order and values, with and without pretty printing; too deep nesting stops olsrd instead of writing past its table.", "quantifier": "for all trees of objects, arrays and values of any width and depth, all keys and strings", "why_tests_cant": "Commas and depths depend on the whole history of calls; strings that break the text are rare in tests.", "anchors": ["lib/info/json_helpers.c:abuf_json_mark_object", "lib/info/json_helpers.c:abuf_json_mark_output", "lib/info/json_helpers.c:abuf_json_string", "lib/info/json_helpers.c:abuf_json_int"]}
{"id": "C112", "title": "A reply holds exactly the requested reports, none too old", "statement": "A reply of the info plugin is one JSON object: the header members followed by one report for each requested and available bit in the order of the table; each report is the current one or, when caching is on, one made for an earlier request less than the caching time ago.", "quantifier": "for all sequences of requests at any times with any reports, any caching time", "why_tests_cant": "What the cache holds depends on all earlier requests.", "anchors": ["lib/info/olsrd_info.c:send_info_from_table", "lib/info/olsrd_info.c:cache_timeout_generic"]}
{"id": "C113", "title": "HTTP replies are framed correctly", "statement": "With headers the reply splits into a status line naming the status, header fields and a body, and Content-Length is the exact number of bytes of the body; without headers the reply is the body alone.", "quantifier": "for all statuses, bodies below 2^31 bytes, plugin names, content types and dates", "why_tests_cant": "The length is patched into blanks left in the text; the places depend on all variable parts.", "anchors": ["lib/info/olsrd_info.c:send_info", "lib/info/http_headers.c:http_header_build", "lib/info/http_headers.c:http_header_adjust_content_length"]}
{"id": "C114", "title": "Only the configured hosts may ask", "statement": "A host is accepted if and only if every host is, it is the configured one, or it is the local host and that is allowed.", "quantifier": "for all addresses of both families and settings", "why_tests_cant": "A wrong operand shows only for certain combinations of setting and peer.", "anchors": ["lib/info/olsrd_info.c:ipc_action"]}
{"id": "C115", "title": "Requests are cleaned up to the path they name", "statement": "From what a client sends, an info plugin takes the first line, drops blanks around it, an optional \"GET … HTTP/1.x\" frame, trailing and repeated slashes and an optional \"/http\" or \"/plain\" prefix; the result is the path the client named, headers are wanted exactly as the frame or prefix says, and no byte outside of the buffer is touched.", "quantifier": "for all received byte sequences, all earlier buffer contents and both header settings", "why_tests_cant": "Ten in-place edits with shared length; the failing inputs consist of nothing but blanks or slashes.", "anchors": ["lib/info/olsrd_info.c:ipc_action", "lib/info/olsrd_info.c:parseRequest", "lib/info/olsrd_info.c:stripTrailingWhitespace", "lib/info/olsrd_info.c:stripTrailingSlashes", "lib/info/olsrd_info.c:checkCommandPrefixes"]}
{"id": "C116", "title": "Each client gets a prefix of its own reply, in full when it is closed", "statement": "What is sent on a connection is a prefix of the reply made for it, all of it when the connection is closed without an error; a connection is refused only when eight replies are under way; while replies are under way the write timer runs, and no slot is lost or used twice.", "quantifier": "for all sequences of requests and timer rounds with any behaviour of send and select", "why_tests_cant": "Partial writes of several clients interleave in many ways.", "anchors": ["lib/info/olsrd_info.c:write_data", "lib/info/olsrd_info.c:send_info", "lib/info/olsrd_info.c:ipc_action"]}
{"id": "C117", "title": "A request asks for the reports of all its commands", "statement": "A path of several commands asks for exactly the reports of all of them, or is unknown if one of them is; each command of jsoninfo, txtinfo and netjson asks for the reports it is documented for, no other text is a command; every report asked for is written; no request crashes the plugin.", "quantifier": "for all requests of any number of segments and slashes and all plugins", "why_tests_cant": "The commands are combined freely and mixed kinds are rarely tried.", "anchors": ["lib/info/olsrd_info.c:determine_action", "lib/info/olsrd_info.c:send_info", "lib/jsoninfo/src/olsrd_jsoninfo.c:isCommand", "lib/txtinfo/src/olsrd_txtinfo.c:isCommand", "lib/netjson/src/olsrd_netjson.c:isCommand", "lib/poprouting/src/olsrd_poprouting.c:isCommand"]}
{"id": "C118", "title": "Socket handlers are called for their own sockets while they are registered", "statement": "The scheduler calls a handler only between its registration and its removal, with its own descriptor and data, at most once per round, in order of registration, and for every descriptor that select reports and the handler asked for, whatever the handlers called before it do to the list; removed entries are freed once and never touched again; a call reports readiness that this handler asked for.", "quantifier": "for all sequences of registrations, removals, flag changes and rounds, with handlers that change the list in any way while it is walked", "why_tests_cant": "The list changes under the iteration; the interesting cases need a handler that changes other entries in the same round.", "anchors": ["src/scheduler.c:add_olsr_socket", "src/scheduler.c:remove_olsr_socket", "src/scheduler.c:poll_sockets", "src/scheduler.c:handle_fds"]}
{"id": "C119", "title": "At most one router forwards for a LAN", "statement": "After an election a router is the master on a LAN interface exactly if it has heard, on that interface and recently, no router of the same network with a smaller address; routers that all hear each other therefore agree on a single master, and an election or a received packet never ends the daemon.", "quantifier": "for all numbers of interfaces, all sequences of packets, hello timers and elections, and all sets of routers", "why_tests_cant": "The agreement is between several daemons with different histories; the expiry depends on the number of interfaces.", "anchors": ["lib/mdns/src/RouterElection.c:electTimer", "lib/mdns/src/RouterElection.c:UpdateRouterList", "lib/mdns/src/RouterElection.c:UpdateRouterList6", "lib/mdns/src/RouterElection.c:initTimer", "lib/mdns/src/RouterElection.c:helloTimer", "lib/mdns/src/RouterElection.c:set_Network_ID", "lib/mdns/src/mdns.c:DoElection"]}
{"id": "C120", "title": "A multicast DNS packet crosses the mesh unchanged", "statement": "A multicast DNS packet that is captured on one LAN comes out on the LANs of the other routers with nothing changed but time to live and header checksum, which is correct; what is captured is exactly the multicast UDP traffic of port 5353 from unfiltered hosts; messages are fully written, carry their length, and only messages of other nodes over symmetric links are passed on.", "quantifier": "for all packets, configurations, sets of interfaces and memory contents behind the message", "why_tests_cant": "Correctness of the checksum and of the bounds concerns all packets and lengths.", "anchors": ["lib/mdns/src/mdns.c:PacketReceivedFromOLSR", "lib/mdns/src/mdns.c:olsr_parser", "lib/mdns/src/mdns.c:olsr_mdns_gen", "lib/mdns/src/mdns.c:BmfPacketCaptured", "lib/mdns/src/mdns.c:DoMDNS", "lib/mdns/src/mdns.c:ip_checksum", "lib/mdns/src/mdns.c:isInFilteredList"]}
{"id": "C121", "title": "The list and the duplicate filter of the p2pd plugin", "statement": "After any sequence of appends, removals and clearings the doubly linked list reads, in both directions, as the sequence of the appended and not removed nodes, exactly these nodes are allocated, and no freed node is touched; the duplicate filter built on it calls a message a duplicate exactly if an accepted message with the same originator, type and sequence number is not older than the timeout.", "quantifier": "for all sequences of list operations and all sequences of messages and arrival times", "why_tests_cant": "Pointer manipulation at the ends and while iterating over a list that shrinks; the statement is about all histories.", "anchors": ["lib/p2pd/src/dllist.c:append_node", "lib/p2pd/src/dllist.c:remove_node", "lib/p2pd/src/dllist.c:clear_list", "lib/p2pd/src/p2pd.c:p2pd_message_seen", "lib/p2pd/src/p2pd.c:p2pd_store_message", "lib/p2pd/src/p2pd.c:p2pd_is_duplicate_message"]}
{"id": "C122", "title": "The p2pd plugin carries the packets of the configured destinations", "statement": "Exactly the UDP packets to a configured destination and port are taken from a LAN, and only such packets are sent into a LAN. A packet comes out at the other nodes as it was, except for a time to live that is one less and a header checksum that is correct, if that is configured; it is sent to the link-layer address that belongs to its destination; a packet does not circulate between two gateways of the same LAN; a copy of a recent packet is recognised; no packet ends the daemon, overruns a buffer or leaks memory.", "quantifier": "for all packets, configurations, memory contents behind the message and sequences of gateways", "why_tests_cant": "The checksum is wrong for one packet in some thousands, the loop needs two gateways and the leaks depend on memory contents.", "anchors": ["lib/p2pd/src/p2pd.c:PacketReceivedFromOLSR", "lib/p2pd/src/p2pd.c:olsr_parser", "lib/p2pd/src/p2pd.c:olsr_p2pd_gen", "lib/p2pd/src/p2pd.c:InUdpDestPortList", "lib/p2pd/src/p2pd.c:recomputeIPv4HeaderChecksum", "lib/p2pd/src/p2pd.c:P2pdPacketCaptured", "lib/p2pd/src/p2pd.c:DoP2pd", "lib/p2pd/src/p2pd.c:check_and_mark_recent_packet", "lib/p2pd/src/PacketHistory.c:PacketCrc32", "lib/p2pd/src/Packet.c:GetIpPacket"]}
{"id": "C123", "title": "Positions survive the wire format of the pud plugin", "statement": "The latitude, longitude, altitude, speed, track angle and dilution of precision that a receiver takes from a position update differ from those the sender put in by at most half a unit of the field, after limiting to the range of the field; reading a position and sending it again does not move it; the time is that of the sender if the clocks are less than half a day apart; the validity time is announced with the precision of its format; no value ends the daemon.", "quantifier": "for all values of the quantities, all floating point roundings that are near and exact where possible, all clocks and all validity times", "why_tests_cant": "The fields have up to 2^28 values and the rounding errors show only in the last unit; the failing validity times are narrow intervals below powers of two.", "anchors": ["lib/pud/wireformat/src/wireFormat.c:setValidityTime", "lib/pud/wireformat/src/wireFormat.c:getValidityTime", "lib/pud/wireformat/src/wireFormat.c:getPositionUpdateTime", "lib/pud/wireformat/src/wireFormat.c:setPositionUpdateTime", "lib/pud/wireformat/src/wireFormat.c:setPositionUpdateLatitude", "lib/pud/wireformat/src/wireFormat.c:getPositionUpdateLatitude", "lib/pud/wireformat/src/wireFormat.c:setPositionUpdateLongitude", "lib/pud/wireformat/src/wireFormat.c:getPositionUpdateLongitude", "lib/pud/wireformat/src/wireFormat.c:setPositionUpdateAltitude", "lib/pud/wireformat/src/wireFormat.c:setPositionUpdateSpeed", "lib/pud/wireformat/src/wireFormat.c:setPositionUpdateTrack", "lib/pud/wireformat/src/wireFormat.c:setPositionUpdateHdop"]}
{"id": "C124", "title": "A configured node id comes out at the receivers of the pud plugin as it was", "statement": "Every node id in the usual notation of its type and in the documented range is accepted, others are refused; the text that a receiver makes of the node id in a message is the configured text, so different ids have different texts; putting the node id into the message stays within the buffer, and reading it stays within the message.", "quantifier": "for all node id types, all configured texts, all contents of messages and of the memory behind them", "why_tests_cant": "The ids have up to 1023 characters; the losses depend on leading zeros and the overruns on lengths near the size of the buffer.", "anchors": ["lib/pud/src/configuration.c:setupNodeIdBinaryAndValidate", "lib/pud/src/configuration.c:intSetupNodeIdBinaryLongLong", "lib/pud/src/configuration.c:intSetupNodeIdBinaryDoubleLongLong", "lib/pud/src/configTools.c:readULL", "lib/pud/wireformat/src/nodeIdConversion.c:getNodeIdStringFromOlsr", "lib/pud/wireformat/src/nodeIdConversion.c:setupNodeIdBinaryDoubleLongLong", "lib/pud/wireformat/src/wireFormat.c:getPositionUpdateNodeId", "lib/pud/wireformat/src/wireFormat.c:setPositionUpdateNodeInfo"]}
{"id": "C125", "title": "The messages of the pud plugin are sound and are flooded", "statement": "A position update holds its fixed part, the type and the node id where receivers look for them, and nothing else but zeros. The datagram that a node sends to its uplink, and every datagram made of such messages, is taken apart by the receivers into exactly the position updates of their address family, in order; every datagram is processed in a finite number of steps and only bytes that were received are used. A message is recognised as recent exactly if it is among the last messages that were not. A position message is forwarded once for the neighbours that have chosen this node as their relay, whichever copy arrives first and whether or not this node understands the message.", "quantifier": "for all node ids, memory contents, datagrams, sizes of the list, sequences of messages and copies", "why_tests_cant": "Stale memory in a message is invisible to tests with cleared memory; the endless loop needs one length of 65536, and the loss of forwarding needs a certain order of copies.", "anchors": ["lib/pud/src/gpsConversion.c:gpsToOlsr", "lib/pud/src/receiver.c:txToAllOlsrInterfaces", "lib/pud/src/pud.c:packetReceivedFromDownlink", "lib/pud/src/pud.c:packetReceivedFromOlsr", "lib/pud/src/dedup.c:addToDeDup", "lib/pud/src/dedup.c:isInDeDupList"]}
{"id": "C126", "title": "The egress file is read as it is documented", "statement": "After every sequence of polls of the egress file and link events the bandwidth, path cost, network and gateway of every egress interface are those of the last entry for it in the file, and the costs are those of these parameters and the link state. A line in the documented notation is read as what it says, whatever the white space, and refused exactly if a number or an address is out of range. The caller is told exactly when the parameters of an interface changed.", "quantifier": "for all file contents, lists of interfaces, cost functions and sequences of polls and link events", "why_tests_cant": "Lines at the limit of the buffer, polls within one second and changes that leave the cost equal do not occur in hand-written files.", "anchors": ["src/egressFile.c:readEgressFile", "src/egressFile.c:readEgressFileClear", "src/egressFile.c:egressBwClear", "src/egressFile.c:egressBwCalculateCosts", "src/egressFile.c:readULL", "src/egressFile.c:stripEols", "src/gateway.c:doEgressInterface"]}
{"id": "C127", "title": "The table of an egress interface follows the egress file and the link", "statement": "After every sequence of link messages and changes of the egress file, the routing table of an egress interface holds exactly the network route and the default route that the file asks for, over the present interface index, and nothing while the interface is down; after shutdown it is empty.", "quantifier": "for all sequences of link messages, removals of routes by the kernel, file changes and answers of the operating system", "why_tests_cant": "What goes wrong needs a file change between the loss and the return of the carrier, or a link that flaps while a message is handled.", "anchors": ["src/gateway.c:configureEgressLinkRoutes", "src/gateway.c:determineEgressLinkRoute", "src/gateway.c:programRoute", "src/gateway.c:isInterfaceUp", "src/gateway.c:doEgressInterface", "src/gateway.c:doRoutesMultiGw", "src/gateway.c:olsr_shutdown_gateways"]}
{"id": "C128", "title": "Traffic leaves over the cheaper of the egress link and the smart gateway", "statement": "After every sequence of changes of the egress links, their costs, the chosen smart gateway, its costs and the state of the mesh interfaces, the best link of a multi-smart-gateway is the cheaper one of the best egress link and the smart gateway (the egress link at equal costs, the gateway only while a mesh interface is up), the bandwidth of the best egress link is announced, and the two routes that override the default route lead over the best link, or do not exist without one.", "quantifier": "for all sequences of changes and of answers of the operating system", "why_tests_cant": "The state is kept across calls and compared field by field; what goes wrong needs a gateway that changes in the egress file while its link stays the best, or a carrier that is lost at the last link.", "anchors": ["src/gateway.c:determineBestOverallLink", "src/gateway.c:determineBestOverallLinkRoutes", "src/gateway.c:setupDefaultGatewayOverrideRoutes", "src/gateway.c:doRoutesMultiGw", "src/gateway.c:determineBestEgressLink", "src/gateway.c:programRoute"]}
{"id": "C129", "title": "The mesh interfaces follow the kernel", "statement": "After every check of the interfaces, an interface that is checked is in use only if the kernel has it up with an address, with the present index, addresses, MTU and buffer size, and it is in use if it can be; a check that finds nothing new changes nothing. Links always belong to an interface in use and have its address, the sockets of an interface are bound to its address and device, and the daemon ends only if no interface is left.", "quantifier": "for every configuration, every sequence of checks, link messages, HELLO messages and timeouts, and every answer of the kernel", "why_tests_cant": "The paths for addresses that change while the daemon runs need a second address on a real interface; that links keep the address and a freed interface shows up only in what the neighbours hear afterwards.", "anchors": ["src/unix/ifnet.c:check_interface_updates", "src/unix/ifnet.c:chk_if_changed", "src/unix/ifnet.c:chk_if_up", "src/interfaces.c:olsr_remove_interface", "src/linux/kernel_routes_nl.c:netlink_process_link", "src/link_set.c:olsr_delete_link_entry_by_ip", "src/link_set.c:lookup_link_entry", "src/lq_packet.c:create_lq_hello"]}
{"id": "C130", "title": "Every interface runs with its own settings, else the defaults, else the built-in ones", "statement": "For every configuration file and command line, the interfaces of the started daemon are those named there, and each setting of each interface is the last value that the file gives it for this interface, else the last one of InterfaceDefaults, else the command line and built-in one; a link gets the multiplier configured for its address, with the interface before the defaults. The daemon refuses to start exactly if some interface would have intervals, holding times or multipliers out of range.", "quantifier": "for every list of blocks with any settings in any order, every command line, every built-in structure and every comparison of numbers", "why_tests_cant": "The merge compares bytes of two structures; that it is right depends on every statement writing both, in every order of blocks. The list of interfaces is changed by every block.", "anchors": ["src/cfgparser/oparse.y:SET_IFS_CONF", "src/cfgparser/oparse.y:lq_mult_helper", "src/cfgparser/oparse.y:ifnick", "src/cfgparser/oparse.y:ifdblock", "src/cfgparser/olsrd_conf.c:olsrd_sanity_check_cnf", "src/cfgparser/olsrd_conf.c:olsrd_sanity_check_interface_cnf", "src/main.c:set_default_ifcnfs", "src/interfaces.c:olsr_create_olsrif", "src/link_set.c:set_loss_link_multiplier"]}
{"id": "C131", "title": "The generated configuration describes the running one", "statement": "For every configuration with which the daemon started, the configuration that txtinfo, jsoninfo and httpinfo deliver is one with which the daemon starts again with the same interfaces, the same settings of each interface and the same link quality multipliers.", "quantifier": "for every configuration file and command line, every interface, setting and neighbour address", "why_tests_cant": "A round trip through two programs that were written apart: lines are left out if they have the built-in value, and the reader then fills in from the defaults of the same file. Only certain combinations of interface and defaults show the difference.", "anchors": ["src/cfgparser/cfgfile_gen.c:olsrd_write_if_autobuf", "src/cfgparser/cfgfile_gen.c:if_appendf", "src/cfgparser/cfgfile_gen.c:olsrd_write_cnf_autobuf_uncached", "src/cfgparser/olsrd_conf.c:olsrd_sanity_check_cnf"]}
{"id": "C132", "title": "The kernel settings are as before when the daemon has stopped", "statement": "When the daemon has stopped, the forwarding, redirect and spoof filter settings of the kernel, globally and of every device, are what they would be if it had not run; while it runs they have the values it needs.", "quantifier": "for all configurations, all initial settings, all sequences of interfaces brought up and removed and devices that come and go, all failures of writing", "why_tests_cant": "A single run with interfaces that stay up restores everything; the loss needs an interface that is removed or made again in between.", "anchors": ["src/linux/net.c:writeToProc", "src/linux/net.c:restoreProc", "src/linux/net.c:net_os_set_global_ifoptions", "src/linux/net.c:net_os_set_ifoptions", "src/linux/net.c:net_os_restore_ifoptions", "src/unix/ifnet.c:chk_if_up", "src/interfaces.c:olsr_remove_interface"]}
{"id": "C133", "title": "Plugin parameters arrive as they are written", "statement": "A plugin variable gets the value that its statement in the configuration file stands for, in every notation of numbers, or the daemon refuses to start; of several statements for one variable the first one counts, over all blocks of the plugin; every plugin is loaded once; saving and loading the configuration changes none of this.", "quantifier": "for all texts of values, all parameter tables with different names, all sequences of blocks and statements", "why_tests_cant": "The wrong values need numbers beyond 32 bits or a key that occurs twice, neither of which is in an example configuration.", "anchors": ["src/plugin_util.c:set_plugin_port", "src/plugin_util.c:set_plugin_int", "src/plugin_util.c:set_plugin_long", "src/plugin_util.c:set_plugin_boolean", "src/plugin_util.c:set_plugin_string", "src/plugin_loader.c:init_olsr_plugin", "src/cfgparser/oparse.y:plblock", "src/cfgparser/oparse.y:plparam", "src/cfgparser/cfgfile_gen.c:cfgfile_gen"]}
{"id": "C134", "title": "The HNA entries are the networks the configuration file names", "statement": "If a configuration file is accepted, the list of networks to announce holds, for each HNA statement of the IP version in use and in their order, the network it names (address and number of one bits of the mask, or the number written as the length), and each of them is a network address. A file with an unusable HNA statement is refused. The gateway flag is set exactly if a default route is among them.", "quantifier": "for all files (sequences of IpVersion, HNA and IPC statements), all addresses, masks and runs of digits", "why_tests_cant": "Files in use have proper masks and have IpVersion first; a mask with a hole, a leading zero or a late IpVersion is accepted without a message and changes what is announced.", "anchors": ["src/cfgparser/oparse.y:ihna4entry", "src/cfgparser/oparse.y:add_ipv6_addr", "src/cfgparser/oparse.y:iipversion", "src/cfgparser/oscan.lex:get_integer_token", "src/cfgparser/olsrd_conf.c:ip_prefix_list_add", "src/cfgparser/olsrd_conf.c:update_has_gateway_fields", "src/ipcalc.c:netmask_to_prefix"]}
{"id": "C135", "title": "The IPC front end serves those the configuration names, and only those", "statement": "A connection to the front-end port is accepted exactly if it comes from 127.0.0.1 or from a host or network of the IPC block. Messages and routes are sent only to a connection that was accepted; it is served until it goes away or another accepted one takes its place, and when it goes away its socket is closed.", "quantifier": "for all files, all IPv4 addresses of the peer, all sequences of connections (allowed or not), messages and failures", "why_tests_cant": "Tests connect from the same machine; the cut of a served front end needs a second, refused host at the same time.", "anchors": ["src/ipc_frontend.c:ipc_check_allowed_ip", "src/ipc_frontend.c:ipc_accept", "src/ipc_frontend.c:frontend_msgparser", "src/ipc_frontend.c:ipc_route_send_rtentry", "src/cfgparser/oparse.y:ipchost", "src/cfgparser/oparse.y:ipcnet", "src/ipcalc.c:ip_in_net"]}
{"id": "C136", "title": "The routes through the translation devices follow the mesh", "statement": "While both NIIT devices are up, the IPv4 routes to niit4to6 are exactly those of the IPv4-mapped routes the daemon has in the kernel, and the IPv6 routes to niit6to4 exactly the mapped HNA networks; while one is down there are none. After the end of the daemon none is left.", "quantifier": "for all initial device states, all HNA lists, all sequences of route changes and removals (succeeding or failing in the kernel), interface losses, device changes and HNA changes", "why_tests_cant": "The devices exist only with an out-of-tree kernel module; the stale routes need a particular order of interface and route events.", "anchors": ["src/olsr_niit.c:olsr_setup_niit_routes", "src/olsr_niit.c:olsr_cleanup_niit_routes", "src/olsr_niit.c:olsr_niit_handle_route", "src/olsr_niit.c:refresh_niit4to6_routes", "src/olsr_niit.c:handle_niit_ifchange", "src/process_routes.c:olsr_delete_kernel_route", "src/process_routes.c:olsr_add_kernel_route", "src/process_routes.c:olsr_delete_interface_routes"]}
{"id": "C137", "title": "The ARP entries come from the OLSR packets of the neighbours", "statement": "The packet filter lets a frame pass exactly if it is an IPv4 packet with UDP, not a later fragment, to port 698, wherever its options put the UDP header. Each frame that passes leads to one ARP entry with the source addresses of its IP and Ethernet header, in the order of arrival, and nothing else does; the entries are those of neighbours.", "quantifier": "for all frames (header options included), all sequences of arrivals and timer ticks, all outcomes of the request to the kernel", "why_tests_cant": "The filter is a program in the machine language of the kernel; a test sees only the packets of its own sender, which have a plain header and are not fragmented.", "anchors": ["lib/arprefresh/src/olsrd_arprefresh.c:olsrd_plugin_init", "lib/arprefresh/src/olsrd_arprefresh.c:olsr_arp_event"]}
{"id": "C138", "title": "The gateway filter takes the gateways out of the HNA messages", "statement": "With the filtergw plugin loaded, the HNA messages of the originators that its parameters select (those named, or with allowlist all others) are processed and forwarded without the Internet gateways they announce, and with all other networks in their order; all other messages pass unchanged; nothing outside the message is touched.", "quantifier": "for all parameter lists, all HNA messages of both IP versions with any number of entries, any following bytes in the packet", "why_tests_cant": "The entries are moved inside the receive buffer while they are read; a test would have to try all arrangements of gateways and other networks, and to look at what the other parse functions make of the message that the filter has refused.", "anchors": ["lib/filtergw/src/olsrd_filtergw.c:olsrd_filtergw_parser", "lib/filtergw/src/olsrd_filtergw.c:should_filter", "src/parser.c:parse_packet", "src/hna_set.c:olsr_input_hna"]}
{"id": "C139", "title": "dyn_gw announces the networks that the routing table holds", "statement": "After each run of its timer function the dyn_gw plugin announces exactly those of its networks to which the routing table of the kernel holds a route (up, not set by the daemon) and whose ping hosts were reachable at the last check; without ping hosts the table alone decides. The HNA entries of others stay as they are.", "quantifier": "for all parameter lists, all routing tables, all histories of timer runs and ping checks, all answers", "why_tests_cant": "It takes changes of the routing table, answers of hosts and runs of two threads in an order that a test cannot bring about; the cases that fail need a route that goes and comes back.", "anchors": ["lib/dyn_gw/src/olsrd_dyn_gw.c:olsr_event_doing_hna", "lib/dyn_gw/src/olsrd_dyn_gw.c:update_routing", "lib/dyn_gw/src/olsrd_dyn_gw.c:looped_checks", "lib/dyn_gw/src/olsrd_dyn_gw.c:set_plugin_ping"]}
{"id": "C140", "title": "dyn_gw_plain announces the Internet while there is a default route", "statement": "At any time the HNA entry for the Internet is there, once, exactly if the last routing table that the plugin could read has a default route that is up with metric 0; the other entries stay as the rest of the daemon makes them.", "quantifier": "for all entries at the start, all histories of timer runs with any routing tables (also unreadable ones) and of changes of other entries by the rest of the daemon", "why_tests_cant": "The entry is kept by a flag of the plugin and by a list that others change; a test sees a few changes of the table only.", "anchors": ["lib/dyn_gw_plain/src/olsrd_dyn_gw_plain.c:olsr_event", "lib/dyn_gw_plain/src/olsrd_dyn_gw_plain.c:check_gw", "lib/dyn_gw_plain/src/olsrd_dyn_gw_plain.c:olsrd_plugin_init"]}
{"id": "C141", "title": "The pud plugin passes a message on again only after as many others as its depth", "statement": "With the detection of duplicates on, the memory of the list of recent messages is never exceeded, and the text of a message is sent exactly if it is not a message of this node (without loopback), is not among the last n messages taken, and can be converted. Between two times that the same message is taken at least n others are.", "quantifier": "for all depths n > 0 that the configuration accepts, all settings, all series of messages", "why_tests_cant": "The list is a ring in memory; errors at its ends need more messages than a test sends, and a huge depth is not tested.", "anchors": ["lib/pud/src/dedup.c:initDeDupList", "lib/pud/src/dedup.c:addToDeDup", "lib/pud/src/dedup.c:isInDeDupList", "lib/pud/src/pud.c:packetReceivedFromOlsr"]}
{"id": "C142", "title": "The movement state of the pud plugin follows the observations with hysteresis", "statement": "The node counts as moving exactly if the position or the gateway visibly moves. What is visible of a source becomes \"moving\" or \"stationary\" when its last k observations (at least one) all say so, k being the threshold of the configuration, or, for \"moving\", when the source of information changed; otherwise it stays. Each call tells the state afterwards and whether it changed.", "quantifier": "for all thresholds, all series of observations of both sources in any order", "why_tests_cant": "The counters, the two pairs of states and the combination of the sources give more series than a test can go through.", "anchors": ["lib/pud/src/state.c:determineStateWithHysteresis", "lib/pud/src/state.c:initState", "lib/pud/src/state.c:getExternalState", "lib/pud/src/state.c:getInternalState"]}
{"id": "C143", "title": "The cluster leader of the pud plugin is the fastest gateway", "statement": "The chosen gateway can be reached, has both speeds and suits the node, and no other such gateway is faster; among equally fast ones it has the lowest address. Without such a gateway the node chooses itself. The order in which the gateways are looked at does not matter.", "quantifier": "for all gateways, all configurations, all orders", "why_tests_cant": "Ties of the speeds with addresses of the right form are needed, and combinations of five flags.", "anchors": ["lib/pud/src/uplinkGateway.c:getBestUplinkGateway", "lib/pud/src/uplinkGateway.c:gw_speed"]}
{"id": "C144", "title": "The average position of the pud plugin is that of the last positions", "statement": "No assertion fails and no memory outside of the ring is touched. The values of the average are the sums over the last n positions since the list was emptied, divided by their number; a flag is set exactly if all of them have it; time and satellites are those of the newest; signal and fix are the worst among them.", "quantifier": "for all depths n ≥ 2 (smaller ones are refused), all series of positions and of emptying the list", "why_tests_cant": "Sums are kept by adding and removing; what is left out of one of the two is seen only after the ring is full.", "anchors": ["lib/pud/src/posAvg.c:addNewPositionToAverage", "lib/pud/src/posAvg.c:addOrRemoveEntryToFromCumulativeAverage", "lib/pud/src/posAvg.c:updateCounters", "lib/pud/src/posAvg.c:determineCumulativePresentSmaskSigFix", "lib/pud/src/posAvg.c:flushPositionAverageList", "lib/pud/src/posAvg.c:initPositionAverageList"]}
{"id": "C145", "title": "The pud plugin sees movement exactly when a measure says so", "statement": "Movement is seen exactly if both positions can be used and the speed or a distance reaches its threshold, a position or elevation is new, or the distance is greater than the precisions added. Rest is seen exactly if none of this holds and a threshold and a precision could be compared. The position that is sent is the average exactly if the node moves or changes its state, there was none that could be used, or the new one lies inside of the old one.", "quantifier": "for all positions with any fields present, all configurations, all distances", "why_tests_cant": "Nine fields may be present or not in two positions, with boundaries at five comparisons.", "anchors": ["lib/pud/src/receiver.c:detemineMovingFromPosition", "lib/pud/src/receiver.c:positionValid", "lib/pud/src/receiver.c:receiverProcessIncomingEntry"]}
{"id": "C146", "title": "The parser of nmealib finds exactly the sentences of its input", "statement": "The texts that are handed on are exactly the sentences of the input that fit into the buffer, each once and in order: a dollar sign, plain characters, perhaps a star and the right checksum, and the end of the line. The pieces in which the input arrives and the former contents of the memory do not matter, and no memory outside of the buffer is touched. What the library generates is found again, and one altered character before the checksum is always noticed.", "quantifier": "for all sizes of the buffer, all contents of the memory, all inputs in any pieces", "why_tests_cant": "Every byte may arrive in any state, at any filling of the buffer; the number of inputs has no bound.", "anchors": ["lib/pud/nmealib/src/parser.c:nmeaParserInit", "lib/pud/nmealib/src/parser.c:nmeaParserReset", "lib/pud/nmealib/src/parser.c:nmeaParserProcessCharacter", "lib/pud/nmealib/src/parser.c:nmeaParserParse", "lib/pud/nmealib/src/parser.c:nmeaParserIsHexCharacter", "lib/pud/nmealib/src/validate.c:nmeaValidateIsInvalidCharacter", "lib/pud/nmealib/src/util.c:nmeaCalculateCRC", "lib/pud/nmealib/src/util.c:nmeaAppendChecksum"]}
{"id": "C147", "title": "The sanitising of nmealib gives sane information and keeps what is sane", "statement": "Afterwards every value that is present is in its range and every other one has its default; information that is sane is not changed, and doing it twice is the same as once. Tracks, satellites and the position keep their directions.", "quantifier": "for all information with any fields present, all current times", "why_tests_cant": "Fifteen fields may be present or not, with loops over values of any size and mirror images at the poles.", "anchors": ["lib/pud/nmealib/src/info.c:nmeaInfoSanitise", "lib/pud/nmealib/src/info.c:nmeaQsortSatelliteCompact"]}
{"id": "C148", "title": "The satellites in view survive the sentences that carry them", "statement": "The sentences made for a list of satellites print each of them once and in order, pass the checks of the parser, and read in their order give the same list again, whatever was there before; after the first of them there are exactly the satellites of these sentences. No sentence makes the reader touch memory outside of its list, and one that does not fit its numbers changes no satellite.", "quantifier": "for all lists of at most 72 satellites, all former contents, all numbers in a sentence", "why_tests_cant": "Lists of every length with every gap, and every combination of the numbers of a sentence.", "anchors": ["lib/pud/nmealib/src/gpgsv.c:nmeaGPGSVsatellitesToSentencesCount", "lib/pud/nmealib/src/gpgsv.c:nmeaGPGSVParse", "lib/pud/nmealib/src/gpgsv.c:nmeaGPGSVToInfo", "lib/pud/nmealib/src/gpgsv.c:nmeaGPGSVFromInfo", "lib/pud/nmealib/src/gpgsv.c:nmeaGPGSVGenerate", "lib/pud/nmealib/src/sentence.c:nmeaSentenceFromInfo"]}
{"id": "C149", "title": "Fixed point numbers are computed exactly, or the program stops", "statement": "Sums and differences of fixed point numbers are exact, products are rounded downwards and quotients towards zero; a result that does not fit stops the program instead of being wrong. Integers survive being a fixed point number. The text of a number has three digits after the point, is right up to half a thousandth, fits into its memory and stays during the next three calls.", "quantifier": "for all numbers of 64 bits, all sequences of calls", "why_tests_cant": "The errors are at the ends of a range of 2^64 numbers and at negative fractions.", "anchors": ["src/fpm.c:itofpm", "src/fpm.c:fpmtoi", "src/fpm.c:fpmadd", "src/fpm.c:fpmsub", "src/fpm.c:fpmmul", "src/fpm.c:fpmdiv", "src/fpm.c:fpmimul", "src/fpm.c:fpmmuli", "src/fpm.c:fpmidiv", "src/fpm.c:fpmtoa"]}
{"id": "C150", "title": "The lock file keeps a second daemon away", "statement": "No two daemons with the same lock file run at the same time; a daemon that runs holds the lock of its file, one that was killed keeps nobody away, and after six failed attempts a daemon gives up.", "quantifier": "for all numbers of daemons, all interleavings of their system calls, all failures to open the file, all ends and kills", "why_tests_cant": "Whether two daemons get a lock depends on the order of the system calls of several processes and on files that have lost their name.", "anchors": ["src/lock_file.c:olsr_create_lock_file", "src/lock_file.c:olsr_create_lock_file_internal", "src/lock_file.c:olsr_remove_lock_file", "src/main.c:main", "src/main.c:olsr_shutdown"]}
{"id": "C151", "title": "The host switch forwards packets with the quality that was set", "statement": "The command sets the quality of exactly the directions that it names, with wildcards and in both directions if asked, and a refused command changes nothing. A packet goes to every other client at most once; the chance in percent to be forwarded is the quality of the direction, and 100 deletes the setting.", "quantifier": "for all sequences of clients that connect and leave and of commands, all random numbers", "why_tests_cant": "Wildcards over any number of clients, and a chance that no single run shows.", "anchors": ["src/olsr_switch/link_rules.c:ohs_check_link", "src/olsr_switch/link_rules.c:get_link", "src/olsr_switch/link_rules.c:add_link", "src/olsr_switch/link_rules.c:remove_link", "src/olsr_switch/link_rules.c:ohs_delete_all_related_links", "src/olsr_switch/ohs_cmd.c:ohs_cmd_link", "src/olsr_switch/main.c:ohs_init_new_connection", "src/olsr_switch/main.c:ohs_delete_connection", "src/olsr_switch/main.c:ohs_route_data"]}
{"id": "C152", "title": "The willingness follows the power supply", "statement": "With a fixed willingness that one is announced. Otherwise the willingness is 6 on AC power, the default when nothing is known, and on a battery it is 3 above 78 percent, 2 above 26 percent and 1 below; it is always a number from 0 to 7. The percentage is what remains of the last full capacity, rounded downwards.", "quantifier": "for all contents of the files of the power supplies and batteries", "why_tests_cant": "The result depends on files of the kernel that a test machine does not have; the boundaries are at a few of all the percentages.", "anchors": ["src/olsr.c:olsr_calculate_willingness", "src/linux/apm.c:apm_read_acpi", "src/linux/apm.c:acpi_probe", "src/linux/apm.c:apm_read_apm"]}
{"id": "C153", "title": "The time and the date of a GPS sentence are read as they are written", "statement": "A time in each of the four forms (HHMMSS, HHMMSS.t, HHMMSS.hh, HHMMSS.mmm) that is a time of the day is accepted and read as that time to the nearest hundredth of a second; a date DDMMYY is read with its century. What is accepted lies in the documented ranges, other text is refused, and a valid time or date that the library prints is read back unchanged.", "quantifier": "for all strings, all times and dates", "why_tests_cant": "The cases that go wrong are a few milliseconds of every second and some years; a test takes a handful of strings.", "anchors": ["lib/pud/nmealib/src/info.c:nmeaTimeParseTime", "lib/pud/nmealib/src/info.c:nmeaTimeParseDate", "lib/pud/nmealib/src/util.c:nmeaScanf", "lib/pud/nmealib/src/util.c:nmeaStringTrim", "lib/pud/nmealib/src/validate.c:nmeaValidateTime", "lib/pud/nmealib/src/validate.c:nmeaValidateDate", "lib/pud/nmealib/src/gprmc.c:nmeaGPRMCGenerate"]}
{"id": "C154", "title": "The satellites in use are those of the last GSA sentence", "statement": "After a GSA sentence with satellites the information holds exactly these satellites, in their order and with their number; the sentence that is made from the information has the first twelve of them. A sentence is accepted exactly if all fields are there and the mode and the fix are absent or valid; absent fields leave the information alone, and a sentence comes back unchanged from the information that it was stored in.", "quantifier": "for all sequences of sentences and all states of the information", "why_tests_cant": "The error needs a sentence with fewer satellites after one with more, and looks plausible in the output.", "anchors": ["lib/pud/nmealib/src/gpgsa.c:nmeaGPGSAParse", "lib/pud/nmealib/src/gpgsa.c:nmeaGPGSAToInfo", "lib/pud/nmealib/src/gpgsa.c:nmeaGPGSAFromInfo"]}
{"id": "C155", "title": "Another node with the same address is reported, and its own messages are not", "statement": "A message with the own address is reported exactly if its sequence number was not used by this node; the own messages that come back are never reported. Every collision calls each registered handler once, in the order of registration. In an hour at most ten warnings of each kind are written, and at its end the number of those that were skipped, so that all are accounted for.", "quantifier": "for all sequences of messages, collisions, timer events and changes of the handlers", "why_tests_cant": "The errors are at single numbers of 65536, after 32768 messages, and at exactly ten warnings.", "anchors": ["src/olsr.c:olsr_is_bad_duplicate_msg_seqno", "src/olsr.c:get_msg_seqno", "src/duplicate_handler.c:olsr_test_originator_collision", "src/duplicate_handler.c:olsr_handle_hna_collision", "src/duplicate_handler.c:olsr_handle_mid_collision", "src/duplicate_handler.c:handle_duplicate_spam_timer", "src/duplicate_handler.c:olsr_add_duplicate_handler", "src/duplicate_handler.c:olsr_remove_duplicate_handler"]}
{"id": "C156", "title": "A faster or stronger wireless link is never more expensive", "statement": "The penalty of a wireless link for its rate is the missing part of the reference of 54 Mbit/s and falls with the rate; the penalty for its signal falls with the signal. A link is broken exactly if one direction has less than a tenth of the packets; otherwise its cost is finite and does not rise if any of the four values gets better. The penalties of a link are those of the station with the address of its neighbour, and none without one. The four values are read from a message as they were written.", "quantifier": "for all rates, signals, qualities, links and lists of stations", "why_tests_cant": "The errors are at rates above 54 Mbit/s, at single values of the tables, and when the last station has left.", "anchors": ["src/linux/nl80211_link_info.c:bandwidth_to_quality", "src/linux/nl80211_link_info.c:signal_to_quality", "src/linux/nl80211_link_info.c:nl80211_link_info_get", "src/linux/nl80211_link_info.c:parse_nl80211_message", "src/linux/lq_plugin_ffeth_nl80211.c:lq_calc_cost_ffeth_nl80211", "src/linux/lq_plugin_ffeth_nl80211.c:lq_serialize_hello_lq_pair_ffeth_nl80211", "src/linux/lq_plugin_ffeth_nl80211.c:lq_deserialize_hello_lq_pair_ffeth_nl80211"]}
{"id": "C157", "title": "The position file sets what its lines say, or nothing", "statement": "A line with a name, an equals sign and a value is a setting, whatever the white space around them; names and words are taken in any case of the letters. Comments and empty lines are left out. One bad line spoils the whole file; in an accepted file the last setting of a number counts and the other values stay. A file is read once for each time of modification.", "quantifier": "for all names, values, white space, lists of lines and times of modification", "why_tests_cant": "Indented lines, values with white space on either side, and errors after good lines are combinations that a test of one file does not reach.", "anchors": ["lib/pud/src/posFile.c:readPositionFile", "lib/pud/src/posFile.c:regexMatch", "lib/pud/src/posFile.h"]}
