# Design: a Lean 4 model of olsrd and its semantic properties

## What this is

`/verif/lean` contains function-by-function models of the olsrd core (C sources
under `/repo/src`, a few plugins under `/repo/lib`) and proofs about them.  The
code was *read*, never built or run.  A theorem here is a statement about the
model; the only tie between model and code is the reading recorded in the
comment of every definition (file and lines in `/repo`).

### Layout

For each area `X` there are up to four files in `lean/Verif/`:

* `XModel.lean`  – definitions only; each carries the C file/lines and the simplifications made;
* `XSpec.lean`   – a larger independent specification, where one is needed;
* `XLemmas.lean` – helper lemmas;
* `XProps.lean`  – small, independent specifications, the property theorems,
  and for each theorem a concrete `example` that meets its hypotheses.

A theorem whose name ends in `_partial` proves the property under the additional
hypothesis stated in its comment.  A theorem beside it (listed below under
"Disagreements") shows that the code violates the property without that hypothesis.

### Trusted base

* the Lean 4.33.0 kernel, and the axioms `propext`, `Classical.choice`,
  `Quot.sound` (no others: no `sorry`, no `native_decide`, no `bv_decide`,
  no user axioms).  The last section lists the axioms of every theorem.
* the reading of the C code, in particular
  * machine integers: `uintN_t` arithmetic is modelled as `Nat` with explicit
    `% 2^N` or `BitVec N` at exactly the places where the C code can wrap;
    signed overflow, out-of-range shifts, NULL dereference and out-of-bounds
    access are modelled as a distinct outcome (`none` / `.ub` / `.outside` / …);
  * 32-bit `int`, two's complement narrowing conversions (gcc/clang behaviour),
    64-bit `size_t` unless stated otherwise;
  * `olsr_malloc`/`olsr_cookie_malloc` never return NULL (they exit the process).
* external calls (kernel route changes, clock, random numbers, sockets) are
  parameters of the model: the theorems hold for every behaviour unless a
  hypothesis restricts it.

### What is not modelled at all

Configuration file grammar (flex/bison), plugin loading, HTTP/text info output
formatting, GUI/switch tools, floating-point link
quality (`lq_plugin_default_float.c`, `hysteresis.c` arithmetic), threads
(olsrd is single threaded; PUD/BMF threads excluded), Windows and BSD backends.

## Properties, models and proof methods

| id | modelled code | method |
|----|---------------|--------|
| C01, C02 | `reltime_to_me`, `me_to_reltime` (mantissa.c) with uint32 wrap and UB outcomes | finite exponent case split; arithmetic over `Nat`; negation witnesses where the naive claim fails |
| C03 | `SEQNO_GREATER_THAN`, `olsr_seqno_diff` | `omega` over `Nat` below 65536 |
| C04–C06 | `olsr_message_is_duplicate`, entry creation, cleanup (duplicate_set.c) | invariant by induction over arrival histories, refinement to a set of accepted numbers |
| C07 | `olsr_getTimestamp`, `olsr_isTimedOut`, `olsr_getTimeDue` | modular arithmetic |
| C08, C46 | timer wheel (scheduler.c): start/stop/change/walk, callbacks as arbitrary lists of timer operations | invariant over operation sequences |
| C09 | `calc_jitter` | arithmetic; the double multiplication is modelled exactly where it is exact |
| C10, C11, C47, C48 | `prefix_to_netmask`, `netmask_to_prefix`, `ip_in_net`, `is_prefix_inetgw` (ipcalc.c) | induction over bytes, finite byte table; negation witnesses |
| C12, C13 | `olsr_input`, `parse_packet` (parser.c) on the receive buffer | byte-level recursion with fuel (the remaining size, shown sufficient); comparison with an independent grammar of packets |
| C14 | `olsr_forward_message` | decision logic |
| C15, C16 | `struct netbuf` operations (net_olsr.c) | refinement to queue of messages |
| C17, C18, C66–C68 | `serialize_mid4/6`, `serialize_hna4/6`, `olsr_input_mid`, `olsr_input_hna`, smart gateway netmask bytes | round trip; byte cursor with over-read outcome |
| C19, C60, C61 | `olsr_output_lq_tc`, `calculate_border_flag` and its reading (lq_packet.c, tc_set.c) | round trip per fragment, tiling of the address range; byte memory for the border addresses |
| C20, C21 (HELLO), C69 | `create_lq_hello`, `serialize_lq_hello`, `deserialize_hello` | round trip over all fragments; byte cursor; bookkeeping of allocations |
| C21 (TC), C38, C62, C63 | `olsr_input_tc`, `olsr_tc_update_edge`, edge expiry (tc_set.c) | invariant over message histories; comparison with a set of advertised edges |
| C22–C24, C51 | lq_mpr.c, mpr.c | loop invariants over executable model; witnesses for C23/C24/C51 |
| C25, C26, C52 | olsr_spf.c | Dijkstra loop invariant against independent path specification |
| C27, C28 | routing_table.c, process_routes.c | total order; refinement to a map prefix → route |
| C29 | common/olsrd_avl.c | tree model with stored balance factors; invariant |
| C30 | common/list.c | heap model of next/prev pointers |
| C31 | gateway.c speed codec | arithmetic over all bytes and speeds |
| C32, C53, C54 | gateway_list.c, the list part of gateway.c | invariants over all operation sequences |
| C33, C34 | gateway_costs.c, gateway_default_handler.c | 64-bit arithmetic; selection loop |
| C35–C37, C50 | lq_plugin_default_{ff,ffeth,fpm}.c | arithmetic, invariants |
| C39, C58 | link_set.c, neighbor_table.c | invariant over operation histories |
| C40, C59 | mid_set.c | invariant over operation histories; object model with freed objects |
| C41, C42 | common/string_handling.c, common/autobuf.c | buffer model with out-of-bounds outcome |
| C43 | lib/bmf PacketHistory.c | refinement to a time-stamped set |
| C45 | cfgparser/olsrd_conf.c range checks | modular arithmetic |
| C49 | composition of net_olsr.c and parser.c | the two refinements composed |
| C55, C56 | gateway.c egress selection and routes | loop invariant; state invariant |
| C64, C65 | tc_set.c inverse edges | invariant over an object model with freed objects |
| C70 | lib/bmf PacketHistory.c `PacketCrc32`, Packet.c | linearity of the CRC over `BitVec`; 256-entry table by kernel evaluation |
| C71 | lib/bmf NetworkInterfaces.c `CheckAndUpdateLocalBroadcast` | one's complement arithmetic |
| C72–C74 | lib/bmf Bmf.c, NetworkInterfaces.c `FindNeighbors` | ranges of the buffer; fold invariant; composition with C43 |
| C75, C76 | lib/secure olsrd_secure.c `add_signature`, `validate_packet` | byte lists for every structure layout; digest as parameter |
| C44, C77 | lib/secure olsrd_secure.c timestamp exchange | invariant over event sequences with the messages sent as history; digest and uninitialised memory as parameters |
| C57, C80 | linux/kernel_routes_nl.c request assembly | bytes of the request against a specification of the kernel's reading; little-endian machine |
| C78 | linux/kernel_routes_nl.c `olsr_netlink_send` | queue of answers, failing system calls as input |
| C79 | linux/kernel_routes_nl.c `olsr_os_process_rt_entry` | decision logic with the kernel's answers as parameters, composed with C57 |
| C81, C82, C83 | process_package.c `process_message_neighbors`, two_hop_neighbor_table.c, neighbor_table.c, mid_set.c `insert_mid_tuple` (neighbour tables) | heap of neighbours and two-hop neighbours with freed memory as a distinct outcome; invariant over all operations; records per pair of neighbour and address through a whole message |
| C84, C85 | mpr_selector_set.c, process_package.c `lookup_mpr_status`, the choice of neighbours in lq_packet.c and packet.c, `link_changes` and ANSN in scheduler.c | event sequences; the message part is stated on the bytes (through the reader of C20) |
| C86 | lq_packet.c `olsr_output_lq_tc`, packet.c, build_msg.c (empty messages), unix/ifnet.c `max_tc_vtime` | decision logic over all generation times with the 32-bit clock of C08 |
| C87, C88, C89 | hna_set.c, routing_table.c `olsr_insert_routing_table` and `olsr_delete_routing_table`, and their callers in tc_set.c and mid_set.c | refinement: the nested lists of the HNA set against the history of announcements; prefix trees as maps; invariant over all events |
| C90, C91 | packet.c `olsr_build_hello_packet`, build_msg.c `serialize_hello4`, `serialize_hello6` | round trip through the reader of C20; the list of entries as a permutation of a specification |
| C92 | build_msg.c `serialize_tc4`, `serialize_tc6` | round trip through a reader of the format that is part of the specification (the reader of olsrd is the subject of C63) |
| C93, C94 | gateway.c `olsr_update_gateway_entry`, `olsr_delete_gateway_tree_entry`, the expiry and cleanup handlers; the calls from hna_set.c and tc_set.c | state machine of one originator with its timers; both directions between the entry and the history of events, over all event sequences |
| C95, C96, C97, C98 | lib/nameservice nameservice.c `encap_namemsg`, `create_packet`, `update_name_entry`, `decap_namemsg`, `insert_new_name_in_list`, expiry; regular expressions for services and `sscanf` checks are a parameter | round trip on bytes; reads as partial functions on the readable memory; invariant over all event sequences |
| C99 | lib/nameservice nameservice.c `select_best_nameserver`, `write_resolv_file` without the file | refinement: the array of four pointers against "the three best of a list" for every order |
| C100, C101, C102 | src/olsr_cookie.c; blocks are separate byte arrays, the links of the free list are arbitrary bytes in freed blocks | simulation between the code with heap, brands and free lists and the view of a client (blocks with contents), lifted to all reachable states |
| C103, C104 | src/linux/kernel_tunnel.c; the interface names and the users of the tunnels in src/gateway.c; routes and scripts are not modelled, a full list drops any gateway | invariants over all event sequences with a kernel that may refuse; the names as a permutation of the list of gateways |
| C105, C106 | src/hysteresis.c, its callers in src/link_set.c and `lookup_link_status`; the quality is of any type with any calculations, timers are events | refinement: the fields with 32-bit times against the last decisive evaluation in unbounded time; induction over the loop for the losses |
| C107 | lib/quagga client.c `zclient_read`; what `read` returns is arbitrary | induction over the reads with the position of the last packet boundary; `C107_hang` for every number of rounds |
| C108 | lib/quagga packet.c, quagga.c, `zclient_write`, `zplugin_localpref` | round trip through a separate decoder written after the route messages of quagga's zserv.c |
| C109, C110 | lib/quagga parse.c, `ip_prefix_list_add`/`_remove` of olsrd_conf.c; the memory of the buffer with its cleared rest | round trip from a separate encoder of zebra's messages; permutation invariant over all message sequences |
| C111 | lib/info json_helpers.c; floats as the text of `%f` | round trip through a separate JSON reader, by induction over trees of members |
| C112 | `send_info_from_table`, `cache_timeout_generic`; a report function is the tree it would write now | invariant of the cache over all request sequences |
| C113, C114 | http_headers.c, the framing part of `send_info`, the host test of `ipc_action` | round trip through a separate reader of header lines; decision logic |
| C115 | the request clean-up of `ipc_action` with the buffer as memory and reads in front of it as UB | refinement to a description of the accepted request texts |
| C116 | `write_data` and the end of `send_info`; connections are never-reused numbers | invariant over all sequences of requests and timer rounds |
| C117 | `determine_action`, `isCommand` of four plugins, the table choice of `send_info` | induction over the segments; the command tables by evaluation; `atof` only by the sign of its result |
| C118 | the socket part of scheduler.c; handlers as arbitrary lists of operations on the socket list | trace invariant over all runs; induction over the walk with the list changing under it |
| C119 | RouterElection.c and `DoElection` of the mdns plugin; addresses as byte lists in memory order | every entry of the router list is traced to the packet that made it, by induction over all histories; the decision is then a statement about packets only |
| C120 | the packet path of mdns.c; memory is a byte list, the link-layer address and the queueing are left out | the checksum through the one's complement sum; equality of all other bytes; tunnel by composing the two ends |
| C121 | dllist.c on an explicit heap with freed nodes, and the duplicate filter of p2pd.c | refinement to a list of nodes (chain predicate on the heap), lifted to all runs; the filter by an invariant over accepted messages |
| C122 | the packet path of p2pd.c; the table of recent packets is a parameter asked with the bytes its fingerprint covers | the checksum through the one's complement sum; tunnel by composing the two ends; the bound on the turns by induction over chains of gateways |
| C123 | the codec of position updates in wireFormat.c; doubles are rationals, each operation followed by a rounding that is only known to be near and to be exact on doubles | error analysis over the rationals; the validity time by the exponent found by the loop; days by case distinction |
| C124 | the node id part of configuration.c, configTools.c `readULL`, nodeIdConversion.c, and how names lie in the message (wireFormat.c, receiver.c) | round trip through `strtoull`, bytes and `snprintf` by induction on digits and bytes; finite case analysis of the types |
| C125 | the layout and padding of position updates (gpsConversion.c, wireFormat.c), the uplink and downlink datagrams (receiver.c, pud.c), dedup.c, and the result for forwarding (parser.c) | memory as a function; round trip of datagrams by induction; refinement of the ring to a history list over all sequences |
| C126 | src/egressFile.c; the regular expressions are written out as readers, `inet_pton` and `gw_costs_weigh` are parameters | round trip from a separate notation of lines with arbitrary white space; refinement: parameters after all event sequences equal those of the last entries |
| C127 | the table of one egress interface in src/gateway.c (`configureEgressLinkRoutes` and what leads to it); the kernel table as a list, the state of links and the acceptance of routes as input of every event | invariant over all event sequences against a view of what messages and file say |
| C128 | the best overall link and its two override routes in src/gateway.c; the choice among egress links is the one of C55; the kernel table as one optional route, interface state and acceptance as input of every event | invariant over all event sequences against a separate three-case specification of the best link and of the route over it |
| C129 | the mesh interfaces: src/unix/ifnet.c, `olsr_remove_interface`, `netlink_process_link`, and the links that refer to them; the answers of the kernel are input of every event, pointers are allocation numbers | agreement with the kernel after every poll by a frame argument over the list of interfaces; invariants over all event sequences; negations as runs, several of them for all continuations |
| C130 | the interface part of the configuration: blocks of oparse.y, the merge and checks of olsrd_conf.c, `-i` and the interface options of cli.c, `set_loss_link_multiplier`; the structures as bytes at their 64-bit offsets, numbers as their four bytes with arbitrary comparisons; lexer and the other statements are not modelled | refinement: the list of interfaces with two byte structures each against the statements of the file per name; induction over blocks |
| C131 | the interface part of cfgfile_gen.c on the level of statements; the text, the other statements and the cache are not modelled; printing of numbers is a parameter | round trip through the model of C130 |
| C132 | the settings under /proc in src/linux/net.c; a file is one character, failing calls are input; coupling between files in the kernel is not modelled | invariant per file between its content, its content without the daemon and the saved values, over all event sequences |
| C133 | plugin_util.c, the parameters of `init_olsr_plugin`, plugin blocks in oparse.y and cfgfile_gen.c; entries with an empty name and setters of plugins are not modelled, `strtol` and `strtoul` after the C standard | round trip from a separate notation of numerals, and only numerals are accepted; refinement of the list operations to the statements of the file |
| C134 | the HNA and IpVersion statements of oparse.y, integer tokens of oscan.lex, `ip_prefix_list_add` and the gateway flags; `inet_pton` is input, other statements are left out | refinement of the list to the statements of the file through a separate notion of what a statement names; exact condition for acceptance |
| C135 | the IPC statements of oparse.y, `ipc_check_allowed_ip`, `ipc_accept` and the sending functions of ipc_frontend.c; partial writes are not modelled | decision logic against the bits of the addresses; invariant between the socket and the last connection over all event sequences |
| C136 | olsr_niit.c and the places in process_routes.c that call it; the kernel is two sets of routes, link-local destinations and `host_emul` are left out | invariant between the sets of routes, the routing tree and the device states, over all event sequences |
| C137 | the packet filter and the timer function of lib/arprefresh, with a model of the instructions of the BPF machine it uses; interface names, VLAN tags and the limits of the socket buffer are left out | evaluation of the program for an arbitrary frame; independent construction of IPv4 frames; queue invariant over all histories |
| C138 | lib/filtergw/src/olsrd_filtergw.c on the bytes of the message, the order of the parse functions (parser.c), and which entries `olsr_input_hna` looks at; what it does with them is C87 and C66 | loop invariant on the bytes; independent construction of HNA messages |
| C139 | lib/dyn_gw/src/olsrd_dyn_gw.c for IPv4: parameters, reading of the routing table, timer function, ping checks (those of one group at once); the ping command and the end of the plugin are left out | invariant over all histories between flags and HNA entries; the table marks as a function of the table |
| C140 | lib/dyn_gw_plain/src/olsrd_dyn_gw_plain.c for IPv4, with the changes of the HNA entries by others as events | invariant over all histories |
| C141 | lib/pud/src/dedup.c with its memory, lib/pud/src/pud.c:packetReceivedFromOlsr (the conversion into text is an outcome) | refinement of the ring to the list of the last n messages |
| C142 | lib/pud/src/state.c whole | invariant between counters and the last run of observations, over all series of calls |
| C143 | lib/pud/src/uplinkGateway.c whole; the gateway tree is a list in any order | invariant of the loop |
| C144 | lib/pud/src/posAvg.c whole; exact numbers in place of double, the angles of the track as a pair of numbers | invariant between ring, counters and sums, over all series of calls |
| C145 | lib/pud/src/receiver.c `detemineMovingFromPosition`, the position update of `receiverProcessIncomingEntry`; exact numbers, distance as parameter | decision logic against separately stated measures |
| C146 | lib/pud/nmealib/src/parser.c whole, validate.c `nmeaValidateIsInvalidCharacter`, util.c checksum; the fields of a sentence are not modelled | refinement of the state machine to a grammar, over all inputs |
| C147 | lib/pud/nmealib/src/info.c `nmeaInfoSanitise` for information that is not metric, with exact numbers; the sort is stable | predicate of sane information; loops by induction |
| C148 | lib/pud/nmealib/src/gpgsv.c from the numbers read to the satellites printed; the text and the validation of a satellite are not modelled | round trip over the list of sentences, by induction on the sentences read |
| C149 | src/fpm.c and fpm.h without the conversions from and to floating point; the text of a number is its two parts | exact arithmetic with outcomes "stopped" and "undefined"; linear arithmetic |
| C150 | src/lock_file.c without the branch for Windows, and its calls in main.c; a file system of one name with inodes and the locks of fcntl | every system call a step; invariant over all interleavings |
| C151 | src/olsr_switch: link_rules.c, `ohs_cmd_link`, connections and `ohs_route_data`; not the text of commands, sockets, counters | refinement of the lists of links to a table of qualities; invariant over all operations; table of all qualities |
| C152 | src/linux/apm.c: `acpi_probe`, `apm_read_acpi`, the end of `apm_read_apm`; `olsr_calculate_willingness`; not `apm_init` and the scanning of the APM line | decision logic; induction over the files and lines; integer division |
| C153 | nmealib: `nmeaTimeParseTime`, `nmeaTimeParseDate`, their use of `nmeaScanf`, the two checks of validate.c, the time and date that gprmc.c and gpgga.c print | round trip; lemmas on digits and white space; decision logic |
| C154 | lib/pud/nmealib/src/gpgsa.c: the checks of `nmeaGPGSAParse`, `nmeaGPGSAToInfo`, `nmeaGPGSAFromInfo`; not the text and the dilution of precision | loops over arrays as functions; induction over all sequences of sentences; round trip |
| C155 | src/duplicate_handler.c; `get_msg_seqno`, `olsr_is_bad_duplicate_msg_seqno` in src/olsr.c; handlers do not change the list | arithmetic modulo 65536; traces of events; invariants over all sequences of steps |
| C156 | src/linux/nl80211_link_info.c 138-139, 180-192, 383-493; src/linux/lq_plugin_ffeth_nl80211.c 321-434; not the messages of netlink | fixed-point numbers as integers; bounds of divisions; monotonicity; round trip |
| C157 | lib/pud/src/posFile.c, posFile.h; the two regular expressions as functions; `readDouble` is a parameter; not the conversions after reading | the longest match as a recursion; lemmas on white space; induction over the lines |

The status of each property, its theorems and what is missing are in `MANIFEST.json`.

## Disagreements between code and property

Each entry names the theorem that proves it, with a concrete witness.

### Memory safety and undefined behaviour

* `C12_two_byte_datagram`, `C12_two_byte_datagram_overread`: a datagram of two bytes makes the
  parser process what an earlier datagram left in the buffer, possibly past its end.
* `C21_tc_overreads`, `C21_hello_overreads`, `C21_hello_block_overreads`: TC and HELLO messages whose
  last entry is cut short, or whose block header does not fit, are read past their end.
* `C60_writes_outside`: the border flags of a received TC message give a write before the
  address on the stack of the receiver.
* `C62_denied_garbles`, `C62_denied_overreads`: after a neighbour address on the deny list the
  link quality bytes are not skipped; the rest of the message is read out of step.
* `C63_skips_neighbours`, `C63_overreads`: an unknown neighbour in a TC message makes the reader skip bytes twice.
* `C66_mid6_overreads`: an IPv6 MID message whose size is not a multiple is read past its end.
* `C67_slash3_undefined`: announcing a smart gateway prefix 2000::/3 writes behind the netmask.
* `C59_self_alias_reads_freed`, `C59_moved_address_reads_freed`, `C59_merge_reads_freed`: MID
  messages that rename or merge neighbours lead to reads of freed neighbour entries.
* `C41_strscat_overrun`: `strscat` with a destination longer than `size` writes outside.
* `C42_overflow`, `C42_refused`, `C42_pull_unterminated`, `C42_concat_nul`: text buffers of 16 MiB
  and the functions that leave them unterminated.
* `C47_ipv6_overread`: `ip6_in_net` with a prefix length above 128.
* `C11_bogus_mask_prefix_undefined`: the value 255 stored for a bad netmask is used as prefix length.
* `C30_remove_twice`: removing a list node that is on no list dereferences NULL.
* `C38_main_zero`: a TC message before the main address is set dereferences NULL.
* `C07_time_due_overflow`, `C34_unreachable_current_overflows`, `C53_unreachable_current_overflows`:
  signed overflow.
* `C25_overflow`: with 1025 nodes of largest finite link cost the path cost wraps and a node
  is deleted from a tree it is not in.
* `C54_failed_tunnel_dangling`: a failing tunnel creation leaves the current gateway pointing
  to a freed list entry.
* `C45_count_wraps`: 257 egress interfaces are accepted where 256 is the limit of the counter.
* `C72_discloses`, `C72_leaves_buffer`, `C72_truncates`: the multicast plug-in believes the inner IP
  length; a 28-byte datagram makes it send 64 KiB of stale buffer and stack contents.
* `C70_zero_length`: an IP total length of 0 fails an assertion in debug builds.

### Wrong results

* `C01_loss_bound_fails_below_125`, `C02_reencode_not_identity`, `C31_not_monotone`: codec losses.
* `C03_not_globally_transitive`: inherent in serial number arithmetic.
* `C04_first_message_accepted_twice`: the first message of an originator is accepted twice;
  `C04_forgotten_at_clock_wrap`: entries time out early when the 32-bit clock wraps.
* `C07_time_due_inexact`: off by one across the wrap.
* `C08_lost_at_clock_wrap`: the timer walk does nothing in the tick in which the clock wraps.
* `C46_oneshot_rearm_is_lost`: a one-shot timer re-armed by its own callback is stopped again.
* `C09_jitter_out_of_range_random`: a random value above the documented range gives a negative interval.
* `C11_hole_accepted`: 255.0.255.0 is accepted as /8.
* `C13_secondary_address_processed`: own messages with a secondary interface address are processed.
* `C14_ether_ttl_not_decremented`: in Ethernet mode the hop limit is not decremented.
* `C16_second_reservation_drops_first`: a second reservation of buffer space replaces the first.
* `C17_small_buffer_loses`, `C18_8191_entries_exit`, `C19_small_buffer_aborts`, `C20_small_buffer_aborts`: generation with too small buffers.
* `C23_lq_never_selected`, `C23_rfc_asymmetric_selected`: WILL_NEVER and asymmetric neighbours become MPR.
* `C24_uncovered_optimized`, `C24_uncovered_greedy`: the RFC selection leaves two-hop neighbours uncovered.
* `C26_stale_link_wrong_hop`, `C26_stale_link_no_route`: a left-over own link misleads the route calculation.
* `C27_default_route_sticks`, `C28_linklocal_stale`, `C28_approx_stale_metric`: routes that are not the best or not updated.
* `C30_merge_prepends`: the comment says append.
* `C32_lost_route_unsorted`: a gateway that lost its route keeps its place in the ordered list.
* `C33_weighted_path_cost_wraps`, `C33_best_bandwidth_dearer`, `C34_unusable_current_kept`: gateway costs.
* `C35_fpm_usable_broken`, `C36_counter_wraps`, `C37_loss_stalls`: link quality plug-ins.
* `C38_no_edges`, `C38_thirty_three_old`, `C38_two_strays`, `C38_stale_edge_survives`: old TC messages that do
  change the topology, edges that should be replaced but stay.
* `C39_asym_expiry_keeps_sym`, `C39_interface_removal_keeps_sym`, `C39_unknown_alias_loses_sym`: neighbour
  status that disagrees with the links.
* `C43_late_prune_keeps`: beyond 24 days.
* `C45_truncated_to_reserved`, `C45_truncated_to_zero`, `C45_large_offset_outside`: policy numbers cut to 8 bits.
* `C48_any_slash3_is_gateway`: any IPv6 prefix of length 3 counts as internet gateway.
* `C51_lq_loss_not_signalled`, `C51_rfc_gain_not_signalled`: MPR changes that are not signalled.
* `C52_new_neighbour_unreachable`: a link of a new neighbour stays at infinite cost until the next change.
* `C55_first_link_unchecked`, `C56_never_blackhole`: egress selection.
* `C58_misses_symmetric`: a cheap asymmetric link hides a symmetric one.
* `C59_neighbour_without_links`: a rename leaves a neighbour without links for ever.
* `C61_little_endian`: address ranges of TC fragments are computed on host-order numbers.
* `C65_link_without_own_entry`: links are not entered in the topology before the own entry exists.
* `C67_prefix_never_learned`, `C68_ipv6_default_route`: smart gateway announcements.
* `C69_leaks`: a HELLO block of size zero leaks the neighbours read so far.
* `C70_different_packets_confused`: the fingerprint covers the first 256 bytes only.
* `C71_header_checksum_broken`, `C71_udp_checksum_invented`: checksums after rewriting a broadcast address.
* `C74_forged_suppresses`: fingerprints in encapsulation headers are believed.
* `C44_unsigned_challenge_validates`: a wrongly signed challenge makes an entry out of uninitialised memory, which may be marked valid.
* `C44_drift`: packets of any age are accepted if the offset is dragged along slowly.
* `C75_lp64_sha1_fails`: with SHA-1 and 64-bit `time_t` no signed packet verifies (structure padding).
* `C76_full_buffer_overflows`: the signature is written behind a full output buffer.
* `C77_crossed_challenges`, `C77_entry_stays`, `C77_forged_challenge_blocks`, `C77_first_seconds`: exchanges that do not complete.
* `C57_large_table_lost`: the table attribute is overwritten by the message header; `C80_rule_table_truncated`: rules use 8 bits.
* `C57_ipv6_host_route`, `C57_ipv6_prefix_32`: the test for a host route compares with 32 for IPv6 too.
* `C78_off_by_one`: sequence numbers of answers are not checked.
* `C79_delete_adds`: deleting may add a host route; `C79_fuzzy_deletion_names_gateway`: the deletion of a "similar route
  going over another gateway" names the destination as gateway.
* `C81_alias_neighbour_dangles`: `insert_mid_tuple` frees the neighbour entry of an alias without removing it from the two-hop
  neighbours; the MPR calculation that follows reads freed memory.  `C81_alias_chain_dangles`: an alias of an alias links
  a neighbour twice to a two-hop neighbour, later also a use of freed memory.
* `C82_first_time_no_timer`, `C82_stays_for_ever`: `olsr_change_timer` on a timer that does not exist; a two-hop neighbour listed once
  never times out.
* `C84_loss_keeps`: MPR selectors are not removed with the link.
* `C85_number_too_late`: the ANSN is increased after the timers have run, so a TC message generated in the same round as a change carries the old number.
  `C85_status_change`: changes of status are signalled only with TC redundancy 2.
* `C86_shorter_than_validity`: `max_tc_vtime` holds the greatest emission interval, not validity time.  `C86_sent_again`: the timer
  is compared modulo 2^32 without ever being cleared.
* `C88_expiry_loses_route`: a topology entry that times out deletes the paths of networks that are still announced; they come back only
  with the next HNA message.  `C88_host_route_lost`: the end of an HNA announcement of a host address deletes the path that the
  topology entry has for itself; nothing inserts it again.  `C88_alias_route_stays`: mid_set.c 621 adds a path to an alias that is
  registered with another host; it is not removed with the alias.
* `C89_unflagged`: `olsr_delete_tc_entry` deletes the remaining prefixes without setting a flag.
* `C90_hidden6_announced`: `serialize_hello6` does not leave out `HIDE_LINK` as `serialize_hello4` does; link type 4 spills over into the neighbour
  type, so that a neighbour that is not symmetric is announced as symmetric (link code 4) and an MPR as type 3.
* `C90_hello6_exits`: `serialize_hello6` sends what is pending only if the headers do not fit, but then demands room for a neighbour as well: with 28 to
  47 bytes left in the output buffer the daemon terminates (`check_buffspace`).
* `C91_hidden_unannounced`: a symmetric neighbour with a hidden link on the interface is not announced there at all.
* `C93_ipv6_never_expires`, `C94_ipv6_never_forgotten`: in IPv6 a gateway entry never runs out. `expire_gateway_handler` passes the length of the
  *external prefix* of the gateway (always 0, see `C67_prefix_never_learned`) as the length of the announced prefix; 0 is no prefix length of an IPv6
  gateway, so `olsr_delete_gateway_tree_entry` stops the timer and removes nothing. The gateway stays on offer until its topology entry is deleted, and after
  a restart with an older sequence number its announcements are ignored as long.
* `C93_plain_takes_away`: `olsr_delete_hna_net_entry` removes the smart gateway entry of the originator when an old *plain* 0.0.0.0/0 of the same originator
  runs out, although the smart gateway announcement is valid. The tunnel is torn down until the next announcement.
* `C94_first_counts`: of the two networks that a dual stack gateway announces in one message the second is always ignored because its sequence number is not
  newer.
* `C95_last_name_lost`, `C95_round_trip_false_nul`: the nameservice plugin pads a name to a multiple of four bytes but does not terminate it. A last name with a
  length divisible by four (or a DNS server, whose name is empty) is ignored by every receiver unless the byte behind the message happens to be 0.
* `C95_round_trip_false_prefix`: saved names are compared with `strncmp` over the length of the new name, so "web" is taken for a known "web2" and never entered.
* `C96_reads_behind`: `end_pos` is computed from the size *with* message header and with the size of a pointer instead of `struct name`, so entries are read 8
  (IPv4) or 20 (IPv6) bytes behind the message; names of earlier packets can be attributed to the originator. `C96_reads_behind_buffer` and `C96_unterminated`: at
  the end of the receive buffer the reads leave the buffer.
* `C97_macs_grow`: there is no duplicate test for MAC entries, so every received message adds another copy; the list and the MAC file grow without bound.
* `C97_nothing_withdrawn`, `C97_new_address_ignored`: withdrawn names stay as long as the node announces anything of the same type, and a new address of a known
  host name is never taken over.
* `C98_position_length`: a replaced position keeps the old length.
* `C99_fourth_line`: `write_resolv_file` writes four instead of three DNS servers; the fourth is the one that was met or displaced last.
* `C102_double_free_missed`, `C102_wrong_owner_missed`: the assertions of `olsr_cookie_free` miss a double free
  of a block that the first free gave back to the C library (free list full), and a block freed for a cookie
  with larger blocks; both read memory outside the block. `C102_no_assertions`: built with `DEBUG=0` a double free
  puts the block on the free list twice and it is handed out twice.
* `C104_two_families_clash`: an IPv6 olsrd with NIIT takes two interface names for a gateway used for both
  families (gateway.c:1566, 1620) but has one tunnel; dropping the gateway from one list frees the name that the
  tunnel still bears. The next gateway is given this name, the kernel refuses it, and this repeats as long as the
  first gateway is used for the other family.
- **C105 (stale time).** `olsr_process_hysteresis` leaves `L_LOST_LINK_time` alone while the quality is between the
  thresholds. After 2^31 ms (24.8 days) in the band the 32-bit comparison of `lookup_link_status` takes it for a time
  in the future, and a working link is announced as lost (`C105_stale`).
- **C105 (wrap).** `MIN(GET_TIMESTAMP(20 s), link_timer->timer_clock)` compares wrapped times as numbers. With the
  wrap between them the later one is taken (`C105_wrap`).
- **C105 (new link).** A new link gets `L_LOST_LINK_time` = now + validity time and is announced as lost, RFC 3626
  section 14.1 wants an expired time, so that it is not announced at all (`C105_new_link_lost`). Its quality starts at
  0.0 and not at the scaling factor.
- **C107 (fragments).** When a packet has arrived only in part, `read` fails with EAGAIN and `zclient_read` frees what
  it has read (client.c:198-208). The packet is lost and the next call starts in its middle (`C107_fragment_lost`).
- **C107 (endless loop).** `offset` has 16 bits (client.c:172). When 65537 bytes have been read without a packet
  boundary at the end of a read, the loop of client.c:213 never ends (`C107_hang`: 4096 packets of 17 bytes, as after
  a connection to a zebra with many routes). A length of zero does the same (`C107_zero_hang`), so the check of
  parse.c:178 comes too late.
- **C107 (end of file).** `read` returning 0 leaves the plugin connected (client.c:194-196): it does not notice a
  restart of zebra until a write fails (`C107_eof_missed`).
- **C108 (leak).** Without a connection `zclient_write` returns before it frees the packet (client.c:131,
  `C108_leak`). `zclient_connect` closes `zebra.sock`, which is 0 before the first connection, so it closes the
  standard input (client.c:78); not modelled.
- **C108 (LocalPref).** `zebra.flags &= ZEBRA_FLAG_SELECTED` (plugin.c:126) leaves the flags at zero
  (`C108_localpref`); `|=` must be meant.
- **C109 (memory).** `zparse_route` copies up to 32 bytes into the 16 bytes of the prefix (parse.c:99-104,
  `C109_prefix_overflow`), believes the counts of next hops (`C109_read_overflow`) and accepts IPv4 prefixes longer than
  32 (`C109_prefix_unchecked`). All this comes from zebra, a local and trusted process.
- **C110 (reconnection).** The HNA entries of an old connection are never removed ("TODO", client.c:153, 204): routes
  that zebra has lost meanwhile stay announced and the others are there twice (`C110_reconnect`).
- **C111 (no escaping).** json_helpers.c copies strings and keys as they are. A quote or a backslash in a plugin
  parameter, a device name or the file with the uuid makes the whole document invalid or changes the string
  (`C111_unescaped_negation`; `C111_string` says exactly when).
- **C112 (cached commas).** A cached report holds its leading comma. In a plugin that writes no header members and
  allows composite commands a first report taken from the cache would start with a comma; the shipped plugins avoid one
  or the other. jsoninfo's `print_interface_config` writes `interface_defaults->lq_mult` for every interface
  (olsrd_jsoninfo.c:331).
- **C114 (IPv6 local host).** olsrd_info.c:909 compares the *configured* address with ::1 instead of the peer: with
  `accept ::1` and `allowlocalhost` every host is accepted, with another address the local host is refused
  (`C114_ipv6_negation`).
- **C115 (reads in front of the request).** The loops of `stripTrailingWhitespace` and `stripTrailingSlashes`
  (olsrd_info.c:628, 640) have no lower bound: a request of blanks only or of "/" only reads (and may write)
  `req_buffer[-1]`; "GET   HTTP/1.0" makes the length wrap around and is answered with 500
  (`C115_empty_negation`). The answer 413 (957-969) is never given because the length was reset to at most 1023
  before: too long requests are cut and answered (`C115_too_large_negation`).
- **C116 (no time limit).** Eight clients that do not read their replies keep all slots forever, all others get 503
  (`C116_stalled_negation`).
- **C117 (mixed requests, crash).** "/links/olsrd.conf" is accepted but the configuration file is silently left out
  (olsrd_info.c:505-549, `C117_mixed_negation`). In poprouting a request such as "=" makes `strtok` return NULL which
  goes to `strcmp` (olsrd_poprouting.c:88-96): olsrd crashes (`C117_pop_crash`).
- **C118 (readiness of another socket).** The second loops of `poll_sockets` and `handle_fds` (scheduler.c:382-397,
  471-487) test only the bit of the descriptor: an entry registered by a handler in the same round under a reused
  descriptor number is called with the readiness of the old socket (`C118_stale_negation`), and an entry whose flags
  were disabled is called when another entry shares the descriptor (`C118_disabled_negation`).
- C119 (`lib/mdns/src/RouterElection.c`): `electTimer` counts every entry down once per interface (lines 198-237), so the life time of an entry is 10 elections divided by the number of interfaces. With six or more interfaces an entry can expire before the next hello and two routers are masters (`C119_six_negation`).
- C119: `initTimer` sets `NETWORK_ID = 1` after the configuration has been read; a configured `Network_ID` has no effect (`C119_network_negation`).
- C119: `helloTimer` reports a failed `sendto` with `walker->olsrIntf->int_name`, and `olsrIntf` is always NULL (`C119_send_negation`). A hello that arrives before `initTimer` walks an uninitialised list (`C119_early_negation`). A hello of the other address family is neither listed nor freed (`C119_leak_negation`).
- C120 (`lib/mdns/src/mdns.c`): the IPv4 header checksum is computed and stored for IPv6 packets as well; it overwrites bytes 10 and 11, part of the source address (`C120_v6_negation`).
- C120: messages with IPv6 packets are sent with 84 uninitialised stack bytes, for the size is computed with 12 + 96 instead of 24 (`C120_stack_negation`).
- C120: `stripped_len > len` is tested with an empty body; the length inside the carried packet decides how many bytes are sent into the LAN (`C120_length_negation`, `C120_read_negation`).
- C120: `DoMDNS` receives up to 2048 bytes 8 bytes into a 2048-byte buffer (`C120_overflow_negation`).
- C120: the first interface on which the router is not the master ends the loop with `return` (`C120_inactive_negation`).
- C121 (`lib/p2pd/src/dllist.c`): removing the only node leaves the tail pointing at it. Nothing reads the tail of an empty list (`C121_list`), so this is harmless (`C121_tail_negation`).
- C122 (`lib/p2pd/src/p2pd.c`): `recomputeIPv4HeaderChecksum` folds the carry once, so that the checksum is off by one if the fold carries again; `C122_checksum` says exactly when (`C122_checksum_negation`).
- C122: `check_and_mark_recent_packet` is given the packet without the encapsulation header that `GetIpPacket` skips, so that all fields are looked up 8 bytes too far: copies with another time to live are not recognised, different packets are taken for one, stale bytes count (`C122_recent_negation`), and `assert(len > 0)` ends the daemon for every IPv6 multicast packet from a link-local address (`C122_abort_negation`).
- C122: by default neither the time to live is decremented nor recent packets are recognised, so two gateways of one LAN send each packet round and round (`C122_loop_negation`).
- C122: as in the mdns plugin the inner length is trusted (`C122_length_negation`), 84 stack bytes are sent with IPv6 (`C122_stack_negation`), and the receive buffer can be overrun by 8 bytes (`C122_overflow_negation`).
- C122: IPv6 multicast packets are sent to the link-layer address 00:00:00:00:00:00 (`C122_mac_negation`); `P2pdTtl 256` makes messages with time to live 0 (`C122_ttl_negation`).
- C123: validity times just below fifteen bounds fail an assertion in `setValidityTime` and end the daemon, e.g. 47, 110 and 111 seconds (`C123_validity_negation` lists them exactly); the time is a configured update interval times a configured factor.
- C123: the setters of latitude and longitude round to the nearest unit, and the getters add another half unit "to compensate", so the error reaches a whole unit (`C123_half_negation`) and odd unit numbers move north or east each time a position is relayed (`C123_again`). The clip of the longitude uses the number of bits of the latitude and has no effect; 180 degrees east becomes 180 degrees west.
- C123: track angles outside 0..511 and negative dilutions of precision wrap around (`C123_track_negation`, `C123_hdop_negation`); a leap second comes out a day early (`C123_leap_negation`).
- C124: the halves of a UUID are printed without leading zeros and the second one at a fixed place, so a UUID that begins with a zero digit is shown without its second half (`C124_uuid_negation`); UUIDs in the usual notation with hyphens are refused.
- C124: MIP numbers 50123 and 5123 are the same on the wire (`C124_mip_negation`); `-18446744073709551615` is accepted as 1 (`C124_accept_negation`).
- C124: the room for a name is computed without the header of the message, so names of 984 characters or more (972 with IPv6) overrun the transmit buffer on the stack (`C124_dns_room`).
- C124: the reader does not compare the length of the node id with that of the message (`C124_inside_negation`).
- C125: the padding of a position update begins one byte too late (`nodeLength` counts the type byte, but the offset is taken from the id), so one byte of old memory goes out and one byte behind the message is cleared (`C125_padding_negation`).
- C125: a datagram from the downlink with the length field 65532 makes `packetReceivedFromDownlink` loop for ever, since the sum with the header size is a 16-bit 0 (`C125_hang_negation`); headers are read behind the received bytes, and lengths 65533 to 65535 pass the size check (`C125_header_negation`).
- C125: the plugin returns false for a copy it has seen, and the parser then does not forward it, so if the first copy comes from a node that has not chosen this one as its relay, the message is not forwarded for those that have; messages of an unknown version are never forwarded (`C125_flood_negation`).
- **C126, egress file.** A line longer than 254 characters is continued as a line of its own, so that the end of a long comment can be an entry (`C126_long_negation`). Entries with white space in front are comments (`C126_indent_negation`). A second change within the second of the first one is missed until the next change (`C126_stamp_negation`). A new bandwidth that leaves the costs equal is not reported, with the default `SmartGatewayDividerEtx` 0 no new bandwidth is, and the node keeps announcing the old one (`C126_notice_negation`). With that divider an egress interface that is up and not listed in the file has costs 0 and wins over all that are listed (`C126_classic_negation`).
- **C127, egress interface tables.** `programRoute` does nothing if the interface has no carrier, also for removals. The kernel keeps routes when only the carrier is lost, so the routes of a link that lost its carrier stay; if the file changes before the carrier returns, the route to the old network stays for ever (`C127_stale_negation`), and the routes survive the daemon (`C127_stop_negation`). A route that is skipped or refused when its interface comes up is not tried again, since the interface counts as up (`C127_never_negation`).
- **C128, override routes.** The routes 0.0.0.0/1 and 128.0.0.0/1 are recomputed only if the identity of the best link changes. A new gateway for that link in the egress file reaches the tables of the link but not these routes, so all traffic goes on to the old gateway (`C128_gateway_negation`). When the only link loses its carrier, the routes are forgotten without being removed (`C128_stale_negation`). A link that is chosen while its interface is down, or whose route the kernel refuses, never gets the routes (`C128_never_negation`).
- **C129, address changes.** `chk_if_changed` (ifnet.c 241-248, 274-281) stores the new address in the entry and then calls `olsr_remove_interface`, which deletes the links that have the address of the entry. The links with the old address stay, their `inter` points to freed memory (read by lq_plugin_default_ffeth.c 270 and jsoninfo), and since `lookup_link_entry` compares names they are reused for all later HELLOs. `create_lq_hello` compares the old address with the new one and sends them as unspecified links, so the neighbour never sees a symmetric link again as long as it is heard (`C129_links_negation`).
- C129: without `AllowNoInt` a new address on the only interface ends the daemon (`C129_exit_negation`), and so does an interface that comes up after another one in the configuration went down in the same interval (`C129_turn_negation`).
- C129: `chk_if_changed` ignores `IPv4SrcIp`: if it is not the first address of the interface, each check (every 2.5 s by default) removes and makes the interface anew, or ends the daemon (`C129_src_negation`).
- C129: if a device is made anew and the netlink message is lost, the index is updated but the sockets stay bound to the old device (`C129_index_negation`); if only the message about the new device is seen, there are two entries for one interface, with two sets of timers (`C129_double_negation`). The main address is never changed (`C129_main_negation`).
- C130: `Interface "a" "a" { … }` counts the name twice (`ifs_in_curr_cfg++` in `ifnick`, oparse.y) although the
  list has it once, so the statements are also applied to whatever interface is next in the list, or through a
  null pointer. `LinkQualityMult a x` twice in an interface: the list is filled from the front and
  `set_loss_link_multiplier` takes the last match, so the first statement counts; for `default` and within
  `InterfaceDefaults` it is the other way round. A multiplier of 0.0 passes the check and is then taken for
  "not found", that is 1.0. The options `-hint`, `-tcint`, `-midint`, `-hnaint`, `-bcast` fill a structure that
  `set_default_ifcnfs` only uses for interfaces without `cnf`, and `olsr_create_olsrif` always makes one.
- C131: `if_appendf` drops a line without comments if its first argument is not empty; for `LinkQualityMult` the first
  argument is the address, so the multipliers of `InterfaceDefaults` and of all interfaces but the first are missing
  in the generated configuration. A value equal to the built-in one is not written even if `InterfaceDefaults` has
  another, so the generated configuration means something else. `AutoDetectChanges` is not written at all.
  (`olsrd_write_cnf` also reports an error always, since `fwrite(buf, len, 1, fd)` returns 1.)
- **C132** `olsr_remove_interface` (src/interfaces.c:379-440) does not restore the redirect and spoof filter settings of an interface, and `net_os_restore_ifoptions` only visits the interfaces that are left. After a change of address (the interface is removed and made again) the saved values are the daemon's own, and the settings of the administrator are lost (`C132_readdress_negation`, `C132_removed_negation`). `chk_if_up` changes the settings before it makes the sockets; if that fails they are lost as well (`C132_failed_negation`).
- **C133** `set_plugin_port` and `set_plugin_int` (src/plugin_util.c:52-73, 114-131) put the result of `strtoul` or `strtol` into 32 bits before any check, so that 4294967376 is port 80 (`C133_port_negation`, `C133_int_negation`); ERANGE is not looked at (`C133_long_negation`). `plparam` (src/cfgparser/oparse.y:1765) puts each statement in front of the list: of two statements with one key the first counts, and the other one after the configuration was saved and loaded again (`C133_generated_negation`); the order of loading the plugins turns round as well (`C133_generated_order`).
- **C134** `ihna4entry` (src/cfgparser/oparse.y:890-923) does not check the result of `olsr_netmask_to_prefix`: a mask with a hole is announced as a shorter prefix (`C134_hole`), a bogus one with length 255 (`C134_bogus`). `add_ipv6_addr` (:141-170) has no check for host bits (`C134_hostbits6`). `iipversion` takes effect when it is read: IPv6 entries before it are dropped (`C134_late6`), IPv4 entries before it stay in the list of an IPv6 daemon with 12 bytes of stack memory (`C134_late4`). Integer tokens are read by `strtol` with base 0 into 32 bits: `/010` is /8 (`C134_octal`), `/4294967304` as well (`C134_wrap`). `update_has_gateway_fields` takes `::/0` for an IPv4 gateway and any /3 for an IPv6 gateway (`C134_gateway6`).
- **C135** `ipc_accept` (src/ipc_frontend.c:139-169) puts the new socket into `ipc_conn` before it checks the peer, and sets it to -1 if the peer is refused, but leaves `ipc_active`: any host can end the service of the allowed front end, whose socket is lost (`C135_cut`). `ipchost` (src/cfgparser/oparse.y:496) uses `maxplen`, 128 for an IPv6 daemon, for an IPv4 address (`C135_host6`). Masks are not checked (`C135_hole`, `C135_bogus`).
- **C136** `olsr_delete_interface_routes` (src/process_routes.c:365-407) takes destinations out of the tree without telling the NIIT code: their IPv4 routes to niit4to6 stay, also after the end (`C136_lost`). `refresh_niit4to6_routes` (src/olsr_niit.c:123-141) adds routes for all destinations in the tree, installed or not (`C136_failed`). HNA networks changed at run time are not followed (`C136_hna`). The handler is registered twice (src/olsr_niit.c:80-81); the second call finds no change.
- **C137** the filter of lib/arprefresh (olsrd_arprefresh.c:181-197) does not check the header length: with length 0 the total length field is taken for the port (`C137_header`). Neither TTL nor the destination is looked at, so that anybody can make the node bind any IP address to the MAC address of the router the packet came through (`C137_routed`). A refused `SIOCSARP` closes the socket for good (`C137_stops`).
- **C138** an HNA message with gateways only is not emptied: `olsrd_filtergw_parser` (lib/filtergw/src/olsrd_filtergw.c:224-237) returns false with the last gateway still in the message, and `parse_packet` (src/parser.c:391-401) nevertheless calls `olsr_input_hna`, so that the node uses the gateway of a filtered originator; only its neighbours do not hear of it (`C138_gateways_only`). Every IPv6 network with prefix length 3 counts as a gateway, since `memcmp` compares no byte (`C138_gateway`). `olsrd_plugin_fini` (:266-279) frees the group and goes on reading it (`C138_fini`).
- **C139** `looped_checks` (lib/dyn_gw/src/olsrd_dyn_gw.c:383-394) skips the networks that are not in the routing table; a group without any keeps its last verdict, which then holds for the route that comes back (`C139_stale`). `find_hna` (:413-428) returns the first of two equal networks, so that the second group never becomes active (`C139_twice`). The timer function (:357-362) removes every HNA entry of the network, also that of the configuration file (`C139_static`). With one `ping` parameter nothing is announced before the first check (`C139_unprobed`).
- **C141** `initDeDupList` (lib/pud/src/dedup.c:86) multiplies the depth of the configuration by the size of an entry without a check; the product overflows for depths of 2^64/20 and more, and `addToDeDup` writes outside of the memory (`C141_depth`).
- **C143** "In case of a tie, the lowest IP address wins" (lib/pud/src/uplinkGateway.c:73-74): `ip4cmp` compares words in network byte order, on a little endian machine 10.0.1.1 is lower than 10.0.0.2 (`C143_lowest`). In an IPv6 network with NIIT `eval4` makes it compare the first four bytes of IPv6 addresses (:117-120, `C143_niit`).
- **C144** `determineCumulativePresentSmaskSigFix` says that it takes the "lowest/worst value of all entries" (lib/pud/src/posAvg.c:479-491), but if both "differential" and "fix" occur it takes "differential" (`C144_sig_negation`; the comment is at 366-371). Height, DGPS age and station are never summed up, while their flags stay set: the average shows 0 (posAvg.c:572-606, `C144_rest`).
- **C147** `nmeaInfoSanitise` asks for the date where it brings the time into its range (lib/pud/nmealib/src/info.c:375): a time without a date keeps for example the hour 99 (`C147_time_negation`). It mirrors latitudes with minutes as if they were decimal (info.c:448-461): 90° 30′ becomes 89° 70′, more than 90 degrees (`C147_position_negation`). Its years 1990-2189 are not those of info.h:163 and validate.c:119-120 (1900-2089). The loops of `double` values (info.c:436-443 and others) do not end for infinite values and for those so great that subtracting 36000 does not change them (read, not modelled).
- **C148** `nmeaGPGSVToInfo` clears the satellites of all later sentences (lib/pud/nmealib/src/gpgsv.c:221-228), so sentences that arrive in another order lose satellites (`C148_order`). `nmeaGPGSVGenerate` takes the number of sentences from the pack but the number of satellites only if it is present (gpgsv.c:311-314, 326-330): the difference wraps and the loop leaves the array (`C148_generate_outside`). No caller in the library makes such a pack.
- **C149** `fpmtoa` (src/fpm.c:182) rounds the part before the point downwards, and the fraction counts upwards: −0.5 is printed as "-1.500" (`C149_text_negation`); `C149_text` shows that exactly the negative numbers with a fraction are wrong. The assertion of `fpmsub` has `<` for `<=` (fpm.c:105, `C149_difference_negation`). Those of the products compare with `(double)FPM_INT_MAX`, which is 2^63 (fpm.c:115, 141, 151), so that 2^63 overflows (`C149_product_negation`). The comment that the assertions of `fpmdiv` are always true (fpm.c:126-132) is wrong where `long` has 64 bits (`C149_quotient_negation`).
- **C150** `olsr_create_lock_file` asks for the lock only with host emulation (src/lock_file.c:152, the condition seems inverted): usual daemons run beside each other (`C150_no_lock`). With host emulation a failed attempt calls `olsr_remove_lock_file` (lock_file.c:139-142), which removes the file of the daemon that holds the lock; the next attempt, a second later, creates a new file and gets its lock (`C150_second`, `C150_exclusive_negation`). Every daemon removes the file when it ends, also one that never had the lock (main.c:332, `C150_removes`).
- **C151** The help of the host switch says that the quality is "the chance in percentage for a packet to be forwarded" (src/olsr_switch/commands.h:70), but `ohs_check_link` drops a packet if the quality is *greater* than the random number (link_rules.c:80): of the packets on a link of quality 90 eleven percent pass (`C151_chance_negation`). "To delete all links do: link * * 100" leaves the links to clients that have left (link_rules.c:99-101 has a ToDo); they are in force again when the client comes back (`C151_all_negation`).
- **C152** The comment in `olsr_calculate_willingness` says 1 below 26 percent and 2 up to 78 (src/olsr.c:478-483), the code divides by 26 (olsr.c:484): below 26 percent the willingness is 0, so that the node is never an MPR, and from 27 to 51 it is 1 (`C152_low_negation`). An unknown percentage of APM (−1) is also 0 (`C152_apm`), and a percentage below −25 becomes a number near 255 (`C152_range_negation`). `%32s` is read into arrays of 32 bytes, one too few (src/linux/apm.c:255,269,315,344); words that were not read are used (apm.c:256, 272); `bat_val * 100` overflows above 21474836 (apm.c:291) (`C152_undefined`).
- **C153** `nmeaTimeParseTime` rounds thousandths to hundredths without carry (lib/pud/nmealib/src/info.c:130): .995 to .999 give 100, which `nmeaValidateTime` refuses, so the whole RMC or GGA sentence is lost (`C153_accept_negation`). Years 1900–2089 are valid, but `year > 90` (info.c:163) makes 90 to 2090, which is refused, and dates before 1991 come back a century later (`C153_date_roundtrip_negation`). `strtoul` stops at the first letter without an error (util.c:197): "1x2y3z" is 01:02:03; a field that starts with `*` keeps its old value (util.c:360) (`C153_text_negation`).
- **C154** `nmeaGPGSAToInfo` clears only the first entry of the satellites in use: `sizeof(info->satellites.inUse[0])` instead of the size of the array (lib/pud/nmealib/src/gpgsa.c:172; info.c:329 and lib/pud/src/gpsdclient.c:514 clear it all). After a sentence with four satellites and one with a single satellite the count is 1, but three old satellites are still there and are sent on by `nmeaGPGSAFromInfo`, which takes every entry that is not 0 (`C154_to_negation`).
- **C155** `olsr_is_bad_duplicate_msg_seqno` reports a number only if it is *after* that of the next message (src/olsr.c:159): the next number itself, which was never used, is not reported (`C155_next_negation`). An own message that comes back after 32769 others is taken for one of another node (`C155_own_negation`). The limit of warnings is `++counter < 10` (src/duplicate_handler.c:103, 120, 137), so 9 are written, but the notice counts the skipped ones from 10 on (lines 62-70): one warning is in neither number (`C155_hour_negation`).
- **C156** `bandwidth_to_quality` (src/linux/nl80211_link_info.c:397-418) does not limit the ratio to 1: above 54 Mbit/s the penalty is negative and wraps around in the `uint8_t`. A link of 54.1 Mbit/s has the largest penalty of all, and one of 65 Mbit/s (802.11n) a larger one than a link of 12 Mbit/s (`C156_bandwidth_negation`). `nl80211_link_info_get` returns before it clears the penalties if there is no station at all (lines 463-466), so those of a station that has left stay (`C156_get_negation`). `parse_nl80211_message` uses `signal` and `bandwidth` uninitialised if the attribute is absent (lines 138-139, 180-187; `C156_station_undefined`).
- **C157** The expression for comments of the position file matches every line that starts with white space (`[[:space:]#]+.*`, lib/pud/src/posFile.c:66), although the one for settings allows it (line 70): an indented setting is left out without an error (`C157_indent_negation`). A file with the time of modification 0 is taken for unchanged (line 200; `C157_cache_negation`). Not modelled: `fclose` closes the descriptor, and `close(fd)` closes it again (lines 355, 368, 371).

## Axioms of each theorem

* no axioms: C01_decoder_is_rfc, C03_not_globally_transitive, C07_time_due_inexact, C08_lost_at_clock_wrap, C105_stale, C105_wrap, C108_leak, C120_stack_negation, C122_stack_negation, C122_ttl_negation, C126_notice_negation, C128_stale_negation, C135_cut, C139_verdict_stale, C141_zero, C143_lowest, C143_niit, C143_none, C144_small, C148_generate_outside, C149_text_negation, C152_low_negation, C152_range_negation, C154_to_negation, C156_bandwidth_negation, C156_get_negation, C16_second_reservation_drops_first, C17_small_buffer_loses, C31_not_monotone, C31_reencode, C33_best_bandwidth_dearer, C33_unusable_infinite, C33_weighted_path_cost_wraps, C34_unusable_current_kept, C35_fpm_usable_broken, C37_loss_stalls, C41_strscat_overrun, C43_late_prune_keeps, C44_unsigned_rejected, C75_layouts, C78_off_by_one, C84_loss_keeps, C85_number_too_late
* `propext`: C01_loss_bound_fails_below_125, C02_reencode_identity, C02_reencode_not_identity, C03_irreflexive, C102_double_free_missed, C102_no_assertions, C102_wrong_owner_missed, C107_eof_missed, C108_localpref, C109_prefix_overflow, C109_prefix_unchecked, C109_read_overflow, C114_ipv4, C114_ipv6_partial, C117_pop_crash, C118_disabled_negation, C118_stale_negation, C119_early_negation, C119_hello, C119_network_negation, C119_own, C119_send_negation, C119_six_negation, C120_forward, C120_inactive_negation, C120_undefined_negation, C121_clock_negation, C121_renew_negation, C121_tail_negation, C122_checksum_negation, C122_forward, C122_mac_negation, C125_header_negation, C126_none, C126_stamp_negation, C127_idle, C128_never_negation, C129_exit_negation, C129_turn_negation, C12_messages_unique, C12_two_byte_datagram, C12_two_byte_datagram_overread, C130_cli_negation, C130_crash_negation, C131_auto_negation, C131_back_negation, C131_lost_negation, C132_failed_negation, C132_foreign, C132_readdress_negation, C132_reappear_negation, C132_removed_negation, C132_start, C132_up, C133_generated_negation, C133_int_negation, C133_long_negation, C133_port_negation, C134_bogus, C134_gateway6, C134_hostbits6, C134_late4, C134_late6, C134_octal, C134_wrap, C135_served_partial, C136_failed, C136_hna, C136_lost, C137_dead, C137_header, C137_routed, C137_stops, C139_stale, C139_twice, C141_depth, C141_off, C141_own, C142_result, C146_no_checksum, C148_order, C149_macros, C149_product_negation, C150_attempts, C150_exclusive_negation, C150_no_lock, C153_date_roundtrip_negation, C154_from_absent, C156_get_partial, C156_roundtrip, C156_station_undefined, C156_station_zero, C156_wire, C157_no_sign, C21_hello_overreads, C21_tc_overreads, C23_lq_never_selected, C27_default_route_sticks, C28_approx_stale_metric, C28_linklocal_stale, C38_no_edges, C38_others, C38_stale_edge_survives, C38_thirty_three_old, C38_two_strays, C43_prune_exact, C44_unsigned_challenge_validates, C55_first_link_unchecked, C56_never_blackhole, C56_unwanted, C58_is_link, C58_misses_symmetric, C59_merge_reads_freed, C59_moved_address_reads_freed, C59_neighbour_without_links, C59_self_alias_reads_freed, C60_writes_outside, C61_little_endian, C62_denied_garbles, C62_denied_overreads, C63_overreads, C63_skips_neighbours, C65_link_without_own_entry, C66_mid6_overreads, C71_header_checksum_broken, C71_udp_checksum_invented, C72_discloses, C72_truncates, C73_limit_needed, C75_algorithm_ignored, C77_unvalidated_silent, C78_matched_partial, C81_alias_chain_dangles, C81_alias_neighbour_dangles, C88_expiry_loses_route, C88_host_route_lost, C89_unflagged, C91_hidden_unannounced, C93_plain_takes_away, C94_older_ignored, C96_reads_behind_buffer, C98_position_length
* `propext`, `Quot.sound`: C01_bounded_loss, C01_encoder_total, C01_saturates, C01_small_intervals, C02_monotone, C02_reencode_close, C04_first_message_accepted_twice, C04_forgotten_at_clock_wrap, C04_no_second_acceptance_partial, C06_duplicate_only_if_seen, C06_newer_never_suppressed, C07_expired_after, C07_not_expired_before, C07_time_due_close, C07_time_due_overflow, C09_jitter_out_of_range_random, C101_new_id, C104_two_families_clash, C105_new_link_lost, C105_status_partial, C107_fragment_lost, C107_zero_hang, C108_add, C108_del, C108_route, C108_write, C109_header_partial, C109_length_partial, C109_route_partial, C10_too_long_refused, C114_ipv6_negation, C116_stalled_negation, C117_composite, C117_pop_partial, C117_written_partial, C118_cleaned, C118_list, C118_remove, C118_trace, C119_active, C119_crash_partial, C119_five_partial, C119_leak_negation, C119_single, C11_bogus_mask_prefix_undefined, C11_hole_accepted, C120_length_negation, C120_overflow_negation, C120_read_negation, C120_taken, C120_v6_negation, C121_backward, C121_list, C122_abort_negation, C122_overflow_negation, C122_recent_negation, C122_sent, C122_ttl_partial, C123_leap_negation, C123_time, C124_accept_negation, C124_dns, C124_inside_negation, C124_inside_partial, C124_mip_negation, C124_no_abort, C124_uuid_negation, C124_zeros_negation, C125_dedup, C125_downlink_partial, C125_flood_negation, C125_forward_partial, C125_hang_negation, C125_layout, C125_padding_negation, C125_padding_partial, C125_relay_partial, C125_uplink, C126_classic_negation, C126_indent_negation, C126_lines_partial, C126_notice_partial, C126_poll_partial, C126_read, C126_value, C127_never_negation, C127_stale_negation, C127_stop_negation, C128_announced, C128_gateway_negation, C128_link, C128_route_partial, C128_stop_partial, C129_alone, C129_double_negation, C129_hello, C129_index_negation, C129_links_negation, C129_main_negation, C129_message, C129_quiet, C129_src_negation, C12_messages_inside, C130_again_negation, C130_cli, C130_twice_negation, C130_zero_negation, C133_string, C134_hole, C135_bogus, C135_gone, C135_hole, C135_host6, C135_only_allowed, C136_exact_partial, C136_mapped, C136_static_partial, C138_fini, C138_lists, C138_others, C139_default, C139_groups, C13_secondary_address_processed, C140_removed, C141_between, C141_sent_partial, C142_changed, C142_external, C142_internal, C144_rest, C144_sig_negation, C146_single_error, C147_position_negation, C147_time_negation, C147_time_partial, C149_quotient_integer, C149_text_stays, C14_ether_ttl_not_decremented, C14_not_forwarded_twice, C150_exclusive_partial, C150_holds, C150_killed, C150_removes, C150_second, C151_all_negation, C151_chance_negation, C151_chance_partial, C151_connect, C152_apm, C152_percent, C152_percent_edges, C153_date, C153_sane, C153_time, C154_from, C154_other, C155_hour_negation, C155_next_negation, C155_own_negation, C155_own_partial, C155_test, C156_apply, C156_bandwidth_partial, C156_signal, C156_signal_mono, C157_comment, C157_parse, C157_parse_sound, C15_output_empties, C18_8191_entries_exit, C19_fragments_partial, C19_header, C19_list, C19_small_buffer_aborts, C20_announced, C21_tc_exact, C21_tc_partial, C23_lq_always_selected, C23_rfc_always_selected, C23_rfc_asymmetric_selected, C23_rfc_willing_partial, C24_always_partial, C24_single_link_partial, C24_uncovered_greedy, C24_uncovered_optimized, C25_overflow, C25_own_links, C26_stale_link_no_route, C26_stale_link_wrong_hop, C30_merge_prepends, C31_special, C32_lost_route_unsorted, C33_no_int64_overflow, C34_unreachable_current_overflows, C35_ff_range, C35_ff_strict, C35_fpm_range_partial, C35_fpm_strict, C36_counter_wraps, C36_ffeth_boost, C36_lossless, C37_in_range, C37_loss_partial, C37_loss_stalls_from, C37_received, C39_asym_expiry_keeps_sym, C39_interface_removal_keeps_sym, C39_unknown_alias_loses_sym, C41_strscat_partial, C41_strscpy, C42_concat_nul, C42_overflow, C42_pull_unterminated, C42_refused, C43_unknown_not_seen, C45_count_wraps, C45_large_offset_outside, C45_truncated_to_reserved, C45_truncated_to_zero, C46_oneshot_rearm_is_lost, C47_ipv6_overread, C51_lq_gain_signalled_partial, C51_lq_loss_not_signalled, C51_rfc_gain_not_signalled, C51_rfc_loss_signalled_partial, C52_new_neighbour_unreachable, C53_unreachable_current_overflows, C54_failed_tunnel_dangling, C55_best_partial, C56_link_route_partial, C57_attributes, C58_best_partial, C58_none, C66_mid4, C67_prefix_never_learned, C71_multicast_untouched, C72_leaves_buffer, C72_only_received_partial, C73_captured_raw, C73_encapsulated, C73_encapsulated_from, C74_recorded, C75_lp64_sha1_fails, C75_tampering_detected, C75_verifies_partial, C76_full_buffer_overflows, C77_retry_partial, C79_bounded, C79_delete_adds, C85_status_change, C86_sent_again, C88_alias_route_stays, C90_hello6_exits, C91_announced, C92_small_buffer_exits, C93_defined, C93_expires_partial, C93_ipv6_never_expires, C93_lost, C93_on_offer_partial, C93_only_announced_partial, C93_withdrawn, C94_first_counts, C94_forgotten_partial, C94_ipv6_never_forgotten, C94_remembered, C95_round_trip_false_prefix, C96_generation_partial, C96_inside_partial, C96_own_messages_inside, C96_reads_behind, C96_unterminated, C99_fourth_line
* `propext`, `Classical.choice`, `Quot.sound`: C01_encoder_optimal, C03_asymmetric, C03_diff_spec, C03_greater_iff, C03_total, C03_transitive, C05_restart_recovers, C05_resync_recovers_faster, C07_expired_iff, C08_due_timer_fired_partial, C08_expiry_time, C08_never_early, C08_never_twice, C08_none_overdue_after_walk_partial, C09_jitter_bounds, C100_calls_succeed, C100_contents, C100_distinct, C100_new_block, C101_accounted, C101_counts, C101_free_list, C102_double_free_partial, C102_overrun_partial, C102_wrong_owner_partial, C103_cleanup, C103_none_left, C103_refusal, C103_tunnels_in_use, C104_names_partial, C104_never_refused_partial, C106_early_stop, C106_losses, C106_timeout, C107_delivery_partial, C107_hang, C109_parse_partial, C10_netmask_roundtrip, C10_prefix_roundtrip, C110_entries_partial, C110_reconnect, C111_document_partial, C111_string, C111_too_deep, C111_unescaped_negation, C112_empty_partial, C112_reply_partial, C112_uncached_partial, C113_framing, C113_plain, C113_status, C115_empty_negation, C115_request_partial, C115_too_large_negation, C116_replies, C116_slots, C117_commands, C117_mixed_negation, C118_flags, C118_own_partial, C118_round, C119_master_partial, C119_unique_partial, C11_examined_bytes_partial, C120_capture, C120_gen_partial, C120_passive, C120_tunnel_partial, C120_unpack_partial, C121_apart_partial, C121_filter_partial, C121_safe, C122_capture6_partial, C122_capture_partial, C122_checksum, C122_gen_partial, C122_length_negation, C122_loop_negation, C122_mac, C122_tunnel6_partial, C122_tunnel_partial, C122_turns_partial, C122_wanted, C122_wanted6, C123_again, C123_altitude, C123_angle_abort, C123_half_negation, C123_hdop_negation, C123_hdop_partial, C123_latitude, C123_longitude, C123_speed, C123_track_negation, C123_track_partial, C123_validity_negation, C123_validity_partial, C124_dns_room, C124_mac, C124_mip_partial, C124_number, C124_range, C124_table, C124_uuid_partial, C125_ends_partial, C126_classes, C126_line, C126_long_negation, C126_refused, C127_stop_partial, C127_table_partial, C129_exit_partial, C129_links_partial, C129_poll, C129_socket, C12_messages_partial, C130_check, C130_mark, C130_mult, C130_mult_partial, C130_values_partial, C131_mult_partial, C131_values_partial, C132_restored_partial, C133_accepted, C133_first, C133_flag, C133_generated_order, C133_generated_partial, C133_int_partial, C133_long_partial, C133_order, C133_port_partial, C133_refused, C134_accepted_partial, C134_gateway4, C134_networks_partial, C135_allowed_partial, C136_routes_partial, C136_shutdown_partial, C137_accepts_partial, C137_all_partial, C137_entry, C137_filter, C137_only_received, C137_other, C138_any, C138_filtered_partial, C138_full_fails, C138_gateway, C138_gateways_only, C139_announced_partial, C139_no_ping, C139_static, C139_table, C139_unprobed, C139_verdict_partial, C13_own_ignored_partial, C140_announced, C142_settles, C143_best_partial, C144_average, C144_fix, C144_sig_partial, C145_exclusive, C145_inside, C145_moving, C145_no_precision, C145_resting, C145_sent, C146_generated, C146_pieces, C146_sentences, C146_unique, C147_keeps, C147_position_partial, C147_sane, C147_satellites, C147_tracks, C147_twice, C148_accepted, C148_count, C148_number_only, C148_parse, C148_prefix, C148_printed, C148_refused, C148_safe, C148_transfer, C149_difference_negation, C149_difference_partial, C149_integer, C149_product_partial, C149_quotient_negation, C149_quotient_partial, C149_sum, C149_text, C149_text_fits, C14_forward_decision, C14_forwarded_copies_partial, C151_all_partial, C151_command, C151_disconnect, C151_route, C152_ac, C152_case, C152_default, C152_default_percent, C152_files, C152_no_battery, C152_number, C152_range, C152_undefined, C152_willingness_partial, C153_accept_negation, C153_accept_partial, C153_date_roundtrip_partial, C153_date_sane, C153_text_negation, C153_time_roundtrip, C153_white, C154_history, C154_parse, C154_roundtrip_partial, C154_to_partial, C155_calls, C155_hour_partial, C155_registered, C156_broken, C156_cost_ether, C156_cost_mono, C156_cost_one, C156_cost_value, C157_accept, C157_bad_line, C157_cache_negation, C157_cache_partial, C157_indent_negation, C157_key, C157_last, C157_names, C157_number, C157_other, C157_parse_longest, C157_space, C157_word, C157_words, C15_netbuf, C15_push_accepts, C15_reachable_defined, C16_bytes_left_accepted, C16_reserved_available_partial, C17_roundtrip_partial, C18_roundtrip_partial, C20_duplicates, C20_links_partial, C20_roundtrip_partial, C20_small_buffer_aborts, C21_hello_block_overreads, C21_hello_partial, C22_cheapest, C22_coverage, C22_detour, C22_only_needed, C23_lq_symmetric_partial, C24_loop_ends, C25_1024_nodes_partial, C25_shortest_partial, C26_next_hop_partial, C27_announcement_order, C27_best_partial, C27_order_independent, C28_sync_partial, C29_height, C29_refines, C29_tree, C30_refines, C30_remove_twice, C31_decode_bounds, C32_once_and_counted, C32_sorted_partial, C33_monotone_ordinary, C33_monotone_partial, C34_hysteresis_partial, C34_minimal, C35_ffeth_mono, C35_ffeth_range, C36_window_partial, C38_collects, C38_empty, C38_fragments, C38_main_zero, C38_old_ignored_partial, C38_old_run_partial, C38_replaces_partial, C38_windows, C39_bookkeeping, C39_hello_repairs, C39_link_history, C39_status_partial, C39_sym_link_partial, C40_mid_others, C40_mid_prunes, C40_mid_registers, C40_resolution, C42_content_partial, C42_step_partial, C42_terminated_partial, C43_prune_empties, C43_seen_iff, C44_drift, C44_exchange_partial, C44_slack, C44_tracking, C45_accepted_blocks_safe, C45_used_partial, C46_periodic_rearm_partial, C47_ipv4, C47_ipv6, C48_any_slash3_is_gateway, C48_gateway_prefix_partial, C49_sent_messages_received, C50_change_reported, C50_smoothed_close, C52_neighbour_reached_partial, C53_nothing_to_take, C53_takedown_partial, C54_current_listed_partial, C54_defined, C57_ipv6_host_route, C57_ipv6_prefix_32, C57_large_table_lost, C57_route_partial, C59_live_partial, C59_pointers_partial, C60_border_storage, C60_own_flags_partial, C61_consecutive, C61_tile_partial, C62_allowed_partial, C63_known_partial, C64_inverse, C64_mutual, C64_no_freed, C64_unique, C65_configured, C65_own_entry_partial, C66_hna, C66_mid6_partial, C67_announced_partial, C67_slash3_undefined, C68_ipv6_default_route, C68_window, C68_withdrawn_partial, C68_zero_speed_drops, C69_leaks, C69_no_leak_partial, C70_burst_detected, C70_defined, C70_different_packets_confused, C70_packet_unchanged, C70_table_is_crc32, C70_tail_ignored, C70_ttl_irrelevant, C70_zero_length, C71_header_checksum_partial, C71_only_destination, C71_udp_checksum_partial, C73_captured_encap, C73_captured_whole, C73_destinations, C74_forged_suppresses, C74_once, C76_room_partial, C77_crossed_challenges, C77_entry_stays, C77_exchange, C77_first_seconds, C77_forged_challenge_blocks, C79_add_acknowledged, C79_delete_acknowledged, C79_fuzzy_deletion_names_gateway, C80_address, C80_rule_partial, C80_rule_table_truncated, C81_consistent_partial, C81_deletions, C81_hello, C82_expire, C82_first_time_no_timer, C82_refresh_partial, C82_stays_for_ever, C83_best_path, C83_no_link, C84_selected, C84_selectors, C85_advertised, C85_number_partial, C85_signalled_partial, C86_empty_partial, C86_shorter_than_validity, C87_content, C87_kept, C87_message, C87_tidy, C88_announced, C88_no_stale_partial, C88_route_partial, C88_withdrawn, C89_flagged_partial, C89_new_network, C90_hidden6_announced, C90_roundtrip_partial, C91_symmetric_heard_partial, C92_roundtrip, C95_last_name_lost, C95_round_trip_false_nul, C95_round_trip_partial, C96_limit, C97_macs_grow, C97_new_address_ignored, C97_nothing_withdrawn, C97_refresh_partial, C98_changes_flagged, C98_file_current, C98_flag_means_change, C98_stored, C99_best_three_partial, C99_few
