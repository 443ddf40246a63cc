{
 "claims": [
  {
   "property": "C01",
   "status": "proved",
   "theorems": [
    "RadSim.C01_axis_beat_round_trip",
    "RadSim.C01_axis_low_bits"
   ],
   "note": "Every width, VC layout, RAD and portal id; tdest equal when the beat stays on its RAD."
  },
  {
   "property": "C02",
   "status": "partial",
   "theorems": [
    "RadSim.C02_tid_preserved_partial",
    "RadSim.C02_tid_mod",
    "RadSim.C02_tid_violated"
   ],
   "note": "False for tid >= 32 (five-bit field); proved below 32."
  },
  {
   "property": "C03",
   "status": "proved",
   "theorems": [
    "RadSim.C03_packets_well_framed"
   ],
   "note": ""
  },
  {
   "property": "C04",
   "status": "proved",
   "theorems": [
    "RadSim.C04_dest_fields_recovered",
    "RadSim.C04_bridge_rewrites_dest",
    "RadSim.C04_transport_dest_fields"
   ],
   "note": ""
  },
  {
   "property": "C05",
   "status": "proved",
   "theorems": [
    "RadSim.C05_ready_is_one_hot"
   ],
   "note": ""
  },
  {
   "property": "C06",
   "status": "partial",
   "theorems": [
    "RadSim.C06_served_when_lower_ports_idle_partial",
    "RadSim.C06_starvation_violated"
   ],
   "note": "False: fixed priority starves higher-numbered ports."
  },
  {
   "property": "C07",
   "status": "partial",
   "theorems": [
    "RadSim.C07_assert_never_fires_partial",
    "RadSim.C07_occupancy_bounded_partial",
    "RadSim.C07_reset_violated"
   ],
   "note": "Proved for runs without a mid-run reset; false with one."
  },
  {
   "property": "C08",
   "status": "proved",
   "theorems": [
    "RadSim.C08_source_lossless_ordered",
    "RadSim.C08_reset_violated",
    "RadSim.C08_reset_aborts"
   ],
   "note": "For runs without a mid-run reset; the reset behaviour is shown separately."
  },
  {
   "property": "C09",
   "status": "proved",
   "theorems": [
    "RadSim.C09_injection_obeys_flow_control"
   ],
   "note": "Private buffer policy, one adapter per buffer state, router credits only flits it was given."
  },
  {
   "property": "C10",
   "status": "proved",
   "theorems": [
    "RadSim.C10_injected_destination",
    "RadSim.C10_rad_number_aliases"
   ],
   "note": "RAD numbers below 128."
  },
  {
   "property": "C11",
   "status": "partial",
   "theorems": [
    "RadSim.C11_ejection_bounded",
    "RadSim.C11_no_drop_partial",
    "RadSim.C11_drop_violated"
   ],
   "note": "Occupancy bound proved; a flit arriving while one is held is lost, excluded when the router respects a credit bound no larger than the FIFO."
  },
  {
   "property": "C12",
   "status": "proved",
   "theorems": [
    "RadSim.C12_depacketisation_never_fails",
    "RadSim.C12_reassembly_never_mixes"
   ],
   "note": "Any interleaving of arrivals, clocks and stalls."
  },
  {
   "property": "C13",
   "status": "proved",
   "theorems": [
    "RadSim.C13_sink_lossless_ordered",
    "RadSim.C13_each_packet_one_beat"
   ],
   "note": ""
  },
  {
   "property": "C14",
   "status": "proved",
   "theorems": [
    "RadSim.C14_port_stable_until_ready"
   ],
   "note": ""
  },
  {
   "property": "C15",
   "status": "partial",
   "theorems": [
    "RadSim.C15_wide_enough_partial",
    "RadSim.C15_slices_violated"
   ],
   "note": "False for interfaces narrower than the packet: the same beat is repeated. Holds when the port is wide enough."
  },
  {
   "property": "C16",
   "status": "partial",
   "theorems": [
    "RadSim.C16_short_packets_deliverable_partial",
    "RadSim.C16_long_packets_stuck_violated"
   ],
   "note": "False for packets longer than the ejection FIFO; with shorter packets every reachable state can drain. Fairness of schedules is not modelled."
  },
  {
   "property": "C17",
   "status": "partial",
   "theorems": [
    "RadSim.C17_one_credit_per_flit_partial",
    "RadSim.C17_credit_lost_violated",
    "RadSim.MmSink.C17_aximm_credits_partial",
    "RadSim.MmSink.C17_aximm_credit_lost_violated"
   ],
   "note": "False when two adapter edges fall between NoC edges; proved when they are spaced."
  },
  {
   "property": "C18",
   "status": "proved",
   "theorems": [
    "RadSim.C18_address_survives",
    "RadSim.C18_write_data_survives",
    "RadSim.C18_read_data_survives",
    "RadSim.C18_response_survives",
    "RadSim.C18_wide_data_truncated_violated"
   ],
   "note": "Data must fit the interface width; wider data is cut off."
  },
  {
   "property": "C19",
   "status": "partial",
   "theorems": [
    "RadSim.C19_control_field_arrives_partial",
    "RadSim.C19_control_is_taken_from_user",
    "RadSim.C19_burst_control_violated"
   ],
   "note": "False: the port presents user bits as burst, size and length. The control field does arrive in the payload."
  },
  {
   "property": "C20",
   "status": "partial",
   "theorems": [
    "RadSim.C20_request_ready_one_hot",
    "RadSim.C20_response_ready_one_hot",
    "RadSim.C20_write_data_only_in_burst_partial",
    "RadSim.C20_write_data_after_burst_violated"
   ],
   "note": "One-hot and valid for every run; W only in a burst when an adapter edge separates node edges, false otherwise."
  },
  {
   "property": "C21",
   "status": "partial",
   "theorems": [
    "RadSim.C21_write_data_follows_address_partial",
    "RadSim.C21_second_aw_accepted_violated"
   ],
   "note": "W follows the last AW; a second AW is accepted before the last W, so the second half is false."
  },
  {
   "property": "C22",
   "status": "partial",
   "theorems": [
    "RadSim.C22_one_packet_per_request_partial",
    "RadSim.C22_all_requests_leave_partial",
    "RadSim.C22_integer_ratio_partial",
    "RadSim.C22_one_packet_per_response_partial",
    "RadSim.C22_back_to_back_lost_violated",
    "RadSim.C22_fractional_ratio_duplicates_violated"
   ],
   "note": "Proved for integer ratios 2..256 and more generally under a gap condition on the clocks; false for ratio 1 and for ratio 2.5."
  },
  {
   "property": "C23",
   "status": "proved",
   "theorems": [
    "RadSim.C23_request_type_recovered",
    "RadSim.C23_response_type_recovered",
    "RadSim.C23_flit_type_recovered"
   ],
   "note": "Disjoint ranges, channel numbers below 8."
  },
  {
   "property": "C24",
   "status": "partial",
   "theorems": [
    "RadSim.Design.C24_address_decodes_to_node_partial",
    "RadSim.Design.C24_apertures_disjoint",
    "RadSim.Design.C24_port_base_is_node_base",
    "RadSim.Design.C24_two_nocs_violated",
    "RadSim.Design.C24_unequal_rads_violated",
    "RadSim.Design.C24_single_node_violated"
   ],
   "note": "Proved for one NoC per RAD when the node count needs as many bits as that of the last RAD of the cluster (in particular equal RADs); false with several NoCs or RADs of different size; apertures are always disjoint."
  },
  {
   "property": "C25",
   "status": "partial",
   "theorems": [
    "RadSim.Design.C25_interface_ids_dense_partial",
    "RadSim.Design.C25_duplicate_port_violated",
    "RadSim.Design.C25_aximm_module_line_violated"
   ],
   "note": "Proved when no port is placed twice; false otherwise."
  },
  {
   "property": "C26",
   "status": "proved",
   "theorems": [
    "RadSim.InterRad.C26_in_order_no_loss",
    "RadSim.InterRad.C26_every_beat_arrives",
    "RadSim.InterRad.C26_fails_only_for_unknown_rad",
    "RadSim.InterRad.C26_unknown_rad_violated"
   ],
   "note": "All interleavings of beats and stalls; a beat to an unknown RAD number is undefined behaviour, shown separately."
  },
  {
   "property": "C27",
   "status": "proved",
   "theorems": [
    "RadSim.InterRad.C27_latency",
    "RadSim.InterRad.C27_never_early"
   ],
   "note": ""
  },
  {
   "property": "C28",
   "status": "partial",
   "theorems": [
    "RadSim.InterRad.C28_ready_cycles_per_window_partial",
    "RadSim.InterRad.C28_beats_per_window_partial",
    "RadSim.InterRad.C28_first_window_violated"
   ],
   "note": "Proved for aligned windows after the first; the first window offers one ready cycle more (witness)."
  },
  {
   "property": "C29",
   "status": "partial",
   "theorems": [
    "RadSim.Portal.C29_lossless_queue",
    "RadSim.Portal.C29_stable_until_accepted",
    "RadSim.Portal.C29_drains",
    "RadSim.Portal.C29_reset_to_bridge_lossless",
    "RadSim.Portal.C29_id_dropped_violated",
    "RadSim.Portal.C29_reset_duplicates_violated"
   ],
   "note": "Order, number and stability for every run; the tid is not carried and a reset during operation duplicates beats."
  },
  {
   "property": "C30",
   "status": "proved",
   "theorems": [
    "RadSim.Telemetry.C30_identifiers_unique",
    "RadSim.Telemetry.C30_record_is_faithful",
    "RadSim.Telemetry.C30_latency_nonneg"
   ],
   "note": ""
  },
  {
   "property": "C31",
   "status": "partial",
   "theorems": [
    "RadSim.Telemetry.C31_flow_totals_partial",
    "RadSim.Telemetry.C31_total_conserved_partial",
    "RadSim.Telemetry.C31_defined_iff_in_range",
    "RadSim.Telemetry.C31_overflow_violated",
    "RadSim.Telemetry.C31_two_rads_violated"
   ],
   "note": "Row totals are proved modulo 2^32 and in full below 2^32 bits; the 32-bit sum wraps above, and RADs of a cluster share rows because the RAD is not part of the key."
  },
  {
   "property": "C32",
   "status": "proved",
   "theorems": [
    "RadSim.Config.C32_read_gives_last_write",
    "RadSim.Config.C32_writes_accepted_iff"
   ],
   "note": ""
  },
  {
   "property": "C33",
   "status": "partial",
   "theorems": [
    "RadSim.Dram.C33_channel_faithful_partial",
    "RadSim.Dram.C33_translation_injective_partial",
    "RadSim.Dram.C33_three_channels_violated"
   ],
   "note": "Proved when all organisation numbers are powers of two, the bus width a multiple of 8 and the capacity at most 2^64; false with three channels."
  },
  {
   "property": "C34",
   "status": "proved",
   "theorems": [
    "RadSim.MemCtrl.C34_responses_in_request_order",
    "RadSim.MemCtrl.C34_every_read_answered",
    "RadSim.MemCtrl.C34_every_read_can_finish",
    "RadSim.MemCtrl.C34_reset_violated"
   ],
   "note": "Every DRAM completion order, process order and stall pattern, runs without a mid-run reset; the reset behaviour is shown separately. Completeness assumes the DRAM completes only what it was given."
  },
  {
   "property": "C35",
   "status": "partial",
   "theorems": [
    "RadSim.MemCtrl.C35_read_returns_latest_write_partial",
    "RadSim.MemCtrl.C35_read_sees_acknowledged_writes",
    "RadSim.MemCtrl.C35_out_of_order_writes_violated",
    "RadSim.MemCtrl.C35_wide_beats_violated"
   ],
   "note": "Proved relative to the completion order; which data a completed write carries is right when the DRAM completes writes in issue order (which C86 shows of a channel) and beats are not wider than words (otherwise false, witnesses)."
  },
  {
   "property": "C36",
   "status": "partial",
   "theorems": [
    "RadSim.MemCtrl.C36_no_underflow_partial",
    "RadSim.MemCtrl.C36_queues_bounded_partial",
    "RadSim.MemCtrl.C36_single_word_capacity",
    "RadSim.MemCtrl.C36_burst_overflow_violated",
    "RadSim.MemCtrl.C36_data_without_address_violated",
    "RadSim.MemCtrl.C36_front_of_empty_violated"
   ],
   "note": "Bounds include the burst size (a burst overshoots the capacity, witness); no pop of an empty queue with a well-behaved environment; the read of front() on an empty queue in line 202 is reachable (witness)."
  },
  {
   "property": "C37",
   "status": "partial",
   "theorems": [
    "RadSim.MemCtrl.C37_burst_covers_exactly_partial",
    "RadSim.MemCtrl.C37_narrow_transfer_violated"
   ],
   "note": "Proved when the beat size is a multiple of the word; narrow beats access too much."
  },
  {
   "property": "C38",
   "status": "proved",
   "theorems": [
    "RadSim.Routing.C38_symmetric",
    "RadSim.Routing.C38_positive",
    "RadSim.Routing.C38_triangle",
    "RadSim.Routing.C38_counts_routers"
   ],
   "note": "Also that the count is one exactly for equal nodes and the triangle inequality."
  },
  {
   "property": "C39",
   "status": "proved",
   "theorems": [
    "RadSim.Routing.C39_minimal",
    "RadSim.Routing.C39_delivers",
    "RadSim.Routing.C39_rectangle"
   ],
   "note": "Any radix and dimension, any virtual channel grants."
  },
  {
   "property": "C40",
   "status": "proved",
   "theorems": [
    "RadSim.Routing.C40_no_deadlock",
    "RadSim.Routing.C40_acyclic"
   ],
   "note": "Both as acyclic dependencies and as progress of some packet in every set."
  },
  {
   "property": "C41",
   "status": "proved",
   "theorems": [
    "RadSim.C41_occupancy_is_sent_minus_credited",
    "RadSim.C41_legal_sender_never_errs",
    "RadSim.C41_misuse_is_caught",
    "RadSim.C41_zero_buf_size_violated"
   ],
   "note": "Private buffer policy."
  },
  {
   "property": "C42",
   "status": "proved",
   "theorems": [
    "RadSim.Arb.C42_highest_priority",
    "RadSim.Arb.C42_round_robin",
    "RadSim.Arb.C42_matrix"
   ],
   "note": "Round robin, matrix and trees of any depth over them, after any history of rounds. The priority arbiter of the event router is not covered."
  },
  {
   "property": "C43",
   "status": "proved",
   "theorems": [
    "RadSim.Arb.C43_no_starvation"
   ],
   "note": "Every configurable arbiter, for any requests of the other inputs."
  },
  {
   "property": "C44",
   "status": "partial",
   "theorems": [
    "RadSim.Alloc.C44_islip",
    "RadSim.Alloc.C44_pim",
    "RadSim.Alloc.C44_lonely_output",
    "RadSim.Alloc.C44_separable",
    "RadSim.Alloc.C44_wavefront",
    "RadSim.Alloc.C44_select_partial",
    "RadSim.Alloc.C44_select_violated"
   ],
   "note": "Any history of cycles from construction. False for the select allocator with several iterations, which gives one input to two outputs (witness)."
  },
  {
   "property": "C45",
   "status": "proved",
   "theorems": [
    "RadSim.Alloc.C45_wavefront_maximal"
   ],
   "note": "Any sizes, any history of arrivals with replacement, with or without skipping diagonals."
  },
  {
   "property": "C46",
   "status": "partial",
   "theorems": [
    "RadSim.Channel.C46_channel_delay",
    "RadSim.Channel.C46_channel_partial",
    "RadSim.Channel.C46_channel_violated",
    "RadSim.Channel.C46_channel_wrap_violated"
   ],
   "note": "The delay is the latency only for a latency of at most 2 or a period of 1 ps; in general it is one cycle and the latency minus one picoseconds. Items get stuck when the time in int wraps."
  },
  {
   "property": "C47",
   "status": "partial",
   "theorems": [
    "RadSim.Dram.C47_fields_in_range_partial",
    "RadSim.Dram.C47_fields_determine_address_partial",
    "RadSim.Dram.C47_every_location_partial",
    "RadSim.Dram.C47_three_ranks_violated"
   ],
   "note": "Proved for every field order when all organisation numbers are powers of two; false with three ranks."
  },
  {
   "property": "C48",
   "status": "partial",
   "theorems": [
    "RadSim.DramSim.C48_ready_applies",
    "RadSim.DramSim.C48_abort",
    "RadSim.DramSim.C48_no_abort",
    "RadSim.DramSim.C48_legal",
    "RadSim.DramSim.C48_spaced_partial",
    "RadSim.DramSim.C48_bus",
    "RadSim.DramSim.C48_row_cycle_partial",
    "RadSim.DramSim.C48_controller_legal",
    "RadSim.DramSim.C48_controller_spaced_partial",
    "RadSim.DramSim.C48_bank_refresh_violated",
    "RadSim.DramSim.C48_row_cycle_violated",
    "RadSim.DramSim.C48_wake_violated"
   ],
   "note": "Any sequence of requests. All distances of the list Rule and the data bus; false for the time of a bank refresh, for the row cycle before a refresh with auto-precharge, and waking a rank from self-refresh ends the program."
  },
  {
   "property": "C49",
   "status": "proved",
   "theorems": [
    "RadSim.DramSim.C49_four_activations",
    "RadSim.DramSim.C49_thirty_two_activations",
    "RadSim.DramSim.C49_controller_activations"
   ],
   "note": "Any sequence of requests; parameters in a sane range, clock below 2^63."
  },
  {
   "property": "C50",
   "status": "partial",
   "theorems": [
    "RadSim.DramSim.C50_no_exit",
    "RadSim.DramSim.C50_runs",
    "RadSim.DramSim.C50_at_most_once",
    "RadSim.DramSim.C50_writes_returned",
    "RadSim.DramSim.C50_all_returned_partial",
    "RadSim.DramSim.Example.C50_self_refresh_violated",
    "RadSim.DramSim.Example.C50_divide_violated",
    "RadSim.DramSim.Example.C50_read_lost_violated",
    "RadSim.DramSim.Example.C50_drain_violated"
   ],
   "note": "At most once, and writes in the second cycle, for every configuration. Exactly once when the queues are empty, unless two commands are issued per cycle with two ranks: then a read can be lost for ever (witness with the HBM2 file). The queues need not become empty: a full write buffer can block the channel for ever (witness with the DDR4 file)."
  },
  {
   "property": "C51",
   "status": "partial",
   "theorems": [
    "RadSim.DramSim.C51_plan",
    "RadSim.DramSim.C51_every_rank",
    "RadSim.DramSim.C51_every_bank",
    "RadSim.DramSim.C51_simultaneous_violated"
   ],
   "note": "Without self-refresh. False for the simultaneous policy: only the first rank is ever refreshed."
  },
  {
   "property": "C52",
   "status": "partial",
   "theorems": [
    "RadSim.ConfigGen.C52_partition_partial",
    "RadSim.ConfigGen.C52_types_recovered",
    "RadSim.ConfigGen.C52_unlisted_violated",
    "RadSim.ConfigGen.C52_overlap_violated",
    "RadSim.ConfigGen.C52_no_channels_violated",
    "RadSim.ConfigGen.C52_negative_types_violated"
   ],
   "note": "Proved for positive numbers and the listed types; with five types C23 follows. Unlisted types keep BookSim defaults outside the channels or overlapping; no channels or a negative number of types is accepted."
  },
  {
   "property": "C53",
   "status": "partial",
   "theorems": [
    "RadSim.ConfigGen.C53_tenths_partial",
    "RadSim.ConfigGen.C53_violated"
   ],
   "note": "Exact for multiples of a tenth only; every other fraction below one is written too large, with the double arithmetic of Python."
  },
  {
   "property": "C54",
   "status": "proved",
   "theorems": [
    "RadSim.Cluster.C54_stops_when_all_done",
    "RadSim.Cluster.C54_terminates_iff"
   ],
   "note": ""
  },
  {
   "property": "C55",
   "status": "partial",
   "theorems": [
    "RadSim.Telemetry.C55_aggregate_is_bit_links_partial",
    "RadSim.Telemetry.C55_in_flight_violated"
   ],
   "note": "Holds once all transactions arrived; one in flight makes the result wrong (witness)."
  },
  {
   "property": "C56",
   "status": "proved",
   "theorems": [
    "RadSim.Telemetry.C56_traces_list_their_events",
    "RadSim.Telemetry.C56_bad_identifier_fails"
   ],
   "note": ""
  },
  {
   "property": "C57",
   "status": "partial",
   "theorems": [
    "RadSim.Config.C57_knob_file_round_trip_partial",
    "RadSim.Config.C57_readers_agree",
    "RadSim.Config.C57_blank_in_path_violated",
    "RadSim.Config.C57_empty_line_stops_violated"
   ],
   "note": "Proved for values without blanks; a blank in a value cuts it, an empty line stops the program."
  },
  {
   "property": "C58",
   "status": "partial",
   "theorems": [
    "RadSim.Cluster.C58_exit_code_of_rad_zero_partial",
    "RadSim.Cluster.C58_other_rads_ignored_violated"
   ],
   "note": "Proved for RAD 0; failures of other RADs are ignored."
  },
  {
   "property": "C59",
   "status": "partial",
   "theorems": [
    "RadSim.MemCtrl.C59_ready_write_address_taken_partial",
    "RadSim.MemCtrl.C59_taken_while_not_ready_violated",
    "RadSim.MemCtrl.C59_small_queue_lost_violated",
    "RadSim.MemCtrl.C59_ready_read_lost_violated"
   ],
   "note": "Write addresses offered while ready are taken with at least 16 entries; requests are also taken while ready is low, reads can be lost while ready is high."
  },
  {
   "property": "C60",
   "status": "partial",
   "theorems": [
    "RadSim.MemCtrl.C60_one_response_per_burst_partial",
    "RadSim.MemCtrl.C60_response_user_violated"
   ],
   "note": "The number of responses is right; the user field of consecutive responses is stale."
  },
  {
   "property": "C61",
   "status": "proved",
   "theorems": [
    "RadSim.Routing.C61_links_pair",
    "RadSim.Routing.C61_one_driver"
   ],
   "note": "Any radix and dimension."
  },
  {
   "property": "C62",
   "status": "partial",
   "theorems": [
    "RadSim.Routing.C62_minimal",
    "RadSim.Routing.C62_no_deadlock_partial"
   ],
   "note": "Minimality in full. Deadlock freedom for separate channel ranges of different flit types and channels that belong to one packet at a time; with routers that hand a channel on while flits of the packet before are in its buffer it is proved for even channel counts (C83), not for odd ones."
  },
  {
   "property": "C63",
   "status": "partial",
   "theorems": [
    "RadSim.Routing.C63_minimal",
    "RadSim.Routing.C63_no_deadlock_partial",
    "RadSim.Routing.C63_single_channel_violated"
   ],
   "note": "Proved with two channels per type or more and channels that belong to one packet at a time; with one channel per type an assertion fails."
  },
  {
   "property": "C64",
   "status": "partial",
   "theorems": [
    "RadSim.Routing.C64_same_size_partial",
    "RadSim.Routing.C64_different_sizes_violated"
   ],
   "note": "Proved for NoCs of the same size; for different sizes the shared globals make packets circle forever."
  },
  {
   "property": "C65",
   "status": "proved",
   "theorems": [
    "RadSim.CMesh.C65_decodes",
    "RadSim.CMesh.C65_wired_once"
   ],
   "note": "Any grid size, four terminals per router."
  },
  {
   "property": "C66",
   "status": "proved",
   "theorems": [
    "RadSim.CMesh.C66_minimal",
    "RadSim.CMesh.C66_no_deadlock"
   ],
   "note": "dor_no_express_cmesh, any grid size."
  },
  {
   "property": "C67",
   "status": "partial",
   "theorems": [
    "RadSim.CMesh.C67_delivers_partial",
    "RadSim.CMesh.C67_no_deadlock_partial",
    "RadSim.CMesh.C67_odd_size_violated",
    "RadSim.CMesh.C67_two_order_violated"
   ],
   "note": "Proved for dor_cmesh with even sizes; odd sizes duplicate flits, xy_yx_cmesh livelocks on 8 by 8."
  },
  {
   "property": "C68",
   "status": "proved",
   "theorems": [
    "RadSim.Alloc.C68_islip",
    "RadSim.Alloc.C68_pim",
    "RadSim.Alloc.C68_one_grant"
   ],
   "note": "Select with one iteration; wavefront is C45."
  },
  {
   "property": "C69",
   "status": "partial",
   "theorems": [
    "RadSim.Router.C69_routing_delay_violated",
    "RadSim.Router.C71_router_never_fails"
   ],
   "note": "False for the routing delay whenever the clock period does not divide the delay minus one: an assertion fails. A delay of 1 works (C71)."
  },
  {
   "property": "C70",
   "status": "partial",
   "theorems": [
    "RadSim.Router.C70_negative_time_violated",
    "RadSim.Router.C70_wrap_violated",
    "RadSim.Router.C71_router_never_fails"
   ],
   "note": "False from 2^31 ps on; C71 covers times that are not negative as int."
  },
  {
   "property": "C71",
   "status": "proved",
   "theorems": [
    "RadSim.Router.C71_router_never_fails"
   ],
   "note": "Delays 1, private buffers, non-negative times; allocators by their contract (C44)."
  },
  {
   "property": "C72",
   "status": "proved",
   "theorems": [
    "RadSim.Router.C72_router_transfers"
   ],
   "note": ""
  },
  {
   "property": "C73",
   "status": "proved",
   "theorems": [
    "RadSim.Router.C73_router_respects_credits"
   ],
   "note": ""
  },
  {
   "property": "C74",
   "status": "proved",
   "theorems": [
    "RadSim.Router.C74_router_credits"
   ],
   "note": ""
  },
  {
   "property": "C75",
   "status": "proved",
   "theorems": [
    "RadSim.Router.C75_router_drains"
   ],
   "note": "Allocators by C44 and C68, output buffer size not 0."
  },
  {
   "property": "C76",
   "status": "partial",
   "theorems": [
    "RadSim.ConfigGen.C76_in_order_partial",
    "RadSim.ConfigGen.C76_by_position",
    "RadSim.ConfigGen.C76_swapped_violated",
    "RadSim.ConfigGen.C76_shared_violated"
   ],
   "note": "Proved when the sections are listed once each in file order; otherwise NoC and design come from the position, not from the name."
  },
  {
   "property": "C77",
   "status": "partial",
   "theorems": [
    "RadSim.ConfigGen.C77_field_partial",
    "RadSim.ConfigGen.C77_last_smaller_violated",
    "RadSim.ConfigGen.C77_many_rads_violated"
   ],
   "note": "Proved when the last listed mesh is the largest and has at least as many nodes as there are RADs."
  },
  {
   "property": "C78",
   "status": "proved",
   "theorems": [
    "RadSim.Net.C78_network_never_fails"
   ],
   "note": "Any wiring of input-queued routers and channels; nodes by their contract, allocators by C44."
  },
  {
   "property": "C79",
   "status": "proved",
   "theorems": [
    "RadSim.Net.C79_packets_whole"
   ],
   "note": ""
  },
  {
   "property": "C80",
   "status": "proved",
   "theorems": [
    "RadSim.Net.C80_right_destination"
   ],
   "note": "The routing discipline is a hypothesis."
  },
  {
   "property": "C81",
   "status": "proved",
   "theorems": [
    "RadSim.Net.C81_mesh",
    "RadSim.Net.C81_mesh_two_orders"
   ],
   "note": "xy_yx with two virtual channels per class or more (C62 covers the rest)."
  },
  {
   "property": "C82",
   "status": "proved",
   "theorems": [
    "RadSim.Net.C82_network_drains"
   ],
   "note": "Any wiring and any routing that goes down in a rank of the virtual channels; allocators by C44 and C68, output buffer size not 0."
  },
  {
   "property": "C83",
   "status": "partial",
   "theorems": [
    "RadSim.Net.C83_mesh_delivers",
    "RadSim.Net.C83_two_orders_partial"
   ],
   "note": "In full for dim_order_mesh. For xy_yx_mesh with an even number of virtual channels per type: with an odd number one channel is shared by both orders and the argument fails."
  },
  {
   "property": "C84",
   "status": "partial",
   "theorems": [
    "RadSim.Net.C84_torus_partial",
    "RadSim.Net.C84_torus_delivers_partial"
   ],
   "note": "Proved for an even number of virtual channels per type; with an odd number one channel is shared by both partitions."
  },
  {
   "property": "C85",
   "status": "partial",
   "theorems": [
    "RadSim.DramSim.C85_read_of_waiting_write",
    "RadSim.DramSim.C85_write_behind_read_partial",
    "RadSim.DramSim.Example.C85_same_place_violated"
   ],
   "note": "One command per cycle, or timing that separates two; the place is written through one address only (otherwise false, witness)."
  },
  {
   "property": "C86",
   "status": "proved",
   "theorems": [
    "RadSim.DramSim.C86_writes_in_order"
   ],
   "note": "Every configuration; clock below 2^64 - 1."
  },
  {
   "property": "C87",
   "status": "proved",
   "theorems": [
    "RadSim.DramSim.C87_refresh_in_time",
    "RadSim.DramSim.C87_rank_refreshed"
   ],
   "note": "The wait must be shorter than the distance of the refreshes (487 of 4680 cycles for the DDR4 file, 318 of 1950 for the HBM2 file); clock below 2^63."
  },
  {
   "property": "C88",
   "status": "proved",
   "theorems": [
    "RadSim.MmSink.C88_order",
    "RadSim.MmSink.C88_write_data",
    "RadSim.MmSink.C88_read_data",
    "RadSim.MmSink.C88_response",
    "RadSim.MmSink.C88_address"
   ],
   "note": "Every interleaving of the clocks and every ready behaviour; flits arrive on the virtual channels of their type (C23, C52). For addresses the fields that survive (C18, C19)."
  },
  {
   "property": "C89",
   "status": "partial",
   "theorems": [
    "RadSim.MmSink.C89_unmixed_partial",
    "RadSim.MmSink.C89_two_vcs_violated"
   ],
   "note": "Proved for one virtual channel per type; with several the flits of two packets are put into one beat (witness)."
  },
  {
   "property": "C90",
   "status": "partial",
   "theorems": [
    "RadSim.MmSink.C90_taken_partial",
    "RadSim.MmSink.C90_valid_waits_violated",
    "RadSim.MmSink.C90_lost_violated"
   ],
   "note": "Proved for modules that do not lower ready. Valid is never raised before ready, and a beat is lost when ready falls."
  },
  {
   "property": "C91",
   "status": "partial",
   "theorems": [
    "RadSim.MmSink.C91_delivered_partial",
    "RadSim.MmSink.C91_long_blocks",
    "RadSim.MmSink.C91_long_violated"
   ],
   "note": "Proved for packets that fit the ejection FIFO; a longer packet blocks its channel for ever."
  },
  {
   "property": "C92",
   "status": "partial",
   "theorems": [
    "RadSim.Net.C92_one_way",
    "RadSim.Net.C92_mesh_in_order_partial",
    "RadSim.Net.OrderExample.C92_two_vcs_violated"
   ],
   "note": "Proved for dimension-order routing with one virtual channel for the type; with two channels a later packet overtakes an earlier one (witness)."
  },
  {
   "property": "C93",
   "status": "proved",
   "theorems": [
    "RadSim.AxisNoc.C93_system_never_fails",
    "RadSim.AxisNoc.C93_routing_assertion",
    "RadSim.AxisNoc.C93_delivered"
   ],
   "note": "One adapter pair per node, dim_order_mesh, clock below 2^31 ps, sink FIFOs at least as deep as the router buffers. Content for beats that fit their port and sink ports that are not narrower (C14, C15)."
  },
  {
   "property": "C94",
   "status": "partial",
   "theorems": [
    "RadSim.AxisNoc.C94_stream_in_order",
    "RadSim.AxisNoc.C94_two_channels_violated"
   ],
   "note": "Proved when the message type has one virtual channel; with two, beats of one stream are swapped (witness)."
  },
  {
   "property": "C95",
   "status": "proved",
   "theorems": [
    "RadSim.AxisNoc.C95_all_delivered",
    "RadSim.AxisNoc.C95_stream_arrives"
   ],
   "note": "One adapter pair per node, dim_order_mesh, packets that fit a router buffer, output buffers not empty, at most one sink adapter edge per NoC period (the shipped configurations have 1.25 ns to 1 ns). Supplies the fairness that C16_short_packets_deliverable_partial leaves open."
  },
  {
   "property": "C96",
   "status": "partial",
   "theorems": [
    "RadSim.AxisNoc.C96_lost_credits_block",
    "RadSim.AxisNoc.C96_fast_adapter_violated"
   ],
   "note": "False: with two adapter edges per NoC period and packets of two flits a system accepts 8 beats for a port and delivers at most 3 for ever. Holds with at most one edge per period (C95). Proved for every system: the condition under which a channel is blocked for ever."
  },
  {
   "property": "C97",
   "status": "proved",
   "theorems": [
    "RadSim.AxisNoc.C97_waits_for_modules",
    "RadSim.AxisNoc.C97_never_stops"
   ],
   "note": "Configuration as for C95. That some beat is accepted, not one at every port: an adapter can starve a port (C06)."
  },
  {
   "property": "C98",
   "status": "proved",
   "theorems": [
    "RadSim.AddDesign.C98_fifo",
    "RadSim.AddDesign.C98_client",
    "RadSim.AddDesign.C98_depth_one_violated"
   ],
   "note": "For the client FIFO_DEPTH at least 2 (the source has 16); the bound is needed."
  },
  {
   "property": "C99",
   "status": "proved",
   "theorems": [
    "RadSim.AddDesign.C99_never_wrong",
    "RadSim.AddDesign.C99_reports_success"
   ],
   "note": "Configuration as for C95, message type with one virtual channel (C94), module clock not faster than the NoC clock, client and adder in one RAD."
  },
  {
   "property": "C100",
   "status": "partial",
   "theorems": [
    "RadSim.Mlp.C100_mvm_partial",
    "RadSim.Mlp.C100_mvm_inner",
    "RadSim.Mlp.C100_mvm_violated"
   ],
   "note": "False for a result of zeros to the collector (underflow error, with the constants of the source). Proved for all modules that send elsewhere, and for the others while no such result occurs. Instructions and weights as read from the files; no beat with tag 1 or 4."
  },
  {
   "property": "C101",
   "status": "partial",
   "theorems": [
    "RadSim.Mlp.C101_mvm_sends_partial",
    "RadSim.Mlp.C101_mvm_inner_sends"
   ],
   "note": "Same restriction as C100."
  },
  {
   "property": "C102",
   "status": "proved",
   "theorems": [
    "RadSim.Mlp.C102_program",
    "RadSim.Mlp.C102_golden",
    "RadSim.Mlp.C102_padding"
   ],
   "note": "Instructions and weights as read from the files. The depth of the memories must hold the files, as the comment in mvm.hpp asks."
  },
  {
   "property": "C103",
   "status": "partial",
   "theorems": [
    "RadSim.Mlp.C103_mlp_partial",
    "RadSim.Mlp.C103_mlp_violated"
   ],
   "note": "Proved if no line of the golden outputs is all zeros (otherwise false, witness). The NoC is a condition (in order, nothing lost or invented); C94 and C95 prove it for a mesh with one virtual channel per type."
  },
  {
   "property": "C104",
   "status": "partial",
   "theorems": [
    "RadSim.Mlp.C104_mlp_finishes_partial",
    "RadSim.Mlp.C104_mlp_ideal"
   ],
   "note": "Same restriction as C103. That the NoC does not stop is a condition; a network that meets it exists for every design."
  },
  {
   "property": "C105",
   "status": "proved",
   "theorems": [
    "RadSim.Mlp.C105_dispatcher",
    "RadSim.Mlp.C105_collector",
    "RadSim.Mlp.C105_dispatcher_clock_violated",
    "RadSim.Mlp.C105_collector_clock_violated"
   ],
   "note": "Driver clock equal to the module clock (sim_driver_period and the module clock are both 5.0 in the shipped configuration); the condition is needed, witnesses for both sides."
  },
  {
   "property": "C106",
   "status": "partial",
   "theorems": [
    "RadSim.Mlp.C106_mlp_mesh_partial",
    "RadSim.Mlp.C106_mlp_success_partial",
    "RadSim.Mlp.C106_mlp_reports_partial",
    "RadSim.Mlp.C106_range_violated"
   ],
   "note": "Missing: golden lines of zeros (C103 shows that they stop the design), inputs that do not fit an int, two clocks for driver and modules (C105 shows what goes wrong). Golden outputs that do not fit an int make the driver report failure for right results: negation proved."
  },
  {
   "property": "C107",
   "status": "partial",
   "theorems": [
    "RadSim.Mlp.C107_mlp_ends_partial",
    "RadSim.Mlp.C107_mlp_succeeds_partial"
   ],
   "note": "Restrictions of C106 and C95; the blocks of all test inputs fit the input FIFOs (the shipped FIFO depth and number of tests meet this). Missing: designs with more test inputs than that."
  },
  {
   "property": "C108",
   "status": "partial",
   "theorems": [
    "RadSim.MmNoc.C108_system_never_fails_partial"
   ],
   "note": "Adapters of Model/AxiMm.lean and Model/AxiMmSink.lean on a mesh with dimension-order routing. Missing: packet types with several virtual channels (see C89), clock ratios other than those of MmCfgOk (see C22), nodes that share adapters."
  },
  {
   "property": "C109",
   "status": "partial",
   "theorems": [
    "RadSim.MmNoc.C109_in_order_partial"
   ],
   "note": "Restrictions of C108. Burst, size and length of an address are left out, since they do not arrive (C19)."
  },
  {
   "property": "C110",
   "status": "partial",
   "theorems": [
    "RadSim.MmNoc.C110_drains_partial",
    "RadSim.MmNoc.C110_everything_arrives_partial"
   ],
   "note": "Restrictions of C108; the sink side of an adapter has at most one edge of its clock in a period of the NoC clock. Missing: packets longer than a router buffer."
  },
  {
   "property": "C111",
   "status": "partial",
   "theorems": [
    "RadSim.Hello.C111_trace_sent_partial"
   ],
   "note": "Restrictions of C108; requester and responder are the only modules on the NoC, on one clock with the driver; the FIFOs (depth 16) are longer than the trace. Missing: longer traces, for which back-pressure of the responder comes in."
  },
  {
   "property": "C112",
   "status": "partial",
   "theorems": [
    "RadSim.Hello.C112_reads_answered_partial",
    "RadSim.Hello.C112_values_from_trace_partial",
    "RadSim.Hello.C112_program_order_violated"
   ],
   "note": "Restrictions of C111. That reads and writes are performed in the order of the trace is false: a read overtakes a write (witness, credit delay of 5 cycles). The cycle in a line of the trace is read but not used, so it does not keep them apart."
  },
  {
   "property": "C113",
   "status": "partial",
   "theorems": [
    "RadSim.Hello.C113_comes_to_an_end_partial"
   ],
   "note": "Restrictions of C111 and C112; the clocks do not stop, input buffers and adapter FIFOs have room for a packet, output buffers are not of size 0, and the allocators grant something when asked (islip and others, C68)."
  },
  {
   "property": "C114",
   "status": "partial",
   "theorems": [
    "RadSim.Dlrm.C114_vectors_partial",
    "RadSim.Dlrm.C114_violated"
   ],
   "note": "Holds for senders that show a word only while rready is high. For a sender that holds a word while rready is low, as AXI allows, it is false (witness): the module takes the word in every such period, since Tick looks at rvalid and the FIFO size but not at rready."
  },
  {
   "property": "C115",
   "status": "proved",
   "theorems": [
    "RadSim.Dlrm.C115_never_fails",
    "RadSim.Dlrm.C115_twice_violated"
   ],
   "note": "The condition that an instruction does not come back to a FIFO it has popped is needed (witness)."
  },
  {
   "property": "C116",
   "status": "partial",
   "theorems": [
    "RadSim.Dlrm.C116_all_sent_partial"
   ],
   "note": "Asks for a polite sender, as C114."
  },
  {
   "property": "C117",
   "status": "partial",
   "theorems": [
    "RadSim.Dlrm.C117_requests_partial",
    "RadSim.Dlrm.C117_all_requested_partial",
    "RadSim.Dlrm.C117_violated",
    "RadSim.Dlrm.C117_pop_violated"
   ],
   "note": "Holds if requests are not accepted in two consecutive periods. Otherwise a lookup is sent twice and the next one dropped, or an empty queue is popped (witnesses): the module writes the next offer before it pops the FIFO."
  },
  {
   "property": "C118",
   "status": "partial",
   "theorems": [
    "RadSim.Dlrm.C118_schedule_partial",
    "RadSim.Dlrm.C118_shipped_violated",
    "RadSim.Dlrm.C118_overshoot_violated"
   ],
   "note": "Holds for tables that fit: none is cut by the end of a vector, one wider than a vector starts a vector, takes whole vectors and lies in DDR, and no two tables in a vector share a FIFO. Both shipped models fit with 32 and 16 lanes (examples). False for the shipped ab_small with 8 lanes, where a wide table in HBM is never popped (line 493), and for tables that overshoot a vector, for which nothing is written."
  },
  {
   "property": "C119",
   "status": "partial",
   "theorems": [
    "RadSim.Dlrm.C119_waiting_partial",
    "RadSim.Dlrm.C119_waiting_violated"
   ],
   "note": "Holds if a vector names a channel at most five times, under the assumption of C117. False for six, which ab_large.csv has (witness: 17 lookups in a FIFO of depth 16)."
  },
  {
   "property": "C120",
   "status": "partial",
   "theorems": [
    "RadSim.Dlrm.C120_vectors_partial",
    "RadSim.Dlrm.C120_all_sent_partial"
   ],
   "note": "Under the assumptions of C114, C117 and C118. NoC and memories between the modules are represented by in-order answers."
  },
  {
   "property": "C121",
   "status": "partial",
   "theorems": [
    "RadSim.Dlrm.C121_layout",
    "RadSim.Dlrm.C121_addresses",
    "RadSim.Dlrm.C121_ends_partial",
    "RadSim.Dlrm.C121_stuck_violated"
   ],
   "note": "Layout and addresses are proved without restriction. Termination is proved if one DDR channel could hold all tables; the loop never ends for a table larger than every channel (witness)."
  },
  {
   "property": "C122",
   "status": "partial",
   "theorems": [
    "RadSim.Dlrm.C122_no_alarm_partial",
    "RadSim.Dlrm.C122_means_partial",
    "RadSim.Dlrm.C122_violated"
   ],
   "note": "No false alarms. A report of success only says that the last element of each output is right, because the flag is overwritten per element (witness with all other elements wrong)."
  },
  {
   "property": "C123",
   "status": "partial",
   "theorems": [
    "RadSim.Int8.C123_int8_mvm_partial",
    "RadSim.Int8.C123_lost_violated",
    "RadSim.Int8.C123_dest_violated"
   ],
   "note": "Holds if instructions and weights come before all input vectors and destinations are less than 128. Otherwise false (witnesses): an instruction that arrives in the cycle in which one is popped takes its place in the ring; nine bits of release_dest are kept in an sc_int<8>."
  },
  {
   "property": "C124",
   "status": "partial",
   "theorems": [
    "RadSim.Int8.C124_int8_mvm_sends_partial"
   ],
   "note": "As C123: instructions and weights come before all input vectors."
  },
  {
   "property": "C125",
   "status": "proved",
   "theorems": [
    "RadSim.Int8.C125_int8_mvm_never_fails"
   ],
   "note": ""
  },
  {
   "property": "C126",
   "status": "proved",
   "theorems": [
    "RadSim.Int8.C126_int8_capacity",
    "RadSim.Int8.C126_int8_no_62"
   ],
   "note": "gen_testcase.py writes limx * limy instructions per module without a check."
  },
  {
   "property": "C127",
   "status": "proved",
   "theorems": [
    "RadSim.Int8.C127_int8_program",
    "RadSim.Int8.C127_int8_count",
    "RadSim.Int8.C127_int8_shape",
    "RadSim.Int8.C127_int8_inst"
   ],
   "note": "For designs that meet Design.Ok: positive sizes, fewer than 16 routers, programs that fit (C130 for the others)."
  },
  {
   "property": "C128",
   "status": "proved",
   "theorems": [
    "RadSim.Int8.C128_int8_golden"
   ],
   "note": ""
  },
  {
   "property": "C129",
   "status": "proved",
   "theorems": [
    "RadSim.Int8.C129_int8_network",
    "RadSim.Int8.C129_int8_golden"
   ],
   "note": "The NoC is the condition Wired: per receiver and kind, what is shown is a beginning of what was sent; no input is shown before loading is complete, which the driver leaves to a pause of 10000 cycles."
  },
  {
   "property": "C130",
   "status": "partial",
   "theorems": [
    "RadSim.Int8.C130_int8_ends_partial",
    "RadSim.Int8.C130_int8_too_long",
    "RadSim.Int8.C130_int8_ends_violated"
   ],
   "note": "Proved for designs whose programs and blocks of all test inputs fit into the FIFOs (Ok.room, Small). False otherwise: the compiler accepts a layer of 512 x 512 on one module, whose 64 instructions are never loaded (C130_int8_ends_violated; C130_int8_too_long for all such designs). Not settled: programs that fit but blocks of all test inputs that do not."
  },
  {
   "property": "C131",
   "status": "proved",
   "theorems": [
    "RadSim.Npu.C131_mvu_roundtrip",
    "RadSim.Npu.C131_mvu_bits",
    "RadSim.Npu.C131_evrf_roundtrip",
    "RadSim.Npu.C131_evrf_bits",
    "RadSim.Npu.C131_mfu_roundtrip",
    "RadSim.Npu.C131_mfu_bits",
    "RadSim.Npu.C131_ld_roundtrip",
    "RadSim.Npu.C131_ld_bits"
   ],
   "note": ""
  },
  {
   "property": "C132",
   "status": "partial",
   "theorems": [
    "RadSim.Npu.C132_evrf_decodes_partial",
    "RadSim.Npu.C132_evrf_completes_partial",
    "RadSim.Npu.C132_mfu_decodes_partial",
    "RadSim.Npu.C132_mfu_completes_partial",
    "RadSim.Npu.C132_ld_decodes_partial",
    "RadSim.Npu.C132_ld_completes_partial",
    "RadSim.Npu.C132_evrf_hangs_violated",
    "RadSim.Npu.C132_mfu_hangs_violated",
    "RadSim.Npu.C132_ld_hangs_violated",
    "RadSim.Npu.C132_reset_violated"
   ],
   "note": "Holds for macro-ops with 1 to 512 words and a batch that is not empty; every other macro-op has no end (C132_*_hangs_violated). A second reset is not always one: the read enable is not reset (C132_reset_violated)."
  },
  {
   "property": "C133",
   "status": "partial",
   "theorems": [
    "RadSim.Npu.C133_sector_decodes_partial",
    "RadSim.Npu.C133_sector_completes_partial",
    "RadSim.Npu.C133_sector_covers",
    "RadSim.Npu.C133_stall_violated"
   ],
   "note": "Holds for macro-ops with at least 12 rows and a size that is rows times words, which is what compiler.py makes. With fewer rows the micro-ops depend on the timing (C133_stall_violated)."
  },
  {
   "property": "C134",
   "status": "partial",
   "theorems": [
    "RadSim.Npu.C134_accumulates_partial",
    "RadSim.Npu.C134_completes_partial",
    "RadSim.Npu.C134_rows",
    "RadSim.Npu.C134_fed_as_decoded",
    "RadSim.Npu.C134_hazard_violated"
   ],
   "note": "Holds if at least three entries are gone round, as for all macro-ops of the compiler; false for two (C134_hazard_violated)."
  },
  {
   "property": "C135",
   "status": "partial",
   "theorems": [
    "RadSim.Npu.C135_writes",
    "RadSim.Npu.C135_reads_partial",
    "RadSim.Npu.C135_keeps",
    "RadSim.Npu.C135_stale_violated",
    "RadSim.Npu.C135_shared_operand_violated",
    "RadSim.Npu.C135_idle_violated"
   ],
   "note": "Writes: proved. Reads: proved if the next address given is another one or the write port changes. False otherwise: the process that puts out the word is sensitive to the first address register and uses the second, so an address given twice on end reads what was read before; a vector that all batch entries share is not added rightly."
  },
  {
   "property": "C136",
   "status": "partial",
   "theorems": [
    "RadSim.Npu.C136_products_partial",
    "RadSim.Npu.C136_issued_as_decoded",
    "RadSim.Npu.C136_apart",
    "RadSim.Npu.C136_exact",
    "RadSim.Npu.C136_gap_violated"
   ],
   "note": "Holds if the micro-ops of a block of 12 or more are issued without a gap and no word of the matrix is addressed twice on end (C136_apart says when that is so). A gap within a block gives wrong products (C136_gap_violated)."
  },
  {
   "property": "C137",
   "status": "partial",
   "theorems": [
    "RadSim.Npu.C137_order",
    "RadSim.Npu.C137_tag",
    "RadSim.Npu.C137_alone",
    "RadSim.Npu.C137_whole_partial",
    "RadSim.Npu.C137_mixed_violated",
    "RadSim.Npu.C137_mixed_products_violated",
    "RadSim.Npu.C137_starved_violated"
   ],
   "note": "Order, tags and the use of thread 0 alone: proved. Macro-ops are whole if the supply has no gaps and the thread that gave up the sector gets nothing in the cycle of the choice; else they can be mixed and all following products are wrong (C137_mixed_violated, C137_mixed_products_violated). A program that does not use thread 0 never starts (C137_starved_violated)."
  },
  {
   "property": "C138",
   "status": "proved",
   "theorems": [
    "RadSim.Npu.C138_stream",
    "RadSim.Npu.C138_all_given",
    "RadSim.Npu.C138_stable",
    "RadSim.Npu.C138_words",
    "RadSim.Npu.C138_writeback",
    "RadSim.Npu.C138_writeback_link"
   ],
   "note": "The channel between the adapters is any that keeps the order. Payloads fit their width. A write-back has an identifier below 16, an address of nine bits and a flag below 2, the same for all cores, as the header of the first core is sent for all."
  },
  {
   "property": "C139",
   "status": "partial",
   "theorems": [
    "RadSim.Npu.C139_no_error",
    "RadSim.Npu.C139_order",
    "RadSim.Npu.C139_tag",
    "RadSim.Npu.C139_progress",
    "RadSim.Npu.C139_results_partial",
    "RadSim.Npu.C139_mfu_partial",
    "RadSim.Npu.C139_evrf_partial",
    "RadSim.Npu.C139_mfu_entry",
    "RadSim.Npu.C139_shared_violated",
    "RadSim.Npu.C139_bubble_violated"
   ],
   "note": "No error, the order, the tags and the progress are proved for all runs. The results are proved unless what follows a micro-op in the pipeline, be it the dummy, has the same address of an operand that is used; then the operand read before is used, and the property is false, with a shared vector and with word 0 before a gap as witnesses. Addresses are within the register files. The decoding of write-backs to the write ports is in C142."
  },
  {
   "property": "C140",
   "status": "partial",
   "theorems": [
    "RadSim.Npu.C140_no_error",
    "RadSim.Npu.C140_order",
    "RadSim.Npu.C140_output",
    "RadSim.Npu.C140_first_channel",
    "RadSim.Npu.C140_second_channel_partial",
    "RadSim.Npu.C140_fields_violated",
    "RadSim.Npu.C140_progress",
    "RadSim.Npu.C140_tags"
   ],
   "note": "All is proved for any number of cores and sectors. The second channel is right only for numbers of register files below 4: the number and the block share an element without being kept apart, and C140_fields_violated shows that with 4 the word goes to another block or to none. An update of a tag before any load is left out of the channels."
  },
  {
   "property": "C141",
   "status": "partial",
   "theorems": [
    "RadSim.Npu.C141_no_error",
    "RadSim.Npu.C141_order",
    "RadSim.Npu.C141_progress",
    "RadSim.Npu.C141_completes",
    "RadSim.Npu.C141_driver_partial",
    "RadSim.Npu.C141_stale_violated",
    "RadSim.Npu.C141_full_violated",
    "RadSim.Npu.C141_restart_violated"
   ],
   "note": "The dispatcher itself is proved: no error, order, and an end. The driver gives the size of the program as the last address, one too far: the property holds if the memory has one more instruction and this one is empty (C141_driver_partial), is false if a longer program has been there before, and a program that fills the memory makes the dispatcher read outside of it. A start while a program is under way is lost."
  },
  {
   "property": "C142",
   "status": "partial",
   "theorems": [
    "RadSim.Npu.C142_order",
    "RadSim.Npu.C142_arrives_partial",
    "RadSim.Npu.C142_file_zero_violated",
    "RadSim.Npu.C142_block_violated",
    "RadSim.Npu.C142_lockstep",
    "RadSim.Npu.C142_address",
    "RadSim.Npu.C142_tag",
    "RadSim.Npu.C142_loader",
    "RadSim.Npu.C142_cores"
   ],
   "note": "Order, freedom from errors, the addresses and the tags are proved for all runs. That all words arrive needs words for blocks 1 to 3 and, for the multi-function units, a register file other than 0; the loader makes others of register file 4, and then the property is false: such a word is never taken and holds up all later ones, of its unit or of all three."
  },
  {
   "property": "C143",
   "status": "partial",
   "theorems": [
    "RadSim.Npu.C143_delay_partial",
    "RadSim.Npu.C143_copies_partial",
    "RadSim.Npu.C143_written",
    "RadSim.Npu.C143_tag_partial",
    "RadSim.Npu.C143_tag_cores_partial",
    "RadSim.Npu.C143_overflow_violated",
    "RadSim.Npu.C143_outside_violated",
    "RadSim.Npu.C143_matrix"
   ],
   "note": "Proved for words for a register file that is there and for up to 511 vectors. Without this it is false: the number is not looked at before it is used as an index, and the loader can make one that is too large (C143_outside_violated); and the tag cannot count further (C143_overflow_violated)."
  },
  {
   "property": "C144",
   "status": "partial",
   "theorems": [
    "RadSim.Routing.C144_set",
    "RadSim.Net.C144_planar_mesh",
    "RadSim.Net.C144_planar_delivers",
    "RadSim.Net.C144_min_adapt_mesh_partial",
    "RadSim.Net.C144_min_adapt_delivers_partial",
    "RadSim.Routing.C144_one_direction_violated",
    "RadSim.Routing.C144_foreign_channel_violated"
   ],
   "note": "Delivery by shortest ways proved for planar_adapt_mesh with all classes and for min_adapt_mesh when all classes begin at virtual channel 0. False: two elements of an output set with one priority cannot both be there, so neither function ever offers more than one direction; min_adapt_mesh passes the arguments of AddRange in a wrong order and offers virtual channels 0 to the first of the class, on which the assertion at the next router fails. Not modelled: faulty links."
  },
  {
   "property": "C145",
   "status": "partial",
   "theorems": [
    "RadSim.Routing.C145_way",
    "RadSim.Routing.C145_romm_minimal",
    "RadSim.Routing.C145_romm_no_deadlock_partial",
    "RadSim.Routing.C145_valiant_deadlock_violated"
   ],
   "note": "Ways and arrival proved for both functions with at least two virtual channels per class. Freedom from deadlock proved for romm_mesh where a channel belongs to one packet at a time, as in C62; false for valiant_mesh: a packet that passes its destination in the first phase is offered the channels of the second phase there, and four packets on a line of five routers wait for each other. Not modelled: the call with inject set, romm_ni_mesh."
  },
  {
   "property": "C146",
   "status": "proved",
   "theorems": [
    "RadSim.Routing.C146_no_interference",
    "RadSim.Routing.C146_coordinates",
    "RadSim.Routing.C146_few_channels_violated",
    "RadSim.Net.C146_mesh",
    "RadSim.Net.C146_mesh_coordinates",
    "RadSim.Net.C146_delivers",
    "RadSim.Net.C146_delivers_coordinates"
   ],
   "note": "For classes with at least as many virtual channels as routers, or as routers along a dimension; with fewer the assertion fails at the first router (C146_few_channels_violated). Not modelled: the call with inject set."
  },
  {
   "property": "C147",
   "status": "partial",
   "theorems": [
    "RadSim.Routing.C147_one_draw",
    "RadSim.Routing.C147_balanced_minimal",
    "RadSim.Routing.C147_balanced_no_deadlock_partial",
    "RadSim.Routing.C147_balanced_single_channel_violated",
    "RadSim.Routing.C147_by_destination_minimal",
    "RadSim.Routing.C147_by_destination_no_deadlock_partial",
    "RadSim.Routing.C147_no_interference",
    "RadSim.Routing.C147_few_channels_violated",
    "RadSim.Routing.C147_valiant_undefined_violated",
    "RadSim.Routing.C147_valiant_ni_undefined_violated"
   ],
   "note": "Proved for dim_order_bal_torus with two channels per class or more and for dim_order_ni_torus with as many as routers; a channel belongs to one packet at a time. With fewer channels an assertion fails. False for valiant_torus and valiant_ni_torus: no packet leaves the network, and with valiant_torus none takes 2n links, before ring_part is read without a value. Not modelled: the call with inject set."
  },
  {
   "property": "C148",
   "status": "partial",
   "theorems": [
    "RadSim.Routing.C148_minimal",
    "RadSim.Routing.C148_no_deadlock_partial",
    "RadSim.Routing.C148_no_interference",
    "RadSim.Routing.C148_few_channels_violated"
   ],
   "note": "Proved for classes with at least as many virtual channels as routers; with fewer the assertion fails at the first router. What is missing: a channel belongs to one packet at a time. Not modelled: the call with inject set."
  },
  {
   "property": "C149",
   "status": "partial",
   "theorems": [
    "RadSim.Routing.C149_one_reader",
    "RadSim.Routing.C149_one_driver",
    "RadSim.Routing.C149_delivers",
    "RadSim.Routing.C149_arrives",
    "RadSim.Routing.C149_no_deadlock_partial"
   ],
   "note": "Wiring and delivery proved for every radix and number of stages; freedom from deadlock for channels that belong to one packet at a time. Not modelled: overflow of int, the call with inject set."
  },
  {
   "property": "C150",
   "status": "partial",
   "theorems": [
    "RadSim.Routing.C150_one_reader_down",
    "RadSim.Routing.C150_one_reader_up",
    "RadSim.Routing.C150_one_driver",
    "RadSim.Routing.C150_inputs_driven",
    "RadSim.Routing.C150_injects_apart",
    "RadSim.Routing.C150_delivers",
    "RadSim.Routing.C150_arrives",
    "RadSim.Routing.C150_shortest",
    "RadSim.Routing.C150_assertions_hold",
    "RadSim.Routing.C150_no_deadlock_partial"
   ],
   "note": "Wiring, delivery, length of the way and the assertions proved for every radix and number of levels; freedom from deadlock for channels that belong to one packet at a time. Not modelled: overflow of int, the call with inject set."
  },
  {
   "property": "C151",
   "status": "partial",
   "theorems": [
    "RadSim.Npu.C151_conserves",
    "RadSim.Npu.C151_words",
    "RadSim.Npu.C151_makes_room",
    "RadSim.Npu.C151_design",
    "RadSim.Npu.C151_small_violated"
   ],
   "note": "Proved for limits between one result and the depth, as in the design. False for a depth below one result: the difference of unsigned numbers wraps, and the FIFO takes more than it has room for. Not modelled here: the pipelines of the sector in front of the FIFO and the other FIFOs, which are inputs."
  },
  {
   "property": "C152",
   "status": "partial",
   "theorems": [
    "RadSim.Routing.C152_way",
    "RadSim.Routing.C152_no_deadlock_partial",
    "RadSim.Routing.C152_two_channels",
    "RadSim.Routing.C152_three_channels_violated",
    "RadSim.Routing.C152_one_dimension_violated"
   ],
   "note": "Shortest ways, classes, ejection and the assertions are proved for at least four virtual channels, equality with dim_order_torus for two. False for three: the adaptive channel vcBegin+3 is outside the class and the assertion at the next router fails. False that packets go around busy links in other dimensions: the output set keeps one element per priority, so only the first dimension is offered. Deadlock under the abstraction that a channel belongs to one packet at a time."
  },
  {
   "property": "C153",
   "status": "partial",
   "theorems": [
    "RadSim.Routing.C153_wiring",
    "RadSim.Routing.C153_delivers",
    "RadSim.Routing.C153_shortest",
    "RadSim.Routing.C153_no_deadlock_partial",
    "RadSim.Routing.C153_nca_spreads",
    "RadSim.Routing.C153_anca_one_top_violated"
   ],
   "note": "Wiring, delivery and shortest ways are proved for both functions, the spread over the tops for nca_tree4. False for anca_tree4: all its ways up have the same priority and the output set keeps one element per priority, so that every packet rises by the first port and three of the four top routers are never used. Deadlock under the abstraction that a channel belongs to one packet at a time."
  },
  {
   "property": "C154",
   "status": "partial",
   "theorems": [
    "RadSim.Routing.C154_wiring",
    "RadSim.Routing.C154_delivers",
    "RadSim.Routing.C154_shortest",
    "RadSim.Routing.C154_no_deadlock_partial",
    "RadSim.Routing.C154_one_way"
   ],
   "note": "Wiring, delivery, shortest ways and fixed ways are proved. Deadlock under the abstraction that a channel belongs to one packet at a time."
  }
 ]
}