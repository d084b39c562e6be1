{
 "claims": [
  {
   "property": "C01",
   "status": "proved",
   "theorems": [
    "Verif.Props.c01_quadrant_gdc",
    "Verif.Props.c01_quadrant_tdc",
    "Verif.Props.c01_on_detector"
   ],
   "note": "every hit of chips 0-3 lies in its quadrant, for both constructors"
  },
  {
   "property": "C02",
   "status": "proved",
   "theorems": [
    "Verif.Props.c02_injective",
    "Verif.Props.c02_injective_tdc",
    "Verif.Props.c02_surjective"
   ],
   "note": "injective and onto the detector"
  },
  {
   "property": "C03",
   "status": "partial",
   "theorems": [
    "Verif.Props.c03_roundtrip",
    "Verif.Props.c03_header_roundtrip",
    "Verif.Props.c03_wide_ftoa_witness"
   ],
   "note": "round trip proved for field values in range; c03_wide_ftoa_witness: the generator keeps 8 bits of ftoa, the decoder reads 4"
  },
  {
   "property": "C04",
   "status": "partial",
   "theorems": [
    "Verif.Props.c04_arrival_iff",
    "Verif.Props.c04_arrival_partial",
    "Verif.Props.c04_false_low",
    "Verif.Props.c04_false_high"
   ],
   "note": "exact condition proved (c04_arrival_iff); as stated false near the start and end of the 48-bit range (c04_false_low, c04_false_high)"
  },
  {
   "property": "C05",
   "status": "partial",
   "theorems": [
    "Verif.Props.c05_bounded",
    "Verif.Props.c05_residue_partial",
    "Verif.Props.c05_residue_exact",
    "Verif.Props.c05_false",
    "Verif.Props.c05_residue_iff",
    "Verif.Props.c05_clock_iff"
   ],
   "note": "bound proved; exact condition proved (c05_residue_iff): the residue is right if and only if the 32-bit difference wraps a multiple of 666667 times, on the clocks of a measurement if and only if the hit is not before the trigger and less than 2^32 ticks after it (c05_clock_iff); c05_false: hits before the trigger"
  },
  {
   "property": "C06",
   "status": "partial",
   "theorems": [
    "Verif.Props.c06_arrival",
    "Verif.Props.c06_tof_iff",
    "Verif.Props.c06_defined_partial",
    "Verif.Props.c06_false_late",
    "Verif.Props.c06_false_early"
   ],
   "note": "exact condition proved (c06_tof_iff); c06_false_late and c06_false_early show undefined time of flight"
  },
  {
   "property": "C07",
   "status": "proved",
   "theorems": [
    "Verif.Props.c07_ns_exact",
    "Verif.Props.c07_ranges"
   ],
   "note": "exactness and ranges of the conversions"
  },
  {
   "property": "C08",
   "status": "proved",
   "theorems": [
    "Verif.Props.c08_trigger",
    "Verif.Props.c08_trigger_unreduced"
   ],
   "note": "trigger time with global clock"
  },
  {
   "property": "C09",
   "status": "partial",
   "theorems": [
    "Verif.Props.c09_rollover",
    "Verif.Props.c09_backward_witness",
    "Verif.Props.c09_gap_witness",
    "Verif.Props.c09_rollover_iff",
    "Verif.Props.c09_times"
   ],
   "note": "proved for steps below 2^31 (c09_rollover, the first one from the time at the start); exact condition for every history proved (c09_rollover_iff, c09_times); witnesses show that the hypothesis is necessary"
  },
  {
   "property": "C10",
   "status": "proved",
   "theorems": [
    "Verif.Props.c10_assembly",
    "Verif.Props.c10_invariant"
   ],
   "note": "assembly of the global timestamp and its invariant"
  },
  {
   "property": "C11",
   "status": "proved",
   "theorems": [
    "Verif.Props.c11_scan"
   ],
   "note": "exact characterisation of the batches, for all buffers"
  },
  {
   "property": "C12",
   "status": "partial",
   "theorems": [
    "Verif.Props.c12_headers_iff",
    "Verif.Props.c12_headers_partial",
    "Verif.Props.c12_false"
   ],
   "note": "exact condition proved (c12_headers_iff); as stated false: a hit packet can spell 'TPX' (c12_false)"
  },
  {
   "property": "C13",
   "status": "partial",
   "theorems": [
    "Verif.Props.c13_terminates_iff",
    "Verif.Props.c13_same_hits_partial",
    "Verif.Props.c13_false_limit_one",
    "Verif.Props.c13_false_trailing",
    "Verif.Props.c13_same_hits_whole_partial",
    "Verif.Props.c13_false_overrun"
   ],
   "note": "termination characterised exactly for all buffers; same hits and timestamps for every buffer of whole words in which no header announces packets beyond the next one, with limit >= 2 (c13_same_hits_whole_partial); false for limit 1, for trailing bytes and for overruns (c13_false_*)"
  },
  {
   "property": "C14",
   "status": "partial",
   "theorems": [
    "Verif.Props.c14_oob_iff",
    "Verif.Props.c14_inbounds_partial",
    "Verif.Props.c14_false"
   ],
   "note": "exact condition proved; false for buffers that end inside a packet (c14_false)"
  },
  {
   "property": "C15",
   "status": "proved",
   "theorems": [
    "Verif.Props.c15_no_hit_before_trigger",
    "Verif.Props.c15_no_trigger_no_hits"
   ],
   "note": "no hit before the first trigger, both modes, whole buffer"
  },
  {
   "property": "C16",
   "status": "proved",
   "theorems": [
    "Verif.Props.c16_hits_gdc",
    "Verif.Props.c16_hits_tdc",
    "Verif.Props.c16_count_gdc",
    "Verif.Props.c16_count_tdc"
   ],
   "note": "hits in order, one per datable hit packet; count"
  },
  {
   "property": "C17",
   "status": "proved",
   "theorems": [
    "Verif.Props.c17_two_phase_gdc",
    "Verif.Props.c17_two_phase_tdc",
    "Verif.Props.c17_defined"
   ],
   "note": "two-phase extraction equals one sequential pass, both modes"
  },
  {
   "property": "C18",
   "status": "proved",
   "theorems": [
    "Verif.Props.c18_result",
    "Verif.Props.c18_schedule_independent",
    "Verif.Props.c18_progress",
    "Verif.Props.c18_terminates",
    "Verif.Props.c18_completes",
    "Verif.Props.c18_no_sharing"
   ],
   "note": "transition system over all partitions and interleavings: result, schedule independence, progress, termination, no sharing"
  },
  {
   "property": "C19",
   "status": "partial",
   "theorems": [
    "Verif.Props.c19_clock_partial",
    "Verif.Props.c19_false"
   ],
   "note": "stored timestamps proved; repeated extraction duplicates hits (c19_false)"
  },
  {
   "property": "C20",
   "status": "proved",
   "theorems": [
    "Verif.Props.c20_unknown_ignored"
   ],
   "note": "unknown packets change nothing"
  },
  {
   "property": "C21",
   "status": "proved",
   "theorems": [
    "Verif.Props.c21_prefix",
    "Verif.Props.c21_nonempty",
    "Verif.Props.c21_terminates",
    "Verif.Props.c21_empty_file"
   ],
   "note": "concatenation, end of file, termination; an empty file cannot be opened (c21_empty_file)"
  },
  {
   "property": "C22",
   "status": "partial",
   "theorems": [
    "Verif.Props.c22_boundaries_partial",
    "Verif.Props.c22_false",
    "Verif.Props.c22_zero_size",
    "Verif.Props.c22_accepted_sizes"
   ],
   "note": "proved when the cuts fall between batches (c22_boundaries_partial); c22_false: for every chunk size a hit can be lost at a cut; what exactly is lost is C90; c22_zero_size: the size argument wraps around"
  },
  {
   "property": "C23",
   "status": "partial",
   "theorems": [
    "Verif.Props.c23_records",
    "Verif.Props.c23_one_piece",
    "Verif.Props.c23_well_formed",
    "Verif.Props.c23_csv",
    "Verif.Props.c23_cut_sublist_partial",
    "Verif.Props.c23_cut_partial",
    "Verif.Props.c23_false_cut",
    "Verif.Props.c23_false_missing",
    "Verif.Props.c23_accepted_sizes",
    "Verif.Props.c23_sizes_example"
   ],
   "note": "exact record list for every cut into whole packets; whole-file list for one piece or when every piece names a chip first; false at other cuts (c23_false_cut) and for zero times or negative chip ids (c23_false_missing)"
  },
  {
   "property": "C24",
   "status": "proved",
   "theorems": [
    "Verif.Props.c24_labels",
    "Verif.Props.c24_fit_returns",
    "Verif.Props.c24_late_undefined",
    "Verif.Props.c24_early_undefined"
   ],
   "note": "all hit lists; fit returns for arrival times up to 737869762948382016 ticks (584 years), and a later first hit is undefined behaviour (c24_late_undefined); C04 produces such times for hits a second or more ahead of a global time in its first 26 s (c24_early_undefined)"
  },
  {
   "property": "C25",
   "status": "proved",
   "theorems": [
    "Verif.Props.c25_first",
    "Verif.Props.c25_pair"
   ],
   "note": "all hit lists with arrival times below 2^48 ticks, all 64-bit ranges"
  },
  {
   "property": "C26",
   "status": "proved",
   "theorems": [
    "Verif.Props.c26_connected",
    "Verif.Props.c26_rounded"
   ],
   "note": "exact for radii that are multiples of 1/1024, within 2^-32 pixel for any radius up to 2^20"
  },
  {
   "property": "C27",
   "status": "proved",
   "theorems": [
    "Verif.Props.c27_history_independent"
   ],
   "note": "all call histories"
  },
  {
   "property": "C28",
   "status": "proved",
   "theorems": [
    "Verif.Props.c28_online"
   ],
   "note": "all prefixes"
  },
  {
   "property": "C29",
   "status": "proved",
   "theorems": [
    "Verif.Props.c29_bursts"
   ],
   "note": "any number of bursts; labels are the burst numbers"
  },
  {
   "property": "C30",
   "status": "proved",
   "theorems": [
    "Verif.Props.c30_throws_iff",
    "Verif.Props.c30_in_bounds",
    "Verif.Props.c30_state"
   ],
   "note": "all call sequences; exceptions characterised, no out-of-bounds access"
  },
  {
   "property": "C31",
   "status": "partial",
   "theorems": [
    "Verif.Props.c31_events",
    "Verif.Props.c31_conservation_partial",
    "Verif.Props.c31_false"
   ],
   "note": "event list characterised exactly; conservation needs non-zero total ToT in each cluster, false otherwise (c31_false)"
  },
  {
   "property": "C32",
   "status": "proved",
   "theorems": [
    "Verif.Props.c32_centroid",
    "Verif.Props.c32_in_box"
   ],
   "note": "weighted centroid for super resolution 1 to 4"
  },
  {
   "property": "C33",
   "status": "proved",
   "theorems": [
    "Verif.Props.c33_small",
    "Verif.Props.c33_used_hits",
    "Verif.Props.c33_events",
    "Verif.Props.c33_no_hits_used"
   ],
   "note": "used hits, half bound, hit count; also that equal ToT leaves no hit and a NaN time of flight (c33_no_hits_used); the least-squares solver is a parameter"
  },
  {
   "property": "C34",
   "status": "proved",
   "theorems": [
    "Verif.Props.c34_uniform",
    "Verif.Props.c34_custom",
    "Verif.Props.c34_strict",
    "Verif.Props.c34_no_bins"
   ],
   "note": "for all bin counts and end times with the IEEE rounding model"
  },
  {
   "property": "C35",
   "status": "partial",
   "theorems": [
    "Verif.Props.c35_counts_partial",
    "Verif.Props.c35_once",
    "Verif.Props.c35_in_some_bin",
    "Verif.Props.c35_hit_position",
    "Verif.Props.c35_false_first_edge"
   ],
   "note": "every pixel counts exactly the entries with time in (lower, upper] of its bin and below the last edge whose position rounds to it; the stated [lower, upper) convention is false: an entry exactly on the first edge is dropped (c35_false_first_edge)"
  },
  {
   "property": "C36",
   "status": "proved",
   "theorems": [
    "Verif.Props.c36_update_in_bounds",
    "Verif.Props.c36_create_in_bounds",
    "Verif.Props.c36_hits_defined",
    "Verif.Props.c36_overflow"
   ],
   "note": "no out-of-bounds access for any entries; also shows the image dimension itself overflows (signed overflow) for large super-resolution factors (c36_overflow)"
  },
  {
   "property": "C37",
   "status": "proved",
   "theorems": [
    "Verif.Props.c37_order_and_batching",
    "Verif.Props.c37_total",
    "Verif.Props.c37_grand_total"
   ],
   "note": "permutation and re-splitting invariance; per-bin and grand totals modulo wrap of the 32-bit pixels"
  },
  {
   "property": "C38",
   "status": "partial",
   "theorems": [
    "Verif.Props.c38_agree_partial",
    "Verif.Props.c38_false_empty"
   ],
   "note": "equal for every non-empty list of batches; false for the empty list (c38_false_empty)"
  },
  {
   "property": "C39",
   "status": "proved",
   "theorems": [
    "Verif.Props.c39_accumulates",
    "Verif.Props.c39_size_change",
    "Verif.Props.c39_empty_images",
    "Verif.Props.c39_interrupted"
   ],
   "note": "all histories of complete saves, any schedule, sums modulo 2^32; libtiff taken to read back what it wrote; also shown: another size overwrites (c39_size_change), images without rows make the save undefined (c39_empty_images), an interrupted save loses counts (c39_interrupted)"
  },
  {
   "property": "C40",
   "status": "partial",
   "theorems": [
    "Verif.Props.c40_last_save",
    "Verif.Props.c40_first_save_partial",
    "Verif.Props.c40_false_second_save"
   ],
   "note": "holds for the first save into a directory; false after a second one (c40_false_second_save), the spectrum counts only the last save (c40_last_save); the text of the file is C77"
  },
  {
   "property": "C41",
   "status": "proved",
   "theorems": [
    "Verif.Props.c41_names_distinct",
    "Verif.Props.c41_result",
    "Verif.Props.c41_schedule_independent",
    "Verif.Props.c41_progress",
    "Verif.Props.c41_terminates",
    "Verif.Props.c41_completes"
   ],
   "note": "names injective for every bin number; result of every complete run independent of the schedule; progress and termination"
  },
  {
   "property": "C42",
   "status": "proved",
   "theorems": [
    "Verif.Props.c42_hits",
    "Verif.Props.c42_neutrons",
    "Verif.Props.c42_indeterminate"
   ],
   "note": "hits and neutrons, all histories of successful appends to a file without that group; values exact for hits with a time of flight; HDF5 library modelled by lists"
  },
  {
   "property": "C43",
   "status": "partial",
   "theorems": [
    "Verif.Props.c43_false_hits",
    "Verif.Props.c43_never_realigned",
    "Verif.Props.c43_false_neutrons",
    "Verif.Props.c43_aligned_partial",
    "Verif.Props.c43_false_zeros"
   ],
   "note": "holds for failures before the first dataset is resized; false for every later failure point (c43_false_hits, c43_false_neutrons, c43_false_zeros) and never repaired (c43_never_realigned)"
  },
  {
   "property": "C44",
   "status": "partial",
   "theorems": [
    "Verif.Props.c44_group_name",
    "Verif.Props.c44_append",
    "Verif.Props.c44_history",
    "Verif.Props.c44_stamp_differs",
    "Verif.Props.c44_save_partial",
    "Verif.Props.c44_false_collision",
    "Verif.Props.c44_stamp_name",
    "Verif.Props.c44_stamp_no_extension",
    "Verif.Props.c44_stamp_injective"
   ],
   "note": "append mode proved for all histories; saving without append proved when the time-stamped name is free, false when it is taken (c44_false_collision)"
  },
  {
   "property": "C45",
   "status": "partial",
   "theorems": [
    "Verif.Props.c45_defaults",
    "Verif.Props.c45_values",
    "Verif.Props.c45_edges_partial",
    "Verif.Props.c45_uniform",
    "Verif.Props.c45_num_bins",
    "Verif.Props.c45_default_bins",
    "Verif.Props.c45_false_empty_edges",
    "Verif.Props.c45_ill_typed",
    "Verif.Props.c45_negative_wraps",
    "Verif.Props.c45_sections",
    "Verif.Props.c45_no_object",
    "Verif.Props.c45_uniform_kind"
   ],
   "note": "Scalar settings, explicit edges, uniform bins and defaults proved for well-formed objects; false for an empty edge list (c45_false_empty_edges). From the text of the file: C97."
  },
  {
   "property": "C46",
   "status": "partial",
   "theorems": [
    "Verif.Props.c46_last_partial",
    "Verif.Props.c46_last_unique",
    "Verif.Props.c46_false_no_effect",
    "Verif.Props.c46_false_missing",
    "Verif.Props.c46_false_garbage",
    "Verif.Props.c46_negative_wraps",
    "Verif.Props.c46_overflow"
   ],
   "note": "Last value wins for well-formed lines; false for tof settings, missing, malformed and negative values (witnesses proved)."
  },
  {
   "property": "C47",
   "status": "partial",
   "theorems": [
    "Verif.Props.c47_once",
    "Verif.Props.c47_retry_partial",
    "Verif.Props.c47_only_listed",
    "Verif.Props.c47_false_exit",
    "Verif.Props.c47_output",
    "Verif.Props.c47_counts",
    "Verif.Props.c47_empty_file_undefined"
   ],
   "note": "At most once, retry in every completed round, and exact accumulated counts are proved over all histories; false for a file that cannot be opened (process exits) and for a file without headers (undefined behaviour)."
  },
  {
   "property": "C48",
   "status": "partial",
   "theorems": [
    "Verif.Props.c48_listed_partial",
    "Verif.Props.c48_quiet_partial",
    "Verif.Props.c48_false_late",
    "Verif.Props.c48_false_complete",
    "Verif.Props.c48_false_growing"
   ],
   "note": "Files listed by an earlier round are processed; false for files that arrive with the end file, for a directory complete at start, and for files still growing (witnesses proved)."
  },
  {
   "property": "C49",
   "status": "partial",
   "theorems": [
    "Verif.Props.c49_ctor",
    "Verif.Props.c49_alt",
    "Verif.Props.c49_packet_partial",
    "Verif.Props.c49_packet_undefined",
    "Verif.Props.c49_false_packet",
    "Verif.Props.c49_ctor_before_trigger",
    "Verif.Props.c49_after_trigger",
    "Verif.Props.c49_arrival"
   ],
   "note": "Proved for the legacy constructor and packetToHitAlt without condition (c49_ctor, c49_alt) and for packetToHit whenever it is defined; false for packetToHit before the trigger, where the time-of-flight conversion is undefined (c49_packet_undefined). The arrival times are related by c49_arrival."
  },
  {
   "property": "C50",
   "status": "proved",
   "theorems": [
    "Verif.Props.c50_reconstructs",
    "Verif.Props.c50_first_period",
    "Verif.Props.c50_sharp"
   ],
   "note": "All histories of any length; c50_sharp shows the bound 2^29 cannot be weakened."
  },
  {
   "property": "C51",
   "status": "partial",
   "theorems": [
    "Verif.Props.c51_read_iff",
    "Verif.Props.c51_parse_iff",
    "Verif.Props.c51_stream_partial",
    "Verif.Props.c51_false_length",
    "Verif.Props.c51_false_truncated"
   ],
   "note": "False as stated (c51_false_length, c51_false_truncated); the exact sets of buffers on which each reader stays inside are given by c51_read_iff and c51_parse_iff."
  },
  {
   "property": "C52",
   "status": "partial",
   "theorems": [
    "Verif.Props.c52_delivery_partial",
    "Verif.Props.c52_prefix",
    "Verif.Props.c52_false",
    "Verif.Props.c52_reader_batch",
    "Verif.Props.c52_reader_first"
   ],
   "note": "Delivery in order without duplicates holds except for one stretch of fewer than 10000 hits; that stretch can be lost (c52_false: batch.clear() after the loop)."
  },
  {
   "property": "C53",
   "status": "partial",
   "theorems": [
    "Verif.Props.c53_terminates_partial",
    "Verif.Props.c53_false_unopened",
    "Verif.Props.c53_reader",
    "Verif.Props.c53_file_partial"
   ],
   "note": "Terminates for every file that can be opened under every fair schedule; never for a file that cannot be opened (c53_false_unopened)."
  },
  {
   "property": "C54",
   "status": "partial",
   "theorems": [
    "Verif.Props.c54_fifo_partial",
    "Verif.Props.c54_exclusive",
    "Verif.Props.c54_delivered_partial",
    "Verif.Props.c54_terminates",
    "Verif.Props.c54_false"
   ],
   "note": "Proved: under every interleaving of producer, consumer and timer the consumer has seen a prefix of the hits, nothing is overwritten or dropped, and producer and consumer never work on one slot; with fair turns all three end; if no timer tick finds the file finished while hits are waiting, every hit is delivered. False in general (c54_false): the timer kills the consumer as soon as the file is read, and waiting hits are lost. Accesses are taken as sequentially consistent; the C++ has a data race."
  },
  {
   "property": "C55",
   "status": "proved",
   "theorems": [
    "Verif.Props.c55_groups",
    "Verif.Props.c55_empty",
    "Verif.Props.c55_partition"
   ],
   "note": "For every sorting function and every list of clusters with finite ends; eps_time finite. The gap between written clusters is exactly more than eps_time; within a group the gap is at most eps_time after rounding of the difference."
  },
  {
   "property": "C56",
   "status": "proved",
   "theorems": [
    "Verif.Props.c56_read",
    "Verif.Props.c56_read_times",
    "Verif.Props.c56_parse",
    "Verif.Props.c56_pixels"
   ],
   "note": "All complete streams; c56_read_times adds the true times under the hypotheses of C50."
  },
  {
   "property": "C57",
   "status": "partial",
   "theorems": [
    "Verif.Props.c57_sublist_partial",
    "Verif.Props.c57_arrival_partial",
    "Verif.Props.c57_false"
   ],
   "note": "False as stated (c57_false): the fast parser drops hits before the first trigger and global time. The fast hits are a sublist of the legacy ones."
  },
  {
   "property": "C58",
   "status": "partial",
   "theorems": [
    "Verif.Props.c58_default_partial",
    "Verif.Props.c58_false",
    "Verif.Props.c58_count"
   ],
   "note": "False: every returned hit is the default hit (c58_default_partial, c58_false). The function that decodes batches is never called."
  },
  {
   "property": "C59",
   "status": "partial",
   "theorems": [
    "Verif.Props.c59_stream_partial",
    "Verif.Props.c59_false_end",
    "Verif.Props.c59_false_truncated",
    "Verif.Props.c59_false_early"
   ],
   "note": "Holds when all hits follow the trigger in force and the array of the final failing read does not look like a header; false otherwise (c59_false_end, c59_false_truncated, c59_false_early)."
  },
  {
   "property": "C60",
   "status": "proved",
   "theorems": [
    "Verif.Props.c60_components",
    "Verif.Props.c60_chunking"
   ],
   "note": "mlpack is a parameter, assumed to label each point with noise or a used cluster number and to put only connected points into one cluster; std::sort likewise. Arrival counters are 14-bit, as every decoder produces them."
  },
  {
   "property": "C61",
   "status": "partial",
   "theorems": [
    "Verif.Props.c61_new_partial",
    "Verif.Props.c61_false"
   ],
   "note": "Proved for a new object; false for a used one (stale labels)."
  },
  {
   "property": "C62",
   "status": "partial",
   "theorems": [
    "Verif.Props.c62_events",
    "Verif.Props.c62_get_events_partial",
    "Verif.Props.c62_false_labels",
    "Verif.Props.c62_false_cached"
   ],
   "note": "Proved for the events of fit, for all histories, and for get_events after reset; false for the labels and for get_events without reset."
  },
  {
   "property": "C63",
   "status": "partial",
   "theorems": [
    "Verif.Props.c63_blind",
    "Verif.Props.c63_false"
   ],
   "note": "False: fit sees only position and 14-bit counter (c63_blind), and the event's time of flight is the mean counter in nanoseconds (c63_false)."
  },
  {
   "property": "C64",
   "status": "partial",
   "theorems": [
    "Verif.Props.c64_undefined_iff",
    "Verif.Props.c64_stream_partial",
    "Verif.Props.c64_complete_partial",
    "Verif.Props.c64_count",
    "Verif.Props.c64_false",
    "Verif.Props.c64_truncated",
    "Verif.Props.c64_false_truncated",
    "Verif.Props.c64_false_undefined"
   ],
   "note": "For every file of complete chunks the result is proved exactly (c64_stream_partial): all packets if every chunk has fewer than 4096 packets and fewer than 16 modulo 32 (c64_complete_partial). False otherwise (c64_false): the bytes of the size are signed chars. Also false for truncated files: the last packet is shown again for each missing one (c64_truncated), or an uninitialised array is used (c64_false_undefined). For files of any bytes the undefined ones are given exactly; all others are read to the last byte and give hits in the picture (c64_undefined_iff)."
  },
  {
   "property": "C65",
   "status": "proved",
   "theorems": [
    "Verif.Props.c65_quadrant",
    "Verif.Props.c65_injective",
    "Verif.Props.c65_surjective",
    "Verif.Props.c65_gap"
   ],
   "note": "Quadrants, injective and surjective for chips 0 to 3, and equal to the position in the batch program without the gap."
  },
  {
   "property": "C66",
   "status": "partial",
   "theorems": [
    "Verif.Props.c66_counts_partial",
    "Verif.Props.c66_false"
   ],
   "note": "The counted indices are proved exactly and lie inside the array for every file of complete chunks (c66_counts_partial). False as stated (c66_false): the region is tested in coordinates of the chip, not of the picture. Never outside the array for files of any bytes (c64_undefined_iff)."
  },
  {
   "property": "C67",
   "status": "partial",
   "theorems": [
    "Verif.Props.c67_clusters_partial",
    "Verif.Props.c67_partition",
    "Verif.Props.c67_false",
    "Verif.Props.c67_false_rotated"
   ],
   "note": "Refinement and partition proved for every run that ends; false because clusters open at the end are never shown and clusters turned out of the picture are dropped."
  },
  {
   "property": "C68",
   "status": "partial",
   "theorems": [
    "Verif.Props.c68_safe_partial",
    "Verif.Props.c68_bounds",
    "Verif.Props.c68_false_overflow",
    "Verif.Props.c68_false_nan"
   ],
   "note": "Proved for hits of positive TOT with at most 4108 hits in any five ticks; false without either bound. The bound on the array holds always."
  },
  {
   "property": "C69",
   "status": "proved",
   "theorems": [
    "Verif.Props.c69_labels",
    "Verif.Props.c69_returns",
    "Verif.Props.c69_time",
    "Verif.Props.c69_connected",
    "Verif.Props.c69_rounded",
    "Verif.Props.c69_online",
    "Verif.Props.c69_bursts"
   ],
   "note": ""
  },
  {
   "property": "C70",
   "status": "partial",
   "theorems": [
    "Verif.Props.c70_few_partial",
    "Verif.Props.c70_bursts_partial",
    "Verif.Props.c70_false"
   ],
   "note": "False in general: four slots instead of eight, so five simultaneous neutrons are split (c70_false). Equal labels if either library uses labels below four only, and on separated bursts."
  },
  {
   "property": "C71",
   "status": "partial",
   "theorems": [
    "Verif.Props.c71_events_partial",
    "Verif.Props.c71_conservation_partial",
    "Verif.Props.c71_false_empty",
    "Verif.Props.c71_misuse_partial",
    "Verif.Props.c71_same_partial"
   ],
   "note": "Holds for at least one hit (up to 2^31); with none the end of an empty vector is read (c71_false_empty); clusters without charge give no event."
  },
  {
   "property": "C72",
   "status": "partial",
   "theorems": [
    "Verif.Props.c72_false",
    "Verif.Props.c72_reads_partial",
    "Verif.Props.c72_false_no_hits",
    "Verif.Props.c72_false_empty_file",
    "Verif.Props.c72_false_save"
   ],
   "note": "False: a cancelled dialog leaves the timer running and locks the program (c72_false); a file without hits is undefined behaviour; saving events before reading throws out of a slot. Without cancelled dialogs every complete file with 1 to 2^29 - 1 hits is read."
  },
  {
   "property": "C73",
   "status": "partial",
   "theorems": [
    "Verif.Props.c73_safe",
    "Verif.Props.c73_counts",
    "Verif.Props.c73_schedule",
    "Verif.Props.c73_saved",
    "Verif.Props.c73_single_partial",
    "Verif.Props.c73_false",
    "Verif.Props.c73_false_turned"
   ],
   "note": "Counts, safety and order proved. Saved picture and events agree after one file only: the picture accumulates, the events do not (c73_false), and events turned out of the frame are not shown (c73_false_turned)."
  },
  {
   "property": "C74",
   "status": "partial",
   "theorems": [
    "Verif.Props.c74_agree_partial",
    "Verif.Props.c74_stream_partial",
    "Verif.Props.c74_ends_partial",
    "Verif.Props.c74_files_partial",
    "Verif.Props.c74_false_column",
    "Verif.Props.c74_false_terminated",
    "Verif.Props.c74_false_zero_size"
   ],
   "note": "Proved for runs without failing library calls (columns, images, totals, image and spectrum files), from the bytes of any well-formed uncut stream, and such runs exist. Limits: 48-bit spider time in global-clock mode, counts modulo 2^32, increasing edges. False when one append of a column of hits fails (c74_false_column): exit 0 with columns of different lengths; a failing append of neutrons terminates the process (c74_false_terminated); chunk size 0 gives empty outputs (c74_false_zero_size)."
  },
  {
   "property": "C75",
   "status": "partial",
   "theorems": [
    "Verif.Props.c75_grammar",
    "Verif.Props.c75_settings_partial",
    "Verif.Props.c75_order",
    "Verif.Props.c75_false_chunk_size",
    "Verif.Props.c75_too_big",
    "Verif.Props.c75_false_wraps",
    "Verif.Props.c75_false_swallowed",
    "Verif.Props.c75_false_plain_words"
   ],
   "note": "Every accepted line is built from the documented options and its result is exact when -c is an integer below 2^44; order proved. False: text after the number of -c is dropped, -1 and 0 are accepted (c75_false_chunk_size), a forgotten value swallows the next option (c75_false_swallowed), plain words are dropped silently (c75_false_plain_words)."
  },
  {
   "property": "C76",
   "status": "proved",
   "theorems": [
    "Verif.Props.c76_joins",
    "Verif.Props.c76_joins_in_order",
    "Verif.Props.c76_closed",
    "Verif.Props.c76_last_eight",
    "Verif.Props.c76_started",
    "Verif.Props.c76_legacy_last_four",
    "Verif.Props.c76_false_ties"
   ],
   "note": "Proved for spider times below 2^48; without time order with seven in place of eight. For clusters with equal start times the last eight need not be open (c76_false_ties): the first slot is given up again and again."
  },
  {
   "property": "C77",
   "status": "partial",
   "theorems": [
    "Verif.Props.c77_spectrum",
    "Verif.Props.c77_distinct_partial",
    "Verif.Props.c77_uniform_partial",
    "Verif.Props.c77_false_collision",
    "Verif.Props.c77_saved",
    "Verif.Props.c77_gdc",
    "Verif.Props.c77_gdc_file"
   ],
   "note": "Counts, rows and the CSV file are exact and the times have six significant digits with a relative error of at most 1/200000. Different times are printed differently only if they differ by more than one part in 100000, which covers up to 90000 uniform bins; with a million bins neighbouring bins get the same time (c77_false_collision)."
  },
  {
   "property": "C78",
   "status": "partial",
   "theorems": [
    "Verif.Props.c78_ends",
    "Verif.Props.c78_success_partial",
    "Verif.Props.c78_failure_partial",
    "Verif.Props.c78_grammar",
    "Verif.Props.c78_exit_partial",
    "Verif.Props.c78_false_same",
    "Verif.Props.c78_false_full",
    "Verif.Props.c78_false_created"
   ],
   "note": "Exit code, written records and untouched files are proved. False in three cases: a full device gives a cut file and code 0 (c78_false_full), naming the input as the output destroys it (c78_false_same), a refused size leaves a new empty output file (c78_false_created). The exit code is characterised for command lines whose sizes are numbers below 2^44."
  },
  {
   "property": "C79",
   "status": "partial",
   "theorems": [
    "Verif.Props.c79_grammar",
    "Verif.Props.c79_too_big",
    "Verif.Props.c79_settings_partial",
    "Verif.Props.c79_false_interval",
    "Verif.Props.c79_zero_partial",
    "Verif.Props.c79_one",
    "Verif.Props.c79_false_failed"
   ],
   "note": "Command lines are characterised for intervals that are numbers below 2^31; other text is cut (c79_false_interval). Code 0 implies the end marker, that every file listed before was tried, and that the output is what the successful ones give; it is also returned when files failed (c79_false_failed)."
  },
  {
   "property": "C80",
   "status": "partial",
   "theorems": [
    "Verif.Props.c80_hit",
    "Verif.Props.c80_file",
    "Verif.Props.c80_defined_iff",
    "Verif.Props.c80_fast",
    "Verif.Props.c80_global",
    "Verif.Props.c80_triggers",
    "Verif.Props.c80_trigger_fine",
    "Verif.Props.c80_odd_length",
    "Verif.Props.c80_truncated",
    "Verif.Props.c80_false",
    "Verif.Props.c80_trigger_time",
    "Verif.Props.c80_trigger_lines"
   ],
   "note": "Proved for complete files without header look-alikes: positions, durations and times of all hits that have timestamps, and the global time. The fine part is (15 - ftoa)/16 of a tick. False (c80_false): the manufacturer's program counts every packet of type 6 as a trigger (c80_triggers has the exact condition), and is undefined when a global time comes before the first hit (c80_defined_iff), when the length is no multiple of eight and when the last block is cut."
  },
  {
   "property": "C81",
   "status": "partial",
   "theorems": [
    "Verif.Props.c81_last_partial",
    "Verif.Props.c81_no_file",
    "Verif.Props.c81_agree_partial",
    "Verif.Props.c81_false_large",
    "Verif.Props.c81_missing",
    "Verif.Props.c81_negative_wraps",
    "Verif.Props.c81_overflow",
    "Verif.Props.c81_false_garbage"
   ],
   "note": "Proved for well-formed lines (c81_last_partial), and the agreement of the two parsers on every text, malformed or not, with integers below 2^31 that the other parser reads without undefined behaviour (c81_agree_partial). False: values that are no numbers count as 0, negative ones wrap, too large ones saturate at different limits in the two parsers, a missing value keeps the earlier one here and is indeterminate there."
  },
  {
   "property": "C82",
   "status": "partial",
   "theorems": [
    "Verif.Props.c82_hits",
    "Verif.Props.c82_events",
    "Verif.Props.c82_refused",
    "Verif.Props.c82_no_silent_loss",
    "Verif.Props.c82_other_files",
    "Verif.Props.c82_determines_hits",
    "Verif.Props.c82_false_atomic",
    "Verif.Props.c82_half_written",
    "Verif.Props.c82_stream_partial",
    "Verif.Props.c82_small",
    "Verif.Props.c82_false_lost"
   ],
   "note": "The save functions are proved correct for all inputs and failures, and the streaming program from the bytes to the file for every interleaving (c82_stream_partial). False: an interrupted save destroys the earlier file (c82_false_atomic); hits can be lost, up to all of a file with fewer than 10000 (c82_false_lost); a file without a cluster of eight hits makes the program end with an uncaught exception (c82_small)."
  },
  {
   "property": "C83",
   "status": "proved",
   "theorems": [
    "Verif.Props.c83_interleaved",
    "Verif.Props.c83_in_order",
    "Verif.Props.c83_legacy",
    "Verif.Props.c83_false_nine"
   ],
   "note": "Also for the legacy library with three (four). The bound is needed: nine interleaved neutrons of three hits each are taken for twenty-seven (c83_false_nine)."
  },
  {
   "property": "C84",
   "status": "partial",
   "theorems": [
    "Verif.Props.c84_cut_partial",
    "Verif.Props.c84_events_partial",
    "Verif.Props.c84_false_split"
   ],
   "note": "Holds wherever the file is cut, for the packets that are kept (c84_cut_partial). Missing: neutrons with hits in two chunks, for which it is false, the neutron is counted twice (c84_false_split)."
  },
  {
   "property": "C85",
   "status": "partial",
   "theorems": [
    "Verif.Props.c85_events",
    "Verif.Props.c85_neutrons",
    "Verif.Props.c85_count_partial",
    "Verif.Props.c85_false_count",
    "Verif.Props.c85_false_alone",
    "Verif.Props.c85_options"
   ],
   "note": "Events proved for every schedule. False for the reported number of events with several rounds and for hits of later chunks without the option tgdc, which is off by default."
  },
  {
   "property": "C86",
   "status": "partial",
   "theorems": [
    "Verif.Props.c86_h5_partial",
    "Verif.Props.c86_tof",
    "Verif.Props.c86_false_tof",
    "Verif.Props.c86_csv_partial",
    "Verif.Props.c86_false_csv",
    "Verif.Props.c86_others",
    "Verif.Props.c86_false_ending",
    "Verif.Props.c86_csv_read_partial"
   ],
   "note": "Proved for HDF5 and text except the time of flight, which is converted twice; text is appended after the text of earlier runs; other endings write nothing and report success. c86_csv_read_partial: the bytes of a new text file read back as a table with one row for every event."
  },
  {
   "property": "C87",
   "status": "partial",
   "theorems": [
    "Verif.Props.c87_coordinate",
    "Verif.Props.c87_coordinate_iff",
    "Verif.Props.c87_undefined",
    "Verif.Props.c87_false_undefined",
    "Verif.Props.c87_false_same"
   ],
   "note": "False: coordinates from 512.0078 on are undefined conversions (exact condition: c87_coordinate_iff), and numbers are written as decimal text without separator, so different events give the same file."
  },
  {
   "property": "C88",
   "status": "partial",
   "theorems": [
    "Verif.Props.c88_exact",
    "Verif.Props.c88_partial",
    "Verif.Props.c88_false",
    "Verif.Props.c88_rate"
   ],
   "note": "Proved: the count is exact for a thousandth of the period (milliseconds are compared with seconds), hence an upper bound. False as stated."
  },
  {
   "property": "C89",
   "status": "partial",
   "theorems": [
    "Verif.Props.c89_partial",
    "Verif.Props.c89_stale",
    "Verif.Props.c89_empty",
    "Verif.Props.c89_false",
    "Verif.Props.c89_raw2hits",
    "Verif.Props.c89_false_raw2hits"
   ],
   "note": "Proved when there is a hit and no such file. False when the file exists (the hits go to a new name, the old file is read), without hits (uncaught exception), and for the number of hits of benchmark_raw2hits, which carries no timestamps."
  },
  {
   "property": "C90",
   "status": "proved",
   "theorems": [
    "Verif.Props.c90_hits",
    "Verif.Props.c90_count",
    "Verif.Props.c90_nothing_lost",
    "Verif.Props.c90_bound",
    "Verif.Props.c90_one_piece"
   ],
   "note": "c90_hits gives the hits and events of every batch, c90_count, c90_nothing_lost, c90_bound and c90_one_piece what is lost."
  },
  {
   "property": "C91",
   "status": "partial",
   "theorems": [
    "Verif.Props.c91_labels_partial",
    "Verif.Props.c91_legacy_partial",
    "Verif.Props.c91_events_partial",
    "Verif.Props.c91_false_radius",
    "Verif.Props.c91_false_late"
   ],
   "note": "c91_labels_partial, c91_legacy_partial and c91_events_partial under the stated bounds; false for a radius within 2^-50 of a whole number (c91_false_radius) and for times that a double does not resolve (c91_false_late)."
  },
  {
   "property": "C92",
   "status": "proved",
   "theorems": [
    "Verif.Props.c92_global",
    "Verif.Props.c92_trigger",
    "Verif.Props.c92_agree",
    "Verif.Props.c92_false_late",
    "Verif.Props.c92_false_slow",
    "Verif.Props.c92_false_second",
    "Verif.Props.c92_disguise"
   ],
   "note": "c92_global, c92_trigger, c92_agree; c92_disguise says exactly which packets look like headers. The conditions are needed: c92_false_late, c92_false_slow, c92_false_second."
  },
  {
   "property": "C93",
   "status": "partial",
   "theorems": [
    "Verif.Props.c93_chunks",
    "Verif.Props.c93_hits",
    "Verif.Props.c93_events_partial",
    "Verif.Props.c93_false_disguise"
   ],
   "note": "c93_chunks, c93_hits and c93_events_partial; missing: neutrons with hits in two readouts, for which it is false (c84_false_split; C111 has the exact number). False for readouts with a pixel whose packet starts with TPX (c93_false_disguise)."
  },
  {
   "property": "C94",
   "status": "proved",
   "theorems": [
    "Verif.Props.c94_hits",
    "Verif.Props.c94_misdated_iff",
    "Verif.Props.c94_defined",
    "Verif.Props.c94_ends",
    "Verif.Props.c94_undefined_iff",
    "Verif.Props.c94_sound_gdc",
    "Verif.Props.c94_untimed",
    "Verif.Props.c94_witnesses"
   ],
   "note": "Exact (iff). Assumes distinct file names and, when images are asked for, that they can be set up; that an output or the events read the time of flight of every hit (hits written, hit images, or minimum cluster size at most 1); c94_sound_gdc and c94_misdated_iff say what the condition means for a file."
  },
  {
   "property": "C95",
   "status": "partial",
   "theorems": [
    "Verif.Props.c95_hits",
    "Verif.Props.c95_labels",
    "Verif.Props.c95_events_partial",
    "Verif.Props.c95_position",
    "Verif.Props.c95_threads_partial",
    "Verif.Props.c95_cuts",
    "Verif.Props.c95_threads_aligned_partial",
    "Verif.Props.c95_false_threads",
    "Verif.Props.c95_false_many",
    "Verif.Props.c95_false_draw",
    "Verif.Props.c95_false_charge"
   ],
   "note": "Labels, events and positions proved for every draw whose first arrival time is not the lower end of its range, and for thread pieces whose length is a multiple of ten (the 64 threads of the program). False: that draw makes fit undefined (c95_false_draw), a cluster without charge gives no event (c95_false_charge), other numbers of threads cut clusters (exact count: c95_cuts, c95_false_threads), more threads than hits read an empty vector (c95_false_many)."
  },
  {
   "property": "C96",
   "status": "partial",
   "theorems": [
    "Verif.Props.c96_steps",
    "Verif.Props.c96_runs",
    "Verif.Props.c96_loop_writes",
    "Verif.Props.c96_loop_reads",
    "Verif.Props.c96_loop",
    "Verif.Props.c96_false_stream",
    "Verif.Props.c96_false_stream_fair",
    "Verif.Props.c96_stream_writes",
    "Verif.Props.c96_stream_reads",
    "Verif.Props.c96_stream_queue",
    "Verif.Props.c96_ring_writes",
    "Verif.Props.c96_ring_reads",
    "Verif.Props.c96_false_display",
    "Verif.Props.c96_false_display_end",
    "Verif.Props.c96_display_places",
    "Verif.Props.c96_display_atomic",
    "Verif.Props.c96_loop_same"
   ],
   "note": "Proved for the parallel loop (c96_loop); the lists of accesses are proved complete (\u2026_writes, \u2026_reads). False for the streaming program: every run that ends has a race on done, even if every queue operation synchronised with every later one. False for the display: every run that takes a hit has a race on pi and on a slot, every run that ends one on the flags. Proved that the display would have none if its indices and flags were atomic (c96_display_atomic)."
  },
  {
   "property": "C97",
   "status": "partial",
   "theorems": [
    "Verif.Props.c97_reads",
    "Verif.Props.c97_only",
    "Verif.Props.c97_object",
    "Verif.Props.c97_standard",
    "Verif.Props.c97_unambiguous",
    "Verif.Props.c97_false_trailing",
    "Verif.Props.c97_last",
    "Verif.Props.c97_settings",
    "Verif.Props.c97_invalid",
    "Verif.Props.c97_not_object",
    "Verif.Props.c97_values_partial",
    "Verif.Props.c97_extension",
    "Verif.Props.c97_old_format_partial",
    "Verif.Props.c97_missing",
    "Verif.Props.c97_empty_object",
    "Verif.Props.c97_main",
    "Verif.Props.c97_false_extension",
    "Verif.Props.c97_false_reducer_old"
   ],
   "note": "Reader proved sound and complete against the grammar, unambiguity, settings from text for both programs. False in the strict reading: text after the value is ignored (c97_false_trailing), JSON under another extension gives defaults (c97_false_extension), the reducer rejects the old format (c97_false_reducer_old). The JSON library is modelled by its documented contract."
  },
  {
   "property": "C98",
   "status": "partial",
   "theorems": [
    "Verif.Props.c98_images",
    "Verif.Props.c98_same_images_partial",
    "Verif.Props.c98_hits_partial",
    "Verif.Props.c98_neutrons_partial",
    "Verif.Props.c98_program_partial",
    "Verif.Props.c98_false_polls"
   ],
   "note": "Proved for files that date their own hits (a global time other than 0 and then a trigger before the first hit packet), down to the words of the command line; for neutrons also that the hits of every chunk can be told apart (as in C84). False otherwise: the timestamps go from file to file within a poll and start again at zero in every poll, so that hits of a file are counted or lost depending on the grouping (c98_false_polls)."
  },
  {
   "property": "C99",
   "status": "partial",
   "theorems": [
    "Verif.Props.c99_hits_partial",
    "Verif.Props.c99_neutrons_partial",
    "Verif.Props.c99_reducer_hits_partial",
    "Verif.Props.c99_reducer_neutrons_partial",
    "Verif.Props.c99_false_undated"
   ],
   "note": "Proved for timely signals (as in C92, C93) without disguised packets and, for the program, files that the reader does not cut inside a chunk (C110 for files that it cuts); for the reducer, files that start with a clock and a trigger; for neutrons, hits that can be told apart (as in C84). False for files that do not start with a clock and a trigger (c99_false_undated)."
  },
  {
   "property": "C100",
   "status": "partial",
   "theorems": [
    "Verif.Props.c100_parse",
    "Verif.Props.c100_stream_partial",
    "Verif.Props.c100_read_partial",
    "Verif.Props.c100_clocks",
    "Verif.Props.c100_extractor_partial",
    "Verif.Props.c100_false_period",
    "Verif.Props.c100_false_before"
   ],
   "note": "Proved for parseRawBytesToHits under the conditions in which a clock extended forward is right; for the streaming reader if the array that its last read leaves unset does not look like a header; for readTimepix3RawData up to the time of flight, which counts from multiples of 666667 ticks; for the extractor if the file is shorter than the chunk size (a sublist otherwise). False for pixels sent after a clock but fired before it and for triggers at other times."
  },
  {
   "property": "C101",
   "status": "partial",
   "theorems": [
    "Verif.Props.c101_exists",
    "Verif.Props.c101_determined",
    "Verif.Props.c101_shift",
    "Verif.Props.c101_mirror",
    "Verif.Props.c101_row",
    "Verif.Props.c101_gaussian_partial",
    "Verif.Props.c101_circle",
    "Verif.Props.c101_block",
    "Verif.Props.c101_events",
    "Verif.Props.c101_stream",
    "Verif.Props.c101_false_corner",
    "Verif.Props.c101_false_far"
   ],
   "note": "proved when the signals above the median, less the median, lie on a Gaussian (c101_gaussian_partial); false when the signals themselves lie on one (c101_false_corner). Four hits in a square above the median always give the middle (c101_block); clusters in one row leave the solution undetermined (c101_row); an event can lie more than four pixels from every hit of its cluster (c101_false_far). The solver enters as an assumption."
  },
  {
   "property": "C102",
   "status": "partial",
   "theorems": [
    "Verif.Props.c102_batches_partial",
    "Verif.Props.c102_neutrons_partial",
    "Verif.Props.c102_false"
   ],
   "note": "proved when the reader is through before the processor starts (c102_neutrons_partial) and, for every interleaving, for the neutrons of each batch (c102_batches_partial); false in general: an interleaving loses all hits of a file of fewer than 10000 hits (c102_false)."
  },
  {
   "property": "C103",
   "status": "partial",
   "theorems": [
    "Verif.Props.c103_hits_partial",
    "Verif.Props.c103_clusters",
    "Verif.Props.c103_place",
    "Verif.Props.c103_worker_partial",
    "Verif.Props.c103_neutrons_partial",
    "Verif.Props.c103_apart",
    "Verif.Props.c103_false_turn",
    "Verif.Props.c103_false_few"
   ],
   "note": "False in general: a multiple of 2^30 ticks between trigger and pixel makes the time of flight 3*2^30 ticks too long (c103_false_turn, for all such times); the last 127 neutrons are never counted or shown (c103_false_few); readouts of 16 to 31 packets (mod 32) are cut (C64). Proved: exact hits under the same-turn condition, uniqueness of the grouping for neutrons that can be told apart among the last 127 (with a sufficient condition c103_apart), the count, and the place within one and 2^-29 of a place of the exact rotated weighted mean, for every schedule in which the timer waits for the clustering."
  },
  {
   "property": "C104",
   "status": "partial",
   "theorems": [
    "Verif.Props.c104_events_partial",
    "Verif.Props.c104_picture",
    "Verif.Props.c104_false_edge",
    "Verif.Props.c104_false_tof"
   ],
   "note": "Proved for files whose pixels fire less than 13.4 s apart in the first 2^48 ticks and whose neutrons the older clustering can tell apart: events one to one and in order (c104_events_partial), the picture up to 2^-29 pixels at borders of cells (c104_picture). False: times of flight count from multiples of 666667 ticks (c104_false_tof); neutrons in columns from 512 on are events but never in the picture (c104_false_edge)."
  },
  {
   "property": "C105",
   "status": "partial",
   "theorems": [
    "Verif.Props.c105_events_partial",
    "Verif.Props.c105_bad_partial",
    "Verif.Props.c105_undated",
    "Verif.Props.c105_complete",
    "Verif.Props.c105_alone",
    "Verif.Props.c105_false_alone",
    "Verif.Props.c105_false_split"
   ],
   "note": "Proved with the option tgdc for files that start with a clock and a trigger, for neutrons within one readout, but for the time of flight (25 times too long, C86) and the bad hits (a thousandth of the period, C88). False without tgdc, where a readout without its own clock or trigger gives nothing (c105_alone, c105_false_alone), and for neutrons over two readouts (c105_false_split)."
  },
  {
   "property": "C106",
   "status": "proved",
   "theorems": [
    "Verif.Props.c106_time",
    "Verif.Props.c106_time_small",
    "Verif.Props.c106_false_time",
    "Verif.Props.c106_check",
    "Verif.Props.c106_complete",
    "Verif.Props.c106_read",
    "Verif.Props.c106_true_times",
    "Verif.Props.c106_false_ftoa",
    "Verif.Props.c106_false_room",
    "Verif.Props.c106_shipped",
    "Verif.Props.c106_tested",
    "Verif.Props.c106_open"
   ],
   "note": "Generalises main to any packets. False outside: counters beyond their fields (c106_false_time), a fine counter of more than four bits (c106_false_ftoa), a full disk (c106_false_room)."
  },
  {
   "property": "C107",
   "status": "proved",
   "theorems": [
    "Verif.Props.c107_batches",
    "Verif.Props.c107_single",
    "Verif.Props.c107_agree",
    "Verif.Props.c107_terminates",
    "Verif.Props.c107_progress",
    "Verif.Props.c107_runs",
    "Verif.Props.c107_detector",
    "Verif.Props.c107_events_partial",
    "Verif.Props.c107_false_detector",
    "Verif.Props.c107_threads",
    "Verif.Props.c107_threads_run"
   ],
   "note": "c107_agree, c107_terminates, c107_progress and c107_runs hold for every file and schedule, c107_single gives the number for every byte string; c107_detector and c107_events_partial (only for a readout file whose dated pixels are timely) say what it is for a detector, c107_false_detector that it is not the number of pixels that fired."
  },
  {
   "property": "C108",
   "status": "partial",
   "theorems": [
    "Verif.Props.c108_ends_partial",
    "Verif.Props.c108_hits_partial",
    "Verif.Props.c108_neutrons_partial",
    "Verif.Props.c108_reducer_hits_partial",
    "Verif.Props.c108_reducer_neutrons_partial"
   ],
   "note": "Holds for JSON configurations with the extension .json (command line) and a moderate super resolution, for measurements in which readouts carry their times in order, whose file is not cut inside a readout by the piece size (a file up to 5120 MB by default is not cut), with resolved neutrons in neutron mode and flight times below 2^22 ticks without clock. Other extensions: c97_false_extension; cut files: C90; undated parts: c99_false_undated."
  },
  {
   "property": "C109",
   "status": "proved",
   "theorems": [
    "Verif.Props.c109_lines",
    "Verif.Props.c109_detector",
    "Verif.Props.c109_unique",
    "Verif.Props.c109_defined",
    "Verif.Props.c109_false_name",
    "Verif.Props.c109_missing"
   ],
   "note": "c109_detector via refMain; c109_lines for arbitrary packets; c109_unique: equal lines come from equal packets; c109_defined: where the program is defined in the strict sense (c80_defined_iff) the lines are the same; c109_false_name: the exception excluded by the hypothesis on the name."
  },
  {
   "property": "C110",
   "status": "partial",
   "theorems": [
    "Verif.Props.c110_chunks",
    "Verif.Props.c110_prefix",
    "Verif.Props.c110_timely",
    "Verif.Props.c110_lost",
    "Verif.Props.c110_hits",
    "Verif.Props.c110_events_partial",
    "Verif.Props.c110_images_partial",
    "Verif.Props.c110_neutron_images_partial",
    "Verif.Props.c110_false_trigger"
   ],
   "note": "c110_chunks, c110_prefix, c110_timely, c110_lost and c110_hits hold for every size; c110_events_partial, c110_images_partial and c110_neutron_images_partial need, for neutrons, hits that can be told apart and, for images, the conditions of C74. Timely signals without disguised packets, as in C93. When a trigger is lost the times of the hits after it are wrong (c110_false_trigger)."
  },
  {
   "property": "C111",
   "status": "proved",
   "theorems": [
    "Verif.Props.c111_events",
    "Verif.Props.c111_atleast",
    "Verif.Props.c111_once_iff"
   ],
   "note": "c111_events, c111_atleast, c111_once_iff. It makes exact what c84_false_split shows: a neutron over a border is counted twice."
  },
  {
   "property": "C112",
   "status": "partial",
   "theorems": [
    "Verif.Props.c112_read_iff",
    "Verif.Props.c112_busy",
    "Verif.Props.c112_at_rest",
    "Verif.Props.c112_ready",
    "Verif.Props.c112_saved",
    "Verif.Props.c112_detector_partial",
    "Verif.Props.c112_false_unread",
    "Verif.Props.c112_false_unopened",
    "Verif.Props.c112_false_full",
    "Verif.Props.c112_false_same",
    "Verif.Props.c112_false_hasty"
   ],
   "note": "Proved for files that can be opened and disks with room (and fewer than 2^53 places). False otherwise: a spectrum saved before the first reading was never set, a name that cannot be opened is undefined behaviour, a full disk cuts the file short without a word, one name for both files leaves only the spectrum, and an early tick of the timer leaves a picture without neutrons beside a full spectrum (all proved). The files whose reading is undefined are given exactly (c112_read_iff)."
  },
  {
   "property": "C113",
   "status": "proved",
   "theorems": [
    "Verif.Props.c113_groups"
   ],
   "note": "c113_groups, under the contracts Dbscan1D and Dbscan2D for mlpack (DESIGN.md); compFit_dbscan shows that the contract can be met. The time of an event is the mean over all hits connected in time with it, which may include hits of other neutrons."
  },
  {
   "property": "C114",
   "status": "partial",
   "theorems": [
    "Verif.Props.c114_fast_partial",
    "Verif.Props.c114_legacy_partial",
    "Verif.Props.c114_dbscan_partial",
    "Verif.Props.c114_false_charge",
    "Verif.Props.c114_false_gap",
    "Verif.Props.c114_false_edge"
   ],
   "note": "False in general. c114_fast_partial and c114_legacy_partial: for draws not within 2^-45 of the upper end the tests of ABS pass exactly if in each cluster a hit has a time over threshold of at least one; otherwise they read behind the vector of events (c114_false_charge). c114_dbscan_partial: the test of DBSCAN passes exactly if the times of arrival have no gap of more than 320 ticks; otherwise it reads behind the events (c114_false_gap). c114_false_edge: a draw just below one is rounded up to the next pixel. The probability of these outcomes is not computed."
  },
  {
   "property": "C115",
   "status": "partial",
   "theorems": [
    "Verif.Props.c115_hit",
    "Verif.Props.c115_hits_differ",
    "Verif.Props.c115_hit_undefined",
    "Verif.Props.c115_neutron_partial",
    "Verif.Props.c115_event_partial",
    "Verif.Props.c115_false_neutron",
    "Verif.Props.c115_json_partial",
    "Verif.Props.c115_json_fails",
    "Verif.Props.c115_user_partial",
    "Verif.Props.c115_params_partial",
    "Verif.Props.c115_max_partial",
    "Verif.Props.c115_false_settings",
    "Verif.Props.c115_false_unset"
   ],
   "note": "c115_hit, c115_hits_differ: a hit can be read back exactly from its text; c115_hit_undefined: the text is undefined exactly for hits without a time of flight. c115_neutron_partial, c115_event_partial, c115_json_partial, c115_user_partial, c115_params_partial: counts and sizes exactly, doubles only with six digits and the charge of a neutron not at all; the number of bins agrees with the edges in use. c115_json_fails: fails exactly where reading the settings fails. c115_max_partial: the maximum shown is that of the last edge. c115_false_neutron, c115_false_settings, c115_false_unset: different neutrons and different settings have the same text, and the text says that no bins are set when 1500 default bins are used."
  },
  {
   "property": "C116",
   "status": "partial",
   "theorems": [
    "Verif.Props.c116_event",
    "Verif.Props.c116_written",
    "Verif.Props.c116_fit",
    "Verif.Props.c116_false_box",
    "Verif.Props.c116_bin_partial",
    "Verif.Props.c116_false_bin",
    "Verif.Props.c116_false_pixel",
    "Verif.Props.c116_finite",
    "Verif.Props.c116_false_nan"
   ],
   "note": "Proved: events (c116_event), clusters (c116_fit, unless the feature size lies less than 2^-32 below an integer), bins of times clear of the edges (c116_bin_partial), finite entries (c116_finite). False in general: a time at an edge falls into another bin (c116_false_bin), a mean at half a pixel into another pixel (c116_false_pixel), a feature size just below an integer accepts differently (c116_false_box), and without the NaN test an event without charge is converted to an undefined pixel number (c116_false_nan)."
  },
  {
   "property": "C117",
   "status": "partial",
   "theorems": [
    "Verif.Props.c117_print",
    "Verif.Props.c117_release",
    "Verif.Props.c117_unknown",
    "Verif.Props.c117_default",
    "Verif.Props.c117_greater",
    "Verif.Props.c117_history",
    "Verif.Props.c117_dry",
    "Verif.Props.c117_dry_says",
    "Verif.Props.c117_reading",
    "Verif.Props.c117_lines",
    "Verif.Props.c117_check",
    "Verif.Props.c117_false_changelog",
    "Verif.Props.c117_number_partial",
    "Verif.Props.c117_false_number",
    "Verif.Props.c117_false_remark",
    "Verif.Props.c117_false_octal",
    "Verif.Props.c117_false_prefix",
    "Verif.Props.c117_false_tab",
    "Verif.Props.c117_tab",
    "Verif.Props.c117_false_dashes",
    "Verif.Props.c117_print_part",
    "Verif.Props.c117_print_unknown",
    "Verif.Props.c117_words"
   ],
   "note": "Proved for version files whose three definitions are separated by blanks, have decimal numbers without leading zeros and no other digits in the line (c117_print, c117_release, c117_history, c117_check); for all files: dry run and other actions change nothing (c117_dry, c117_reading, c117_unknown), lines without the names stay (c117_lines). False: a remark with digits makes the release fail with the file changed (c117_false_remark), leading zeros are octal (c117_false_octal), longer names are destroyed (c117_false_prefix), tabs are not read (c117_false_tab), an action after -- is lost (c117_false_dashes), the empty changelog of the repository fails every check (c117_false_changelog), from 256 on VERSION_NUMBER repeats (c117_false_number)."
  },
  {
   "property": "C118",
   "status": "partial",
   "theorems": [
    "Verif.Props.c118_total",
    "Verif.Props.c118_others",
    "Verif.Props.c118_saved",
    "Verif.Props.c118_agree",
    "Verif.Props.c118_detector_partial",
    "Verif.Props.c118_false_same",
    "Verif.Props.c118_false_empty",
    "Verif.Props.c118_false_fault",
    "Verif.Props.c118_false_full",
    "Verif.Props.c118_false_unopened"
   ],
   "note": "Proved for every session that is not ended by an exception, two different names, room for the picture and a last file with events (c118_saved, c118_agree, c118_total); c118_others holds for all sessions. For detectors whose neutrons can be told apart the picture counts neutrons (c118_detector_partial). False otherwise: the same name twice loses the picture, no events end the program after the picture is written, a failing HDF5 call ends the program and loses the earlier file, a full disk leaves a cut picture without notice, a name that cannot be opened is undefined behaviour."
  },
  {
   "property": "C119",
   "status": "proved",
   "theorems": [
    "Verif.Props.c119_packet",
    "Verif.Props.c119_resync",
    "Verif.Props.c119_header",
    "Verif.Props.c119_short",
    "Verif.Props.c119_cut",
    "Verif.Props.c119_before",
    "Verif.Props.c119_false_heals",
    "Verif.Props.c119_false_untimed",
    "Verif.Props.c119_false_lookalike",
    "Verif.Props.c119_false_size",
    "Verif.Props.c119_false_shift",
    "Verif.Props.c119_false_trigger"
   ],
   "note": "Output means hits and events of every batch of a run that ends (when it ends is C94). The negations are proved on concrete files; that a shifted trigger time is never made good is proved for all continuations."
  },
  {
   "property": "C120",
   "status": "proved",
   "theorems": [
    "Verif.Props.c120_overflow",
    "Verif.Props.c120_round",
    "Verif.Props.c120_exact",
    "Verif.Props.c120_add",
    "Verif.Props.c120_sub",
    "Verif.Props.c120_mul",
    "Verif.Props.c120_div",
    "Verif.Props.c120_compare",
    "Verif.Props.c120_abs",
    "Verif.Props.c120_convert",
    "Verif.Props.c120_unsigned",
    "Verif.Props.c120_roundAway"
   ],
   "note": "The specification is written from the text of the standard (format, nearest value, ties to even, invalid operations) and uses nothing of the model. Zeros have no sign in the model: a zero divisor counts as positive. What the build option -ffast-math may change is C116."
  },
  {
   "property": "C121",
   "status": "partial",
   "theorems": [
    "Verif.Props.c121_agree",
    "Verif.Props.c121_false_more",
    "Verif.Props.c121_unread",
    "Verif.Props.c121_nothing",
    "Verif.Props.c121_false_stale",
    "Verif.Props.c121_false_readonly",
    "Verif.Props.c121_false_right",
    "Verif.Props.c121_same_iff"
   ],
   "note": "Proved if every run writes its file (c121_agree, all schedules). False in general, with witnesses: text files of an earlier benchmark with fewer repetitions are continued, so all new files are reported as different (c121_false_more), an unreadable input with old equal files is reported as agreement (c121_false_stale), runs that fail on an input that may only be read are not noticed (c121_false_readonly), and agreement is not correctness (c121_false_right). With nothing to compare it says so (c121_nothing, c121_unread)."
  },
  {
   "property": "C122",
   "status": "proved",
   "theorems": [
    "Verif.Props.c122_hits",
    "Verif.Props.c122_linear",
    "Verif.Props.c122_events",
    "Verif.Props.c122_events_run",
    "Verif.Props.c122_rounds",
    "Verif.Props.c122_rounds_most",
    "Verif.Props.c122_false_words",
    "Verif.Props.c122_sharp"
   ],
   "note": "c122_hits is for every file; c122_linear adds that no header is nested; c122_false_words and c122_sharp give the files that reach the factor 6143; c122_rounds and c122_rounds_most count the rounds of the tof loop."
  },
  {
   "property": "C123",
   "status": "proved",
   "theorems": [
    "Verif.Props.c123_packet",
    "Verif.Props.c123_file",
    "Verif.Props.c123_false_chip"
   ],
   "note": "c123_packet is for one packet, c123_file for whole runs. For a chip other than 0 to 3 it is false (c123_false_chip): such a packet is written as one of chip 3."
  },
  {
   "property": "C124",
   "status": "proved",
   "theorems": [
    "Verif.Props.c124_hits",
    "Verif.Props.c124_events",
    "Verif.Props.c124_images",
    "Verif.Props.c124_unasked",
    "Verif.Props.c124_false_failure",
    "Verif.Props.c124_false_defined"
   ],
   "note": "For runs that do not end normally it is false: a file of hits that cannot be written takes the neutrons with it (c124_false_failure), and asking for the file of hits can make the behaviour undefined (c124_false_defined)."
  },
  {
   "property": "C125",
   "status": "partial",
   "theorems": [
    "Verif.Props.c125_outputs",
    "Verif.Props.c125_own_only",
    "Verif.Props.c125_sublist",
    "Verif.Props.c125_none",
    "Verif.Props.c125_ends_iff",
    "Verif.Props.c125_false_ends",
    "Verif.Props.c125_false_find",
    "Verif.Props.c125_false_agree"
   ],
   "note": "Proved: what the outputs of every run that ends normally hold (c125_outputs); a failure costs its own batches only, if it is not in the search for batches (c125_own_only, c125_sublist); without failures the model is that of the other properties (c125_none); exactly when the program ends (c125_ends_iff). False, with proofs: if the chunk can never be allocated the program never ends (c125_false_ends); a failed search loses the timestamps of the chunk and with them hits of later chunks (c125_false_find); the outputs of the failing batch disagree (c125_false_agree). Not modelled: more than one failure in a round, failures before the loop."
  },
  {
   "property": "C126",
   "status": "partial",
   "theorems": [
    "Verif.Props.c126_gdc",
    "Verif.Props.c126_parts",
    "Verif.Props.c126_untriggered",
    "Verif.Props.c126_tdc",
    "Verif.Props.c126_false_half",
    "Verif.Props.c126_false_round",
    "Verif.Props.c126_false_inside"
   ],
   "note": "Proved with the exact conditions (c126_gdc, c126_parts, c126_tdc, c126_untriggered). Without them the claim is false: a part that begins between the two halves of the global time gives a hit another time of flight without notice (c126_false_half), in trigger-only mode a new round of the counter makes the joined run undefined while the parts are fine (c126_false_round), and a division inside a chunk loses hits (c126_false_inside)."
  },
  {
   "property": "C127",
   "status": "partial",
   "theorems": [
    "Verif.Props.c127_times",
    "Verif.Props.c127_hits",
    "Verif.Props.c127_odd",
    "Verif.Props.c127_false_even"
   ],
   "note": "Time bins: c127_times; hits: c127_hits; neutrons at odd super resolution: c127_odd (pixels below 517, coordinates finite and not negative; the images at the finer setting also hold the neutrons in [516.5, 517), which the coarser ones drop). False for even super resolutions: c127_false_even gives two neutrons with the same image at 2 and different ones at 1, so no sum of finer pixels gives the coarser ones."
  },
  {
   "property": "C128",
   "status": "proved",
   "theorems": [
    "Verif.Props.c128_events",
    "Verif.Props.c128_run",
    "Verif.Props.c128_files",
    "Verif.Props.c128_images",
    "Verif.Props.c128_ends",
    "Verif.Props.c128_false_radius",
    "Verif.Props.c128_false_range"
   ],
   "note": "Object: c128_events; processing of a file: c128_run; end of the program: c128_ends; files: c128_files; images: c128_images (fewer than 2^32 neutrons, so that pixels do not wrap). The radius and the time range have no such order: c128_false_radius and c128_false_range give hits that make 2 neutrons with a setting and 3 with a greater one."
  },
  {
   "property": "C129",
   "status": "proved",
   "theorems": [
    "Verif.Props.c129_packets",
    "Verif.Props.c129_clock_first",
    "Verif.Props.c129_read",
    "Verif.Props.c129_files",
    "Verif.Props.c129_totals",
    "Verif.Props.c129_false_zero",
    "Verif.Props.c129_false_times"
   ],
   "note": "The exact relation of the two modes is proved for every file without a trigger counter of zero, which the claim excludes; c129_false_zero and c129_false_times show that the exclusions are needed. Files of hits: write operations succeed and the arrival times stay below 2^48 ticks."
  }
 ]
}
