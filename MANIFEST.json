{
 "claims": [
  {
   "property": "C01",
   "status": "proved",
   "theorems": [
    "TDP.RangeCoder.C01_range_coder_roundtrip",
    "TDP.RangeCoder.C01_numbers"
   ],
   "note": ""
  },
  {
   "property": "C02",
   "status": "proved",
   "theorems": [
    "TDP.RangeCoder.C02_blocks_self_delimiting",
    "TDP.RangeCoder.C01_range_coder_roundtrip",
    "TDP.RangeCoder.C02_bytecount"
   ],
   "note": ""
  },
  {
   "property": "C03",
   "status": "proved",
   "theorems": [
    "TDP.QsModel.C03_model_consistent",
    "TDP.QsModel.C03_lockstep"
   ],
   "note": ""
  },
  {
   "property": "C04",
   "status": "proved",
   "theorems": [
    "TDP.QsModel.C04_getsym_inverts",
    "TDP.QsModel.C04_small_total_reads_uninitialised"
   ],
   "note": "The second theorem is a witness that totals below 2^7, which the project does not use, read an uninitialised table entry."
  },
  {
   "property": "C05",
   "status": "proved",
   "theorems": [
    "TDP.Blocks.C05_removed_vertices_roundtrip"
   ],
   "note": ""
  },
  {
   "property": "C06",
   "status": "proved",
   "theorems": [
    "TDP.Blocks.C06_inserted_edges_roundtrip"
   ],
   "note": ""
  },
  {
   "property": "C07",
   "status": "proved",
   "theorems": [
    "TDP.Stream.C07_progressive_roundtrip"
   ],
   "note": "The decoder is given the numbers of visited faces and edges per level; that its traversal visits as many is C14/C15."
  },
  {
   "property": "C08",
   "status": "proved",
   "theorems": [
    "TDP.Bits.C08_fields_roundtrip",
    "TDP.Bits.C08_earlier_bits_untouched",
    "TDP.Bits.C08_too_wide_value_corrupts_neighbour"
   ],
   "note": ""
  },
  {
   "property": "C09",
   "status": "proved",
   "theorems": [
    "TDP.BaseMesh.C09_base_mesh_roundtrip"
   ],
   "note": "ceil(log n/log 2) in double is a parameter with the hypothesis n <= 2^lg n <= 2^25."
  },
  {
   "property": "C10",
   "status": "proved",
   "theorems": [
    "TDP.Quant.C10_error_bound"
   ],
   "note": ""
  },
  {
   "property": "C11",
   "status": "proved",
   "theorems": [
    "TDP.Quant.C11_quantise_dequantise",
    "TDP.Quant.C11_cell_of_near",
    "TDP.Quant.C11_idempotent",
    "TDP.Quant.C11_negative_cell_counterexample"
   ],
   "note": "Exact arithmetic; the last theorem shows that cells below zero, which no encoder position has, are not fixed."
  },
  {
   "property": "C12",
   "status": "proved",
   "theorems": [
    "TDP.Quant.C12_restored_exactly",
    "TDP.Quant.C12_barycenter_in_box",
    "TDP.Quant.C12_residuals_codable"
   ],
   "note": ""
  },
  {
   "property": "C13",
   "status": "proved",
   "theorems": [
    "TDP.Lod.C13_history",
    "TDP.Lod.C13_path_independent",
    "TDP.Lod.C13_idempotent",
    "TDP.Lod.C13_monotone",
    "TDP.Lod.C13_full",
    "TDP.Lod.C13_exact",
    "TDP.Lod.C13_zero_levels_defect",
    "TDP.Lod.C13_negative_request_defect"
   ],
   "note": "The two _defect theorems are witnesses of what happens outside the stated range (no levels, negative request)."
  },
  {
   "property": "C14",
   "status": "proved",
   "theorems": [
    "TDP.Traversal.C14_same_faces_same_order"
   ],
   "note": ""
  },
  {
   "property": "C15",
   "status": "proved",
   "theorems": [
    "TDP.Traversal.C15_same_edges_same_symbols",
    "TDP.Traversal.C15_added_edges_need_a_split_side"
   ],
   "note": ""
  },
  {
   "property": "C16",
   "status": "proved",
   "theorems": [
    "TDP.Boxes.C16_bounding_box",
    "TDP.Boxes.C16_order_independent"
   ],
   "note": ""
  },
  {
   "property": "C17",
   "status": "proved",
   "theorems": [
    "TDP.Boxes.C17_intersect_iff",
    "TDP.Boxes.C17_symmetric",
    "TDP.Boxes.C17_common_interior_point",
    "TDP.Boxes.C17_flat_box_misses_itself"
   ],
   "note": "The last theorem is a witness for flat boxes, outside the stated range."
  },
  {
   "property": "C18",
   "status": "proved",
   "theorems": [
    "TDP.Boxes.C18_mindist_lower_bound",
    "TDP.Boxes.C18_mindist_exact"
   ],
   "note": "Rounding is any function with the laws of TDP.Fp; no overflow or NaN."
  },
  {
   "property": "C19",
   "status": "proved",
   "theorems": [
    "TDP.Boxes.C19_mindist_le_maxdist",
    "TDP.Boxes.C19_mindist_le_maxdist_exact",
    "TDP.Boxes.C19_mindist_zero_iff",
    "TDP.Boxes.C19_symmetric",
    "TDP.Boxes.C19_trichotomy",
    "TDP.Boxes.C19_comparison_sound"
   ],
   "note": "mindist <= maxdist needs rounding that commutes with doubling (no underflow)."
  },
  {
   "property": "C20",
   "status": "partial",
   "theorems": [
    "TDP.Boxes.C20_maxdist_upper_bound_partial",
    "TDP.Boxes.C20_maxdist_counterexample"
   ],
   "note": "False of the code: maxdist is the distance of the box centres. The counterexample is a theorem; the partial theorem covers objects containing their box centre."
  },
  {
   "property": "C21",
   "status": "proved",
   "theorems": [
    "TDP.Octree.C21_intersect_query_exact"
   ],
   "note": ""
  },
  {
   "property": "C22",
   "status": "proved",
   "theorems": [
    "TDP.Octree.C22_within_query_exact"
   ],
   "note": ""
  },
  {
   "property": "C23",
   "status": "proved",
   "theorems": [
    "TDP.Octree.C23_nn_keeps_possible_nearest"
   ],
   "note": ""
  },
  {
   "property": "C25",
   "status": "proved",
   "theorems": [
    "TDP.Octree.C25_no_object_lost",
    "TDP.Octree.C25_leaves_store_what_they_meet",
    "TDP.Octree.C25_flat_object_on_the_plane",
    "TDP.Octree.C25_heavy_leaves",
    "TDP.Octree.C25_light_leaves"
   ],
   "note": "C25_heavy_leaves says which leaves may stay heavier than the leaf size. C25_flat_object_on_the_plane is a witness for flat objects, outside the stated range."
  },
  {
   "property": "C26",
   "status": "proved",
   "theorems": [
    "TDP.SortPart.C26_partition",
    "TDP.SortPart.C26_tiles",
    "TDP.SortPart.C26_sizes",
    "TDP.SortPart.C26_size_counts_one_too_many"
   ],
   "note": "std::sort is any sorting permutation, pow(n,1/3) any r with r^3 <= n. The last theorem is a witness that the recorded size is one too large."
  },
  {
   "property": "C27",
   "status": "partial",
   "theorems": [
    "TDP.SortPart.C27_uniform_partial",
    "TDP.SortPart.C27_roundtrip_partial",
    "TDP.SortPart.C27_ragged_partition_counterexample"
   ],
   "note": "False of the code for ragged partitions: the counterexample is a theorem."
  },
  {
   "property": "C28",
   "status": "proved",
   "theorems": [
    "TDP.Tile.C28_metadata_roundtrip"
   ],
   "note": "Capacities from 2^31 on wrap in an int parameter; LONG_MAX (the default) means unlimited."
  },
  {
   "property": "C29",
   "status": "proved",
   "theorems": [
    "TDP.Tile.C29_parse"
   ],
   "note": ""
  },
  {
   "property": "C30",
   "status": "partial",
   "theorems": [
    "TDP.Tile.C30_reopen_partial",
    "TDP.Tile.C30_capacity_ignored_first_time",
    "TDP.Tile.C30_data_file_taken_for_metadata"
   ],
   "note": "False of the code for small capacities and for paths without .dt; both are theorems."
  },
  {
   "property": "C31",
   "status": "proved",
   "theorems": [
    "TDP.Voxels.C31_fill",
    "TDP.Voxels.C31_each_exactly_once",
    "TDP.Voxels.C31_second_fill_ignored"
   ],
   "note": "The last theorem: a second fill at the same level is ignored, also for the other element kind."
  },
  {
   "property": "C32",
   "status": "partial",
   "theorems": [
    "TDP.Voxels.C32_first_point_inside_partial",
    "TDP.Voxels.C32_same_distance",
    "TDP.Voxels.C32_counterexample"
   ],
   "note": "False of the code for the other points of an element; the counterexample is a theorem."
  },
  {
   "property": "C50",
   "status": "proved",
   "theorems": [
    "TDP.Tile.C50_disable_innerpart"
   ],
   "note": ""
  },
  {
   "property": "C51",
   "status": "proved",
   "theorems": [
    "TDP.Voxels.C51_sampling",
    "TDP.Voxels.C51_out_of_bounds"
   ],
   "note": "The last theorem: with exactly as many wanted as existing points the code writes out of bounds."
  },
  {
   "property": "C24",
   "status": "proved",
   "theorems": [
    "TDP.Join.C24_once_in_order",
    "TDP.Join.C24_intersect_candidates"
   ],
   "note": ""
  },
  {
   "property": "C33",
   "status": "proved",
   "theorems": [
    "TDP.Join.C33_packing"
   ],
   "note": "Buffers below 2^32 floats; distinct voxels have distinct addresses."
  },
  {
   "property": "C39",
   "status": "proved",
   "theorems": [
    "TDP.Join.C39_nearest_survives",
    "TDP.Join.C39_nearest_of_tile_survives"
   ],
   "note": "That box ranges are right bounds is a hypothesis (see C18, C20)."
  },
  {
   "property": "C40",
   "status": "partial",
   "theorems": [
    "TDP.Join.C40_own_distance_partial",
    "TDP.Join.C40_counterexample_distance",
    "TDP.Join.C40_counterexample_removed"
   ],
   "note": "False of the code: the running index is not advanced for skipped candidates. The counterexamples are theorems."
  },
  {
   "property": "C41",
   "status": "proved",
   "theorems": [
    "TDP.Join.C41_round",
    "TDP.Join.C41_rounds"
   ],
   "note": ""
  },
  {
   "property": "C52",
   "status": "partial",
   "theorems": [
    "TDP.Join.C52_max_nearest_upper_bound_partial",
    "TDP.Join.C52_counterexample"
   ],
   "note": "False of the code: coarse estimates enter the maximum; it is only an upper bound."
  },
  {
   "property": "C53",
   "status": "proved",
   "theorems": [
    "TDP.Join.C53_within_filter"
   ],
   "note": ""
  },
  {
   "property": "C34",
   "status": "proved",
   "theorems": [
    "TDP.Kernels.C34_distance_all_schedules"
   ],
   "note": ""
  },
  {
   "property": "C35",
   "status": "partial",
   "theorems": [
    "TDP.Kernels.C35_intersect_prefix_partial",
    "TDP.Kernels.C35_intersect_divisible_partial",
    "TDP.Kernels.C35_remainder_dropped"
   ],
   "note": "False of the code unless the thread count divides the pair count: the remainder is never computed. That is a theorem."
  },
  {
   "property": "C36",
   "status": "partial",
   "theorems": [
    "TDP.Kernels.C36_attained_partial",
    "TDP.Kernels.C36_exact_partial",
    "TDP.Kernels.C36_characterisation",
    "TDP.Kernels.C36_parallel",
    "TDP.Kernels.C36_orthogonal",
    "TDP.Kernels.C36_always_wrong",
    "TDP.Kernels.C36_counterexample"
   ],
   "note": "Never too small, and characterised completely: exact if and only if the point chosen on the second segment is the nearest one to the point chosen on the first. Exact for parallel and for orthogonal segments; false of the code (always too large) when the lines are closest beyond the first segment and inside the second; the counterexample is a theorem. Exact arithmetic."
  },
  {
   "property": "C37",
   "status": "proved",
   "theorems": [
    "TDP.Kernels.C37_arrays",
    "TDP.Kernels.C37_attained",
    "TDP.Kernels.C37_minimum",
    "TDP.Kernels.C37_truncates"
   ],
   "note": ""
  },
  {
   "property": "C38",
   "status": "partial",
   "theorems": [
    "TDP.Kernels.C38_arrays",
    "TDP.Kernels.C38_single",
    "TDP.Kernels.C38_sound",
    "TDP.Kernels.C38_coplanar",
    "TDP.Kernels.C38_characterisation",
    "TDP.Kernels.C38_mesh_characterisation",
    "TDP.Kernels.C38_complete_partial",
    "TDP.Kernels.C38_exact_partial",
    "TDP.Kernels.C38_mesh_sound",
    "TDP.Kernels.C38_mesh_partial",
    "TDP.Kernels.C38_counterexample_vertical",
    "TDP.Kernels.C38_counterexample_corner",
    "TDP.Kernels.C38_counterexample_degenerate",
    "TDP.Kernels.C38_missed_vertical",
    "TDP.Kernels.C38_missed_firstOnly",
    "TDP.Kernels.C38_missed_touch",
    "TDP.Kernels.C38_missed_cornerOutside",
    "TDP.Kernels.C38_order_matters"
   ],
   "note": "For triangles that are not degenerate the answer is characterised completely: yes exactly if they meet and are not one of four listed kinds of missed pairs (each shown to occur with triangles that meet). Sound for non-degenerate triangles; exact for non-degenerate triangles in one plane; complete in general position; false of the code for vertical planes, touching corners and degenerate triangles (theorems). Exact arithmetic."
  },
  {
   "property": "C42",
   "status": "proved",
   "theorems": [
    "TDP.Conc.JoinQueue.C42_conserved",
    "TDP.Conc.JoinQueue.C42_each_once",
    "TDP.Conc.JoinQueue.C42_no_deadlock",
    "TDP.Conc.JoinQueue.C42_terminates",
    "TDP.Conc.JoinQueue.C42_finishes"
   ],
   "note": "Sequentially consistent interleavings, at least one worker."
  },
  {
   "property": "C43",
   "status": "proved",
   "theorems": [
    "TDP.Conc.JoinQueue.C43_totals"
   ],
   "note": "Exact sums; rounding of the double counters is not modelled."
  },
  {
   "property": "C44",
   "status": "proved",
   "theorems": [
    "TDP.Conc.Tokens.C44_exclusive",
    "TDP.Conc.Tokens.C44_exclusive_release",
    "TDP.Conc.Tokens.C44_memory",
    "TDP.Conc.Tokens.C44_available"
   ],
   "note": "Sequentially consistent interleavings."
  },
  {
   "property": "C45",
   "status": "proved",
   "theorems": [
    "TDP.Conc.Tokens.C45_exclusive",
    "TDP.Conc.Tokens.C45_flag",
    "TDP.Conc.Tokens.C45_available"
   ],
   "note": "Sequentially consistent interleavings."
  },
  {
   "property": "C46",
   "status": "partial",
   "theorems": [
    "TDP.Conc.GetVoxels.C46_full_batches_partial",
    "TDP.Conc.GetVoxels.C46_multiple_of_ten_partial",
    "TDP.Conc.GetVoxels.C46_small_input_lost",
    "TDP.Conc.GetVoxels.C46_can_finish"
   ],
   "note": "False of the code: lines after the last full batch of ten are never handed to a worker (theorem C46_small_input_lost); proved for the full batches."
  },
  {
   "property": "C47",
   "status": "proved",
   "theorems": [
    "TDP.Conc.Compress.C47_every_line_once",
    "TDP.Conc.Compress.C47_records_contiguous",
    "TDP.Conc.Compress.C47_can_finish"
   ],
   "note": "Precondition: every line holds a mesh (others are dereferenced as NULL). Sequentially consistent interleavings. Proved for any number of workers; the program itself has room for 100 (C113)."
  },
  {
   "property": "C48",
   "status": "proved",
   "theorems": [
    "TDP.Util.C48_levels",
    "TDP.Util.C48_preconditions",
    "TDP.Util.C48_highest_is_last"
   ],
   "note": "Outside the preconditions the tool reads an empty vector, loops for ever or overflows (C48_preconditions)."
  },
  {
   "property": "C49",
   "status": "proved",
   "theorems": [
    "TDP.Util.C49_fields",
    "TDP.Util.C49_nonblank",
    "TDP.Util.C49_characters",
    "TDP.Util.C49_quoted",
    "TDP.Util.C49_blank_quoted_lost"
   ],
   "note": "Delimiters without the zero character."
  },
  {
   "property": "C54",
   "status": "proved",
   "theorems": [
    "TDP.Codec.C54_decimation"
   ],
   "note": "The starting halfedge and the convexity test are parameters. CGAL's Euler operators are modelled after its manual."
  },
  {
   "property": "C55",
   "status": "proved",
   "theorems": [
    "TDP.Codec.C55_level_roundtrip"
   ],
   "note": "Any numbering and storage order on the decoder side."
  },
  {
   "property": "C56",
   "status": "proved",
   "theorems": [
    "TDP.Codec.C56_every_level"
   ],
   "note": ""
  },
  {
   "property": "C57",
   "status": "proved",
   "theorems": [
    "TDP.Codec.C57_object",
    "TDP.Codec.object_roundtrip"
   ],
   "note": "Preconditions that the code does not check are hypotheses: fewer than 64 levels, fewer than 65536 base vertices and facets, at most 10 corners, large enough buffer, at least one level. Exact arithmetic for positions."
  },
  {
   "property": "C58",
   "status": "partial",
   "theorems": [
    "TDP.Gpu.C58_bounds_partial",
    "TDP.Gpu.C58_not_below_partial",
    "TDP.Gpu.C58_single_segment_partial",
    "TDP.Gpu.C58_empty_unwritten",
    "TDP.Gpu.C58_some_schedule_exact",
    "TDP.Gpu.C58_lost_minimum"
   ],
   "note": "False of the code: the threads of a launch race on the result (read, compare, write without atomics; the first write is unconditional). The counterexample is a theorem. Proved for every schedule: the result is attained by a pair, is never below the CPU's, at most the largest distance in every row; exact when there is no race. Exact arithmetic; sequentially consistent device memory."
  },
  {
   "property": "C59",
   "status": "proved",
   "theorems": [
    "TDP.Gpu.C59_gpu_intersect"
   ],
   "note": "Fewer than 2^31 pairs (int index). Exact arithmetic, as on the CPU."
  },
  {
   "property": "C60",
   "status": "partial",
   "theorems": [
    "TDP.Gpu.C60_distance_fits_partial",
    "TDP.Gpu.C60_intersect_fits_partial",
    "TDP.Gpu.C60_distance_overflow",
    "TDP.Gpu.C60_intersect_overflow"
   ],
   "note": "False of the code: only the segments or triangles themselves are counted. Counterexamples are theorems."
  },
  {
   "property": "C61",
   "status": "proved",
   "theorems": [
    "TDP.EndToEnd.C61_decided_means_hit",
    "TDP.EndToEnd.C61_start"
   ],
   "note": "Preconditions in the structure Setting: identifiers of the second tile are its positions, boxes are not empty, voxels filled by fill_voxel, a batch within int range. The decoded mesh of each object at each level is a parameter (C57). Exact arithmetic; a common point is shown for triangles that are not degenerate."
  },
  {
   "property": "C62",
   "status": "partial",
   "theorems": [
    "TDP.EndToEnd.C62_hit_is_decided_partial",
    "TDP.EndToEnd.C62_threads_partial",
    "TDP.EndToEnd.C62_few_pairs_undecided",
    "TDP.EndToEnd.Ex.C62_counterexample_threads",
    "TDP.EndToEnd.ExOut.C62_counterexample_voxel_box"
   ],
   "note": "Proved on a GPU and on the CPU with one thread, when the boxes of the voxels that hold the triangles meet. False with several CPU threads (C35) and for triangles that stick out of the box of their voxel (C32): complete runs are counterexample theorems. With T threads at most T-1 objects are wrongly left (C62_threads_partial); with fewer voxel pairs than threads nothing is ever decided (C62_few_pairs_undecided, all inputs)."
  },
  {
   "property": "C63",
   "status": "partial",
   "theorems": [
    "TDP.EndToEnd.C63_distance_cpu",
    "TDP.EndToEnd.C63_distance_exact_partial",
    "TDP.EndToEnd.C63_distance_gpu_partial"
   ],
   "note": "CPU: smallest of the kernel's answers and attained; the true minimum where the kernel is exact (C36). GPU: attained only (C58)."
  },
  {
   "property": "C64",
   "status": "partial",
   "theorems": [
    "TDP.EndToEnd.C64_nearest_kept_partial",
    "TDP.EndToEnd.ExShell.C64_counterexample"
   ],
   "note": "Proved on the CPU, for distances as the kernel computes them, if no level shows a smaller distance and no upper end of a box range is below the distance (C20: upper ends can be too small), boxes contain their segments. False in general: a complete run that answers with the object around the query instead of the one next to it is a theorem."
  },
  {
   "property": "C65",
   "status": "proved",
   "theorems": [
    "TDP.Fill.C65_segments"
   ],
   "note": "That no segment is a point needs that adding 0.1 is not lost in rounding (it is for floats of 2^22 and more)."
  },
  {
   "property": "C66",
   "status": "partial",
   "theorems": [
    "TDP.Fill.C66_triangles_partial",
    "TDP.Fill.C66_polygon_truncated"
   ],
   "note": "False of the code for facets with more than three corners: only the triangle of the first three is used (counterexample is a theorem). Proved for triangular facets."
  },
  {
   "property": "C67",
   "status": "proved",
   "theorems": [
    "TDP.Fill.C67_given"
   ],
   "note": "Same preconditions as C57."
  },
  {
   "property": "C68",
   "status": "partial",
   "theorems": [
    "TDP.EndToEnd.C68_within_partial",
    "TDP.EndToEnd.ExFar.C68_counterexample_removed",
    "TDP.EndToEnd.ExMissed.C68_counterexample_missed"
   ],
   "note": "Proved on the CPU when no candidate of an object but the last is within the limit, for distances as the kernel computes them; with several candidates the code reads wrong results: complete runs in which a far object leaves and a near one stays are theorems. Objects decided by boxes alone are C53."
  },
  {
   "property": "C69",
   "status": "proved",
   "theorems": [
    "TDP.RTree.rtree_search",
    "TDP.RTree.search_after_any_history",
    "TDP.RTree.contents_expected"
   ],
   "note": "Default (spherical) volume with abstract rounding and monotone sqrt/pow, and any ordered coordinates with a monotone volume. NaN and overflow excluded, memory management not modelled. For MINNODES = 1 the claim is false (TDP.RTree.min1_insert_breaks, min1_large_boxes_break)."
  },
  {
   "property": "C70",
   "status": "proved",
   "theorems": [
    "TDP.RTree.rtree_shape"
   ],
   "note": "As C69."
  },
  {
   "property": "C71",
   "status": "proved",
   "theorems": [
    "TDP.RTree.rtree_iterate"
   ],
   "note": "As C69; the tree is not changed while iterating."
  },
  {
   "property": "C72",
   "status": "proved",
   "theorems": [
    "TDP.RTree.rtree_save_load",
    "TDP.RTree.rtree_load_incompatible"
   ],
   "note": "File system errors and files shorter than the header are not modelled. Types of equal size are not told apart by the header."
  },
  {
   "property": "C73",
   "status": "proved",
   "theorems": [
    "TDP.Pipeline.C73_compress_open_decode",
    "TDP.Pipeline.C73_can_finish"
   ],
   "note": "Composition of C47, C57, C29 and C30. Text parsing of a line is CGAL's; the levels and the base mesh must fit the format (fewer than 64 levels, at least one, counts below 65536, base mesh within the buffer), as the format does not check it. The voxel generation is any relation between decoded mesh and voxels. Loops are bounded by any number of turns that is large enough."
  },
  {
   "property": "C74",
   "status": "proved",
   "theorems": [
    "TDP.Codec.C74_removed_vertices"
   ],
   "note": "Exact arithmetic in the convexity test. The test on the ring is the one of C76."
  },
  {
   "property": "C75",
   "status": "partial",
   "theorems": [
    "TDP.Codec.C75_idle_round_partial",
    "TDP.Codec.C75_base_mesh_partial",
    "TDP.Codec.C75_counterexample"
   ],
   "note": "False of the code for one vertex: the one the first gate points to is never tested in its facet and then marked as conquered (counterexample is a theorem). Proved for all others."
  },
  {
   "property": "C76",
   "status": "partial",
   "theorems": [
    "TDP.Codec.C76_convexity_partial",
    "TDP.Codec.C76_counterexample"
   ],
   "note": "Exactly what the test decides is proved (exact arithmetic); it is no convexity test for polygons smaller than about 1/2000 (absolute tolerance) or with zero area vector (crossing sides): counterexamples are theorems."
  },
  {
   "property": "C77",
   "status": "partial",
   "theorems": [
    "TDP.EndToEnd.C77_nearest_kept",
    "TDP.EndToEnd.C77_within_distances_partial",
    "TDP.EndToEnd.ExAabb.C77_counterexample_nearest",
    "TDP.EndToEnd.ExAabb.C77_counterexample_within"
   ],
   "note": "False of the code: only vertices of one object are compared with edges of the other, and an object with one candidate is never measured (counterexamples are theorems). Proved: trees are never stale, each distance used is the least squared vertex-to-edge distance at the current level, and the nearest object in that metric is kept. CGAL's tree is a contract (Exact), met by a definition given in the model; exact arithmetic."
  },
  {
   "property": "C78",
   "status": "partial",
   "theorems": [
    "TDP.Conc.Generator.C78_each_once",
    "TDP.Conc.Generator.C78_no_deadlock",
    "TDP.Conc.Generator.C78_terminates",
    "TDP.Conc.Generator.C78_one_worker",
    "TDP.Conc.Generator.C78_one_worker_finishes",
    "TDP.Conc.Generator.C78_can_finish",
    "TDP.Conc.Generator.C78_counterexample"
   ],
   "note": "False of the code for two or more workers: for every list of vessels some schedule makes a worker take the front of the empty queue (C78_counterexample, for all inputs). Everything else is proved for all schedules that do not; for one worker everything. Sequentially consistent interleavings; generate_nuclei is assumed to end."
  },
  {
   "property": "C79",
   "status": "proved",
   "theorems": [
    "TDP.Gen.C79_files",
    "TDP.Gen.C79_vessels",
    "TDP.Gen.C79_counts"
   ],
   "note": "Compression of a moved polyhedron is a function of prototype and place (C57, C73 are about it). Files below 2^64 bytes. Buffers that overflow are undefined behaviour and excluded (the assert is compiled out). int overflow in the products of main is not modelled."
  },
  {
   "property": "C80",
   "status": "partial",
   "theorems": [
    "TDP.Gen.C80_no_overlap",
    "TDP.Gen.C80_one_vessel",
    "TDP.Gen.C80_vessel_partial",
    "TDP.Gen.Ex.C80_counterexample_vessel",
    "TDP.Gen.Ex.C80_counterexample_marking",
    "TDP.Gen.C80_counterexample_index",
    "TDP.Gen.C80_counterexample_single"
   ],
   "note": "The first three parts are proved in exact arithmetic. The last two are false of the code: slots of the vessel are computed with the number of slots in place of their size (right only if these are equal, C80_vessel_partial; counterexamples are theorems), get_rand_number counts from 1, so one index is beyond the array for every configuration, and a single prototype gives a division by zero."
  },
  {
   "property": "C81",
   "status": "proved",
   "theorems": [
    "TDP.Fixer.C81_components"
   ],
   "note": "Faces with a corner out of range or without corners are undefined behaviour and excluded. Printing is left out."
  },
  {
   "property": "C82",
   "status": "proved",
   "theorems": [
    "TDP.Fixer.C82_merge",
    "TDP.Fixer.C82_distinct"
   ],
   "note": "Coordinates without NaN. Points that are merged away stay in the list, and the table of edges is not renewed (part of the theorem)."
  },
  {
   "property": "C83",
   "status": "proved",
   "theorems": [
    "TDP.Fixer.C83_loops",
    "TDP.Fixer.C83_closed",
    "TDP.Fixer.C83_counterexample_fan",
    "TDP.Fixer.C83_counterexample_merge",
    "TDP.Fixer.C83_evaluate",
    "TDP.Fixer.C83_evaluate_merged"
   ],
   "note": "The conditions are needed: two triangles at one point are not closed (C83_counterexample_fan), and after merge_vertex the table is not current, so that a closed tetrahedron gets another face (C83_counterexample_merge)."
  },
  {
   "property": "C84",
   "status": "partial",
   "theorems": [
    "TDP.Fixer.C84_main_partial",
    "TDP.Fixer.C84_overwritten",
    "TDP.Fixer.C84_counterexample_files"
   ],
   "note": "All but the last sentence is proved. Files are named by the numbers of points and faces only: of several meshes with the same numbers only the last is kept (C84_overwritten for all inputs, C84_counterexample_files for a concrete mesh)."
  },
  {
   "property": "C85",
   "status": "partial",
   "theorems": [
    "TDP.Fixer.C85_roundtrip_partial",
    "TDP.Fixer.C85_only_triangles",
    "TDP.Fixer.C85_counterexample"
   ],
   "note": "Proved for meshes of triangles. False for others: every face is read as three corners, whatever its count says (C85_only_triangles), so a filled hole with four sides is open again after reading (C85_counterexample)."
  },
  {
   "property": "C86",
   "status": "proved",
   "theorems": [
    "TDP.Wkt.C86_text",
    "TDP.Wkt.C86_read",
    "TDP.Wkt.C86_tool"
   ],
   "note": "Printing of a single number is a parameter (to_wkt prints 6 significant digits, so that different coordinates can have the same text). A polyhedron without facets gives '()' and not 'EMPTY'."
  },
  {
   "property": "C87",
   "status": "partial",
   "theorems": [
    "TDP.Frenet.C87_roundtrip_partial",
    "TDP.Frenet.C87_injective_partial",
    "TDP.Frenet.C87_counterexample"
   ],
   "note": "False of the code at ties: round() takes halves away from zero both ways (theorem, exact arithmetic, an orthonormal frame). Proved with double rounding when no coordinate is moved by a value within 2^-18 of a half-integer. The functions are part of the coder library but not called by it at this commit."
  },
  {
   "property": "C88",
   "status": "partial",
   "theorems": [
    "TDP.Pipeline.C88_inside_buffer_partial",
    "TDP.Pipeline.C88_exactly",
    "TDP.Pipeline.C88_counterexample"
   ],
   "note": "False as stated: the buffer has the size of the text and no store is checked. C88_counterexample: a valid prism (text 92 characters, compressed 94 bytes) stores outside. C88_exactly: inside iff the compressed length is at most the text length. C88_inside_buffer_partial: a sufficient text length (27 + 6 V + 32 F of the base mesh + per level 10 bytes, 34 bits, 11 bits per face and edge, 57 bits per removed vertex)."
  },
  {
   "property": "C89",
   "status": "partial",
   "theorems": [
    "TDP.Text.C89_text_partial",
    "TDP.Text.C89_text_nul_partial",
    "TDP.Text.C89_counterexample"
   ],
   "note": "False as stated: memcpy without the NUL, then read as a C string. Proved for every heap content if every word of the line, the last too, is followed by white space or a bar; and for every line if the byte behind the copy is NUL. C89_counterexample: the same line gives index 2 or 27 depending on the heap; an empty line gives no mesh."
  },
  {
   "property": "C90",
   "status": "proved",
   "theorems": [
    "TDP.Cube.C90_closed",
    "TDP.Cube.C90_corners",
    "TDP.Cube.C90_sides",
    "TDP.Cube.C90_surface",
    "TDP.Cube.C90_volume"
   ],
   "note": "make_tetrahedron, split_edge and split_facet of CGAL are modelled after its reference manual. Volume and surface over exact rationals."
  },
  {
   "property": "C91",
   "status": "partial",
   "theorems": [
    "TDP.Partitioner.C91_files",
    "TDP.Partitioner.C91_first_run_partial",
    "TDP.Partitioner.C91_second_run_partial",
    "TDP.Partitioner.C91_stale_partition",
    "TDP.Partitioner.C91_small_input"
   ],
   "note": "False as stated: a tmp.part left in the working directory makes folder and tile count irrelevant (C91_stale_partition); fewer than ten lines give one empty, inverted tile (C91_small_input). Proved: the files listed are exactly the regular files under the folder; the tiles cover the boxes of all full batches of ten lines under every schedule, where persist has no undefined behaviour (C27); the second run changes nothing when the number of boxes is a multiple of the number of cuts."
  },
  {
   "property": "C92",
   "status": "proved",
   "theorems": [
    "TDP.Measures.C92_facet_normals",
    "TDP.Measures.C92_normal_of_plane",
    "TDP.Measures.C92_normal_moves",
    "TDP.Measures.C92_triangle_normal",
    "TDP.Measures.C92_vertex_normal",
    "TDP.Measures.C92_barycentre",
    "TDP.Measures.C92_barycentre_moves",
    "TDP.Measures.C92_triangle_surface",
    "TDP.Measures.C92_facet_surface",
    "TDP.Measures.C92_planar",
    "TDP.Measures.C92_planar_moves",
    "TDP.Measures.C92_degree_not_new",
    "TDP.Measures.C92_laplacian"
   ],
   "note": "Real arithmetic; the rounding of float is not modelled."
  },
  {
   "property": "C93",
   "status": "partial",
   "theorems": [
    "TDP.Measures.C93_removal_error_partial",
    "TDP.Measures.C93_counterexample"
   ],
   "note": "False as stated: the vertex is never read (the triangles use the barycentre of the ring as apex), so the error is zero for every vertex above a flat ring, and for other rings depends on the place of the object. Proved: the closed form, never negative, positive exactly when the ring is not flat and its barycentre is behind the plane through the origin. The function has no caller."
  },
  {
   "property": "C94",
   "status": "proved",
   "theorems": [
    "TDP.Codec.C94_decimation_asserts",
    "TDP.Codec.C94_refinement_asserts",
    "TDP.Codec.C94_level_asserts"
   ],
   "note": "The assertions of the bit writer and of the range of residuals are the preconditions of C09, C11 and C57. assert(!h->is_border()) holds by construction: the model has no border."
  },
  {
   "property": "C95",
   "status": "partial",
   "theorems": [
    "TDP.Codec.C95_live_iterator_partial",
    "TDP.Pipeline.C95_counterexample"
   ],
   "note": "False as stated: removeInsertedEdges increments an iterator to the halfedge join_facet has just erased. Proved: refining a level touches only live halfedges exactly if its decimation inserted no edge, and a level has an edge symbol 1 exactly if it did; the prism of C88 is a counterexample under the program's own tests."
  },
  {
   "property": "C96",
   "status": "proved",
   "theorems": [
    "TDP.FromFiles.C96_files_to_intersections",
    "TDP.FromFiles.Ex.found"
   ],
   "note": "The chain is closed by composition of the models of C73, C67 and C61/C62. Geometry exact; decoded triangles of the first mesh not degenerate; boxes and voxels of the objects are arbitrary within the conditions of C61. Ex.found is a pair of files, with a run, in which the object is found."
  },
  {
   "property": "C97",
   "status": "partial",
   "theorems": [
    "TDP.FromFiles.C97_files_to_within_partial"
   ],
   "note": "Missing: entries with a near candidate that is not the last one (false there: C40, C68_counterexample_removed), the GPU (C58)."
  },
  {
   "property": "C98",
   "status": "partial",
   "theorems": [
    "TDP.Pipeline.C98_shown_again_partial",
    "TDP.Pipeline.C98_counterexample"
   ],
   "note": "Proved: holds whenever at least one vertex is removed. Fails otherwise, and the theorem says exactly how: with no level the base mesh ends the data, and reading its last field (a 32-bit load) goes beyond it; whatever lies behind, the object has 0 levels, and the percentage test 0/0*100 >= p is false, so that every request starts to decode a level that was never written. The counterexample is a cup with six corners, which the program's own convexity test and traversal leave as it is. (assert(i_deci>0) would stop, also with exactly one level, if asserts were compiled in.)"
  },
  {
   "property": "C99",
   "status": "proved",
   "theorems": [
    "TDP.Conc.TileLife.C99_alive",
    "TDP.Conc.TileLife.C99_all_freed",
    "TDP.Conc.TileLife.C99_shared_freed_twice",
    "TDP.Conc.TileLife.C99_finishes",
    "TDP.Conc.TileLife.C99_joiner"
   ],
   "note": "The queue's unlocked empty() tests are taken as atomic reads, as in C12."
  },
  {
   "property": "C100",
   "status": "partial",
   "theorems": [
    "TDP.TriDist.C100_exact_partial",
    "TDP.TriDist.C100_real_partial",
    "TDP.TriDist.C100_sets_partial",
    "TDP.TriDist.C100_attained_partial",
    "TDP.TriDist.C100_too_large",
    "TDP.TriDist.C100_overlap_missed",
    "TDP.TriDist.C100_false_overlap",
    "TDP.TriDist.C100_small"
   ],
   "note": "Proved over every ordered field: exact (minimal and attained) if the nine pairs of edges are handled rightly and neither triangle is tiny without being degenerate; for every input a nonzero result is the distance of two points of the triangles. Both conditions are needed: SegPoints has the flaw of C36 (the parameter on the first line is not clamped before the second is computed), so that the result can be too large, positive for intersecting triangles, or 0 for separate ones; and the tolerance 1e-15 on the squared normal makes a corner above a triangle with legs of 1e-4 give 0 although the same shape at scale 1 is right. Each is a counterexample theorem. The function has no caller in the repository (the joins use SegDist and TriInt); it is exported. Exact arithmetic, squared distances."
  },
  {
   "property": "C101",
   "status": "partial",
   "theorems": [
    "TDP.Conc.Repro.C101_one_worker_partial",
    "TDP.Conc.Repro.C101_possible",
    "TDP.Conc.Repro.C101_no_draw",
    "TDP.Conc.Repro.C101_depends_on_schedule",
    "TDP.Conc.Repro.Ex.C101_counterexample",
    "TDP.Conc.Repro.sampleProg_run"
   ],
   "note": "Proved for one worker (whatever was drawn before) and, under every schedule, for objects for which nothing is drawn; with several workers every object still gets points that some random numbers give. False of the code with two workers: the state of rand() is shared, so a number drawn by one worker is missing for the other (theorem for every generator and every pair of objects for which skipping the second number matters; a concrete pair of runs). The skeleton itself (CGAL) is a parameter."
  },
  {
   "property": "C102",
   "status": "partial",
   "theorems": [
    "TDP.Tile.C102_interrupted_partial",
    "TDP.Tile.C102_counterexample"
   ],
   "note": "Proved: the file is opened without an error and the complete objects come first and are correct. False of the code: when at least eight bytes of the next record were written there is one object more, because only the result of the first fread of a record is looked at; its data is cut (exactly what was written of it) and the number of its voxels is that of its bytes of data, or a mixture of the two numbers (C102_counterexample). The theorem assumes fewer than 2^31 bytes of data and voxels per object."
  },
  {
   "property": "C103",
   "status": "partial",
   "theorems": [
    "TDP.Tile.C103_metadata_interrupted_partial",
    "TDP.Tile.C103_objects_lost",
    "TDP.Tile.C103_counterexample"
   ],
   "note": "False of the code: the metadata file is written in place and its existence alone decides that it is used. Proved for every cut: the next opening succeeds without an error, the objects whose metadata is complete are read correctly, at most one broken object follows (C103_counterexample: no data and 99 voxels), and all others are lost, silently and at every later opening (C103_objects_lost)."
  },
  {
   "property": "C104",
   "status": "partial",
   "theorems": [
    "TDP.Conc.Retrieve.C104_one_at_a_time_partial",
    "TDP.Conc.Retrieve.C104_one_thread_partial",
    "TDP.Conc.Retrieve.C104_any_schedule",
    "TDP.Conc.Retrieve.C104_wrong_bytes",
    "TDP.Conc.Retrieve.C104_becomes_other"
   ],
   "note": "False of the code: the locks are commented out, so one thread's fseek can fall between the fseek and the fread of another. Proved for every file and every two different objects: two threads fetching them may end with the first made from the bytes of the second (C104_wrong_bytes; with equal sizes the object silently is the other one, C104_becomes_other). Proved: the claim holds for every execution in which calls do not overlap, in particular when only one thread uses the tile; and under every schedule no mesh is made from NULL and each is made from some piece of the file of at most the object's size."
  },
  {
   "property": "C105",
   "status": "partial",
   "theorems": [
    "TDP.Codec.C105_one_go_partial",
    "TDP.Codec.C105_no_levels_defect",
    "TDP.Pipeline.C105_compressed_partial"
   ],
   "note": "Proved for objects with at least one level. False of the code for objects without levels (C98): decompress_mesh reads past the data at every percentage, also at 0 (0/0 is NaN), where asking an opened object for 0 per cent does nothing (C105_no_levels_defect)."
  },
  {
   "property": "C106",
   "status": "proved",
   "theorems": [
    "TDP.Adjust.C106_shape",
    "TDP.Adjust.C106_moved",
    "TDP.Adjust.C106_shrunk_place",
    "TDP.Adjust.C106_zero_defect"
   ],
   "note": "Coordinates are exact rationals. The shift is divided by the shrink too, and the lower corner of the box, not its middle, is put near the mean. A shrink of 0, or a word that is no number, divides by zero (C106_zero_defect)."
  },
  {
   "property": "C107",
   "status": "partial",
   "theorems": [
    "TDP.Voxels.Session.C107_session",
    "TDP.Voxels.Session.C107_rounds_partial",
    "TDP.Voxels.Session.C107_lower_level_empty",
    "TDP.Voxels.Session.C107_other_kind_ignored"
   ],
   "note": "The history theorem is complete. For joins it is proved if the levels never go down (repeated levels are allowed). False of the code otherwise: the user may give levels in any order (--lod), and in a round at a level below an earlier one every voxel of an object used before counts as empty (C107_lower_level_empty, for all rounds). The cache does not look at the kind: triangles asked for at a level that has segments are not filled in (C107_other_kind_ignored). The mesh of an object at a level is a parameter (C13, C57)."
  },
  {
   "property": "C108",
   "status": "partial",
   "theorems": [
    "TDP.Fill.C108_vertices",
    "TDP.Fill.C108_indices_partial",
    "TDP.Fill.C108_decoded_indices_zero",
    "TDP.Fill.C108_indices_truncated"
   ],
   "note": "The vertex array is proved in full. The index array is proved if the vertices carry their position as number and there are at most 65536. False of the code for a decompressed object: its vertices are never numbered and every index is 0 (C108_decoded_indices_zero). With more than 65536 vertices the indices are cut to 16 bits and name other vertices (C108_indices_truncated). Only the first three corners of a facet are written."
  },
  {
   "property": "C109",
   "status": "partial",
   "theorems": [
    "TDP.FromFiles.C109_files_to_nearest_partial"
   ],
   "note": "As for C64: CPU only, boxes contain the segments, no upper end of a box range is below the distance of the nearest object (C20, C32), no level shows the nearest object closer than the finest one; kernels exact. The margin is sqrt 3 times the sum of the two quantisation errors."
  },
  {
   "property": "C110",
   "status": "partial",
   "theorems": [
    "TDP.Gen.C110_self_join_partial",
    "TDP.Gen.C110_same_step_partial",
    "TDP.Gen.ExSelf.C110_counterexample"
   ],
   "note": "Proved for every monotone rounding of coordinates if the voxels of all prototypes fit in one cell of the size of the largest prototype; this is the case when all prototypes have the same quantisation step. Otherwise false for the boxes: a decoded prototype sticks out of its box by up to half its step, and in neighbouring cells two boxes can overlap (C110_counterexample). Places of nuclei are exact; runs with undefined behaviour are C80."
  },
  {
   "property": "C111",
   "status": "partial",
   "theorems": [
    "TDP.Names.C111_tile_path_partial",
    "TDP.Names.C111_counterexample_path",
    "TDP.Names.C111_generator_names",
    "TDP.Names.C111_generator_fits_partial",
    "TDP.Names.C111_generator_overrun",
    "TDP.Names.C111_numbered_files",
    "TDP.Names.C111_counterexample_shrink"
   ],
   "note": "Proved: names are unambiguous in everything printed in them and the exact limit of the log line of a tile. False: a path of 173 characters or more overruns the 200 byte buffer of the log line whatever the tile holds; the generator overruns its arrays for an initial part of 233 characters or more (it always fits up to 178); two shrinking factors with the same whole part write the same files."
  },
  {
   "property": "C112",
   "status": "partial",
   "theorems": [
    "TDP.Pipeline.C112_current",
    "TDP.Pipeline.C112_once",
    "TDP.Pipeline.C112_voxels_partial",
    "TDP.Pipeline.C112_level",
    "TDP.Pipeline.C112_counterexample",
    "TDP.Pipeline.C112_counterexample_level"
   ],
   "note": "Proved: the cache is always right; voxels are possible when all facets of the input are triangles or it has few vertices. False otherwise: the call that triangulates is inside assert and the Makefile always defines NDEBUG, so one facet that is not a triangle ends the process (exit(-1)), for an input with a square facet and for triangle meshes at levels of detail below the last."
  },
  {
   "property": "C113",
   "status": "partial",
   "theorems": [
    "TDP.Conc.Compress.C113_start_partial",
    "TDP.Conc.Compress.C113_counterexample_threads",
    "TDP.Conc.Compress.C113_counterexample_zero",
    "TDP.Conc.Compress.C113_progress_partial",
    "TDP.Conc.Compress.C113_counterexample_progress"
   ],
   "note": "Proved for up to 100 threads; whatever is reported is right and without gaps, and complete if every line is shorter than a hundredth of the file. False: more than 100 threads, asked for or found in the machine, store behind arrays of 100; with an input path only, a null pointer is used; with 0 threads (also when hardware_concurrency() cannot tell) the tool searches for a worker for ever; after a line that passes a percentage nothing is reported any more, so inputs of few lines report nothing."
  },
  {
   "property": "C114",
   "status": "partial",
   "theorems": [
    "TDP.Conc.Report.C114_lines_partial",
    "TDP.Conc.Report.C114_analysis_partial",
    "TDP.Conc.Report.C114_nothing",
    "TDP.Conc.Report.C114_counterexample_analysis",
    "TDP.Conc.Report.C114_counterexample_negative"
   ],
   "note": "Proved for every clock and schedule: the four lines add up to the total, none but the last can be negative, and the last only by the share of the time between the first two readings of the clock of each join; analysis is right for intersection joins. False: joins with distances measure packing inside the computation and analysis adds both, so that its numbers can be twice the total; a thread interrupted between the first two readings makes a line negative and another greater than the total; without a pair of tiles every number is a division by zero. Exact arithmetic."
  },
  {
   "property": "C115",
   "status": "partial",
   "theorems": [
    "TDP.Tile.C115_box_partial",
    "TDP.Tile.C115_no_objects",
    "TDP.Tile.C115_objects_unchanged"
   ],
   "note": "Proved for the box, which is the same and the least around all voxels. False for the objects, for every list of records: add_raw makes a mesh and a wrapper and keeps neither, so the tile stays empty (and both are never freed)."
  },
  {
   "property": "C116",
   "status": "partial",
   "theorems": [
    "TDP.OffText.C116_read",
    "TDP.OffText.C116_exact_partial",
    "TDP.OffText.C116_stable",
    "TDP.OffText.C116_counterexample"
   ],
   "note": "Proved for every closed mesh up to the printing of its coordinates (the surface is the same, each coordinate is what its text means), and exactly if the coordinates are printed exactly; what is read is a closed mesh that is written as the same text again. False otherwise: the streams keep their default of six significant digits, and five different corners may be read back at one place."
  },
  {
   "property": "C117",
   "status": "partial",
   "theorems": [
    "TDP.H5.C117_contents_partial",
    "TDP.H5.C117_surface_partial",
    "TDP.H5.C117_name",
    "TDP.H5.C117_names",
    "TDP.H5.C117_counterexample_tenths",
    "TDP.H5.C117_counterexample_shape"
   ],
   "note": "The names are proved for all paths of at most 254 characters (longer ones leave the buffer). The contents are proved up to a twentieth per coordinate (exact for tenths) for tables with rows and three columns, and tables of a closed surface are read back as this surface. False otherwise: coordinates are printed with one decimal, so different vertices coincide; a table without rows or with two columns leaves its block."
  },
  {
   "property": "C118",
   "status": "partial",
   "theorems": [
    "TDP.DecompressTool.C118_files_partial",
    "TDP.DecompressTool.C118_counterexample"
   ],
   "note": "Proved without an argument and for the argument 10, for every acceptable mesh, up to the printing of numbers. False for every other argument: himesh is set only in the round of level 100 and is used after the loop (decompress.cpp:35, 57)."
  },
  {
   "property": "C119",
   "status": "proved",
   "theorems": [
    "TDP.GetBoxes.C119_boxes"
   ],
   "note": "For fewer than 2^31 skeleton points (the counter is an int). The skeleton is that of C112."
  },
  {
   "property": "C120",
   "status": "partial",
   "theorems": [
    "TDP.Files.C120_files_partial",
    "TDP.Files.C120_counterexample"
   ],
   "note": "Proved when every path below resolves and no descent is endless. False otherwise: is_file ignores the failure of stat and reads a structure nobody set, for example at a broken link."
  }
 ]
}