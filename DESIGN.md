# Formal model of tengdj/3DPro in Lean 4

Layout: `properties.jsonl` (the properties), `MANIFEST.json` (status and theorem names), `lean/Verif/<Area>/Model.lean` (the model,
each definition citing file and lines of /repo), `.../Spec.lean` or the head of `.../Props.lean` (specifications written
without the model's helpers), `.../Props.lean` (the property theorems `Cnn_...` and examples that meet their hypotheses),
other files (lemmas). `seeded/LOG.jsonl` records the wrong programs the theorems were tested against (`tools/mutate.py`).

## Trusted base

* Lean's kernel. `#print axioms` of every property theorem gives a subset of `propext`, `Classical.choice`, `Quot.sound`. No axioms are
  added; nothing uses compiled evaluation; `decide +kernel` is used only for concrete witnesses and examples.
* The reading of the C++ source: the definitions of the model, each with the lines it models and its simplifications.
* The library behaviour assumed (parameters or hypotheses, never axioms):
  * `std::sort` is any permutation that is sorted for the comparison (C26); `pow(n,1/3)` any `r` with `r^3 <= n`;
    `ceil(log n / log 2)` any `lg n` with `n <= 2^(lg n) <= 2^25` (C09); `std::map`/`set`/`vector` as finite maps/sets/lists.
  * CGAL: `join_facet`, `split_facet`, `create_center_vertex`, `erase_center_vertex` and `Polyhedron_incremental_builder_3` after their manual
    pages (C54-C57), on half-edges identified by numbers; the order of CGAL's iterators is arbitrary (a parameter).
  * Threads: sequentially consistent interleavings of atomic steps, one step per access to shared memory; `pthread_mutex` is
    mutual exclusion (C34, C35, C42-C47); CUDA launches on one stream are ordered, 32-bit accesses are atomic (C58, C59).
  * File reads and writes succeed and are byte-exact.

## Build mode of the code that is modelled

`src/Makefile` lines 11-15 define `NDEBUG` in both branches, so every C++ `assert` is compiled out.
The model therefore treats an `assert` as *documentation of a precondition*, never as a run-time check:
where a property needs the asserted fact it is an explicit hypothesis of the theorem, and where the fact can be
violated by reachable inputs a witness theorem shows what the code then does. Undefined behaviour, `exit(1)` and endless loops are
a distinct outcome (`none`) of the model's functions, so "returns `some`" is part of what is proved.

## Numbers

* Coder state (`uint4`), frequencies, offsets, bit fields: `Nat` with explicit `% 2^32` where the C code can wrap
  (wrap-around is modelled, not assumed away); the theorems show that no wrap occurs.
* `float` geometry: two treatments. Order-only code (box updates, containment, intersection) is modelled over any linear
  order. Arithmetic code is modelled over `Rat` through an abstract rounding `rnd : Rat -> Rat` applied after *every* elementary
  operation (`Fp` structure: monotone, `rnd 0 = 0`, odd, and exact on the dyadic numbers n/2^k with |n| ≤ 2^24, k ≤ 100). IEEE single precision round-to-nearest
  satisfies these laws as long as no operation overflows and no NaN occurs, so theorems stated for every `Fp` cover rounding; theorems
  stated for exact arithmetic say so (quantisation, the segment and triangle kernels). Overflow, NaN and infinities are outside the model.

## Not modelled

* Memory exhaustion and leaks; `logt`'s own texts beyond their lengths (C111); parsing of the command line by `boost::program_options` (the
  settings that come out of it are modelled, where a property depends on them).
* CGAL's own algorithms, which appear as parameters with their documented behaviour: AABB trees, the skeletonisation, triangulation of
  facets, the OFF reader beyond the words of the text. (The convexity test `isConvex` is a parameter of
  C54-C57, and modelled in exact arithmetic for C74-C76.)
* The `use_aabb` and `use_gpu` branches of the joins except the GPU kernels (C58-C60) and the token protocol (C44); `cuda_common.cu`'s
  enumeration of devices.
* test/test.cpp, test/cuda_test.cu (demonstrations), test/single_compress.cpp (it only reads one
  file), cache.*, job_sharing.* (empty stubs).
* Overflow, infinities and NaN of floating-point numbers; unaligned access; the sizes of `long` and pointers other than 8 bytes.

## Per property

<!-- table -->
| id | property | status | what is modelled | how it is proved | theorems |
|----|----|----|----|----|----|
| C01 | Range coder round trip | proved | rangecod.c, function by function; bytes, carry buffer and `help` counter explicit | one invariant linking bytes out + buffer + help + low to a single number; the decoder's state is the code value relative to the interval; induction over the symbols | `RangeCoder.C01_range_coder_roundtrip`, `RangeCoder.C01_numbers` |
| C02 | Coded blocks are self-delimiting | proved | the same, several blocks in one buffer | composition of C01 over a list of blocks; byte counts | `RangeCoder.C02_blocks_self_delimiting`, `RangeCoder.C01_range_coder_roundtrip`, `RangeCoder.C02_bytecount` |
| C03 | The adaptive frequency model never becomes inconsistent | proved | qsmodel.c, arrays as functions, loops structural | invariant of the frequency sums and rescaling counters; induction over updates | `QsModel.C03_model_consistent`, `QsModel.C03_lockstep` |
| C04 | Symbol lookup inverts the frequency table | proved | qsmodel.c search table and binary search | binary search invariant | `QsModel.C04_getsym_inverts`, `QsModel.C04_small_total_reads_uninitialised` |
| C05 | Removed-vertex block round trip | proved | encodeRemovedVertices/decode: coder x models x symbols | lock-step of two model instances with C01-C04 | `Blocks.C05_removed_vertices_roundtrip` |
| C06 | Inserted-edge block round trip | proved | encodeInsertedEdges/decode | as C05 | `Blocks.C06_inserted_edges_roundtrip` |
| C07 | Progressive decoding of the whole compressed object | proved | base mesh + level blocks in one byte buffer | induction over the levels with C02, C05, C06, C09 | `Stream.C07_progressive_roundtrip` |
| C08 | Bit-field writer/reader round trip | proved | writeBits/readBits on bytes through a 32-bit window | the buffer as one bit list; induction over the fields | `Bits.C08_fields_roundtrip`, `Bits.C08_earlier_bits_untouched`, `Bits.C08_too_wide_value_corrupts_neighbour` |
| C09 | Base mesh round trip | proved | writeBaseMesh/readBaseMesh | C08 over the list of fields | `BaseMesh.C09_base_mesh_roundtrip` |
| C10 | Quantisation error bound | proved | quantisation in exact rationals | algebra | `Quant.C10_error_bound` |
| C100 | Distance of two triangles | partial | SegPoints, TriDist_seg, TriDist_other, TriDist and TriDist_single, over any ordered field | accepted edge pairs by half-spaces; every pair of points descends to two edges, to a corner whose face test passes, or to a common point (walking along a segment until a barycentric coordinate vanishes), so that in the remaining case the nearest edge pair would have been accepted; no compactness. Counterexamples by evaluation | `TriDist.C100_exact_partial`, `TriDist.C100_real_partial`, `TriDist.C100_sets_partial`, `TriDist.C100_attained_partial`, `TriDist.C100_too_large`, `TriDist.C100_overlap_missed`, `TriDist.C100_false_overlap`, `TriDist.C100_small` |
| C101 | Compressing the same objects again gives the same voxels | partial | srand/rand as one shared state; the drawing code as a program tree, proved equal to the sampling of C51; constructors and draws of any number of workers as steps | invariant: what a worker still has to do, run from the current state of rand(), gives what the object gets alone; explicit schedules for the counterexamples | `Conc.Repro.C101_one_worker_partial`, `Conc.Repro.C101_possible`, `Conc.Repro.C101_no_draw`, `Conc.Repro.C101_depends_on_schedule`, `Conc.Repro.Ex.C101_counterexample`, `Conc.Repro.sampleProg_run` |
| C102 | A data file whose writing was interrupted | partial | fread with the meaning of the C library (bytes beyond the end of the file leave the variable as it was), parse_raw over it, uninitialised cores as a parameter | the file is the complete records followed by a proper prefix of a record; the voxel loop on the prefix consumes the rest of the file | `Tile.C102_interrupted_partial`, `Tile.C102_counterexample` |
| C103 | Caching the metadata was interrupted | partial | fread as for C102, Tile::load over it | as for C102 | `Tile.C103_metadata_interrupted_partial`, `Tile.C103_objects_lost`, `Tile.C103_counterexample` |
| C104 | Fetching objects of one tile from several threads | partial | retrieve_mesh as a step machine: test, fseek, fread, test, construction; the position of the stream and the mesh pointers are shared; fseek and fread are each atomic (the C library locks the stream) | invariant per program counter when at most one thread is inside; a weaker invariant for all schedules; an explicit ten-step execution over arbitrary files for the counterexample | `Conc.Retrieve.C104_one_at_a_time_partial`, `Conc.Retrieve.C104_one_thread_partial`, `Conc.Retrieve.C104_any_schedule`, `Conc.Retrieve.C104_wrong_bytes`, `Conc.Retrieve.C104_becomes_other` |
| C105 | Decompressing in one go or step by step | partial | decompress_mesh as opening with a percentage followed by completeOperation, over the object model of C57 | going to p and then to q >= p is going to q, by induction on the levels left, without any assumption about the bytes; then induction over the history | `Codec.C105_one_go_partial`, `Codec.C105_no_levels_defect`, `Pipeline.C105_compressed_partial` |
| C106 | Moving and shrinking a polyhedron | proved | adjust_polyhedron with the minimum loop, the truncating integer mean loop and the placement | induction over the vertices for the minimum and for the error of the truncated mean; field arithmetic for the placement | `Adjust.C106_shape`, `Adjust.C106_moved`, `Adjust.C106_shrunk_place`, `Adjust.C106_zero_defect` |
| C107 | What the voxels hold in every round of a join | partial | decode_to, fill_voxels, reset, the per-voxel maps by level, the 'not filled yet' tests of the three joins and the null entry made when packing | induction over the history with the exact content of every voxel; for rounds an invariant (all voxels of an object filled at a level, or none; levels bounded by the current one) | `Voxels.Session.C107_session`, `Voxels.Session.C107_rounds_partial`, `Voxels.Session.C107_lower_level_empty`, `Voxels.Session.C107_other_kind_ignored` |
| C108 | The vertex array and the index array of an object | partial | the two arrays, for any enumeration of vertices and facets | blocks of three by induction over the enumeration | `Fill.C108_vertices`, `Fill.C108_indices_partial`, `Fill.C108_decoded_indices_zero`, `Fill.C108_indices_truncated` |
| C109 | From two files of meshes to the nearest-neighbour join | partial | compressor, tile file, tile loading, decoding, filling and the nearest-neighbour join put together | C64 on the held objects; the edges the join sees lie within one step of edges of the decimated input (C97), triangle inequality in R | `FromFiles.C109_files_to_nearest_partial` |
| C11 | Quantisation is idempotent | proved | getQuantizedPos/getPos | algebra; witness for negative cells | `Quant.C11_quantise_dequantise`, `Quant.C11_cell_of_near`, `Quant.C11_idempotent`, `Quant.C11_negative_cell_counterexample` |
| C110 | A generated file of nuclei joined with itself | partial | the generator's runs, the tile file, the octree and the intersection join together | cells apart (C80), boxes inside cells under monotone rounding, soundness of the octree query, induction over levels | `Gen.C110_self_join_partial`, `Gen.C110_same_step_partial`, `Gen.ExSelf.C110_counterexample` |
| C111 | File names and log lines are safe and unambiguous | partial | sprintf into a fixed array as a partial function on characters; %s, %d, %ld; the formats used by the tools | decimal printing is injective and its length is the number of digits; separators are not digits, so a name parses in one way | `Names.C111_tile_path_partial`, `Names.C111_counterexample_path`, `Names.C111_generator_names`, `Names.C111_generator_fits_partial`, `Names.C111_generator_overrun`, `Names.C111_numbered_files`, `Names.C111_counterexample_shrink` |
| C112 | Skeletons and voxels for every polyhedron | partial | HiMesh objects with their map of skeletons; extract_skeleton as compiled; the library as an arbitrary partial function of the mesh; compression and decoding as in C57 | invariant on the map: keys are at most the present percentage and present ones belong to the present mesh; the decoded mesh is isomorphic to the input and isomorphisms keep facet sizes | `Pipeline.C112_current`, `Pipeline.C112_once`, `Pipeline.C112_voxels_partial`, `Pipeline.C112_level`, `Pipeline.C112_counterexample`, `Pipeline.C112_counterexample_level` |
| C113 | Starting the compressor, and its progress report | partial | main of the tool up to the workers, with arrays of 100 slots; the C47 transition system with 0 workers; the progress arithmetic | induction over the loops; an invariant for 0 workers; monotonicity of the percentage | `Conc.Compress.C113_start_partial`, `Conc.Compress.C113_counterexample_threads`, `Conc.Compress.C113_counterexample_zero`, `Conc.Compress.C113_progress_partial`, `Conc.Compress.C113_counterexample_progress` |
| C114 | The time report of a join | partial | the timers of the three joins and of calculate_distance on a nondecreasing clock, report, on top of the C42/C43 transition system | an invariant of the rounds (sum of the laps at most the time passed), closed under merging; complete runs as counterexamples | `Conc.Report.C114_lines_partial`, `Conc.Report.C114_analysis_partial`, `Conc.Report.C114_nothing`, `Conc.Report.C114_counterexample_analysis`, `Conc.Report.C114_counterexample_negative` |
| C115 | Building a tile in memory | partial | add_raw on memory, with the record format of the tile model | round trip of the record format; the box as a fold, compared with parse_raw | `Tile.C115_box_partial`, `Tile.C115_no_objects`, `Tile.C115_objects_unchanged` |
| C116 | A mesh written as text and read back | partial | CGAL's OFF writer and reader on characters, the incremental builder, get_mesh with the memory behind its copy | words of the text; uniqueness of the builder's result up to renaming (build_iso) | `OffText.C116_read`, `OffText.C116_exact_partial`, `OffText.C116_stable`, `OffText.C116_counterexample` |
| C117 | Converting HDF5 files to OFF files | partial | process_file on characters, the tables as flat blocks, printf %.1f and the text on characters | the reader of C116 on the words of the text; a decimal reader as specification | `H5.C117_contents_partial`, `H5.C117_surface_partial`, `H5.C117_name`, `H5.C117_names`, `H5.C117_counterexample_tenths`, `H5.C117_counterexample_shape` |
| C118 | The decompression tool writes every level of detail | partial | main from the compressed mesh on, with the codec of C01-C20, the names of C111 and the text of C116; not the measurements with zlib at the end, nor the use of himesh after it was set | C105 for one level per decompression, C116 to read each file; names differ since decimals differ | `DecompressTool.C118_files_partial`, `DecompressTool.C118_counterexample` |
| C119 | The boxes of an object | proved | main from the voxels on: generate_voxels, aab::update, make_cube and the names, over any linear order of coordinates | a box lies in c iff all its points do: invariant of the loop over the vertices, then of the loop over the voxels; C90 for the polyhedra | `GetBoxes.C119_boxes` |
| C12 | Removed vertices are restored exactly | proved | residuals and barycentre of removal/insertion | algebra; range of residuals | `Quant.C12_restored_exactly`, `Quant.C12_barycenter_in_box`, `Quant.C12_residuals_codable` |
| C120 | Listing the files below a directory | partial | list_files and is_file over the answers of stat, opendir and readdir; paths as characters | induction over the tree, then over the entries; paths below two entries differ at the first slash | `Files.C120_files_partial`, `Files.C120_counterexample` |
| C13 | Advancing the level of detail is monotone, idempotent and path-independent | proved | advance_to's percentage loop over `Fp` rounding | least-number characterisation, histories by induction | `Lod.C13_history`, `Lod.C13_path_independent`, `Lod.C13_idempotent`, `Lod.C13_monotone`, `Lod.C13_full`, `Lod.C13_exact`, `Lod.C13_zero_levels_defect`, `Lod.C13_negative_request_defect` |
| C14 | Compressor and decompressor visit faces in the same order | proved | the gate loops of compressor and decompressor over next/opp/face functions | simulation between the loops | `Traversal.C14_same_faces_same_order` |
| C15 | An edge symbol is read exactly when one was written | proved | the edge loops likewise | simulation | `Traversal.C15_same_edges_same_symbols`, `Traversal.C15_added_edges_need_a_split_side` |
| C16 | Bounding boxes contain what was added and nothing more | proved | aab.h over a linear order | folds; least upper bound | `Boxes.C16_bounding_box`, `Boxes.C16_order_independent` |
| C17 | Box intersection test | proved | aab::intersect | order lemmas | `Boxes.C17_intersect_iff`, `Boxes.C17_symmetric`, `Boxes.C17_common_interior_point`, `Boxes.C17_flat_box_misses_itself` |
| C18 | Box distance is a lower bound of content distance | proved | aab::distance over `Fp` | monotone rounding | `Boxes.C18_mindist_lower_bound`, `Boxes.C18_mindist_exact` |
| C19 | Distance ranges are well formed | proved | aab::distance, range comparison | order/field lemmas | `Boxes.C19_mindist_le_maxdist`, `Boxes.C19_mindist_le_maxdist_exact`, `Boxes.C19_mindist_zero_iff`, `Boxes.C19_symmetric`, `Boxes.C19_trichotomy`, `Boxes.C19_comparison_sound` |
| C20 | maxdist bounds the distance between objects | partial | aab::distance | partial theorem and counterexample | `Boxes.C20_maxdist_upper_bound_partial`, `Boxes.C20_maxdist_counterexample` |
| C21 | Octree intersection queries are exact | proved | OctreeNode as an inductive tree, addObject, query_intersect | structural induction with the covering invariant | `Octree.C21_intersect_query_exact` |
| C22 | Octree within-distance queries are exact | proved | query_distance | as C21 | `Octree.C22_within_query_exact` |
| C23 | Nearest-neighbour index query keeps every possible nearest object | proved | query_nn | as C21 plus soundness of each elimination | `Octree.C23_nn_keeps_possible_nearest` |
| C24 | Candidate identifiers are reported once | proved | deduplication of candidates in mbb_* | list lemmas | `Join.C24_once_in_order`, `Join.C24_intersect_candidates` |
| C25 | No object is lost when an octree node splits | proved | addObject/split | covering invariant | `Octree.C25_no_object_lost`, `Octree.C25_leaves_store_what_they_meet`, `Octree.C25_flat_object_on_the_plane`, `Octree.C25_heavy_leaves`, `Octree.C25_light_leaves` |
| C26 | Sort partition assigns every object to exactly one tile | proved | build_sort_partition | chunking and permutation lemmas | `SortPart.C26_partition`, `SortPart.C26_tiles`, `SortPart.C26_sizes`, `SortPart.C26_size_counts_one_too_many` |
| C27 | Sort partition persists and loads back | partial | persist/load | printer/parser for uniform trees; counterexample for ragged ones | `SortPart.C27_uniform_partial`, `SortPart.C27_roundtrip_partial`, `SortPart.C27_ragged_partition_counterexample` |
| C28 | Tile metadata cache round trip | proved | Tile metadata writer/reader | printer/parser inverse | `Tile.C28_metadata_roundtrip` |
| C29 | A compressed data file is parsed back into the objects written | proved | Tile's parse of the data file | printer/parser inverse | `Tile.C29_parse` |
| C30 | First and later opens of a tile agree | partial | Tile::Tile, both branches | equality of the two loads; counterexamples | `Tile.C30_reopen_partial`, `Tile.C30_capacity_ignored_first_time`, `Tile.C30_data_file_taken_for_metadata` |
| C31 | Voxel filling is a partition | proved | HiMesh::fill_voxel | permutation/filter lemmas | `Voxels.C31_fill`, `Voxels.C31_each_exactly_once`, `Voxels.C31_second_fill_ignored` |
| C32 | Voxel boxes enclose what they are filled with | partial | generate_voxels, fill_voxel | partial theorem, counterexample | `Voxels.C32_first_point_inside_partial`, `Voxels.C32_same_distance`, `Voxels.C32_counterexample` |
| C33 | Batch packing preserves the data of every voxel pair | proved | packing in calculate_distance/check_intersection | offset invariant over the two passes | `Join.C33_packing` |
| C34 | Multi-threaded distance computation equals the sequential one | proved | get_distance_cpu's slicing, all schedules of the threads | writes to disjoint cells commute; slices cover | `Kernels.C34_distance_all_schedules` |
| C35 | Multi-threaded intersection tests equal the sequential one | partial | get_intersect_cpu likewise | partial theorem, counterexample | `Kernels.C35_intersect_prefix_partial`, `Kernels.C35_intersect_divisible_partial`, `Kernels.C35_remainder_dropped` |
| C36 | Segment distance | partial | SegDist | algebra of the quadratic form; convexity: a pair of mutually nearest points is a closest pair (SegExact); counterexample | `Kernels.C36_attained_partial`, `Kernels.C36_exact_partial`, `Kernels.C36_characterisation`, `Kernels.C36_parallel`, `Kernels.C36_orthogonal`, `Kernels.C36_always_wrong`, `Kernels.C36_counterexample` |
| C37 | Segment-set distance is the minimum over all pairs | proved | SegDist_single | fold lemmas | `Kernels.C37_arrays`, `Kernels.C37_attained`, `Kernels.C37_minimum`, `Kernels.C37_truncates` |
| C38 | Triangle-set intersection is existential | partial | TriInt.cpp: edge/plane tests, projections, TriInt_single | case analysis of the orientation tests; full characterisation of the answer (TriExact); counterexamples for each missed kind | `Kernels.C38_arrays`, `Kernels.C38_single`, `Kernels.C38_sound`, `Kernels.C38_coplanar`, `Kernels.C38_characterisation`, `Kernels.C38_mesh_characterisation`, `Kernels.C38_complete_partial`, `Kernels.C38_exact_partial`, `Kernels.C38_mesh_sound`, `Kernels.C38_mesh_partial`, `Kernels.C38_counterexample_vertical`, `Kernels.C38_counterexample_corner`, `Kernels.C38_counterexample_degenerate`, `Kernels.C38_missed_vertical`, `Kernels.C38_missed_firstOnly`, `Kernels.C38_missed_touch`, `Kernels.C38_missed_cornerOutside`, `Kernels.C38_order_matters` |
| C39 | Progressive nearest-neighbour refinement never discards the nearest object | proved | mbb_nn, update_distance_list, report, the round loop | invariant 'nearest is a candidate' over arbitrary rounds | `Join.C39_nearest_survives`, `Join.C39_nearest_of_tile_survives` |
| C40 | Within-join refinement attributes distances to the right voxel pairs | partial | within's rounds | partial theorem, counterexamples | `Join.C40_own_distance_partial`, `Join.C40_counterexample_distance`, `Join.C40_counterexample_removed` |
| C41 | Intersection join removes an object exactly when a hit is found | proved | intersect's rounds | invariant over the rounds | `Join.C41_round`, `Join.C41_rounds` |
| C42 | Every tile pair is joined exactly once | proved | joiner's job queue, small steps per thread | inductive invariants, measure for termination | `Conc.JoinQueue.C42_conserved`, `Conc.JoinQueue.C42_each_once`, `Conc.JoinQueue.C42_no_deadlock`, `Conc.JoinQueue.C42_terminates`, `Conc.JoinQueue.C42_finishes` |
| C43 | Statistics are merged without loss | proved | merging of statistics | invariant of C42's model | `Conc.JoinQueue.C43_totals` |
| C44 | A GPU is used by at most one thread at a time | proved | request_gpu/release_gpu, per instruction | mutual exclusion invariant | `Conc.Tokens.C44_exclusive`, `Conc.Tokens.C44_exclusive_release`, `Conc.Tokens.C44_memory`, `Conc.Tokens.C44_available` |
| C45 | The CPU token is exclusive | proved | request_cpu/release_cpu | as C44 | `Conc.Tokens.C45_exclusive`, `Conc.Tokens.C45_flag`, `Conc.Tokens.C45_available` |
| C46 | Every sampled input line contributes a box | partial | get_voxels' producer/worker queue | inductive invariants; counterexample | `Conc.GetVoxels.C46_full_batches_partial`, `Conc.GetVoxels.C46_multiple_of_ten_partial`, `Conc.GetVoxels.C46_small_input_lost`, `Conc.GetVoxels.C46_can_finish` |
| C47 | Parallel compression writes every object exactly once | proved | compress' producer/workers/writes | inductive invariants | `Conc.Compress.C47_every_line_once`, `Conc.Compress.C47_records_contiguous`, `Conc.Compress.C47_can_finish` |
| C48 | Level-of-detail schedule ends at the requested top level | proved | joiner's lod loop | induction | `Util.C48_levels`, `Util.C48_preconditions`, `Util.C48_highest_is_last` |
| C49 | Tokenising | proved | tokenize | automaton induction against a splitting specification | `Util.C49_fields`, `Util.C49_nonblank`, `Util.C49_characters`, `Util.C49_quoted`, `Util.C49_blank_quoted_lost` |
| C50 | Merging inner voxels keeps the object's extent | proved | disable_innerpart | list lemmas | `Tile.C50_disable_innerpart` |
| C51 | Skeleton sampling | proved | skeleton sampling | list lemmas; witness | `Voxels.C51_sampling`, `Voxels.C51_out_of_bounds` |
| C52 | Reported maximum nearest distance | partial | max_nearest_distance in nearest_neighbor | partial theorem, counterexample | `Join.C52_max_nearest_upper_bound_partial`, `Join.C52_counterexample` |
| C53 | Filtering of the within join | proved | mbb_within | case analysis with C19, C22 | `Join.C53_within_filter` |
| C54 | Decimation keeps a mesh a closed surface and ends | proved | startNextCompresssionOp/decimation: the half-edge structure, CGAL's Euler operators, the tests | invariant 'closed surface' over every operator; measure | `Codec.C54_decimation` |
| C55 | One refinement undoes one decimation | proved | one decimation and the refinement that undoes it | bisimulation up to renumbering and list order | `Codec.C55_level_roundtrip` |
| C56 | Every level of detail is reproduced | proved | all levels | induction with C55 | `Codec.C56_every_level` |
| C57 | Compress, open, request levels of detail | proved | mesh → bytes → advance_to | C56 with C07, C09, C12, C13, C14, C15 | `Codec.C57_object`, `Codec.object_roundtrip` |
| C58 | Distances computed on the GPU | partial | SegDist.cu, threads' reads/writes interleaved | inductive invariants over kernel steps; counterexample schedule | `Gpu.C58_bounds_partial`, `Gpu.C58_not_below_partial`, `Gpu.C58_single_segment_partial`, `Gpu.C58_empty_unwritten`, `Gpu.C58_some_schedule_exact`, `Gpu.C58_lost_minimum` |
| C59 | Intersections computed on the GPU | proved | TriInt.cu | disjoint writes commute | `Gpu.C59_gpu_intersect` |
| C60 | A GPU batch fits in the memory of its device | partial | device buffer sizes | arithmetic; counterexamples | `Gpu.C60_distance_fits_partial`, `Gpu.C60_intersect_fits_partial`, `Gpu.C60_distance_overflow`, `Gpu.C60_intersect_overflow` |
| C61 | An object leaves the intersection join only because it meets another one | proved | the intersection join from decoded objects to undecided objects: index, filter, fill, pack, threads/kernel, marking | composition of C23, C27, C30, C33, C35, C38, C41, C59 | `EndToEnd.C61_decided_means_hit`, `EndToEnd.C61_start` |
| C62 | An object that meets another one leaves the intersection join | partial | as C61 | as C61; partial theorem | `EndToEnd.C62_hit_is_decided_partial`, `EndToEnd.C62_threads_partial`, `EndToEnd.C62_few_pairs_undecided`, `EndToEnd.Ex.C62_counterexample_threads`, `EndToEnd.ExOut.C62_counterexample_voxel_box` |
| C63 | Distances of voxel pairs, from the voxels' contents to the results | partial | calculate_distance from the voxels to the results, CPU and GPU | composition of C33, C34, C36, C37, C58 | `EndToEnd.C63_distance_cpu`, `EndToEnd.C63_distance_exact_partial`, `EndToEnd.C63_distance_gpu_partial` |
| C64 | The nearest-neighbour join keeps the nearest object | partial | the nearest-neighbour join from decoded objects to candidates | composition of C24, C30, C39, C63 | `EndToEnd.C64_nearest_kept_partial`, `EndToEnd.ExShell.C64_counterexample` |
| C65 | The segments of a mesh | proved | fill_segments over the mesh model of C54, any enumeration of edges | block lemma for the buffer; counting of halfedges | `Fill.C65_segments` |
| C66 | The triangles of a mesh | partial | fill_triangles likewise | as C65; counterexample: a pyramid | `Fill.C66_triangles_partial`, `Fill.C66_polygon_truncated` |
| C67 | From the user's mesh to the kernels | proved | fill after compress/open/advance_to | composition of C57, C65, C66 along the isomorphism | `Fill.C67_given` |
| C68 | The within join separates near from far | partial | the within join from decoded objects to the undecided ones | composition of C22, C53, C40, C63; induction on levels | `EndToEnd.C68_within_partial`, `EndToEnd.ExFar.C68_counterexample_removed`, `EndToEnd.ExMissed.C68_counterexample_missed` |
| C69 | The R-tree's Search finds exactly the stored entries | proved | RTree.h: insertion with quadratic split, removal with reinsertion, search, count, copy | invariant of trees, by induction over levels and over histories; also when no seeds are found because of rounding | `RTree.rtree_search`, `RTree.search_after_any_history`, `RTree.contents_expected` |
| C70 | The R-tree stays balanced and tight | proved | as C69 | the same invariant; comparison with a specification of shape | `RTree.rtree_shape` |
| C71 | Iteration over the R-tree | proved | the iterator with its stack as a list of limited length | invariant: remaining entries = what is on the stack | `RTree.rtree_iterate` |
| C72 | Saving and loading the R-tree | proved | Save and Load as lists of bytes | recursion over levels; injectivity of the header | `RTree.rtree_save_load`, `RTree.rtree_load_incompatible` |
| C73 | From a file of meshes to decoded objects | proved | threads of compress.cpp writing putRecord of the compressed, opened and advanced object; the tile opened on the file | composition of C47, C57, C29, C30; loop bounds shown to be monotone | `Pipeline.C73_compress_open_decode`, `Pipeline.C73_can_finish` |
| C74 | What one decimation removes | proved | the conquest of C54 with isConvex; Codec/Removed.lean | second invariant of the conquest: neighbourhoods of unconquered vertices are those of the original mesh; facets left behind are not touched again | `Codec.C74_removed_vertices` |
| C75 | Compression stops only when nothing is removable | partial | as C74 | invariant while nothing has been removed: conquered vertices have been tested, but for the first gate's; counterexample evaluated in the kernel | `Codec.C75_idle_round_partial`, `Codec.C75_base_mesh_partial`, `Codec.C75_counterexample` |
| C76 | Facets made by decimation are convex | partial | isConvex and computeNormal over the reals (Codec/Convex.lean) | projection cancels; loop invariant of the side table; the square root is eliminated by squaring | `Codec.C76_convexity_partial`, `Codec.C76_counterexample` |
| C77 | Joins with AABB trees | partial | the tree cache and loops of calculate_distance in the levels of nearest_neighbor and within (EndToEnd/Aabb.lean); CGAL trees by contract | invariant: trees are absent between levels; loops compute the minimum; counterexamples evaluated in the kernel | `EndToEnd.C77_nearest_kept`, `EndToEnd.C77_within_distances_partial`, `EndToEnd.ExAabb.C77_counterexample_nearest`, `EndToEnd.ExAabb.C77_counterexample_within` |
| C78 | Workers of the data generator | partial | threads, queue, lock, files as interleavings (Conc/Generator.lean) | inductive invariant, decreasing measure; the counterexample schedule by induction on the jobs | `Conc.Generator.C78_each_once`, `Conc.Generator.C78_no_deadlock`, `Conc.Generator.C78_terminates`, `Conc.Generator.C78_one_worker`, `Conc.Generator.C78_one_worker_finishes`, `Conc.Generator.C78_can_finish`, `Conc.Generator.C78_counterexample` |
| C79 | Files of the data generator | proved | choices and records of generate_nuclei over any list of random numbers (Gen/Model.lean), in the threads of C78 | loop induction; composition with C78 and C29 | `Gen.C79_files`, `Gen.C79_vessels`, `Gen.C79_counts` |
| C80 | Placement of generated nuclei | partial | as C79, with load_prototype and the marking of slots | slot numbers in mixed radix are injective; boxes of different slots and vessels are side by side; counterexamples evaluated in the kernel | `Gen.C80_no_overlap`, `Gen.C80_one_vessel`, `Gen.C80_vessel_partial`, `Gen.Ex.C80_counterexample_vessel`, `Gen.Ex.C80_counterexample_marking`, `Gen.C80_counterexample_index`, `Gen.C80_counterexample_single` |
| C81 | Splitting a mesh into its parts | proved | stack, visited map, renumbering tables as in the code (Fixer/Model.lean) | termination by the lexicographic measure (unvisited points, visited entries on the stack); the result of the loop is what is reachable | `Fixer.C81_components` |
| C82 | Merging equal points | proved | the map of points seen and the table of new numbers (Fixer/Model.lean) | loop invariant: the map holds the first index of each point | `Fixer.C82_merge`, `Fixer.C82_distinct` |
| C83 | Filling holes | proved | the maps of edges, connections and assigned points (Fixer/Model.lean) | in-degree equals out-degree on the boundary (rotation of faces is a permutation); walks along an injective total map return to their start | `Fixer.C83_loops`, `Fixer.C83_closed`, `Fixer.C83_counterexample_fan`, `Fixer.C83_counterexample_merge`, `Fixer.C83_evaluate`, `Fixer.C83_evaluate_merged` |
| C84 | The mesh fixer as a whole | partial | composition of the models of C81-C83 with the files written | composition; last write wins | `Fixer.C84_main_partial`, `Fixer.C84_overwritten`, `Fixer.C84_counterexample_files` |
| C85 | Files of the mesh fixer | partial | files as lines of tokens, reading with >> and getline (Fixer/Model.lean) | induction over the tokens of the file | `Fixer.C85_roundtrip_partial`, `Fixer.C85_only_triangles`, `Fixer.C85_counterexample` |
| C86 | Well-known text output | proved | to_wkt, polyhedron_to_wkt, towkt over the mesh model of C54 | the flags as loop invariants; a character-level reader run over the text | `Wkt.C86_text`, `Wkt.C86_read`, `Wkt.C86_tool` |
| C87 | The integer rotation into a local frame can be undone | partial | compRotationMat, frenetRotation, invFrenetRotation; C library functions and roundings are parameters | each of the fifteen steps is undone by its partner; induction over the steps; counterexample | `Frenet.C87_roundtrip_partial`, `Frenet.C87_injective_partial`, `Frenet.C87_counterexample` |
| C88 | Compression stays inside its buffer | partial | stores of the range coder into a buffer of given size (Pipeline/Capacity.lean), sizes of coded blocks (Blocks/Size.lean) | potential argument on the coder's range (every call costs at most log2(total)+1 bits), summed over symbols; counterexample by kernel computation with a closed form for the fresh frequency model | `Pipeline.C88_inside_buffer_partial`, `Pipeline.C88_exactly`, `Pipeline.C88_counterexample` |
| C89 | The mesh is built from its own line | partial | get_mesh and the C-string hand-over, word-wise OFF reader (Tools/GetMesh.lean) | induction over the words: a reader that finds every word it asks for followed by white space inside the line never looks behind it | `Text.C89_text_partial`, `Text.C89_text_nul_partial`, `Text.C89_counterexample` |
| C90 | The polyhedron of a box is the box | proved | make_cube with the Euler operators on the halfedge structure (Tools/Cube.lean) | the positions do not steer the construction (naturality), the connectivity of the labelled cube by kernel computation, geometry symbolically | `Cube.C90_closed`, `Cube.C90_corners`, `Cube.C90_sides`, `Cube.C90_surface`, `Cube.C90_volume` |
| C91 | The partitioning tool writes the tiles of its input | partial | main, list_files, persist_tile composed with get_voxels (C46), the sort partition (C26, C27) and make_cube (C90) (Tools/Partitioner.lean) | composition of C26, C27, C46; mutual induction over the folder tree; injectivity of the decimal file names | `Partitioner.C91_files`, `Partitioner.C91_first_run_partial`, `Partitioner.C91_second_run_partial`, `Partitioner.C91_stale_partition`, `Partitioner.C91_small_input` |
| C92 | Normals, barycentres, lengths and surfaces of facets | proved | the geometry helpers on facets and polygons over the reals (Measures/Model.lean, Laplacian.lean) | sums around a polygon (rotation, reversal, shift), parallelism of area vectors in a plane, Heron's formula as a polynomial identity, orbits of the rotation around a vertex | `Measures.C92_facet_normals`, `Measures.C92_normal_of_plane`, `Measures.C92_normal_moves`, `Measures.C92_triangle_normal`, `Measures.C92_vertex_normal`, `Measures.C92_barycentre`, `Measures.C92_barycentre_moves`, `Measures.C92_triangle_surface`, `Measures.C92_facet_surface`, `Measures.C92_planar`, `Measures.C92_planar_moves`, `Measures.C92_degree_not_new`, `Measures.C92_laplacian` |
| C93 | The removal error measures the removal of its vertex | partial | removalError over the reals (Measures/Model.lean) | closed form of the volume: a third of the offset of the barycentre along the normal times half the area vector's length minus the fan's surface | `Measures.C93_removal_error_partial`, `Measures.C93_counterexample` |
| C94 | The codec's assertions never fail | proved | the flags of halfedges and facets with every assert evaluated (Codec/Asserts.lean, AssertsDec.lean) | refinement between the models with and without assertions; extra invariants: the queue has no duplicates and its gates are flagged, because their opposite facets are conquered while those of the pushed gates were not; halfedges of new edges lie in processed facets | `Codec.C94_decimation_asserts`, `Codec.C94_refinement_asserts`, `Codec.C94_level_asserts` |
| C95 | Refining never reads an erased halfedge | partial | removeInsertedEdges as a walk over the stored halfedges that fails on an erased one (Codec/Erased.lean) | marks correspond to the symbols 1 read (induction on the decoder), which correspond to the edges added (edges_level) | `Codec.C95_live_iterator_partial`, `Pipeline.C95_counterexample` |
| C96 | From two files of meshes to the intersection join | proved | the compression tool, tile files, the codec, filling, the join, kernels, as in C73, C67, C61, C62 | composition: the numbering of lines from C73, points of decoded triangles moved to the user's vertices (convex combinations), exactness of the triangle test in general position (C38) | `FromFiles.C96_files_to_intersections`, `FromFiles.Ex.found` |
| C97 | From two files of meshes to the within join | partial | as C96 with segments and the within join | composition of C73, C67 and C68 | `FromFiles.C97_files_to_within_partial` |
| C98 | Whatever the compressor accepts can be shown again at full detail | partial | compress, openObj, advanceObj as in C57, for inputs with any number of levels including none; loads beyond the data are failures | case split on the number of levels: C57 for one or more; for none, the base mesh round trip with arbitrary bytes behind it, monotonicity of reading under extension of the buffer, and the fact that a field of at most 17 bits is read with a load that reaches at least one byte further | `Pipeline.C98_shown_again_partial`, `Pipeline.C98_counterexample` |
| C99 | A join deletes every tile once, after its last use | proved | join_unit step by step for any number of workers with the tiles' deletes as a ghost list; the loop of the join program that makes the pairs | conservation invariant over multisets (tiles still queued + deleted + owed by workers = all tiles); a decreasing measure and absence of deadlock | `Conc.TileLife.C99_alive`, `Conc.TileLife.C99_all_freed`, `Conc.TileLife.C99_shared_freed_twice`, `Conc.TileLife.C99_finishes`, `Conc.TileLife.C99_joiner` |
<!-- /table -->

## Where the code does not do what a user would expect

Each line is a theorem (named) or, where marked *read*, an observation outside the model.

1. `get_intersect_cpu` computes only `max_thread_num * (pair_num / max_thread_num)` pairs (`C35_remainder_dropped`).
2. `get_voxels` never flushes the last `< 10` lines (`C46_small_input_lost`).
3. `within` advances `index` only while undetermined, so later objects get other pairs' distances (`C40_counterexample_*`).
4. `maxdist` of `aab::distance` is the centre distance, not an upper bound for arbitrary contents (`C20_maxdist_counterexample`).
5. Voxel boxes enclose vertices, but are filled with edges/triangles by first end point (`C32_counterexample`).
6. `SegDist` does not clamp `t` before computing `u`, so it can over-estimate (`C36_counterexample`).
7. `TriInt` works in the x/y projection only; intersections along a line parallel to z are missed, as are touching corners; degenerate triangles give
   false hits (`C38_counterexample_*`).
8. `writeBaseMesh` stores vertex and face counts in 16 bits unchecked; at most 63 levels, faces of at most 10 corners (hypotheses of C09, C57;
   `C08_too_wide_value_corrupts_neighbour`).
9. `Tile::Tile` ignores `capacity` when the metadata cache does not exist; a path without `.dt` is its own metadata file (`C30_*`).
10. `SPNode::persist` assumes a regular tree (`C27_ragged_partition_counterexample`); leaf sizes over-count by one (`C26_size_counts_one_too_many`).
11. Flat (zero-extent) objects on a split plane are in no octree child (`C25_flat_object_on_the_plane`); flat boxes do not intersect themselves (`C17_flat_box_misses_itself`).
12. A mesh in which no vertex can be removed has `i_nbDecimations = 0`; the decoder then divides 0/0 (`C13_zero_levels_defect`); a negative request
    advances (`C13_negative_request_defect`).
13. `update_distance_list` advances `i` twice per iteration (misses eliminations; harmless for soundness, C39).
14. `get_rand_number(n)` returns 1..n and is used as an index of an array of length `n` (`C51_out_of_bounds`); an empty skeleton divides by zero (*read*).
15. The GPU distance kernel races on its result (`C58_lost_minimum`), leaves the result of an empty slice unwritten (`C58_empty_unwritten`) and its arrays can exceed the device
    buffer (`C60_*_overflow`).
16. `max_nearest_distance` over-estimates (`C52_counterexample`).
17. A second `fill_voxel` of another kind is ignored (`C31_second_fill_ignored`).
18. `joiner` with an empty lod list reads an empty vector; `highest_lod` is the last, not the largest (`C48_*`); with 0 threads it spins for ever (*read*).
19. `tokenize` loses a blank quoted last field (`C49_blank_quoted_lost`).
20. *read*: `get_mesh` passes a buffer without terminating NUL; `triangulate_faces` is called inside an `assert` (compiled out);
    `Tile::add_raw` never stores the object; an empty input line makes `compress` dereference NULL; more than 100 threads overrun its arrays;
    the compression buffer's capacity is unchecked; `removeInsertedEdges` increments an iterator to an erased half-edge (`C95_*`); `isConvex`'s `j==(i+1)` lacks a modulo;
    `remove_slash` on the empty string throws; `get_distance_cpu`/`get_intersect_cpu` with one thread compute everything twice; `release_gpu` unlocks before it clears `busy` (harmless:
    `C44_exclusive_release`); the octree of `mbb_nn`/`mbb_within` is leaked; kernel launch failures are only logged.
21. `fill_triangles` passes on only the triangle of the first three corners of a facet, so a decoded polygonal facet is tested in part (`C66_polygon_truncated`).
22. *read*: `fill_segments` and `fill_triangles` add 0.1 to a coordinate of a degenerate edge, which is lost in `float` from 2^22 on; `fill_topology` truncates vertex numbers to
    16 bits; the joins only remove found objects from their lists, nothing is reported (`//todo report`); `fill_voxel` looks data up by level, so a level requested again or lower
    later finds the voxel's earlier size; a voxel pair with an empty voxel keeps the range of its boxes, whose upper end can eliminate the true nearest.
23. R-tree with `MINNODES = 1` (the default for `MAXNODES` 2 and 3): removals can leave an inner root without children, and the next `Insert` reads a branch that does
   not exist (`min1_insert_breaks`); large equal boxes make the split lose a branch (`min1_large_boxes_break`).
24. R-tree `PickSeeds`: `worst = -coverSplitArea - 1` loses the 1 in `float` for volumes from 2^24 on; then no seeds are chosen and the first branch is counted in both groups
   (`no_seeds_large_boxes`). With the default node sizes the split is still complete (part of C69).
25. R-tree `Remove` does not look at the box of entries in a leaf: an id is removed although its box does not meet the given one (`remove_ignores_box`).
   *read*: `Load(stream)` does not clear the tree first; the class has a copy constructor but no assignment operator, so assigned trees share and free nodes twice.
26. The report of a join counts packing twice in the line `analysis` for joins with distances, and `other` can be negative (C114).
27. Meshes are written as text with six significant digits (`to_polyhedron`, `poly_to_mesh`, `writeMeshOff`): at coordinates above 100000 details below one half are lost, whole meshes can collapse to a point (C116).
28. `H5ToOFF` prints coordinates with one decimal; a table without rows, vertices in two columns, or a path of 255 characters leave their buffers (C117).
29. `decompress` with any argument other than 10 uses the uninitialised pointer `himesh` after writing its file (C118).
30. `is_file` ignores that `stat` fails and reads an uninitialised structure: `list_files` below a broken link (C120).
