{"id": "C01", "title": "Range coder round trip", "statement": "Whatever sequence of (interval, total) symbols is written with start_encoding/encode_shift/encode_short/done_encoding, start_decoding followed by the matching decode_culshift/decode_update calls returns, at each step, a cumulative value inside exactly the interval that was encoded at that step.", "quantifier": "every finite sequence of symbols, every list of sub-intervals with positive width of a power-of-two total (shift at most 22), every byte contents following the coded block", "why_tests_cant": "the carry chain (runs of 0xff bytes of any length) and the interaction of rounding with renormalisation depend on the whole history; tests sample finitely many histories", "anchors": ["src/PPMC/rangeCoder/rangecod.c: start_encoding, enc_normalize, encode_shift, done_encoding, start_decoding, dec_normalize, decode_culshift, decode_update"]}
{"id": "C02", "title": "Coded blocks are self-delimiting", "statement": "After done_decoding the read offset is exactly the offset at which done_encoding stopped writing, so blocks written one after the other in the same buffer are read back one after the other, independently of what follows.", "quantifier": "every symbol sequence, every following byte string", "why_tests_cant": "must hold for every block content and length; an off-by-one only appears for particular final states", "anchors": ["src/PPMC/rangeCoder/rangecod.c: done_encoding, start_decoding, dec_normalize, done_decoding", "src/PPMC/mymeshComp.cpp: encodeRemovedVertices, encodeInsertedEdges"]}
{"id": "C03", "title": "The adaptive frequency model never becomes inconsistent", "statement": "After any history of updates following initialisation, the frequencies of the symbols are all at least 1 and sum to exactly the declared power-of-two total, and the library's internal 'BUG: rescaling left ...' exit is never taken.", "quantifier": "every symbol count n with 1 <= n <= 2^lg_totf, every rescale interval, every sequence of symbols", "why_tests_cant": "rescaling happens at history-dependent moments with history-dependent remainders", "anchors": ["src/PPMC/rangeCoder/qsmodel.c: initqsmodel, resetqsmodel, dorescale, qsupdate, qsgetfreq"]}
{"id": "C04", "title": "Symbol lookup inverts the frequency table", "statement": "On a decoding model, for every cumulative value below the total, qsgetsym returns the one symbol whose frequency interval (as reported by qsgetfreq) contains that value, at every point of any history.", "quantifier": "every symbol count, every total 2^lg with lg >= 7 (the library's lookup table needs at least 2^7; the project uses 10 and 18), every history and cumulative value", "why_tests_cant": "the lookup table is rebuilt incrementally; errors only show for particular frequency layouts", "anchors": ["src/PPMC/rangeCoder/qsmodel.c: qsgetsym, qsgetfreq, dorescale"]}
{"id": "C05", "title": "Removed-vertex block round trip", "statement": "The block written for one decimation level (minimum, range, one bit per visited face, three residual coordinates per split face) decodes to exactly the same bits and residual vectors, and the decoder ends exactly at the end of the block.", "quantifier": "every face-symbol list with at least one split face, every residual list with one residual per split face and coordinates in the 16-bit window the format allows", "why_tests_cant": "combination of two adaptive models and one coder state over an unbounded stream", "anchors": ["src/PPMC/mymeshComp.cpp: encodeRemovedVertices", "src/PPMC/mymeshDecomp.cpp: beginUndecimationConquest, undecimationStep, decodeGeometrySym"]}
{"id": "C06", "title": "Inserted-edge block round trip", "statement": "The block written for the inserted edges of one decimation level decodes to exactly the same sequence of bits and the decoder ends exactly at the end of the block.", "quantifier": "every bit sequence", "why_tests_cant": "unbounded stream, adaptive state", "anchors": ["src/PPMC/mymeshComp.cpp: encodeInsertedEdges", "src/PPMC/mymeshDecomp.cpp: beginInsertedEdgeDecoding, InsertedEdgeDecodingStep"]}
{"id": "C07", "title": "Progressive decoding of the whole compressed object", "statement": "Compressed data written for a base mesh and L decimation levels decodes, for every k <= L, to the same base mesh and the k coarsest levels, coarsest first; decoding all levels leaves the read offset at the size the compressor produced.", "quantifier": "every base mesh that fits the header fields, every number of levels and level contents, every k", "why_tests_cant": "an arbitrary number of variable-length blocks concatenated without an index", "anchors": ["src/PPMC/mymeshIO.cpp: writeCompressedData, readCompressedData", "src/test/compress.cpp: mycompress"]}
{"id": "C08", "title": "Bit-field writer/reader round trip", "statement": "A sequence of bit fields written with writeBits into a zeroed buffer is read back unchanged by readBits called with the same widths, and both end at the same byte and bit offset.", "quantifier": "every sequence of fields of width 1 to 25 whose values fit their width, every starting bit offset", "why_tests_cant": "field boundaries straddle bytes in ways that depend on all previous widths", "anchors": ["src/PPMC/mymeshIO.cpp: writeBits, readBits"]}
{"id": "C09", "title": "Base mesh round trip", "statement": "The base mesh (bounding-box corner, quantisation step, level counts, quantised vertices, faces) written by the compressor is read back unchanged up to a renumbering of the vertices that puts the two departure vertices first.", "quantifier": "every base mesh with 2..65535 vertices and at most 65535 faces of degree 3..10 and quantised coordinates in range", "why_tests_cant": "variable-width fields over an unbounded mesh", "anchors": ["src/PPMC/mymeshIO.cpp: writeBaseMesh, readBaseMesh"]}
{"id": "C10", "title": "Quantisation error bound", "statement": "Compressing moves no vertex by more than half a quantisation step along any axis, in exact arithmetic.", "quantifier": "every vertex inside a bounding box of positive extent, every quantisation depth", "why_tests_cant": "a bound over a continuum of inputs including the clamped upper boundary", "anchors": ["src/PPMC/mymesh.cpp: determineQuantStep, quantizeVertexPositions, getQuantizedPos, getPos"]}
{"id": "C11", "title": "Quantisation is idempotent", "statement": "A position produced by dequantising a cell quantises back to that same cell, so quantising twice is the same as quantising once, and decoding a stored cell gives the exact position the encoder used (exact arithmetic).", "quantifier": "every cell, every positive step, every box corner", "why_tests_cant": "continuum of inputs", "anchors": ["src/PPMC/mymesh.cpp: getQuantizedPos, getPos"]}
{"id": "C12", "title": "Removed vertices are restored exactly", "statement": "A vertex removed by the compressor is re-inserted by the decompressor at exactly its quantised position, whatever predicted position (barycentre) is used, as long as both sides predict the same one.", "quantifier": "every quantised vertex position and every predicted position", "why_tests_cant": "continuum of inputs", "anchors": ["src/PPMC/mymeshComp.cpp: determineResiduals", "src/PPMC/mymeshDecomp.cpp: insertRemovedVertices"]}
{"id": "C13", "title": "Advancing the level of detail is monotone, idempotent and path-independent", "statement": "advance_to(p) applies the smallest number of refinement levels whose percentage reaches p; asking for a lower or equal percentage changes nothing; advancing in several steps ends in the same state as advancing directly to the largest percentage; 100 reaches all levels.", "quantifier": "every number of levels >= 1, every sequence of requested percentages in 0..100", "why_tests_cant": "all request histories", "anchors": ["src/spatial/himesh.cpp: HiMesh::advance_to", "src/PPMC/mymeshDecomp.cpp: startNextDecompresssionOp", "src/PPMC/mymesh.cpp: batchOperation, completeOperation"]}
{"id": "C14", "title": "Compressor and decompressor visit faces in the same order", "statement": "On the same mesh and the same starting edge the coder and the decoder process the same faces, each exactly once, in the same order, although they mark faces at different moments; every face of a connected mesh is processed.", "quantifier": "every finite closed mesh connectivity and starting half-edge", "why_tests_cant": "all mesh topologies", "anchors": ["src/PPMC/mymeshComp.cpp: RemovedVertexCodingStep", "src/PPMC/mymeshDecomp.cpp: undecimationStep"]}
{"id": "C15", "title": "An edge symbol is read exactly when one was written", "statement": "During the inserted-edge pass the coder and the decoder visit the same edges in the same order, each edge at most once, and the decoder reads a symbol for an edge iff the coder wrote one for it.", "quantifier": "every finite closed mesh, every split/unsplit labelling of its faces", "why_tests_cant": "all mesh topologies", "anchors": ["src/PPMC/mymeshComp.cpp: InsertedEdgeCodingStep", "src/PPMC/mymeshDecomp.cpp: InsertedEdgeDecodingStep"]}
{"id": "C16", "title": "Bounding boxes contain what was added and nothing more", "statement": "After any sequence of updates with points and boxes, the box contains every added point/box and is contained in every box that contains them all.", "quantifier": "every sequence of updates", "why_tests_cant": "all sequences", "anchors": ["src/geometry/aab.h: aab::aab, aab::update, aab::contains"]}
{"id": "C17", "title": "Box intersection test", "statement": "aab::intersect returns true iff the two boxes share a point in the interior sense (an open overlap on each axis); the answer is symmetric; for boxes of positive extent it is true iff some point is strictly inside both.", "quantifier": "every pair of boxes", "why_tests_cant": "continuum", "anchors": ["src/geometry/aab.h: aab::intersect"]}
{"id": "C18", "title": "Box distance is a lower bound of content distance", "statement": "The mindist returned by aab::distance never exceeds the squared distance computed by the library for any point of the first box and any point of the second, even with floating-point rounding.", "quantifier": "every pair of valid boxes, every pair of contained points, every monotone rounding of the elementary operations", "why_tests_cant": "continuum of inputs and rounding effects", "anchors": ["src/geometry/aab.h: aab::distance", "src/geometry/geometry.h: distance, VdistV2"]}
{"id": "C19", "title": "Distance ranges are well formed", "statement": "For valid boxes mindist <= maxdist, mindist is 0 iff the boxes touch or overlap, the range is symmetric in its arguments, and the three comparison operators of range are mutually exclusive and exhaustive.", "quantifier": "every pair of valid boxes", "why_tests_cant": "continuum", "anchors": ["src/geometry/aab.h: aab::distance, range::operator>, operator<, operator=="]}
{"id": "C20", "title": "maxdist bounds the distance between objects", "statement": "If each box is the bounding box of an object then the distance between the objects is at most maxdist (this is what pruning relies on).", "quantifier": "every pair of objects", "why_tests_cant": "continuum of object shapes; false for objects that avoid their box centre", "anchors": ["src/geometry/aab.h: aab::distance", "src/index/octree.cpp: OctreeNode::query_nn", "src/join/SpatialJoin.cpp: mbb_nn, mbb_within"]}
{"id": "C21", "title": "Octree intersection queries are exact", "statement": "A box query on an octree returns the identifier of an indexed object iff the object's box intersects the query box and the object is not the query object itself.", "quantifier": "every set of objects of positive extent inside the root box, every leaf size, every query box", "why_tests_cant": "the tree shape depends on the whole insertion history", "anchors": ["src/index/octree.cpp: addObject, query_intersect, build_octree", "src/storage/tile.cpp: Tile::build_octree"]}
{"id": "C22", "title": "Octree within-distance queries are exact", "statement": "A within query returns the identifier of an indexed object iff its box distance to the query box is at most the given distance and it is not the query object itself; the attached range is the box distance.", "quantifier": "every set of objects inside the root box, every leaf size, query box and distance", "why_tests_cant": "tree shape depends on history", "anchors": ["src/index/octree.cpp: addObject, query_within"]}
{"id": "C23", "title": "Nearest-neighbour index query keeps every possible nearest object", "statement": "Every indexed object whose minimum box distance does not exceed the smallest maxdist among all other objects is among the candidates of query_nn.", "quantifier": "every object set, insertion order, leaf size, query box", "why_tests_cant": "candidates are pruned on the fly in history-dependent order", "anchors": ["src/index/octree.cpp: query_nn, update_distance_list"]}
{"id": "C24", "title": "Candidate identifiers are reported once", "statement": "After the join's sort-and-skip step each candidate object appears exactly once and in increasing identifier order, although an object may be stored in several octree leaves.", "quantifier": "every result list", "why_tests_cant": "all lists", "anchors": ["src/join/SpatialJoin.cpp: mbb_intersect, mbb_nn, mbb_within, compare_pair"]}
{"id": "C25", "title": "No object is lost when an octree node splits", "statement": "For objects of positive extent contained in the node, after any insertion sequence each object is stored in every leaf whose box it intersects and in at least one leaf; the generated tiles cover every object. A leaf stays heavier than the leaf size only with one object, or when splitting it was found not to help.", "quantifier": "every insertion sequence", "why_tests_cant": "history-dependent splits and undone splits", "anchors": ["src/index/octree.cpp: addObject, genTiles"]}
{"id": "C26", "title": "Sort partition assigns every object to exactly one tile", "statement": "build_sort_partition puts each input object in exactly one leaf, every leaf box is exactly the bounding box of its objects, and the number of tiles does not exceed the number of requested cuts; the size kept in every node is one more than the sizes of what is under it.", "quantifier": "every object list and tile count", "why_tests_cant": "all sizes and divisibility cases", "anchors": ["src/index/stree.cpp: build_sort_partition, genTiles", "src/index/index.h: SPNode::add_child, add_object"]}
{"id": "C27", "title": "Sort partition persists and loads back", "statement": "Loading a persisted partition yields the same leaf boxes and sizes in the same order.", "quantifier": "every partition produced by build_sort_partition", "why_tests_cant": "depends on whether the three levels are regular", "anchors": ["src/index/stree.cpp: SPNode::persist, SPNode::load"]}
{"id": "C28", "title": "Tile metadata cache round trip", "statement": "Loading the metadata file written by a tile gives the same objects: identifiers, data offset, data size and voxels, and the same bounding boxes; with capacity c, the first c of them.", "quantifier": "every list of objects, every capacity", "why_tests_cant": "unbounded record sequence", "anchors": ["src/storage/tile.cpp: Tile::persist, Tile::load"]}
{"id": "C29", "title": "A compressed data file is parsed back into the objects written", "statement": "For a file that is the concatenation of the records written by the compressor, opening a tile finds exactly one object per record, with the same voxels, and later retrieval reads exactly the compressed bytes of that record.", "quantifier": "every list of records", "why_tests_cant": "unbounded file; offsets accumulate", "anchors": ["src/test/compress.cpp: flush_mesh_buffer", "src/storage/tile.cpp: Tile::parse_raw, Tile::retrieve_mesh"]}
{"id": "C30", "title": "First and later opens of a tile agree", "statement": "Opening a tile a second time (through its metadata cache) gives the same objects as the first time (through the data file).", "quantifier": "every data file and every capacity", "why_tests_cant": "depends on filesystem state left by a previous run", "anchors": ["src/storage/tile.cpp: Tile::Tile"]}
{"id": "C31", "title": "Voxel filling is a partition", "statement": "Filling the voxels of an object distributes the edges (or triangles) so that each is in exactly one voxel, the one whose core is nearest to its first point (first such), in the original order, and the recorded sizes are the numbers of elements stored.", "quantifier": "every element list and voxel list", "why_tests_cant": "all sizes and geometric configurations", "anchors": ["src/spatial/himesh.cpp: HiMesh::fill_voxel"]}
{"id": "C32", "title": "Voxel boxes enclose what they are filled with", "statement": "Every edge or triangle stored in a voxel lies inside that voxel's box (which the distance filter relies on).", "quantifier": "every mesh and skeleton", "why_tests_cant": "continuum of shapes; false because boxes are built from vertices but filled with edges by first endpoint", "anchors": ["src/spatial/himesh.cpp: generate_voxels, fill_voxel", "src/join/SpatialJoin.cpp: mbb_nn, mbb_within, mbb_intersect"]}
{"id": "C33", "title": "Batch packing preserves the data of every voxel pair", "statement": "In the batch handed to the geometry kernels each pair's two slices are exactly the elements of its two voxels, each voxel is stored once, and all slices lie inside the buffer.", "quantifier": "every list of voxel pairs", "why_tests_cant": "sharing patterns are unbounded", "anchors": ["src/join/SpatialJoin.cpp: calculate_distance, intersect"]}
{"id": "C34", "title": "Multi-threaded distance computation equals the sequential one", "statement": "For every number of compute threads, get_distance fills every entry of the result array with the minimum distance of the corresponding pair, each thread writing a disjoint range.", "quantifier": "every pair count, every thread count >= 1, every schedule", "why_tests_cant": "all divisions and schedules", "anchors": ["src/geometry/geometry_computer.cpp: get_distance_cpu, SegDist_unit"]}
{"id": "C35", "title": "Multi-threaded intersection tests equal the sequential one", "statement": "For every number of compute threads, get_intersect fills every entry of the result array with the answer for the corresponding pair.", "quantifier": "every pair count and thread count >= 1", "why_tests_cant": "all divisions", "anchors": ["src/geometry/geometry_computer.cpp: get_intersect_cpu, TriInt_unit"]}
{"id": "C36", "title": "Segment distance", "statement": "SegDist returns the squared distance between two segments.", "quantifier": "every pair of non-degenerate segments", "why_tests_cant": "continuum; the clamping case analysis", "anchors": ["src/geometry/SegDist.cpp: SegDist"]}
{"id": "C37", "title": "Segment-set distance is the minimum over all pairs", "statement": "SegDist_single returns the smallest of the pairwise distances, and infinity for empty input, up to the limit of 10000 segments per set that it asserts; of larger sets exactly the first 10000 segments count.", "quantifier": "every pair of segment lists", "why_tests_cant": "all sizes", "anchors": ["src/geometry/SegDist.cpp: SegDist_single"]}
{"id": "C38", "title": "Triangle-set intersection is existential", "statement": "TriInt_single returns true iff some triangle of the first set and some of the second pass the pairwise test; and the pairwise test is true iff the triangles intersect.", "quantifier": "every pair of triangle lists", "why_tests_cant": "continuum", "anchors": ["src/geometry/TriInt.cpp: TriInt, TriInt_single"]}
{"id": "C39", "title": "Progressive nearest-neighbour refinement never discards the nearest object", "statement": "As long as the distance ranges are valid bounds, no pruning step of the nearest-neighbour join removes the object that is nearest, at any level of detail.", "quantifier": "every candidate list, every sequence of refinement rounds", "why_tests_cant": "history-dependent pruning", "anchors": ["src/join/SpatialJoin.cpp: update_voxel_pair_list, update_candidate_list, mbb_nn, nearest_neighbor"]}
{"id": "C40", "title": "Within-join refinement attributes distances to the right voxel pairs", "statement": "In every round of the within join each voxel pair is updated with the distance computed for that same pair.", "quantifier": "every candidate list and distances", "why_tests_cant": "index drift appears only for particular early-exit patterns", "anchors": ["src/join/SpatialJoin.cpp: within, calculate_distance"]}
{"id": "C41", "title": "Intersection join removes an object exactly when a hit is found", "statement": "After a round of the intersection join an object remains iff none of its voxel pairs was found to intersect in this or an earlier round.", "quantifier": "every candidate list and kernel results", "why_tests_cant": "all lists", "anchors": ["src/join/SpatialJoin.cpp: update_candidate_list_intersect, intersect"]}
{"id": "C42", "title": "Every tile pair is joined exactly once", "statement": "For every number of worker threads and every schedule, each tile pair in the queue is processed by exactly one worker, and when all workers have stopped the queue is empty.", "quantifier": "every number of pairs, threads, every interleaving", "why_tests_cant": "schedules", "anchors": ["src/join/SpatialJoin.cpp: join, join_unit"]}
{"id": "C43", "title": "Statistics are merged without loss", "statement": "The global statistics after a join are the sum (and the maximum for max_nearest_distance) of the per-pair statistics, for every order in which workers finish.", "quantifier": "every interleaving", "why_tests_cant": "schedules", "anchors": ["src/join/SpatialJoin.h: query_context::merge", "src/join/SpatialJoin.cpp: join_unit"]}
{"id": "C44", "title": "A GPU is used by at most one thread at a time", "statement": "request_gpu never hands the same device to two threads before it was released.", "quantifier": "every number of threads and devices, every interleaving", "why_tests_cant": "schedules", "anchors": ["src/geometry/geometry_computer.cpp: request_gpu, release_gpu"]}
{"id": "C45", "title": "The CPU token is exclusive", "statement": "request_cpu returns true for at most one holder until release_cpu.", "quantifier": "every interleaving", "why_tests_cant": "schedules", "anchors": ["src/geometry/geometry_computer.cpp: request_cpu, release_cpu"]}
{"id": "C46", "title": "Every sampled input line contributes a box", "statement": "get_voxels produces one box for every non-empty sampled input line.", "quantifier": "every number of lines, threads and every interleaving", "why_tests_cant": "schedules and batch remainders; false for the last partial batch", "anchors": ["src/partition/partition.cpp: get_voxels, get_mbbs_unit"]}
{"id": "C47", "title": "Parallel compression writes every object exactly once", "statement": "The compressed file contains one record for every input line, in some order, each record contiguous, for every number of threads and schedule.", "quantifier": "every line list, thread count from 1 to 100 (others: C113), interleaving", "why_tests_cant": "schedules", "anchors": ["src/test/compress.cpp: main, mycompress, flush_mesh_buffer"]}
{"id": "C48", "title": "Level-of-detail schedule ends at the requested top level", "statement": "Without explicit levels, the list of levels used by the join is strictly increasing, starts at base_lod and ends with top_lod.", "quantifier": "every base <= top and gap >= 1", "why_tests_cant": "all integers", "anchors": ["src/test/joiner.cpp: main", "src/join/SpatialJoin.h: query_context::highest_lod"]}
{"id": "C49", "title": "Tokenising", "statement": "tokenize without quote characters splits on delimiters: joining never loses a non-delimiter character; no returned token contains a delimiter; without keepBlankFields no token is empty.", "quantifier": "every string and delimiter set", "why_tests_cant": "all strings", "anchors": ["src/util/util.h: tokenize"]}
{"id": "C50", "title": "Merging inner voxels keeps the object's extent", "statement": "disable_innerpart replaces the voxels of an object that has more than one by one voxel whose box is the object's box (hence contains all former voxels) and leaves others unchanged.", "quantifier": "every tile", "why_tests_cant": "all lists", "anchors": ["src/storage/tile.cpp: Tile::disable_innerpart"]}
{"id": "C51", "title": "Skeleton sampling", "statement": "Sampling the skeleton for voxel cores yields some of its points in order: at least one and at most the wanted number, whatever the random draws; all points if more are wanted than exist.", "quantifier": "every skeleton, wanted number below the number of points, and every sequence of random draws", "why_tests_cant": "random draws", "anchors": ["src/spatial/himesh.cpp: get_skeleton_points", "src/util/util.h: get_rand_number"]}
{"id": "C52", "title": "Reported maximum nearest distance", "statement": "After a nearest-neighbour join max_nearest_distance is the largest nearest-neighbour distance of the objects that took part in refinement.", "quantifier": "every candidate list, every sequence of rounds", "why_tests_cant": "all inputs and rounds", "anchors": ["src/join/SpatialJoin.cpp: SpatialJoin::nearest_neighbor"]}
{"id": "C53", "title": "Filtering of the within join", "statement": "When box ranges are right, a candidate of the within join is dropped before refinement only if the boxes of some voxel pair prove it within the limit, or all prove it beyond; a kept candidate keeps every voxel pair that can be within the limit.", "quantifier": "every tile, object and limit", "why_tests_cant": "all inputs", "anchors": ["src/join/SpatialJoin.cpp: SpatialJoin::mbb_within"]}
{"id": "C54", "title": "Decimation keeps a mesh a closed surface and ends", "statement": "One decimation of a closed connected mesh terminates, never follows an erased halfedge, and leaves a closed connected mesh of the same kind that contains the departure edge; the remaining vertices keep their positions, the number of removed vertices is reported exactly, a decimation that removes none changes nothing, and no facet gets more than max(8, what it had) corners.", "quantifier": "every closed connected mesh, starting halfedge and answer of the geometric removability test", "why_tests_cant": "all meshes", "anchors": ["src/PPMC/mymeshComp.cpp: beginDecimationConquest, decimationStep, vertexCut", "src/PPMC/mymeshCompTests.cpp: isRemovable, willViolateManifold"]}
{"id": "C55", "title": "One refinement undoes one decimation", "statement": "Decoding the symbols written after a decimation, on any copy of the decimated mesh, reproduces the mesh before it: same facets, edges, vertices and positions.", "quantifier": "every closed connected mesh, decimation, copy, storage order", "why_tests_cant": "all meshes", "anchors": ["src/PPMC/mymeshComp.cpp", "src/PPMC/mymeshDecomp.cpp: insertRemovedVertices, removeInsertedEdges, undecimationStep, InsertedEdgeDecodingStep"]}
{"id": "C56", "title": "Every level of detail is reproduced", "statement": "Compression ends with a base mesh; each level has strictly fewer vertices, all of them vertices of the finer one; decoding the first k levels reproduces exactly the mesh the compressor had at that level, all levels the original mesh.", "quantifier": "every closed connected mesh and every number of decoded levels", "why_tests_cant": "all meshes and levels", "anchors": ["src/PPMC/mymesh.cpp: completeOperation, batchOperation", "src/PPMC/mymeshComp.cpp", "src/PPMC/mymeshDecomp.cpp"]}
{"id": "C57", "title": "Compress, open, request levels of detail", "statement": "Compressing a mesh to bytes, opening the bytes elsewhere and issuing any history of advance_to requests shows the mesh of exactly the level the largest request asks for, with every vertex within half a quantisation step per axis of the original one; 100 shows the original connectivity.", "quantifier": "every closed connected mesh with facets of at most 10 corners, every history of requests", "why_tests_cant": "all meshes and histories", "anchors": ["src/PPMC/mymesh.cpp: MyMesh::MyMesh", "src/PPMC/mymeshIO.cpp", "src/PPMC/mymeshBaseBuilder.h", "src/spatial/himesh.cpp: HiMesh::advance_to"]}
{"id": "C58", "title": "Distances computed on the GPU", "statement": "For every voxel pair of a batch, the distance returned by the GPU path is the distance returned by the CPU path: the smallest of the distances of all pairs of segments, independently of the order in which the GPU's threads run and of what the device memory held before.", "quantifier": "every batch (numbers of pairs and sizes of slices), every interleaving of the threads of every kernel launch, every initial contents of the device memory", "why_tests_cant": "the outcome depends on the schedule of up to 1024 threads per block; a test sees one schedule on one device", "anchors": ["src/geometry/SegDist.cu: SegDist_kernel, SegDist_cuda, get_vector_kernel, SegDist_batch_gpu", "src/geometry/geometry_computer.cpp: get_distance_gpu, get_distance"]}
{"id": "C59", "title": "Intersections computed on the GPU", "statement": "For every voxel pair of a batch the GPU path sets the status to 1 if the CPU's triangle test finds an intersecting pair of triangles and to 0 otherwise; no pair is left out and nothing else is written.", "quantifier": "every batch, every interleaving of the threads, every initial contents of the device memory", "why_tests_cant": "numbers of pairs around multiples of the block size, all schedules", "anchors": ["src/geometry/TriInt.cu: TriInt_cuda, TriInt_batch_gpu", "src/geometry/geometry_computer.cpp: get_intersect_gpu, get_intersect"]}
{"id": "C60", "title": "A GPU batch fits in the memory of its device", "statement": "The device handed out for a batch has enough memory for everything the batch stores on it.", "quantifier": "every batch size, every set of devices, every history of requests and releases", "why_tests_cant": "needs batches of the size of the device memory", "anchors": ["src/geometry/geometry_computer.cpp: request_gpu, get_distance_gpu, get_intersect_gpu", "src/geometry/SegDist.cu: SegDist_batch_gpu", "src/geometry/TriInt.cu: TriInt_batch_gpu", "src/geometry/cuda_common.cu: get_gpus, init_gpu"]}
{"id": "C61", "title": "An object leaves the intersection join only because it meets another one", "statement": "Running the intersection join on two tiles removes an object from the list of undecided objects only if at one of the requested levels of detail one of its triangles and a triangle of another object of the second tile (whose box meets its own) pass the triangle test, and hence have a point in common; that list starts with exactly the objects whose box meets the box of another object, and nothing is added to it or reordered in it.", "quantifier": "every pair of tiles, list of levels, placement of triangles in voxels, number of CPU threads or GPU, every schedule of the threads and order of the map of voxels", "why_tests_cant": "composition of index, filter, filling, packing, kernel and bookkeeping, for all schedules", "anchors": ["src/join/SpatialJoin.cpp: intersect, mbb_intersect, check_intersection", "src/index/octree.cpp: OctreeNode::query_intersect", "src/storage/tile.cpp: build_octree", "src/geometry/geometry_computer.cpp: get_intersect"]}
{"id": "C62", "title": "An object that meets another one leaves the intersection join", "statement": "If at a requested level of detail a triangle of an object of the first tile and a triangle of another object of the second tile pass the triangle test, then the intersection join decides the object.", "quantifier": "every pair of tiles, list of levels, placement in voxels, number of CPU threads or GPU, every schedule", "why_tests_cant": "as C61", "anchors": ["src/join/SpatialJoin.cpp: intersect, mbb_intersect", "src/geometry/geometry_computer.cpp: get_intersect, get_intersect_cpu"]}
{"id": "C63", "title": "Distances of voxel pairs, from the voxels' contents to the results", "statement": "The distance a join computes for a pair of voxels is the smallest squared distance of two points, one on a segment of the first voxel and one on a segment of the second, whatever the other pairs of the batch, the order in which voxels are packed, the contents of fresh memory and the schedule.", "quantifier": "every batch of entries, contents of voxels, order of the map, number of threads or GPU, every schedule", "why_tests_cant": "composition of packing, slicing, kernel; all schedules", "anchors": ["src/join/SpatialJoin.cpp: calculate_distance", "src/geometry/geometry_computer.cpp: get_distance", "src/geometry/SegDist.cpp: SegDist_single"]}
{"id": "C64", "title": "The nearest-neighbour join keeps the nearest object", "statement": "After the nearest-neighbour join on two tiles, for every object of the first tile the object of the second tile that is nearest at the highest level of detail is still listed as a candidate, or the object was decided and it is the answer.", "quantifier": "every pair of tiles, list of levels, placement in voxels, number of threads, every schedule", "why_tests_cant": "composition of index, filter, filling, packing, kernel and pruning, for all schedules and histories of levels", "anchors": ["src/join/SpatialJoin.cpp: nearest_neighbor, mbb_nn, calculate_distance, update_distance_list", "src/index/octree.cpp: OctreeNode::query_nn"]}
{"id": "C65", "title": "The segments of a mesh", "statement": "Filling with segments yields exactly one segment for every edge of the decoded mesh, with the positions of its two ends, as many as the buffer has room for; no segment is a single point.", "quantifier": "every closed mesh, every order in which its edges are enumerated", "why_tests_cant": "all meshes, including ones with coinciding vertices", "anchors": ["src/spatial/himesh.cpp: HiMesh::fill_segments, HiMesh::fill_voxel"]}
{"id": "C66", "title": "The triangles of a mesh", "statement": "Filling with triangles yields triangles that together cover exactly the facets of the decoded mesh, as many as the buffer has room for.", "quantifier": "every closed mesh, every order in which its facets are enumerated and every choice of their first halfedge", "why_tests_cant": "all meshes, including ones with polygonal facets (all coarse levels)", "anchors": ["src/spatial/himesh.cpp: HiMesh::fill_triangles, HiMesh::fill_voxel"]}
{"id": "C67", "title": "From the user's mesh to the kernels", "statement": "Compress a mesh, open the bytes elsewhere, request any history of levels and fill: the segments are the edges of the mesh of the level asked for, the triangles consecutive corners of its facets, every coordinate within half a quantisation step of the user's vertex it stands for; after a request for 100 they are the edges and facets of the user's mesh itself.", "quantifier": "every closed connected mesh with facets of at most 10 corners, every history of requests", "why_tests_cant": "composition of the whole codec with filling", "anchors": ["src/PPMC/mymesh.cpp", "src/PPMC/mymeshIO.cpp", "src/spatial/himesh.cpp: HiMesh::advance_to, HiMesh::fill_segments, HiMesh::fill_triangles"]}
{"id": "C68", "title": "The within join separates near from far", "statement": "After the within join on two tiles, an object that was undecided after filtering and is no longer listed has, at some requested level of detail, a segment nearer than the limit to a segment of another object of the second tile; an object still listed has none with respect to its candidates.", "quantifier": "every pair of tiles, limit, list of levels, placement in voxels, number of threads, every schedule", "why_tests_cant": "composition of index, filter, filling, packing, kernel and update, for all schedules and histories of levels", "anchors": ["src/join/SpatialJoin.cpp: within, mbb_within, calculate_distance", "src/index/octree.cpp: OctreeNode::query_within"]}
{"id": "C69", "title": "The R-tree's Search finds exactly the stored entries", "statement": "After any sequence of Insert, Remove and RemoveAll, Search calls the callback on exactly the stored entries whose box meets the query, each once, stopping after the first call that answers false, and returns the number of calls; Count returns the number of stored entries, and a copy is the same tree. Remove takes away exactly one entry with that id, and only leaves all in place if none with that id meets the box; where every id is removed with the box it was inserted with, the stored entries are exactly those inserted and not removed. No call reads or writes outside a node.", "quantifier": "every history of calls with boxes that are not inside out, every dimension, node sizes from 2 \u2264 MINNODES \u2264 MAXNODES - 2 (the defaults are 4 and 8), every query and callback, every rounding", "why_tests_cant": "all histories: splits, reinsertion and loss of levels depend on the whole history", "anchors": ["src/index/RTree.h: Insert, Remove, RemoveAll, Search, Count, copy constructor"]}
{"id": "C70", "title": "The R-tree stays balanced and tight", "statement": "After any sequence of calls all leaves have the same depth, no node has more than MAXNODES branches, no node but the root fewer than the smaller of MINNODES and MAXNODES - MINNODES, the box stored with a child is the smallest that contains all entries below it, and a tree of height h has at least 2^(h+1) entries.", "quantifier": "as C69", "why_tests_cant": "an invariant of all histories", "anchors": ["src/index/RTree.h: SplitNode, ChoosePartition, PickSeeds, RemoveRect, NodeCover"]}
{"id": "C71", "title": "Iteration over the R-tree", "statement": "GetFirst and GetNext visit every stored entry exactly once with its box, in a fixed order, and end; the iterator's stack of 32 elements does not overflow for fewer than 2^33 entries.", "quantifier": "as C69", "why_tests_cant": "all shapes of trees, and depths no test reaches", "anchors": ["src/index/RTree.h: Iterator, GetFirst, GetNext, FindNextData"]}
{"id": "C72", "title": "Saving and loading the R-tree", "statement": "Loading a file written by Save gives the same tree and true; loading a file of a tree with another dimension, other node sizes or other sizes of types gives false and an empty tree.", "quantifier": "as C69; every size of the stored types", "why_tests_cant": "all trees and parameters", "anchors": ["src/index/RTree.h: Save, SaveRec, Load, LoadRec"]}
{"id": "C73", "title": "From a file of meshes to decoded objects", "statement": "Run the compression tool on a file of meshes, let it finish and open its output as a tile: the tile has exactly one object for each mesh asked for; the bytes of each object decode, in any process and after any history of requests, to the level of detail asked for, at 100 the whole mesh, vertices at most half a quantisation step per axis from the user's; its voxels are made from the mesh at full detail; opening the tile again through its metadata gives the same tile.", "quantifier": "every list of closed connected meshes with facets of at most 10 corners, every number of lines asked for, every number of workers, every schedule of the tool, every history of requests", "why_tests_cant": "all schedules of the tool, all inputs and all later histories of decoding", "anchors": ["src/test/compress.cpp", "src/storage/tile.cpp", "src/PPMC/mymesh.cpp", "src/PPMC/mymeshIO.cpp"]}
{"id": "C74", "title": "What one decimation removes", "statement": "A vertex that disappears in one decimation is not an end of the departure edge, had three to eight neighbours, all of which are still there (no two neighbours disappear together), and the ring of its neighbours had passed the convexity test. In its place there is a facet whose corners are exactly those neighbours, in order, and which passes the test, too.", "quantifier": "every closed connected mesh, every starting halfedge, every order in which CGAL stores items", "why_tests_cant": "all meshes, and all orders in which the conquest visits facets while it changes the mesh", "anchors": ["src/PPMC/mymeshCompTests.cpp: isRemovable, willViolateManifold, isConvex", "src/PPMC/mymeshComp.cpp: decimationStep, vertexCut"]}
{"id": "C75", "title": "Compression stops only when nothing is removable", "statement": "When a decimation removes no vertex (and compression ends), no vertex of the mesh passes the removability test, so the base mesh cannot be decimated further.", "quantifier": "every closed connected mesh, every starting halfedge", "why_tests_cant": "all meshes and starting points", "anchors": ["src/PPMC/mymeshCompTests.cpp: isRemovable", "src/PPMC/mymeshComp.cpp: beginDecimationConquest, decimationStep"]}
{"id": "C76", "title": "Facets made by decimation are convex", "statement": "The convexity test says yes only for rings of neighbours that form a convex polygon when seen along their normal, up to a tolerance of 1e-6; its answer does not depend on the vertex or direction it starts with.", "quantifier": "every polygon", "why_tests_cant": "all positions of all polygons, including degenerate and very small ones", "anchors": ["src/PPMC/mymeshCompTests.cpp: isConvex", "src/PPMC/mymeshUtils.cpp: computeNormal"]}
{"id": "C77", "title": "Joins with AABB trees", "statement": "With --aabb a join uses the exact distance between the objects at the current level of detail: the nearest object is among the results of a nearest neighbour join, an object beyond the threshold is not reported by a within join, and trees cached for one level are never used for another.", "quantifier": "every list of objects, candidates and levels of detail", "why_tests_cant": "all meshes, all histories of levels and all sets of candidates, including single candidates and objects that touch between vertices", "anchors": ["src/join/SpatialJoin.cpp: calculate_distance, nearest_neighbor, within", "src/PPMC/himesh.cpp: get_aabb_tree, clear_aabb_tree, get_segments", "src/test/joiner.cpp"]}
{"id": "C78", "title": "Workers of the data generator", "statement": "However the workers of the data generator are scheduled, the run ends, every vessel is done exactly once, the two output files consist of whole pieces, one per vessel and in the same order in both, the count reported is the sum over the vessels, and no worker takes a vessel from the empty queue.", "quantifier": "every number of workers, every list of vessels, every schedule, every result of the random choices", "why_tests_cant": "all schedules of the threads", "anchors": ["src/test/data_generator.cpp: generate_unit, main"]}
{"id": "C79", "title": "Files of the data generator", "statement": "The two files of nuclei open as tiles with equally many objects; object i of the second is the one made together with object i of the first, each a prototype moved as a whole with its voxels. Per vessel one object less is made than asked for, and the number reported is larger than the number of objects by the number of vessels; over all, between one and two nuclei per vessel are missing. The file of vessels has one object per vessel, at the places of the jobs. The first prototype is never used.", "quantifier": "every configuration, every sequence of random numbers, every schedule of the workers that ends", "why_tests_cant": "all random choices, schedules and sizes", "anchors": ["src/test/data_generator.cpp: generate_nuclei, organize_data, generate_vessel, main", "src/storage/tile.cpp: parse_raw"]}
{"id": "C80", "title": "Placement of generated nuclei", "statement": "No two nuclei of the first file overlap, and each is in the box of a vessel; each nucleus of the second file is displaced from its partner by between 1% and the given percentage of the largest nucleus on every axis; nuclei keep away from the vessel; no random number makes the program access memory outside its arrays.", "quantifier": "every set of prototypes, every configuration, every sequence of random numbers, every contents of fresh memory, every schedule", "why_tests_cant": "all random choices and configurations", "anchors": ["src/test/data_generator.cpp: load_prototype, generate_nuclei", "src/util/util.h: get_rand_number, get_rand_sample"]}
{"id": "C81", "title": "Splitting a mesh into its parts", "statement": "For every mesh whose faces refer to its points, the splitting ends and makes one mesh per class of points connected through faces: two points come to the same mesh exactly if a chain of faces connects them. Each mesh has the points of its class in their order and all faces of the class, in their order, with corners at the same points; its table of edges is that of its faces.", "quantifier": "every mesh (any number of points and faces, any face sizes)", "why_tests_cant": "all graphs: the loop over the stack may meet a point many times", "anchors": ["src/test/fixer.cpp: Polyhedron::depart, Polyhedron::add_face"]}
{"id": "C82", "title": "Merging equal points", "statement": "Merging ends with the same points, every corner of every face at the same place, and corners at the same place under the same number, the first point there. If no two points are equal nothing changes.", "quantifier": "every mesh whose faces refer to its points", "why_tests_cant": "all coincidences of points", "anchors": ["src/test/fixer.cpp: Polyhedron::merge_vertex"]}
{"id": "C83", "title": "Filling holes", "statement": "Filling holes ends for every mesh; it only adds faces, each a polygon with at least three different corners that runs backwards along boundary edges, no two sharing a corner. If no directed edge is used twice and at most one boundary edge begins at each point, the result is closed: every directed edge is used exactly once and so is its reverse; the number of edges reported is then the number of undirected edges.", "quantifier": "every mesh with a current table of edges", "why_tests_cant": "all arrangements of holes", "anchors": ["src/test/fixer.cpp: Polyhedron::fill_holes, Polyhedron::add_face, Polyhedron::evaluate"]}
{"id": "C84", "title": "The mesh fixer as a whole", "statement": "The program ends and writes, for each part with more than 100 points, a file with its points, its faces at the same places, and polygons over its holes; parts without equal points that meet the conditions of C83 become closed surfaces. No file is lost.", "quantifier": "every mesh whose faces refer to its points", "why_tests_cant": "all meshes, all numbers of parts", "anchors": ["src/test/fixer.cpp: main"]}
{"id": "C85", "title": "Files of the mesh fixer", "statement": "A mesh written by the program and read by it again has the same faces, its points as printed and a current table of edges.", "quantifier": "every mesh, every rounding of printed coordinates", "why_tests_cant": "all meshes", "anchors": ["src/test/fixer.cpp: Polyhedron::load, Polyhedron::dumpto"]}
{"id": "C86", "title": "Well-known text output", "statement": "The text that to_wkt and polyhedron_to_wkt return for a polyhedron is a POLYHEDRALSURFACE Z with exactly one polygon per facet, in the order of the facets, each a single ring through the corners of the facet in their order that ends where it starts; a reader of the text gets back exactly the printed corners. The tool towkt prints one line per object, in order, with its number.", "quantifier": "every closed polyhedron, every order of its facets, every way of printing numbers without spaces, commas, parentheses and newlines; any number of objects", "why_tests_cant": "needs all meshes and all facet degrees; separators depend on loop flags", "anchors": ["src/spatial/himesh.cpp:to_wkt", "src/spatial/spatial_common.cpp:polyhedron_to_wkt", "src/test/towkt.cpp:main"]}
{"id": "C87", "title": "The integer rotation into a local frame can be undone", "statement": "invFrenetRotation returns exactly the integer vector that was given to frenetRotation with the same frame, whatever the frame; so no two vectors are rotated to the same one.", "quantifier": "every frame, every integer vector, any values of the trigonometric functions", "why_tests_cant": "needs all integer vectors and all real angles; rounding ties are rare", "anchors": ["src/PPMC/frenetRotation.cpp:frenetRotation", "src/PPMC/frenetRotation.cpp:invFrenetRotation", "src/PPMC/frenetRotation.cpp:compRotationMat"]}
{"id": "C88", "title": "Compression stays inside its buffer", "statement": "Compressing an object never stores a byte outside the buffer allocated for it (as many bytes as its text has characters), and the bytes in the buffer are those that decode to the object.", "quantifier": "every closed connected mesh with facets of at most 10 corners, every text length, every sequence of decimation levels the compressor makes of it", "why_tests_cant": "The number of bytes depends on every symbol of every level; a test shows it for the objects tried, and an overflow by a few bytes usually goes unnoticed in the slack of the heap block.", "anchors": ["src/PPMC/mymesh.cpp:MyMesh (line 45)", "src/PPMC/mymeshIO.cpp:writeCompressedData", "src/PPMC/rangeCoder/rangecod.c:enc_normalize, done_encoding", "src/spatial/spatial_common.cpp:get_mesh"]}
{"id": "C89", "title": "The mesh is built from its own line", "statement": "The mesh that get_mesh builds from a line of text depends on the characters of that line only, not on what else is in memory.", "quantifier": "every line of text, every content of the memory behind its copy", "why_tests_cant": "The copy has no terminating NUL; what follows in the heap differs between runs, allocators and builds, and is usually zero in a test.", "anchors": ["src/spatial/spatial_common.cpp:get_mesh, read_mesh, read_off", "src/PPMC/mymesh.cpp:MyMesh (lines 53-55)"]}
{"id": "C90", "title": "The polyhedron of a box is the box", "statement": "make_cube returns, for every box, a closed connected polyhedron whose eight vertices are the corners of the box and whose six facets are its six sides, each once, oriented outwards; its surface is the surface of the box and it encloses the volume of the box.", "quantifier": "every box (surface: every box with min < max in each direction), every point of space", "why_tests_cant": "Boxes are arbitrary; a wrong corner or orientation in one Euler operator shows only for some boxes or some consumers.", "anchors": ["src/spatial/spatial_common.cpp:make_cube, write_box"]}
{"id": "C91", "title": "The partitioning tool writes the tiles of its input", "statement": "Running the partitioner on a folder writes at most the requested number of tile files, numbered from 0, each the box of a tile, such that the box of every object in the files under the folder lies in a tile; running it again on the same folder changes nothing.", "quantifier": "every folder tree, every content, every schedule of the reading threads, every sorting permutation, every number of tiles, every earlier content of the working directory", "why_tests_cant": "The order of readdir, the schedule of the threads and what an earlier run left in the working directory cannot be enumerated by tests.", "anchors": ["src/test/partitioner.cpp:main", "src/util/util.h:list_files", "src/partition/partition.cpp:get_voxels, persist_tile", "src/index/stree.cpp:genTiles, persist, load"]}
{"id": "C92", "title": "Normals, barycentres, lengths and surfaces of facets", "statement": "The normal, barycentre, perimeter, surface and average Laplacian of a facet do not depend on the halfedge the computation starts from; the variants taking a facet, a halfedge or a vertex list agree. The normal is zero or of length one, perpendicular to the plane of a plane polygon, on the side its circulation gives; the barycentre lies in the convex hull; the surface of a triangle is half the cross product of two sides, that of a plane convex facet half its area vector; the flatness test is right for tolerance zero up to polygons without area vector and does not change under moves and scaling.", "quantifier": "every closed polyhedron, every facet, every start halfedge, all positions of the corners, every tolerance, every set of new edges", "why_tests_cant": "Positions, degrees and starting halfedges are unbounded; a wrong start or an index past the last corner shows only for some facets.", "anchors": ["src/PPMC/mymeshUtils.cpp:computeNormal, computeVertexNormal, barycenter, vertexDegreeNotNew, avgLaplacianVect, triangleSurface, edgeLen, facePerimeter, faceSurface", "src/PPMC/mymeshCompTests.cpp:isPlanar"]}
{"id": "C93", "title": "The removal error measures the removal of its vertex", "statement": "removalError(v, polygon) is zero exactly when removing v leaves the surface unchanged, grows with the volume between v and its neighbours, and does not depend on where the object is.", "quantifier": "every vertex position, every ring of neighbours", "why_tests_cant": "It must hold for all positions; a test with one ring cannot show that the vertex is ignored.", "anchors": ["src/PPMC/mymeshCompTests.cpp:removalError"]}
{"id": "C94", "title": "The codec's assertions never fail", "statement": "On a closed connected surface no assertion of the decimation conquest can fail: a gate is in the queue once and flagged so when it is popped, a facet is conquered once, a vertex to be removed has more than two neighbours and no facet around it has been conquered, a new edge is marked once. No assertion of the refinement can fail either, whatever the symbols read: a facet gets one symbol, an edge is marked at most once, the gates of the insertion are never halfedges of edges just inserted, and each of these is marked new once. Builds with and without NDEBUG compute the same.", "quantifier": "every closed connected manifold polyhedron, every removability test, every first gate; every symbol sequence, every halfedge structure and storage order", "why_tests_cant": "The release build compiles the assertions out; whether one can fail depends on the order in which gates are met over unbounded conquests.", "anchors": ["src/PPMC/mymesh.h:MyFace, MyHalfedge", "src/PPMC/mymeshComp.cpp:decimationStep, vertexCut", "src/PPMC/mymeshDecomp.cpp:undecimationStep, InsertedEdgeDecodingStep, insertRemovedVertices"]}
{"id": "C95", "title": "Refining never reads an erased halfedge", "statement": "Decoding a finer level only ever follows links of halfedges that are still part of the mesh.", "quantifier": "every level written by a decimation of a closed connected surface, every copy of the decimated mesh, every storage order", "why_tests_cant": "The read of freed memory usually returns the old link, so tests pass.", "anchors": ["src/PPMC/mymeshDecomp.cpp:removeInsertedEdges"]}
{"id": "C96", "title": "From two files of meshes to the intersection join", "statement": "Compress two files of meshes, open the results as tiles and run the intersection join at any levels of detail: an object is taken off the list of undecided objects only if a triangle of its mesh comes, at a requested level and at the positions the user gave, within the sum of the two half quantisation steps per axis of a triangle of another object's mesh. Conversely, on a GPU or with one thread, an object with a triangular facet that crosses one of another object in general position (at the quantised positions) is not left undecided, if the boxes of objects and of voxels meet where the triangles do.", "quantifier": "all files of acceptable meshes, numbers of workers, schedules of the compression tool, histories of requests, storage orders of CGAL, levels of detail, processing on a GPU or with any number of threads, and schedules", "why_tests_cant": "the answer depends on the whole chain quantisation, coding, tile file, decoding, filling, packing, threads, kernels; a test fixes one input and one schedule", "anchors": ["src/test/compress.cpp: main, compress", "src/storage/tile.cpp: Tile::Tile", "src/join/SpatialJoin.cpp: SpatialJoin::intersect", "src/spatial/himesh.cpp: fill_triangles", "src/geometry/TriInt.cpp"]}
{"id": "C97", "title": "From two files of meshes to the within join", "statement": "Compress two files of meshes, open the results as tiles and run the within join without a GPU: an object is taken off the list only if there are two points nearer than the limit, each within half a quantisation step per axis (plus 0.1 where quantisation collapses the edge) of a point of an edge of its mesh and of another object's mesh, at a requested level and at the positions the user gave.", "quantifier": "all files of acceptable meshes, numbers of workers, schedules, histories of requests, storage orders, levels of detail, numbers of threads", "why_tests_cant": "as for C96", "anchors": ["src/test/compress.cpp: main, compress", "src/storage/tile.cpp: Tile::Tile", "src/join/SpatialJoin.cpp: SpatialJoin::within", "src/spatial/himesh.cpp: fill_segments", "src/geometry/SegDist.cpp"]}
{"id": "C98", "title": "Whatever the compressor accepts can be shown again at full detail", "statement": "If the compressor accepts a mesh (closed, connected, facets of at most ten corners, not all vertices in one point, sizes within the fields of the format), then the bytes it returns can be opened, and the opened object can be advanced to any level of detail between 1 and 100; at 100 it is the whole mesh.", "quantifier": "all accepted meshes, storage orders, convexity verdicts and requests", "why_tests_cant": "Whether any vertex can be removed depends on the geometry and on where the traversal starts; tests use meshes from which many vertices are removed. The missing case needs a mesh from which none is.", "anchors": ["src/PPMC/mymeshComp.cpp: decimationStep", "src/PPMC/mymeshIO.cpp: writeCompressedData, readBits, readBaseMesh", "src/PPMC/mymeshDecomp.cpp: startNextDecompresssionOp", "src/PPMC/mymesh.cpp: MyMesh"]}
{"id": "C99", "title": "A join deletes every tile once, after its last use", "statement": "If no tile belongs to two of the pairs given to a join, then under every interleaving of its workers no worker reads or deletes a tile that has been deleted, no tile is deleted twice, every schedule ends, and at the end every tile of every pair (a tile joined with itself counted once) has been deleted. The join program builds such pairs for every number of repetitions, with one or two input files. If some tile does belong to two pairs, every complete run deletes a tile twice.", "quantifier": "all numbers of workers, all lists of pairs, all interleavings", "why_tests_cant": "Use after free and double delete depend on the schedule and on how pairs share tiles; a test sees one schedule and usually one pair.", "anchors": ["src/join/SpatialJoin.cpp: join_unit, join", "src/test/joiner.cpp: main"]}
{"id": "C100", "title": "Distance of two triangles", "statement": "For two triangles given by nine numbers each, the triangle distance function returns the distance of the two filled triangles (0 if they have a common point), and for two arrays of triangles the smallest such distance.", "quantifier": "all pairs of triangles with finite coordinates, degenerate ones included; all array sizes", "why_tests_cant": "The function decides among edge-edge, corner-face and overlapping cases by sign tests; whether each pair of triangles ends in the right case is a statement about all of a twelve-dimensional space. About 8% of random pairs give a wrong result, which a few test pairs need not show.", "anchors": ["src/geometry/TriDist.cpp: SegPoints, TriDist_seg, TriDist_other, TriDist, TriDist_single", "src/geometry/geometry.h: VmV, VpV, VpVxS, VcrossV, VdotV, VdistV2"]}
{"id": "C101", "title": "Compressing the same objects again gives the same voxels", "statement": "The points around which an object's voxels are built are chosen with rand(), which is seeded with a constant whenever a mesh is constructed. So compressing the same input again gives every object the same points, whatever other objects are in the file and however many threads compress.", "quantifier": "all generators, all objects, all numbers of workers, all distributions of lines and interleavings", "why_tests_cant": "A run with one thread is reproducible; whether another thread draws or seeds between two draws depends on the schedule.", "anchors": ["src/PPMC/mymesh.cpp: MyMesh::MyMesh", "src/util/util.h: get_rand_number", "src/spatial/himesh.cpp: get_skeleton_points", "src/test/compress.cpp: mycompress"]}
{"id": "C102", "title": "A data file whose writing was interrupted", "statement": "If the program writing a data file (compress) is stopped at any byte, or the file is copied incompletely, opening the file gives exactly the objects whose records are complete, with their identifiers, boxes, voxels and data.", "quantifier": "all lists of objects, all positions at which the file is cut, all contents of uninitialised memory", "why_tests_cant": "Every byte position of every file is a crash point; what is read at the end of the file depends on what the variables held before.", "anchors": ["src/storage/tile.cpp: Tile::parse_raw, Tile::retrieve_mesh", "src/test/compress.cpp: main"]}
{"id": "C103", "title": "Caching the metadata was interrupted", "statement": "If the program that opens a data file for the first time is stopped while it writes the metadata file (or the disk is full), the next opening still gives all the objects of the data file.", "quantifier": "all tiles, all positions at which the metadata is cut, all capacities, all contents of uninitialised memory", "why_tests_cant": "Every byte position of the metadata is a crash point; the file exists after the crash and is taken for complete.", "anchors": ["src/storage/tile.cpp: Tile::Tile, Tile::persist, Tile::load"]}
{"id": "C104", "title": "Fetching objects of one tile from several threads", "statement": "Several threads may ask the same tile for objects at the same time (as the worker threads of a join do when the same tile takes part in several tile pairs): every object asked for is made once, from its own bytes of the data file.", "quantifier": "all data files, all numbers of threads, all lists of objects asked for, all interleavings", "why_tests_cant": "The position of the file is shared between the threads; a wrong interleaving needs one thread to be stopped between two library calls.", "anchors": ["src/storage/tile.cpp: Tile::retrieve_mesh", "src/join/SpatialJoin.cpp: join"]}
{"id": "C105", "title": "Decompressing in one go or step by step", "statement": "decompress_mesh(m, p) gives the same object as opening the bytes of m and asking for levels of detail in any order, as long as p is the largest; this also holds for damaged bytes. For the bytes the compressor writes it is the level of detail p asks for, at 100 per cent the mesh itself.", "quantifier": "all byte strings, all percentages, all histories of requests, all accepted meshes", "why_tests_cant": "The two paths through the decoder stop and resume at different places; equality is over all histories and all bytes.", "anchors": ["src/spatial/spatial_common.cpp: decompress_mesh", "src/PPMC/mymesh.cpp: MyMesh::MyMesh, completeOperation", "src/spatial/himesh.cpp: HiMesh::advance_to", "src/test/decompress.cpp: main"]}
{"id": "C106", "title": "Moving and shrinking a polyhedron", "statement": "The adjust tool, given a shift and a shrink other than 0, keeps the number and order of the vertices and divides the difference of any two vertices by the shrink, so the result is the input scaled by 1/shrink. With shrink 1 the object is moved by the shift. With a larger shrink the lowest vertex on every axis is placed at a whole number less than 2 away from the mean of the input, plus shift/shrink.", "quantifier": "all meshes with a vertex, all shifts, all shrinks other than 0", "why_tests_cant": "Equality of shapes over all meshes and all parameters; the running mean is truncated at every step.", "anchors": ["src/test/adjust_polyhedron.cpp: adjust_polyhedron, main"]}
{"id": "C107", "title": "What the voxels hold in every round of a join", "statement": "When a join computes at a level of detail, every voxel of its pairs holds exactly its share of the elements (segments or triangles, as the query needs) of its object at that level, whatever rounds were run before and whichever pairs took part in them, also if both tiles are the same. For one object and any history of decode, fill and reset requests, each voxel holds at each level the share of the kind first filled in at that level since the last reset.", "quantifier": "all histories of requests, all lists of levels, all voxel pairs of every round, all objects", "why_tests_cant": "Voxels cache what was filled in by level, meshes only go up; correctness is over all histories of levels and pairs.", "anchors": ["src/spatial/himesh.cpp: HiMesh::fill_voxel, HiMesh::advance_to, HiMesh_Wrapper::fill_voxels", "src/spatial/himesh.h: Voxel::reset, HiMesh_Wrapper::reset", "src/storage/tile.cpp: Tile::decode_to", "src/join/SpatialJoin.cpp: within, nearest_neighbor, intersect, calculate_distance"]}
{"id": "C108", "title": "The vertex array and the index array of an object", "statement": "fill_vertices writes three numbers for every vertex, exactly filling the array it allocates: every vertex has one position and its three coordinates are there. fill_topology writes three indices for every facet, exactly filling its array, and index j of a facet is the position in the vertex array of corner j of the facet.", "quantifier": "all meshes, all orders of vertices and facets, all facets and corners", "why_tests_cant": "Must hold for every mesh and every enumeration order.", "anchors": ["src/spatial/himesh.cpp: HiMesh::fill_vertices, HiMesh::fill_topology", "src/PPMC/mymesh.h: MyVertex::getId, MyVertex::setId", "src/PPMC/mymeshIO.cpp: writeBaseMesh"]}
{"id": "C109", "title": "From two files of meshes to the nearest-neighbour join", "statement": "Two files of meshes are compressed, written, opened and joined by nearest neighbour. Every query keeps, or is answered with, the object of the second file that is nearest to it at the finest level, as long as every other line of that file describes an object whose edges, at every level of its decimation, stay farther away by a margin of one quantisation step per axis.", "quantifier": "all pairs of files, all settings, all numbers of threads and schedules of the compressor, all numberings of the objects, all level lists, all queries and answers", "why_tests_cant": "Spans two programs, their threads and every mesh.", "anchors": ["src/geometry/compress.cpp: main", "src/join/nn.cpp: SpatialJoin::nearest_neighbor", "src/spatial/tile.cpp: Tile::Tile, Tile::load", "src/PPMC/mymesh.cpp: MyMesh::completeOperation"]}
{"id": "C110", "title": "A generated file of nuclei joined with itself", "statement": "The data generator puts the nuclei of its first file into different cells, so joining that file with itself for intersections finds no candidates and reports nothing, however many workers wrote the file.", "quantifier": "all prototypes, all random numbers, all numbers of workers and schedules, all numbers of vessels and nuclei, all levels, CPU and GPU", "why_tests_cant": "Spans two programs, random choices, schedules and rounding; must hold for every dataset.", "anchors": ["src/test/data_generator.cpp: main, generate_unit, generate_nuclei, load_prototype", "src/storage/tile.cpp: Tile::parse_raw", "src/join/SpatialJoin.cpp: SpatialJoin::intersect, SpatialJoin::mbb_intersect", "src/index/octree.cpp: OctreeNode::query_intersect"]}
{"id": "C111", "title": "File names and log lines are safe and unambiguous", "statement": "A tile can be opened at any path the system allows without corrupting memory, and the tools never write two different results to the same file: runs of the generator with different settings, its three outputs, and numbered boxes and polyhedra all go to different files, whose names fit their buffers.", "quantifier": "all paths, all settings, all numbers of objects, points, faces and levels", "why_tests_cant": "The length of a formatted line depends on every argument; tests use short paths and few settings.", "anchors": ["src/util/util.h: log, logt", "src/storage/tile.cpp: Tile::Tile", "src/test/data_generator.cpp: main", "src/spatial/spatial_common.cpp: write_box, write_polyhedron", "src/test/fixer.cpp: main", "src/test/decompress.cpp: main"]}
{"id": "C112", "title": "Skeletons and voxels for every polyhedron", "statement": "Voxels can be made for every polyhedron the compressor accepts, whatever the shape of its facets and at every level of detail; a skeleton asked for is the one of the mesh shown at that moment, and asking twice computes it once.", "quantifier": "all polyhedra, all levels of detail, all histories of requests, all behaviours of the skeleton library, all voxel sizes", "why_tests_cant": "Depends on how the program is compiled (a call inside assert), on the facets of all inputs and levels, and on all histories.", "anchors": ["src/spatial/himesh.cpp: HiMesh::extract_skeleton, HiMesh::generate_voxels", "src/Makefile: CPPFLAGS", "src/test/getoff.cpp: main"]}
{"id": "C113", "title": "Starting the compressor, and its progress report", "statement": "The compression tool works with any positive number of threads and, without that argument, on every machine; wrong calls are answered with the usage; and it reports every percentage of the input it has passed, with the right number of objects.", "quantifier": "all argument lists, all numbers of hardware threads, all inputs", "why_tests_cant": "Tests run on one machine with few threads; the report depends on the lengths of all lines.", "anchors": ["src/test/compress.cpp: main"]}
{"id": "C114", "title": "The time report of a join", "statement": "After a join the lines index, decode, computation and other of the report are shares of the total time: none is negative and they add up to the total; the three numbers of the line analysis, times the repetitions, add up to at most the total.", "quantifier": "all clocks, all numbers of workers and schedules, all lists of tile pairs, all numbers of rounds of every kind of join", "why_tests_cant": "The numbers depend on the readings of the clock in every thread and on the schedule.", "anchors": ["src/join/SpatialJoin.h: query_context", "src/join/SpatialJoin.cpp: intersect, within, nearest_neighbor, calculate_distance", "src/util/util.h: get_time_elapsed, logt"]}
{"id": "C115", "title": "Building a tile in memory", "statement": "A tile made without a file, to which records as the compressor writes them are added with add_raw, is the tile that would be read from a file of these records: the same box and one object for each record.", "quantifier": "all lists of records, all contents of the memory behind them", "why_tests_cant": "The objects are lost for every input; that nothing behind a record is read depends on all lengths.", "anchors": ["src/storage/tile.cpp: Tile::add_raw", "src/storage/tile.h: Tile"]}
{"id": "C116", "title": "A mesh written as text and read back", "statement": "Writing a mesh as OFF text and reading it back, as to_polyhedron, poly_to_mesh and a written file do, gives the same mesh: the same facets, edges and vertices, every vertex at its place.", "quantifier": "all closed meshes, all orders of their facets and vertices, all number printers, all contents of the memory behind a copy", "why_tests_cant": "The mesh read back depends on all its facets, their order, and every printed number.", "anchors": ["src/spatial/himesh.cpp: HiMesh::to_polyhedron", "src/PPMC/mymeshIO.cpp: MyMesh::writeMeshOff", "src/test/data_generator.cpp: poly_to_mesh", "src/spatial/spatial_common.cpp: get_mesh"]}
{"id": "C117", "title": "Converting HDF5 files to OFF files", "statement": "H5ToOFF writes, for every file whose name ends with .h5, the file with .OFF instead: all vertices and triangles of the tables, with their coordinates; different files are written to different names, and no output is taken for an input.", "quantifier": "all tables of vertices and triangles, all file names", "why_tests_cant": "The text depends on all numbers of both tables; the buffer for the name is exceeded only by long names.", "anchors": ["src/test/H5ToOFF.cpp: MyPolyhedron, MyPolyhedron::dump_to_off, process_file"]}
{"id": "C118", "title": "The decompression tool writes every level of detail", "statement": "The tool, run without an argument, compresses the mesh and writes eleven different files, one for each of the percentages 0, 10, \u2026, 100; the file named after a percentage holds the level of detail of that percentage, and the last one the whole object. With a number n as argument it writes only the file for 10 n per cent.", "quantifier": "all acceptable input meshes, settings, orders of enumeration and arguments", "why_tests_cant": "The file contents depend on the mesh, on the codec and on the enumeration of faces and vertices; the use of an unset pointer may seem to work in one run.", "anchors": ["src/test/decompress.cpp: main", "src/spatial/spatial_common.cpp: decompress_mesh", "src/PPMC/mymeshIO.cpp: MyMesh::writeMeshOff"]}
{"id": "C119", "title": "The boxes of an object", "statement": "get_boxes writes one file per voxel of the object and one for the whole: each voxel file is a closed polyhedron with exactly the six sides of the voxel's box, every vertex of the object lies in one of these boxes, the last file is the least box around all vertices, and no file overwrites another.", "quantifier": "all vertex and skeleton point lists, distance functions without infinities, sample rates", "why_tests_cant": "The boxes depend on all vertices and on the nearest skeleton point of each; a vertex lost at one voxel is not noticed on others.", "anchors": ["src/test/get_boxes.cpp: main", "src/spatial/himesh.cpp: HiMesh::generate_voxels", "src/spatial/spatial_common.cpp: write_box, make_cube", "src/geometry/aab.h: aab::update"]}
{"id": "C120", "title": "Listing the files below a directory", "statement": "list_files adds to its list exactly the regular files at and below the path it is given, each once, and returns, for every tree of directories of any depth.", "quantifier": "all file systems that do not change meanwhile, all paths, all orders of readdir", "why_tests_cant": "Trees have any depth and width and entries come in any order; what an unset structure holds depends on the stack.", "anchors": ["src/util/util.h: is_file, list_files"]}
