HOW={
"C01":("rangecod.c, function by function; bytes, carry buffer and `help` counter explicit","one invariant linking bytes out + buffer + help + low to a single number; the decoder's state is the code value relative to the interval; induction over the symbols"),
"C02":("the same, several blocks in one buffer","composition of C01 over a list of blocks; byte counts"),
"C03":("qsmodel.c, arrays as functions, loops structural","invariant of the frequency sums and rescaling counters; induction over updates"),
"C04":("qsmodel.c search table and binary search","binary search invariant"),
"C05":("encodeRemovedVertices/decode: coder x models x symbols","lock-step of two model instances with C01-C04"),
"C06":("encodeInsertedEdges/decode","as C05"),
"C07":("base mesh + level blocks in one byte buffer","induction over the levels with C02, C05, C06, C09"),
"C08":("writeBits/readBits on bytes through a 32-bit window","the buffer as one bit list; induction over the fields"),
"C09":("writeBaseMesh/readBaseMesh","C08 over the list of fields"),
"C10":("quantisation in exact rationals","algebra"),
"C11":("getQuantizedPos/getPos","algebra; witness for negative cells"),
"C12":("residuals and barycentre of removal/insertion","algebra; range of residuals"),
"C13":("advance_to's percentage loop over `Fp` rounding","least-number characterisation, histories by induction"),
"C14":("the gate loops of compressor and decompressor over next/opp/face functions","simulation between the loops"),
"C15":("the edge loops likewise","simulation"),
"C16":("aab.h over a linear order","folds; least upper bound"),
"C17":("aab::intersect","order lemmas"),
"C18":("aab::distance over `Fp`","monotone rounding"),
"C19":("aab::distance, range comparison","order/field lemmas"),
"C20":("aab::distance","partial theorem and counterexample"),
"C21":("OctreeNode as an inductive tree, addObject, query_intersect","structural induction with the covering invariant"),
"C22":("query_distance","as C21"),
"C23":("query_nn","as C21 plus soundness of each elimination"),
"C24":("deduplication of candidates in mbb_*","list lemmas"),
"C25":("addObject/split","covering invariant"),
"C26":("build_sort_partition","chunking and permutation lemmas"),
"C27":("persist/load","printer/parser for uniform trees; counterexample for ragged ones"),
"C28":("Tile metadata writer/reader","printer/parser inverse"),
"C29":("Tile's parse of the data file","printer/parser inverse"),
"C30":("Tile::Tile, both branches","equality of the two loads; counterexamples"),
"C31":("HiMesh::fill_voxel","permutation/filter lemmas"),
"C32":("generate_voxels, fill_voxel","partial theorem, counterexample"),
"C33":("packing in calculate_distance/check_intersection","offset invariant over the two passes"),
"C34":("get_distance_cpu's slicing, all schedules of the threads","writes to disjoint cells commute; slices cover"),
"C35":("get_intersect_cpu likewise","partial theorem, counterexample"),
"C36":("SegDist","algebra of the quadratic form; convexity: a pair of mutually nearest points is a closest pair (SegExact); counterexample"),
"C37":("SegDist_single","fold lemmas"),
"C38":("TriInt.cpp: edge/plane tests, projections, TriInt_single","case analysis of the orientation tests; full characterisation of the answer (TriExact); counterexamples for each missed kind"),
"C39":("mbb_nn, update_distance_list, report, the round loop","invariant 'nearest is a candidate' over arbitrary rounds"),
"C40":("within's rounds","partial theorem, counterexamples"),
"C41":("intersect's rounds","invariant over the rounds"),
"C42":("joiner's job queue, small steps per thread","inductive invariants, measure for termination"),
"C43":("merging of statistics","invariant of C42's model"),
"C44":("request_gpu/release_gpu, per instruction","mutual exclusion invariant"),
"C45":("request_cpu/release_cpu","as C44"),
"C46":("get_voxels' producer/worker queue","inductive invariants; counterexample"),
"C47":("compress' producer/workers/writes","inductive invariants"),
"C48":("joiner's lod loop","induction"),
"C49":("tokenize","automaton induction against a splitting specification"),
"C50":("disable_innerpart","list lemmas"),
"C51":("skeleton sampling","list lemmas; witness"),
"C52":("max_nearest_distance in nearest_neighbor","partial theorem, counterexample"),
"C53":("mbb_within","case analysis with C19, C22"),
"C54":("startNextCompresssionOp/decimation: the half-edge structure, CGAL's Euler operators, the tests","invariant 'closed surface' over every operator; measure"),
"C55":("one decimation and the refinement that undoes it","bisimulation up to renumbering and list order"),
"C56":("all levels","induction with C55"),
"C57":("mesh → bytes → advance_to","C56 with C07, C09, C12, C13, C14, C15"),
"C58":("SegDist.cu, threads' reads/writes interleaved","inductive invariants over kernel steps; counterexample schedule"),
"C59":("TriInt.cu","disjoint writes commute"),
"C60":("device buffer sizes","arithmetic; counterexamples"),
"C61":("the intersection join from decoded objects to undecided objects: index, filter, fill, pack, threads/kernel, marking","composition of C23, C27, C30, C33, C35, C38, C41, C59"),
"C62":("as C61","as C61; partial theorem"),
"C63":("calculate_distance from the voxels to the results, CPU and GPU","composition of C33, C34, C36, C37, C58"),
"C64":("the nearest-neighbour join from decoded objects to candidates","composition of C24, C30, C39, C63"),
"C65":("fill_segments over the mesh model of C54, any enumeration of edges","block lemma for the buffer; counting of halfedges"),
"C66":("fill_triangles likewise","as C65; counterexample: a pyramid"),
"C67":("fill after compress/open/advance_to","composition of C57, C65, C66 along the isomorphism"),
"C68":("the within join from decoded objects to the undecided ones","composition of C22, C53, C40, C63; induction on levels"),
"C69":("RTree.h: insertion with quadratic split, removal with reinsertion, search, count, copy","invariant of trees, by induction over levels and over histories; also when no seeds are found because of rounding"),
"C70":("as C69","the same invariant; comparison with a specification of shape"),
"C71":("the iterator with its stack as a list of limited length","invariant: remaining entries = what is on the stack"),
"C72":("Save and Load as lists of bytes","recursion over levels; injectivity of the header"),
"C73":("threads of compress.cpp writing putRecord of the compressed, opened and advanced object; the tile opened on the file","composition of C47, C57, C29, C30; loop bounds shown to be monotone"),
"C74":("the conquest of C54 with isConvex; Codec/Removed.lean","second invariant of the conquest: neighbourhoods of unconquered vertices are those of the original mesh; facets left behind are not touched again"),
"C75":("as C74","invariant while nothing has been removed: conquered vertices have been tested, but for the first gate's; counterexample evaluated in the kernel"),
"C76":("isConvex and computeNormal over the reals (Codec/Convex.lean)","projection cancels; loop invariant of the side table; the square root is eliminated by squaring"),
"C77":("the tree cache and loops of calculate_distance in the levels of nearest_neighbor and within (EndToEnd/Aabb.lean); CGAL trees by contract","invariant: trees are absent between levels; loops compute the minimum; counterexamples evaluated in the kernel"),
'C78':('threads, queue, lock, files as interleavings (Conc/Generator.lean)','inductive invariant, decreasing measure; the counterexample schedule by induction on the jobs'),
'C79':('choices and records of generate_nuclei over any list of random numbers (Gen/Model.lean), in the threads of C78','loop induction; composition with C78 and C29'),
'C80':('as C79, with load_prototype and the marking of slots','slot numbers in mixed radix are injective; boxes of different slots and vessels are side by side; counterexamples evaluated in the kernel'),
'C81':('stack, visited map, renumbering tables as in the code (Fixer/Model.lean)','termination by the lexicographic measure (unvisited points, visited entries on the stack); the result of the loop is what is reachable'),
'C82':('the map of points seen and the table of new numbers (Fixer/Model.lean)','loop invariant: the map holds the first index of each point'),
'C83':('the maps of edges, connections and assigned points (Fixer/Model.lean)','in-degree equals out-degree on the boundary (rotation of faces is a permutation); walks along an injective total map return to their start'),
'C84':('composition of the models of C81-C83 with the files written','composition; last write wins'),
'C85':('files as lines of tokens, reading with >> and getline (Fixer/Model.lean)','induction over the tokens of the file'),
'C86':('to_wkt, polyhedron_to_wkt, towkt over the mesh model of C54','the flags as loop invariants; a character-level reader run over the text'),
'C87':('compRotationMat, frenetRotation, invFrenetRotation; C library functions and roundings are parameters','each of the fifteen steps is undone by its partner; induction over the steps; counterexample'),
'C88':('stores of the range coder into a buffer of given size (Pipeline/Capacity.lean), sizes of coded blocks (Blocks/Size.lean)',"potential argument on the coder's range (every call costs at most log2(total)+1 bits), summed over symbols; counterexample by kernel computation with a closed form for the fresh frequency model"),
'C89':('get_mesh and the C-string hand-over, word-wise OFF reader (Tools/GetMesh.lean)','induction over the words: a reader that finds every word it asks for followed by white space inside the line never looks behind it'),
'C90':('make_cube with the Euler operators on the halfedge structure (Tools/Cube.lean)','the positions do not steer the construction (naturality), the connectivity of the labelled cube by kernel computation, geometry symbolically'),
'C91':('main, list_files, persist_tile composed with get_voxels (C46), the sort partition (C26, C27) and make_cube (C90) (Tools/Partitioner.lean)','composition of C26, C27, C46; mutual induction over the folder tree; injectivity of the decimal file names'),
'C92':('the geometry helpers on facets and polygons over the reals (Measures/Model.lean, Laplacian.lean)',"sums around a polygon (rotation, reversal, shift), parallelism of area vectors in a plane, Heron's formula as a polynomial identity, orbits of the rotation around a vertex"),
'C93':('removalError over the reals (Measures/Model.lean)',"closed form of the volume: a third of the offset of the barycentre along the normal times half the area vector's length minus the fan's surface"),
'C94':('the flags of halfedges and facets with every assert evaluated (Codec/Asserts.lean, AssertsDec.lean)','refinement between the models with and without assertions; extra invariants: the queue has no duplicates and its gates are flagged, because their opposite facets are conquered while those of the pushed gates were not; halfedges of new edges lie in processed facets'),
'C95':('removeInsertedEdges as a walk over the stored halfedges that fails on an erased one (Codec/Erased.lean)','marks correspond to the symbols 1 read (induction on the decoder), which correspond to the edges added (edges_level)'),
'C96':('the compression tool, tile files, the codec, filling, the join, kernels, as in C73, C67, C61, C62',"composition: the numbering of lines from C73, points of decoded triangles moved to the user's vertices (convex combinations), exactness of the triangle test in general position (C38)"),
'C97':('as C96 with segments and the within join','composition of C73, C67 and C68'),
'C98':('compress, openObj, advanceObj as in C57, for inputs with any number of levels including none; loads beyond the data are failures','case split on the number of levels: C57 for one or more; for none, the base mesh round trip with arbitrary bytes behind it, monotonicity of reading under extension of the buffer, and the fact that a field of at most 17 bits is read with a load that reaches at least one byte further'),
'C99':("join_unit step by step for any number of workers with the tiles' deletes as a ghost list; the loop of the join program that makes the pairs",'conservation invariant over multisets (tiles still queued + deleted + owed by workers = all tiles); a decreasing measure and absence of deadlock'),
'C100':('SegPoints, TriDist_seg, TriDist_other, TriDist and TriDist_single, over any ordered field','accepted edge pairs by half-spaces; every pair of points descends to two edges, to a corner whose face test passes, or to a common point (walking along a segment until a barycentric coordinate vanishes), so that in the remaining case the nearest edge pair would have been accepted; no compactness. Counterexamples by evaluation'),
'C101':('srand/rand as one shared state; the drawing code as a program tree, proved equal to the sampling of C51; constructors and draws of any number of workers as steps','invariant: what a worker still has to do, run from the current state of rand(), gives what the object gets alone; explicit schedules for the counterexamples'),
'C102':('fread with the meaning of the C library (bytes beyond the end of the file leave the variable as it was), parse_raw over it, uninitialised cores as a parameter','the file is the complete records followed by a proper prefix of a record; the voxel loop on the prefix consumes the rest of the file'),
'C103':('fread as for C102, Tile::load over it','as for C102'),
'C104':('retrieve_mesh as a step machine: test, fseek, fread, test, construction; the position of the stream and the mesh pointers are shared; fseek and fread are each atomic (the C library locks the stream)','invariant per program counter when at most one thread is inside; a weaker invariant for all schedules; an explicit ten-step execution over arbitrary files for the counterexample'),
'C105':('decompress_mesh as opening with a percentage followed by completeOperation, over the object model of C57','going to p and then to q >= p is going to q, by induction on the levels left, without any assumption about the bytes; then induction over the history'),
'C106':('adjust_polyhedron with the minimum loop, the truncating integer mean loop and the placement','induction over the vertices for the minimum and for the error of the truncated mean; field arithmetic for the placement'),
'C107':("decode_to, fill_voxels, reset, the per-voxel maps by level, the 'not filled yet' tests of the three joins and the null entry made when packing",'induction over the history with the exact content of every voxel; for rounds an invariant (all voxels of an object filled at a level, or none; levels bounded by the current one)'),
'C108':('the two arrays, for any enumeration of vertices and facets','blocks of three by induction over the enumeration'),
'C109':('compressor, tile file, tile loading, decoding, filling and the nearest-neighbour join put together','C64 on the held objects; the edges the join sees lie within one step of edges of the decimated input (C97), triangle inequality in R'),
'C110':("the generator's runs, the tile file, the octree and the intersection join together",'cells apart (C80), boxes inside cells under monotone rounding, soundness of the octree query, induction over levels'),
'C111':('sprintf into a fixed array as a partial function on characters; %s, %d, %ld; the formats used by the tools','decimal printing is injective and its length is the number of digits; separators are not digits, so a name parses in one way'),
'C112':('HiMesh objects with their map of skeletons; extract_skeleton as compiled; the library as an arbitrary partial function of the mesh; compression and decoding as in C57','invariant on the map: keys are at most the present percentage and present ones belong to the present mesh; the decoded mesh is isomorphic to the input and isomorphisms keep facet sizes'),
'C113':('main of the tool up to the workers, with arrays of 100 slots; the C47 transition system with 0 workers; the progress arithmetic','induction over the loops; an invariant for 0 workers; monotonicity of the percentage'),
'C114':('the timers of the three joins and of calculate_distance on a nondecreasing clock, report, on top of the C42/C43 transition system','an invariant of the rounds (sum of the laps at most the time passed), closed under merging; complete runs as counterexamples'),
'C115':('add_raw on memory, with the record format of the tile model','round trip of the record format; the box as a fold, compared with parse_raw'),
'C116':("CGAL's OFF writer and reader on characters, the incremental builder, get_mesh with the memory behind its copy","words of the text; uniqueness of the builder's result up to renaming (build_iso)"),
'C117':('process_file on characters, the tables as flat blocks, printf %.1f and the text on characters','the reader of C116 on the words of the text; a decimal reader as specification'),
'C118':('main from the compressed mesh on, with the codec of C01-C20, the names of C111 and the text of C116; not the measurements with zlib at the end, nor the use of himesh after it was set','C105 for one level per decompression, C116 to read each file; names differ since decimals differ'),
'C119':('main from the voxels on: generate_voxels, aab::update, make_cube and the names, over any linear order of coordinates','a box lies in c iff all its points do: invariant of the loop over the vertices, then of the loop over the voxels; C90 for the polyhedra'),
'C120':('list_files and is_file over the answers of stat, opendir and readdir; paths as characters','induction over the tree, then over the entries; paths below two entries differ at the first slash'),
}
