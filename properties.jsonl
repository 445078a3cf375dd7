{"id": "C01", "title": "signed_area2 is the shoelace sum, or an overflow panic, or its residue mod 2^64", "statement": "For every sequence of points, signed_area2 in an overflow-checked build either returns exactly the mathematical shoelace sum or panics; in a release build it never panics and returns the shoelace sum reduced to the signed 64-bit range, so it is exact whenever the true value fits in an i64, whatever the intermediate sums do.", "quantifier": "all finite sequences of u32 points, both build modes", "why_tests_cant": "Coordinates range over 2^64 points and sequences are unbounded; the interesting values sit at the overflow boundary of intermediate sums.", "anchors": ["src/geo/mod.rs: signed_area2"]}
{"id": "C02", "title": "Areas of consecutive edges add up to the area of the whole path", "statement": "Cutting a path at any vertex (both pieces keep the vertex) and adding the two signed_area2 results gives the signed_area2 of the whole path, and summing over all the edges of a ring gives the ring's signed area; in a release build this holds modulo 2^64 without any size restriction.", "quantifier": "all paths and all cut positions, all lists of chained edges", "why_tests_cant": "Unbounded path lengths and cut positions.", "anchors": ["src/geo/mod.rs: signed_area2", "src/geo/mod.rs: Ring::area2_and_winding_order"]}
{"id": "C03", "title": "Reversing a ring negates its area and flips its winding", "statement": "signed_area2 of a reversed path is the negation of signed_area2 of the path, area2 is unchanged, and winding_order flips whenever the area is neither 0 nor the single value -2^63 that has no negation.", "quantifier": "all finite point sequences", "why_tests_cant": "Unbounded sequences; the exception is one value in 2^64.", "anchors": ["src/geo/mod.rs: signed_area2", "src/geo/mod.rs: area2_and_winding_order", "src/geo/mod.rs: winding_order"]}
{"id": "C04", "title": "Area and winding of a closed ring do not depend on the start vertex or on position", "statement": "Rotating the start vertex of a closed ring, or translating all its points, leaves its mathematical 2*area unchanged, and hence leaves the result of signed_area2, area2 and winding_order unchanged in a release build.", "quantifier": "all closed rings, all rotations, all translations that stay in u32", "why_tests_cant": "Unbounded rings, rotations and offsets.", "anchors": ["src/geo/mod.rs: signed_area2", "src/geo/mod.rs: winding_order", "src/normalize.rs: rotate_island_edge"]}
{"id": "C05", "title": "The two Ring representations agree", "statement": "Ring::Points(ps) and Ring::Edges of the edges it reports have the same area2 and winding_order; the edges reported by Ring::edges chain up to exactly the input points; Ring::points of an edge ring has the same area and winding as the ring itself.", "quantifier": "all rings in both representations", "why_tests_cant": "Unbounded rings; geo's own test module is compiled under cfg(Test), which never holds, so no test runs at all.", "anchors": ["src/geo/mod.rs: Ring::points", "src/geo/mod.rs: Ring::edges", "src/geo/mod.rs: Ring::area2_and_winding_order"]}
{"id": "C06", "title": "winding_order reports Clockwise exactly for non-negative mathematical area", "statement": "For every ring, winding_order is Clockwise iff the mathematical signed area is >= 0, and area2 is its absolute value. (True when |2*area| < 2^63; false for rings that cover about half or more of the u32 coordinate square, although the shapefile reader scales data to fill that square.)", "quantifier": "all rings of u32 points", "why_tests_cant": "The failing rings have coordinates near 2^32; unit tests use single digits.", "anchors": ["src/geo/mod.rs: area2_and_winding_order", "src/geo/mod.rs: Ring::winding_order", "src/read/shapefile/geo.rs: ShapefileQuantizer::quantize"]}
{"id": "C07", "title": "Building a topology loses nothing: rings read back as they were added", "statement": "After adding any list of regions, the topology lists exactly the regions that have an outer ring of non-zero area, in order, with their data; and following the directed edges of each ring (backward edges reversed) gives back the edges of the corresponding input ring, in order and direction, minus its zero-length edges.", "quantifier": "all lists of regions with any rings in either representation", "why_tests_cant": "Unbounded numbers of regions, rings and shared edges in any arrangement.", "anchors": ["src/topology/build.rs: TopologyBuilder::add_region", "src/topology/build.rs: TopologyBuilder::into_topology", "src/topology/build.rs: build_directed_edge"]}
{"id": "C08", "title": "Only degenerate input is dropped by the builder", "statement": "A ring is left out of the topology iff its area2 is 0 (or it belongs to a region without a non-degenerate outer ring); no edge of a left-out ring appears in the topology unless a kept ring uses it.", "quantifier": "all lists of regions", "why_tests_cant": "Unbounded input; requires tracking all edges across all regions.", "anchors": ["src/topology/build.rs: build_ring", "src/topology/build.rs: build_rings", "src/topology/build.rs: add_region"]}
{"id": "C09", "title": "A topology holds each path once, in canonical direction", "statement": "In a built topology no two edges have the same points, no open edge is the reverse of another, and every edge runs from its smaller to its larger end point, or is a closed path with clockwise winding (or zero area, or the unnegatable area -2^63).", "quantifier": "all lists of regions", "why_tests_cant": "Quantifies over pairs of edges in unbounded topologies.", "anchors": ["src/topology/build.rs: build_directed_edge", "src/topology/types.rs: TopoEdge"]}
{"id": "C10", "title": "Rings that run along the same path share one edge", "statement": "If two rings contain the same non-degenerate edge, in the same or opposite direction, their directed edges point to the same topology edge, with equal or opposite directions respectively (for a closed edge: when its area is neither 0 nor -2^63).", "quantifier": "all lists of regions, all pairs of ring positions", "why_tests_cant": "Pairs of positions over unbounded histories of add_region calls.", "anchors": ["src/topology/build.rs: build_directed_edge", "src/topology/build.rs: TopologyBuilder::add_region"]}
{"id": "C11", "title": "Back pointers are exact", "statement": "In a built topology each edge's ring slots list precisely the rings that use it (once per use, in traversal order), so a lone edge has a null second slot and a shared edge has none; each ring points to the region that contains it; every edge is used by at least one ring.", "quantifier": "all lists of regions for which building does not panic", "why_tests_cant": "Global consistency of pointers over unbounded structures.", "anchors": ["src/topology/build.rs: into_topology", "src/topology/types.rs: TopoEdge", "src/topology/types.rs: TopoRing"]}
{"id": "C12", "title": "Building panics exactly when an edge is used three times", "statement": "In a release build, adding regions never panics, and into_topology panics iff some edge is used by three or more ring positions; in a checked build the only additional panic is arithmetic overflow in an area computation.", "quantifier": "all lists of regions, both build modes", "why_tests_cant": "A biconditional over all inputs.", "anchors": ["src/topology/build.rs: into_topology", "src/topology/build.rs: add_region"]}
{"id": "C13", "title": "Hash map iteration order cannot influence a topology", "statement": "into_topology gives the same topology for every order in which the builder's hash map of edges may be iterated; the same holds for the hash map of new edges in clip_topology.", "quantifier": "all builder states reachable by add_region and all permutations of the map's entries", "why_tests_cant": "HashMap order is random per process; a test sees one order per run.", "anchors": ["src/topology/build.rs: into_topology", "src/clip/topology.rs: NewEdgeSet::into_iter"]}
{"id": "C14", "title": "Edges are numbered by first use", "statement": "The i-th edge of a built topology is the i-th distinct path (up to direction) met when regions are scanned in insertion order, outer rings before inner rings; adding more regions never renumbers or changes earlier edges.", "quantifier": "all lists of regions and all extensions of them", "why_tests_cant": "Histories of unbounded length.", "anchors": ["src/topology/build.rs: build_directed_edge", "src/topology/build.rs: into_topology"]}
{"id": "C15", "title": "normalize conserves boundary segments", "statement": "For each region, and separately for its outer and its inner rings, the multiset of directed segments of the rings that normalize produces equals the multiset of directed segments of the given rings (re-wound to the required orientation), minus the segments on edges whose two sides belong to the same region: no boundary segment is lost, duplicated, reversed or invented.", "quantifier": "all well-formed topologies (exact back-pointers, closed rings, edges with extent: what the builder makes of closed rings) on which normalize does not panic", "why_tests_cant": "Joining, rotating and re-linking edges of unbounded rings.", "anchors": ["src/normalize.rs: normalize_region_rings", "src/normalize.rs: join_adjacent_rings", "src/normalize.rs: join_related_edges", "src/normalize.rs: rotate_edges"]}
{"id": "C16", "title": "normalize orients rings: outer clockwise, inner counter-clockwise", "statement": "Every outer ring of a normalized topology is clockwise and every inner ring counter-clockwise. (Documented; holds for every ring that was not assembled by merging; refuted for merged rings: two C-shaped rings forming an annulus leave the hole, counter-clockwise, among the outer rings.)", "quantifier": "all well-formed topologies (exact back-pointers, closed rings, edges with extent: what the builder makes of closed rings) on which normalize does not panic", "why_tests_cant": "The failing case needs a particular configuration of merged rings; the passing case is a claim about all rings.", "anchors": ["src/normalize.rs: wind_edges", "src/normalize.rs: join_adjacent_rings", "src/normalize.rs: normalize"]}
{"id": "C17", "title": "normalize puts the leftmost/topmost node first", "statement": "In every normalized ring that consists of one edge the first point is the smallest point of the ring; in every other ring the first edge starts at the smallest of all edge start points; the rings of a region are sorted by their first point.", "quantifier": "all well-formed topologies (exact back-pointers, closed rings, edges with extent: what the builder makes of closed rings) on which normalize does not panic", "why_tests_cant": "Quantifies over all vertices of unbounded rings.", "anchors": ["src/normalize.rs: rotate_edges", "src/normalize.rs: rotate_island_edge", "src/normalize.rs: NormRing::cmp"]}
{"id": "C18", "title": "normalize uses the fewest edges", "statement": "In every normalized ring with more than one edge, no two cyclically adjacent edges separate the same pair of regions; and joining does not alter the ring's point sequence beyond rotation.", "quantifier": "all well-formed topologies (exact back-pointers, closed rings, edges with extent: what the builder makes of closed rings) on which normalize does not panic", "why_tests_cant": "All cyclic positions of unbounded rings, including the wrap-around pair.", "anchors": ["src/normalize.rs: join_related_edges"]}
{"id": "C19", "title": "normalize leaves no edge with the same region on both sides", "statement": "No edge of a normalized ring has the same region on both sides in the input topology: adjacent polygons of a region are merged and fully redundant rings (donuts) disappear.", "quantifier": "all well-formed topologies (exact back-pointers, closed rings, edges with extent: what the builder makes of closed rings) on which normalize does not panic", "why_tests_cant": "All edges of unbounded topologies.", "anchors": ["src/normalize.rs: join_adjacent_rings", "src/normalize.rs: NormEdge::is_redundant"]}
{"id": "C20", "title": "normalize is idempotent", "statement": "Normalizing a normalized topology changes nothing. (Refuted in general: a hole left among the outer rings by merging is re-wound to clockwise by a second normalize, turning the hole into solid area.)", "quantifier": "all well-formed topologies (exact back-pointers, closed rings, edges with extent: what the builder makes of closed rings) on which normalize does not panic", "why_tests_cant": "A relation between two runs over unbounded inputs.", "anchors": ["src/normalize.rs: normalize", "src/normalize.rs: wind_edges"]}
{"id": "C21", "title": "normalize panics only in characterised situations", "statement": "In a release build normalize of a built topology whose rings are closed does not panic if no edge has the same region on both sides and no segment is used by more than two ring positions; the panics reachable from closed rings are the documented merge failures and the three-rings assertion.", "quantifier": "all built topologies with closed rings", "why_tests_cant": "Absence of panics over all inputs.", "anchors": ["src/normalize.rs: join_adjacent_rings", "src/normalize.rs: calculate_winding_order_from_edges", "src/normalize.rs: rotate_island_edge", "src/topology/build.rs: into_topology"]}
{"id": "C22", "title": "normalize preserves every region's signed area", "statement": "For each region the total signed area of its outer rings (and of its inner rings) is the same before (after re-winding) and after normalize, provided every same-region edge is crossed once in each direction by those rings.", "quantifier": "all well-formed topologies (exact back-pointers, closed rings, edges with extent: what the builder makes of closed rings) on which normalize does not panic", "why_tests_cant": "Sums over unbounded rings.", "anchors": ["src/normalize.rs: normalize_region_rings", "src/geo/mod.rs: signed_area2"]}
{"id": "C23", "title": "normalize keeps shared boundaries shared", "statement": "If two regions share a boundary edge before normalize they share it afterwards as a single topology edge. (Refuted: when the neighbour region meets the boundary with two different rings, one side joins the two edges and the other does not, and the shared edge is torn into unshared copies.)", "quantifier": "all well-formed topologies (exact back-pointers, closed rings, edges with extent: what the builder makes of closed rings) on which normalize does not panic", "why_tests_cant": "The failing configuration is rare; sharing is a global property.", "anchors": ["src/normalize.rs: join_related_edges", "src/normalize.rs: join_adjacent_rings"]}
{"id": "C24", "title": "Every point is inside, on the edge or outside of a mask, as the half-plane says", "statement": "ClipMask::test returns OnEdge iff the tested coordinate equals the bound, Inside iff it is strictly on the kept side, and Outside iff strictly on the other side, for all four masks; MinX and MaxX with the same bound (and MinY/MaxY) swap Inside and Outside.", "quantifier": "all masks and all points", "why_tests_cant": "2^32 bounds times 2^64 points.", "anchors": ["src/clip/types.rs: ClipMask::test"]}
{"id": "C25", "title": "The clip intersection point lies on the mask line, on the segment, within one unit", "statement": "For a segment that crosses the mask line with one end strictly on each side, intersect returns a point exactly on the mask line whose other coordinate lies between those of the end points and differs by less than one unit from the exact rational intersection, whenever the product it forms fits in an i64. If the product does not fit, a checked build panics and a release build still returns a point on the mask line between the end points, but possibly far from the exact intersection.", "quantifier": "all masks and all crossing segments with u32 coordinates", "why_tests_cant": "Rounding and overflow over 2^160 inputs.", "anchors": ["src/clip/types.rs: ClipMask::intersect"]}
{"id": "C26", "title": "A clipped edge never leaves the mask", "statement": "Every point returned by clip_edge is inside the mask or on its edge.", "quantifier": "all edges, all masks", "why_tests_cant": "Unbounded edges crossing the mask any number of times.", "anchors": ["src/clip/edge.rs: clip_edge"]}
{"id": "C27", "title": "Clipping leaves visible edges alone and removes invisible ones", "statement": "If all points of an edge of at least two points are inside the mask, clip_edge returns it unchanged; it returns an empty edge iff no point is inside (or the edge has fewer than two points); the inside points of the input are exactly the inside points of the output, in order.", "quantifier": "all edges, all masks", "why_tests_cant": "Unbounded edges.", "anchors": ["src/clip/edge.rs: clip_edge"]}
{"id": "C28", "title": "clip_edge returns precisely the visible pieces", "statement": "Up to immediately repeated points, the output of clip_edge is the concatenation, in order, of the visible part of each input segment that has an end inside the mask (the part from or to the mask line if the other end is outside); in particular consecutive output points are joined either along an input segment or along the mask line.", "quantifier": "all edges, all masks", "why_tests_cant": "Unbounded edges and crossing patterns (inside, outside, along the line).", "anchors": ["src/clip/edge.rs: clip_edge", "src/clip/types.rs: ClipMask::intersect"]}
{"id": "C29", "title": "Clipping twice with one mask is the same as clipping once", "statement": "clip_edge applied to its own output returns it unchanged except that a point repeated on the mask line is merged; a third application changes nothing more.", "quantifier": "all edges, all masks", "why_tests_cant": "Relation between two runs over unbounded input.", "anchors": ["src/clip/edge.rs: clip_edge"]}
{"id": "C30", "title": "Rings of a clipped topology are closed and gap-free", "statement": "In the result of clip_topology, each directed edge of each ring starts at the point where the previous one ends, and the first one starts where the last one ends, whatever the input rings were.", "quantifier": "all topologies and masks on which clip_topology does not panic", "why_tests_cant": "All crossing patterns of unbounded rings.", "anchors": ["src/clip/topology.rs: clip_ring", "src/clip/topology.rs: clip_topology"]}
{"id": "C31", "title": "clip_topology keeps regions, in order, with their data", "statement": "The regions of the clipped topology are those input regions, in order and with cloned data, that keep at least one outer ring of non-zero clipped area; each kept ring keeps its visible edges in order and direction.", "quantifier": "all topologies and masks", "why_tests_cant": "Unbounded topologies.", "anchors": ["src/clip/topology.rs: add_region", "src/clip/topology.rs: clip_rings", "src/clip/topology.rs: clip_ring"]}
{"id": "C32", "title": "Nothing outside the mask survives clip_topology", "statement": "Every point of every edge of a clipped topology is inside the mask or on its edge; edges added to plug gaps run along the mask line.", "quantifier": "all topologies and masks; for the edges that plug gaps, those whose rings are closed", "why_tests_cant": "Unbounded topologies.", "anchors": ["src/clip/topology.rs: clip_topology", "src/clip/topology.rs: NewEdgeSet::build_directed_edge"]}
{"id": "C33", "title": "Back pointers of a clipped topology are exact", "statement": "Each edge's ring slots list precisely the clipped rings that use it, in traversal order, and each ring points to its region.", "quantifier": "all topologies and masks on which clip_topology does not panic", "why_tests_cant": "Global pointer consistency.", "anchors": ["src/clip/topology.rs: into_topology"]}
{"id": "C34", "title": "Clipping preserves sharing", "statement": "Two rings that shared an edge share its clipped remainder with the same relative direction; and two clipped rings that both need a plug between the same two points of the mask line use one and the same new edge, in opposite directions if they run opposite ways.", "quantifier": "all topologies, masks and pairs of rings", "why_tests_cant": "Pairs of rings in unbounded topologies.", "anchors": ["src/clip/topology.rs: NewEdgeSet::build_directed_edge", "src/clip/topology.rs: find_old_edge_id"]}
{"id": "C35", "title": "Clipping with a mask that contains everything is the identity", "statement": "If every edge of a built topology of closed, non-degenerate rings lies strictly inside the mask, clip_topology returns an equal topology (edges, rings, regions and back pointers).", "quantifier": "all built topologies with closed rings", "why_tests_cant": "Equality of unbounded structures.", "anchors": ["src/clip/topology.rs: clip_topology", "src/clip/edge.rs: clip_edge"]}
{"id": "C36", "title": "clip_topology panics only in characterised situations", "statement": "In a release build, clip_topology on a well-formed topology panics only if an edge of the result would be used by three ring positions. (This can really happen for plug edges, even when the input satisfies all topology invariants: refutation of panic freedom.)", "quantifier": "all well-formed topologies and masks", "why_tests_cant": "Absence of panics over all inputs.", "anchors": ["src/clip/topology.rs: into_topology", "src/clip/topology.rs: clip_ring"]}
{"id": "C37", "title": "A clipped topology has no unused edges", "statement": "Every edge of the clipped topology is used by a ring. (Refuted: the clipped edges of rings dropped for zero area stay in the topology with null ring slots; holds when no clipped ring is dropped.)", "quantifier": "all topologies and masks", "why_tests_cant": "Global property of unbounded structures.", "anchors": ["src/clip/topology.rs: Builder::new", "src/clip/topology.rs: clip_ring", "src/clip/topology.rs: into_topology"]}
{"id": "C38", "title": "Simplifying an edge only removes interior points", "statement": "The output of simplify_edge is a subsequence of the input that keeps the first and the last point; hence nodes never move and no point is invented or reordered.", "quantifier": "all edges accepted by simplify_edge and all thresholds", "why_tests_cant": "Unbounded edges; the heap and linked list go through arbitrary sequences of pops and re-weightings.", "anchors": ["src/simplify/simplify_edge.rs: simplify_edge", "src/simplify/simplify_edge.rs: PointHeap::visvalingam_whyatt"]}
{"id": "C39", "title": "A ring stays a ring when simplified", "statement": "If the first and last points are equal, the simplified edge is closed and has at least four points; otherwise it has at least two.", "quantifier": "all edges accepted by simplify_edge and all thresholds", "why_tests_cant": "Unbounded edges and any weight pattern, including the two-largest-weights fallback.", "anchors": ["src/simplify/simplify_edge.rs: PointHeap::visvalingam_whyatt"]}
{"id": "C40", "title": "Simplification never panics on valid edges", "statement": "In a release build simplify_edge panics iff the edge has fewer than two points, or is closed with fewer than four; in particular no heap index, list link or loop goes wrong, and the loop terminates.", "quantifier": "all edges and thresholds", "why_tests_cant": "Unsafe pointer code whose indices depend on the whole history of heap operations.", "anchors": ["src/simplify/simplify_edge.rs: PointHeap::from", "src/simplify/simplify_edge.rs: PointHeap::pop", "src/simplify/simplify_edge.rs: PointHeap::sift_down", "src/simplify/simplify_edge.rs: PointHeap::sift_up", "src/simplify/simplify_edge.rs: PointHeap::recalculate_point_weight"]}
{"id": "C41", "title": "Simplification leaves an edge alone if nothing is small", "statement": "With threshold 0, or whenever every interior point's weight is at least the threshold, simplify_edge returns its input.", "quantifier": "all edges and thresholds", "why_tests_cant": "Unbounded edges.", "anchors": ["src/simplify/simplify_edge.rs: PointHeap::visvalingam_whyatt"]}
{"id": "C42", "title": "A point is dropped only for a weight below the threshold", "statement": "Every point missing from the simplified edge had, for some two input points around it on the edge, an effective weight below the threshold (apart from the ring fallback, which adds points back).", "quantifier": "all edges and thresholds", "why_tests_cant": "Weights depend on the history of removals.", "anchors": ["src/simplify/simplify_edge.rs: area2", "src/simplify/simplify_edge.rs: PointHeap::visvalingam_whyatt"]}
{"id": "C43", "title": "Weights are twice the triangle area and the lightest point goes first", "statement": "The weight of an interior point is twice the area of the triangle it forms with its neighbours, and points are eliminated in order of increasing weight (Visvalingam-Whyatt). (Refuted: the area formula multiplies b.x by a.x instead of subtracting; sift_down compares against the wrong heap slot and heap_index is not initialised, so the popped point need not be the lightest.)", "quantifier": "all edges and thresholds", "why_tests_cant": "Existing tests agree with the wrong formula on their samples.", "anchors": ["src/simplify/simplify_edge.rs: area2", "src/simplify/simplify_edge.rs: PointHeap::sift_down", "src/simplify/simplify_edge.rs: PointHeap::from"]}
{"id": "C44", "title": "A larger threshold keeps fewer points", "statement": "For t1 <= t2 the points kept with threshold t2 are a subset of those kept with t1. (Holds for Visvalingam-Whyatt; refuted for the code because the heap order is not maintained.)", "quantifier": "all edges and pairs of thresholds", "why_tests_cant": "A relation between two runs.", "anchors": ["src/simplify/simplify_edge.rs: PointHeap::visvalingam_whyatt"]}
{"id": "C45", "title": "simplify changes only the points of edges", "statement": "simplify leaves regions, data, rings, directed edges, back pointers and the number and order of edges untouched, replaces each edge's points by its simplification, and keeps closed gap-free rings closed and gap-free.", "quantifier": "all topologies and thresholds", "why_tests_cant": "Unbounded topologies.", "anchors": ["src/simplify/mod.rs: simplify"]}
{"id": "C46", "title": "The .dbf iterator yields exactly the announced number of records", "statement": "After a DbfReader is opened, next returns Some for exactly n_records calls (the count in the header) and None ever after, whatever the underlying reader returns, including I/O errors at any point.", "quantifier": "all files, all reader behaviours and fault points, any number of next calls", "why_tests_cant": "All fault schedules and call histories.", "anchors": ["src/read/shapefile/dbf.rs: DbfReader::next", "src/read/shapefile/dbf.rs: read_dbf_record"]}
{"id": "C47", "title": ".dbf fields tile the record after the deletion flag", "statement": "The fields reported by an opened reader are as many as whole 32-byte descriptors fit between the 32-byte header and the header length; the first starts at byte 1, each next one starts where the previous one ends, and each length is the descriptor's length byte.", "quantifier": "all files that open successfully", "why_tests_cant": "All header contents.", "anchors": ["src/read/shapefile/dbf.rs: read_dbf_fields", "src/read/shapefile/dbf.rs: parse_dbf_field"]}
{"id": "C48", "title": "Reading a .dbf file returns what was written", "statement": "For every table, writing it in the dBase III layout (header, descriptors, terminator, records) and opening it yields its field names, types, offsets and lengths, the announced record count, and then exactly its record bytes in order.", "quantifier": "all tables that fit the format", "why_tests_cant": "A round trip over unbounded tables.", "anchors": ["src/read/shapefile/dbf.rs: DbfReader::new", "src/read/shapefile/dbf.rs: DbfReader::next", "src/read/shapefile/dbf.rs: read_dbf_header"]}
{"id": "C49", "title": "Numeric fields are returned iff they are numbers", "statement": "read_string on a numeric field returns s iff the field bytes are spaces followed by s and s is an optional minus sign, one or more digits, and optionally a point and one or more digits; otherwise it returns a parse error.", "quantifier": "all field bytes", "why_tests_cant": "All byte strings.", "anchors": ["src/read/shapefile/dbf.rs: dbf_numeric_to_valid_string", "src/read/shapefile/dbf.rs: DbfField::read_string"]}
{"id": "C50", "title": "Character fields lose exactly their trailing spaces", "statement": "read_string on a character field decodes the longest prefix of the field bytes that does not end in a space, i.e. the bytes with precisely the trailing 0x20 bytes removed.", "quantifier": "all field bytes, any decoder", "why_tests_cant": "All byte strings.", "anchors": ["src/read/shapefile/dbf.rs: trim_end_spaces", "src/read/shapefile/dbf.rs: DbfField::read_string"]}
{"id": "C51", "title": "Which .dbf inputs fail to open, and how", "statement": "Opening a file of fewer than 32 bytes is an I/O error; else an impossible date (month above 12 or day above 31) is a parse error; else an announced header length below 32 panics; else a file shorter than the announced header is an I/O error; else a field name that cannot be decoded is a parse error; else it succeeds. These six cases are exclusive and cover every byte string.", "quantifier": "all byte strings", "why_tests_cant": "A total classification of inputs.", "anchors": ["src/read/shapefile/dbf.rs: read_dbf_header", "src/read/shapefile/dbf.rs: read_dbf_fields", "src/read/shapefile/dbf.rs: read_dbf_meta"]}
{"id": "C52", "title": "Reading a .shp file returns what was written", "statement": "For every list of polygon records (each ring of at least four points) written in the ESRI layout, opening the file gives its bounding box and length, and iterating yields exactly the records' numbers and rings, point for point and bit for bit, in order, then None forever.", "quantifier": "all lists of polygon records whose file is below 2^32 bytes", "why_tests_cant": "A round trip over unbounded files.", "anchors": ["src/read/shapefile/shp.rs: read_shp_header", "src/read/shapefile/shp.rs: parse_polygon_record", "src/read/shapefile/shp.rs: ShpReader::next"]}
{"id": "C53", "title": "The .shp header check accepts exactly polygon shapefiles", "statement": "In a release build, opening never panics, and succeeds iff the file has at least 100 bytes, big-endian magic 9994, little-endian version 1000 and shape type 5; then the bounding box is the four doubles at offsets 36 to 68 and the length is twice the big-endian number at 24, modulo 2^32. Otherwise the error names the first check that fails. A debug build differs only by panicking when that length is 2^32 or more.", "quantifier": "all byte strings", "why_tests_cant": "A total classification of inputs.", "anchors": ["src/read/shapefile/shp.rs: read_shp_header", "src/read/shapefile/shp.rs: ShpShapeType::with_u32"]}
{"id": "C54", "title": "An accepted .shp record is exactly described by its part offsets", "statement": "A content is accepted with given rings iff it is laid out as type, box, counts, part offsets and points with these rings: its length is 44+4*parts+16*points bytes, it has one ring per part, ring i holds exactly the points from part offset i up to the next offset (or the end), bit for bit, every ring but the last has at least 3 points and the last at least 4.", "quantifier": "all record contents", "why_tests_cant": "All byte strings, including adversarial offsets.", "anchors": ["src/read/shapefile/shp.rs: parse_polygon_record"]}
{"id": "C55", "title": "Malformed .shp records: error or panic, exactly characterised", "statement": "Reading a record's content panics iff it is shorter than 4 bytes, or is of polygon type and shorter than 40 bytes, or is of polygon type, announces parts and is shorter than 44 bytes. Every other content is accepted or gives a parse error, never an I/O error: wrong type, no parts, wrong length, first pair of offsets out of range or less than 3 apart, last offset less than 4 before the end, each naming the record and the offending numbers.", "quantifier": "all record contents", "why_tests_cant": "A total classification of inputs.", "anchors": ["src/read/shapefile/shp.rs: parse_polygon_record", "src/read/shapefile/shp.rs: read_polygon_record"]}
{"id": "C56", "title": "The .shp iterator never yields a record past the announced file length, and ends", "statement": "The total size of the records yielded by next never exceeds the announced file length; once next has returned None it returns None forever. Reading from memory, once next has returned an I/O error it returns one forever; and if the file is not longer than announced, once next has returned any error (such as for a null shape) it never returns None.", "quantifier": "all files, all reader behaviours, any number of next calls", "why_tests_cant": "All fault schedules and call histories.", "anchors": ["src/read/shapefile/shp.rs: ShpReader::next", "src/read/shapefile/shp.rs: read_polygon_record"]}
{"id": "C57", "title": "Shapes and attribute records stay in lockstep", "statement": "After any number of next calls on a ShapefileReader, the k-th call has consumed exactly the k-th item of both files, even after errors: a successful item pairs the k-th shape with the k-th attribute record; None is returned iff both are exhausted; if exactly one is exhausted a join error is returned; a shape error takes precedence over an attribute error.", "quantifier": "all file pairs, reader behaviours and call histories", "why_tests_cant": "All histories including error interleavings.", "anchors": ["src/read/shapefile/shapefile.rs: ShapefileReader::next", "src/read/shapefile/shapefile.rs: ShapefileReader::new"]}
{"id": "C58", "title": "Quantization maps the bounding box onto the u32 square, monotonically", "statement": "For a finite bounding box of positive width and height that do not overflow a double, every point inside it is mapped into the u32 square without saturation, the west and north sides to coordinate 0, the east and south sides to 2^32-1, and the map is monotone in x and antitone in y, under IEEE-754 double rounding; points outside go to the nearest side.", "quantifier": "all bounding boxes and points with finite double coordinates", "why_tests_cant": "2^256 combinations with rounding.", "anchors": ["src/read/shapefile/geo.rs: ShapefileQuantizer::new", "src/read/shapefile/geo.rs: ShapefileQuantizer::quantize"]}
{"id": "C59", "title": "Rings are split into outer and inner by winding, in order", "statement": "The region yielded for a record has its record's data, its outer rings are exactly the clockwise (or zero-area) quantized rings and its inner rings the counter-clockwise ones, each in file order, so no ring is lost or duplicated. The winding is that of the area as computed: the true one in a checked build, which panics otherwise, and in a release build if twice the area fits in 64 bits. Ends and errors of the reader are passed on.", "quantifier": "all records", "why_tests_cant": "Unbounded rings.", "anchors": ["src/read/shapefile/geo.rs: ShapefileGeoIterator::next", "src/read/shapefile/geo.rs: shp_polygon_ring_to_ring"]}
{"id": "C60", "title": "Which .dbf field reads panic, and what a long field reads as", "statement": "read_string panics iff the field's byte range exceeds the record, or its type is logical, date, floating point, timestamp, double or unsupported, or it is a long of fewer than four bytes; a long field of four or more bytes reads as the decimal digits, without leading zeros, of its first four bytes taken lowest first.", "quantifier": "all fields and records", "why_tests_cant": "A total classification of inputs.", "anchors": ["src/read/shapefile/dbf.rs: DbfField::read_string"]}
{"id": "C61", "title": "get_field finds the first field of a name", "statement": "get_field(name) returns the first field, in file order, with exactly that name, and None iff no field has it.", "quantifier": "all field lists and names", "why_tests_cant": "Unbounded lists with duplicates.", "anchors": ["src/read/shapefile/dbf.rs: DbfReader::get_field"]}
{"id": "C62", "title": "Quantization is accurate to one unit", "statement": "Inside the bounding box each quantized coordinate is less than 1 + 2^-18 below and less than 2^-18 above the exact affine image of the point in [0, 2^32-1]; hence points whose exact images are at least 1 + 2^-17 apart in a coordinate stay distinct and in order.", "quantifier": "all boxes of positive width and height that do not overflow a double, all points in them", "why_tests_cant": "Four rounding steps over 2^256 inputs.", "anchors": ["src/read/shapefile/geo.rs: ShapefileQuantizer::quantize"]}
{"id": "C63", "title": "A polygon that fills its bounding box is not read as an outer ring", "statement": "For every shapefile bounding box of positive, non-overflowing width and height, the clockwise ring through its four corners is quantized to a ring of positive area, but reading it as a region puts it among the inner rings in a release build and panics in a checked build.", "quantifier": "all bounding boxes", "why_tests_cant": "Needs exact quantization of the corners of every box.", "anchors": ["src/read/shapefile/geo.rs: ShapefileGeoIterator::next", "src/geo/mod.rs: winding_order"]}
{"id": "C64", "title": "The text of a geometry determines it", "statement": "Display writes a point as (x,y) in decimal, an edge as Edge(p,p,...), a ring as [..] of its points or edges and a region as its rings by role; two edges with the same text are equal, two rings have the same text iff they are equal or both empty, and two regions have the same text iff they have the same rings in the same order and roles (the data is not shown).", "quantifier": "all points, edges, rings and regions", "why_tests_cant": "Injectivity over unboundedly nested values.", "anchors": ["src/geo/mod.rs: Display for Point", "src/geo/mod.rs: Display for Edge", "src/geo/mod.rs: Display for Ring", "src/geo/mod.rs: Display for Region"]}
{"id": "C65", "title": "The text of an attribute record lists its fields or its first error", "statement": "Display of a .dbf record is {name:value; name:value...} with the names in file order and the values that read_string returns; if a field is malformed it is the first error instead, and formatting panics iff read_string panics for a field that precedes the first error. The text of a shapefile record is that text followed by its rings.", "quantifier": "all records and field lists", "why_tests_cant": "All combinations of valid, malformed and panicking fields.", "anchors": ["src/read/shapefile/dbf.rs: Display for DbfRecord", "src/read/shapefile/shapefile.rs: Display for ShapefileRecord", "src/read/shapefile/shp.rs: Display for ShpPolygonRing"]}
{"id": "C66", "title": "Opening by name reads the .shp file and the .dbf file beside it, shapes first", "statement": "open(path) yields a reader iff the file at path and the file with the same name but extension .dbf exist and can both be read as such, and it is then the reader of exactly these files; if the .shp file is missing or malformed that error is returned whatever the .dbf file is; otherwise a missing .dbf file is an I/O error of the attributes.", "quantifier": "all file systems, all paths", "why_tests_cant": "All file system states.", "anchors": ["src/read/shapefile/shapefile.rs: open", "src/read/shapefile/shp.rs: open", "src/read/shapefile/dbf.rs: open"]}
{"id": "C67", "title": "Clipping side by side clips to the rectangle", "statement": "After clipping with any non-empty sequence of masks, one after the other, every point of every edge lies within all of the masks, and within every axis-parallel half-plane that contained the original topology, even where an intersection overflows; every ring is closed without gaps, back pointers are exact, and the regions are a subsequence of the original ones.", "quantifier": "all topologies and all sequences of masks, both build modes", "why_tests_cant": "Composition of any number of operations, with rounding and overflow in each.", "anchors": ["src/clip/topology.rs: clip_topology", "src/clip/edge.rs: clip_edge", "src/clip/types.rs: ClipMask::intersect", "README.md"]}
{"id": "C68", "title": "The example program forms the topology of a shapefile's polygons", "statement": "examples/shp-to-geo-data, given well-formed files with equally many shapes and rows, reads one region per record in order, with the row as its data and the quantized rings split by winding, builds the topology of these regions, normalizes it and clips it at 2^31; it ends for every pair of files after at most as many regions as rows are announced; an unreadable record ends it with that error; in a release build reading never panics on well-formed files.", "quantifier": "all file systems, all well-formed shapefiles, all byte streams for termination, both build modes", "why_tests_cant": "Composition of readers, quantizer, builder, normalizer and clipper over unbounded files.", "anchors": ["examples/shp-to-geo-data.rs: main", "src/read/shapefile/geo.rs: ShapefileGeoIterator::next", "src/topology/build.rs: TopologyBuilder::add_region"]}
{"id": "C69", "title": "Neighbouring polygons of a shapefile share an edge", "statement": "If a side of one polygon ring runs, once quantized, from a to b and a side of another one from b to a, with a and b distinct, and both rings keep a non-zero area in regions that keep an outer ring, then in the topology these two sides are one edge, which the two rings traverse in opposite directions.", "quantifier": "all sequences of shapefile records, all quantizers, all pairs of rings and sides", "why_tests_cant": "Any number of polygons with any pattern of contact.", "anchors": ["src/read/shapefile/geo.rs: ShapefileGeoIterator::next", "src/topology/build.rs: TopologyBuilder::add_region", "src/topology/build.rs: TopologyBuilder::into_topology"]}
{"id": "C70", "title": "The printed description of a topology is right", "statement": "For every topology with exact back pointers, the example program prints the numbers of regions, outer and inner rings, edges, edges used by two rings, edges used by at most one, and points of edges; shared and lone edges add up to all edges; for a topology just built, twice the shared edges plus the lone edges is the number of non-degenerate sides, and there are two points per edge if rings were given as points.", "quantifier": "all topologies with exact back pointers; all inputs of the builder", "why_tests_cant": "A counting identity over unbounded structures.", "anchors": ["examples/shp-to-geo-data.rs: print_topology_description", "src/topology/build.rs: TopologyBuilder::into_topology"]}
{"id": "C71", "title": "The cat program prints every record before the first error", "statement": "examples/cat-shp prints one line per record in file order with the record's text, then the number of records; if an item is an error, it has printed the lines of exactly the records before it; if a record cannot be formatted it panics.", "quantifier": "all sequences of items that the reader can yield", "why_tests_cant": "Unbounded files, errors at any position.", "anchors": ["examples/cat-shp.rs: main", "src/read/shapefile/shapefile.rs: Display for ShapefileRecord"]}
{"id": "C72", "title": "The edges of a clipped topology are the leftovers and the plugs", "statement": "Clipping makes exactly one edge for each old edge of which something is left, with the points that are left, and one for each distinct plug it meets, including plugs of rings that it drops afterwards; an edge of the result is used by a ring if and only if it belongs to a ring that is not dropped. In particular the unused edges are exactly the leftovers and plugs of dropped rings.", "quantifier": "all topologies and masks on which clipping does not panic, both build modes", "why_tests_cant": "Which rings are dropped depends on areas after clipping; unbounded maps.", "anchors": ["src/clip/topology.rs: clip_topology", "src/clip/topology.rs: clip_ring"]}
{"id": "C73", "title": "A large simplification threshold leaves only the ends", "statement": "If the threshold exceeds the weight of every point of an edge with respect to any earlier and later point, simplifying leaves exactly the two ends of an open edge and exactly four points of a closed one; every threshold above 2^63 does.", "quantifier": "all edges, all thresholds, both build modes", "why_tests_cant": "Depends on the order of removals through a heap.", "anchors": ["src/simplify/simplify_edge.rs: simplify_edge"]}
{"id": "C74", "title": "Normalizing a map without overlaps keeps shared boundaries shared", "statement": "For a map of closed rings of points whose regions neither overlap nor touch themselves (no two rings walk a segment the same way; the boundary of a region passes no point twice), normalizing in a release build does not panic; the result follows all documented rules (orientation, first edge, order of rings, no neighbouring edges with the same two regions, no edge inside a region); every stretch of boundary lies on exactly one edge, which has the same two regions on its sides as before; and normalizing once more changes nothing.", "quantifier": "all such maps, of any number of regions, rings and points, whose 64-bit areas are not -2^63", "why_tests_cant": "Which edges are joined is decided ring by ring; that both sides of a border decide alike is a global fact about the map.", "anchors": ["src/normalize.rs: normalize", "src/topology/build.rs: TopologyBuilder::add_region"]}
{"id": "C75", "title": "The raw pointers of a topology refer to its own elements if no vector is shrunk", "statement": "Wherever the allocator places memory, if the vectors of regions and edges that into_topology collects have no spare capacity, every pointer in a topology just built or clipped is null or the address of exactly one element of that topology, namely: each ring's region is the region it is stored in, each directed edge's edge is in edges, and rings of edges are the rings that use it. Pointers to regions are then equal exactly when the regions are the same, and the offset arithmetic of clipping recovers edge numbers. If such a vector has spare capacity and into_boxed_slice moves it, every ring's region (every directed edge's edge) points outside of the topology.", "quantifier": "all regions, topologies and masks; all placements of blocks that do not overlap; all element sizes; all capacities; both build modes", "why_tests_cant": "Depends on the allocator and on the standard library's collect, which a test cannot vary; dangling pointers are compared but not dereferenced, so tests pass.", "anchors": ["src/topology/build.rs: TopologyBuilder::into_topology", "src/clip/topology.rs: Builder::into_topology", "src/clip/topology.rs: Builder::find_old_edge_id", "src/normalize.rs: NormEdge::with_directed_edge"]}
{"id": "C76", "title": "The two halves of a map that is cut along a line fit", "statement": "If a map of closed rings is clipped once by a mask and once by the mask that keeps the other side of the same line, both halves of a crossing segment end in the same point of the line, and for each region the areas of what the two results have of it (nothing counts as zero) add up to the area of the region, but for less than the extent across the line of each segment that crosses it. A debug build that does not panic guarantees this; a release build does if products and areas fit in 64 bits.", "quantifier": "all topologies of closed rings, all masks; regions of which nothing is left must not leave holes", "why_tests_cant": "Relates two runs; the bound depends on where segments cross.", "anchors": ["src/clip/topology.rs: clip_topology", "src/clip/edge.rs: clip_edge"]}
{"id": "C77", "title": "Building from the rings of a topology gives the topology", "statement": "A topology depends only on the data of the regions and the paths kept of their rings: repeated points, paths without length, rings without area, regions without outer rings and the build profile leave no trace in it. If the rings of a built topology are read out and added to a new builder, the result is that topology (same edges, same ids, same directions, same back-pointers), and no overflow check fails that did not fail before.", "quantifier": "all lists of regions with which building succeeds, both build modes; rings need not be closed", "why_tests_cant": "Relates pairs of inputs and repeated construction over unbounded maps.", "anchors": ["src/topology/build.rs: TopologyBuilder::add_region", "src/topology/build.rs: TopologyBuilder::into_topology", "src/topology/build.rs: TopologyBuilder::build_directed_edge"]}
{"id": "C78", "title": "Normalizing does not change the area of a region", "statement": "By the even-odd rule (a point belongs to a region if a ray from it crosses the region's rings an odd number of times) each region covers exactly the same points of the plane before normalize and after it, whatever rings are turned round, joined at their nodes, merged or dropped as donuts. This concerns the regions that normalize passes to the builder; if no edge has the same region on both sides it holds for the regions of the resulting topology as well, none of which is dropped.", "quantifier": "all topologies of closed rings with exact back pointers on which normalize does not panic, all points of the plane, both build modes", "why_tests_cant": "Quantifies over all points of the plane and all maps.", "anchors": ["src/normalize.rs: normalize", "src/normalize.rs: join_adjacent_rings", "src/normalize.rs: wind_edges", "src/normalize.rs: join_related_edges"]}
{"id": "C79", "title": "normalize is a canonical form: the same map drawn differently gives the same topology", "statement": "Take two lists of regions that describe the same map: the same regions in the same order with the same data, whose rings are the same closed curves, but possibly listed in another order, started at another point or walked the other way. Build a topology from each and normalize both. The two normalized topologies are equal: the same edges in the same order stored in the same direction, the same rings starting at the same edge, the same back pointers. More generally two well-formed topologies are normalized to equal topologies whenever their regions have the same directed boundary segments with the same regions on both sides, so it does not matter either whether a region is given in one piece or in parts that share edges. This holds when the boundary of a region passes each point at most once (outer and inner rings separately); a ring that passes its leftmost point twice is a counterexample without this condition.", "quantifier": "for all pairs of region lists and topologies of any size whose rings are closed, no edge of which is a loop, and whose areas are not -2^63", "why_tests_cant": "It relates pairs of runs on different inputs; tests compare one input with one expected output.", "anchors": ["src/normalize.rs: normalize", "src/normalize.rs: rotate_edges", "src/normalize.rs: join_related_edges", "src/normalize.rs: normalize_region_rings", "src/normalize.rs: join_adjacent_rings"]}
{"id": "C80", "title": "Results are linear in the size of the input, and the reserved capacities suffice (but one)", "statement": "No operation blows up its input. Building a topology makes one directed edge per non-degenerate path, and at most as many edges and points as there are paths and points in them. Clipping an edge of n points yields at most (3n-1)/2 points, so the 2n that are reserved suffice; a clipped ring has at most twice as many edges as before, the capacity reserved for it; regions and rings are kept or dropped, in their order; a clipped topology has at most one new edge per directed edge and at most 3/2 of the points plus two per new edge. Normalizing never makes more directed edges or more segments, and at most one edge per directed edge. Simplifying keeps all edges and adds no points to any of them. Not true: that the capacity in join_adjacent_rings is an upper bound, as its comment says (two rings that touch along three edges become three rings); and that normalizing never adds edges (an edge that two regions share can be torn into several).", "quantifier": "for all topologies, region lists, masks, build modes and numbers of segments for which the operation returns, without any condition of well-formedness", "why_tests_cant": "The bounds are over all inputs of all sizes; no test measures sizes, and the two refuted expectations only fail for shapes no test contains.", "anchors": ["src/clip/edge.rs: clip_edge", "src/clip/topology.rs: clip_ring", "src/normalize.rs: join_adjacent_rings", "src/normalize.rs: normalize", "src/topology/build.rs: add_region", "src/simplify/simplify_edge.rs: simplify_edge"]}
{"id": "C81", "title": "Simplifying keeps the combinatorial topology, not the geometric one", "statement": "README: 'Simplifies topology ... without changing topology'. True of the combinatorial part: a well-formed topology (exact back pointers, closed gap-free rings, no zero-length edges) stays well-formed, the regions on the two sides of every edge stay the same, and everything that normalizing establishes except orientation is kept: the leftmost node first, rings sorted by it, no two adjacent edges with the same regions on their sides, no edge with the same region on both sides. Not true of the geometric part, each with a witness that went through building and normalizing: two distinct edges can become the same line, a ring can lose its area (after which normalize panics), a clockwise outer ring can become counter-clockwise, and two regions that were apart can overlap.", "quantifier": "for all well-formed topologies of any size, all thresholds up to 2^64-1, both build modes (kept part); existence of witnesses (what is not kept)", "why_tests_cant": "The tests only simplify single edges; they never look at a topology after simplification.", "anchors": ["src/simplify/simplify_edge.rs: simplify_edge", "src/simplify/mod.rs: simplify", "src/normalize.rs: normalize"]}
{"id": "C82", "title": "The operations can be combined in any order", "statement": "Every topology that the library produces by building it from closed rings and then normalizing, clipping and simplifying it in any order and any number of times is well-formed: each edge's pointers name exactly the rings that use it, each ring is a closed walk, and no edge has length zero. In particular, what clip_edge leaves of an edge of non-zero length is nothing or an edge of non-zero length, and plugs have non-zero length. Hence a further normalize, clip or simplify can only panic with an arithmetic overflow (in checked builds), an assertion or an explicit panic; it never indexes out of bounds, follows a null pointer or loops for ever. A topology built from rings of points and then normalized can always be simplified in a release build. This does not extend to clipping in between: there are rings of points that are built, normalized and clipped without a panic, after which simplifying panics for every threshold in every build, since clipping leaves a closed edge of three points.", "quantifier": "all lists of regions with closed rings, all finite sequences of normalize, clip (any mask) and simplify (any threshold), debug and release builds", "why_tests_cant": "The number of sequences of operations is unbounded, and each operation's precondition is an invariant that the others must re-establish; tests cover only a few fixed chains, and the failing one needs an integer rounding that makes two cut points coincide.", "anchors": ["src/normalize.rs: normalize", "src/clip/topology.rs: clip_topology", "src/clip/edge.rs: clip_edge", "src/simplify/simplify_edge.rs: simplify_edge"]}
{"id": "C83", "title": "Quantization is total: NaN, infinite, degenerate and inverted boxes", "statement": "ShapefileQuantizer::quantize gives a u32 for every bit pattern of the box and of the point, and each axis depends only on its own start side (west, north), end side (east, south) and coordinate: a NaN in any of the three gives 0; an infinite side, or finite sides whose distance exceeds the largest double, gives 0 for every point; between sides that differ the coordinate is scaled and cut off at the sides, also when the box is inverted, and an infinite coordinate goes to the side it is beyond; if the sides are equal, a coordinate above them becomes 2^32 - 1 and any other 0 (from +0 to -0: below instead of above). These rules cover all cases.", "quantifier": "all 2^256 boxes and 2^128 points, as bit patterns", "why_tests_cant": "The bit patterns cannot be enumerated, and the special values interact.", "anchors": ["src/read/shapefile/geo.rs: ShapefileQuantizer::new", "src/read/shapefile/geo.rs: ShapefileQuantizer::quantize"]}
{"id": "C84", "title": "Simplifying respects moves up and down and mirroring at a horizontal line, and no other symmetry", "statement": "Moving an edge vertically, or turning it upside down, and then simplifying gives the moved or mirrored result of simplifying it, panics included; this carries over to whole topologies. The same is false for moving it horizontally by even one unit, for reversing the order of its points, and for exchanging the axes: each of these can change which points are dropped.", "quantifier": "For vertical moves: for all edges, thresholds, distances and both builds. For mirroring: for all edges in release builds, and for coordinates below 2^21 in checked builds. For the other symmetries: there exists a counterexample.", "why_tests_cant": "The weight of a point is meant to be the area of a triangle, which no symmetry changes; the formula in the code has a misplaced factor, so the result depends on where a map lies. Tests that compare single outputs cannot say which symmetries survive.", "anchors": ["src/simplify/simplify_edge.rs: simplify_edge", "src/simplify/mod.rs: simplify"]}
{"id": "C85", "title": "The simplification threshold does not bound the change, and simplifying twice is not simplifying once", "statement": "For every size k the edge (0,0),(k,0),(k,k) simplified with threshold 1 loses its corner, cutting off a triangle of twice-area k*k; and the middle point of the straight line (k,0),(k,1),(k,2), which carries no area at all, is kept at every threshold up to 2*k*k. Simplifying a result again with the same threshold can drop further points; every further round changes nothing or drops points.", "quantifier": "For all k from 1 (below 2^21 in checked builds), all thresholds s up to 2*k*k; for all edges and thresholds in the last part; the failure of idempotence by a counterexample.", "why_tests_cant": "No finite set of examples shows that the error is unbounded; the parameter is called smallest_area, and tests with small shapes pass by chance.", "anchors": ["src/simplify/simplify_edge.rs: simplify_edge", "src/simplify/mod.rs: simplify"]}
{"id": "C86", "title": "When merging the polygons of a region succeeds", "statement": "normalize removes the edges that have the same region on both sides and joins what is left of the rings. If it succeeds, then for every region the removed segments, walked in the required orientation, are balanced: at each point as many of them start as end (outer and inner rings counted separately). Conversely, in release builds, if the rings are closed and have a nonzero (64-bit) area, no region's boundary leaves a point twice and no segment is passed more than twice, balance is enough: no panic. Balance holds if no two rings have area on the same side of a segment and a region meets itself only where two of its outer rings or two of its inner rings meet; so topologies built from such rings of points are normalized without a panic. Neither condition can be dropped: a hole that shares a side with its own outer ring, and two pairs of adjacent polygons that touch in a point, make normalize panic in all builds.", "quantifier": "for all well-formed topologies of any number of regions, rings and edges (for C86_points: all lists of regions made of closed rings of points)", "why_tests_cant": "whether the while loop that follows edges from point to point can get stuck depends on how all rings of a region fit together; tests merge two or three rings", "anchors": ["src/normalize.rs: join_adjacent_rings", "src/normalize.rs: normalize_region_rings", "src/normalize.rs: normalize"]}
{"id": "C87", "title": "Simplifying takes O(n log n) steps", "statement": "Simplifying an edge of n points runs through at most n (4 log2 n + 12) rounds of loops in total, counting every round of every loop of the simplifier, whether it returns or panics and whatever the threshold and the coordinates are; simplifying a topology adds one round per edge. Restoring the heap never takes more rounds than the heap has levels, although sift_down compares with the wrong element.", "quantifier": "all lists of points of any length (also those that make it panic), all thresholds, all topologies, checked and release builds", "why_tests_cant": "A test measures a few sizes on one machine; that no input, however crafted, makes the heap operations run longer is a statement about all inputs and all sizes.", "anchors": ["src/simplify/simplify_edge.rs: simplify_edge", "src/simplify/simplify_edge.rs: sift_down", "src/simplify/simplify_edge.rs: sift_up", "src/simplify/simplify_edge.rs: heapify", "src/simplify/simplify_edge.rs: visvalingam_whyatt"]}
{"id": "C88", "title": "Simplifying opens no gap between regions that share an edge", "statement": "In a topology whose back pointers are exact, which every successful build yields, the number of regions that cover a point (in the even-odd sense) is odd exactly when the border, the edges with a ring on one side only, goes around the point. So if simplify() leaves the border edges' points as they were, a point covered by exactly one region before is covered by at least one region after, and no point changes between an odd and an even number of covering regions. More generally a point changes between odd and even exactly when the simplified border passes over it.", "quantifier": "all topologies with exact back pointers (all successful builds), all thresholds, all rational points, both build modes", "why_tests_cant": "Gaps between neighbours are slivers of any size anywhere; tests sample a few maps and do not look at all points.", "anchors": ["src/simplify/mod.rs: simplify", "src/simplify/simplify_edge.rs: simplify_edge", "src/topology/build.rs: into_topology"]}
{"id": "C89", "title": "What one region loses by simplifying, its neighbours gain", "statement": "In a topology whose back pointers are exact and in which no edge is used twice in the same direction, the signed areas of all regions add up to the signed area along the border edges alone. So if simplify() leaves the border edges' points as they were, the sum of the signed areas of all regions does not change, whatever happens to the edges between regions.", "quantifier": "all topologies with exact back pointers and opposite directions along shared edges, all thresholds, both build modes", "why_tests_cant": "It is an exact equality between sums over arbitrarily many regions and edges; tests compare a few areas of small maps.", "anchors": ["src/simplify/mod.rs: simplify", "src/simplify/simplify_edge.rs: simplify_edge", "src/topology/build.rs: into_topology"]}
{"id": "C90", "title": "Quantization rounds every step as IEEE 754 says", "statement": "Each coordinate of a quantized point is ((p - start) / (stop - start) * 4294967295.0) as u32, computed in doubles: for every choice of the 64-bit patterns of the box and of the point (numbers, zeros of both signs, subnormals, infinities, NaNs) each of the four operations returns the double nearest to the exact result of its operands, of two nearest ones the one whose last bit is zero, an infinity from 2^1024 - 2^970 on, and the special values that IEEE 754 prescribes; the cast cuts off the fraction and saturates. These rules determine the result.", "quantifier": "all 64-bit patterns of the four sides and of both coordinates", "why_tests_cant": "2^192 inputs per coordinate; ties, subnormals and overflows are hit by chance only", "anchors": ["src/read/shapefile/geo.rs: ShapefileQuantizer::new", "src/read/shapefile/geo.rs: ShapefileQuantizer::quantize"]}
{"id": "C91", "title": "Simplifying an edge is a run of eliminations, whatever the heap does", "statement": "Whenever simplify_edge(points, s) returns, its result is that of a run over the positions of the edge which takes out one inner point after another, each lighter than s when weighed between the points then left beside it, until only the ends are left or a point at least as heavy as s is met. A point gone counts for its weight or for that of the point gone before it, whichever is greater; a point left counts for its weight between the points left beside it. The result consists of the ends and the points left that weigh s or more, in order - unless the edge is a ring and these are fewer than four, when it consists of the ends and the two inner points that count for most, the earlier of equals. In every run the ends stay, no point goes twice, points that go later count for no less, all that go count for less than s, and each inner point counts for exactly one weight.", "quantifier": "all edges, thresholds and build modes for which the call returns; all runs", "why_tests_cant": "The heap is not kept in order, so which point goes next depends on stale indices; tests see only the result for a few edges and cannot tell whether it comes from consistent eliminations.", "anchors": ["src/simplify/simplify_edge.rs: visvalingam_whyatt", "src/simplify/simplify_edge.rs: pop", "src/simplify/simplify_edge.rs: recalculate_point_weight", "src/simplify/simplify_edge.rs: simplify_edge"]}
{"id": "C92", "title": "Clipping keeps which region covers a point", "statement": "When clip_topology succeeds on a topology of closed rings (edges of two or more points, cross products of cut segments within 64 bits), then for every rational point strictly inside of the mask, each region of the result covers the point by the even-odd rule if and only if the region it comes from does, and a region that is gone did not cover it. Two exceptions: points that are, measured along the mask line, less than one unit from a segment which that line cuts at other than a right angle (where the crossing is rounded), and regions with a ring around the point whose area is zero once clipped (such rings are dropped). No region of the result covers a point strictly outside of the mask.", "quantifier": "all topologies, masks and build modes for which clip_topology returns, all regions, all rational points off the mask line", "why_tests_cant": "A test compares coordinates of a few clipped shapes; that what is visible stays the same area at every point, for shapes that leave and re-enter the mask many times, run along its line or touch it, needs an argument about all rings and all points.", "anchors": ["src/clip/edge.rs: clip_edge", "src/clip/topology.rs: clip_topology", "src/clip/topology.rs: clip_ring", "src/clip/types.rs: ClipMask::intersect"]}
{"id": "C93", "title": "Building and normalizing keep what each region covers", "statement": "For all inputs for which the builder returns a topology: taking the plane with rational coordinates and the even-odd rule, a region of the topology covers a point iff the region it was made from does, and a region that is dropped covered nothing. The exception: rings whose computed area is zero are dropped, and with them what they enclose (a bow tie encloses points though its area is zero); the claim is for points that no dropped ring encloses. So as many regions cover such a point before as after. The same holds for normalize: it returns the topology of regions that have the same data and cover exactly what the given ones cover.", "quantifier": "all lists of regions, all topologies with exact back pointers and closed rings, all rational points, both build modes", "why_tests_cant": "A test compares edges and rings. That the rings, cut into edges, stored in either direction, shared, and freed of zero-length pieces, still go around the same points is a statement about all points of the plane and all rings.", "anchors": ["src/topology/build.rs: add_region", "src/topology/build.rs: into_topology", "src/normalize.rs: normalize", "src/geo/mod.rs: Ring"]}
{"id": "C94", "title": "Simplifying changes what regions cover only next to what it straightens", "statement": "Whenever simplify(topology, s) returns, there are positions for each edge, its ends among them, such that the edge keeps exactly the points there, and for every region and every rational point: whether the region covers the point by the even-odd rule changes iff an odd number of stretches of its edges, each closed by the line that replaces it, go around the point. In particular nothing changes at a point that is in none of the boxes around the stretches that lose points, and as many regions cover it as before.", "quantifier": "all topologies and thresholds for which simplify returns, all regions, all rational points, both build modes", "why_tests_cant": "It is a statement about all points of the plane and about whatever points the heap takes out.", "anchors": ["src/simplify/mod.rs: simplify", "src/simplify/simplify_edge.rs: simplify_edge"]}
{"id": "C95", "title": "Where the map is does not matter", "statement": "Let every point of a map be moved by the same whole numbers, without leaving the coordinate range. Then build, clip (with the mask moved along) and normalize return the moved result, with the same regions, rings, edges, directions and back pointers in the same order, or panic alike; in a checked build one of the two may instead overflow, as products of coordinates are larger far from the origin. Building needs closed rings for it and normalizing needs closed rings and exact back pointers; clipping needs nothing, as even crossings that are rounded, or whose product wraps, move exactly. Without closed rings it is false: the area of an open ring depends on where it is, so that a ring is dropped in one place and kept in another.", "quantifier": "all lists of regions, topologies, masks and moves, both build modes", "why_tests_cant": "It compares two runs, and the difference would be in sums of products that wrap around and in divisions that round, for particular coordinates only.", "anchors": ["src/topology/build.rs: add_region", "src/topology/build.rs: into_topology", "src/clip/topology.rs: clip_topology", "src/clip/edge.rs: clip_edge", "src/normalize.rs: normalize"]}
{"id": "C96", "title": "What regions are tagged with is carried along and never looked at", "statement": "For every function f on region data, building regions whose data went through f is the same as building the regions and then passing the data of the topology through f: the same edges, rings and back pointers, and the same panic if there is one. The same holds for clip, normalize and simplify.", "quantifier": "all functions on data, all lists of regions, all topologies, masks and thresholds, both build modes", "why_tests_cant": "A test tags regions with a few values of one type; that no value and no type changes the outcome is a statement about all of them.", "anchors": ["src/topology/build.rs: add_region", "src/topology/build.rs: into_topology", "src/clip/topology.rs: clip_topology", "src/normalize.rs: normalize", "src/simplify/mod.rs: simplify"]}
{"id": "C97", "title": "Which operations of the simplifier's heap are right", "statement": "Call a heap ordered if no point is lighter than the one above it, and placed if every point's heap_index is its place. Sifting up, sifting down and building a heap only move points to other places, and keep a heap placed. Sifting up orders a heap in which one point is too light, so that weighing a point again orders a placed, ordered heap if the point becomes lighter. Sifting down, and building a heap, put a lightest point on top, and order heaps of up to three points. They do not order heaps of four points (sift_down compares the left child with the point at the start, not with the one that sinks), and the points of a fresh heap need not know their places (heap_index is set only by a swap).", "quantifier": "all heaps, of any size and with any weights", "why_tests_cant": "The unit tests simplify edges with few points; the mistakes show from four inner points on, and only for certain orders of weights.", "anchors": ["src/simplify/simplify_edge.rs: sift_up", "src/simplify/simplify_edge.rs: sift_down", "src/simplify/simplify_edge.rs: heapify", "src/simplify/simplify_edge.rs: recalculate_point_weight", "src/simplify/simplify_edge.rs: swap"]}
{"id": "C98", "title": "The computed area is the area that is enclosed", "statement": "Over the real plane with Lebesgue measure: for every closed ring whose doubled area fits 64 bits, the integral of its winding number over the plane is half of what area2 returns, with the sign that winding_order reports (Green's theorem for polygons). So if the ring winds around every point at most once, in one direction, area2 is exactly twice the area of the points that the ring encloses and winding_order is that direction (unless the area is zero). That holds for every triangle. For a region whose outer rings are clockwise, whose inner rings are counter-clockwise and that winds at most once, the area is half of the outer area2 values less the inner ones. For rings that wind twice it is false.", "quantifier": "all closed rings, given by points or by edges; all regions; both build modes; all real points of the plane", "why_tests_cant": "Tests compare the computed number with a number worked out by hand for a few rings; that the formula measures the enclosed part of the plane is a statement about uncountably many points.", "anchors": ["src/geo/mod.rs: signed_area2", "src/geo/mod.rs: area2_and_winding_order", "src/geo/mod.rs: Ring::area2_and_winding_order", "src/geo/mod.rs: Ring::area2", "src/geo/mod.rs: Ring::winding_order"]}
{"id": "C99", "title": "Building, normalizing and simplifying, and the area of regions in the real plane", "statement": "For all real points of the plane, and Lebesgue measure: building a topology keeps the part of the plane that a region covers by the even-odd rule, up to what the dropped rings enclose; if that has area zero (it has, if such a ring has area zero without overflow and winds at most once), the region of the topology has the area of the given one, and a region that is dropped had area zero. Normalizing keeps the part of the plane that each region covers, and its area, if no edge has the same region on both sides; in general it returns the topology of regions which cover those parts. Simplifying changes of a region exactly the points around which an odd number of its straightened stretches go, each closed by the line that replaces it; the area of what changes is at most the sum of the areas of the triangles between the first point of such a stretch and its segments.", "quantifier": "all inputs for which the operations return, all thresholds, all regions, all real points, both build modes", "why_tests_cant": "It is a statement about uncountably many points, for all maps; tests look at coordinates of a few results.", "anchors": ["src/topology/build.rs: add_region", "src/topology/build.rs: into_topology", "src/normalize.rs: normalize", "src/simplify/mod.rs: simplify", "src/simplify/simplify_edge.rs: simplify_edge"]}
{"id": "C100", "title": "Clipping keeps the area of a region inside of the mask, up to rounding at the cut", "statement": "Take the real plane. Suppose that clipping a topology to a mask succeeds. Then the clipped region covers nothing outside of the mask. Inside of the mask it covers the points that the region covered, except within one unit (measured along the mask line) of segments that the mask line cuts at other than right angles, and in rings that are dropped. So in area, the clipped region differs from the part of the region inside of the mask by at most twice the depth that these segments reach inside, plus what dropped rings enclose inside. A region that is cut at right angles only, if at all, and loses no ring that encloses area keeps its area inside of the mask exactly. A ring that is dropped because the area left of it is zero, and what is left of it winds at most once, covered at most twice the depth of its cut segments inside of the mask.", "quantifier": "all topologies with closed rings, edges of at least two points and products of coordinate differences that fit; all masks; both builds; all points of the real plane", "why_tests_cant": "the plane is uncountable and the bound is about Lebesgue measure; tests compare point lists of a few clipped squares", "anchors": ["src/clip/topology.rs: clip_topology", "src/clip/edge.rs: clip_edge", "src/clip/types.rs: ClipMask::intersect"]}
{"id": "C101", "title": "Clipping four times clips to a rectangle, in area too, in whatever order up to rounding", "statement": "Clip a well-formed topology with several masks, one after the other. In the real plane, what is left of each region and the part of the region inside of all masks differ in area by at most twice the depth that those segments of the original region reach inside which a mask line cuts at other than right angles, added up over all masks, plus what rings enclose that are dropped on the way. Clipping neither makes these depths larger nor products that fit overflow, so that the bound and the hypothesis are about the original map only. Thus the result depends on the order of the masks by at most twice that; but it does depend on it: the rounded corners can differ.", "quantifier": "all well-formed topologies, all lists of masks, both builds", "why_tests_cant": "chains of operations whose rounding errors could pile up; the bound is about Lebesgue measure of all maps. No test clips twice.", "anchors": ["src/clip/topology.rs: clip_topology", "src/clip/edge.rs: clip_edge", "src/clip/types.rs: ClipMask::intersect", "README.md: Clips a topology along a single axis (do this four times to clip by rectangle)"]}
{"id": "C102", "title": "Reading a polygon changes its area by at most a strip along its border", "statement": "Read a polygon from a shapefile whose box is finite and whose rings are closed and inside of the box. Compare, in the real plane, what the rings enclose (by the even-odd rule) when their corners are placed exactly, that is with the box mapped onto the square from 0 to 2^32 - 1, and what the region that is read encloses. Both parts of the plane differ in area by at most (1 + 2^-18) times the mean of the lengths of the rings before and after, measured along the axes, and the length after is at most that before plus 4 (1 + 2^-18) for every segment. This holds whichever rings are taken for outer and inner ones. A topology built from such regions is off by at most that much plus what the dropped rings enclose.", "quantifier": "all shapefiles with a finite box, all closed rings of any length inside of it, all doubles as coordinates, both builds", "why_tests_cant": "Lebesgue measure of the symmetric difference of two polygons, with rounding of doubles and truncation to integers in between; no test looks at quantized areas.", "anchors": ["src/read/shapefile/geo.rs: ShapefileQuantizer::quantize", "src/read/shapefile/geo.rs: ShapefileGeoIterator::next", "src/read/shapefile/geo.rs: shp_polygon_ring_to_ring", "src/topology/build.rs: add_region", "src/topology/build.rs: into_topology"]}
{"id": "C103", "title": "The errors of reading, clipping and simplifying add up, and to no more", "statement": "Read the polygons of a shapefile (finite box, closed rings inside of it), build a topology, normalize it, clip it to the inside of any masks in turn and simplify it. The regions in the end belong to the polygons in order, some polygons left out; every region has its polygon's data, and what it covers differs in area from the exact polygon cut to the masks by at most the sum of: the error of reading (C102); what rings dropped as degenerate enclose; for every mask, what clipping loses with dropped rings, plus twice how deep the segments that the mask line cuts aslant reach; and the area of the fans that simplifying cuts off. For a polygon left out, the empty set is compared. Normalizing adds nothing. Every built topology of closed rings is well formed, so no further assumption is needed but that no edge has the same region on both sides and that the products in clipping fit into 64 bits.", "quantifier": "all files with a finite box, all numbers of polygons, rings and points, all lists of masks, all thresholds, both builds", "why_tests_cant": "End to end statement about the Lebesgue measure of a symmetric difference over the composition of all operations; tests compare single steps on small literals.", "anchors": ["src/read/shapefile/geo.rs: ShapefileGeoIterator::next", "src/topology/build.rs: add_region", "src/topology/build.rs: into_topology", "src/normalize.rs: normalize", "src/clip/topology.rs: clip_topology", "src/simplify/simplify_edge.rs: simplify_edge"]}
{"id": "C104", "title": "Error messages tell errors apart and pass I/O errors on", "statement": "Every error that opening a shapefile or iterating over it returns is either an I/O error passed on, or one of: an error about the header or a record of the .shp file, an invalid date or field name in the .dbf file, or more records in one file than in the other. Two errors of the latter kind with the same displayed message are the same error, with the same numbers in it. An I/O error is displayed and described as it is, and is found as the cause at the end of the chain of causes; every other error is displayed as 'Parse error: ' and its description, and has no cause at the end of the chain. For a .shp file of at least 100 bytes, opening fails with a parse error exactly if magic number, version or type are wrong, and the message names the first of them that is, with the number or the type's name found in the file.", "quantifier": "all sources, file systems, encodings and readers in any state, all pairs of errors, all byte strings, both builds", "why_tests_cant": "Injectivity of a message over all errors, with unbounded numbers in it, needs an argument about formatted numbers; the tests look at no message.", "anchors": ["src/read/shapefile/shp.rs: read_shp_header", "src/read/shapefile/shp.rs: parse_polygon_record", "src/read/shapefile/shp.rs: ShpError", "src/read/shapefile/dbf.rs: DbfError", "src/read/shapefile/shapefile.rs: ShapefileError", "src/read/shapefile/shapefile.rs: open"]}
{"id": "C105", "title": "The example programs print all or stop at a panic, and exit with 0 or 1", "statement": "With any number of arguments but one, both programs print nothing but the usage line with their name on stderr, and exit with 1; they panic if a needed argument is missing or is not Unicode. They end in one of three ways: exit code 0 and nothing on stderr, exit code 1 and one line on stderr, or a panic. shp-to-geo-data prints its full report if and only if it exits with 0; the numbers can be read off the report; it prints nothing on stdout if it exits with 1; if it panics it has printed the report up to a stage (0, 1, 9 or 17 lines). cat-shp prints the lines of the records before the error or panic. The line on stderr is the error's message, after 'Error during read: ' exactly if the files could be opened. On files as they are written neither program exits with 1, and cat-shp panics only at a record that cannot be formatted.", "quantifier": "all argument lists, file systems, encodings, numbers of records, both builds", "why_tests_cant": "All ways to end, for all files; the programs have no tests.", "anchors": ["examples/shp-to-geo-data.rs: main", "examples/shp-to-geo-data.rs: print_topology_description", "examples/cat-shp.rs: main"]}
{"id": "C106", "title": "A build with overflow checks does what one without does, or stops at an overflow", "statement": "For each of the library's operations (areas and winding orders, building, normalizing, clipping, simplifying, opening and reading files) and each input: with overflow checks the operation panics with an arithmetic overflow, or it ends exactly as it does without them: same result, same error, same panic. So a result found with the checks is the result without. Each example program compiled with the checks prints and exits as without, or panics with an overflow having printed nothing on stderr and a prefix of the lines it prints without.", "quantifier": "all inputs of all operations, all sources and file systems", "why_tests_cant": "Tests run in one build; agreement of the two builds on all inputs that do not overflow is not something a test of either can show.", "anchors": ["src/topology/build.rs: add_region", "src/normalize.rs: normalize", "src/clip/topology.rs: clip_topology", "src/simplify/simplify_edge.rs: simplify_edge", "src/geo/mod.rs: Ring::area2_and_winding_order", "src/read/shapefile/shp.rs: ShpReader::new", "src/read/shapefile/dbf.rs: DbfReader::new", "src/read/shapefile/geo.rs: ShapefileGeoIterator::next", "examples/shp-to-geo-data.rs: main", "examples/cat-shp.rs: main"]}
{"id": "C107", "title": "The order in which regions are given does not matter", "statement": "Give the same regions to the builder in another order, and then do the same operations (normalizing, clipping, simplifying, any number in any order): either both runs panic or both succeed, and then the two topologies are the same but for the numbers of edges and regions. That is, there are one-to-one correspondences of edges and regions such that edges have the same points in the same order, the same rings on their sides, and regions have the same data, and the same rings in the same order, following corresponding edges in the same directions. Every operation by itself has this property: applied to two topologies that differ in numbers only it panics on both or gives such topologies again.", "quantifier": "all lists of regions, all permutations of them, all sequences of operations, both builds", "why_tests_cant": "There are n! orders of n regions, and the code goes through hash maps, back pointers in the order of use, first-come edge ids and region addresses that it compares; a test tries one order.", "anchors": ["src/topology/build.rs: add_region", "src/topology/build.rs: into_topology", "src/normalize.rs: normalize", "src/normalize.rs: join_related_edges", "src/normalize.rs: join_adjacent_rings", "src/clip/topology.rs: clip_topology", "src/clip/topology.rs: add_region", "src/clip/topology.rs: into_topology", "src/simplify/simplify_edge.rs: simplify_edge", "src/simplify/mod.rs: simplify"]}
{"id": "C108", "title": "How the bytes of a file arrive does not matter, and nothing is read ahead of need", "statement": "Let the files of a shapefile arrive in pieces of any size, with any number of interrupted reads, directly or through a buffered reader of any capacity. Then opening, the fields and the bounding box, every item of the iterators over records and regions, every panic, and what the example programs print and exit with are the same as for files in memory. If a read fails after some of the bytes, or a file was cut off, then the same is seen up to some point, and there the I/O error (for a file cut off: the unexpected end) is returned; the only exceptions are where the other file is wrong at the same point, so that the same error is returned with or without the failure, or a panic is replaced by an error or another panic. The programs then have printed a prefix of the lines that they would print, and exit with code 1 and that error. And as long as the calls of next on the whole files leave bytes unread, they return the same if those bytes never arrive.", "quantifier": "all contents of files, all ways to cut them into pieces, all numbers and places of interruptions, all buffer capacities, all points of failure and errors, any number of calls, both builds, all encodings", "why_tests_cant": "Tests read small files from a disk that never fails and that returns a whole file at once. Short reads, interruptions and failures depend on the operating system, and there are exponentially many ways to cut a file.", "anchors": ["src/read/shapefile/shp.rs: read_shp_header", "src/read/shapefile/shp.rs: read_polygon_record", "src/read/shapefile/shp.rs: next", "src/read/shapefile/shp.rs: open", "src/read/shapefile/dbf.rs: read_dbf_header", "src/read/shapefile/dbf.rs: read_dbf_fields", "src/read/shapefile/dbf.rs: read_dbf_record", "src/read/shapefile/dbf.rs: open", "src/read/shapefile/shapefile.rs: new", "src/read/shapefile/shapefile.rs: next", "src/read/shapefile/geo.rs: next", "examples/cat-shp.rs: main", "examples/shp-to-geo-data.rs: main"]}
{"id": "C109", "title": "Each region goes through on its own", "statement": "What a region looks like in a topology that is built depends on that region only. What it looks like after clipping depends only on the mask and on what it looked like before; after simplifying, only on the area and on what it looked like before. What it looks like after normalizing depends on what it looked like before and on which of its edges have the same neighbours, but not on the shapes or the numbers of the neighbours. It does depend on whether there are neighbours. So one can leave out regions before or after building, clipping and simplifying: a part of the regions goes through wherever all of them do, and gives that part of the topology. The same holds for normalizing a part that shares no edge with the other regions. A part that does share edges may panic where all of the map normalizes.", "quantifier": "All lists of regions and all sublists, all masks, areas, sequences of operations, topologies with exact back pointers, both builds.", "why_tests_cant": "It compares runs on all sublists of all maps, and says that one function of a single region gives the result in every map.", "anchors": ["src/topology/build.rs: add_region", "src/topology/build.rs: into_topology", "src/clip/topology.rs: clip_topology", "src/clip/topology.rs: clip_ring", "src/simplify/mod.rs: simplify", "src/normalize.rs: normalize", "src/normalize.rs: join_related_edges"]}
{"id": "C110", "title": "Building and clipping take linear time, normalizing takes O(n log n)", "statement": "Count the rounds of all loops, and those of the standard library's operations as documented. Building a topology takes at most 28 n rounds, where n is the size of the regions: the number of regions, rings, edges and points in them. Clipping takes at most 15 w + 2 s rounds, where w is the size of the regions of the topology, counting an edge at each use, and s the size of its edges, counting each once. Normalizing takes at most 83 w (log2 w + 1) rounds. This holds whether the operation succeeds or panics. Joining adjacent rings of size n takes at most 15 n (log2 n + 1) rounds, which is what its comment says, and if every ring is either redundant altogether or not at all then at most 3 n. A topology that was just built has w \u2264 3 n and s \u2264 3 n, and every topology with exact back pointers has w \u2264 regions + rings + 2 s.", "quantifier": "all regions, all topologies (also those with wrong pointers), all masks, all lists of rings, both builds", "why_tests_cant": "Time on test files says nothing about the worst case: a quadratic loop over edges, or a map that is searched once per point of every ring, is not visible on small maps. The bound is over all shapes, including those on which rings split and join, and on which the operation panics.", "anchors": ["src/topology/build.rs: add_region", "src/topology/build.rs: build_ring", "src/topology/build.rs: build_directed_edge", "src/topology/build.rs: into_topology", "src/normalize.rs: join_adjacent_rings", "src/normalize.rs: normalize", "src/normalize.rs: join_related_edges", "src/clip/topology.rs: clip_topology", "src/clip/edge.rs: clip_edge"]}
{"id": "C111", "title": "A mirrored or turned map is treated like the map itself", "statement": "The grid of u32 points has eight symmetries (exchange the axes or not, mirror x or not, mirror y or not). ClipMask.test, ClipMask.intersect at a line that crosses the mask, and clip_edge commute with all of them, panics included: the four masks MinX, MaxX, MinY and MaxY are one operation seen from four sides. clip_topology of the mirrored or turned topology with the mirrored or turned mask gives the same regions with the same data, whose rings run along the mirrored or turned paths; building the topology of a mirrored or turned map (add_region, into_topology) likewise. In a build without overflow checks, the one succeeds if and only if the other does. With overflow checks that is false (areas overflow far from the origin), normalizing does not commute (a ring begins at its leftmost node), and going along an edge the other way is not a symmetry of clipping (crossings are rounded towards the start).", "quantifier": "all eight symmetries, all masks, all edges and topologies, both builds; for building, all regions whose rings close", "why_tests_cant": "There are eight symmetries, four masks and arbitrary maps; the existing tests try each mask with one or two edges, and no test compares two masks, so that a sign or rounding mistake in one of the four branches of intersect shows only for some lines.", "anchors": ["src/clip/types.rs: test", "src/clip/types.rs: intersect", "src/clip/edge.rs: clip_edge", "src/clip/topology.rs: clip_topology", "src/topology/build.rs: add_region", "src/topology/build.rs: into_topology"]}
{"id": "C112", "title": "Reading takes time and memory linear in the files, but for a record that is announced and not there", "statement": "Count the rounds of all loops, a round per byte that is allocated and one per byte that is read. ShpReader.next takes at most 3 rounds per byte of the record it takes from the source, whether it yields a polygon, reports a malformed record or panics; only if the source fails may it take more, namely 3 rounds per byte of the longest record that 32 bits can announce (8 GiB). Opening a .dbf file takes at most 3 rounds per byte of the header and never more than 196605; reading one of its records at most 2 per byte that the header announces for a record, plus 1. A region with its attributes is no larger than what was taken from the two files. The example program (open, read all, build, describe, normalize, clip) takes at most 1185 s (log2 s + 1) + 5 d + 1 rounds for files of s and d bytes if it succeeds or panics, and a constant more if it ends with an error. The constant is needed: for a .shp file of 108 bytes that announces a record of 8 GiB, that many bytes are allocated.", "quantifier": "all sources of bytes (files in memory, files that arrive in pieces behind a buffer, any other source that yields a bounded number of bytes), all contents, all paths and encodings, both builds", "why_tests_cant": "Time and memory on well-formed test files say nothing about hostile or damaged ones. The bound is over all contents of the files, including those whose counts and lengths are lies, and over all the ways in which reading can end.", "anchors": ["src/read/shapefile/shp.rs: read_polygon_record", "src/read/shapefile/shp.rs: parse_polygon_record", "src/read/shapefile/shp.rs: next", "src/read/shapefile/dbf.rs: read_dbf_meta", "src/read/shapefile/dbf.rs: read_dbf_fields", "src/read/shapefile/dbf.rs: read_dbf_record", "src/read/shapefile/dbf.rs: next", "src/read/shapefile/geo.rs: next", "src/read/shapefile/shapefile.rs: next", "examples/shp-to-geo-data.rs: main"]}
{"id": "C113", "title": "No sequence of operations follows a raw pointer out of its topology", "statement": "Build a topology and then normalize, clip and simplify it in any order, any number of times, with memory placed anywhere. If the vectors of edges have no spare capacity when they are boxed, everything happens as if pointers were numbers of elements: the same result, or a panic for the same reason; no pointer that leads nowhere is ever followed, whatever the regions. Spare capacity in vectors of regions, even if it makes all pointers to regions dangling, changes nothing, since these are compared only. If in addition vectors of regions have none, all pointers of the result refer to its own elements. If however the vector of edges has spare capacity and boxing moves it, normalizing any built topology with at least one region begins by following a dangling pointer, and clipping it always panics, by an index out of bounds or (checked builds) an overflow.", "quantifier": "all lists of regions, closed or not; all finite sequences of operations, masks and thresholds; all placements of blocks, element sizes and capacities, different for each operation; both builds", "why_tests_cant": "Undefined behaviour need not show in a test, and depends on the allocator and on the standard library. The guarantee is over all placements of memory and unbounded sequences of operations.", "anchors": ["src/normalize.rs: with_directed_edge", "src/normalize.rs: normalize", "src/clip/topology.rs: find_old_edge_id", "src/clip/topology.rs: clip_topology", "src/clip/topology.rs: into_topology", "src/topology/build.rs: into_topology", "src/simplify/mod.rs: simplify"]}
{"id": "C114", "title": "The raw pointers of the simplifier always refer to the points of the edge", "statement": "simplify_edge keeps its points in a vector and links them by raw pointers, in a list and in a heap. Wherever the vector is placed in memory, simplify_edge returns or panics as if these pointers were numbers of points; no pointer that is null or refers to no point of the edge is followed, although pointers are read again after points have been changed through others. Therefore simplifying a topology does not depend on where memory is. This rests on the points staying where they are: had the vector been moved after linking, simplifying any edge with an inner point would begin with following a dangling pointer.", "quantifier": "all edges, also those simplify_edge asserts against; all thresholds; all addresses, element sizes and capacities, different for each edge; both builds", "why_tests_cant": "Undefined behaviour need not show in a test, and depends on the allocator. The guarantee is over all edges and all placements of memory.", "anchors": ["src/simplify/mod.rs: simplify", "src/simplify/simplify_edge.rs: from", "src/simplify/simplify_edge.rs: sift_down", "src/simplify/simplify_edge.rs: sift_up", "src/simplify/simplify_edge.rs: swap", "src/simplify/simplify_edge.rs: pop", "src/simplify/simplify_edge.rs: recalculate_point_weight", "src/simplify/simplify_edge.rs: visvalingam_whyatt", "src/simplify/simplify_edge.rs: simplify_edge"]}
{"id": "C115", "title": "Which text the bytes of a file are read as", "statement": "Opened with UTF-8, a character field is read as a text exactly if its bytes are that text in UTF-8, not ending with a space, padded with spaces; anything else, such as a character cut in two by the width of the field, is a parse error. With windows-1252 every field is text, one character for each byte by the table, with the trailing spaces dropped. With ASCII a field is an error exactly if one of its bytes is 128 or more. Whatever open_ascii opens, open_utf8 and open_windows1252 open too, with the same names, shapes, record bytes and errors while iterating, and every value that can be read with ASCII is read as the same text. open_windows1252 never reports a bad field name, and neither does dbf::open_ascii, because the label it looks up stands for windows-1252.", "quantifier": "all fields, all records and all their bytes, all files (sources) and paths; both builds", "why_tests_cant": "Encodings disagree on half of all bytes and on every sequence of them; tests try a few words in plain ASCII.", "anchors": ["src/read/shapefile/dbf.rs: read_string", "src/read/shapefile/dbf.rs: parse_dbf_field", "src/read/shapefile/dbf.rs: open_ascii", "src/read/shapefile/mod.rs: open_ascii", "src/read/shapefile/mod.rs: open_utf8", "src/read/shapefile/mod.rs: open_windows1252"]}
{"id": "C116", "title": "Which standard library is used does not matter", "statement": "TopologyBuilder, normalize and clip_topology give the same topology, or the same panic, with every implementation of HashMap, BTreeMap and Vec::sort that keeps its contract: a map has each key once and iterates over each entry once; a BTreeMap iterates in the order of keys; a sort puts elements in order and leaves equal ones as they were, provided that comparing does not panic. In a pipeline each step may even use a different implementation. Two of the contracts cannot be weakened: with a sort that is not stable, or with a map that does not iterate in the order of keys, normalizing some topology that was built gives another result.", "quantifier": "all implementations of the maps and of sorting that keep their contracts, with any internal state; all regions, topologies (well-formed or not), masks and sequences of operations; both builds", "why_tests_cant": "Tests run against one implementation of the standard library, the one installed.", "anchors": ["src/topology/build.rs: build_directed_edge", "src/topology/build.rs: add_region", "src/topology/build.rs: into_topology", "src/normalize.rs: join_adjacent_rings", "src/normalize.rs: normalize_region_rings", "src/normalize.rs: normalize", "src/clip/topology.rs: build_directed_edge", "src/clip/topology.rs: into_iter", "src/clip/topology.rs: clip_topology"]}
{"id": "C117", "title": "What depends on the width of addresses", "statement": "With 64-bit addresses no usize computed by the readers overflows and no allocation is refused, so they do what they would do with unbounded numbers. With 32-bit addresses, .dbf files are read in the same way, and the same polygon records are accepted with the same result, in both builds. Differences: a content that announces 2^32 bytes or more makes debug builds panic, and release builds either report a wrong length (the number modulo 2^32) or panic; a content of the announced length with 2^28 or more parts, or (with exceptions in release builds) with one part starting at 2^32-3 or later, panics instead of being reported; a record header that announces 2^30 words or more panics, except that release builds take a length of 2^31 words or more modulo 2^31 words and may yield a record that is reported as cut short with 64-bit addresses. Debug builds differ by panics only. Files of at most 2^31 bytes that are read without an error with 64-bit addresses are read in the same way with 32-bit addresses.", "quantifier": "all contents of less than 2^31 bytes, all sources of bytes, numbers of calls and encodings, both builds, 32-bit and 64-bit addresses", "why_tests_cant": "Tests run on one machine, and a file that announces 2^31 words is not among the fixtures; the overflow needs a 32-bit target to show.", "anchors": ["src/read/shapefile/shp.rs: parse_polygon_record", "src/read/shapefile/shp.rs: read_polygon_record", "src/read/shapefile/shp.rs: next", "src/read/shapefile/dbf.rs: read_dbf_fields", "src/read/shapefile/dbf.rs: read_dbf_record", "src/read/shapefile/dbf.rs: next", "src/read/shapefile/shapefile.rs: new", "src/read/shapefile/shapefile.rs: next"]}
{"id": "C118", "title": "Normalizing twice is enough", "statement": "Normalizing a well-formed topology in which each segment lies on one edge once - every topology built from closed rings of points is one - a second time gives a topology that follows all documented rules (edges joined, no edge with the same region on both sides, orientations, leftmost start, sorted rings) and that normalizing it any number of times, by any build, leaves as it is; in release builds the second and later passes do not panic. This needs no assumption on overlaps, on rings that touch themselves or on what the first pass merged. It needs that no ring of the once-normalized topology has a 64-bit area of -2^63: a square with sides of 2^31 is turned round by each pass of a release build and never comes to rest. It also needs the condition on segments: where edges of different cuts overlap, a third pass may change what the second one left.", "quantifier": "all well-formed topologies whose segments lie on one edge, all regions built from closed point rings, both builds for each pass, any number of passes", "why_tests_cant": "The repository tests one pass on a few shapes; that a pass can leave work for the next one, and that two always suffice, concerns all combinations of merged rings and shared edges.", "anchors": ["src/normalize.rs: normalize", "src/normalize.rs: normalize_region_rings", "src/normalize.rs: join_related_edges", "src/normalize.rs: join_adjacent_rings", "src/normalize.rs: wind_edges", "src/topology/build.rs: add_region"]}
{"id": "C119", "title": "Normalizing again and again comes to rest", "statement": "A pass of normalization never raises the number of edges that the rings pass (counting each time an edge is passed), and lowers it if an edge has the same region on both sides or neighbouring edges of a ring separate the same regions. So whatever well-formed topology is normalized repeatedly, by whichever builds, after at most 2n + 2 passes, n being that number, it follows all documented rules and no further pass changes it. This needs that no pass panics on the way and that no ring on the way has a 64-bit area of -2^63; for the latter it is enough that the absolute values of the cross products of all ring segments add up to less than 2^63. Both conditions are needed: a square with sides of 2^31 never comes to rest in release builds, and there are overlapping regions whose third pass panics with an assertion in both builds although two passes succeeded.", "quantifier": "all well-formed topologies, including those of edge rings that overlap, any number of passes, both builds for each pass", "why_tests_cant": "The repository normalizes once in each test; that repeating it ends is about unbounded sequences of passes over all topologies.", "anchors": ["src/normalize.rs: normalize", "src/normalize.rs: normalize_region_rings", "src/normalize.rs: join_related_edges", "src/normalize.rs: join_adjacent_rings", "src/normalize.rs: wind_edges", "src/normalize.rs: rotate_edges"]}
{"id": "C120", "title": "Clipping may lay one edge on top of another", "statement": "The documentation of TopoEdge says that a topology can only contain a single edge with given points, running from its top-left to its bottom-right end. Clipping keeps neither. There are regions of which no point belongs to two, and whose topology is normalized, such that two edges of the clipped topology have the same points, because intersect rounds their crossings with the mask line to the same point; normalizing the clipped topology then panics in every build. There is also a clipped topology with an edge from its larger to its smaller end. But this happens only by cutting: in a well-formed topology in which each segment lies on one edge (as in every topology built from closed rings of points), two edges of the clipped topology on the same line are the leftovers of two different edges, never plugs; no two adjacent points of theirs are inside of the mask; and each of their segments with an end inside is what a cut leaves of a segment of at least one of the two. If the mask line cuts no segment between its ends, all edges of the clipped topology lie on different lines.", "quantifier": "all well-formed topologies in which each segment lies on one edge, all masks, both build modes (where it can happen); existence of witnesses (that it does)", "why_tests_cant": "The crossings must round to the same point and the ring between them must keep an area elsewhere; clip_topology's tests use crossings that are far apart, and no test normalizes after clipping.", "anchors": ["src/clip/topology.rs: clip_topology", "src/clip/edge.rs: clip_edge", "src/clip/types.rs: intersect", "src/normalize.rs: normalize"]}
{"id": "C121", "title": "A map without overlaps can be clipped", "statement": "clip_topology panics if three rings use the same piece of the mask line (C36). This does not happen to maps: if no point inside of the mask belongs to two regions, if no region passes the mask line twice in the same point (other than by coming to it from inside and turning back), and if clip_edge does not make segments end in the same point that pass the mask line in different ones, then clip_topology returns a topology in a release build, and in a debug build it returns the same one or stops at an arithmetic overflow. None of the three conditions can be dropped: there are well-formed topologies, built from closed rings, that meet the other two and make clip_topology panic: overlapping rectangles; a region that is pinched in two points of the mask line; and a narrow arch whose crossings are rounded to the same two points.", "quantifier": "all well-formed topologies, all masks, both build modes; existence of witnesses (for each condition)", "why_tests_cant": "That the assertion cannot fail is a fact about the plane: what each region has on the two sides of each point of the mask line. Tests clip two squares.", "anchors": ["src/clip/topology.rs: clip_topology", "src/clip/edge.rs: clip_edge", "src/clip/types.rs: intersect"]}
{"id": "C122", "title": "Small maps overflow nowhere", "statement": "A debug build panics where 64-bit arithmetic overflows; a release build wraps (C106). Neither happens to small maps. Let all coordinates of closed rings have at most k bits, and let c be the number of times that the map is clipped. If the number of segments times 3^c times 2^2k is below 2^63 (and k is at most 21 if the map is simplified), then building the topology and applying normalize, clip_topology and simplify to it, in any order and as often as one likes, never overflows in either build mode, and both modes give the same topology or the same panic. This rests on a bound per function, and on what the functions do to the size of a map: building and normalizing add no segments and no bits, clipping makes at most three segments of one and adds no bits wherever the mask is, simplifying adds neither. Bits and segments both matter: a triangle with 32-bit coordinates overflows, so does a ring of eight segments with 31-bit coordinates, and simplify overflows at 22 bits.", "quantifier": "all lists of regions, all sequences of operations and all masks, all k, both build modes; existence of witnesses for the limits", "why_tests_cant": "An overflow depends on sums of products over whole rings, also over rings that do not exist before the program joins or clips them. Tests use small numbers and never reach it.", "anchors": ["src/geo/mod.rs: area2_and_winding_order", "src/topology/build.rs: add_region", "src/normalize.rs: normalize", "src/clip/topology.rs: clip_topology", "src/clip/types.rs: intersect", "src/simplify/simplify_edge.rs: simplify_edge"]}
{"id": "C123", "title": "A map without overlaps can be built and normalized", "statement": "TopologyBuilder panics if three rings use the same path. Maps as one would draw them do not make it panic: if the rings that count are closed and make up parts (each with its holes) such that no point of the plane is in two parts, the border of no part runs along itself for more than single points, and no segment leads from a point to itself, then building a topology of the regions succeeds, whether parts that are neighbours belong to different regions or to the same one. The reason is that a segment on the border of a part has this part on exactly one of its two sides. If each region is one such part then no edge of the topology has the same region on both sides, no segment is passed more than twice, no point is in two regions of the topology, and normalizing it succeeds, after which still no point is in two regions. This is for release builds; debug builds do the same or stop at an overflow, and if the map is small (C122) they do the same. None of the four conditions can be dropped.", "quantifier": "all lists of regions; both build modes; existence of witnesses for the limits", "why_tests_cant": "The conditions concern all points of the plane and all ways in which borders may meet. Tests have a few hand-drawn maps.", "anchors": ["src/topology/build.rs: add_region", "src/topology/build.rs: into_topology", "src/normalize.rs: normalize", "src/normalize.rs: normalize_region_rings"]}
{"id": "C124", "title": "A map whose rings wind around each point at most once is normalized as documented", "statement": "The rules that normalizing is documented to establish hold for all maps of the following kind, which is described by winding numbers alone. Walk outer rings clockwise and inner rings counter-clockwise. Suppose that the rings that count are closed and make up parts such that no part winds around any point of the plane a negative number of times, all parts together wind around any point at most once, the border of no part runs along itself for more than single points, and no segment leads from a point to itself. Then building a topology succeeds, and no two rings pass the same segment in the same direction. If each region is one such part, rings are given as points, no two segments of a region start in the same point and twice the area of no ring is 2^63 modulo 2^64, then normalizing succeeds; the result has closed rings with exact back pointers, alternating neighbours, clockwise outer and counter-clockwise inner rings that start with their leftmost point and are sorted; every segment is still there with the same regions on its two sides; no segment is on two edges; and normalizing again changes nothing. If the parts are neighbours within a region, and there are no inner rings, then the segments between them cancel, and normalizing succeeds if no two segments of what remains of a region's boundary start in the same point. This is for release builds (debug builds do the same or stop at an overflow); if the map is small (C122), the part about regions holds for both builds, without looking at areas. None of the five conditions can be dropped.", "quantifier": "all lists of regions; both build modes; existence of witnesses for the limits", "why_tests_cant": "The conditions concern all points of the plane and all ways in which borders may meet, and the conclusions concern all segments and edges. Tests have a few hand-drawn maps.", "anchors": ["src/topology/build.rs: add_region", "src/topology/build.rs: into_topology", "src/normalize.rs: normalize", "src/normalize.rs: normalize_region_rings", "src/normalize.rs: normalize_ring"]}
{"id": "C125", "title": "A clipped map can be normalized", "statement": "The documentation says to normalize a topology before and after clipping it. normalize panics if an edge would get three neighbours or if the edges of a region, after those inside of it have been removed, do not form rings; clipping adds edges along the mask line and moves the crossings to points with integer coordinates. If no point of the plane is in two regions of a topology, the border of no region runs along itself for more than single points, no segment leads from a point to itself, no region passes the mask line more than once in the same point (other than by touching it from inside), and clipping does not move different crossings to the same point, then clip_topology succeeds and normalize succeeds with what it returns. No edge of the clipped topology has the same region on both sides and no segment is passed more than twice. Normalizing keeps the first three conditions, so for a map as one would draw it (C123) building, normalizing, clipping and normalizing again all succeed if the last two conditions hold for the normalized topology. This is for release builds; debug builds do the same or stop at an overflow, and if the map is small (C122, with room for three times its segments) they do the same. None of the five conditions can be dropped: for each there is a topology that meets the others and can be clipped but not normalized afterwards.", "quantifier": "all well-formed topologies, all masks, all lists of regions; both build modes; existence of witnesses for the limits", "why_tests_cant": "The conditions concern all points of the plane, and whether the borders of clipped neighbours still agree depends on rounding and on how the gaps along the mask line are closed. Tests clip single edges and rings and do not normalize the result.", "anchors": ["src/clip/types.rs: clip_topology", "src/clip/types.rs: clip_ring", "src/clip/edge.rs: clip_edge", "src/normalize.rs: normalize", "src/normalize.rs: normalize_region_rings", "src/topology/build.rs: add_region"]}
{"id": "C126", "title": "A map goes through the whole pipeline", "statement": "simplify panics if an edge leads to a point and back, because it takes it for a ring with too few points; clipping can make such an edge of a thin spike (C82). In a topology whose edges are all used by some ring, in which the border of no region runs along itself for more than single points and no segment leads from a point to itself, there is no such edge, whatever the threshold is: simplify succeeds. If moreover the conditions of C125 hold then it succeeds with the clipped topology (also for edges of rings that clipping has dropped) and with the normalized clipped topology. So for a map as one would draw it (C123) building, normalizing, clipping, normalizing again and simplifying all succeed, in this order, and simplify would have succeeded after each of the steps before. This is for release builds; if coordinates have at most 21 bits and the map is small (C122, with room for three times its segments), then debug builds succeed as well. The conditions cannot be dropped: simplify panics for a topology with an unused edge, for one with a spur, for one with a border that stays where it is, and for one that was clipped with two crossings moved to the same point.", "quantifier": "all well-formed topologies whose edges are used, all lists of regions, all masks, all thresholds; both build modes; existence of witnesses for the limits", "why_tests_cant": "That no step panics is a statement about every map and about what each step leaves to the next one. No test runs more than one of the operations.", "anchors": ["src/topology/build.rs: into_topology", "src/normalize.rs: normalize", "src/clip/types.rs: clip_topology", "src/simplify/mod.rs: simplify", "src/simplify/simplify_edge.rs: simplify_edge"]}
{"id": "C127", "title": "A map of horizontal and vertical borders can be clipped with several masks, if each meets at most one corner", "statement": "C121 is about one call of clip_topology; a rectangle takes four. In a well-formed topology that is drawn without overlaps, whose borders pass the lines of the masks at right angles only, clip_topology succeeds with one mask after the other, if the line of each mask is met in at most one point by the lines of the masks used before it: so with any two masks, and with a third one that is parallel to the second. Debug builds return the same or stop at an overflow. In particular a list of non-overlapping regions with horizontal and vertical borders is built and normalized, and can be clipped like that before and after it was normalized. With two corners on the line it is different: for a spiral with two more regions, with coordinates up to 17, clipping to the left of 7 first and below 7 and above 11 afterwards works, but clipping below and above first and to the left last panics, in both build modes, even if the map is normalized before every step. And there is no order of the four sides of a rectangle that always works: for each of the 24 orders there is a rectangle and a list of non-overlapping regions with horizontal and vertical borders for which clipping with one side after the other panics.", "quantifier": "all well-formed topologies, all lists of masks with at most one corner per line, all lists of regions with axis-parallel borders; both build modes; for every order of four sides existence of a witness", "why_tests_cant": "That clipping again never fails is a statement about every map and every clipped map that it can become. The tests clip once. The panic needs a map with some thirty points in which three stretches of cut border lie on top of each other.", "anchors": ["src/clip/topology.rs: clip_topology", "src/clip/edge.rs: clip_edge", "src/topology/build.rs: into_topology", "src/normalize.rs: normalize"]}
{"id": "C128", "title": "A map of horizontal and vertical borders goes through the whole pipeline, and no border moves", "statement": "C125 and C126 need conditions about where the mask line passes borders and how clip_topology rounds. A map whose borders are horizontal and vertical needs none. If regions do not overlap, their rings that count are closed and do not run along themselves and no segment leads from a point to itself, then building a topology, normalizing it, clipping it with any mask, normalizing again and simplifying with any threshold all succeed, in release builds, and clipping could have been done before normalizing and simplifying after any step. If the coordinates have at most 21 bits and the map is small (C122, with room for three times its segments), debug builds succeed as well. More generally this holds for clipping topologies whose borders pass the mask line at right angles only. And then no border moves: a region of the clipped topology covers precisely those points inside of the mask that the region covered which it comes from, except for what rings enclosed that are dropped because what is left of them has area zero.", "quantifier": "all lists of regions with axis-parallel borders, all well-formed topologies that the mask line cuts at right angles, all masks, all thresholds, all rational points inside of the mask; both build modes", "why_tests_cant": "That no step panics, whatever the mask and the threshold are, is a statement about every such map. The tests use such maps, but one operation at a time and a handful of masks.", "anchors": ["src/topology/build.rs: into_topology", "src/normalize.rs: normalize", "src/clip/topology.rs: clip_topology", "src/simplify/mod.rs: simplify"]}
{"id": "C129", "title": "Clipping keeps how often rings wind around points, and borders cut at right angles are clipped exactly", "statement": "A ring of a clipped topology comes from a ring of the topology: an outer ring from an outer one, an inner ring from an inner one, in the same order. It winds around each point of the real plane inside of the mask as often and in the same direction as the ring it comes from, except within one unit from a segment that the mask line cuts, not at a right angle, and it does not wind around any point outside of the mask. If the line cuts borders at right angles only, then a ring that winds at most once around each point, always clockwise or always counter-clockwise, keeps this, and half its signed sum of cross products is the area that the original ring enclosed inside of the mask. If moreover twice the area of no ring reaches 2^64 and what inner rings of a region enclose, its outer rings enclose too, then no exception is left: apart from points on the mask lines, a region clipped with one or more masks covers precisely what the region covered inside of all masks, its area is the area of that, and a region that vanishes covered nothing there. So a map of horizontal and vertical borders, with such rings, whose regions do not overlap, is built and clipped in a release build to what remains of its regions, for any masks whose lines are each met by the lines of the earlier ones in at most one point.", "quantifier": "all topologies with closed rings, all masks and lists of masks, all points of the real plane; for exactness all well-formed topologies that the mask lines cut at right angles, with simple rings; both build modes", "why_tests_cant": "Winding numbers are about every point of the plane and every ring; tests compare coordinate lists of a few clipped shapes. That rings of area zero are dropped is harmless only because such a ring, if it is simple, encloses nothing, which is a statement about areas in the real plane.", "anchors": ["src/clip/topology.rs: clip_topology", "src/clip/edge.rs: clip_edge", "src/clip/types.rs: ClipMask::intersect", "src/topology/build.rs: into_topology"]}
{"id": "C130", "title": "Only simplifying changes what the regions of plain maps cover", "statement": "Take regions whose rings are closed and wind at most once around each point, always in the same direction, where twice the area of no ring reaches 2^64, and where what inner rings enclose, outer rings of the region enclose too. Build a topology, clip it with any list of masks, normalize it and simplify it. Suppose these steps succeed, the mask lines cut the borders of the built topology at right angles only, and no edge of the clipped topology has the same region on both sides. Then the regions of the result are in the order of those given, with their data. Apart from points on the mask lines, each one covers, before it is simplified, precisely the points of the real plane that the given region covers inside of all masks, and its area is the area of that part; a region that is missing covers nothing there. Simplifying then changes at most the area of the triangles that it cuts off. In particular, building drops nothing of such regions: its test for area zero drops rings that enclose no point. For a map of horizontal and vertical borders whose regions do not overlap, in a release build, all steps do succeed for any mask and any threshold, so that these conclusions hold.", "quantifier": "all lists of plain regions, all lists of masks, all thresholds, all points of the real plane, both build modes; for the steps to succeed all maps of horizontal and vertical borders with regions that do not overlap, one mask, release build", "why_tests_cant": "It compares what goes in with what comes out of four steps, at every point of the real plane. Tests check coordinates of single steps for a few shapes. A ring lost in one step, or an edge that two steps treat differently, would show only in such a composition.", "anchors": ["src/clip/topology.rs: clip_topology", "src/clip/edge.rs: clip_edge", "src/topology/build.rs: into_topology", "src/topology/build.rs: add_region", "src/normalize.rs: normalize", "src/simplify/mod.rs: simplify", "src/simplify/simplify_edge.rs: simplify_edge"]}
{"id": "C131", "title": "No operation takes less time than it takes to look at its input", "statement": "In rounds of loops, counted as in C87, C110 and C112, an operation that succeeds takes at least as long as it takes to look at its input once, whatever the input. Building a topology takes a round for each region, for each of its outer rings, for each of their edges if they are given as edges, and for each of their points, and also for the inner rings unless the region is dropped because no outer ring has an area. Clipping takes a round for each point of each edge, for each region, for each outer ring, and for each edge of an outer ring. Normalizing takes a round for each region, each ring, each edge of a ring and each point of such an edge. Simplifying takes five rounds for each point less two for each edge, whatever the threshold, so no threshold makes it fast. Reading a polygon takes two rounds for each byte and two more, and reading a record of attributes takes precisely two rounds for each byte and one more, whatever the bytes are. So the bounds of C110 on building and clipping are tight up to constant factors, and those of C87 on simplifying and of C110 on normalizing up to a logarithm.", "quantifier": "all regions, topologies, masks and thresholds for which the operation succeeds; all readers and sources; both build modes", "why_tests_cant": "It bounds the running time of every call from below. Benchmarks measure some inputs and cannot show that no input gets through faster, for instance because a threshold of zero lets simplifying stop at once.", "anchors": ["src/topology/build.rs: add_region", "src/clip/topology.rs: clip_topology", "src/clip/edge.rs: clip_edge", "src/normalize.rs: normalize", "src/simplify/mod.rs: simplify", "src/simplify/simplify_edge.rs: simplify_edge", "src/read/shapefile/shp.rs: read_polygon_record", "src/read/shapefile/dbf.rs: read_dbf_record"]}
{"id": "C132", "title": "Simple rings in a quarter of the grid have the right area and direction", "statement": "Take a closed ring that winds around each point at most once, always in the same direction. If its points lie in a rectangle, then so does all that it encloses, and twice its signed area is at most twice the area of the rectangle. So if the rectangle covers less than 2^62 grid cells, a quarter of the grid, then area2 is twice the area it encloses, winding_order is the direction in which it runs, and a shapefile reader takes it for an outer ring if and only if it runs clockwise or encloses nothing: no number of points and no distance from the origin makes a release build err, while a build with overflow checks either agrees or panics. If the rectangles around all rings of a list of simple regions cover less than 2^63 cells, a topology built from it has precisely the rings that enclose some point, of the regions with an outer ring that does; with holes inside outer rings no part of the plane is lost. For rings of any size it is known what a release build computes. With n twice the area, a clockwise ring gets n and clockwise below 2^63, 2^64 - n and counter-clockwise below 2^64, n - 2^64 and clockwise below 2^64 + 2^63, and 2^65 - n and counter-clockwise above; n never reaches 2^65. For counter-clockwise rings it is the mirror image. So a clockwise ring that covers a quarter to half of the grid is read as a hole, and one that covers precisely 2^63 cells is dropped.", "quantifier": "all closed simple rings of any length and either kind, all rectangles around them; for the table, release build", "why_tests_cant": "Sums of products overflow on the way for rings far from the origin, and whether the wrapped sum is right depends on the area of the whole ring. Tests use small coordinates, or one huge square; the table separates six ranges of areas up to 2^64 square units.", "anchors": ["src/geo/mod.rs: Ring::area2_and_winding_order", "src/topology/build.rs: add_region", "src/read/shapefile/geo.rs: next"]}
{"id": "C133", "title": "Which rings of a shapefile are read as holes, from their share of the bounding box", "statement": "Take a closed ring of a shapefile with points inside the finite bounding box of the file, and its share of the box: its exact signed area in the coordinates of the file, positive if clockwise, over the area of the box. Reading changes its signed area, in grid units, by at most (1 + 2^-18) times its length along the axes plus 2 (1 + 2^-18) per segment. So a ring of n segments that covers between n/2^30 and 1/4 - n/2^30 of the box becomes an outer ring if and only if it runs clockwise in the file, in both build modes. If it covers between 1/4 + n/2^30 and 1/2 - n/2^30, a build with overflow checks panics and a release build takes it for the opposite: a polygon of one such clockwise ring becomes a region without an outer ring. A ring that covers between n/2^30 and 1/2 - n/2^30 of the box, in a record with an outer ring of a share below a quarter, is never dropped as degenerate, so it is in the topology that is built from the file.", "quantifier": "all finite boxes, all closed rings of any length inside of it, all doubles as coordinates, all files, both build modes", "why_tests_cant": "It connects floating-point coordinates, quantization, the shoelace sum and its overflow for every shape; the bound on the doubt must hold for whatever rounding does to each point. Tests read files whose shapes are small in their box.", "anchors": ["src/read/shapefile/geo.rs: ShapefileGeoIterator::next", "src/read/shapefile/geo.rs: ShapefileQuantizer::quantize", "src/read/shapefile/geo.rs: shp_polygon_ring_to_ring", "src/geo/mod.rs: Ring::area2_and_winding_order"]}
{"id": "C134", "title": "No operation enlarges the bounding box of a region or leaves a mask that was applied", "statement": "Any rectangle that holds all corners of a region holds all corners of what building a topology, normalizing, clipping by any mask and simplifying by any threshold make of it, in any order and any number; so, once its rings are closed, nothing outside of the rectangle is covered. Clipping keeps this for each ring separately, for any topology, even in a release build where the product of the interpolation wraps and puts the crossing in a wrong place. Moreover after a sequence of operations all corners of all regions are inside of, or on the line of, every mask that the sequence clipped with, whatever came after it.", "quantifier": "all lists of regions (closed rings where normalizing or coverage is involved), all topologies made of them, all finite sequences of operations with any masks and u64 thresholds, all rectangles, both build modes", "why_tests_cant": "It is about every rectangle, every sequence of operations and every input, including those with wrapped arithmetic; tests look at a few small maps and one operation at a time.", "anchors": ["src/topology/build.rs: into_topology", "src/topology/build.rs: add_region", "src/normalize.rs: normalize", "src/clip/topology.rs: clip_topology", "src/clip/edge.rs: clip_edge", "src/clip/types.rs: ClipMask::intersect", "src/simplify/mod.rs: simplify", "src/simplify/simplify_edge.rs: simplify_edge"]}
{"id": "C135", "title": "Units and places do not matter", "statement": "If along each axis all coordinates of a shapefile (those of the header's bounding box and those of the points) are multiplied by a power of two and a constant is added, both exactly, and the .dbf file is kept, then reading yields exactly the same regions, errors and panics, and the shp-to-geo-data program prints the same. The factors and constants of the two axes may differ. Coordinates are to stay below 2^1022 in magnitude, and no axis of the box may run from 0 to -0. For factors that are not powers of two this is false: tripling all coordinates of a file, exactly, can move a point on the grid.", "quantifier": "all bounding boxes, points, lists of rings and records, all exponents and constants per axis, all numbers of calls of the iterator, all .dbf readers, both build modes; for the program all pairs of well-formed files and all bytes after their end", "why_tests_cant": "Rounding of a difference depends on its magnitude; that it commutes with every power of two also for subnormal differences, where doubles are evenly spaced, needs the argument that differences of doubles are multiples of the least double.", "anchors": ["src/read/shapefile/geo.rs: ShapefileQuantizer::new", "src/read/shapefile/geo.rs: ShapefileQuantizer::quantize", "src/read/shapefile/geo.rs: shp_polygon_ring_to_ring", "src/read/shapefile/geo.rs: ShapefileGeoIterator::next", "examples/shp-to-geo-data.rs: main"]}
{"id": "C136", "title": "Every map of the grid can be written to a shapefile that is read as it was", "statement": "A point with integer coordinates from 0 to 4294967295 in a bounding box from 0 to 4294967295 keeps its x and has its y counted from the north, exactly: dividing an integer by 2^32-1 in doubles and multiplying again gives the integer. So for every list of regions whose outer rings have winding_order Clockwise and whose inner rings have CounterClockwise there is a shapefile, with these coordinates as doubles and outer rings first, that is read as precisely these regions with precisely these rings in order, with the rows of the .dbf file, and then ends. The same holds in units that are a power of two and from any place that keeps coordinates exact. It does not hold for other boxes: in a box of 360 by 360 the double nearest to the place of a column can be read as the column before.", "quantifier": "all points of the grid, all lists of regions with rings wound that way (within what the format can hold), all attribute tables that fit, all bytes after the end of the files, both build modes; all exact changes of units and place", "why_tests_cant": "2^32 quotients and products each have to round to the right double; a test tries a few. That whole maps come back is a statement about all maps.", "anchors": ["src/read/shapefile/geo.rs: ShapefileQuantizer::new", "src/read/shapefile/geo.rs: ShapefileQuantizer::quantize", "src/read/shapefile/geo.rs: shp_polygon_ring_to_ring", "src/read/shapefile/geo.rs: ShapefileGeoIterator::next", "src/read/shapefile/shp.rs: read_polygon_record", "src/read/shapefile/dbf.rs: read_dbf_record"]}
{"id": "C137", "title": "A normalized topology can be saved ring by ring and is made again from its outlines", "statement": "A ring's outline is the list of the points it passes; where one edge ends and the next starts is not in it. Let a topology be well-formed, have edges that pass over each segment once, and boundaries that pass over each point once. If the topology of the outlines of its rings is normalized, the result is what normalize makes of the topology itself: normalize finds by itself where edges start and end. So a topology that follows the normalization rules is what build and normalize make of its outlines, and in release builds neither of them panics. It can therefore be saved in a shapefile (with the coordinates of C136 and a row for each region from which its data can be told): the regions that are read have a topology that is normalized to the one that was saved, with the same edges, back pointers and data. If two edges pass over one segment the outlines are not enough: the new topology shares what the old one did not.", "quantifier": "all topologies that were built, both build modes for each step; for files and for the absence of panics (release builds of build and normalize), all topologies that follow the rules, whose rings fit the format and (if the reader is a debug build) whose winding orders are computed without overflow, all attribute tables that fit, all bytes after the end of the files", "why_tests_cant": "Where edges start and end depends on all regions at once, and every topology has to come back exactly. Tests save a few maps.", "anchors": ["src/topology/build.rs: add_region", "src/topology/build.rs: into_topology", "src/normalize.rs: normalize", "src/read/shapefile/geo.rs: ShapefileGeoIterator::next"]}
