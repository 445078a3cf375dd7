# Formal model of topogeo in Lean 4 — design

## Approach

The library is modelled function by function under `lean/Verif/Model/`, each definition citing the file and lines it models.
Independent specifications live in `lean/Verif/Spec/`, property theorems in `lean/Verif/Props/`, helper lemmas in `lean/Verif/Proofs/`.

* `u32` coordinates are `UInt32`. `i64`/`u64` arithmetic is done on `Int`/`Nat` with an explicit step after every operation:
  in a checked build (`Build.debug`) an out-of-range result is a panic; in a release build it wraps modulo 2^64.
  Both builds are modelled because `cargo test` uses the first and the README uses the second.
* A panic is an explicit error value (`Except Panic`).
* Raw pointers are indices: `*const TopoEdge` is an index into `topology.edges`, `*const TopoRing` is (region index, outer/inner, ring index),
  `*const TopoRegion` is a region index, null is `none`.
* `HashMap` is an association list; iteration order is a universally quantified permutation where it matters. `BTreeMap` is a sorted association list.
* `Vec::sort` is a stable insertion sort (stable sorting has a unique result).
* Loops are structural recursions; where the code's own loop needs a measure, a fuel argument is used and running out of fuel is a distinct error proved unreachable.
* `io::Read` is an arbitrary state machine with a `read_exact` operation; concrete files are byte lists.
* `f64` values are carried as their 64 bits by the readers; quantization uses an exact rational model of IEEE-754 binary64.

## Plan per property

* **C01** signed_area2 is the shoelace sum, or an overflow panic, or its residue mod 2^64. Model signed_area2 with every i64 operation explicit (Build.i64: panic in checked builds, wrap in release). Spec: shoelace sum over Int. Induction on the list.
* **C02** Areas of consecutive edges add up to the area of the whole path. Spec sum over Int of an append at a shared vertex; lifted through the mod-2^64 characterisation of C01.
* **C03** Reversing a ring negates its area and flips its winding. Spec sum of a reversed list; lifted through C01.
* **C04** Area and winding of a closed ring do not depend on the start vertex or on position. Spec sum of a rotated closed list / translated list; lifted through C01.
* **C05** The two Ring representations agree. Ring.edges/points modelled as list functions; induction.
* **C06** winding_order reports Clockwise exactly for non-negative mathematical area. Corollary of C01 in the range; refutation by kernel evaluation on the full u32 square.
* **C07** Building a topology loses nothing: rings read back as they were added. Builder as state machine over association-list hash map; invariant ids = positions; refinement: reading back = filtering the input.
* **C08** Only degenerate input is dropped by the builder. Same refinement; edge list = canonical forms of kept edges.
* **C09** A topology holds each path once, in canonical direction. Builder invariant on keys: Nodup and canonical.
* **C10** Rings that run along the same path share one edge. Canonical form is invariant under reversal; ids are functional in canonical form.
* **C11** Back pointers are exact. Pointer-setting pass modelled on indices; invariant 'slots = first two users'.
* **C12** Building panics exactly when an edge is used three times. Same pass: panics iff a third use occurs.
* **C13** Hash map iteration order cannot influence a topology. Placement by id proved independent of the permutation of entries.
* **C14** Edges are numbered by first use. Builder invariant: keys = first-occurrence dedup of canonical edges; prefix monotone under add_region.
* **C15** normalize conserves boundary segments. Multiset (List.Perm) conservation through join, wind, rotate, merge loop.
* **C16** normalize orients rings: outer clockwise, inner counter-clockwise. wind_edges proved orienting; passthrough rings keep it; refutation by evaluation.
* **C17** normalize puts the leftmost/topmost node first. min_by_key and rotation lemmas, sortedness of insertion sort; transported through the builder by C07.
* **C18** normalize uses the fewest edges. Invariant of the joining loop plus cyclic wrap-around.
* **C19** normalize leaves no edge with the same region on both sides. Filter lemma through the merge loop.
* **C20** normalize is idempotent. Refutation by evaluation; partial theorem for the true part.
* **C21** normalize panics only in characterised situations. Panic-freedom by cases on each panic site using C15 to bound the uses of edges.
* **C22** normalize preserves every region's signed area. Corollary of C15 and cancellation of opposite segments.
* **C23** normalize keeps shared boundaries shared. Refutation by evaluation; partial theorem for the true part.
* **C24** Every point is inside, on the edge or outside of a mask, as the half-plane says. Direct, over UInt32.
* **C25** The clip intersection point lies on the mask line, on the segment, within one unit. Int truncating-division bounds; overflow boundary explicit; refutation by evaluation.
* **C26** A clipped edge never leaves the mask. Loop invariant.
* **C27** Clipping leaves visible edges alone and removes invisible ones. Loop invariant.
* **C28** clip_edge returns precisely the visible pieces. Loop invariant against a declarative list of visible pieces, modulo destuttering.
* **C29** Clipping twice with one mask is the same as clipping once. Structural description of outputs (alternation) and second run on it.
* **C30** Rings of a clipped topology are closed and gap-free. Loop invariant of clip_ring: pieces chain; plugs close gaps.
* **C31** clip_topology keeps regions, in order, with their data. Refinement of the region loop.
* **C32** Nothing outside the mask survives clip_topology. From C26 plus the fact that plug end points are on the line.
* **C33** Back pointers of a clipped topology are exact. Same pointer pass as C11.
* **C34** Clipping preserves sharing. Functional lookup in finder and new edge set.
* **C35** Clipping with a mask that contains everything is the identity. Equality, composing C27, C11 and closedness.
* **C36** clip_topology panics only in characterised situations. Panic sites enumerated; refutation by evaluation.
* **C37** A clipped topology has no unused edges. Refutation by evaluation; conditional theorem.
* **C38** Simplifying an edge only removes interior points. Simplifier modelled with indices for pointers; output is a filter of the input.
* **C39** A ring stays a ring when simplified. Fallback analysis.
* **C40** Simplification never panics on valid edges. Invariant over the loop: heap = linked list interior, heap_index correct or stale 0.
* **C41** Simplification leaves an edge alone if nothing is small. First pop breaks.
* **C42** A point is dropped only for a weight below the threshold. Invariant over weights.
* **C43** Weights are twice the triangle area and the lightest point goes first. Refutation by evaluation.
* **C44** A larger threshold keeps fewer points. Refutation by evaluation; partial.
* **C45** simplify changes only the points of edges. Map over edges.
* **C46** The .dbf iterator yields exactly the announced number of records. Reader = arbitrary state machine; induction on calls.
* **C47** .dbf fields tile the record after the deletion flag. Induction on chunks.
* **C48** Reading a .dbf file returns what was written. Encoder written from the format document; decode-encode theorem.
* **C49** Numeric fields are returned iff they are numbers. Regular language stated declaratively; both directions.
* **C50** Character fields lose exactly their trailing spaces. Characterised by prefix/replicate.
* **C51** Which .dbf inputs fail to open, and how. Case analysis of the opening code.
* **C52** Reading a .shp file returns what was written. Encoder from the ESRI document; decode-encode theorem for all record lists.
* **C53** The .shp header check accepts exactly polygon shapefiles. Case analysis.
* **C54** An accepted .shp record is exactly described by its part offsets. Case analysis + induction on parts.
* **C55** Malformed .shp records: error or panic, exactly characterised. Case analysis.
* **C56** The .shp iterator never yields a record past the announced file length, and ends. Reader = arbitrary state machine; induction on calls.
* **C57** Shapes and attribute records stay in lockstep. Induction on calls.
* **C58** Quantization maps the bounding box onto the u32 square, monotonically. binary64 round-to-nearest-even defined over rationals; monotonicity of rounding.
* **C59** Rings are split into outer and inner by winding, in order. Declarative split relation; induction on the rings.
* **C60** Which .dbf field reads panic, and what a long field reads as. Case analysis per type code, decimal digits by induction.
* **C61** get_field finds the first field of a name. First match in a list.
* **C62** Quantization is accurate to one unit. Error bound for three roundings, monotone in each argument.
* **C63** A polygon that fills its bounding box is not read as an outer ring. Exact images of the four corners from C58, then evaluation of the area.
* **C64** The text of a geometry determines it. Prefix-code argument: the text of each part can be recognised at the front of any text.
* **C65** The text of an attribute record lists its fields or its first error. Induction on the fields.
* **C66** Opening by name reads the .shp file and the .dbf file beside it, shapes first. Case analysis over an arbitrary file system.
* **C67** Clipping side by side clips to the rectangle. Box invariant of clip_edge (intersections lie between end points even when they wrap), plugs use existing points; induction on the masks.
* **C68** The example program forms the topology of a shapefile's polygons. Induction on the reader's calls, composed with C52/C48/C57, C59 and C12; measure: rows not yet read.
* **C69** Neighbouring polygons of a shapefile share an edge. C59 and C07 put the rings in the topology, C10 identifies the edges.
* **C70** The printed description of a topology is right. Counting: list sums; double counting of directed edges.
* **C71** The cat program prints every record before the first error. Induction on the reader's calls.
* **C72** The edges of a clipped topology are the leftovers and the plugs. The placement of edges (C35, C36) is a bijection; uses are pieces of kept rings.
* **C73** A large simplification threshold leaves only the ends. From the exact description of what is dropped (C42).
* **C74** Normalizing a map without overlaps keeps shared boundaries shared. Maximal runs of segments with the same sides are unique; reversed, the runs of one region are those of its neighbour.
* **C75** The raw pointers of a topology refer to its own elements if no vector is shrunk. The memory model computes the model with numbers, with addresses put in for numbers; in blocks that do not overlap addresses determine elements.
* **C76** The two halves of a map that is cut along a line fit. Area is a sum of strips between path and line plus a term that telescopes on closed paths; the strips of the halves are those of the whole but for rounding.
* **C77** Building from the rings of a topology gives the topology. Exact condition under which add_region does not overflow; dropping paths of no length keeps the partial sums; the rest from C07 and the explicit form of the result.
* **C78** Normalizing does not change the area of a region. A segment is crossed either way or not at all; an edge with one region on both sides is used by it exactly twice, so leaving it out keeps the parity; the rest is C15.
* **C79** normalize is a canonical form: the same map drawn differently gives the same topology. A normalized ring is a closed walk, cut where the sides change, started at its leftmost cut. If only one segment starts at each point, a walk is determined by any of its segments (run_unique), and the cuts by the walk. Rings are sorted by distinct first points. So the output depends only on the multiset of sided segments; then show that this multiset depends on the map only (sides counted per region from the input).
* **C80** Results are linear in the size of the input, and the reserved capacities suffice (but one). Sizes/C80: clipRest emits at most 3 points per two (potential: whether the previous point was inside); every kept piece is followed by at most one plug; normalizing is bounded by a generic subadditive size of edges (number of edges, number of segments) through join, wind, rotate and merge. Witnesses for the two refutations: a comb and a bar, and the torn edge of C23.
* **C81** Simplifying keeps the combinatorial topology, not the geometric one. SimplifyTopology/C81: paths of a ring are thinned one by one (C38), users of edges do not change (C45), so well-formedness and the normal form carry over; witnesses: a lens between two regions, a dart-shaped island, a triangle in a bay.
* **C82** The operations can be combined in any order. induction over the sequence of operations; well-formedness (pointers, closed rings, extended edges) is the invariant
* **C83** Quantization is total: NaN, infinite, degenerate and inverted boxes. Spec/Quantize.lean states the rules for one axis over bit patterns (AxisRule); Props/Quantize.lean proves that both axes of the quantizer obey them, and that they determine the result up to one unit.
* **C84** Simplifying respects moves up and down and mirroring at a horizontal line, and no other symmetry. relational simulation of the heap algorithm (Proofs/SimplifyMoved.lean): any relation between points that preserves equality and weights is preserved by the whole loop; weights depend on y only through differences.
* **C85** The simplification threshold does not bound the change, and simplifying twice is not simplifying once. instances of C73 and C41 on families of edges of arbitrary size, with the area computed by the shoelace formula.
* **C86** When merging the polygons of a region succeeds. count starts minus ends at every point: zero for closed rings, so the remaining edges are balanced iff the removed ones are; following edges keeps the difference at +1 at the current point and -1 at the start, so there is always a next edge until the ring is closed; distinct starting points keep the map's entries free
* **C87** Simplifying takes O(n log n) steps. the simplifier once more with a counter of rounds (Model/SimplifyTime.lean), proved to compute the same; root + 1 at least doubles in each round of sift_down and child + 1 halves in sift_up; induction over the loop with the length of the heap as bound
* **C88** Simplifying opens no gap between regions that share an edge. Sum the ray crossings of all regions by edge: edges used twice contribute an even number, so the parity is that of the border; simplifying keeps the back pointers (C45).
* **C89** What one region loses by simplifying, its neighbours gain. The directed edges that are not on the border come in pairs of opposite directions, whose shoelace sums cancel; the rest does not change.
* **C90** Quantization rounds every step as IEEE 754 says. state rounding by bit patterns (nearest, even last bit), independently of how the model rounds; show that the model's rounding satisfies it, that bit patterns of finite doubles are injective, and that ties have an odd loser, so that the rules are unambiguous
* **C91** Simplifying an edge is a run of eliminations, whatever the heap does. invariant tying the heap, the linked list and the weights to a state of an abstract machine (`At`), preserved by each turn of the loop; the fallback's loop invariant with ties
* **C92** Clipping keeps which region covers a point. Count crossings along a ray from the point that never meets the mask line (for maxX the ray goes left; closed rings are crossed an even number of times in all, so the parity is the same). Segments on or beyond the line then count nothing, so that plugs and removed parts do not matter; a cut segment counts the same unless the point is within the rounding of its crossing point.
* **C93** Building and normalizing keep what each region covers. C07 says which paths the rings of the topology stand for; a path without length is crossed by no ray, so the number of crossings is that of the ring; C78 for normalize.
* **C94** Simplifying changes what regions cover only next to what it straightens. The crossings of a path, of the points picked from it, and of the closed stretches between add up to an even number; a closed path is crossed an even number of times by a line, so it goes around no point outside of its box.
* **C95** Where the map is does not matter. Relate two runs step by step: comparisons of points are the same, the area of a closed ring modulo 2^64 is the same and that of an open path differs by something that telescopes, and the crossing lies between the end points in both runs, which determines it from its residue.
* **C96** What regions are tagged with is carried along and never looked at. The same relation between two runs as for moved maps, with points that are equal and data related by f.
* **C97** Which operations of the simplifier's heap are right. Induction on the rounds of sifting with the usual invariants; a lightest point gets on top in the first round, which is right.
* **C98** The computed area is the area that is enclosed. Spec/Area.lean defines winding numbers over the reals and areas by Lebesgue measure; Proofs/Area.lean proves Green's theorem by splitting the winding number into strips between segments and the axis and Fubini; Proofs/Triangle.lean shows that triangles wind once.
* **C99** Building, normalizing and simplifying, and the area of regions in the real plane. Proofs/RealPlane.lean shows that any finite set of segments winds around a real point as around some rational point as near as one likes, so C78, C93 and C94 carry over; areas come from C98.
* **C100** Clipping keeps the area of a region inside of the mask, up to rounding at the cut. Spec/ClipArea.lean defines the zone next to cut segments; Proofs/ClipArea.lean shows that it is closed, so that a rational point close by carries C92 over to a real one, and bounds its measure by Fubini.
* **C101** Clipping four times clips to a rectangle, in area too, in whatever order up to rounding. Proofs/ClipRect.lean shows that the depth of cuts is a sum over segments that vanishes along mask lines and does not grow for parts of segments, then Props/ClipRect.lean adds the bounds of C100 up by induction over the masks.
* **C102** Reading a polygon changes its area by at most a strip along its border. Green's theorem again, now for real vertices; between a ring and its image lie two triangles per segment, whose areas are bounded by the error of the coordinates times the lengths of their bases (C62), and C99 carries the bound on to topologies.
* **C103** The errors of reading, clipping and simplifying add up, and to no more. Triangle inequality over the bounds C102, C99, C101 and C99 again; how deep cut segments reach does not depend on order, direction, starting point or removed zero-length segments, so that the depth for the clipped topology is bounded by the one of the rings of the file.
* **C104** Error messages tell errors apart and pass I/O errors on. A text without its digits gives the kind of error; then numbers are separated by texts that begin with a character other than a digit.
* **C105** The example programs print all or stop at a panic, and exit with 0 or 1. Induction over the records; the outcome of every stage is compared with the model of C68 and C71 that returns the numbers.
* **C106** A build with overflow checks does what one without does, or stops at an overflow. A relation between two runs that is closed under sequencing; every function of the model that depends on the build is stepped through with it, by induction over lists and fuel.
* **C107** The order in which regions are given does not matter. A permutation of a list gives a renumbering; the list of rings that use an edge is permuted by it. Building and clipping: both keep edges in lists without repetitions, so another order permutes them; panics before the last step do not depend on the state of the builder. Normalizing: what it does depends on the regions of edges only by comparing pairs of them, so it commutes with relabelling the pairs.
* **C108** How the bytes of a file arrive does not matter, and nothing is read ahead of need. A law of read: some of the bytes ahead, or nothing and the end or the failure. The loop of read_exact over any reader with this law gives the next bytes or what is behind them. Then a simulation of sources, up to failures, carried through every reader and program; failing implies that the reader of the whole file is past the failure.
* **C109** Each region goes through on its own. Closed forms of all four operations as functions of drawn regions; relabelling invariance of normalize; sublists as order embeddings of regions and injections of edges.
* **C110** Building and clipping take linear time, normalizing takes O(n log n). the operations once more with a counter (Model/OperationsTime.lean), proved to compute the same; a potential per loop: the size of what is left; in the walk through the map each round removes an entry, whose size pays for it; sizes are subadditive under joining
* **C111** A mirrored or turned map is treated like the map itself. Write a symmetry as an affine map of each axis with factor 1 or -1. intersect commutes by the algebra of its truncated quotient; clip_edge by induction; clip_topology and building through their specifications (C34-C36, C07-C12), where the area of a turned ring is plus or minus the area.
* **C112** Reading takes time and memory linear in the files, but for a record that is announced and not there. Write the readers once more in a monad that counts rounds (Model/ReadTime.lean) and show that the results are the same. Each read is bounded by the bytes that it takes from the source, so that 30 times the bytes left in the .shp file plus 3 times those left in the .dbf file is a potential that pays for reading and for add_region; C110 bounds the rest, with sizes that follow from C80 and C110_size.
* **C113** No sequence of operations follows a raw pointer out of its topology. Model the readers of pointers with addresses (Model/MemoryOps.lean). One operation: by C75 every edge is read as with numbers, and normalizing commutes with an injective renaming of regions, here from numbers to addresses; the address of the box of regions is never used, so that moving it does not matter. Then induct over the operations, keeping C75's relation between memory and numbers as invariant.
* **C114** The raw pointers of the simplifier always refer to the points of the edge. Model PointHeap once more with addresses, reading each pointer when the code reads it (Model/MemorySimplify.lean). Every step commutes with replacing numbers by addresses (Proofs/MemorySimplify.lean). Two invariants are needed: links are numbers of points, as as_ref makes references of both neighbours, and recalculating weights changes no links, as next is read again after the first recalculation. With C40 there is no nullDeref. For the moved vector: the last element of the heap is written to first, and is not in the new block.
* **C115** Which text the bytes of a file are read as. Define the decoders (Model/Encodings.lean) as state machines and a table; specify UTF-8 by an encoder and windows-1252 by its differences from ISO 8859-1 (Spec/Encodings.lean). Decoding inverts encoding and encoding inverts decoding, by induction on texts and on lengths. Readers commute with replacing the encoding by one that decodes more.
* **C116** Which standard library is used does not matter. State the functions over abstract maps and an abstract sort (Model/Library.lean). A sorted map is determined by its entries; a hash map is related to a list of numbered keys, with the same lookups, and its entries are a permutation of it; stable sorts are unique. Rings that are sorted always have a first point, because the area of a ring is asserted not to be zero, so comparing does not panic.
* **C117** What depends on the width of addresses. Transcribe the readers a second time with every usize operation in w bits and allocations limited to isize::MAX (Model/Word.lean). Show that each operation is exact under a bound, that the bounds hold for 64 bits because all numbers come from u32 fields, and characterise the ends of reading a content for 32 bits; an accepted content has at least three points per part, so the room for its rings is never refused.
* **C118** Normalizing twice is enough. After one pass no region passes a segment twice, neighbouring edges of a ring have no other region in common, and rings that run the wrong way come from join_adjacent_rings and have no closed edge beside others (its map refuses two edges with the same start). From this: an edge keeps its two regions in the second pass, so that neighbouring edges differ again, and C20 applies. Counterexamples for both conditions by evaluation.
* **C119** Normalizing again and again comes to rest. Count edges through join_related_edges, the split into redundant and useful edges, the merge map and the builder. If the count stays the same over two passes, the first of them kept every edge apart, so C16 gives the orientation and the result is Normal; then C20 applies. Induction on the count. The sum of cross products does not grow as no segment is passed more often than before.
* **C120** Clipping may lay one edge on top of another. Origins of the edges (C72), steps of clip_edge (C28): a segment with both ends inside is a segment of the old edge, so it would lie on two old edges. Witnesses by evaluation; that the regions are apart by arithmetic for all rational points.
* **C121** A map without overlaps can be clipped. Per edge: what is left ends in a point of the line no more often than the edge passes it there (induction along clip_edge). Per ring: each plug at a point takes up one of those ends. In the plane: close to the line, on both sides of a crossing, the parity of crossings behind decides which region covers the point (for vertical lines after turning the ray by a quarter); at most one region does on each side, so at most two pass. Witnesses by evaluation; that the regions are apart by arithmetic for all rational points.
* **C122** Small maps overflow nowhere. One pass over each function: every product is below 2^2k, every partial sum below the number of segments seen so far times 2^2k. For clip_ring the invariant leaves room for one segment per point to come and one for the last gap. Sizes: as for C80, for the grid by following points. Induction over the operations.
* **C123** A map without overlaps can be built and normalized. For a segment choose a place on it where no other segment ends or crosses it (finitely many places are excluded), and compare the even-odd rule on both sides, along a ray through the segment (turned by a quarter if the segment is horizontal, which needs closed rings): a region whose border has the place once has one of the sides. So at most two borders have it. Then C12, C21, C78, C106, C122.
* **C124** A map whose rings wind around each point at most once is normalized as documented. As for C123, with signs: at a clear place of a segment the winding number of a part that has the segment changes by one, and it is larger on the side that depends only on the direction of the segment. So all parts that pass the segment in this direction wind around the points on this side, and there is at most one. For horizontal segments the ray is turned by a quarter, which changes the sign. Then C12, C74, C86, C122.
* **C125** A clipped map can be normalized. Count how often the clipped rings of a region pass a segment pq. If p is inside, each such segment comes from a segment that has a common place (the segment pq itself, or the part next to p of the segments that cross the line in the one place that becomes q), where the border passes once and at most two borders pass (C123). If both are on the line, each use is a landing of the region there (C121), of which there is at most one. Outside there is none. Then C31, C21, C15 and C78 for normalizing, C106, C122.
* **C126** A map goes through the whole pipeline. An edge that cannot be simplified is p, q, p, so that a ring that uses it passes pq twice: C123 and the counts of C125 (for rings that are dropped too, by C72) exclude this; normalizing keeps the counts by C15. Then C45, C125, C122.
* **C127** A map of horizontal and vertical borders can be clipped with several masks, if each meets at most one corner. For right angles the cut points are where the borders meet the line, without rounding, so that the crossings of the clipped map with the next line are those of the given map, and those of the plug of at most one earlier line; counting as in C121 gives at most two uses of every new edge. The witness is a spiral; that its regions do not overlap is checked on the cells of a grid, after a proof that this is enough.
* **C128** A map of horizontal and vertical borders goes through the whole pipeline, and no border moves. Two segments at right angles to the line that pass it in the same point run along each other, so a region passes the line once in a point; the crossings are not rounded, so they are not moved together. Then C125, C126, C92; normalizing turns segments at most, so it keeps horizontal and vertical ones.
* **C129** Clipping keeps how often rings wind around points, and borders cut at right angles are clipped exactly. `ring_winding` counts crossings of a ray that never meets the mask line, one way less the other way: the segments on the mask line count nothing, and a clipped edge counts as the edge. Rational points next to real ones carry this over. A simple ring of area zero encloses nothing, because what segments enclose contains an open part, and areas of simple rings only get smaller, so the test for area zero is exact.
* **C130** Only simplifying changes what the regions of plain maps cover. A simple ring of area zero encloses nothing, so building is exact for plain regions, and what is built is plain. `C129_masks` makes clipping exact, `C99_normalize` normalizing, and `C99_simplify` bounds what simplifying changes. `steps_comp` composes the steps region by region, with regions that vanish on the way. For horizontal and vertical borders `C128_clipped` lets all steps succeed.
* **C131** No operation takes less time than it takes to look at its input. The functions of `SimplifyTime`, `OperationsTime` and `ReadTime` count rounds. If a sequence succeeds, all of its parts have, so their rounds add up; inductions over regions, rings, edges and points do the rest. That the inner rings count if an outer ring is kept uses that building keeps as many rings as have an area (`buildRings_count`).
* **C132** Simple rings in a quarter of the grid have the right area and direction. The winding number is zero outside of a rectangle around the ring: to its left the crossings cancel, elsewhere there are none. With Green's theorem of C98 the signed area is then at most the measure of the rectangle. `ring_area2AndWindingOrder_release` gives the wrapped value, and the table is arithmetic.
* **C133** Which rings of a shapefile are read as holes, from their share of the bounding box. Moving the ends of a segment changes its cross product by that of the sum of the moves with the mean of the segments, up to terms that cancel around a ring (`moved_path`). With the bound of C102 on each move this bounds the change of the signed area. The exact placement is affine, so areas scale with the box (`shoelaceR_exact`). The sides then follow from the wrapped sign.
* **C134** No operation enlarges the bounding box of a region or leaves a mask that was applied. A set of points that holds the rectangle between any two of its points holds each crossing, because its coordinates are between those of the ends even if the product wraps (C25). So it holds what is left of each edge and the plugs between them. Building and normalizing use only given segments in one direction or the other; simplifying takes a sublist. Rectangles and the inside of a mask are such sets, and steps compose (`survivors_comp`). Coverage follows from C132.
* **C135** Units and places do not matter. Rounding to 53 bits commutes with multiplication by a power of two for multiples of the least double (normal range: the exponent of the spacing shifts along; below: both sides are exact). Hence both differences of a quantized coordinate scale by the same power, and their quotient is the same rational. A flat box is covered by the rule for flat boxes (C83), a zero difference by the sign being irrelevant. The iterators and the program are then run side by side.
* **C136** Every map of the grid can be written to a shapefile that is read as it was. For an integer i that is no power of two, i / (2^32-1) is in the same binade as i / 2^32, so its rounding error times 2^32-1 is less than half the spacing at i and the product rounds to i. For powers of two rounding commutes with scaling, so 1 / (2^32-1) decides, which is computed. Differences of integers are exact. The files come from the writers of C52 and C48; other units from C135.
* **C137** A normalized topology can be saved ring by ring and is made again from its outlines. Cut all edges of the topology at every point. Since a segment lies on one edge once, a piece is used as often by each region as the edge it comes from, so it has the same sides, and the boundaries with their sides are the same lists of segments. C79 then says that both are normalized to the same. What is kept of the outlines is precisely the cut paths (their joints are closed by C05's join). No piece has three users and none has the same region on both sides, so C12 and C21 give that nothing panics; C20 says the normalized topology is left as it is. The file is that of C136, the data come back by C96.

Where the code turned out to violate a property, the plan was changed to: prove the negation with a concrete witness (`..._refuted`), and prove
the part that does hold as `..._partial`, or characterise exactly when it fails. The properties are kept as first stated.

## Trusted base

* Lean 4.33.0's kernel. No `native_decide`, no `bv_decide`, no `sorry`, no axioms of our own. Evaluations of the model on literals use
  `decide +kernel`, i.e. the kernel's own reduction; they serve only as refutation witnesses, non-vacuity examples and tests of the model.
* Mathlib modules, which are themselves checked by the kernel.
* The axioms listed per theorem in the last section: at most `propext`, `Quot.sound` and `Classical.choice`.
* The specifications in `lean/Verif/Spec/`: that they say what the English properties say.
* That the model does what the Rust code does. It was written by reading the code; the crate's own unit tests (`Verif/UnitTests.lean`) and the
  assertions in its documentation on its own test files (`Verif/DocTests.lean`) hold of the model. A second transcription
  of the code, into Python, gives the same results as the model on about 245000 random inputs (`difftest/README.md`).

## What is modelled

| Source | Model | Left out |
|---|---|---|
| src/geo/mod.rs | Model/Geo.lean: Point, Edge, Ring, Region, signed_area2, area2 and winding order of both ring representations, points/edges conversion; Model/Display.lean: all `Display` implementations | `Debug`, `Hash`, `Clone` (derived); tests are in UnitTests |
| src/topology/types.rs, build.rs | Model/Topology.lean: all types, TopologyBuilder, canonical direction, zero-length test, id allocation, placement by id, both pointer passes; Model/Memory.lean: the same passes on addresses | — |
| src/normalize.rs | Model/Normalize.lean: everything; Model/MemoryOps.lean: `normalize` once more, following addresses | — |
| src/clip/types.rs, edge.rs, topology.rs | Model/Clip.lean: everything; Model/Memory.lean, MemoryOps.lean: `clip_topology` once more on addresses | — |
| src/simplify/mod.rs, simplify_edge.rs | Model/Simplify.lean: everything, with the linked list and heap as arrays with indices; Model/MemorySimplify.lean: the same with addresses; Model/SimplifyTime.lean: the same with a count of rounds | priority_queue.rs is empty |
| src/topology/build.rs, src/normalize.rs, src/clip/edge.rs, topology.rs | Model/OperationsTime.lean: the same functions with a count of rounds | — |
| src/read/shapefile/shp.rs, dbf.rs, shapefile.rs | Model/Word.lean: the readers with `usize`s of 32 or 64 bits | that memory is exhausted |
| src/topology/build.rs, src/normalize.rs, src/clip/topology.rs | Model/Library.lean: the functions that use maps or sort, with the standard library as a parameter | — |
| src/read/shapefile/*.rs, examples/shp-to-geo-data.rs | Model/ReadTime.lean: the same functions with a count of rounds. A buffer is counted at a round per byte when it is allocated and another when it is read, although the allocator may deliver zeroed pages without touching them | Time spent in the operating system |
| src/read/shapefile/dbf.rs | Model/Dbf.lean: everything; Model/Display.lean, Model/Open.lean; Model/Program.lean: texts of errors, `Error` | `Debug` |
| src/read/shapefile/shp.rs | Model/Shp.lean, Display, Open, Program: everything | same |
| src/read/shapefile/shapefile.rs, mod.rs | Model/Shapefile.lean, Display, Open, Program; Model/Encodings.lean: `open_utf8`, `open_windows1252` | same |
| src/read/shapefile/geo.rs | Model/ReadGeo.lean and Model/F64.lean | — |
| examples/*.rs | Model/Example.lean: what is computed; Model/Program.lean: `main` with arguments, both outputs, exit codes | messages of panics, and what was printed of a line before one |
| src/lib.rs, read/mod.rs, clip/mod.rs, topology/mod.rs | re-exports only | — |

### What the model assumes about the world outside the crate

* Pointers. The code takes `*const` pointers into `Vec`s and keeps them across `into_boxed_slice` and moves of the owners. In most modules a pointer is
  an index, so it always refers to the same element. Model/Memory.lean models the functions that store pointers once more with addresses, and C75 proves
  that indices are right if the vectors of regions and edges have no spare capacity when `into_boxed_slice` is called, and wrong if shrinking moves them. Model/MemoryOps.lean
  has the functions that follow pointers with addresses, and C113 proves that indices are right throughout any sequence of operations if the vectors of edges
  have no spare capacity. Model/MemorySimplify.lean has the linked points of the simplifier with addresses, and C114 proves that indices are right for them.
  Dropping a `Topology` and using pointers into it afterwards is not modelled, nor is mutation by the user through the public fields, nor aliasing rules
  (the code writes through pointers derived from shared references).
* Machine integers: `usize` is 64 bits; sums of lengths that would need more than 2^64 elements are not checked for overflow.
  For the readers of files this is not assumed: Model/Word.lean computes with `usize`s of `w` bits and with the standard library's limit on allocations,
  and C117 proves that for `w = 64` nothing changes and states what changes for `w = 32`. (The other modules compute no `usize` from data: theirs are
  indices into and lengths of vectors that exist.)
* `HashMap`/`HashSet`: a finite map by equality of keys; iteration in an arbitrary order (C13 quantifies over it).
  `BTreeMap`: a map sorted by the derived `Ord`. Derived `Ord` of points is lexicographic.
  Model/Library.lean has the functions that use them over maps and a sort that are parameters, and C116 proves that any that keep their contracts give the
  same results, so nothing else is assumed of them there.
* `Vec::sort`, `sort_by`: stable. `slice::chunks`, `tuple_windows`, `min_by_key` (first minimum), `partition`: as documented.
* Running time (C110) is the number of rounds of loops. The standard library counts as documented: copying, reversing and collecting take a round per
  element; an entry of a `HashMap` a constant and two rounds per element of its key (the expected time); an operation on a `BTreeMap` of n entries
  log2 n + 1; sorting n elements n (log2 n + 1); cloning the data of a region one. Allocation, and moves of vectors that grow, are not counted.
* Memory allocation does not fail, except that `vec![0; n]` with `n` close to 2^64 panics (dbf header, release build).
* `io::Read::read_exact` is an arbitrary function of the state of the reader that returns as many bytes as asked for, or an error. It is deterministic
  in that state; the theorems on arbitrary sources hold for all such functions. Files on disk are functions from paths to readers.
  Model/Reads.lean models `read` calls that are short, interrupted or fail, `io::BufReader` and the loop of `read_exact` in `std` from memory of its
  documentation and source; C108 proves that files in memory, on which many theorems are stated, stand for files that arrive in this way.
* The `encoding` crate: `decode` with a strict trap is an arbitrary function from bytes to text or an error message. ASCII, UTF-8 and windows-1252, and
  the labels of the last two, are defined after the documentation of the crate and the WHATWG encoding standard (C115).
* The `regex` crate: the one regular expression in dbf.rs is replaced by a matcher, proved equivalent to its declarative reading (C49).
* `byteorder`: little/big-endian decoding of fixed-size integers, panicking on short slices; `f64` are taken as their bits.
* Floating point: binary64, round to nearest even, no flushing of subnormals, no excess precision; `as u32` saturates and maps NaN to 0, which is
  what Rust guarantees since 1.45 (before that it was undefined behaviour out of range). That the model's operations on
  rationals do this, bit pattern by bit pattern, is proved (C90), so what is assumed is only that Rust's `f64` is IEEE 754 binary64. `{}` of an `f64` is a parameter.
* Formatting writes to a string, which does not fail; neither does printing. `Display` and `description` of `io::Error` are parameters.
* Concurrency: the crate has none.

## What was found in the code

Each finding is a theorem or an example in the named module; none was fixed, since the model follows the code as it is.

* `signed_area2` overflows for polygons larger than about half the grid in each direction. A checked build panics and a release build takes a
  clockwise ring for a counter-clockwise one (C06_release_refuted), so that a polygon that fills the bounding box of its shapefile is read as a hole
  and dropped (C63_frame). It happens on the crate's own test file simple.shp (DocTests).
* Closed edges whose area is 0 or -2^63 are not identified with their reverse (hypothesis of C10_sharing).
* One pass of `normalize` may leave work for a second one (C20_refuted). For rings of points the second pass is the last one that changes anything
  (C118_points); for rings of edges that overlap a third one may (C118_overlap). A ring whose area is 2^63 modulo 2^64 is turned round by every
  pass of a release build (C118_huge).
* `normalize` can leave a counter-clockwise ring among the outer rings when it merges the two boundaries of an annulus (C16_refuted), is not
  idempotent (C20_refuted), and can split a shared boundary differently on its two sides (C23_refuted). Rings that join with gaps get invented
  segments unless the input rings are closed (hypothesis of C15_conserved). It panics if a hole shares a side with its own outer ring
  (C86_hole_panics) or if polygons of a region touch in a point where others of its polygons meet (C86_touch_panics); the comment at
  normalize.rs:273 says that the latter cannot happen.
* `clip_edge`: the intersection point can be wrong when `dx * dy` overflows; in a release build it is still on the line and between the end points
  (C25_release_between), but may be far from the exact point (C25_release_refuted).
* `clip_topology` can leave edges that no ring uses (C37_refuted) and can panic on three plugs along one stretch (C36_panic_freedom_refuted).
* `simplify`: the area formula multiplies `b.0 * a.0` where a difference is meant (C43_weight_refuted); `sift_down` compares with `heap[start]`
  instead of `heap[root]`, so that it leaves heaps of more than three points out of order (C97_down_refuted, C97_heapify_refuted) and points are not
  removed in the order of weights (C43_order_refuted), and the places that `PointHeap::from` records in points are off by one
  (C97_places_refuted); a larger threshold can keep a point
  that a smaller one removes (C44_refuted); edges `[p, q, p]`, which the builder accepts, make it panic (C45_panic), and so do the edges
  `[p, q, p]` that `clip_topology` makes when two cut points round to the same one (C82_refuted); in a checked build
  it overflows for coordinates from 2^21 (C40). Because of the formula the result depends on the x coordinate, the direction and the axes
  (C84_horizontal_refuted, C84_reversal_refuted, C84_axes_refuted), threshold 1 can cut off triangles of any size while points on straight lines stay
  (C85_unbounded, C85_straight), and simplifying is not idempotent (C85_idempotent_refuted).
* `.dbf`: a header length below 32 panics (C51), `Logical`, `Date`, `FloatingPoint`, `Timestamp`, `Double` and unknown fields are `unimplemented!` and long
  fields shorter than 4 bytes panic (C60); the terminator 0x0D is not checked; `dbf::open_ascii` uses the WHATWG label "ascii", i.e. windows-1252,
  unlike `shapefile::open_ascii` (C115_label).
* `.shp`: contents too short for their counts panic (C55); points before the first part offset are silently dropped; the last ring must have more than
  three points, the others at least three (C54); a rejected record does not count towards the file size, so that an iteration over a damaged file need not
  end (C56_io_forever, C56_rejected); `file_len * 2` overflows (C53); a record with one ring of three points is refused with a message that it
  starts at point 0 but there are only 3 points (Props/Program). The length that a record announces is allocated before anything is read: 108 bytes
  make the reader ask for 8 GiB (C112_announced_refuted).
* `into_topology` (both) stores addresses of regions and edges before `into_boxed_slice`, although a comment says that they have their final spots in
  memory. The vector of edges is allocated with its exact size; the vector of regions is what `collect` returns. Compilers whose `collect` reuses the
  vector it consumes (Rust 1.48 and later, when sizes of elements allow) leave spare capacity in it, e.g. in `clip_topology` when a region vanishes, and
  all `TopoRing::region` are dangling if shrinking moves the block (C75_moved). No operation follows these pointers,
  and none depends on where they lead (C113_pipeline). The same with edges would be fatal: `normalize` would begin by following a dangling pointer
  (C113_dangling_normalize), and `clip_topology` would panic (C113_dangling_clip).
* Quantization: a bounding box whose width overflows to infinity maps its east side to 0 (C58_overflow).

## Testing the theorems

`seeded/LOG.jsonl` lists edits of the model that mimic bugs, and what no longer went through then. Each edit was made in a scratch copy.

* In the first runs proofs that broke were replaced by `sorry` and the build went on. In the later ones (most of them) the build was stopped soon after a
  first failure. In both, the property theorems listed are those that broke or rest on a lemma that did, as found from the dependencies of the unedited proofs.
* That a proof breaks does not show that its statement became false. It shows that the statement is not proved for the edited program by the same proof.
* Several definitions exist twice: with steps counted, with addresses, with another standard library. An edit of one copy breaks the theorem that both
  agree, whatever the edit is. `claim_check` marks runs in which nothing else was seen to fail; they are no evidence for the claim.
* `claim_check` also tells whether a property named in `claim` was among those that failed. If it was not, the build may have stopped before it.
  For a few of these the module of the property was then built on its own, and `claim_check` says what came out.
* Claims were written before the runs. Where the number of the property was wrong it was corrected afterwards from the list of properties;
  `claim_as_first_written` keeps the first version.
* Edits that did not compile, and runs that ended without a result, are not in the log.

## Axioms per theorem

No axioms (3): C05_points_of_edges_repeat_nodes, C131_dbf_next, C43_weight_refuted.

`propext` (34): C02_shoelace_cut, C04_rotate_shoelace, C05_edges_chain, C06_release_refuted, C101_order_refuted, C106_build, C106_clip, C106_normalize, C106_result, C106_ring, C106_simplify, C109_part_refuted, C111_debug_refuted, C111_normalize_refuted, C111_reverse_refuted, C122_bits_matter, C122_segments_matter, C122_simplify_bits_matter, C127_order_matters, C137_unshared_refuted, C25_release_refuted, C43_order_refuted, C44_refuted, C45_panic, C57_panic, C81_collapse_refuted, C81_winding_refuted, C84_axes_refuted, C84_horizontal_refuted, C84_reversal_refuted, C85_idempotent_refuted, C95_checked_refuted, C95_open_refuted, C96_simplify.

`propext`, `Quot.sound` (45): C01_debug, C02_debug, C03_debug, C108_truncated, C109_simplify, C110_same, C112_file, C112_pieces, C115_next, C115_windows1252_table, C117_announced, C118_huge, C120_direction_refuted, C123_apart_matters, C12_add_region_debug, C12_add_region_total, C131_clip, C131_normalize, C131_shp_next, C28_crossings, C28_visible, C37_refuted, C45_back_pointers, C45_frame, C53_total, C57_lockstep, C57_new, C57_none, C59_permutation, C59_true_winding, C61_get_field, C61_shapefile, C75_equal, C75_offset, C75_offset_wraps, C79_pinched, C82_refuted, C84_topology, C84_vertical, C87_same, C87_sift, C97_down_refuted, C97_heapify_refuted, C97_places_refuted, C97_up.

`propext`, `Classical.choice`, `Quot.sound` (480): C01_debug_iff, C01_debug_succeeds, C01_release, C01_release_exact, C02_edges, C02_release, C03_area2, C03_debug_winding, C03_signed, C03_winding, C04_rotate, C04_translate, C05_edges_of_points, C05_points_of_edges, C06_debug, C06_release_exact, C06_release_partial, C07_round_trip, C08_only_degenerate_dropped, C09_canonical, C09_unique, C100_area, C100_exact, C100_inside, C100_outside, C100_ring, C101_depth, C101_order, C101_products, C101_rectangle, C102_area, C102_length, C102_point, C102_record, C102_region, C102_ring, C102_topology, C103_budget, C103_well_formed, C104_display, C104_header, C104_reported, C104_texts, C105_cat, C105_exit, C105_geo, C105_report, C105_usage, C105_written, C106_open, C106_programs, C106_read, C107_build, C107_operation, C107_pipeline, C107_read, C108_broken, C108_no_lookahead, C108_pieces, C108_programs, C108_unbuffered, C109_apart, C109_build, C109_clip, C109_normalize, C109_normalize_refuted, C109_parts, C10_sharing, C110_build, C110_clip, C110_join, C110_normalize, C110_shared, C110_size, C111_build, C111_build_release, C111_clip, C111_clip_release, C111_edge, C111_grid, C111_mask, C112_announced_refuted, C112_dbf_next, C112_dbf_open, C112_geo_next, C112_program, C112_same, C112_shp_next, C113_dangling_clip, C113_dangling_normalize, C113_pipeline, C113_safe, C113_step, C114_moved, C114_pointers, C114_safe, C114_topology, C115_ascii, C115_label, C115_names, C115_open, C115_utf8, C115_values, C115_windows1252, C116_build, C116_clip, C116_normalize, C116_pipeline, C116_sorted_needed, C116_stability_needed, C117_accepts, C117_dbf, C117_debug, C117_parse, C117_record, C117_release, C117_round_trip, C117_sixty_four, C117_small_files, C118_overlap, C118_points, C118_times, C118_twice, C119_count, C119_huge, C119_panics, C119_rest, C119_size, C119_small, C11_back_pointers, C120_built, C120_cut, C120_origins, C120_refuted, C120_uncut, C121_clips, C121_overlap_refuted, C121_pinched_refuted, C121_rounding_refuted, C122_all, C122_build, C122_build_grid, C122_build_size, C122_clip, C122_clip_grid, C122_clip_size, C122_normalize, C122_normalize_grid, C122_operations, C122_simplify, C122_simplify_size, C123_build, C123_closed_matters, C123_moves_matters, C123_normalize, C123_once_matters, C123_small, C124_apart_matters, C124_around_matters, C124_build, C124_closed_matters, C124_merge, C124_moves_matters, C124_normalize, C124_once_matters, C124_small, C125_apart_matters, C125_moves_matters, C125_normalizes, C125_once_matters, C125_pinched_matters, C125_pipeline, C125_rounding_matters, C125_small, C126_clipped, C126_moves_matters, C126_once_matters, C126_pipeline, C126_rounding_matters, C126_simplifies, C126_small, C126_used_matters, C127_clips, C127_map, C127_rectangle_refuted, C127_three, C128_clipped, C128_covers, C128_pipeline, C128_small, C129_areas, C129_exact, C129_map, C129_masks, C129_rings, C129_simple, C12_into_topology, C130_map, C130_nothing_lost, C130_steps, C131_build, C131_simplify, C132_bound, C132_kept, C132_plain, C132_right, C132_table, C132_within, C133_area, C133_lost, C133_region, C133_shares, C133_sides, C133_signed, C133_survives, C134_all, C134_build, C134_clip, C134_clip_rings, C134_covers, C134_normalize, C134_route, C134_simplify, C135_point, C135_program, C135_reads, C135_three_refuted, C136_degrees_refuted, C136_files, C136_point, C136_rings, C136_units, C137_again, C137_file, C137_file_release, C137_outline, C13_hash_order, C13_hash_order_clip, C14_first_use, C14_stable, C15_conserved, C15_topology, C15_unmerged, C16_oriented_partial, C16_refuted, C16_ring_partial, C16_topology_partial, C17_first, C18_fewest_edges, C18_rotation, C19_no_self_edge, C20_fixpoint_exact, C20_fixpoint_partial, C20_idempotent_exact, C20_idempotent_partial, C20_refuted, C21_built, C21_panics, C21_points, C21_points_passes, C21_release, C22_area, C23_refuted, C23_segments_partial, C24_mirror, C24_sides, C24_test, C25_debug, C25_intersect, C25_release_between, C25_release_on_line, C25_small, C26_stays_inside, C27_empty_iff, C27_inside, C27_inside_points, C27_outside, C28_steps, C29_panics, C29_thrice, C29_twice, C29_two_points, C30_closed, C31_regions, C31_visible_edges, C32_inside, C32_plugs, C33_back_pointers, C34_plug, C34_sharing, C35_built, C35_identity, C35_identity_debug, C36_debug, C36_panic_freedom_refuted, C36_panics, C37_exact, C37_used_partial, C38_subsequence, C39_ring, C40_debug, C40_panics, C40_release, C41_changed, C41_unchanged, C41_zero, C42_dropped, C43_first_partial, C43_short_partial, C43_weight_partial, C44_unchanged_partial, C45_closed, C45_points, C45_release, C46_count, C47_fields, C48_round_trip, C49_numeric, C50_character, C50_unique, C51_opening, C51_total, C52_round_trip, C53_debug, C53_error, C53_release, C54_accepted, C54_next, C54_rings, C55_next, C55_panics, C55_reading, C56_io_forever, C56_none, C56_rejected, C56_size, C57_round_trip, C58_inside, C58_monotone, C58_outside, C58_overflow, C58_sides, C59_passes, C59_region, C60_long, C60_panics, C62_accuracy, C62_distinct, C63_frame, C63_region, C64_edge, C64_format, C64_point, C64_region, C64_ring, C65_invalid, C65_panics, C65_shapefile, C65_valid, C66_ascii, C66_attributes_missing, C66_dbf_ascii, C66_files, C66_path, C66_path_bare, C66_reader, C66_shapes_first, C67_closed, C67_edge, C67_rectangle, C67_regions, C68_ends, C68_error, C68_program, C68_read, C69_neighbours, C70_description, C70_sides, C71_error, C71_lines, C71_open, C71_panics, C71_program, C72_edges, C73_all, C73_ends, C74_distinct, C74_idempotent, C74_one_edge, C74_points, C74_sides, C75_built, C75_clipped, C75_moved, C75_read, C76_area, C76_checked, C76_debug, C76_seam, C77_depends, C77_rebuild, C78_even_odd, C78_topology, C79_canonical, C79_same_map, C80_build, C80_clip_edge, C80_clip_rings, C80_clip_topology, C80_edges_refuted, C80_normalize, C80_rings_refuted, C80_simplify, C81_normal_form, C81_overlap_refuted, C81_well_formed, C82_clip, C82_panics, C82_points, C82_well_formed, C83_axes, C83_complete, C83_rules, C84_mirror, C84_topology_mirror, C85_settles, C85_straight, C85_unbounded, C86_cancel, C86_hole_panics, C86_merge, C86_needed, C86_points, C86_touch_panics, C87_edge, C87_topology, C88_build, C88_no_gap, C88_parity, C88_simplify, C89_simplify, C89_total, C90_complete, C90_steps, C91_counts, C91_ends, C91_first, C91_later, C91_run, C92_inside, C92_outside, C92_rings, C93_build, C93_count, C93_dropped_refuted, C93_normalize, C94_bows, C94_local, C95_build, C95_clip, C95_normalize, C96_build, C96_clip, C96_normalize, C97_down, C97_down_top, C97_heapify, C97_lighter, C98_area, C98_rational, C98_refuted, C98_region, C98_topology, C98_triangle, C98_winding, C99_build, C99_dropped, C99_normalize, C99_normalize_regions, C99_simplify.

