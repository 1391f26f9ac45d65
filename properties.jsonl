{"id": "C01", "title": "Leading-zero count is exact at every width", "statement": "nlz8, nlz16, nlz32 and nlz64 return the number of zero bits above the most significant one bit of their argument; for argument 0 they return the full width (8, 16, 32, 64).", "quantifier": "for every value of the 8-, 16-, 32- and 64-bit unsigned argument", "why_tests_cant": "2^64 arguments cannot be enumerated, and the branchy binary search has a distinct path for every bit position and mask boundary.", "anchors": ["common/src/bit_manip.cpp: nlz8", "common/src/bit_manip.cpp: nlz16", "common/src/bit_manip.cpp: nlz32", "common/src/bit_manip.cpp: nlz64", "common/include/rofl/common/bit_manip.h: nlz8", "common/include/rofl/common/bit_manip.h: nlz16", "common/include/rofl/common/bit_manip.h: nlz32", "common/include/rofl/common/bit_manip.h: nlz64"]}
{"id": "C02", "title": "Floor power of two", "statement": "flp2u8/16/32/64(x) returns the largest power of two that is less than or equal to x, and 0 for x = 0.", "quantifier": "for every value of the argument at the four widths", "why_tests_cant": "The bit-smearing cascade must work for every combination of low bits; sampling covers a vanishing fraction of 2^64 inputs.", "anchors": ["common/src/bit_manip.cpp: flp2u8", "common/src/bit_manip.cpp: flp2u16", "common/src/bit_manip.cpp: flp2u32", "common/src/bit_manip.cpp: flp2u64"]}
{"id": "C03", "title": "Ceiling power of two", "statement": "clp2u8/16/32/64(x) returns the smallest power of two greater than or equal to x whenever that power is representable (1 <= x <= 2^(w-1)), and 0 for x = 0 and for every x above 2^(w-1); no other value is ever returned.", "quantifier": "for every value of the argument at the four widths, including the overflow region", "why_tests_cant": "The wrap-around at 0 and above 2^(w-1) depends on modular arithmetic over the whole range.", "anchors": ["common/src/bit_manip.cpp: clp2u8", "common/src/bit_manip.cpp: clp2u16", "common/src/bit_manip.cpp: clp2u32", "common/src/bit_manip.cpp: clp2u64"]}
{"id": "C04", "title": "Floating-point decomposition and composition are mutually inverse", "statement": "Decomposing any float/double bit pattern into mantissa, exponent and sign and composing the three back yields the same bit pattern (NaN payloads, infinities, denormals and signed zeros included); composing (m,e,s) with 0 <= m < 2^23 (2^52), -127 <= e <= 128 (-1023 <= e <= 1024) and decomposing returns exactly (m,e,s).", "quantifier": "for every 32-bit and 64-bit pattern and every in-range triple", "why_tests_cant": "Round trips over 2^64 patterns cannot be enumerated and the interesting patterns (NaN payloads, denormals) are rarely sampled.", "anchors": ["common/src/bit_manip.cpp: getMantissaExpSignF", "common/src/bit_manip.cpp: setMantissaExpSignF", "common/src/bit_manip.cpp: getMantissaExpSignD", "common/src/bit_manip.cpp: setMantissaExpSignD", "common/include/rofl/common/numeric_traits.h: FloatTraits::decompose", "common/include/rofl/common/numeric_traits.h: FloatTraits::compose"]}
{"id": "C05", "title": "IntegerTraits::log2Mod is floor(log2 |i|) for every integer type", "statement": "For every supported integer type and every non-zero value i of the type (other than the most negative one where |i| overflows), IntegerTraits<T>::log2Mod(i) equals the floor of the base-2 logarithm of |i|.", "quantifier": "for every non-zero value of each of the eight integer types", "why_tests_cant": "The eight specialisations are separate hand-written copies; a wrong copy can agree with the right one on whatever values are sampled.", "anchors": ["common/include/rofl/common/numeric_traits.h: IntegerTraits<int8_t>::log2Mod", "common/include/rofl/common/numeric_traits.h: IntegerTraits<int16_t>::log2Mod", "common/include/rofl/common/numeric_traits.h: IntegerTraits<int32_t>::log2Mod", "common/include/rofl/common/numeric_traits.h: IntegerTraits<int64_t>::log2Mod"]}
{"id": "C06", "title": "floorPow2 and ceilPow2 bracket the integer", "statement": "For every integer i of a supported type, IntegerTraits<T>::floorPow2(i) <= i <= ceilPow2(i), both results are 0 or plus/minus a power of two, and each is the tightest such bound.", "quantifier": "for every value of each supported integer type, negative ones included", "why_tests_cant": "The overflow boundary of the signed variants is a thin slice of a huge input space.", "anchors": ["common/include/rofl/common/numeric_traits.h: IntegerTraits::floorPow2", "common/include/rofl/common/numeric_traits.h: IntegerTraits::ceilPow2"]}
{"id": "C07", "title": "Most-significant-bit comparison without logarithms", "statement": "msb(i1,i2) is true exactly when the most significant set bit of i1 is strictly lower than the one of i2 (0 has none, hence msb(0,i2) iff i2 > 0).", "quantifier": "for every pair of unsigned values of every width", "why_tests_cant": "It is a relation over pairs, quadratically many inputs.", "anchors": ["common/include/rofl/common/morton_sort.h: msb"]}
{"id": "C08", "title": "Integer Morton comparison equals comparison of interleaved bits", "statement": "mortonCmpInt(v1,v2) returns true iff the Z-order (Morton) code of v1 is smaller than the one of v2, where the code interleaves the coordinate bits from the most significant down, coordinate 0 first, signed coordinates being biased so that the most negative value has code 0.", "quantifier": "for every dimension, every signed/unsigned width and every pair of vectors", "why_tests_cant": "The comparator never builds the code; agreement must hold over all pairs of vectors in all dimensions.", "anchors": ["common/include/rofl/common/morton_sort.h: mortonCmpInt", "common/include/rofl/common/morton_sort.h: msb", "common/include/rofl/common/numeric_traits.h: IntegerTraits::removeSign"]}
{"id": "C09", "title": "Integer Morton comparison is a strict total order", "statement": "mortonCmpInt is irreflexive, asymmetric, transitive and total (two distinct vectors are always ordered), so std::sort, lower_bound and std::map may be used with it.", "quantifier": "for every dimension, width and triple of vectors", "why_tests_cant": "Transitivity is a property of triples; violating triples are rare and sorts misbehave only on them.", "anchors": ["common/include/rofl/common/morton_sort.h: mortonCmpInt"]}
{"id": "C10", "title": "Power-of-two interval of two integers", "statement": "intervalPow2Int(i1,i2,low,mid,upp) returns the smallest aligned dyadic interval [low, upp] of length 2^k that contains both i1 and i2, with k returned, and mid splits it in two halves, the smaller argument being below mid and the larger one at or above mid.", "quantifier": "for every pair of values of every integer type", "why_tests_cant": "Shift amounts depend on the pair; undefined shifts occur only for particular levels (equal values, widest levels).", "anchors": ["common/include/rofl/common/morton_sort.h: intervalPow2Int"]}
{"id": "C11", "title": "Integer Morton split separates the two vectors", "statement": "For distinct v1, v2 with v1 before v2 in Morton order, mortonSplitInt(v1,v2,low,mid,upp) returns mid with v1 strictly before mid and mid not after v2 in Morton order, and low <= v1,v2 <= upp in every coordinate.", "quantifier": "for every pair of distinct vectors of every dimension", "why_tests_cant": "The chosen split dimension depends on all coordinates; ties between dimensions are easily missed.", "anchors": ["common/include/rofl/common/morton_sort.h: mortonSplitInt", "common/include/rofl/common/morton_sort.h: intervalPow2Int"]}
{"id": "C12", "title": "Integer Morton distance is an ultrametric compatible with the Morton order", "statement": "mortonDistanceInt is symmetric, zero exactly on equal vectors, satisfies d(a,c) <= max(d(a,b), d(b,c)), and for a <= b <= c in Morton order d(a,b) <= d(a,c) and d(b,c) <= d(a,c).", "quantifier": "for every triple of vectors of every dimension", "why_tests_cant": "Triples of vectors; the algebraic law cannot be enumerated.", "anchors": ["common/include/rofl/common/morton_sort.h: mortonDistanceInt"]}
{"id": "C13", "title": "MortonTree insertion keeps values and identifiers", "statement": "After any sequence of insertions the tree holds exactly the inserted values; insertion with resetId assigns the consecutive identifiers size, size+1, ..., and insertion without resetId keeps the identifier of the inserted item.", "quantifier": "for every sequence of insertions of single items, item ranges and converted ranges", "why_tests_cant": "Identifier handling depends on the whole history of mixed insertion calls.", "anchors": ["common/include/rofl/common/morton_tree.h: MortonTree::insert"]}
{"id": "C14", "title": "MortonTree::findItem is a lower-bound search", "statement": "After findItem(q) the items are a permutation of the inserted ones in Morton order, every item before the returned position precedes q and no item from the returned position on precedes q.", "quantifier": "for every multiset of stored items, every insertion order and every query", "why_tests_cant": "Depends on sorted order of arbitrary many items and on std::sort accepting the comparator for all of them.", "anchors": ["common/include/rofl/common/morton_tree.h: MortonTree::findItem", "common/include/rofl/common/morton_tree.h: MortonTree::sort"]}
{"id": "C15", "title": "MortonTree::computeLevel bounds the whole range", "statement": "For a sorted non-empty range the level computed from its first and last items is the least level such that all the pairs of items in the range are within that Morton distance.", "quantifier": "for every sorted range of any length", "why_tests_cant": "Relies on the interplay of order and distance for all intermediate items.", "anchors": ["common/include/rofl/common/morton_tree.h: MortonTree::computeLevel"]}
{"id": "C16", "title": "MortonTree::searchInBox returns the items of the box", "statement": "searchInBox(boxMin, boxMax) returns all and only the items whose coordinates are inside the box.", "quantifier": "for every set of items and every box", "why_tests_cant": "Missing items depend on the number of runs the box is split into along the Z-curve and on positions of the items.", "anchors": ["common/include/rofl/common/morton_tree.h: MortonTree::searchInBox", "common/include/rofl/common/morton_tree.h: MortonTree::searchNextInBox", "common/include/rofl/common/morton_tree.h: MortonTree::findTreeBucket"]}
{"id": "C17", "title": "Float Morton comparison is a strict weak order", "statement": "mortonCmpFloat on float vectors is irreflexive, asymmetric, transitive and its incomparability is transitive, so that it can be used for sorting.", "quantifier": "for every triple of vectors of finite floats", "why_tests_cant": "Triples of 32-bit patterns; violations live at signed zeros, denormals and rounding of aligned mantissas.", "anchors": ["common/include/rofl/common/morton_sort.h: mortonCmpFloat", "common/include/rofl/common/morton_sort.h: xorFloat"]}
{"id": "C18", "title": "Float exponent constants are consistent with the format", "statement": "For float and double the traits EXPONENT_MAX, masks and bit numbers are those of IEEE-754 binary32 and binary64 and xorFloat of two numbers with different sign returns the maximal exponent EXPONENT_MAX of the format.", "quantifier": "for every pair of opposite-sign values of the two types", "why_tests_cant": "Requires reasoning on all values; a wrong constant shows only for exponents above the truncated range.", "anchors": ["common/include/rofl/common/numeric_traits.h: FloatTraits<double>::EXPONENT_BITS", "common/include/rofl/common/numeric_traits.h: FloatTraits<double>::EXPONENT_MAX", "common/include/rofl/common/morton_sort.h: xorFloat"]}
{"id": "C19", "title": "Min-max heap conserves its elements", "statement": "After any history of push, popTop and popBottom the heap holds exactly the pushed elements minus the ones reported by top()/bottom() just before each pop, no access is out of bounds, every operation terminates, and pops/peeks on an empty heap stop with the assertion.", "quantifier": "for every comparator and every history of operations, duplicates included", "why_tests_cant": "Histories are unbounded; sift loops must terminate for every shape.", "anchors": ["common/include/rofl/common/min_max_heap.h: MinMaxHeap::push", "common/include/rofl/common/min_max_heap.h: MinMaxHeap::popTop", "common/include/rofl/common/min_max_heap.h: MinMaxHeap::popBottom", "common/include/rofl/common/min_max_heap.h: MinMaxHeap::heapUp", "common/include/rofl/common/min_max_heap.h: MinMaxHeap::heapDownMin", "common/include/rofl/common/min_max_heap.h: MinMaxHeap::heapDownMax"]}
{"id": "C20", "title": "Min-max heap reports the minimum and the maximum", "statement": "After any history of push, popTop and popBottom, top() is an element of the heap that no other element precedes and bottom() is one that precedes no other element.", "quantifier": "for every strict weak order and every history, duplicates included", "why_tests_cant": "The failing histories need particular tie patterns in a specific arrangement.", "anchors": ["common/include/rofl/common/min_max_heap.h: MinMaxHeap::top", "common/include/rofl/common/min_max_heap.h: MinMaxHeap::bottom", "common/include/rofl/common/min_max_heap.h: MinMaxHeap::heapDownMin"]}
{"id": "C21", "title": "Min-max heap nextTop and nextBottom report the runners-up", "statement": "For a heap of two or more elements nextTop() is the element that would become top() after popTop(), and nextBottom() the one that would become bottom() after popBottom() (up to equivalence).", "quantifier": "for every size and content of the heap", "why_tests_cant": "Correctness depends on the size class and on the arrangement in the array.", "anchors": ["common/include/rofl/common/min_max_heap.h: MinMaxHeap::nextTop", "common/include/rofl/common/min_max_heap.h: MinMaxHeap::nextBottom"]}
{"id": "C22", "title": "Disjoint sets: find decides connectivity", "statement": "find(a) == find(b) holds iff a and b are connected by the joins executed so far; find never changes the partition, returns a member of the set, and terminates.", "quantifier": "for every history of initSets, makeSet, join and find on valid identifiers", "why_tests_cant": "Path compression and union by rank create arbitrarily deep shapes; connectivity is the closure of the whole history.", "anchors": ["common/src/disjoint_set.cpp: DisjointSet::find", "common/src/disjoint_set.cpp: DisjointSet::join", "common/src/disjoint_set.cpp: DisjointSet::makeSet", "common/src/disjoint_set.cpp: DisjointSet::initSets"]}
{"id": "C23", "title": "Disjoint sets: join merges exactly two sets", "statement": "join(a,b) on valid identifiers merges exactly the sets of a and b leaving the others alone and returns the representative of the merged set; when a and b are already in the same set nothing changes and the number of items is returned.", "quantifier": "for every reachable state and pair of identifiers", "why_tests_cant": "Depends on arbitrary histories and ranks.", "anchors": ["common/src/disjoint_set.cpp: DisjointSet::join"]}
{"id": "C24", "title": "Disjoint sets: size is the cardinality", "statement": "size(n) returns the number of items in the set of n.", "quantifier": "for every history and every valid identifier", "why_tests_cant": "The counters are updated incrementally over unbounded histories.", "anchors": ["common/include/rofl/common/disjoint_set.h: DisjointSet::size", "common/src/disjoint_set.cpp: DisjointSet::join"]}
{"id": "C25", "title": "Disjoint sets: setNum counts the sets", "statement": "setNum() equals the number of disjoint sets of the current partition.", "quantifier": "for every history of initSets, makeSet and join", "why_tests_cant": "Drift of a counter appears only along particular mixes of operations.", "anchors": ["common/include/rofl/common/disjoint_set.h: DisjointSet::setNum", "common/src/disjoint_set.cpp: DisjointSet::makeSet", "common/src/disjoint_set.cpp: DisjointSet::join"]}
{"id": "C26", "title": "Disjoint sets: logarithmic depth", "statement": "Every find follows at most log2(n) parent links, n being the number of items of the set, whatever the history of joins.", "quantifier": "for every history", "why_tests_cant": "A complexity bound over all histories.", "anchors": ["common/src/disjoint_set.cpp: DisjointSet::find", "common/src/disjoint_set.cpp: DisjointSet::join"]}
{"id": "C27", "title": "Disjoint sets: parents lists one representative per set", "statement": "parents() writes, in increasing order, exactly one identifier for each set and this identifier is the one returned by find for all members.", "quantifier": "for every history", "why_tests_cant": "Universally quantified over reachable partitions.", "anchors": ["common/include/rofl/common/disjoint_set.h: DisjointSet::parents"]}
{"id": "C28", "title": "Disjoint sets: invalid identifiers are rejected", "statement": "Calls with an identifier outside [0, number of items) do not touch memory outside the structure: find returns the number of items and leaves the partition unchanged, join and size do likewise.", "quantifier": "for every state and every integer identifier", "why_tests_cant": "Memory safety for every integer argument.", "anchors": ["common/src/disjoint_set.cpp: DisjointSet::find", "common/src/disjoint_set.cpp: DisjointSet::join", "common/include/rofl/common/disjoint_set.h: DisjointSet::size"]}
{"id": "C29", "title": "LabelSet implements set algebra", "statement": "unionSet, intersectionSet, differenceSet, insert, remove and clear compute the mathematical operation; insert returns true iff the label was already present; iteration is strictly increasing; operands are not modified.", "quantifier": "for all label sets and labels", "why_tests_cant": "Arbitrary many labels and interleavings of merge steps.", "anchors": ["common/src/label_set.cpp: LabelSet::insert", "common/src/label_set.cpp: LabelSet::unionSet", "common/src/label_set.cpp: LabelSet::intersectionSet", "common/src/label_set.cpp: LabelSet::differenceSet", "common/src/label_set.cpp: LabelSet::remove"]}
{"id": "C30", "title": "LabelSet equality is set equality", "statement": "a == b iff a and b contain the same labels, a != b is its negation, and both are defined for all operands.", "quantifier": "for all pairs of label sets", "why_tests_cant": "A comparison that ignores sizes is right on most sampled pairs.", "anchors": ["common/src/label_set.cpp: LabelSet::operator==", "common/src/label_set.cpp: LabelSet::operator!="]}
{"id": "C31", "title": "Raster index is a bijection between cells and positions", "statement": "For an interval with positive dimensions whose cell count fits an int, getPos maps each inside cell to a distinct position in [0,size) in column-major order, getIndices is its inverse, and no intermediate computation overflows.", "quantifier": "for every dimension count, every bounds and every cell/position", "why_tests_cant": "Mixed-radix arithmetic over arbitrary dims; overflow depends on the product.", "anchors": ["common/include/rofl/common/interval_indices.h: StaticRasterIndexer::getPos", "common/include/rofl/common/interval_indices.h: RasterIndexer::getPos", "common/include/rofl/common/interval_indices.h: RasterIndexer::getIndices"]}
{"id": "C32", "title": "Static and dynamic raster indexers agree", "statement": "StaticRasterIndexer and RasterIndexer compute the same position and, applied to any position of the interval, the same cell.", "quantifier": "for every dimension count, bounds and cell", "why_tests_cant": "Two independent implementations over unbounded inputs.", "anchors": ["common/include/rofl/common/interval_indices.h: StaticRasterIndexer", "common/include/rofl/common/interval_indices.h: RasterIndexer"]}
{"id": "C33", "title": "Raster iteration visits each cell once", "statement": "Iterating from beginRaster() to endRaster() visits exactly the cells inside the interval, each once, in increasing raster position.", "quantifier": "for every non-empty interval whose size fits an int", "why_tests_cant": "Interval sizes are unbounded.", "anchors": ["common/include/rofl/common/interval_indices.h: IntervalIndices::beginRaster", "common/include/rofl/common/interval_indices.h: IntervalIndices::endRaster", "common/include/rofl/common/interval_indices.h: IntervalIndicesIterator"]}
{"id": "C34", "title": "Boustrophedon iteration visits each cell once", "statement": "Iterating from beginBoustrophedon() to endBoustrophedon() visits exactly the cells inside the interval, each once.", "quantifier": "for every dimension count and bounds with size fitting an int", "why_tests_cant": "Reflection of each coordinate depends on all higher ones.", "anchors": ["common/include/rofl/common/interval_indices.h: BoustrophedonIndexer::getIndices", "common/include/rofl/common/interval_indices.h: IntervalIndices::beginBoustrophedon"]}
{"id": "C35", "title": "Boustrophedon steps are between adjacent cells", "statement": "Two consecutive cells of the boustrophedon iteration differ by exactly one in exactly one coordinate.", "quantifier": "for every dimension count, bounds and step", "why_tests_cant": "Fails only for particular parity patterns of the dimensions.", "anchors": ["common/include/rofl/common/interval_indices.h: BoustrophedonIndexer::getIndices"]}
{"id": "C36", "title": "Interval constructors and intersection have set semantics", "statement": "inside(x) holds iff min <= x < min+dim in each coordinate; initCentered, initMinMax and initBounds describe the documented cells; a.intersect(b) contains a cell iff both a and b contain it; empty() iff no cell is inside.", "quantifier": "for all intervals (positive, zero and negative sizes) and all cells", "why_tests_cant": "Set equality over all cells of arbitrary boxes.", "anchors": ["common/include/rofl/common/interval_indices.h: IntervalIndices::inside", "common/include/rofl/common/interval_indices.h: IntervalIndices::intersect", "common/include/rofl/common/interval_indices.h: IntervalIndices::initCentered", "common/include/rofl/common/interval_indices.h: IntervalIndices::initMinMax", "common/include/rofl/common/interval_indices.h: IntervalIndices::empty"]}
{"id": "C37", "title": "Sliding a window: stacked cells are exactly the new ones", "statement": "For a non-empty window w, the cells of w translated by k along d that are not in w are exactly the cells of w.stacked(d,k) when 0 <= |k| <= dim, and stacked never intersects w.", "quantifier": "for every window, coordinate and shift of either sign", "why_tests_cant": "All boxes and shifts; used by the peak finder for incremental updates.", "anchors": ["common/include/rofl/common/interval_indices.h: IntervalIndices::stacked", "common/include/rofl/common/interval_indices.h: IntervalIndices::translate"]}
{"id": "C38", "title": "Empty intervals iterate over nothing", "statement": "If empty() holds, size() is 0 and both begin iterators equal the end iterators.", "quantifier": "for every interval the public initialisers can create", "why_tests_cant": "Negative dimensions produced by min/max bounds are not sampled.", "anchors": ["common/include/rofl/common/interval_indices.h: IntervalIndices::empty", "common/include/rofl/common/interval_indices.h: IntervalIndices::size", "common/include/rofl/common/interval_indices.h: IntervalIndices::initMinMax"]}
{"id": "C39", "title": "Grid is an array addressed by cells", "statement": "Reading a cell after writing it returns the written value, writing a cell does not change any other inside cell, fill sets all the cells, and access by a position out of range throws.", "quantifier": "for every grid, cell and value", "why_tests_cant": "Aliasing between distinct cells must be excluded for all dims.", "anchors": ["common/include/rofl/common/grid.h: Grid::value", "common/include/rofl/common/grid.h: Grid::initBounds", "common/include/rofl/common/grid.h: Grid::fill"]}
{"id": "C40", "title": "Peak finder reports exactly the strict local maxima", "statement": "detect reports a cell iff it is in the domain, its value passes the value filter and its value is strictly better than the value of any other domain cell of the window centred on it.", "quantifier": "for every map, domain, window and comparator", "why_tests_cant": "Depends on sliding-window heap state along the whole traversal; failing maps have particular ties or positions.", "anchors": ["common/include/rofl/common/peak_finder_d.h: PeakFinderD::detect"]}
{"id": "C41", "title": "Peak finder orders the peaks", "statement": "The detected peaks are reported from the best to the worst value.", "quantifier": "for every map, domain and window", "why_tests_cant": "The order emerges from a heap over all detected peaks.", "anchors": ["common/include/rofl/common/peak_finder_d.h: PeakFinderD::detect"]}
{"id": "C42", "title": "Parameter file semantics: last assignment wins", "statement": "After reading a stream, each parameter has the second token of the last non-comment line whose first token is its name; comment lines and lines with fewer than two tokens change nothing; parameters not mentioned keep their value.", "quantifier": "for every text without null characters whose lines are shorter than the maximal length and every previous table", "why_tests_cant": "All texts.", "anchors": ["common/src/param_map.cpp: ParamMap::read(std::istream&)"]}
{"id": "C43", "title": "Parameter write/read round trip", "statement": "Writing a table whose names and values are non-empty and free of white spaces (names not starting with '#') and reading it into an empty map restores the table.", "quantifier": "for every such table", "why_tests_cant": "Unbounded tables and strings.", "anchors": ["common/src/param_map.cpp: ParamMap::write", "common/src/param_map.cpp: ParamMap::read(std::istream&)"]}
{"id": "C44", "title": "Command line semantics", "statement": "After read(argc,argv) a parameter has the value following the last occurrence of \"-name\" whose next argument is not an option itself; negative numbers count as values; other parameters are unchanged; no argument beyond argc is read.", "quantifier": "for every argument vector and previous table", "why_tests_cant": "All argument vectors.", "anchors": ["common/src/param_map.cpp: ParamMap::read(int, char**)", "common/src/param_map.cpp: ParamMap::isOption"]}
{"id": "C45", "title": "getParam returns the stored value or stores the default", "statement": "getParam returns true and the converted value when the parameter exists and can be converted, returns false and stores the default otherwise; a parameter set by setParam is returned by the next getParam; other parameters are unaffected.", "quantifier": "for every table, name and value type with faithful textual conversion", "why_tests_cant": "All tables and values.", "anchors": ["common/include/rofl/common/param_map.h: ParamMap::getParam", "common/include/rofl/common/param_map.h: ParamMap::setParam"]}
{"id": "C46", "title": "getParamContainer fills the whole container", "statement": "After getParamContainer the i-th element is the i-th token of the parameter (or of the default string if missing) when it exists and all previous tokens are convertible, the default value otherwise.", "quantifier": "for every token list and container length", "why_tests_cant": "All token lists, including shorter, longer and malformed ones.", "anchors": ["common/include/rofl/common/param_map.h: ParamMap::getParamContainer", "common/include/rofl/common/param_map.h: ParamMap::fillWithTokens"]}
{"id": "C47", "title": "adaptTildeInPaths expands home paths", "statement": "adaptTildeInPaths replaces the leading ~/ of each value by the home directory and leaves any other parameter unchanged.", "quantifier": "for every table and home directory", "why_tests_cant": "The erase-while-iterating hazard depends on tree layout and allocator; tests may pass by luck.", "anchors": ["common/src/param_map.cpp: ParamMap::adaptTildeInPaths"]}
{"id": "C48", "title": "Profiler counts and extremes", "statement": "After any non-empty sequence of measurements of a label, the statistics hold their number, minimum and maximum; other labels are unaffected.", "quantifier": "for every sequence of updates over any labels", "why_tests_cant": "Unbounded histories of interleaved labels.", "anchors": ["common/src/profiler.cpp: Profiler::updateStat", "common/include/rofl/common/profiler.h: Profiler"]}
{"id": "C49", "title": "Profiler mean and variance", "statement": "After any sequence of n measurements of a label the average is their arithmetic mean and getVariance the unbiased sample variance.", "quantifier": "for every sequence of updates (in exact arithmetic)", "why_tests_cant": "An incremental formula can be off for all but special sequences.", "anchors": ["common/src/profiler.cpp: Profiler::updateStat", "common/include/rofl/common/profiler.h: Profiler::getVariance"]}
{"id": "C50", "title": "Fourier evaluation", "statement": "evaluateFourier(c,theta) equals the sum over k of c[2k] cos(k theta) + c[2k+1] sin(k theta).", "quantifier": "for every coefficient vector of at most 2^31 elements and every angle (in exact arithmetic)", "why_tests_cant": "Identity over all reals and all lengths; the code uses an addition-formula recurrence.", "anchors": ["common/src/functions.cpp: evaluateFourier"]}
{"id": "C51", "title": "Angle normalisation", "statement": "normalize360, normalize180 and normalizeAngle2Pi return an angle in the documented range that differs from the argument by an integer number of turns.", "quantifier": "for every real angle", "why_tests_cant": "All reals, boundary cases at multiples of the period.", "anchors": ["common/include/rofl/common/functions.h: normalize360", "common/include/rofl/common/functions.h: normalize180", "geometry/src/base_geometry2.cpp: normalizeAngle2Pi"]}
{"id": "C52", "title": "Range of the cosine over an interval", "statement": "findLUCos(a,b) returns the exact minimum and maximum of the cosine over [a,b].", "quantifier": "for every interval a <= b (in exact arithmetic)", "why_tests_cant": "A bound for all points of all intervals: branch and bound relies on it.", "anchors": ["common/src/functions.cpp: findLUCos"]}
{"id": "C53", "title": "Bounds of a Fourier series over an interval", "statement": "findLUFourier(c,t0,t1) returns bounds of the series it is documented for at every angle of [t0,t1].", "quantifier": "for every coefficient vector of 2 to 2^31 elements, interval and angle (in exact arithmetic)", "why_tests_cant": "Interval arithmetic soundness for all points.", "anchors": ["common/src/functions.cpp: findLUFourier"]}
{"id": "C54", "title": "PNEBI look-up table", "statement": "The look-up table has strictly increasing abscissae, its evaluation at x lies between the two bracketing table values, returns the stored value at the nodes, and any order up to the one it was built for can be evaluated.", "quantifier": "for every order, range and tolerance", "why_tests_cant": "Table size and bracketing depend on real parameters.", "anchors": ["common/src/functions.cpp: PnebiLUT::init", "common/src/functions.cpp: PnebiLUT::eval"]}
{"id": "C55", "title": "Fast trigonometric approximations", "statement": "fastCosSin returns the pair with the sign pattern and symmetries of (cos, sin) and fastAtan2 places its result in the quadrant of the vector.", "quantifier": "for every real argument", "why_tests_cant": "All reals; errors hide at octant boundaries.", "anchors": ["common/src/functions.cpp: fastCosSin", "common/src/functions.cpp: fastAtan2"]}
{"id": "C56", "title": "Scalar TLS consensus returns the best candidate", "statement": "For n >= 1 measures with positive ranges the estimate is the weighted mean of the measures whose intervals overlap at some endpoint, its cost is minimal among all the endpoint candidates, and a measure is flagged inlier iff it is closer to the estimate than its range.", "quantifier": "for every 1 to 2^31-1 values with positive ranges, and every tie order of the sort (in exact arithmetic)", "why_tests_cant": "Sweep invariants for all overlap patterns and tie orders.", "anchors": ["common/include/rofl/common/tls_scalar_consensus.h: estimateTranslationTls"]}
{"id": "C57", "title": "Nearest point on a box surface", "statement": "The point associated by BoxRegistration to a query (in the box frame) lies on the surface of the box and no other point of the surface is closer.", "quantifier": "for every box, query point and dimension (in exact arithmetic)", "why_tests_cant": "Optimality over a continuum.", "anchors": ["geometry/include/rofl/geometry/box_registration.h: BoxRegistration::associate"]}
{"id": "C58", "title": "GIS local conversions are inverse", "statement": "Converting latitude/longitude to local coordinates and back returns the same latitude and longitude for every origin.", "quantifier": "for every origin and point (in exact arithmetic)", "why_tests_cant": "Fails only at origins where the scale vanishes.", "anchors": ["geometry/src/gis.cpp: convertLatLonToLocalXY", "geometry/src/gis.cpp: convertLocalXYToLatLon"]}
{"id": "C59", "title": "Orientation and angle interval predicates", "statement": "ccw is antisymmetric and invariant to rigid motions and positive exactly for counter-clockwise triples; insideAngleInterval holds iff the angle is met going counter-clockwise from the first to the second limit.", "quantifier": "for every points and angles (in exact arithmetic)", "why_tests_cant": "Universal geometric laws over the reals.", "anchors": ["geometry/src/base_geometry2.cpp: ccw", "geometry/src/base_geometry2.cpp: insideAngleInterval", "geometry/src/base_geometry2.cpp: insideAngleIntervalEq"]}
{"id": "C60", "title": "Hough plane votes", "statement": "After insert, the transform cell (theta,phi,rho) counts exactly the points whose projected distance falls in the rho bin and the spectrum cell is the sum of the squared counts along rho; insert never crashes on a valid configuration.", "quantifier": "for every configuration and set of points", "why_tests_cant": "Counting over all point sets, truncation at bin edges, division by configuration-derived values.", "anchors": ["geometry/src/hough_plane_detector.cpp: HoughPlaneDetector::insert"]}
{"id": "C61", "title": "Hough plane parameters", "statement": "The plane parameters of a cell do not depend on which getPlaneParam overload is used and the vote of a point lying on the plane of a cell centre goes to this cell.", "quantifier": "for every configuration and cell", "why_tests_cant": "Agreement of two formulas over all configurations.", "anchors": ["geometry/include/rofl/geometry/hough_plane_detector.h: HoughPlaneDetector::getPlaneParam"]}
{"id": "C62", "title": "Hough line votes", "statement": "After insert(points) of the line detector each (theta, rho) cell counts the points whose projection falls in the bin.", "quantifier": "for every non-empty point set", "why_tests_cant": "Counting over all point sets.", "anchors": ["geometry/src/hough_line_detector.cpp: HoughLineDetector::insert"]}
{"id": "C63", "title": "Correspondence graph edges", "statement": "Two correspondences are adjacent iff they use different source and destination points and the source distance exceeds the minimum and differs from the destination distance less than the tolerance; the adjacency is symmetric and irreflexive.", "quantifier": "for every point sets and distances", "why_tests_cant": "Index arithmetic over all pairs of pairs.", "anchors": ["geometry/src/correspondence_graph_association.cpp: CorrespondenceGraphAssociation::associate"]}
{"id": "C64", "title": "Correspondence association returns maximal consistent sets", "statement": "associate returns sets of pairwise consistent correspondences that cannot be extended, without undefined behaviour.", "quantifier": "for every non-empty input", "why_tests_cant": "Set mutation during iteration is allocator dependent.", "anchors": ["geometry/src/correspondence_graph_association.cpp: CorrespondenceGraphAssociation::associate", "geometry/src/correspondence_graph_association.cpp: executeBronKerbosch"]}
{"id": "C65", "title": "Plane aligner frame", "statement": "The transformation computed by the plane aligner is a rigid motion whose z axis is the plane normal and which maps the inliers of the plane to height zero around the origin.", "quantifier": "for every plane and inlier set (in exact arithmetic)", "why_tests_cant": "Orthonormality for every normal direction.", "anchors": ["pcl/include/rofl/pcl/point_cloud_plane_aligner.h: PointCloudPlaneAligner::compute", "pcl/include/rofl/pcl/point_cloud_plane_aligner.h: PointCloudPlaneAligner::setPlaneCoeffs"]}
{"id": "C66", "title": "Directory listing is sorted and complete", "statement": "getDirectoryFiles leaves in the output the previous entries and one entry for each regular file of the directory and nothing else, sorted.", "quantifier": "for every directory content and previous vector content", "why_tests_cant": "Directory order is unspecified and unbounded.", "anchors": ["common/src/io.cpp: getDirectoryFiles"]}
{"id": "C67", "title": "Re-initialising a grid does not mix cells", "statement": "After a grid is initialised again with other bounds, either every cell has the default value or every cell inside both domains keeps its value.", "quantifier": "for every grid content and every pair of bounds", "why_tests_cant": "Depends on the relation between two arbitrary bounds.", "anchors": ["common/include/rofl/common/grid.h: Grid::initBounds", "common/include/rofl/common/grid.h: Grid::initCenter", "common/include/rofl/common/grid.h: Grid::initMinMax"]}
{"id": "C68", "title": "Commented parameters are ignored when read", "statement": "What write(out, linePrefix) writes with a prefix that starts with '#' changes no parameter when it is read.", "quantifier": "for every table free of newlines, every such prefix free of newlines and every previous table", "why_tests_cant": "All tables and prefixes, including lines beyond the maximal length.", "anchors": ["common/src/param_map.cpp: ParamMap::write", "common/src/param_map.cpp: ParamMap::read(std::istream&)"]}
{"id": "C69", "title": "getParamContainerInserter passes the convertible tokens", "statement": "getParamContainerInserter assigns to the inserter the values of the tokens of the parameter, in order, up to the first token that cannot be converted; a missing parameter is set to the empty string, nothing is assigned and the result is false.", "quantifier": "for every table, name, delimiters and value type", "why_tests_cant": "All token lists, including malformed ones.", "anchors": ["common/include/rofl/common/param_map.h: ParamMap::getParamContainerInserter"]}
{"id": "C70", "title": "Float power-of-two interval", "statement": "intervalPow2Float returns bounds that enclose both numbers and a mid value that separates them; for numbers of the same sign the interval is the smallest dyadic interval containing both and its level is the exponent of its size.", "quantifier": "for every pair of finite floats", "why_tests_cant": "Pairs of 32-bit patterns; failures live at equal numbers, subnormals and sign changes.", "anchors": ["common/include/rofl/common/morton_sort.h: intervalPow2Float"]}
{"id": "C71", "title": "Float Morton distance", "statement": "mortonDistanceFloat returns the largest exponent at which the exact values of some coordinate of the two vectors fall in different dyadic cells.", "quantifier": "for every pair of vectors of finite floats and every dimension", "why_tests_cant": "Vectors of 32-bit patterns of any dimension.", "anchors": ["common/include/rofl/common/morton_sort.h: mortonDistanceFloat", "common/include/rofl/common/morton_sort.h: xorFloat"]}
{"id": "C72", "title": "Float Morton split", "statement": "mortonSplitFloat of two vectors in Morton order returns a vector mid that follows the first and does not follow the second vector in Morton order, and bounds low and upp that enclose both.", "quantifier": "for every pair of different vectors of finite floats in Morton order and every dimension", "why_tests_cant": "Vectors of 32-bit patterns of any dimension.", "anchors": ["common/include/rofl/common/morton_sort.h: mortonSplitFloat", "common/include/rofl/common/morton_sort.h: intervalPow2Float"]}
{"id": "C73", "title": "PNEBI vector recurrence", "statement": "evaluatePnebiVector(n,x) makes at least n+1 values available; below 1e-6 they are 2, 0, 0, ...; otherwise the first is the order 0 polynomial at |x|, consecutive values satisfy the recurrence f(k-1) - f(k+1) = (2k/|x|) f(k) of the modified Bessel functions, and all are positive.", "quantifier": "for every order n and every x (in exact arithmetic)", "why_tests_cant": "Downward recurrence with rescaling over all orders and arguments.", "anchors": ["common/src/functions.cpp: evaluatePnebiVector", "common/src/functions.cpp: evaluatePnebi0Polynom"]}
{"id": "C74", "title": "Accuracy of the fast trigonometric functions", "statement": "fastCosSin differs from (cos, sin) by less than 0.0012 in each component and fastAtan2(x,y) differs from the angle of the vector (x,y) by less than 2e-5.", "quantifier": "for every real argument and every non-zero vector (in exact arithmetic)", "why_tests_cant": "A uniform error bound over all reals; a test samples finitely many points.", "anchors": ["common/src/functions.cpp: fastCosSin", "common/src/functions.cpp: fastAtan", "common/src/functions.cpp: fastAtan2"]}
{"id": "C75", "title": "VectorArray in-place operators", "statement": "a += b, a *= b and a *= s replace each component of a by its sum with the component of b, its product with the component of b, its product with the value of s on entry, also when the argument is a itself or one of its components.", "quantifier": "for every dimension, arrays and scalars, including aliased arguments", "why_tests_cant": "Aliasing only shows with particular argument expressions.", "anchors": ["common/include/rofl/common/vector_array.h: VectorArray::operator+=", "common/include/rofl/common/vector_array.h: VectorArray::operator*="]}
{"id": "C76", "title": "Pose to isometry", "statement": "poseToIsometry2 of (x, y, theta) maps every point to its rotation by theta followed by the translation by (x, y): distances and orientation are preserved and the origin goes to (x, y).", "quantifier": "for every pose and point (in exact arithmetic)", "why_tests_cant": "A law over all poses and points; the order of the two transformations only shows when both are non-trivial.", "anchors": ["geometry/src/base_geometry2.cpp: poseToIsometry2"]}
{"id": "C77", "title": "Local coordinates do not depend on the meridian", "statement": "Adding the same longitude to the origin and to the point does not change the local coordinates of convertLatLonToLocalXY (the Earth model is symmetric about its axis).", "quantifier": "for every origin, point and longitude offset (in exact arithmetic)", "why_tests_cant": "A symmetry over a continuum; a test near one reference site does not see it.", "anchors": ["geometry/src/gis.cpp: convertLatLonToLocalXY", "geometry/src/gis.cpp: meterPerDegLon", "geometry/src/gis.cpp: meterPerDegLat"]}
{"id": "C78", "title": "ECEF coordinates lie on the ellipsoid", "statement": "convertLatLonAltToECEF maps the points of altitude zero to the WGS84 ellipsoid (equation satisfied up to 3e-8), altitude is measured along the normal of the ellipsoid, longitude is the angle about the polar axis, and the ellipsoid constants agree with each other.", "quantifier": "for every latitude, longitude and altitude (in exact arithmetic with the constants as stored)", "why_tests_cant": "An identity over a continuum of positions.", "anchors": ["geometry/src/gis.cpp: convertLatLonAltToECEF", "geometry/include/rofl/geometry/gis.h: ROFL_WGS84_ECCENTRICITY"]}
{"id": "C79", "title": "Box registration step is a rigid motion", "statement": "computeTransform replaces the transformation by a rotation and a translation that maps the centroid of the associated box points to the centroid of the cloud.", "quantifier": "for every dimension from 2, non-empty cloud, box and previous transformation, and every correct singular value decomposition (in exact arithmetic)", "why_tests_cant": "All clouds and all valid decompositions, including those that give a reflection.", "anchors": ["geometry/include/rofl/geometry/box_registration.h: BoxRegistration::computeTransform"]}
{"id": "C80", "title": "Box registration step is optimal", "statement": "computeTransform returns the rigid motion with the least sum of squared distances between the cloud and the moved associated box points, so the distance between the cloud and the surface of the box does not increase.", "quantifier": "for every non-empty cloud, box and previous rigid motion in dimension 2 and 3, and every correct singular value decomposition (in exact arithmetic)", "why_tests_cant": "Optimality over all rotations and translations; fails only for clouds that need a reflection to be corrected.", "anchors": ["geometry/include/rofl/geometry/box_registration.h: BoxRegistration::computeTransform", "geometry/include/rofl/geometry/box_registration.h: BoxRegistration::associate"]}
{"id": "C81", "title": "Initial box alignment", "statement": "estimateInitTranform returns the centroid of the cloud and a rotation whose axes are principal directions of the cloud, larger box sizes along directions of larger variance.", "quantifier": "for every cloud of at least two points, box and correct eigenvalue decomposition (in exact arithmetic)", "why_tests_cant": "All clouds and sizes; the orientation depends on the order of the sizes.", "anchors": ["geometry/include/rofl/geometry/box_registration.h: BoxRegistration::estimateInitTranform", "geometry/include/rofl/geometry/box_registration.h: BoxRegistration::setDimension"]}
{"id": "C82", "title": "Hough planes found", "statement": "findPlanes keeps the hypotheses it is given, adds distinct cells of the grid that are peaks of the spectrum and of the transform along rho, and sorts everything by decreasing counter; the plane parameters are those of these cells; findNormalMax and findParallelPlanes return in the same way; windows given in parameter units are the smallest number of cells that covers them.", "quantifier": "for every content of the transform, all sizes and windows", "why_tests_cant": "The order and membership over all transforms cannot be enumerated; the cells never reported (first rho, first normal) are systematic.", "anchors": ["geometry/src/hough_plane_detector.cpp: HoughPlaneDetector::findPlanes", "geometry/src/hough_plane_detector.cpp: HoughPlaneDetector::findParallelPlanes", "geometry/src/hough_plane_detector.cpp: HoughPlaneDetector::findNormalMax", "geometry/src/hough_plane_detector.cpp: HoughPlaneDetector::setPeakWindow"]}
{"id": "C83", "title": "Hough lines found", "statement": "findLines keeps the lines it is given and appends, for the angles that are peaks of the spectrum in decreasing order, the distances that are peaks of the transform in decreasing order; the indices, angles and normals of the spectrum peaks correspond to each other.", "quantifier": "for every content of the transform and spectrum, all sizes and windows", "why_tests_cant": "Order and membership over all contents cannot be enumerated.", "anchors": ["geometry/src/hough_line_detector.cpp: HoughLineDetector::findLines", "geometry/src/hough_line_detector.cpp: HoughLineDetector::findSpectrumIndexMax", "geometry/src/hough_line_detector.cpp: HoughLineDetector::findSpectrumAngleMax", "geometry/src/hough_line_detector.cpp: HoughLineDetector::findNormalMax"]}
{"id": "C84", "title": "Stamped strings sort chronologically", "statement": "For a fixed prefix and suffix, generateStampedString gives strings of the same length whose lexicographic order is the order of the local times, equal only for times that agree to the second.", "quantifier": "for every pair of valid local times with a four digit year", "why_tests_cant": "Needs all the pairs of times.", "anchors": ["common/src/io.cpp: generateStampedString"]}
{"id": "C85", "title": "Arc tangent in double arithmetic", "statement": "fastAtan is within 2e-5, up to the rounding error, of the arc tangent, rounding adds less than 2^-50 to the error of the polynomial, and the function is exactly odd.", "quantifier": "for every double in [-1, 1] (oddness: for every double, infinities and NaN included), with IEEE-754 rounding of every operation", "why_tests_cant": "2^63 inputs; error bound over all of them.", "anchors": ["common/src/functions.cpp: fastAtan"]}
{"id": "C86", "title": "Four quadrant arc tangent in double arithmetic", "statement": "fastAtan2(x, y) is within 2e-5, up to the rounding error, of the angle of the vector, never exceeds M_PI, has the sign of y, tells the half-planes apart, is mirror symmetric bit by bit, and is a number whenever x and y are.", "quantifier": "for every pair of doubles, with IEEE-754 rounding of every operation", "why_tests_cant": "Pairs of doubles with all exponents, quotients that underflow, signed zeros and infinities.", "anchors": ["common/src/functions.cpp: fastAtan2"]}
{"id": "C87", "title": "Cosine and sine in double arithmetic", "statement": "fastCosSin is within 0.0012, up to the rounding error, of the cosine and the sine.", "quantifier": "for every finite double, with IEEE-754 rounding of every operation", "why_tests_cant": "The error grows with the argument and the periodic reduction; all doubles cannot be tried.", "anchors": ["common/src/functions.cpp: fastCosSin"]}
{"id": "C88", "title": "Angle normalisation in double arithmetic", "statement": "normalize360 and normalize180 return an angle in [0, 2 pi[ and [0, pi[ that differs from the argument by a multiple of the turn, and return an angle of the interval as it is.", "quantifier": "for every finite double, with IEEE-754 rounding of every operation", "why_tests_cant": "The failures are isolated doubles next to the multiples of the turn.", "anchors": ["common/src/functions.cpp: normalize360", "common/src/functions.cpp: normalize180"]}
{"id": "C89", "title": "Arc tangents in float arithmetic", "statement": "fastAtanf and fastAtan2f are within 2.1e-5 of the angle, fastAtanf is exactly odd, and the result of fastAtan2f is in [-M_PI, M_PI].", "quantifier": "for every pair of floats, with IEEE-754 rounding of every operation and the conversions between float and double", "why_tests_cant": "Pairs of floats: 2^64 inputs.", "anchors": ["common/src/functions.cpp: fastAtanf", "common/src/functions.cpp: fastAtan2f"]}
{"id": "C90", "title": "Cosine and sine in float arithmetic", "statement": "fastCosSinf is within 0.0012, up to the rounding error, of the cosine and the sine.", "quantifier": "for every finite float, with IEEE-754 rounding of every operation and the conversions between float and double, for each overload of floor", "why_tests_cant": "Error bound over all floats and both overloads.", "anchors": ["common/src/functions.cpp: fastCosSinf"]}
{"id": "C91", "title": "Orientation predicates in float arithmetic", "statement": "The sign of ccw is the orientation of the three stored points, exchanging two points changes the sign, and the cone test tells the points of the cone.", "quantifier": "for every triple of points with float coordinates up to 2^61, with IEEE-754 rounding of every operation", "why_tests_cant": "The wrong answers are at nearly collinear points, among 2^192 triples.", "anchors": ["geometry/src/base_geometry2.cpp: ccw", "geometry/src/base_geometry2.cpp: insideAngleInterval"]}
{"id": "C92", "title": "Angle intervals in float arithmetic", "statement": "normalizeAngle2Pi returns the angle up to turns in [0, 2 pi[, and insideAngleInterval and insideAngleIntervalEq tell whether the angle is in the interval.", "quantifier": "for every finite float, with IEEE-754 rounding of every operation and for each overload of floor", "why_tests_cant": "The failures are isolated floats next to the multiples of the turn.", "anchors": ["geometry/src/base_geometry2.cpp: normalizeAngle2Pi", "geometry/src/base_geometry2.cpp: insideAngleInterval", "geometry/src/base_geometry2.cpp: insideAngleIntervalEq"]}
{"id": "C93", "title": "Printed look-up table", "statement": "printLUT prints n rows of different entries of the table, each with its index, abscissa and values up to order k.", "quantifier": "for every table of fewer than 2^30 entries, every n from 1 to its size and every k", "why_tests_cant": "The number of rows depends on the quotient of the sizes.", "anchors": ["common/src/functions.cpp: PnebiLUT::printLUT"]}
{"id": "C94", "title": "Texts determine the indices, intervals and labels", "statement": "outIdx, IntervalIndices::print and LabelSet::print are defined and write different texts for different arrays of the same dimension, intervals and label sets.", "quantifier": "for every array, interval and label set, of any dimension", "why_tests_cant": "Injectivity over all pairs.", "anchors": ["common/include/rofl/common/interval_indices.h: outIdx", "common/include/rofl/common/interval_indices.h: IntervalIndices::print", "common/src/label_set.cpp: LabelSet::print"]}
{"id": "C95", "title": "Text of a heap", "statement": "print writes a line for each level of the tree, in order, with the elements of the level and their indices.", "quantifier": "for every heap size and element type", "why_tests_cant": "All sizes.", "anchors": ["common/include/rofl/common/min_max_heap.h: MinMaxHeap::print"]}
{"id": "C96", "title": "Scoped timers", "statement": "A timer at the start of a block, declared or made with the macro ROFL_COMMON_PROFILER_SCOPED_TIMER_HERE, records once, at the end of the block, the time of the block; nested timers record no more than the enclosing ones, and each label has as many measurements as timers.", "quantifier": "for every nesting of blocks and timers and every clock", "why_tests_cant": "All programs and clocks; the error of the macro depends on the time of the rest of the block.", "anchors": ["common/src/profiler.cpp: ScopedTimer::ScopedTimer", "common/src/profiler.cpp: ScopedTimer::~ScopedTimer", "common/src/profiler.cpp: ScopedTimer::elapsedTimeMs", "common/include/rofl/common/profiler.h: ROFL_COMMON_PROFILER_SCOPED_TIMER_HERE"]}
{"id": "C97", "title": "Report of the profiler", "statement": "printStats writes one line for each measured label, in increasing order of the labels, with the number, the minimum and the maximum of its measurements.", "quantifier": "for every history of measurements over any labels", "why_tests_cant": "All histories.", "anchors": ["common/src/profiler.cpp: Profiler::printStats"]}
{"id": "C98", "title": "Output macros", "statement": "ROFL_VAR1 to ROFL_VAR7 write the position and each expression followed by its own value.", "quantifier": "for every position, expressions and values", "why_tests_cant": "All values; the wrong macro agrees when the last two are equal.", "anchors": ["common/include/rofl/common/macros.h: ROFL_VAR1", "common/include/rofl/common/macros.h: ROFL_VAR2", "common/include/rofl/common/macros.h: ROFL_VAR3", "common/include/rofl/common/macros.h: ROFL_VAR4", "common/include/rofl/common/macros.h: ROFL_VAR5", "common/include/rofl/common/macros.h: ROFL_VAR6", "common/include/rofl/common/macros.h: ROFL_VAR7"]}
{"id": "C99", "title": "Construction of Morton tree items", "statement": "Item(values, id) has the given coordinates and identifier, each coordinate being initialised.", "quantifier": "for every dimension, list of values and identifier", "why_tests_cant": "Writes after the array and indeterminate values need not be visible in a run.", "anchors": ["common/include/rofl/common/morton_tree.h: MortonTree::Item"]}
{"id": "C100", "title": "Box search around a centre", "statement": "The box that searchInBox(boxCenter, boxRange) searches contains exactly the points whose coordinates are within the range of those of the centre.", "quantifier": "for every integer coordinate type, dimension, centre and range", "why_tests_cant": "The corners overflow or wrap only near the limits of the type.", "anchors": ["common/include/rofl/common/morton_tree.h: MortonTree::searchInBox"]}
{"id": "C101", "title": "Text of Morton tree items", "statement": "Item::print writes the coordinates between brackets separated by commas and then the identifier; the text of an item, position or interval determines the items.", "quantifier": "for all items with int coordinates of any dimension and all positions", "why_tests_cant": "Injectivity over all pairs.", "anchors": ["common/include/rofl/common/morton_tree.h: MortonTree::Item::print", "common/include/rofl/common/morton_tree.h: MortonTree::printIt", "common/include/rofl/common/morton_tree.h: MortonTree::printInter"]}
{"id": "C102", "title": "Assertion macros", "statement": "ROFL_ASSERT and ROFL_ASSERT_VAR1 to 5 do nothing when the condition holds; otherwise they write the position and the condition to the error output, the expressions with their values to the output, and end the program with an error status; they are a single statement, also before an else.", "quantifier": "for every position, condition and expressions", "why_tests_cant": "The wrong pairing of an else depends on the values of both conditions.", "anchors": ["common/include/rofl/common/macros.h: ROFL_ASSERT", "common/include/rofl/common/macros.h: ROFL_ASSERT_VAR1", "common/include/rofl/common/macros.h: ROFL_ASSERT_VAR2", "common/include/rofl/common/macros.h: ROFL_ASSERT_VAR3", "common/include/rofl/common/macros.h: ROFL_ASSERT_VAR4", "common/include/rofl/common/macros.h: ROFL_ASSERT_VAR5"]}
{"id": "C103", "title": "Parameter files", "statement": "When write(filename) returns true, read(filename) into an empty map gives the same table; when it returns false, the file is not changed.", "quantifier": "for every table of words with lines shorter than 2000 characters, every file and file system", "why_tests_cant": "All tables and all failures of the file system.", "anchors": ["common/src/param_map.cpp: ParamMap::write", "common/src/param_map.cpp: ParamMap::read"]}
{"id": "C104", "title": "Range of the Hough detectors", "statement": "A HoughLineDetector made with sizes has a cell for each line up to the distance rhoNum rhoRes from the origin, a HoughPlaneDetector for each plane up to the distance (rhoNum / 2) rhoRes.", "quantifier": "for all sizes, resolutions, lines and planes (exact arithmetic)", "why_tests_cant": "Continuum of lines and planes.", "anchors": ["geometry/src/hough_line_detector.cpp: HoughLineDetector::HoughLineDetector", "geometry/src/hough_line_detector.cpp: HoughLineDetector::init", "geometry/src/hough_plane_detector.cpp: HoughPlaneDetector::HoughPlaneDetector", "geometry/src/hough_plane_detector.cpp: HoughPlaneDetector::init"]}
{"id": "C105", "title": "Profiler statistics in double arithmetic", "statement": "The average of the profiler is between the least and the greatest measurement of the label, and the sum of the squared differences is not negative.", "quantifier": "for every history of finite doubles over any labels, with IEEE-754 rounding of every operation", "why_tests_cant": "All histories and all doubles; the failures need measurements of very different sizes.", "anchors": ["common/src/profiler.cpp: Profiler::updateStat"]}
{"id": "C106", "title": "Range of the cosine in double arithmetic", "statement": "findLUCos returns the least and the greatest value of the cosine between the arguments, in either order, up to a small multiple of the rounding error and the error of cos.", "quantifier": "for every pair of finite doubles, with IEEE-754 rounding of every operation, and every cos of a given accuracy", "why_tests_cant": "Pairs of doubles; the delicate cases are reduced arguments that are equal after rounding, half a turn, and intervals just shorter than a turn.", "anchors": ["common/src/functions.cpp: findLUCos"]}
{"id": "C107", "title": "Truncated least squares in floating point", "statement": "estimateTranslationTls returns a finite value between the first and the last point of the intervals of the measures: the weighted mean of the measures whose intervals contain a point, with minimal cost.", "quantifier": "for every number of finite measures with positive finite ranges, in float and double, with IEEE-754 rounding of every operation and every order of equal endpoints", "why_tests_cant": "The failures depend on the rounding errors left in the accumulators after the last endpoint.", "anchors": ["common/include/rofl/common/tls_scalar_consensus.h: estimateTranslationTls"]}
{"id": "C108", "title": "Fourier series in double arithmetic", "statement": "evaluateFourier returns a value near the sum of c[2k] cos(k theta) + c[2k+1] sin(k theta): the error is at most n (2^(p+q+2) (2 d + 2^-48) + 2^(p+q-48)), for n pairs of coefficients up to 2^p, n at most 2^q, and the error d of cos and sin.", "quantifier": "for every number of pairs up to 2^30, all finite coefficients up to 2^900, every theta, every cos and sin of a given accuracy such that 2^(q+1) (2 d + 2^-48) <= 1, with IEEE-754 rounding of every operation", "why_tests_cant": "The errors of the rotations accumulate over the terms; all coefficients and lengths.", "anchors": ["common/src/functions.cpp: evaluateFourier"]}
{"id": "C109", "title": "Bounds of a Fourier series in double arithmetic", "statement": "The results of findLUFourier bound the sum of c[2k] cos(2k theta) + c[2k+1] sin(2k theta) between the angles, in either order, and are the sums of the least and of the greatest values of the terms, up to rounding errors.", "quantifier": "for every number of finite coefficients, all finite angles and every cos and atan2 of a given accuracy, with IEEE-754 rounding of every operation", "why_tests_cant": "Continuum of angles, all coefficients; a bound that is too small by a rounding error is seen only at the angle of the maximum.", "anchors": ["common/src/functions.cpp: findLUFourier"]}
{"id": "C110", "title": "Votes of the plane detector in float arithmetic", "statement": "insert is defined and increases the counter of each cell by the number of points whose projections on the normal are in the bin of the cell, up to rounding at the ends of the bins; the points counted in a cell are within a resolution of the plane reported for it.", "quantifier": "for all sizes and normals, all lists of points, least rho and resolutions in float, with IEEE-754 rounding of every operation", "why_tests_cant": "The failures are points within rounding errors of the ends of bins, far points and NaN.", "anchors": ["geometry/src/hough_plane_detector.cpp: HoughPlaneDetector::insert", "geometry/src/hough_plane_detector.cpp: HoughPlaneDetector::getPlaneParam"]}
{"id": "C111", "title": "Accuracy of the order 0 PNEBI polynomial", "statement": "evaluatePnebi0Polynom(x) is 2 exp(-|x|) I_0(|x|), with the modified Bessel function I_0 defined by its power series, up to a relative error of 5e-7.", "quantifier": "for every real x (exact arithmetic)", "why_tests_cant": "Continuum of arguments up to infinity; a wrong digit of one of the fifteen coefficients is invisible without the exact Bessel function.", "anchors": ["common/src/functions.cpp: evaluatePnebi0Polynom"]}
{"id": "C112", "title": "Accuracy of the PNEBI vector", "statement": "The k-th value of evaluatePnebiVector(n, x) is 2 exp(-|x|) I_k(|x|), with the modified Bessel functions I_k defined by their power series, up to an absolute error of 2e-6.", "quantifier": "for every n, every order k from 0 to n and every real x (exact arithmetic)", "why_tests_cant": "All orders and a continuum of arguments; the error of the back recursion grows with x for a fixed n.", "anchors": ["common/src/functions.cpp: evaluatePnebiVector"]}
{"id": "C113", "title": "Accuracy of the PNEBI look-up table", "statement": "A PnebiLUT made with the order n and the tolerance tol is defined and evaluates 2 exp(-|x|) I_k(|x|) up to 1.02 tol + 2e-6.", "quantifier": "for every n, every tolerance from which the size of the table is an int, every order k from 0 to n - 1 and every real x (exact arithmetic)", "why_tests_cant": "Continuum of arguments and tolerances; the points of the table depend on all the preceding ones.", "anchors": ["common/src/functions.cpp: PnebiLUT::init", "common/src/functions.cpp: PnebiLUT::eval"]}
{"id": "C114", "title": "Order 0 PNEBI polynomial in double arithmetic", "statement": "evaluatePnebi0Polynom(x) is finite and is 2 exp(-|x|) I_0(|x|) up to a relative error of 5e-7 plus 1.1 times the relative error of exp.", "quantifier": "for every finite double x and every exp of a given accuracy on [-4, 0], with IEEE-754 rounding of every operation", "why_tests_cant": "All doubles, also the subnormal and the greatest ones; cancellation between the terms of alternating signs.", "anchors": ["common/src/functions.cpp: evaluatePnebi0Polynom"]}
{"id": "C115", "title": "PNEBI vector in double arithmetic", "statement": "evaluatePnebiVector(n, x) is defined, and the k-th value is finite and is 2 exp(-|x|) I_k(|x|) up to 2e-6 plus three times the relative error of exp.", "quantifier": "for every n below 2^31 - 1, every order k from 0 to n, every finite double x and every exp of a given accuracy on [-4, 0], with IEEE-754 rounding of every operation", "why_tests_cant": "The sizes of the values of the recursion change over thousands of steps; overflow and underflow depend on both arguments.", "anchors": ["common/src/functions.cpp: evaluatePnebiVector"]}
{"id": "C116", "title": "Round trip of the local coordinates in float arithmetic", "statement": "convertLocalXYToLatLon applied to the results of convertLatLonToLocalXY returns the latitude and the longitude up to 2^-22 of their distance from the origin and 2^-24 of their size.", "quantifier": "for all finite floats up to 180 degrees, every cos and sin with relative errors up to 2^-40 (double) and 2^-23 (float) and both overloads of cos, with IEEE-754 rounding of every operation", "why_tests_cant": "All floats, in particular the origins near the longitudes of 90 degrees, where the scale is nearly zero.", "anchors": ["geometry/src/gis.cpp: convertLatLonToLocalXY", "geometry/src/gis.cpp: convertLocalXYToLatLon", "geometry/src/gis.cpp: meterPerDegLon", "geometry/src/gis.cpp: meterPerDegLat"]}
{"id": "C117", "title": "Local coordinates in float arithmetic", "statement": "meterPerDegLat and meterPerDegLon are the sums of cosines of the exact angle up to 0.0041 and 0.0306 m, and the local coordinates are the exact ones up to 18 and 45 mm per degree from the origin.", "quantifier": "for all finite floats up to 180 degrees, every cos with relative errors up to 2^-40 (double) and 2^-23 (float) and both overloads, with IEEE-754 rounding of every operation", "why_tests_cant": "All floats; the angle is rounded to float before the cosines in double.", "anchors": ["geometry/src/gis.cpp: convertLatLonToLocalXY", "geometry/src/gis.cpp: meterPerDegLon", "geometry/src/gis.cpp: meterPerDegLat"]}
{"id": "C118", "title": "ECEF coordinates in float arithmetic", "statement": "convertLatLonAltToECEF returns the exact coordinates up to 5 m, and altitudes that differ by 10 cm or more have different coordinates.", "quantifier": "for all finite latitudes and longitudes up to 180 degrees and altitudes up to 1000 km in float, every cos and sin with relative errors up to 2^-40 (double) and 2^-23 (float) and both overloads, with IEEE-754 rounding of every operation", "why_tests_cant": "All floats; a few metres are lost at places that depend on the rounding of the angles.", "anchors": ["geometry/src/gis.cpp: convertLatLonAltToECEF"]}
{"id": "C119", "title": "Plane detector from sizes in float arithmetic", "statement": "init with sizes clears the counters and stores normals within 2^-19 of the exact directions of the cells, of unit length up to 2^-16; after insert, the counter of each cell is the number of points whose exact projections on the exact direction are in the exact bin (the first takes also the bin before it), up to points within 2^(k-17) of its ends; the reported parameters are the exact ones up to 2^-19 and 2^(k-19).", "quantifier": "for all sizes of a usable detector, every resolution and every list of points in float with coordinates up to 2^k in the range of the detector, every cos and sin with values in [-1, 1] and relative errors up to 2^-40 (double) and 2^-23 (float), both overloads, with IEEE-754 rounding of every operation", "why_tests_cant": "All sizes up to 2^31 cells: the resolution is rounded to float and multiplied by indices that are not floats.", "anchors": ["geometry/src/hough_plane_detector.cpp: HoughPlaneDetector::init", "geometry/src/hough_plane_detector.cpp: HoughPlaneDetector::insert", "geometry/src/hough_plane_detector.cpp: HoughPlaneDetector::getPlaneParam"]}
{"id": "C120", "title": "PNEBI look-up table in double arithmetic", "statement": "A PnebiLUT made with the order n and the tolerance tol is defined, its points are finite and increase from 0, and it evaluates 2 exp(-|x|) I_k(|x|) up to 1.03 tol + 3e-6; both overloads of eval return the same values.", "quantifier": "for every n from 1 to 290, every double tolerance from 1e-9 to 0.5, every order k from 0 to n - 1, every finite double x and every exp with relative error up to 1e-12 on [-4, 0], with IEEE-754 rounding of every operation", "why_tests_cant": "The points depend on all the preceding ones and reach 1e300; up to two billion points; a single point that does not increase makes the search undefined.", "anchors": ["common/src/functions.cpp: PnebiLUT::init", "common/src/functions.cpp: PnebiLUT::eval"]}
{"id": "C121", "title": "Peak windows from sizes in float arithmetic", "statement": "setPeakWindow with sizes in the units of the detector stores, for each coordinate, the least number of cells that covers the size: (i - 1) res < win <= i res.", "quantifier": "for every plane detector and every line detector, every finite size and positive resolution in float with at most 2^24 cells, with IEEE-754 rounding of the division", "why_tests_cant": "All pairs of floats: the result changes by one cell when the rounded quotient reaches an integer.", "anchors": ["geometry/src/hough_plane_detector.cpp: HoughPlaneDetector::setPeakWindow", "geometry/src/hough_line_detector.cpp: HoughLineDetector::setPeakWindow"]}
{"id": "C122", "title": "Correspondence graph in float arithmetic", "statement": "After the insertion of the items and the construction, the nodes of two correspondences are linked exactly when the distances of their source items and of their destination items are greater than the least distance and differ by less than the tolerance.", "quantifier": "for all numbers of items, all finite float distances, tolerances and least distances such that the limits do not overflow, every sort that orders by distance, with IEEE-754 rounding of the limits", "why_tests_cant": "The links change when the rounded limits reach another distance: all floats and all sets of items.", "anchors": ["geometry/src/correspondence_graph_association.cpp: CorrespondenceGraphAssociation::associate"]}
{"id": "C123", "title": "Nearest point of a box in floating point arithmetic", "statement": "associate returns a point of the surface of the box that is the nearest one to the query.", "quantifier": "for every dimension, all sizes that are zero or at least 2^-125 (float) or 2^-1021 (double) and queries of size at most 2^127 or 2^1023, in float and double, with IEEE-754 rounding of every operation", "why_tests_cant": "Continuum of points; a face at nearly the same distance is chosen when the differences are rounded.", "anchors": ["geometry/include/rofl/geometry/box_registration.h: BoxRegistration::associate"]}
{"id": "C124", "title": "Iterators move in both directions", "statement": "Visiting an interval from end to begin with --it gives the cells of the forward visit in the reverse order, and with *it++ the same cells; ++ and -- are inverse of each other, and the postfix operators return the iterator before the move.", "quantifier": "for every dimension and every proper box with at most INT_MAX cells, for the raster and the boustrophedon iterators", "why_tests_cant": "All boxes and positions.", "anchors": ["common/include/rofl/common/interval_indices.h: IntervalIterator::operator--", "common/include/rofl/common/interval_indices.h: IntervalIterator::operator++"]}
{"id": "C125", "title": "Division by powers of two", "statement": "FloatTraits<F>::dividePow2(x, n) is x / 2^n.", "quantifier": "for every normal float and double and every n from -64 to 64", "why_tests_cant": "All bit patterns.", "anchors": ["common/include/rofl/common/numeric_traits.h: FloatTraits::dividePow2"]}
{"id": "C126", "title": "Grid after an initialisation that throws", "statement": "After an initialisation of a usable grid, whether it returns or throws, every cell inside the domain of the grid can be read.", "quantifier": "for every usable grid, every initialisation and every set of sizes for which the memory can be allocated", "why_tests_cant": "The failure of an allocation cannot be provoked at will, and the state after it is not looked at.", "anchors": ["common/include/rofl/common/grid.h: Grid::initBounds", "common/include/rofl/common/grid.h: Grid::initCenter", "common/include/rofl/common/grid.h: Grid::initMinMax"]}
{"id": "C127", "title": "Orders accepted by evaluatePnebiVector and PnebiLUT", "statement": "evaluatePnebiVector(n, x, v) stores the values of the orders up to n or throws, and never has undefined behaviour; likewise the initialisation of a PnebiLUT.", "quantifier": "for every order n of type int, every x and every vector (exact arithmetic)", "why_tests_cant": "All values of int, in particular orders that need vectors of gigabytes.", "anchors": ["common/src/functions.cpp: evaluatePnebiVector", "common/src/functions.cpp: PnebiLUT::init"]}
{"id": "C128", "title": "Frame of the plane aligner in float arithmetic", "statement": "compute in float arithmetic gives a transformation whose linear part is, up to 2^-12, a rotation that takes the direction of the normal to the axis z.", "quantifier": "for every cloud, every finite non-zero normal and every order of the sums of three terms", "why_tests_cant": "The error passes through two normalisations, a cross product and the inverse of a matrix, for all normals.", "anchors": ["pcl/include/rofl/pcl/point_cloud_plane_aligner.h: PointCloudPlaneAligner::compute"]}
{"id": "C129", "title": "Inliers and center of the plane aligner in float arithmetic", "statement": "The center that compute subtracts is the projected mean of the points taken as inliers, up to 2^(k-10) for coordinates up to 2^k; a point is taken as inlier if and only if its distance is below the tolerance, up to 2^(k-20).", "quantifier": "for every cloud whose size fits an int, every normal that can be normalised and every order of the sums of three terms", "why_tests_cant": "The error grows with the number of points and is large only for clouds of tens of millions of points.", "anchors": ["pcl/include/rofl/pcl/point_cloud_plane_aligner.h: PointCloudPlaneAligner::compute"]}
{"id": "C130", "title": "Hough detectors after an initialisation that throws", "statement": "After an initialisation of a new or usable detector, whether it returns or throws, every bin of the reported numbers of bins can be read: the transform, the spectrum and, for planes, the normals.", "quantifier": "for both detectors, all positive numbers of bins whose product is an int and every set of sizes for which the memory can be allocated", "why_tests_cant": "The failure of an allocation cannot be provoked at will; there are three of them in each initialisation.", "anchors": ["geometry/src/hough_plane_detector.cpp: HoughPlaneDetector::init", "geometry/src/hough_plane_detector.cpp: HoughPlaneDetector::getHoughTransform", "geometry/src/hough_plane_detector.cpp: HoughPlaneDetector::getHoughSpectrum", "geometry/src/hough_plane_detector.cpp: HoughPlaneDetector::getNormal", "geometry/src/hough_line_detector.cpp: HoughLineDetector::init", "geometry/src/hough_line_detector.cpp: HoughLineDetector::getHoughTransform", "geometry/src/hough_line_detector.cpp: HoughLineDetector::getHoughSpectrum"]}
{"id": "C131", "title": "Number of comparisons of the heap operations", "statement": "A push into a heap of n elements calls the comparator at most log2(n+1) times, a popTop at most 7(log2(n-1)+1) times, a popBottom at most 7(floor((log2(n-1)-1)/2)+1)+1 times (logarithms rounded down, that of 0 taken as 0); a history of m operations from the empty heap calls it at most 7m(log2 m+1) times.", "quantifier": "for every comparator, even one that is no order, every content of the heap and every history that pops no empty heap", "why_tests_cant": "The worst case over all contents and comparators of every size cannot be enumerated.", "anchors": ["common/include/rofl/common/min_max_heap.h: MinMaxHeap::push", "common/include/rofl/common/min_max_heap.h: MinMaxHeap::popTop", "common/include/rofl/common/min_max_heap.h: MinMaxHeap::popBottom", "common/include/rofl/common/min_max_heap.h: MinMaxHeap::heapUp", "common/include/rofl/common/min_max_heap.h: MinMaxHeap::heapDownMin", "common/include/rofl/common/min_max_heap.h: MinMaxHeap::heapDownMax"]}
{"id": "C132", "title": "Heaps of any size", "statement": "With the int and size_t positions of the code, after any number of pushes and pops of the last element top() reports a first element and bottom() a last one, and the contents are those of C19.", "quantifier": "for every strict weak order and every history of up to 2^61 operations (for the contents: every comparator and all operations)", "why_tests_cant": "A heap of more than 2^31 elements takes gigabytes and minutes to build.", "anchors": ["common/include/rofl/common/min_max_heap.h: MinMaxHeap::push", "common/include/rofl/common/min_max_heap.h: MinMaxHeap::popTop", "common/include/rofl/common/min_max_heap.h: MinMaxHeap::popBottom", "common/include/rofl/common/min_max_heap.h: MinMaxHeap::heapUp", "common/include/rofl/common/min_max_heap.h: MinMaxHeap::heapDownMin", "common/include/rofl/common/min_max_heap.h: MinMaxHeap::heapDownMax", "common/include/rofl/common/min_max_heap.h: MinMaxHeap::childMin", "common/include/rofl/common/min_max_heap.h: MinMaxHeap::grandchildMin"]}
{"id": "C133", "title": "Disjoint sets of any number of items", "statement": "With the int identifiers and counters of the code, every history of valid calls returns, and find decides the connectivity of the items (C22); the other operations have the results of C23 to C27.", "quantifier": "for every history of valid calls whose arguments are int values", "why_tests_cant": "2^31 items take 32 gigabytes.", "anchors": ["common/src/disjoint_set.cpp: DisjointSet::initSets", "common/src/disjoint_set.cpp: DisjointSet::makeSet", "common/src/disjoint_set.cpp: DisjointSet::find", "common/src/disjoint_set.cpp: DisjointSet::join", "common/include/rofl/common/disjoint_set.h: DisjointSet::size", "common/include/rofl/common/disjoint_set.h: DisjointSet::parents", "common/include/rofl/common/disjoint_set.h: DisjointSet::setNum"]}
{"id": "C134", "title": "Origin and unit of the measures of the scalar consensus", "statement": "Adding a number to all measures adds it to the estimate of estimateTranslationTls and keeps the inliers; dividing the unit of measures and ranges by a factor multiplies the estimate by the factor.", "quantifier": "for every number of measures, all measures, ranges of at least 10^-6, every shift, every factor of at least 1 and every order of the equal endpoints", "why_tests_cant": "A test uses measures in one unit; the relation quantifies over all pairs of inputs.", "anchors": ["common/include/rofl/common/tls_scalar_consensus.h: estimateTranslationTls"]}
{"id": "C135", "title": "Identifiers of a Morton tree of any size", "statement": "With the int identifiers of the code, every history of insertions that reset the identifiers returns, and the identifiers of the items are 0, 1, ..., n - 1, in some order.", "quantifier": "for every type of values, every sort, every history of insertions of single items, ranges and converted ranges and of searches", "why_tests_cant": "2^31 items take tens of gigabytes.", "anchors": ["common/include/rofl/common/morton_tree.h: MortonTree::insert"]}
{"id": "C136", "title": "Repeated box registration", "statement": "After any number of calls of computeTransform, each with the result of the previous one, the transformation is rigid and the sum of the squared distances from the cloud to the box is not greater than before the first call.", "quantifier": "for every cloud, every box, every rigid start, every number of calls and every correct singular value decomposition (exact arithmetic)", "why_tests_cant": "A test runs some clouds; the relation is over all of them and over all numbers of calls.", "anchors": ["geometry/include/rofl/geometry/box_registration.h: BoxRegistration::computeTransform", "geometry/include/rofl/geometry/box_registration.h: BoxRegistration::associate"]}
{"id": "C137", "title": "Sorting with the min-max heap", "statement": "Pushing all elements of a list and taking them out at the two ends, in any order of the ends, gives the elements sorted: the tops in the order in which they are taken out, followed by the bottoms in the opposite order.", "quantifier": "for every list, every comparator that is a strict weak order and every sequence of ends", "why_tests_cant": "Tests sort some lists; the choice of the ends alone has 2^n cases.", "anchors": ["common/include/rofl/common/min_max_heap.h: MinMaxHeap::push", "common/include/rofl/common/min_max_heap.h: MinMaxHeap::top", "common/include/rofl/common/min_max_heap.h: MinMaxHeap::bottom", "common/include/rofl/common/min_max_heap.h: MinMaxHeap::popTop", "common/include/rofl/common/min_max_heap.h: MinMaxHeap::popBottom"]}
{"id": "C138", "title": "Pose to isometry in float arithmetic", "statement": "In the arithmetic of float, the transformation of poseToIsometry2 is a rotation followed by the translation by (x, y): it preserves the distances.", "quantifier": "for every finite pose and every C library with errors up to a unit in the last place", "why_tests_cant": "Tests compare distances up to a tolerance; that they are preserved exactly for no angle other than multiples of a right angle concerns all the angles.", "anchors": ["geometry/src/base_geometry2.cpp: poseToIsometry2"]}
{"id": "C139", "title": "Line detector from sizes in float arithmetic", "statement": "init with sizes clears the counters and stores angles within 57e-8 of the exact ones and normals within 2^-20 of the exact directions, of unit length up to 2^-18; for any counters the normals found are bit by bit those of the table at the angles found.", "quantifier": "for all sizes and resolutions, all counters and every C library with errors up to a unit in the last place", "why_tests_cant": "Tests use a few sizes; the errors accumulate with the index of the cell and the table has up to 2^31 cells.", "anchors": ["geometry/src/hough_line_detector.cpp: HoughLineDetector::init", "geometry/src/hough_line_detector.cpp: HoughLineDetector::findSpectrumAngleMax", "geometry/src/hough_line_detector.cpp: HoughLineDetector::findNormalMax"]}
{"id": "C140", "title": "The heap uses its elements only through the comparator", "statement": "Two min-max heaps that receive the same operations on related elements, with comparators that agree on related pairs, hold related elements in the same positions and report related elements, or stop in the same way. So a relabelling that preserves the order of the pushed elements relabels the heap, and two comparators that agree on the pushed elements build the same heap.", "quantifier": "for all types of elements, comparators (not only orders), relations and histories", "why_tests_cant": "Tests fix a type and a comparator; that the elements are inspected by nothing else concerns all of them.", "anchors": ["common/include/rofl/common/min_max_heap.h: MinMaxHeap::push", "common/include/rofl/common/min_max_heap.h: MinMaxHeap::popTop", "common/include/rofl/common/min_max_heap.h: MinMaxHeap::popBottom", "common/include/rofl/common/min_max_heap.h: MinMaxHeap::top", "common/include/rofl/common/min_max_heap.h: MinMaxHeap::bottom", "common/include/rofl/common/min_max_heap.h: MinMaxHeap::nextTop", "common/include/rofl/common/min_max_heap.h: MinMaxHeap::nextBottom"]}
{"id": "C141", "title": "The peak finder uses only the order of the values of the domain", "statement": "detect has the same outcome, peaks and their order included, for two maps that order the cells of the domain alike and have the same cells pass the filter: the values outside of the domain are immaterial, an order-preserving change of all values and of the threshold changes nothing, and a filter that all cells pass is as good as none.", "quantifier": "for all dimensions, domains, windows of non-negative half-size, comparators and maps", "why_tests_cant": "Tests compare the output for single maps; the claim is about pairs of maps and about cells that must never be evaluated.", "anchors": ["common/include/rofl/common/peak_finder_d.h: PeakFinderD::detect"]}
{"id": "C142", "title": "Order and grouping of the points of a plane detector", "statement": "Inserting a permutation of the points, or the points in two parts one after the other, gives the same counters and sums of squares, or is undefined in the same cases; detectors with equal counters find the same normals and planes.", "quantifier": "for every initialised detector in float arithmetic with at least 8 angles phi, all lists of points (NaN and infinities included) and all windows of non-negative size", "why_tests_cant": "Tests insert a few lists; rounding could make the votes depend on the order, and the claim is about all permutations.", "anchors": ["geometry/src/hough_plane_detector.cpp: HoughPlaneDetector::insert", "geometry/src/hough_plane_detector.cpp: HoughPlaneDetector::findSpectrumMax", "geometry/src/hough_plane_detector.cpp: HoughPlaneDetector::findParallelPlanes"]}
{"id": "C143", "title": "Morton comparisons respect the order of the coordinates", "statement": "A vector whose coordinates are all at most those of another is never ordered after it, and is ordered before it exactly if some coordinate is smaller; so the vectors of a box are ordered between its two corners, and the items of a box in a Morton tree lie between the lower bound of the low corner and the upper bound of the high corner.", "quantifier": "integers of every width and signedness and every number of coordinates (the strict part and the tree up to 2^w coordinates); all bit patterns of float and double (the strict part for numbers that keep their order under the decomposition, C09)", "why_tests_cant": "Tests compare a few vectors; that a range search over a box may start and stop at the corners depends on all pairs.", "anchors": ["common/include/rofl/common/morton_sort.h: mortonCmpInt", "common/include/rofl/common/morton_sort.h: mortonCmpFloat"]}
{"id": "C144", "title": "A Morton tree depends only on the multiset of the inserted values", "statement": "The position reported by findItem is the number of inserted values ordered before the query, and two trees filled by insertions of the same values in any order, and sorted by any correct std::sort, have equivalent items at the same positions; with integer coordinates the values, the positions found and the levels are the same.", "quantifier": "for all comparators that are strict weak orders, histories of insertions, queries, and pairs of results that std::sort may return (integers: up to 2^w coordinates)", "why_tests_cant": "std::sort is free to order equivalent items in any way, and a test sees one library and one order of insertion.", "anchors": ["common/include/rofl/common/morton_tree.h: MortonTree::insert", "common/include/rofl/common/morton_tree.h: MortonTree::sort", "common/include/rofl/common/morton_tree.h: MortonTree::findItem", "common/include/rofl/common/morton_tree.h: MortonTree::computeLevel"]}
{"id": "C145", "title": "Bounds for branch and bound", "statement": "The bounds of the cosine and of a Fourier series over an interval are contained in the bounds over every larger interval, become equal to the value of the function on an interval of one angle, and the gap between them is at most the width of the interval times the sum of 2 k a_k (a_k the amplitude of the k-th harmonic), so that a branch and bound search converges.", "quantifier": "for all series of at least 2 and at most 2^31 coefficients, all intervals (exact arithmetic)", "why_tests_cant": "Convergence and inclusion concern all sequences of intervals; a test checks a few.", "anchors": ["common/src/functions.cpp: findLUCos", "common/src/functions.cpp: findLUFourier"]}
{"id": "C146", "title": "Reading several parameter texts", "statement": "Reading two texts one after the other is reading their concatenation, reading a text again changes nothing, and texts with no common parameter name may be read in either order.", "quantifier": "for all texts and all maps (concatenation: the lines of the first text fit the line buffer and its last line is terminated; exchange: no null characters)", "why_tests_cant": "Tests read a few files; the claim concerns all pairs of texts.", "anchors": ["common/src/param_map.cpp: ParamMap::read"]}
{"id": "C147", "title": "The conversion to ECEF coordinates is injective and symmetric", "statement": "Two places have the same ECEF coordinates only if they have the same latitude and altitude and, away from the poles, the same longitude; a change of the longitude turns the point about the polar axis by the same angle, and the opposite latitude mirrors it at the equator.", "quantifier": "for all latitudes from -90 to 90, longitudes in (-180, 180], and altitudes of at least -6300 km (exact arithmetic); the symmetries for all numbers", "why_tests_cant": "Injectivity concerns all pairs of places.", "anchors": ["geometry/src/gis.cpp: convertLatLonAltToECEF"]}
{"id": "C148", "title": "Order of the joins of disjoint sets", "statement": "The partition, the sizes of the sets, the number of representatives and the number of sets do not depend on the order of the joins, on the order of the two items of a join, or on repeated and redundant joins.", "quantifier": "for all numbers of items and all pairs of valid histories whose joins connect the same items", "why_tests_cant": "Tests join in one order; union by rank and path compression give different trees for every order.", "anchors": ["common/src/disjoint_set.cpp: DisjointSet::join", "common/src/disjoint_set.cpp: DisjointSet::find"]}
{"id": "C149", "title": "Order of the measures of the scalar consensus", "statement": "Giving the measures in another order to estimateTranslationTls gives the same estimate and the same inliers, whatever the order in which std::sort leaves equal elements.", "quantifier": "for all lists of measures (exact arithmetic), all permutations and all results that std::sort may return", "why_tests_cant": "std::sort is not stable, and a test sees one order and one library.", "anchors": ["common/include/rofl/common/tls_scalar_consensus.h: estimateTranslationTls"]}
{"id": "C150", "title": "Order of the measurements of the profiler", "statement": "The statistics of a label do not depend on the measurements of other labels, and not on the order of its own measurements.", "quantifier": "for all histories over all labels, and all permutations (average and variance in exact arithmetic)", "why_tests_cant": "A test runs one history; the claim concerns all interleavings.", "anchors": ["common/src/profiler.cpp: Profiler::updateStat"]}
{"id": "C151", "title": "Precedence of the command line over the configuration file", "statement": "In every program that reads a configuration file, a parameter has the value of the last option of the command line that gives it, otherwise that of the last line of the file that gives it, otherwise the default value of the program.", "quantifier": "for all command lines without a dash before a byte above 127, all configuration files of lines of at most 1999 bytes without zero bytes, all parameters but cfg, all five programs", "why_tests_cant": "The programs are demonstrations without tests; the property combines three readings of the table for arbitrary texts.", "anchors": ["geometry/app/test_correspondence_graph.cpp: main", "geometry/app/test_hough_plane_detector.cpp: main", "common/app/test_tls_scalar_consensus.cpp: main", "common/app/test_morton_functions.cpp: main", "common/app/test_morton_order.cpp: main", "common/src/param_map.cpp: ParamMap::read"]}
{"id": "C152", "title": "Correct correspondences of a rigid motion are found", "statement": "When part of the source points is moved to the destination points by a pose, up to an error smaller than half the tolerance, associate returns a set of associations that contains all the correct ones, whatever the other points are.", "quantifier": "for all point sets, poses, errors, tolerances and minimum distances, with exact distances", "why_tests_cant": "Tests use one motion and no noise; the claim is about all outliers and all orders of the distances.", "anchors": ["geometry/src/correspondence_graph_association.cpp: CorrespondenceGraphAssociation::associate", "geometry/src/base_geometry2.cpp: poseToIsometry2", "geometry/app/test_correspondence_graph.cpp: main"]}
{"id": "C153", "title": "Points near a detected plane", "statement": "plotPlane counts the points near the plane and gives their mean, which is near the plane as well. For the planes of the Hough detector and distances from the resolution of rho on, it counts at least as many points as the cell of the plane has votes.", "quantifier": "for all planes, clouds of at most INT_MAX points and distances; for the detector all sizes with at least 8 cells of phi and points of not huge coordinates (exact arithmetic)", "why_tests_cant": "Needs the bins of the detector, whose first one is wider, and all positions of the points relative to them.", "anchors": ["geometry/app/test_hough_plane_detector.cpp: plotPlane", "geometry/src/hough_plane_detector.cpp: HoughPlaneDetector::insert", "geometry/src/hough_plane_detector.cpp: HoughPlaneDetector::getPlaneParam"]}
{"id": "C154", "title": "Morton orders of integers and of floats agree", "statement": "On points whose coordinates are integers of at most 24 bits times a power of two, the comparison of floats is defined and gives the result of the comparison of the integers. A sequence of integer points is sorted exactly if the sequence of the corresponding floats is sorted.", "quantifier": "for all integer types, dimensions up to the number of values of the type, all integers of magnitude below 2^24 and all resolutions 2^-103 to 2^64", "why_tests_cant": "test_morton_order prints both orders of an 8 x 8 grid for visual comparison; nothing is compared, and the orders do differ from 25 bits on.", "anchors": ["common/include/rofl/common/morton_sort.h: mortonCmpInt", "common/include/rofl/common/morton_sort.h: mortonCmpFloat", "common/include/rofl/common/morton_sort.h: xorFloat", "common/app/test_morton_order.cpp: main"]}
{"id": "C155", "title": "The scalar consensus recovers the true value among outliers", "statement": "If the outliers that accept any one point weigh less (sum of ranges) than the true measures, apart from the squared errors of the latter, the estimate differs from the true value by at most two ranges plus the error, wherever the outliers are. If moreover their intervals do not touch those of the true measures, the error of the estimate is at most that of the true measures, no outlier is an inlier, and the true measures are.", "quantifier": "for all numbers of measures below 2^31, values, positive ranges, outliers, true values and errors (exact arithmetic), every std::sort", "why_tests_cant": "The program estimates one translation from fixed data and prints it; robustness is a claim about all the positions of outliers.", "anchors": ["common/include/rofl/common/tls_scalar_consensus.h: estimateTranslationTls", "common/app/test_tls_scalar_consensus.cpp: main"]}
{"id": "C156", "title": "Scale of the local coordinates on the ellipsoid", "statement": "One degree of latitude and one degree of longitude from the origin have, in the local coordinates, the lengths that they have on the WGS84 ellipsoid of convertLatLonAltToECEF: the lengths of the derivatives of the ECEF position, up to 8 m per degree.", "quantifier": "for all real latitudes between the poles and all real longitudes", "why_tests_cant": "Continuum of positions; the round trip of the tests is right with every scale, also with the scale of the wrong coordinate.", "anchors": ["geometry/src/gis.cpp: convertLatLonToLocalXY", "geometry/src/gis.cpp: meterPerDegLat", "geometry/src/gis.cpp: meterPerDegLon", "geometry/src/gis.cpp: convertLatLonAltToECEF"]}
{"id": "C157", "title": "Symmetries of the nearest point of a box", "statement": "associate commutes with scaling of the box and the query, and with mirror images of the queries whose coordinates are not zero. Applied to its own result it changes nothing. Two queries outside the box do not get further apart.", "quantifier": "for every dimension, all boxes with sizes that are not negative and all queries over every ordered field; the exact cases of the exceptions are shown by witnesses", "why_tests_cant": "Continuum of boxes and pairs of queries.", "anchors": ["geometry/include/rofl/geometry/box_registration.h: BoxRegistration::associate"]}
{"id": "C158", "title": "Symmetries of the correspondence graph", "statement": "A larger tolerance and a smaller minimum distance remove no link. The links do not depend on the order of the items, on the other items, on the unit of length, on the order of pairs with the same distance, and on which of the two sets is the source.", "quantifier": "for all numbers of items with a product below 2^31, all tolerances and minimum distances, all distances over every ordered field and every correct sorting function", "why_tests_cant": "Unbounded numbers of items; the relations are between runs of the code.", "anchors": ["geometry/src/correspondence_graph_association.cpp: CorrespondenceGraphAssociation::associate"]}
{"id": "C159", "title": "Self similarity of the Morton order", "statement": "mortonCmpInt is the Morton order of the values of the coordinates, whatever their type: the first coordinate decides that is separated by the largest aligned interval. Vectors of one cell are ordered as in every other cell of the same size, the cells of half the size are ordered as their parents and within a parent lexicographically, and complementing the bits reverses the order.", "quantifier": "for all integer types, all dimensions up to the number of values of the type and all vectors; other translations change the order (witness)", "why_tests_cant": "All pairs of vectors of all types; the relations are between results for different arguments and types.", "anchors": ["common/include/rofl/common/morton_sort.h: mortonCmpInt"]}
{"id": "C160", "title": "Symmetries and tightness of the bounds of a Fourier series", "statement": "The bounds of findLUFourier are the sums of the least and greatest values of the terms: with one harmonic they are the exact range of the series. Moving the angles is the same as turning the pairs of coefficients, the period is pi, a factor of the coefficients multiplies the bounds (a negative one exchanges them) and the bounds of a sum of series are at least as tight as the sums of their bounds.", "quantifier": "for all series of at least 2 and at most 2^31 coefficients, all angles in either order (exact arithmetic); with two harmonics the bounds need not be attained (witness)", "why_tests_cant": "Relations between results for a continuum of angles and coefficients.", "anchors": ["common/src/functions.cpp: findLUFourier"]}
{"id": "C161", "title": "Peaks move with the map", "statement": "Moving the domain and the values of the map by the same offset moves the peaks found by detect by this offset and keeps their order.", "quantifier": "for every number of dimensions, all offsets, domains, windows, comparators and maps for which detect returns in both places; with representable windows in both places it does in one and two dimensions; at the end of the range of int it overflows (witness)", "why_tests_cant": "Relation between two runs for all domains, maps and offsets.", "anchors": ["common/include/rofl/common/peak_finder_d.h: detect", "common/include/rofl/common/peak_finder_d.h: findIncrement", "common/include/rofl/common/interval_indices.h: intersect", "common/include/rofl/common/interval_indices.h: stacked", "common/include/rofl/common/interval_indices.h: translate", "common/include/rofl/common/interval_indices.h: inside", "common/include/rofl/common/interval_indices.h: initCentered"]}
{"id": "C162", "title": "Direction of the axis of the measures of the scalar consensus", "statement": "Changing the sign of all the measures changes the sign of the estimate and keeps the inliers.", "quantifier": "for all measures with positive ranges whose intervals have different endpoints (fewer than 2^31 of them) and every std::sort", "why_tests_cant": "Relation between two runs for all numbers of measures and all values.", "anchors": ["common/include/rofl/common/tls_scalar_consensus.h: estimateTranslationTls"]}
{"id": "C163", "title": "Unit of the float Morton order", "statement": "Multiplying all the coordinates of two vectors of floats by the same power of two, without overflow or underflow, does not change the result of mortonCmpFloat.", "quantifier": "for all dimensions, all powers of two and all vectors of finite floats whose multiples are finite floats", "why_tests_cant": "Relation between results for all scales and all pairs of 32-bit patterns in any dimension.", "anchors": ["common/include/rofl/common/morton_sort.h: mortonCmpFloat", "common/include/rofl/common/morton_sort.h: xorFloat"]}
{"id": "C164", "title": "The counters of the plane detector turn with the cloud", "statement": "Turning the cloud about the vertical axis by m cells of phi moves the counters and sums of squares by m cells of phi around the circle, reflecting it in the plane y = 0 reverses their order, and multiplying the coordinates and the resolution of rho by the same factor does not change them.", "quantifier": "for all sizes with at least 8 cells of phi, all m, factors and clouds of not huge coordinates (exact arithmetic)", "why_tests_cant": "Relation between the results of two clouds, for all clouds and sizes.", "anchors": ["geometry/src/hough_plane_detector.cpp: HoughPlaneDetector::init", "geometry/src/hough_plane_detector.cpp: HoughPlaneDetector::insert"]}
{"id": "C165", "title": "Box registration moves with the scene", "statement": "Moving the cloud and the current transformation by the same rotation and translation moves the result of a step of the box registration, and of any number of steps, by the same motion; a change of the unit of length of cloud, box and translation only changes the unit of the result; the initial alignment of the moved cloud is the moved initial alignment.", "quantifier": "for all dimensions from 2 on, clouds, boxes, rigid transformations and rigid motions, and all correct singular value and eigenvalue decompositions", "why_tests_cant": "Relation between runs for all rigid motions; decompositions are not unique, so that a property for all of them cannot be tested with one library.", "anchors": ["geometry/include/rofl/geometry/box_registration.h: computeTransform", "geometry/include/rofl/geometry/box_registration.h: estimateInitTranform"]}
{"id": "C166", "title": "Filter of the peaks", "statement": "The peaks found with a minimum value are the peaks found without it whose value passes, in the same order when no two peaks have equivalent values; a stricter minimum keeps those of the peaks of a weaker one that pass; the filter changes nothing else, in particular not whether the search is defined.", "quantifier": "for all dimensions, domains, windows, comparators, maps and minimum values", "why_tests_cant": "Relation between runs for all maps and thresholds; the filter is tested inside the loop, before the heap of the window is read.", "anchors": ["common/include/rofl/common/peak_finder_d.h: detect", "common/include/rofl/common/peak_finder_d.h: enableFilterPeakMin"]}
{"id": "C167", "title": "Mirror images and windows of the peaks of a row", "statement": "The peaks of a mirrored row are the mirrored peaks, in the same order, and the peaks of a larger window are some of the peaks of a smaller one, in the same order.", "quantifier": "for all one-dimensional domains, comparators that are strict weak orders, maps without equivalent values and half windows from 1 on", "why_tests_cant": "Relation between runs for all rows of any length; the search goes through the row in one direction only.", "anchors": ["common/include/rofl/common/peak_finder_d.h: detect", "common/include/rofl/common/peak_finder_d.h: setPeakWindow"]}
{"id": "C168", "title": "Plane aligner and the frame of the scene", "statement": "The aligned points do not depend on the order of the points, on the unit and the sign of the coefficients of the plane, nor on the frame in which cloud and plane are given.", "quantifier": "for all clouds, planes, tolerances, rotations and translations (in exact arithmetic)", "why_tests_cant": "Relation between runs for all scenes and motions; the axes are chosen by the largest component of the normal.", "anchors": ["pcl/include/rofl/pcl/point_cloud_plane_aligner.h: PointCloudPlaneAligner::compute", "pcl/include/rofl/pcl/point_cloud_plane_aligner.h: PointCloudPlaneAligner::setPlaneCoeffs", "pcl/include/rofl/pcl/point_cloud_plane_aligner.h: PointCloudPlaneAligner::setPlaneTol"]}
{"id": "C169", "title": "Order of the approximated angles", "statement": "fastAtan2 increases with the angle of the vector, does not depend on its length and grows by pi/2 when the vector is turned by a quarter turn; the components of fastCosSin at two angles compare like the cosines and the sines.", "quantifier": "for all vectors and angles (in exact arithmetic)", "why_tests_cant": "Order over all pairs of reals; the polynomial is used on both sides of the diagonals, where the two branches meet.", "anchors": ["common/src/functions.cpp: fastAtan2", "common/src/functions.cpp: fastAtan", "common/src/functions.cpp: fastCosSin"]}
{"id": "C170", "title": "Saving what was read", "statement": "After any texts are read one after the other into an empty map, writing the map and reading the result into an empty map gives the same map, and writing it again gives the same text.", "quantifier": "for all sequences of texts, with any characters, line lengths and comments", "why_tests_cant": "All texts; the texts read may contain null characters, overlong and unterminated lines, which the written text must never contain.", "anchors": ["common/src/param_map.cpp: ParamMap::read(std::istream&)", "common/src/param_map.cpp: ParamMap::write"]}
{"id": "C171", "title": "There and back between vectors and angles", "statement": "The computed cosine and sine of the computed angle of a nonzero vector are the components of the unit vector of its direction up to 0.00122; the computed angle of the computed cosine and sine of an angle is that angle up to 0.00175 and whole turns; their length is 1 up to 0.0018.", "quantifier": "for all real vectors and angles in exact arithmetic; for all finite nonzero vectors and all angles up to 2^26 in double; for all finite nonzero vectors in float, up to 0.00126", "why_tests_cant": "All vectors and angles; the errors of the two approximations might add up, and the angle jumps by a whole turn at the negative axis.", "anchors": ["common/src/functions.cpp: fastAtan2", "common/src/functions.cpp: fastCosSin"]}
{"id": "C172", "title": "The heap as a double-ended priority queue", "statement": "The elements that a history of insertions and removals at both ends gives back, in order, are those of a double-ended priority queue; hence the order of insertions without a removal in between does not matter, and the opposite comparator exchanges the two ends.", "quantifier": "for all comparators that are strict weak orders and all histories, of any length", "why_tests_cant": "All histories; the arrangement of the storage differs between the compared histories, only the results may be compared.", "anchors": ["common/include/rofl/common/min_max_heap.h: MinMaxHeap::push", "common/include/rofl/common/min_max_heap.h: MinMaxHeap::top", "common/include/rofl/common/min_max_heap.h: MinMaxHeap::popTop", "common/include/rofl/common/min_max_heap.h: MinMaxHeap::bottom", "common/include/rofl/common/min_max_heap.h: MinMaxHeap::popBottom"]}
{"id": "C173", "title": "Unit and origin of the measurements of the profiler", "statement": "When all measurements are multiplied by a positive factor and a constant is added, the average and the extremes are converted in the same way, the count does not change, and the variance is multiplied by the square of the factor.", "quantifier": "for all sequences of measurements of all labels, all factors and constants, in exact arithmetic", "why_tests_cant": "All sequences, factors and constants; the incremental formulas hide the dimension of each member.", "anchors": ["common/src/profiler.cpp: Profiler::updateStat", "common/include/rofl/common/profiler.h: Profiler::getVariance"]}
{"id": "C174", "title": "Change of the origin of the local coordinates", "statement": "The local coordinates of a position from a second origin are those from the first origin minus those of the second origin; in particular the way back is the opposite of the way there.", "quantifier": "for all origins and positions, in exact arithmetic", "why_tests_cant": "All triples of positions; the error depends on the product of two distances and is small for near positions.", "anchors": ["geometry/src/gis.cpp: convertLatLonToLocalXY", "geometry/src/gis.cpp: meterPerDegLat", "geometry/src/gis.cpp: meterPerDegLon"]}
{"id": "C175", "title": "First elements of a stream", "statement": "A client that inserts the elements of a stream into a heap and removes the bottom whenever there are more than k elements ends with the k first elements of the stream (all, when there are fewer); the order of the stream has no influence but for the choice among equivalent elements.", "quantifier": "for all comparators that are strict weak orders, all k and all streams, with ties", "why_tests_cant": "All streams and sizes; the removals are mixed with the insertions, so that the order of the heap must survive every one of them.", "anchors": ["common/include/rofl/common/min_max_heap.h: MinMaxHeap::push", "common/include/rofl/common/min_max_heap.h: MinMaxHeap::popBottom", "common/include/rofl/common/min_max_heap.h: MinMaxHeap::popTop"]}
{"id": "C176", "title": "Cells outside the domain of a grid", "statement": "An access to a cell outside the domain of a grid throws, as the access to a position out of range does; it never reads or changes a cell inside.", "quantifier": "for all grids and all indices", "why_tests_cant": "All domains and indices; whether another cell is touched depends on the rank of the indices, and no exception tells that it happened.", "anchors": ["common/include/rofl/common/grid.h: Grid::value", "common/include/rofl/common/grid.h: Grid::getPos", "common/include/rofl/common/interval_indices.h: StaticRasterIndexer::getPos", "common/include/rofl/common/interval_indices.h: RasterIndexer::getPos"]}
{"id": "C177", "title": "A stored default is read back", "statement": "The call of getParam that does not find a parameter returns its default and stores it; every later call for that parameter returns the same value, whatever default it has.", "quantifier": "for all tables, all missing names and all defaults that are strings, int or finite floating point numbers", "why_tests_cant": "All floating point numbers and all roundings; tests use defaults such as 0.05, which have few digits and come back.", "anchors": ["common/include/rofl/common/param_map.h: ParamMap::setParam", "common/include/rofl/common/param_map.h: ParamMap::getParam"]}
{"id": "C178", "title": "Selecting a spanning forest", "statement": "Joining the pairs of a list in their order and keeping those for which join does not return the number of items selects a spanning forest: the kept pairs link the same items as all the pairs, have no cycle, and are as many as the items minus the remaining sets; no fewer pairs do. If the pairs are sorted by weight, no other spanning forest of these pairs has a smaller weight.", "quantifier": "for all numbers of items, all lists of pairs of items and all weights", "why_tests_cant": "All lists of pairs and all competing forests; the number of forests grows exponentially.", "anchors": ["common/src/disjoint_set.cpp: DisjointSet::join", "common/src/disjoint_set.cpp: DisjointSet::find"]}
{"id": "C179", "title": "Membership and multiplicity in a Morton tree", "statement": "The items with the searched coordinates are exactly the ones from the position reported by findItem on, as many as were inserted: a point was inserted if and only if the position is not the end and the item there has its coordinates.", "quantifier": "for all histories of insertions and searches, all queries and all results of a correct std::sort; integer coordinates up to 2^w of them, or any comparator that is a strict weak order up to equivalence", "why_tests_cant": "All multisets of points and all ways std::sort may leave equivalent items.", "anchors": ["common/include/rofl/common/morton_tree.h: MortonTree::findItem", "common/include/rofl/common/morton_tree.h: MortonTree::insert"]}
{"id": "C180", "title": "Shape of the interpolated look-up table", "statement": "The function given by a PnebiLUT for an order has no jumps: any bound of the slopes between consecutive points of the table bounds the difference of any two values by the difference of the absolute values of the arguments. It decreases with the absolute value of the argument exactly when the values at the points of the table do.", "quantifier": "for all tables built with any order n >= 1 and tolerance, all orders k < n, all pairs of arguments, every <cmath> and every ordered field (exact arithmetic)", "why_tests_cant": "A jump or a wrong order of two values can appear between any two arguments, at any point of the table.", "anchors": ["common/src/functions.cpp: PnebiLUT::eval", "common/src/functions.cpp: PnebiLUT::init"]}
