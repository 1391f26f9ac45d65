# Design of the formal model of rofl

Source: `/repo` (dlr1516/rofl, pinned commit). Prover: Lean 4.33.0 + Mathlib.
Properties: `properties.jsonl`. Status of each property: `MANIFEST.json`.
Seeded-bug log: `seeded/LOG.jsonl`.

## 1. Layout

```
lean/Verif.lean                 imports every module
lean/Verif/Cxx/*.lean           the fragment of C++ semantics we need (outcomes, int ranges, vectors, sorted lists)
lean/Verif/<Topic>/Model.lean   functions transcribed from /repo, each citing file and lines
lean/Verif/<Topic>/Spec.lean    small independent specification (no model helper is used)
lean/Verif/<Topic>/Lemmas.lean  helper lemmas
lean/Verif/<Topic>/*Props.lean  the property theorems (named Cnn_…) and their non-vacuity examples
```

Where a specification is a line or two (a sum, a distance, a rotation) it is written in the statement of the theorem and there is no `Spec.lean`.

Naming: a theorem that settles a property, or a clause of it, completely is `Cnn_…`; a theorem that settles only a part is
`Cnn_…_partial`; a theorem which shows that the unchanged code *violates* the property is `Cnn_…_violated`
(it exhibits a concrete witness). Where a property is violated the full statement stays
visible as a `def Cnn_statement : Prop` (or similar), the `_violated` theorem proves its negation, and the `_partial` theorem proves
the largest sub-domain found on which it holds. Status `partial` in the manifest therefore mostly means "the code does not have this property; what it has is proved".

## 2. Modelling rules

* Every function of a modelled class is transcribed to a total computable Lean function, branch by branch.
* Undefined behaviour is an explicit outcome. Functions that can run into undefined behaviour, fail an assertion or throw return
  `Outcome α = Except Err α`, with `Err.ub kind` (`outOfBounds`, `overflow`, `shift`, `divZero`, `iterInvalid`), `Err.abort`
  (`ROFL_ASSERT` calls `exit(-1)`, macros.h:57), `Err.throw`. Loops that are not
  structurally recursive take a fuel, `Err.fuel` being a different outcome, so that a theorem that says "returns `ok`"
  includes termination.
* Fixed-width unsigned integers are `BitVec w`. `int` values are `Int` with a range check after each operation (`Cxx.int`) where the range matters; conversions between `int` and `size_t` wrap
  (`Cxx.toSize`, `Cxx.ofSize`). Where counters are unbounded in the model, the header of the model says so.
* `std::sort` is *any* function returning a sorted permutation (universally quantified), `std::set`/`std::map` are strictly sorted
  lists, `std::lower_bound`, `set_union`, … are transcribed from the standard.
* `float`/`double` code that manipulates bit patterns (decompose, compose, xorFloat, …) is modelled on the bit patterns. Code that
  computes with floating point numbers is modelled over an ordered field, ℚ or ℝ: these theorems ignore rounding, and say so ("exact arithmetic" in the notes). The constants keep the
  value they have in the code after rounding. A few witnesses of rounding use the `Float`/`Float32` of Lean, whose logical model the kernel evaluates.
  The fast trigonometric functions and the normalisation of angles are modelled a second time in floating point arithmetic (`Verif/Ieee`, `Verif/FunctionsFp`): the numbers of a format with the operations of the
  logical model of Lean core (`Float.Model.UnpackedFloat`), every operation rounded to nearest even in the type of the C++ expression, one NaN, literals rounded correctly.
* Functions of `<cmath>` are the parameters `Libm K`; the theorems over ℝ instantiate them with the real functions.
* NaN and infinities that arise from divisions by zero are `none`.
* Text output, timing, Eigen decompositions (SVD, eigenvalues), file system and environment are parameters of the model. The macros `ROFL_VAR…` and `ROFL_MSG` always evaluate their arguments: what they dereference is modelled.

## 3. Trusted base

* Lean kernel; axioms `propext`, `Classical.choice`, `Quot.sound` at most (no `native_decide`, no `bv_decide`, no own axioms). The axioms of each theorem are in section 5.
* The transcription of the C++ text into Lean (cited line by line), the C++ reading in `Verif/Cxx`.
* The standard library contracts listed above; IEEE-754 layout of `float` and `double`; `int` of 32 bits, `size_t` of 64 bits.
* For C56–C62, C65, C75–C83 (and C50–C55, C73, C74, C111–C113, C180): exact arithmetic instead of rounded.
* For C79–C81: Eigen returns a correct singular value / eigenvalue decomposition of the matrix it is given (`IsSVD`, `IsEig`). For C65: the documented meaning of the Eigen and PCL operations listed in the model. For C128, C129: Eigen adds three terms in one of the two orders, inverts a 3 × 3 matrix by cofactors, and normalises by the square root of the squared norm.
* For C42–C47, C68, C69: the "C" locale; streams in good state; `boost::lexical_cast` and `operator<<` are parameters, the round trip theorems assume what they need of them.
* For C85–C92, C105–C110, C114–C123, C128, C129: the operations of `Float.Model` of Lean core are those of IEEE-754 (their relation to the real numbers is proved in `Verif/Ieee`); the compiler rounds every operation in its type (no fused multiply-add, no extended precision, no `-ffast-math`: the CMake files set none).
* Compilation, template instantiation and linking are not modelled.

## 4. What is modelled

| code | module | properties |
|------|--------|------------|
| common/src/bit_manip.cpp | BitManip | C01–C04 |
| common/…/numeric_traits.h | NumericTraits, MortonFloat | C05, C06, C18, C125 |
| common/…/morton_sort.h | Morton (integers), MortonFloat (floating point) | C07–C12, C17, C18, C70–C72, C143, C154, C159, C163 |
| common/…/morton_tree.h | MortonTree | C13–C16, C99, C100, C135, C143, C144, C179 |
| common/…/min_max_heap.h | Heap | C19–C21, C131, C132, C137, C140, C172, C175 |
| common/…/disjoint_set.h, .cpp | DisjointSet | C22–C28, C133, C148, C178 |
| common/…/label_set.h, .cpp | LabelSet | C29, C30 |
| common/…/interval_indices.h | Interval | C31–C38, C124 |
| common/…/grid.h | Grid | C39, C67, C126, C176 |
| common/…/peak_finder_d.h | PeakFinder | C40, C41, C141, C161, C166, C167 |
| common/…/param_map.h, .cpp | ParamMap | C42–C47, C68, C69, C103, C146, C151, C170, C177 |
| common/…/profiler.h, .cpp | Profiler | C48, C49, C105, C150, C173 |
| common/…/functions.h, .cpp | Functions | C50–C55, C73, C74, C127, C145, C160, C169, C171, C180 |
| evaluatePnebi0Polynom, evaluatePnebiVector, PnebiLUT, against the Bessel functions | Bessel | C111–C113 |
| geometry/src/gis.cpp, in floating point | GisFp (on Ieee) | C116–C118 |
| common/src/functions.cpp, in floating point | FunctionsFp (on Ieee) | C85–C90, C106, C108, C109, C114, C115, C120 |
| common/include/rofl/common/tls_scalar_consensus.h, in floating point | TlsFp (on Ieee) | C107 |
| geometry/src/hough_plane_detector.cpp, hough_line_detector.cpp (initialisation, votes, plane parameters and windows), in floating point | HoughFp (on Ieee) | C110, C119, C121, C139, C142 |
| geometry/src/base_geometry2.cpp, in floating point | Geometry2Fp (on Ieee) | C91, C92, C138 |
| printLUT | LutPrint | C93 |
| print functions, output macros | Text | C94, C95, C98, C101, C102 |
| ScopedTimer, printStats | Profiler (Timer) | C96, C97 |
| common/…/tls_scalar_consensus.h | Tls | C56, C134, C149, C155, C162 |
| common/…/vector_array.h, geometry/…/base_geometry2.h, .cpp | Geometry2 | C59, C75, C76 |
| common/src/io.cpp | Io | C66, C84 |
| geometry/…/box_registration.h | Box | C57, C79–C81, C123, C136, C157, C165 |
| geometry/…/gis.h, .cpp | Gis | C58, C77, C78, C147, C156, C174 |
| geometry/…/hough_plane_detector.h, .cpp | Hough | C60, C61, C82, C104, C130, C153, C164 |
| geometry/…/hough_line_detector.h, .cpp | Hough | C62, C83, C104, C130 |
| geometry/…/correspondence_graph_association.h, .cpp | CorrGraph | C63, C64, C122, C152, C158 |
| pcl/…/point_cloud_plane_aligner.h | PlaneAligner | C65, C168 |
| pcl/…/point_cloud_plane_aligner.h, in floating point | PlaneAligner/Fp* (on Ieee) | C128, C129 |

Not modelled: the programs in `app/` (demonstrations) apart from the collection of their parameters (`ParamMap/ConfigModel`) and `plotPlane` (`Hough/PlotModel`), the build files, the progress messages printed on the console, the type aliases of geometry/types.h.

## 5. Property by property

Every theorem depends on `propext`, `Classical.choice` and `Quot.sound` unless another list is given between square brackets. The statements are in `properties.jsonl`.

### C01 — Leading-zero count is exact at every width (proved)
The eight branches of `nlz*` on `BitVec w`, generic in the width. Specification `IsLeadingZeros` by `Nat.testBit`; a halving lemma shows that one comparison step preserves "zeros found so far + zeros of the rest".
Theorems: `BitManip.C01_nlz`, `BitManip.C01_spec_unique` [propext, Quot.sound].
Limits: all widths 8..64.

### C02 — Floor power of two (proved)
Bit smearing (`x |= x >> 1`, …) proved to set exactly the bits below the highest one; `IsFloorPow2` is `IsGreatest` of the powers of two not above `x`.
Theorems: `BitManip.C02_flp2`.
Limits: all widths.

### C03 — Ceiling power of two (proved)
Same smearing lemma applied to `x - 1`; specification `IsLeast` of the powers of two not below `x`, wrap to 0 beyond 2^(w-1).
Theorems: `BitManip.C03_clp2`.
Limits: all widths.

### C04 — Floating-point decomposition and composition are mutually inverse (proved)
The shifts and masks on bit patterns, bitvector extensionality for the four fields.
Theorems: `BitManip.C04_float_set_get`, `BitManip.C04_float_get_set`, `BitManip.C04_double_set_get`, `BitManip.C04_double_get_set`, `BitManip.C04_float_range` [propext, Quot.sound], `BitManip.C04_double_range` [propext, Quot.sound].
Limits: bit patterns of float and double.

### C05 — IntegerTraits::log2Mod is floor(log2 |i|) for every integer type (partial)
The eight specialisations through C01. The specification is `2^r ≤ |z| < 2^(r+1)`. `C05_int64_iff`: the value computed for `int64_t` and exactly when it is right.
Theorems: `NumericTraits.C05_log2Mod_partial`, `NumericTraits.C05_int64_iff`, `NumericTraits.C05_log2Mod_int64_violated`, `NumericTraits.C05_log2Mod_violated`.
Limits: holds for 7 of 8 types; the int64_t specialisation calls nlz8 and is wrong for every magnitude below 2^55; C05_int64_iff: what it computes and exactly when that is right.

### C06 — floorPow2 and ceilPow2 bracket the integer (partial)
The eight specialisations through C02 and C03; `IsFloor`/`IsCeil` are greatest/least over zero and plus or minus powers of two. `C06_iff` joins both directions.
Theorems: `NumericTraits.C06_floorPow2_partial`, `NumericTraits.C06_ceilPow2_partial`, `NumericTraits.C06_ceilPow2_beyond_violated`, `NumericTraits.C06_violated`, `NumericTraits.C06_iff`.
Limits: holds exactly when the negation does not overflow and the result is representable (C06_iff); ceilPow2 wraps above the largest power of two.

### C07 — Most-significant-bit comparison without logarithms (proved)
`i1 < i2 && i1 < (i1 ^ i2)`; bit length of an exclusive or.
Theorems: `Morton.C07_msb`.
Limits: all widths.

### C08 — Integer Morton comparison equals comparison of interleaved bits (partial)
The scan of the coordinates with `msb`, any dimension and width. The specification is the interleaved code as one natural number (`Spec.mcode`); induction on the dimension with the invariant "the current coordinate has the highest differing bit so far". `C08_iff`: exactly for at most 2^w dimensions.
Theorems: `Morton.C08_mortonCmpInt_partial`, `Morton.C08_iff`, `Morton.C08_mortonCmpInt_dim_violated`.
Limits: holds for 1 <= Dim <= 2^w; the dimension index is kept in the coordinate type and wraps beyond; C08_iff: exactly for these numbers of dimensions.

### C09 — Integer Morton comparison is a strict total order (partial)
From C08: the code is injective and `<` on ℕ is a strict total order. `C09_iff`: likewise.
Theorems: `Morton.C09_order_partial`, `Morton.C09_iff`, `Morton.C09_dim_violated`.
Limits: strict total order for 1 <= Dim <= 2^w; totality fails beyond; C09_iff: exactly for these numbers of dimensions.

### C10 — Power-of-two interval of two integers (partial)
Shifts checked for undefined behaviour; `IsDyadic` says aligned, length 2^k, contains both, smallest, mid separates. `C10_iff`: the exact set of pairs on which the result is right.
Theorems: `Morton.C10_intervalPow2Int_partial`, `Morton.C10_intervalPow2Int_signed_partial`, `Morton.C10_iff`, `Morton.C10_equal_violated`, `Morton.C10_level31_violated`, `Morton.C10_level64_violated`, `Morton.C10_unsigned_violated` [propext, Quot.sound], `Morton.C10_violated` [propext, Quot.sound].
Limits: holds for distinct values agreeing above bit 30 and in the top bit or of opposite sign; undefined for equal values and levels >= 31; wrong mid for unsigned values with different top bits; C10_iff: exactly on these pairs.

### C11 — Integer Morton split separates the two vectors (partial)
From C08 and C10 coordinate by coordinate.
Theorems: `Morton.C11_mortonSplitInt_partial`, `Morton.C11_equal_violated` [propext, Quot.sound], `Morton.C11_unsigned_violated` [propext, Quot.sound].
Limits: holds when all coordinate pairs are supported by intervalPow2Int (equal coordinates if 1 << -1 yields any value); undefined for equal coordinates, wrong for unsigned values with different top bits.

### C12 — Integer Morton distance is an ultrametric compatible with the Morton order (proved)
Largest bit length of the exclusive ors, characterised by `SameCell`; the order part uses the interleaved code.
Theorems: `Morton.C12_distance_cell`, `Morton.C12_ultrametric`, `Morton.C12_order`.
Limits: all dimensions and types.

### C13 — MortonTree insertion keeps values and identifiers (partial)
Histories of the insertion overloads against the abstract list of pairs (value, identifier). `C13_iff`: the number of identifiers -1 grows strictly with every lost identifier.
Theorems: `MortonTree.C13_insert_partial`, `MortonTree.C13_values`, `MortonTree.C13_violated` [propext, Quot.sound], `MortonTree.C13_iff`.
Limits: insert(item, false) and insert(beg, end, false) replace the identifier by -1; the values are kept for every history, the identifiers exactly when these two overloads only get items with identifier -1 (C13_iff).

### C14 — MortonTree::findItem is a lower-bound search (partial)
`std::sort` as any sorted permutation, `std::lower_bound` as binary search transcribed from the standard; first for any strict weak order, then instantiated with C09; for floats the strict weak order is that of the codes of C17, and three points in a cycle show that no sorting function works for all floats.
Theorems: `MortonTree.C14_findItem_partial`, `MortonTree.C14_findItem_generic` [propext, Quot.sound], `MortonTree.C14_float_partial`, `MortonTree.C14_float_violated`, `MortonTree.C14_grid_partial`.
Limits: integer coordinates with at most 2^w dimensions, vectors of floats with exponents in the handled range, and any comparison that is a strict weak order; other floats form cycles of the comparison.

### C15 — MortonTree::computeLevel bounds the whole range (partial)
From C12 (monotone along the Morton order); for floats from C17 and C71, with the range 0, -0, 2 as counterexample.
Theorems: `MortonTree.C15_computeLevel_partial`, `MortonTree.C15_empty_end`, `MortonTree.C15_empty_begin` [propext, Quot.sound], `MortonTree.C15_float_partial`, `MortonTree.C15_float_violated`, `MortonTree.C15_grid_partial`.
Limits: integer coordinates with at most 2^w dimensions and floats with exponents in the handled range; an empty range at the end dereferences end(), and an end of the range at begin() is decreased; other floats violate it.

### C16 — MortonTree::searchInBox returns the items of the box (partial)
The recursion with its fuel; the code never pushes an item on the output. `C16_iff` is the exact set of boxes that are answered.
Theorems: `MortonTree.C16_partial`, `MortonTree.C16_reports_nothing`, `MortonTree.C16_end_violated`, `MortonTree.C16_violated`, `MortonTree.C16_iff`, `MortonTree.C16_item_violated`.
Limits: searchInBox never reports an item and dereferences end() when all the items come before boxMax; right only for boxes without items.

### C17 — Float Morton comparison is a strict weak order (partial)
`xorFloat` and the comparison on bit patterns against the Z-order of the exact scaled values; cycles are evaluated by the kernel.
Theorems: `MortonFloat.C17_zorder_partial`, `MortonFloat.C17_order_partial`, `MortonFloat.C17_cycle_violated`, `MortonFloat.C17_denormals_violated` [propext, Quot.sound], `MortonFloat.C17_zeros_violated`, `MortonFloat.C17_shift_violated` [propext, Quot.sound], `MortonFloat.C17_double_violated`, `MortonFloat.C17_doubleCmp_violated`, `MortonFloat.C17_aligned_partial`.
Limits: false: negative powers of two give cycles, denormals and signed zeros are misordered, negative numbers with distant exponents shift negative values; proved on tame floats (zero, magnitudes from 2^-103 on that are not negative powers of two), where the comparison is the Z-order of the exact values.

### C18 — Float exponent constants are consistent with the format (partial)
Constants by evaluation; exponent returned for different signs for all bit patterns.
Theorems: `MortonFloat.C18_float_partial`, `MortonFloat.C18_double_constants_violated` [propext], `MortonFloat.C18_double_violated`, `MortonFloat.C18_violated` [propext, Quot.sound].
Limits: true for float; the double constants are wrong (EXPONENT_BITS 8, EXPONENT_MAX -768).

### C19 — Min-max heap conserves its elements (proved)
Storage as checked vector; the multiset of the elements is an invariant of every sift; positions decrease or increase strictly, so that the loops end.
Theorems: `Heap.C19_contents`, `Heap.C19_peek`.

### C20 — Min-max heap reports the minimum and the maximum (partial)
Order invariant of the min-max levels for pops without ties, separate invariant for the minimum only; short histories with ties as witnesses of the violation. With at most 5 elements the wrong continuation of `heapDownMin` has no effect (`loop_small`), with 6 it has: `C20_size_iff`.
Theorems: `Heap.C20_extremes_partial`, `Heap.C20_distinct_partial`, `Heap.C20_noPopTop_partial`, `Heap.C20_popTopLast_partial`, `Heap.C20_violated` [propext, Quot.sound], `Heap.C20_size_iff`.
Limits: heapDownMin goes on from a child on a max level: with equivalent elements popTop breaks the order (bottom, and later top, are wrong); proved when the heap has no ties at each popTop, and for the top when nothing is pushed after the first popTop (ties allowed); with ties, right for heaps of at most 5 elements and not for 6 (C20_size_iff).

### C21 — Min-max heap nextTop and nextBottom report the runners-up (partial)
From the order invariant by inspection of the children and grandchildren. `C21_iff`: the exact heaps for which the two functions are right.
Theorems: `Heap.C21_next_partial`, `Heap.C21_iff`, `Heap.C21_violated` [propext, Quot.sound].
Limits: nextTop is wrong for some heaps of 4 and 5 elements, nextBottom for some heaps of 4 or more; right for sizes 2, 3 (both) and 6 or more (nextTop); C21_iff: the exact heaps.

### C22 — Disjoint sets: find decides connectivity (proved)
Forest invariant (parents have larger ranks), refinement to the equivalence relation generated by the joined pairs (`Relation.EqvGen`).
Theorems: `DisjointSet.C22_find`.
Limits: all valid histories.

### C23 — Disjoint sets: join merges exactly two sets (proved)
As C22; the two classes are merged, all the others are the same.
Theorems: `DisjointSet.C23_join`.
Limits: all valid histories.

### C24 — Disjoint sets: size is the cardinality (proved)
The stored sizes of the roots are the cardinalities of the classes.
Theorems: `DisjointSet.C24_size`.
Limits: all valid histories.

### C25 — Disjoint sets: setNum counts the sets (partial)
`setNum` = classes − calls of `makeSet` since the last initialisation, for every history.
Theorems: `DisjointSet.C25_setNum_exact_partial`, `DisjointSet.C25_setNum_partial`, `DisjointSet.C25_setNum_violated`, `DisjointSet.C25_iff`.
Limits: exact value for all valid histories: makeSet is not counted, negative initSets counted as such.

### C26 — Disjoint sets: logarithmic depth (proved)
A root of rank r has at least 2^r members; ranks increase along the links.
Theorems: `DisjointSet.C26_depth`.
Limits: all valid histories.

### C27 — Disjoint sets: parents lists one representative per set (proved)
`parents` against the image of `find`. Sizes (`C27_total`): the items are counted fibre by fibre over their representatives.
Theorems: `DisjointSet.C27_parents`, `DisjointSet.C27_total`.
Limits: all valid histories.

### C28 — Disjoint sets: invalid identifiers are rejected (partial)
Outcomes of the calls with invalid identifiers. `C28_iff`: all combinations of valid and invalid identifiers.
Theorems: `DisjointSet.C28_invalid_partial` [propext], `DisjointSet.C28_size_violated` [propext, Quot.sound], `DisjointSet.C28_join_violated`, `DisjointSet.C28_violated` [propext, Quot.sound], `DisjointSet.C28_iff`.
Limits: find is safe; join is defined exactly when both ids are valid or both invalid, size exactly for valid ids (C28_iff).

### C29 — LabelSet implements set algebra (proved)
`std::set` as strictly sorted list; membership of each operation; strict sortedness is an invariant.
Theorems: `LabelSet.C29_algebra`.
Limits: all reachable label sets.

### C30 — LabelSet equality is set equality (partial)
`std::equal` with three iterators, the read beyond the end of the second set being undefined. `C30_iff`: right exactly when neither set is a strict prefix of the other.
Theorems: `LabelSet.C30_equality_partial`, `LabelSet.C30_equality_violated`, `LabelSet.C30_iff`.
Limits: operator== uses the 3-iterator std::equal: prefix test, undefined when the right operand is a strict prefix; right exactly when neither set is a strict prefix of the other (C30_iff).

### C31 — Raster index is a bijection between cells and positions (partial)
Mixed radix arithmetic by induction on the list of axes; every intermediate value is shown to be an `int`. `C31_dynamic_iff`: exactly on the boxes of the partial theorem all the positions are right; elsewhere the last cell overflows.
Theorems: `Interval.C31_static`, `Interval.C31_dynamic_partial`, `Interval.C31_dynamic_iff`, `Interval.C31_dynamic_violated`.
Limits: full for StaticRasterIndexer; RasterIndexer::getPos adds the index before subtracting the minimum and overflows on legitimate cells; C31_dynamic_iff gives the exact set of boxes on which it is right.

### C32 — Static and dynamic raster indexers agree (partial)
Both indexers are compared to the same rank. `C32_iff`: the exact set of boxes of agreement.
Theorems: `Interval.C32_partial`, `Interval.C32_iff`, `Interval.C32_violated`.
Limits: getIndices always agree; getPos agree exactly on the boxes where the dynamic one does not overflow (C32_iff).

### C33 — Raster iteration visits each cell once (proved)
The iteration as fold over positions; the cells of the positions in order (C31).
Theorems: `Interval.C33_raster_iteration`.

### C34 — Boustrophedon iteration visits each cell once (proved)
Boustrophedon order as recursive reflection; bijection by induction on the dimension.
Theorems: `Interval.C34_boustrophedon_iteration`.

### C35 — Boustrophedon steps are between adjacent cells (partial)
Adjacency by induction, the parity of the inner sizes decides. `C35_iff` is the exact condition: every step is between adjacent cells if and only if of each two consecutive coordinates the first has a single value, or the second an even number of values, or all the later ones a single value.
Theorems: `Interval.C35_partial`, `Interval.C35_iff`, `Interval.C35_violated`.
Limits: false for 3 or more coordinates with an odd inner dimension (2x3x2); C35_iff gives the exact set of boxes on which it holds.

### C36 — Interval constructors and intersection have set semantics (partial)
Set semantics of the constructors and of the intersection, with the overflow conditions. `C36_intersect_iff`: the exact condition for `intersect`, otherwise overflow.
Theorems: `Interval.C36_inside`, `Interval.C36_empty`, `Interval.C36_initBounds`, `Interval.C36_initMinMax`, `Interval.C36_initCentered`, `Interval.C36_intersect_partial`, `Interval.C36_intersect_iff`, `Interval.C36_intersect_violated`.
Limits: intersect overflows exactly when the gap of two disjoint intervals with cells does not fit an int.

### C37 — Sliding a window: stacked cells are exactly the new ones (proved)
`stacked` against the set difference of the translated window and the window.
Theorems: `Interval.C37_stacked`, `Interval.C37_stacked_assert`.

### C38 — Empty intervals iterate over nothing (partial)
Sizes and iterators of empty intervals. `C38_iff`: the size modulo 2^64 is that of the product of the signed dimensions.
Theorems: `Interval.C38_partial` [propext, Quot.sound], `Interval.C38_violated`, `Interval.C38_iff`.
Limits: negative dimensions: empty but non-zero size; the iteration is empty exactly when 2^32 divides the product of the dimensions (C38_iff).

### C39 — Grid is an array addressed by cells (proved)
Histories of writes and fills against a function of the cell; uses injectivity of positions (C31).
Theorems: `Grid.C39_history`, `Grid.C39_init`, `Grid.C39_init_dims`, `Grid.C39_init_minMax`, `Grid.C39_init_center`, `Grid.C39_position_throws` [propext, Quot.sound].

### C40 — Peak finder reports exactly the strict local maxima (partial)
The sliding window loop on top of the heap model with the invariant "the heap holds the cells of the window, and stale ones outside of it". In one dimension with inequivalent values the invariant determines the peaks exactly. The witnesses in two and three dimensions are evaluated by the kernel.
Theorems: `PeakFinder.C40_oneDim_partial`, `PeakFinder.C40_cells_partial`, `PeakFinder.C40_returns_partial`, `PeakFinder.C40_setDomain`, `PeakFinder.C40_violated`, `PeakFinder.C40_twoDim_violated` [propext, Quot.sound], `PeakFinder.C40_threeDim_violated` [propext, Quot.sound].
Limits: exact in one dimension with distinct values apart from the first cell; false for the first cell, plateaus, zero windows; in two and three dimensions peaks are missed and cells that are no peaks are reported, even with distinct values. In any dimension the reported cells are distinct domain cells that pass the filter.

### C41 — Peak finder orders the peaks (proved)
Pops of the second heap; the minimum invariant of C20 (`popTop` only after all pushes) gives the order with ties.
Theorems: `PeakFinder.C41_order`.
Limits: any comparator that is a strict weak order, ties included, any dimension, whenever detect returns.

### C42 — Parameter file semantics: last assignment wins (proved)
`getline` with the limit of 2000 characters, tokenisation, comments; induction on the lines against `Final`.
Theorems: `ParamMap.C42_read`, `ParamMap.C42_sorted`, `ParamMap.C42_overlong`, `ParamMap.C42_file` [propext, Quot.sound].

### C43 — Parameter write/read round trip (partial)
Writing and reading composed; uses C42. `C43_iff`: the parameters before the first long line are what is read back.
Theorems: `ParamMap.C43_roundtrip_partial`, `ParamMap.C43_long` [propext, Quot.sound], `ParamMap.C43_violated` [propext, Quot.sound], `ParamMap.C43_iff`, `ParamMap.C170_roundtrip_iff`.
Limits: lines of 2000 characters or more are not read back, and with them all later ones (C43_iff gives the exact part); tables without null characters.

### C44 — Command line semantics (partial)
Induction on the arguments against `ArgFinal`. `C44_iff`: the loop with the standard `isalpha` is the loop with a total one or stops at the first argument with such a byte.
Theorems: `ParamMap.C44_readArgs_partial`, `ParamMap.C44_negative_number` [propext], `ParamMap.C44_violated` [propext, Quot.sound], `ParamMap.C44_iff`.
Limits: isalpha is called with a negative value for a byte above 127 after a dash (undefined behaviour); proved exactly for all other command lines (C44_iff), and for all when the library answers false for such bytes.

### C45 — getParam returns the stored value or stores the default (partial)
Cases of `getParam` with `lexical_cast` as parameter.
Theorems: `ParamMap.C45_getParam_partial`, `ParamMap.C45_badCast` [propext], `ParamMap.C45_set_get`, `ParamMap.C45_violated` [propext], `ParamMap.C45_iff`.
Limits: a parameter that cannot be converted leaves the output untouched and the result is true; C45_iff: right exactly for the others.

### C46 — getParamContainer fills the whole container (proved)
Tokens of a string by `Tokens` (maximal words without delimiters), induction on them.
Theorems: `ParamMap.C46_container`, `ParamMap.C46_tokens_exist` [propext, Quot.sound].

### C47 — adaptTildeInPaths expands home paths (partial)
Iteration with the erased element tracked; `iterInvalid` when the loop goes on from it. `C47_iff`: exact tables, and the null pointer from getenv.
Theorems: `ParamMap.C47_noTilde_partial` [propext], `ParamMap.C47_tilde_violated`, `ParamMap.C47_violated`, `ParamMap.C47_iff`.
Limits: the current element is erased during the iteration: undefined behaviour for every value to expand; a second tilde prevents the expansion; C47_iff gives the exact tables for which it is right.

### C48 — Profiler counts and extremes (proved)
Histories of measurements in any linear order.
Theorems: `Profiler.C48_count_extremes` [propext, Quot.sound], `Profiler.C48_nan`.
Limits: for measurements in a linear order, i.e. doubles without NaN; C48_nan shows the behaviour with NaN on IEEE doubles.

### C49 — Profiler mean and variance (partial)
Welford recurrences with the divisor of the code, solved in closed form. `C49_iff` says for which measurements the results are right.
Theorems: `Profiler.C49_actual`, `Profiler.C49_average_partial`, `Profiler.C49_average_wrong`, `Profiler.C49_violated`, `Profiler.C49_iff`.
Limits: the average and the variance ignore the first measurement when there are two or more, and getVariance divides by the number minus one; what is computed is proved.

### C50 — Fourier evaluation (proved)
Loop as fold, equal to the finite sum over ℝ.
Theorems: `Functions.C50_fourier`, `Functions.C50_overflow_violated`.
Limits: over the reals, all vectors up to 2^31 elements; 2^31+2 elements overflow the int index.

### C51 — Angle normalisation (partial)
`floor` and `fmod` in an ordered field with the stored constants. `C51_iff`: right exactly from 0 to less than one turn, by the irrationality of pi.
Theorems: `Functions.C51_normalize_partial`, `Functions.C51_range_violated`, `Functions.C51_turn_violated`, `Functions.C51_violated`, `Functions.C51_iff`.
Limits: normalize180 holds; the other two use decimal constants larger than 2*pi, so they hold for those constants only.

### C52 — Range of the cosine over an interval (proved)
Cases on the multiples of π in the interval; monotonicity of the cosine.
Theorems: `Functions.C52_findLUCos`.
Limits: exact minimum and maximum over the reals, for both orders of the ends.

### C53 — Bounds of a Fourier series over an interval (proved)
Term by term: each pair of coefficients is an amplitude and a phase, bounded with C52.
Theorems: `Functions.C53_findLUFourier`, `Functions.C53_empty_violated`, `Functions.C53_frequency_violated`.
Limits: bounds for the documented series (frequencies 2k); an empty vector is read out of bounds; evaluateFourier uses frequencies k, so the bounds do not apply to it.

### C54 — PNEBI look-up table (partial)
The table construction, binary search and interpolation; invariants on strictly increasing abscissae. Exact conditions: tables from order 1 on (`C54_build_iff`), orders below that of the table (`C54_eval_iff`).
Theorems: `Functions.C54_table_partial`, `Functions.C54_eval_partial`, `Functions.C54_nodes_partial`, `Functions.C54_vector_partial`, `Functions.C54_order_violated`, `Functions.C54_zero_violated`, `Functions.C54_violated`, `Functions.C54_empty` [propext, Quot.sound], `Functions.C54_build_iff`, `Functions.C54_eval_iff`, `Functions.C54_even`.
Limits: everything but the largest order, whose evaluation aborts, and order 0, which reads out of bounds.

### C55 — Fast trigonometric approximations (proved)
Symmetries of the reduction to the first octant over ℝ.
Theorems: `Functions.C55_cosSin`, `Functions.C55_atan2`, `Functions.C55_atan2_zero`.
Limits: over the reals; the zero vector has no quadrant and gives NaN.

### C56 — Scalar TLS consensus returns the best candidate (proved)
The sweep over the sorted end points with running sums; the invariant identifies the running set with `overlap`, the cost with `cost`.
Theorems: `Tls.C56_tls`, `Tls.C56_empty` [propext, Quot.sound], `Tls.C56_lengths` [propext, Quot.sound], `Tls.C56_consensus_violated`.
Limits: exact arithmetic; the empty input dereferences an end iterator; the documented maximum consensus is false (witness).

### C57 — Nearest point on a box surface (proved)
Loop invariant over the coordinates: clamped point when outside, nearest face when inside; optimality against every point of the surface.
Theorems: `Box.C57_nearest`.
Limits: exact arithmetic; box sizes at least zero, dimension at least one (with dimension zero the assertion fails).

### C58 — GIS local conversions are inverse (partial)
Field algebra; the scale factors never vanish for latitudes, they vanish at longitudes 90 + 180 k.
Theorems: `Gis.C58_roundtrip_partial`, `Gis.C58_violated`, `Gis.C58_iff`.
Limits: exact arithmetic; fails exactly at the origins of longitude 90 + 180 k.

### C59 — Orientation and angle interval predicates (partial)
Algebra for `ccw`; cases on the normalised angles against "some representative is met going counter-clockwise".
Theorems: `Geometry2.C59_ccw`, `Geometry2.C59_angles_partial`, `Geometry2.C59_cone`, `Geometry2.C59_area_violated`, `Geometry2.C59_turn_violated`, `Geometry2.C59_full_turn_violated`, `Geometry2.C59_violated`.
Limits: exact arithmetic with the stored constants; ccw is twice the documented area; the interval of a full turn is empty and the turn constant is truncated (witnesses).

### C60 — Hough plane votes (partial)
Fold over the points and cells; the counter of a cell is the cardinality of the points voting for it; sizes, divisions and conversions checked. `C60_iff` is the exact condition on the cells and points.
Theorems: `Hough.C60_init`, `Hough.C60_insert_partial`, `Hough.C60_range_partial`, `Hough.C60_notify_violated`, `Hough.C60_bin_violated`, `Hough.C60_iff`.
Limits: exact counts for at least 8 cells of phi, with a first bin of twice the width; below 8 cells the remainder by zero is undefined; the projections are in exact arithmetic.

### C61 — Hough plane parameters (partial)
The overloads compared as functions; vote of the points of a plane by `floor`/`round` arithmetic.
Theorems: `Hough.C61_overloads_iff`, `Hough.C61_votes_partial`, `Hough.C61_partial`, `Hough.C61_outside` [propext, Quot.sound], `Hough.C61_violated`, `Hough.C61_rounding_violated`.
Limits: one overload forgets rhoMin, so that it agrees only for rhoMin = 0; the votes are right in exact arithmetic, wrong after rounding in float.

### C62 — Hough line votes (partial)
The empty body of `insert`; the transform stays zero along every history, the peak finder on zeros finds nothing.
Theorems: `Hough.C62_init`, `Hough.C62_insert_iff_partial`, `Hough.C62_violated`, `Hough.C62_no_lines` [propext, Quot.sound].
Limits: the code of insert is empty: the property holds exactly for the points that vote for no cell, and no sequence of calls finds a line.

### C63 — Correspondence graph edges (partial)
Sorted distance lists, `upper_bound` and the loops; each edge is characterised by `Consistent`, the index arithmetic by mixed radix. After several insertions the links are those of all the pairs of insertions (`C63_history`), which gives the exact condition (`C63_history_iff`).
Theorems: `CorrGraph.C63_edges_partial`, `CorrGraph.C63_symm` [propext], `CorrGraph.C63_tolerance`, `CorrGraph.C63_violated`, `CorrGraph.C63_dst_violated`, `CorrGraph.C63_fewer_violated`, `CorrGraph.C63_no_items`, `CorrGraph.C63_history`, `CorrGraph.C63_history_iff`.
Limits: proved for objects whose items are inserted once; false for objects whose items are inserted again (the old distances are kept; with fewer items an assertion fails); the links after any number of insertions without a decrease, and when they are right, in C63_history and C63_history_iff.

### C64 — Correspondence association returns maximal consistent sets (partial)
Bron–Kerbosch with the reading `lax` (visit a copy) or the C++ one; invariant "current clique, candidates and excluded nodes are exactly the common neighbours"; maximality and uniqueness against `MaximalClique`.
Theorems: `CorrGraph.C64_undefined`, `CorrGraph.C64_violated`, `CorrGraph.C64_no_association` [propext, Quot.sound], `CorrGraph.C64_cliques_partial`, `CorrGraph.C64_small_partial`, `CorrGraph.C64_limit` [propext, Quot.sound], `CorrGraph.C64_limit_violated`, `CorrGraph.C64_exhausted`.
Limits: the behaviour is undefined for every non-empty input and nothing is ever returned; what is proved is that the printed cliques would be the maximal ones if the loop visited a copy and the counter did not reach 200.

### C65 — Plane aligner frame (partial)
Gram–Schmidt frame and affine maps over ℝ; determinant and orthogonality by algebra.
Theorems: `PlaneAligner.C65_frame_partial`, `PlaneAligner.C65_violated`, `PlaneAligner.C65_coeffs`, `PlaneAligner.C65_null_normal`, `PlaneAligner.C65_transform`, `PlaneAligner.C65_sequence`, `PlaneAligner.C65_initial`, `PlaneAligner.C65_tolerance`, `PlaneAligner.C65_compose`, `PlaneAligner.C65_iff`.
Limits: all but that the plane goes to height zero, which is false: it goes to height -d/|n|; exact arithmetic, Eigen and PCL operations modelled from their documentation; C65_iff: exactly the planes through the origin.

### C66 — Directory listing is sorted and complete (proved)
Fold over the directory entries, permutation and sortedness.
Theorems: `Io.C66_listing`, `Io.C66_exception`.
Limits: the file system is a parameter; the exceptions of the directory iterator are included.

### C67 — Re-initialising a grid does not mix cells (partial)
Re-initialisation keeps the storage by position; the cells move unless the inner sizes agree. `C67_moves` gives the value of every cell after a second initialisation, `C67_iff` the exact condition on the two domains. In two dimensions with a fixed corner: exactly when the first dimension is kept or there is a single row (`C67_plane_iff`); in any number of dimensions, exactly when the products of the sizes before every axis with at least two common cells agree (`C67_space_iff`).
Theorems: `Grid.C67_partial`, `Grid.C67_violated`, `Grid.C67_moves`, `Grid.C67_iff`, `Grid.C67_plane_iff`, `Grid.C67_space_iff`.
Limits: resize keeps values by position, so they move to other cells; right when only the last dimension changes.

### C68 — Commented parameters are ignored when read (proved)
Written lines start with the prefix, hence with `#`, hence are comments of C42.
Theorems: `ParamMap.C68_prefix`.

### C69 — getParamContainerInserter passes the convertible tokens (proved)
Tokens as in C46.
Theorems: `ParamMap.C69_inserter`.

### C70 — Float power-of-two interval (partial)
Exact values of the composed floats against dyadic intervals.
Theorems: `MortonFloat.C70_bounds_partial`, `MortonFloat.C70_dyadic_partial`, `MortonFloat.C70_equal_violated`, `MortonFloat.C70_double_violated` [propext, Quot.sound], `MortonFloat.C70_violated`, `MortonFloat.C70_iff`.
Limits: proved for all pairs of different finite floats (dyadic part: same sign, not both subnormal); equal arguments shift by -1.

### C71 — Float Morton distance (partial)
Exponents against the dyadic cells of the exact values.
Theorems: `MortonFloat.C71_distance_partial`, `MortonFloat.C71_violated` [propext, Quot.sound], `MortonFloat.C71_aligned_partial`.
Limits: proved on tame floats; false on subnormals; C71_aligned_partial: also with aligned negative powers of two.

### C72 — Float Morton split (partial)
From C17 and C70.
Theorems: `MortonFloat.C72_split_partial`, `MortonFloat.C72_negative_violated`, `MortonFloat.C72_violated`.
Limits: proved when every pair of coordinates differs and is nonnegative (not both subnormal) or of opposite sign; two negative coordinates give a mid that does not separate.

### C73 — PNEBI vector recurrence (proved)
Downward recurrence, induction; positivity of each step.
Theorems: `Functions.C73_pnebiVector`, `Functions.C73_positive`.
Limits: over every ordered field (recurrence) and the reals (positivity).

### C74 — Accuracy of the fast trigonometric functions (proved)
Taylor and Bernstein polynomial bounds for the sine and the arc tangent over ℝ.
Theorems: `Functions.C74_cosSin`, `Functions.C74_atan2`.
Limits: over the reals; the angle of a vector is the argument of the complex number.

### C75 — VectorArray in-place operators (partial)
Component loops with the argument read at each step (aliasing). `C75_scale_self` says what `v *= v[j]` computes, `C75_scale_iff` when this is right.
Theorems: `Geometry2.C75_operators_partial` [propext, Quot.sound], `Geometry2.C75_alias_violated`, `Geometry2.C75_scale_self`, `Geometry2.C75_scale_iff`.
Limits: arguments that are components of the array itself are read after they are overwritten (witness).

### C76 — Pose to isometry (proved)
Rotation matrix times vector over ℝ; composition of `prerotate` and `pretranslate` with any transformation.
Theorems: `Geometry2.C76_pose`, `Geometry2.C76_compose`.
Limits: exact arithmetic.

### C77 — Local coordinates do not depend on the meridian (partial)
Dependence of the scale factors on the origin.
Theorems: `Gis.C77_turn_partial`, `Gis.C77_violated`, `Gis.C77_iff`.
Limits: exact arithmetic; the scale of x depends on the longitude of the origin instead of its latitude; C77_iff: exactly the turns that keep the coordinates.

### C78 — ECEF coordinates lie on the ellipsoid (partial)
Algebra on the ellipsoid equation with the stored constants; interval bounds for their rounding.
Theorems: `Gis.C78_ellipsoid`, `Gis.C78_constants_partial`, `Gis.C78_constants_violated`.
Limits: positions proved; the constant ROFL_WGS84_ECCENTRICITY is the second eccentricity and does not match its comment (witness).

### C79 — Box registration step is a rigid motion (proved)
Orthogonality of V I Uᵀ and its determinant for any correct SVD.
Theorems: `Box.C79_rigid`.
Limits: exact arithmetic; the singular value decomposition of Eigen is a parameter assumed correct for the matrix it is given.

### C80 — Box registration step is optimal (partial)
Trace maximisation (von Neumann style inequality for the sign pattern) over an ordered field; witness in space for every correct SVD. `C80_excess` is the cost above the optimum, `C80_iff` the exact condition and `C80_last` shows that the last singular value is the right one to correct.
Theorems: `Box.C80_optimal_partial`, `Box.C80_plane`, `Box.C80_space_violated`, `Box.C80_violated`, `Box.C80_last`, `Box.C80_excess`, `Box.C80_iff`.
Limits: proved in the plane and without reflection; in space the sign is corrected at the wrong singular value (witness, for every correct decomposition).

### C81 — Initial box alignment (partial)
Permuted eigenvectors; the determinant of the permutation decides the orientation. `C81_iff` is the exact condition on the orientation.
Theorems: `Box.C81_init_partial`, `Box.C81_orientation_violated`, `Box.C81_violated`, `Box.C81_iff`.
Limits: all but the orientation; for every solver and cloud some order of the sizes gives a reflection.

### C82 — Hough planes found (partial)
On top of C39–C41: detected cells are distinct, in the grid, sorted.
Theorems: `Hough.C82_findPlanes_partial`, `Hough.C82_params`, `Hough.C82_parallel`, `Hough.C82_normals`, `Hough.C82_window`, `Hough.C82_violated`.
Limits: order, membership in the grid and parameters; the cells are not exactly the peaks (first rho and first normal never found).

### C83 — Hough lines found (partial)
As C82 for the two passes of the line detector; with distinct counters the one-dimensional exactness of C40 gives the local maxima.
Theorems: `Hough.C83_findLines_partial`, `Hough.C83_peaks_partial`, `Hough.C83_normals`, `Hough.C83_violated`.
Limits: order and correspondence for all contents; exactly the local maxima for distinct counters except the first angle and distance, which are never found.

### C84 — Stamped strings sort chronologically (proved)
Digits of bounded numbers compare lexicographically as the numbers.
Theorems: `Io.C84_order`, `Io.C84_null` [none].
Limits: std::put_time modelled for the C locale and years 1900-9999.

### C85 — Arc tangent in double arithmetic (proved)
`Verif/Ieee` connects the operations of the logical model of floating point numbers of Lean core (`Float.Model`) to real numbers (correct rounding, exactness on the grid, monotonicity) and propagates absolute errors (`Approx`); the polynomial error is C74.
Theorems: `FunctionsFp.C85_atan`, `FunctionsFp.C85_atan_rounding`, `FunctionsFp.C85_atan_odd`.
Limits: IEEE-754 double arithmetic, every operation rounded separately.

### C86 — Four quadrant arc tangent in double arithmetic (partial)
As C85; the quotient is in [0, 1] also when it underflows; the range follows from monotonicity of rounding; oddness is bitwise.
Theorems: `FunctionsFp.C86_atan2`, `FunctionsFp.C86_atan2_arg`, `FunctionsFp.C86_atan2_odd`, `FunctionsFp.C86_atan2_range`, `FunctionsFp.C86_atan2_zero`, `FunctionsFp.C86_atan2_inf`, `FunctionsFp.C86_atan2_one_inf`, `FunctionsFp.C86_violated`, `FunctionsFp.C86_iff`.
Limits: all but that the result is a number: NaN at the zero vector and for two infinite components (C86_iff: exactly then).

### C87 — Cosine and sine in double arithmetic (partial)
The number of turns, the floor and the remainder with their rounding errors; the parabolas slightly beyond half a turn; C74 for the approximation. Witness evaluated by the kernel.
Theorems: `FunctionsFp.C87_cosSin_partial`, `FunctionsFp.C87_violated`, `FunctionsFp.C87_inf`.
Limits: error bound 0.0012 + 2^k/2^46 for |x| <= 2^k, k <= 46; false for large arguments (10^18 gives 0, 0).

### C88 — Angle normalisation in double arithmetic (partial)
Quotient, floor, product and difference with their errors; exactness by the gap below the turn on the grid of doubles. Witnesses evaluated by the kernel. On the first negative turn the sum of the angle and the turn is rounded once; `C88_turn_iff` gives the exact angles that reach the excluded end (half an ulp, ties to the even turn).
Theorems: `FunctionsFp.C88_normalize_partial`, `FunctionsFp.C88_fixed_partial`, `FunctionsFp.C88_upper_violated`, `FunctionsFp.C88_lower_violated`, `FunctionsFp.C88_large_violated`, `FunctionsFp.C88_violated`, `FunctionsFp.C88_turn_iff`.
Limits: up to rounding for |angle| <= 2^50, exact inside the interval; the interval is left at both ends and for large angles.

### C89 — Arc tangents in float arithmetic (partial)
As C85, C86 with the conversions between the two formats. The range: every rounding is monotone, so the result is at most the `float` nearest to π (`C89_range_partial`), which is the only value outside (`C89_range_iff`).
Theorems: `FunctionsFp.C89_atan2f`, `FunctionsFp.C89_atanf`, `FunctionsFp.C89_atanf_odd`, `FunctionsFp.C89_range_violated`, `FunctionsFp.C89_range_partial`, `FunctionsFp.C89_range_iff`.
Limits: all but the range: fastAtan2f(-1, 0) exceeds pi; proved: no result exceeds the float nearest to pi, which is the only value outside the range.

### C90 — Cosine and sine in float arithmetic (partial)
As C87 with the conversions between the two formats; the overload of `floor` is a parameter.
Theorems: `FunctionsFp.C90_cosSinf_partial`, `FunctionsFp.C90_violated`, `FunctionsFp.C90_floor_differ`, `FunctionsFp.C90_inf`.
Limits: error bound 0.0012 + 2^k/2^17 for |x| <= 2^k, k <= 17, for both overloads of floor; false for large arguments.

### C91 — Orientation predicates in float arithmetic (partial)
Relative errors of the differences and products; the last difference has the sign of the exact one since every difference of floats is a multiple of the smallest one. Orientation is `LeftTurn` of C59 on the stored coordinates. Witnesses evaluated by the kernel.
Theorems: `Geometry2Fp.C91_sign_partial`, `Geometry2Fp.C91_integers_partial`, `Geometry2Fp.C91_swap_partial`, `Geometry2Fp.C91_cone_partial`, `Geometry2Fp.C91_cone_integers_partial`, `Geometry2Fp.C91_sign_violated`, `Geometry2Fp.C91_cyclic_violated`, `Geometry2Fp.C91_cone_violated`, `Geometry2Fp.C91_violated`.
Limits: sign exact for determinants above 2^-22 of their terms and for integers up to 2^11; exchange of two points exact; wrong for nearly collinear points.

### C92 — Angle intervals in float arithmetic (partial)
As C88 in float, for both overloads of `floor` (with that of `double` the product is exact); the intervals are stated with exact turns of 2π, the error of K_2PI included in the margins. On the first negative turn `C92_turn_iff` gives the exact angles that reach the excluded end, for both forms of `floor` (the turn is odd, so ties go down; the second rounding changes nothing).
Theorems: `Geometry2Fp.C92_normalize_partial`, `Geometry2Fp.C92_angle_partial`, `Geometry2Fp.C92_interval_partial`, `Geometry2Fp.C92_fixed_partial`, `Geometry2Fp.C92_upper_violated`, `Geometry2Fp.C92_lower_violated`, `Geometry2Fp.C92_large_violated`, `Geometry2Fp.C92_violated`, `Geometry2Fp.C92_turn_iff`.
Limits: up to rounding for |angle| <= 2^21, exact inside the interval, intervals decided right away from their ends; the interval is left at both ends and for large angles.

### C93 — Printed look-up table (partial)
Loop with its increment in `int`; the rows are those of the multiples of the quotient and the last entry; counting them gives between n + 1 and 2n rows, never n. Exact conditions: the number of rows (`C93_count_iff`) and the repeated row (`C93_twice_iff`).
Theorems: `LutPrint.C93_rows_partial`, `LutPrint.C93_count_violated`, `LutPrint.C93_undefined` [propext, Quot.sound], `LutPrint.C93_violated`, `LutPrint.C93_count_iff`, `LutPrint.C93_twice_iff`.
Limits: which rows are printed; their number is above n, up to 2n.

### C94 — Texts determine the indices, intervals and labels (partial)
Own decimal printer with its inverse; lists joined by a separator that is not a character of the items are injective by induction. The default format of the streams is trusted. `C94_interval_iff`: defined exactly when no sum overflows.
Theorems: `Text.C94_outIdx`, `Text.C94_labels`, `Text.C94_interval_partial`, `Text.C94_interval_violated` [none], `Text.C94_violated` [propext], `Text.C94_interval_iff`.
Limits: indices and labels in full; intervals exactly when the sums of bounds and lengths do not overflow (C94_interval_iff).

### C95 — Text of a heap (proved)
`level i` is the logarithm of `i + 1`; induction on the last element against the filter of the indices by level.
Theorems: `Text.C95_heap`.

### C96 — Scoped timers (partial)
Programs are trees of blocks with timers and the clock is any function of the number of its readings; the times of the destructors are those of the language (trusted): end of the block for a variable, end of the statement for a temporary.
Theorems: `Profiler.C96_scoped_partial` [propext, Quot.sound], `Profiler.C96_macro` [none], `Profiler.C96_violated`.
Limits: holds for declared timers; the macro makes a temporary which measures nothing of the block.

### C97 — Report of the profiler (proved)
`stats_` as a sorted list equal to the function of C48, then C48. Outputs of labels and doubles are parameters.
Theorems: `Profiler.C97_report`.

### C98 — Output macros (partial)
Text of each macro against a list of pairs joined by ", ".
Theorems: `Text.C98_report_partial`, `Text.C98_seven_violated`, `Text.C98_violated`.
Limits: ROFL_VAR7 writes the seventh value beside the sixth expression.

### C99 — Construction of Morton tree items (partial)
`values` as cells that may be indeterminate, `std::copy` as a loop of checked writes. `C99_iff`: exactly the lists of the right size.
Theorems: `MortonTree.C99_item_partial`, `MortonTree.C99_short_violated`, `MortonTree.C99_long_violated`, `MortonTree.C99_violated`, `MortonTree.C99_iff`.
Limits: holds exactly for lists of the size of the dimension; longer lists are written out of bounds, shorter ones leave indeterminate coordinates.

### C100 — Box search around a centre (partial)
Promotions, overflow and wrap of each integer type; the two corners against the absolute difference of each coordinate. `C100_iff`: a corner that wraps is on the wrong side of the centre.
Theorems: `MortonTree.C100_box_partial`, `MortonTree.C100_overflow_violated` [propext, Quot.sound], `MortonTree.C100_wrap_violated`, `MortonTree.C100_violated`, `MortonTree.C100_reports_nothing_violated`, `MortonTree.C100_iff`.
Limits: holds exactly when the corners are representable (C100_iff, ranges that are not negative); otherwise int and long overflow and the other types wrap; the search itself reports nothing (C16).

### C101 — Text of Morton tree items (proved)
As C94: split at the separators.
Theorems: `Text.C101_item`, `Text.C101_printIt`, `Text.C101_printInter`, `Text.C101_form`.
Limits: coordinates of type int.

### C102 — Assertion macros (partial)
Effects as texts and exit argument against a specification; the grammar of `if` as a small parser, in which the macro is its tokens. Before an `else` it works exactly when the first condition holds and the asserted one does not (`C102_else_iff`); without `else` at any depth (`C102_nested`).
Theorems: `Text.C102_assert_partial`, `Text.C102_else_violated` [propext], `Text.C102_violated`, `Text.C102_else_iff` [propext], `Text.C102_nested` [propext, Quot.sound].
Limits: all but the use before an else, which pairs with the if of the macro.

### C103 — Parameter files (partial)
The file system is a parameter (openable, space); then C43. A cut text is whole lines and a part of the next one (`write_cut`); the table is read back exactly if all but the last character fits (`C103_iff`).
Theorems: `ParamMap.C103_file_partial`, `ParamMap.C103_full_violated`, `ParamMap.C103_violated`, `ParamMap.C103_cut`, `ParamMap.C103_iff`.
Limits: all but a full disk, where the result is true and the text is cut; the table is read back exactly when all but the last character fits, otherwise the complete lines and possibly one shortened value.

### C104 — Range of the Hough detectors (partial)
Real arithmetic: arc cosine and arc sine give the parameters, the cell is a floor; conversely two points of the line determine the normal up to sign.
Theorems: `Hough.C104_planes_partial`, `Hough.C104_lines_partial`, `Hough.C104_lines_violated`, `Hough.C104_violated`.
Limits: planes in full; lines exactly when the normal towards the line does not point downwards (rhoMin is 0 and theta is below pi).

### C105 — Profiler statistics in double arithmetic (partial)
The same model of `updateStat`, instantiated with IEEE doubles. Invariant over the history: an update from the third measurement on stays between the old average and the measurement (half of a distance rounds to at most the distance, then monotonicity of rounding); the second measurement is replaced by a number within 2^-52 of the distance (rounded to the nearest).
Theorems: `Profiler.C105_double_partial`, `Profiler.C105_exact_partial`, `Profiler.C105_violated`.
Limits: up to 2^-52 of the range of the measurements for the average and 2^-51 of its square for the sum; exactly it fails for 1.0 and 1e-30.

### C106 — Range of the cosine in double arithmetic (partial)
`fmod` is modelled bit by bit and proved exact. The results are compared with a cosine of period exactly `2.0 * M_PI`, which differs from the cosine by at most |y|/2^54; the comparisons of rounded reduced arguments are related to the exact ones by monotonicity of rounding, and the reduced arguments of an interval containing a multiple of the turn are proved different (ties are rounded to the even mantissa of the turn). `cos` is a parameter with error δ.
Theorems: `FunctionsFp.C106_range_partial`, `FunctionsFp.C106_violated`.
Limits: for arguments up to M the error is that of cos plus 2^-48 + M / 2^54; for large arguments the reduction modulo 2.0 * M_PI is wrong.

### C107 — Truncated least squares in floating point (partial)
The sweep is modelled operation by operation over IEEE numbers of either format. Invariant over the endpoints: each accumulator is within a bound, proportional to the number of endpoints passed, of the exact sum over the active measures, and the sum of the weights is a multiple of a power of two. Hence the candidate of a non-empty set is near its exact weighted mean and cost; the candidate of the empty set has cost NaN or nearly the sum of all ranges, more than that of a single measure. For sizes beyond the bounds there are witnesses, evaluated by the kernel.
Theorems: `TlsFp.C107_tls_partial`, `TlsFp.C107_double`, `TlsFp.C107_float`, `TlsFp.C107_cap`, `TlsFp.C107_lengths`, `TlsFp.C107_empty`, `TlsFp.C107_violated`, `TlsFp.C107_float_violated`.
Limits: up to explicit errors, when the sizes of the values and of the ranges and the number of measures fit the precision; in general false: the rounding errors left after the last endpoint can be chosen as the estimate.

### C108 — Fourier series in double arithmetic (proved)
The loop is modelled operation by operation over IEEE doubles; `cos` and `sin` are parameters with an absolute error at the angle. The pair of the rotated cosine and sine is a complex number: the distance to the unit complex number of the angle k θ grows by a constant in each step (product of complex numbers, rounding of each component), and the running sum has an error proportional to the number of terms.
Theorems: `FunctionsFp.C108_fourier`.

### C109 — Bounds of a Fourier series in double arithmetic (partial)
`sqrt` is the square root of the logical model of Lean core, proved correctly rounded (`Ieee/Sqrt`: integer square root and remainder). The relative error of the amplitude includes underflow of the squares; the error of the angle includes the one of `atan2`; the range of the cosine is the one of C106, moved to the exact ends (cosine is 1-Lipschitz). The two results are compared with the sums of the minima and maxima of the terms (which exist by compactness), so loose bounds are excluded too. The negation: coefficients 1 and 2^-30, amplitude rounded to 1. The library functions assumed exist (`roughCos`, `roughAtan2`).
Theorems: `FunctionsFp.C109_near_partial`, `FunctionsFp.C109_empty_violated`, `FunctionsFp.C109_violated`.
Limits: up to an explicit error, for coefficients up to 2^500 and angles up to 2^900 (when the error of one sinusoid is at most 1); exact bounds are false, as the amplitude is rounded.

### C110 — Votes of the plane detector in float arithmetic (partial)
The projection, the difference, the quotient and the conversion to `int` are modelled in `float`, the grids and loops are those of C60. The projection is within 17 * 2^(k-25) of the exact one for coordinates up to 2^k, the quotient times the resolution within 33 * 2^(k-25) of the exact difference; the truncation of a finite number is proved equal to the truncation of its value. Hence each counter grows by at least the number of points in the bin made smaller by the margin and at most the number in the bin made larger. The normals of the table are any floats up to 1: their error with respect to the angles is not part of C110 (`cos` may be the one of `float` or of `double`). Violations by evaluation in the kernel; NaN for every detector.
Theorems: `HoughFp.C110_index_partial`, `HoughFp.C110_insert_partial`, `HoughFp.C110_plane_partial`, `HoughFp.C110_violated`, `HoughFp.C110_plane_violated`, `HoughFp.C110_nan_violated`, `HoughFp.C110_far_violated`.
Limits: for coordinates up to 2^k, -60 <= k <= 60, indices below 2^30 and at least 8 cells of phi: exact up to a margin of 33 * 2^(k-25) at the ends of the bins; false at the ends, for far points and for NaN.

### C111 — Accuracy of the order 0 PNEBI polynomial (proved)
The Bessel functions are defined by their power series (`Bessel/Spec`). Up to 3.75 the polynomial is compared with a partial sum and a bound of the rest; beyond, sqrt(x) exp(-x) I_0(x) solves a differential equation, a polynomial in 1/x with a small residual is found (tau method) and its distance from the solution bounded by the residual; the polynomial of the code is compared with it. The inequalities between polynomials are certified by non-negative Bernstein coefficients, integers compared by the kernel.
Theorems: `Bessel.C111_accuracy`.

### C112 — Accuracy of the PNEBI vector (partial)
The back recursion gives P_0 c_k / c_0 for a sequence of the recursion of the Bessel functions. Its distance from I_k / I_0 is computed exactly (Casoratian of the recursion) and bounded for x up to 5 n + n^2 / 10 by the products of the ratios I_(j+1) / I_j. For x from 2048 n^2 on the start order 2 (n + (int) sqrt(40.0 * n)) is too low: c_1 / c_0 is bounded above, I_1 / I_0 below.
Theorems: `Bessel.C112_accuracy_partial`, `Bessel.C112_range_partial`, `Bessel.C112_large_violated`, `Bessel.C112_violated`.
Limits: proved for |x| <= 5 n + n^2 / 10 (there, from 1e-6 on, the relative error is at most 1e-6); false in general: for x >= 2048 n^2 the value of order 1 is less than a fifth of the function.

### C113 — Accuracy of the PNEBI look-up table (partial)
The orders are the correlations of the sequence (x/2)^j / j!, hence (Cauchy-Schwarz) the order 0 is convex and no order changes faster than it: this is the fact on which the sampling is based (the comment of the code derives it from f(k,x) <= f(0,x) only). Invariant of the construction: the stored derivative is at least 0.985 times the slope of the exact function at the last point, because the slope of the polynomial is at least 0.999 times the exact one (certificates, and the differential equation for large arguments) and the back recursion gives too low a value of order 1; the rise of the polynomial by 1e-8 at 3.75 is compared with the step. So the drop between consecutive points is at most tol / 0.985. Negations: a point between 2500 n^2 and 10000 n^2 exists or the table ends before; the second point below 1e-6 makes the secant 0 and the next step huge.
Theorems: `Bessel.C113_zero_partial`, `Bessel.C113_orders_partial`, `Bessel.C113_large_violated`, `Bessel.C113_tiny_violated`, `Bessel.C113_violated`.
Limits: proved from the tolerance 2e-6 on, for the order 0 before the last point of the table, for all orders between the points up to 5 n + n^2 / 10; false in general: for n >= 2 and tolerances below 0.006 / n some order is wrong by more than 0.006 / n, for tolerances below 2e-6 the order 0 is wrong by 1.9 at 100.

### C114 — Order 0 PNEBI polynomial in double arithmetic (proved)
Each Horner step keeps a bound of the value and of the rounding error (`Near.step`), about 2^-42 in all; the result is compared with the polynomial over the reals of C111, whose error leaves room. Up to 3.75 the error of exp is multiplied by at most 1.1; beyond, the quotient by the correctly rounded sqrt adds a few rounding errors, and 1 / t is bounded by 1 so that the greatest doubles do not overflow.
Theorems: `FunctionsFp.C114_accuracy`, `FunctionsFp.C114_nan`, `FunctionsFp.C114_inf`.
Limits: also: NaN gives NaN and an infinity gives 0; sqrt is correctly rounded, exp has a given relative error on [-4, 0].

### C115 — PNEBI vector in double arithmetic (partial)
The loop in double arithmetic is compared with the exact back recursion: each value keeps a relative error that grows by a few units in the last place per step, also over the divisions by 1e10, as long as no value leaves the normal range (`Inv.step`); after 10^6 steps at most 1e-9. The values of the order 0 are those of C114 and the exact recursion is that of C112. When n is greater than 2e10 |x| a step multiplies by more than 1e10 and the division cannot keep up: `Grow.step` shows growth up to infinity, after which infinity times 0 and infinity over infinity make NaN.
Theorems: `FunctionsFp.C115_accuracy_partial`, `FunctionsFp.C115_range_partial`, `FunctionsFp.C115_order0_partial`, `FunctionsFp.C115_large_violated`, `FunctionsFp.C115_overflow_violated`, `FunctionsFp.C115_order_violated`, `FunctionsFp.C115_violated`.
Limits: proved for n <= 100000 and |x| <= 5 n + n^2/10 with n <= 3e8 |x| or |x| < 1e-6 (relative error 0.95e-6 + 1.2 d as well); the order 0 for |x| up to 2^400; false for large |x|, all values NaN for n >= 2e10 |x|, overflow of an int for great n.

### C116 — Round trip of the local coordinates in float arithmetic (proved)
The errors of the difference, the product, the quotient and the sum are relative (or below 2^-149), the length of a degree cancels. It is at least 2^-8: the floats near π/2 are multiples of 2^-23, so their cosines are at least 4.3e-8 (`cos_lower`), and the other two cosines are multiples of the first one.
Theorems: `GisFp.C116_roundtrip`.
Limits: up to an additional 2^-130; the scale of the longitude is at least 2^-8 as no float is a zero of the cosine, so the failure of C58 in exact arithmetic does not occur.

### C117 — Local coordinates in float arithmetic (proved)
The error of the angle in radians (`rad_is`) is half a unit in the last place of float; the Lipschitz bounds of the cosines give the error of the lengths, the error of the local coordinates follows from the relative errors of the difference and of the product.
Theorems: `GisFp.C117_accuracy`.
Limits: up to an additional 2^-150.

### C118 — ECEF coordinates in float arithmetic (partial)
The errors are propagated through the operations, for both overloads of sin and cos; between 2^22 and 2^23 the floats are multiples of 1/2, so a sum with less than 1/4 is the first summand (`absorb`).
Theorems: `GisFp.C118_accuracy_partial`, `GisFp.C118_altitude_violated`, `GisFp.C118_violated`.
Limits: accuracy in full; all altitudes below 25 cm in absolute value give the same coordinates, at every place.

### C119 — Plane detector from sizes in float arithmetic (proved)
`init` is modelled with the divisions in `double` and the products in `float`, for both overloads of cos and sin. The resolution has a relative error of little more than 2^-24, the index converted to `float` and the product another 2^-24 each, so an angle is within 3 * 2^-24 of its range; the components follow with the Lipschitz constant 1 of cos and sin. The grids are written by the loops of C60 (`rows_inv`); the votes follow from C110.
Theorems: `HoughFp.C119_init`, `HoughFp.C119_insert`, `HoughFp.C119_param`.
Limits: at least 8 cells of phi for the insertion (C60), k from -60 to 60, resolution at least 2^(k-27), range at most 2^(k+2), fewer than 2^64 points.

### C120 — PNEBI look-up table in double arithmetic (partial)
The argument of C113 with rounding. The values of a point come from C115 up to 2^400 and from a separate analysis beyond (`vector_far`: the factor 2/x absorbs every step, so the even values are those of order 0 and the odd ones tiny). The invariant of the loop (`LInv`) keeps the stored derivative above 0.98 times the exact slope and below 25/x, and the argument below (i tol)/cap, where cap is the least derivative: so no step overflows and each step is larger than the rounding error of the point (1e-8 of the step). The interpolation weight is in [0, 1] because rounding is monotone. Negations: as for C113, with C115; for the tolerances below 1.9e-6 the first three points are computed for any table that `init` returns.
Theorems: `FunctionsFp.C120_table`, `FunctionsFp.C120_zero_partial`, `FunctionsFp.C120_orders_partial`, `FunctionsFp.C120_violated`, `FunctionsFp.C120_large_violated`, `FunctionsFp.C120_tiny_violated`.
Limits: proved for tolerances from 2e-6: table and search defined for every finite argument, order 0 before the last point, all orders between the points up to 5 n + n^2/10; false for larger arguments and for smaller tolerances.

### C121 — Peak windows from sizes in float arithmetic (partial)
`ceil` is computed on the representation (`ceil?_fin`: it is the ceiling of the value). Integers up to 2^24 are floats, so rounding the quotient does not pass an integer (`mono_ge`): the number of cells is never too great. The quotient is at most half a unit in its last place above its rounded value. The exact condition (`C121_iff`): an integer is representable, so a quotient above the computed number of cells cannot be rounded below it; only a quotient rounded down to an integer fails.
Theorems: `HoughFp.C121_violated`, `HoughFp.C121_cells_partial`, `HoughFp.C121_multiple`, `HoughFp.C121_windows_partial`, `HoughFp.C121_decimal_violated`, `HoughFp.C121_undefined_violated`, `HoughFp.C121_iff`.
Limits: false when the size is just above a multiple of the resolution (0.3 with cells of 0.1); proved: never too great, exact for multiples, and covering up to 2^(k-25) of a cell for at most 2^k cells; undefined for zero resolutions, NaN and 2^31 cells or more.

### C122 — Correspondence graph in float arithmetic (partial)
The model of C63 only uses that the distances can be compared, so it is instantiated with `float` (`build_ordered`); rounding is monotone, so a distance that is strictly between the rounded limits is strictly between the exact ones, and no link is wrong; the rounded limits are at most half a unit in the last place from the exact ones, which gives the margin.
Theorems: `CorrGraph.C122_violated`, `CorrGraph.C122_edges_partial`, `CorrGraph.C122_multiples`, `CorrGraph.C122_far_violated`, `CorrGraph.C122_nan_violated`.
Limits: false: with the default tolerance 0.1 items at distances of 2^21 or more are never linked; proved: no wrong link, all the links with a margin of 2^(k-25) for distances up to 2^k, and exact for multiples of 2^j up to 2^(j+24); NaN distances are not a valid order for the sort.

### C123 — Nearest point of a box in floating point arithmetic (partial)
Halving is exact for sizes that are not tiny, so the coordinates of the faces are exact (`half_grid`). The comparisons and products are exact in `double`; only the differences are rounded. The invariant `FInv` keeps that the best face is the least one of the rounded distances, whose exact distances follow with a factor (1 + u) / (1 - u).
Theorems: `Box.C123_violated`, `Box.C123_nearest_partial`.
Limits: false for points inside: a face at nearly the same distance may be chosen; proved: exactly on the surface, nearest for the points outside, and up to a factor (1+u)/(1-u) inside, where u is 2^-24 or 2^-53.

### C124 — Iterators move in both directions (proved)
Each move recomputes the indices from the position, which the indexers do without overflow for all the positions from 0 to the number of cells; the backward loop is an induction on the position.
Theorems: `Interval.C124_bidirectional`.

### C125 — Division by powers of two (partial)
The fields of the result come from C04 and from the mask of the low bits (`mask_and`); a number in the same binade is not the quotient by another power of two. `C125_iff` lists the right inputs.
Theorems: `NumericTraits.C125_violated`, `NumericTraits.C125_never_violated`, `NumericTraits.C125_result`, `NumericTraits.C125_bounds_partial`, `NumericTraits.C125_iff`.
Limits: false for every normal number and every n other than 0: the exponent is not changed; proved: the exact result for all bit patterns, and that it is zero below 2^n and otherwise between |x|/2 and |x|.

### C126 — Grid after an initialisation that throws (partial)
`tryInit` keeps the state at the throw; the position of an inside cell is below the size of the domain (C31), so each cell is compared with the length of the storage that is left. The condition is exact (`C126_iff`): the last cell of the domain is lost whenever the storage is too short and the allocation fails.
Theorems: `Grid.C126_cells`, `Grid.C126_violated`, `Grid.C126_partial`, `Grid.C126_agrees` [propext], `Grid.C126_iff`.
Limits: false: the domain is stored before the storage is resized, so after a failed allocation inside cells are read out of bounds; proved: the exact behaviour of every cell, and the property when the allocation succeeds or the old storage is large enough.

### C127 — Orders accepted by evaluatePnebiVector and PnebiLUT (partial)
Case analysis on the order with the `int` operations kept; `sqrt_small` and `sqrt_large` bound the integer square root on both sides of the largest usable order; otherwise the calls of Verif/Functions/Model.lean are reached by rewriting, so that C54 and C73 apply.
Theorems: `Functions.C127_orders`, `Functions.C127_violated`, `Functions.C127_partial`, `Functions.C127_table`.
Limits: false: the order -1 writes to an empty vector and orders above 1073534600 overflow; a table for the orders -1 and 0 accesses elements that do not exist; proved: the exact behaviour for every order, and the property for the orders 0 to 1073534600.

### C128 — Frame of the plane aligner in float arithmetic (partial)
Every operation is within a bound of the exact one (`Near`); the normalisation is relatively exact (`normalize_approx`), the greatest component is never the one replaced by the axis x (`not_greatest`), so the orthonormalised axis has a length away from 0; the determinant is near 1, so the inverse is near the transpose (`inverse_near`).
Theorems: `PlaneAligner.C128_axes_partial`, `PlaneAligner.C128_partial`, `PlaneAligner.C128_violated`, `PlaneAligner.C128_tiny_violated`, `PlaneAligner.C128_huge_violated`.
Limits: false: the squared norm of a tiny normal underflows, that of a huge one overflows, and the transformation is not a number (all the finite normals with components up to 2^-78, or with one from 2^64 on); proved for squared lengths from 2^-120 and components up to 2^62, with the effect of the transformation on points.

### C129 — Inliers and center of the plane aligner in float arithmetic (partial)
The test of the inliers is a sum with an error bound per operation; the sum of m terms has an error of m² 2^(k-24) by induction (`sum_err`), which the projection and the division keep; for the negation the sum of ones is followed up to 2^24, where adding one has no effect (`sum_ones`).
Theorems: `PlaneAligner.C129_inlier`, `PlaneAligner.C129_partial`, `PlaneAligner.C129_violated`, `PlaneAligner.C129_none`, `PlaneAligner.C129_coeffs`, `PlaneAligner.C129_null`.
Limits: false: the sum of the inliers saturates (witness: 2^25 equal points); proved for up to 2^20 inliers with an explicit error, and the test of the inliers in full.

### C130 — Hough detectors after an initialisation that throws (partial)
`tryInit` of the detectors keeps the state at each of the three throws; the positions `i + a j` and `i + a (j + b r)` are computed without overflow (`read2`, `read3`) and compared with the storage that is left; without a failure the initialisation is that of C60 and C62, which ask nothing of the state before. The conditions are exact (`C130_planes_iff`, `C130_lines_iff`): the last bin cannot be read after a failed allocation, except that lines do not read the third storage.
Theorems: `Hough.C130_planes_partial`, `Hough.C130_lines_partial`, `Hough.C130_violated`, `Hough.C130_transform_violated`, `Hough.C130_spectrum_violated`, `Hough.C130_normals_violated`, `Hough.C130_line_transform_violated`, `Hough.C130_line_spectrum_violated`, `Hough.C130_planes_iff`, `Hough.C130_lines_iff`.
Limits: false: the numbers of bins are set before the three storages are resized; proved when the allocations succeed or are not needed (also after an initialisation that threw), and the exact result of each failure.

### C131 — Number of comparisons of the heap operations (proved)
Each operation is written once more in a monad that counts the calls of the comparator; `Costs` says that a counted computation has the result of the plain one and at most so many calls, and is closed under sequencing. The loops upwards halve `t + 1` twice per pass (`log_quarter`), the loops downwards divide `len / (i + 1)` by 4 or 2 with at most 7 calls per pass.
Theorems: `Heap.C131_comparisons`, `Heap.C131_history`.
Limits: every branch in which the comparator is called is counted; the counted operations have the results of the operations of C19; the bound of push is attained (example).

### C132 — Heaps of any size (partial)
The operations with conversions between `int` and `size_t` and positions modulo 2^64 are shown equal to those of C19 below 2^31 elements for push (`heapUpW_eq`) and 2^61 for the pops (`heapDownLoopW_eq`); a negative position has its parent beyond the storage, so that `heapUp` returns at once (`heapUpW_neg`). 2^31 elements are the exact bound (`C132_size_iff`).
Theorems: `Heap.C132_contents`, `Heap.C132_small_partial`, `Heap.C132_order_partial`, `Heap.C132_violated`, `Heap.C132_push_violated`, `Heap.C132_size_iff`.
Limits: false: push converts the position to int, so that from 2^31 to 2^32 - 1 elements (modulo 2^32) a pushed element is not moved and the top is wrong; proved: the contents in full, and the equality with the model of C19 to C21 while the heap has at most 2^31 elements.

### C133 — Disjoint sets of any number of items (partial)
The operations with the conversion of `nodes_.size()` to `int` and with the range checks are shown equal to those of C22 below 2^31 nodes; that the counter of the sets and the ranks stay in range follows from the simulation of C25 and the logarithmic ranks of C26. Beyond, the converted size is negative, so that every identifier is rejected. `parents` works exactly below 2^31 nodes (`C133_parents_iff`).
Theorems: `DisjointSet.C133_small_partial`, `DisjointSet.C133_violated` [propext, Quot.sound], `DisjointSet.C133_large_violated` [propext, Quot.sound], `DisjointSet.C133_parents_violated`, `DisjointSet.C133_overflow_violated` [none], `DisjointSet.C133_parents_iff`.
Limits: false: from 2^31 nodes on (modulo 2^32) find rejects every identifier, join joins nothing, size reads out of bounds and parents overflows; a negative number of sets lets the counter of join overflow; proved: the equality with the model of C22 to C27 while there are fewer than 2^31 nodes and no negative numbers of sets.

### C134 — Origin and unit of the measures of the scalar consensus (partial)
`step_moved`, `sweep_moved` and `minLoop_moved` carry the shift through the sweep: the accumulators of the moved measures are a function of those of the original ones and the cost is the same (`C134_origin`, for all inputs, errors and NaN included; the equal endpoints stay in the order in which the sort left them, `C134_sort`). For the unit, C56 applied to the scaled input gives the quantity that is minimised, `c` times the squared residuals plus the ranges (`C134_unit_partial`); the claim is false (`C134_unit_violated`), and in a small enough unit the estimate is always a single measure (`C134_small_unit`).
Theorems: `Tls.C134_origin` [propext, Quot.sound], `Tls.C134_sort`, `Tls.C134_unit_partial`, `Tls.C134_unit_violated`, `Tls.C134_small_unit`.
Limits: the shift is proved for all inputs; the unit is false: the cost adds ranges to squared residuals.

### C135 — Identifiers of a Morton tree of any size (partial)
The insertions with the conversion of `items_.size()` to `int` and the counter `id` are shown equal to those of C13 as long as fewer than 2^31 items are inserted, and the identifiers of C13 are then counted (`expected_ids`). Beyond, the counter of the range insertion overflows (`C135_range_violated`, by induction on the range) and the converted size is negative or repeated (`C135_negative_violated`, `C135_duplicate_violated`). `C135_iff` is the exact condition: identifiers are at most 2^31 - 1 (`low_run`), and below the limit the run is the unbounded one (`runW_fit`).
Theorems: `MortonTree.C135_small_partial`, `MortonTree.C135_violated`, `MortonTree.C135_range_violated`, `MortonTree.C135_negative_violated` [propext, Quot.sound], `MortonTree.C135_duplicate_violated` [propext, Quot.sound], `MortonTree.C135_iff`.
Limits: false: from 2^31 items on the counter of the range insertion overflows and single insertions give negative and repeated identifiers; proved below 2^31 items.

### C136 — Repeated box registration (partial)
By induction on the number of calls from C79 and, in the plane, C80 (`C136_plane_partial`; in any dimension the transformations are rigid, `C136_rigid_partial`). In space one step can move the box away: for sixteen points the matrix `S` is diagonal with a negative last entry, the code turns the box by 180 degrees and the second coordinates of four points leave the box (`C136_farther_violated`).
Theorems: `Box.C136_plane_partial`, `Box.C136_rigid_partial`, `Box.C136_farther_violated`, `Box.C136_violated`, `Box.C136_empty`.
Limits: proved in the plane; in space the transformations are rigid but one step can move the box away from the cloud.

### C137 — Sorting with the min-max heap (partial)
Induction on the sequence of ends (`drain_sorted`), with the order of the heap (C20) as invariant when the elements are taken out at the bottom only or are distinct, and with the weaker order of the min levels (`MinOrd`), which `popTop` preserves in the presence of ties, when they are taken out at the top only. A list of six elements with ties taken out at both ends is not sorted (`C137_violated`). With ties the bottoms must come first (`C137_phases_partial`). Ties are harmless exactly up to 5 elements (`C137_size_iff`).
Theorems: `Heap.C137_sort_partial`, `Heap.C137_violated` [propext, Quot.sound], `Heap.C137_phases_partial`, `Heap.C137_size_iff`.
Limits: false with ties when elements are taken out at the bottom after some at the top; proved with ties if no bottom is taken after a top, and for elements without ties in any order of the ends.

### C138 — Pose to isometry in float arithmetic (partial)
The products with the zeros and ones of the identity are exact, so that the matrix holds the results of `cos` and `sin` and the position (`C138_matrix`); a sum of two squares that is a power of four has a zero term (`sum_sq_pow`), so that the distances are preserved exactly only when the cosine or the sine is zero (`C138_isometry_iff`).
Theorems: `Geometry2Fp.C138_matrix`, `Geometry2Fp.C138_pose_partial`, `Geometry2Fp.C138_isometry_iff`, `Geometry2Fp.C138_angles_violated`, `Geometry2Fp.C138_violated`, `Geometry2Fp.C138_nan`, `Geometry2Fp.C138_vector`.
Limits: false: exact isometry only when the computed cosine or sine is zero; proved up to 2^-21 of the squared distances and areas, with the exact translation.

### C139 — Line detector from sizes in float arithmetic (proved)
The lemmas of C119 for the resolution, the angle and the functions of the library; addition commutes bit by bit (`Fp.add_comm`), so that the angles found are those of the table although the code adds the terms in the other order.
Theorems: `HoughFp.C139_init`, `HoughFp.C139_normals`, `HoughFp.C139_windows`.
Limits: the functions of the C library are parameters with errors up to a unit in the last place and results between -1 and 1.

### C140 — The heap uses its elements only through the comparator (proved)
Relational induction over every helper of the heap (`Sim`, `VecRel`): the same error or related results; the two special cases are instances of the relation.
Theorems: `Heap.C140_related` [propext, Quot.sound], `Heap.C140_relabelled` [propext, Quot.sound], `Heap.C140_comparator` [propext, Quot.sound].

### C141 — The peak finder uses only the order of the values of the domain (proved)
Relation 'the same cell of the domain' between the two heaps; a successful intersection with the domain has only cells of the domain even when the window is not representable (`intersect_inv`), so that no assumption on the moves is needed.
Theorems: `PeakFinder.C141_order`, `PeakFinder.C141_outside`, `PeakFinder.C141_monotone`, `PeakFinder.C141_filter`.

### C142 — Order and grouping of the points of a plane detector (proved)
The counters are the old ones plus the number of points with an index (`insert_ok`), which does not see the order; a failed conversion is the only error of the loops (`insert_cases`); the planes found by C141.
Theorems: `HoughFp.C142_order`, `HoughFp.C142_append`, `HoughFp.C142_found`.
Limits: with less than 8 angles phi every insertion is undefined (C60).

### C143 — Morton comparisons respect the order of the coordinates (proved)
Per-coordinate comparison of the most significant differing bit; with coordinates ordered alike the loop can only find a smaller one. For floats the decomposition is monotone outside of the cases of C09. `C143_tree` carries it over to the sorted items.
Theorems: `Morton.C143_never_after` [propext, Quot.sound], `Morton.C143_before`, `Morton.C143_box` [propext, Quot.sound], `MortonFloat.C143_float_never_after` [propext, Quot.sound], `MortonFloat.C143_float_before`, `MortonTree.C143_tree`.
Limits: the strict part for integers with at most 2^w coordinates and for tame floats.

### C144 — A Morton tree depends only on the multiset of the inserted values (proved)
`findItem` is the lower bound (C13), which counts; the sorted items are determined by their counts. For integers equivalent vectors are equal (C07).
Theorems: `MortonTree.C144_position`, `MortonTree.C144_same`, `MortonTree.C144_int`.

### C145 — Bounds for branch and bound (proved)
The bound of the cosine is attained at the ends or at a multiple of pi, so it is monotone in the interval and 1-Lipschitz; summed over the harmonics.
Theorems: `Functions.C145_cos`, `Functions.C145_inclusion`, `Functions.C145_gap`, `Functions.C145_point`.
Limits: exact arithmetic.

### C146 — Reading several parameter texts (proved)
The reader is a fold of the lines; an insertion with the same key overwrites the value, insertions with different keys commute.
Theorems: `ParamMap.C146_concat` [propext, Quot.sound], `ParamMap.C146_again`, `ParamMap.C146_swap`.
Limits: an example shows that an overlong line breaks the concatenation.

### C147 — The conversion to ECEF coordinates is injective and symmetric (proved)
Equal points, multiplied by the difference of the normals: the normal of the ellipsoid is strongly monotone (`slope`, `same_normal`). `C147_centre` shows that a bound on the altitude is needed.
Theorems: `Gis.C147_turn`, `Gis.C147_mirror`, `Gis.C147_injective`, `Gis.C147_centre`.
Limits: exact arithmetic.

### C148 — Order of the joins of disjoint sets (proved)
The simulation of C22 relates the state to the equivalence generated by the joins; two histories that generate the same equivalence have the same classes.
Theorems: `DisjointSet.C148_same`, `DisjointSet.C148_order`, `DisjointSet.C148_redundant`.

### C149 — Order of the measures of the scalar consensus (partial)
With distinct endpoints the sorted list is determined up to the indices of the measures (`sorted_twin`), and the sweep only reads the measures through them. Two intervals that touch are the counterexample.
Theorems: `Tls.C149_order_partial`, `Tls.C149_touch_violated`, `Tls.C149_violated`.
Limits: false when intervals touch: 0 and 1/2 with ranges 1/4 give 0 or 1/4 depending on the order; proved when no two endpoints coincide.

### C150 — Order of the measurements of the profiler (partial)
Corollaries of the description of the statistics as a fold of the own measurements; the average is the one of all measurements but the first (C49), so the exact condition is the first measurement.
Theorems: `Profiler.C150_labels` [propext, Quot.sound], `Profiler.C150_extremes` [propext, Quot.sound], `Profiler.C150_average_iff`, `Profiler.C150_violated`.
Limits: the average and variance depend on which measurement is the first (C49); count, minimum, maximum and independence of other labels proved.

### C151 — Precedence of the command line over the configuration file (partial)
`Program.configure` composes the readings of the table; C42, C44 and C45 describe each of them (`firstPart`). Two programs do not read the command line again: counterexample and the reversed precedence.
Theorems: `ParamMap.C151_precedence_partial`, `ParamMap.C151_reversed_violated`, `ParamMap.C151_violated`, `ParamMap.C151_iff`.
Limits: false for test_tls_scalar_consensus and test_morton_functions, where the file has precedence; proved for the other three programs.

### C152 — Correct correspondences of a rigid motion are found (partial)
The distances of moved points differ by at most twice the error (C76 and the triangle inequality), so the correct correspondences are a clique; a maximal clique contains it and C64 finds all of them. C64 also gives the undefined behaviour.
Theorems: `CorrGraph.C152_linked`, `CorrGraph.C152_found_partial`, `CorrGraph.C152_small_partial`, `CorrGraph.C152_matching`, `CorrGraph.C152_violated`.
Limits: associate has undefined behaviour and returns nothing (C64); proved: the links of the graph, and the printed sets when the loop is given the intended meaning and the search ends before the bound of 200 calls.

### C153 — Points near a detected plane (proved)
The loop is a sum over the filtered list (`plot_fold`), the mean of points between two parallel planes is between them; the bins of C60 are contained in the strip of the plane.
Theorems: `Hough.C153_centre`, `Hough.C153_overflow`, `Hough.C153_votes`, `Hough.C153_program`.

### C154 — Morton orders of integers and of floats agree (proved)
The level of a pair of floats is a strictly increasing function (`lift`) of the level of the pair of integers (`size_lift`), so both loops choose the same coordinate. The lemmas of C17 are generalised to negative powers of two whose partner is aligned (Regular.lean), which all integers of 24 bits are. `C154_bound` shows that 24 bits is exact.
Theorems: `MortonFloat.C154_agree`, `MortonFloat.C154_sorted`, `MortonFloat.C154_long`, `MortonFloat.C154_bound`, `MortonFloat.C154_distance`.
Limits: the floats are exact multiples (hypothesis Same); C154_bound: from -2^24 on the orders differ.

### C155 — The scalar consensus recovers the true value among outliers (proved)
By C56 the set chosen costs no more than the set of the true measures; if it contained none of them, its outliers would outweigh them (`chosen`). Weighted means stay among their values (`wmean_near`). `C155_tie` and `C155_noise` show that the two terms of the hypothesis are needed.
Theorems: `Tls.C155_robust`, `Tls.C155_recovery`, `Tls.C155_exact`, `Tls.C155_tie`, `Tls.C155_noise`.
Limits: exact arithmetic; C155_tie and C155_noise show that the hypotheses cannot be dropped.

### C156 — Scale of the local coordinates on the ellipsoid (partial)
Derivatives of the ECEF coordinates in closed form (`speed_lat`, `speed_lon`): the radii of curvature of meridian and parallel. The Fourier sums of the code are compared with them by polynomial bounds of the square root in the squared sine (`lat_scale`, `lon_scale`). `C156_east` gives the condition for the code, which uses the longitude in place of the latitude.
Theorems: `Gis.C156_north_partial`, `Gis.C156_east`, `Gis.C156_violated`.
Limits: the north scale is right everywhere; the east scale is that of the latitude equal to the longitude (exact condition up to 2e-4 in C156_east); exact arithmetic.

### C157 — Symmetries of the nearest point of a box (proved)
From the coordinate form of `associate` (C57). The contraction is that of the projection on each interval; `C157_needed` shows that the centre (mirror) and the inside points (contraction) are exceptions.
Theorems: `Box.C157_mirror`, `Box.C157_idempotent`, `Box.C157_contract`, `Box.C157_needed`.
Limits: exact arithmetic; C157_needed: the restrictions are needed.

### C158 — Symmetries of the correspondence graph (partial)
`links_iff` states the links by C63; the rest are relations between the conditions of two graphs. `C158_exchange_partial` is an equivalence: only the distance of the sources is compared with the minimum.
Theorems: `CorrGraph.C158_monotone`, `CorrGraph.C158_relabel`, `CorrGraph.C158_scale`, `CorrGraph.C158_exchange_partial`, `CorrGraph.C158_far_partial`, `CorrGraph.C158_violated`.
Limits: all but the exchange of the sets are proved; the exchange holds exactly for pairs of distances on the same side of the minimum (C158_exchange_partial).

### C159 — Self similarity of the Morton order (proved)
`ZLess` defines the order on vectors of integers by floor divisions, without types and bits; `cell_iff` relates these to the biased values and `C159_spec` to the code. The other theorems are statements about floor divisions of `2 x + e`, `x + m 2^j` and `-1 - x`.
Theorems: `Morton.C159_spec`, `Morton.C159_types`, `Morton.C159_children`, `Morton.C159_translate`, `Morton.C159_mirror`, `Morton.C159_needed` [propext, Quot.sound].
Limits: at most 2^w coordinates, see C08.

### C160 — Symmetries and tightness of the bounds of a Fourier series (proved)
`Extremes` says that two numbers are the least and the greatest value of a function between the angles; `term_extremes` finds those of a term from C50, and `C160_terms` determines the result from any extremes of the terms. The symmetries follow from symmetries of the terms.
Theorems: `Functions.C160_terms`, `Functions.C160_single`, `Functions.C160_shift`, `Functions.C160_period`, `Functions.C160_scale`, `Functions.C160_sum`, `Functions.C160_needed`.
Limits: exact arithmetic; rounding: C119.

### C161 — Peaks move with the map (proved)
simulation of the two runs; `Both` relates the values of two computations whenever both return, so that no bounds on the coordinates are needed for `C161_moved`. Each operation on intervals commutes with the offset and the heaps are related by C140.
Theorems: `PeakFinder.C161_moved`, `PeakFinder.C161_returns`, `PeakFinder.C161_needed`.
Limits: for domains of at most 2^31-1 cells.

### C162 — Direction of the axis of the measures of the scalar consensus (partial)
with different endpoints a set between those of the open and of the closed intervals around a point is a consensus set (`between_overlap`), a condition that does not depend on the direction; so the best consensus sets are the same in both directions, by C56.
Theorems: `Tls.C162_best_partial`, `Tls.C162_mirror_partial`, `Tls.C162_tie_violated`, `Tls.C162_violated`.
Limits: false when consensus sets tie: the one with the smaller values is taken in both directions; proved: both estimates come from sets of the least cost, and they are opposite with the same inliers when these sets have the same mean; exact arithmetic.

### C163 — Unit of the float Morton order (partial)
`code_zless` shows that the order of the codes in offset binary is the order `ZLess` of C159 on integers of any size, so that by C17 the comparison of floats is `ZLess` of their exact values; `cell_scale` shows that it does not depend on the unit, and `fields_scale` that the conditions of C17 do not either.
Theorems: `MortonFloat.C163_spec_partial`, `MortonFloat.C163_unit_partial`, `MortonFloat.C163_translate_partial`, `MortonFloat.C163_violated`.
Limits: false near the subnormals; proved for zero and magnitudes from 2^-103 on (negative powers of two if aligned, see C17), where the comparison is the Morton order of the exact values; moving both vectors by multiples of a common cell does not change it either.

### C164 — The counters of the plane detector turn with the cloud (proved)
points in the same bins give the same counters (`insert_same`, from the lemmas of C60); the projections on the turned normals are equal by the addition formulas, and the grid of normals is periodic in phi.
Theorems: `Hough.C164_turn`, `Hough.C164_mirror`, `Hough.C164_unit`.
Limits: exact arithmetic; the planes found do not turn with the cloud, as the first cells are never found (C82).

### C165 — Box registration moves with the scene (partial)
the cloud seen from the box is the same (`model_same`), so the matrix of the decomposition is only turned (`scatter_moved`). `svd_values` (by the characteristic polynomial) and `result_unique` show that all the decompositions of a matrix with singular values other than 0, of positive determinant or with a simple second value, give the same rotation; `eig_unique` shows that eigenvectors of distinct eigenvalues are determined up to sign, and the signs do not change the surface of the box.
Theorems: `Box.C165_step_partial`, `Box.C165_steps_partial`, `Box.C165_translate`, `Box.C165_unit_partial`, `Box.C165_init_partial`, `Box.C165_violated`, `Box.C165_init_violated`.
Limits: false when the rotation is not determined by the points (one point) and for the axes of the initial alignment; proved: translations in full, rotations and the unit of length when the singular values are not 0 and the determinant is positive or the second value is simple, and the placed surface of the initial alignment for distinct eigenvalues; exact arithmetic.

### C166 — Filter of the peaks (proved)
simulation of the run without filter by the run with it (`body_filtered`, `loop_filtered`): the heap of the window is the same and the heap of the peaks holds the cells that pass; nothing is assumed on domain, window or comparator. The order follows from C41.
Theorems: `PeakFinder.C166_filter`, `PeakFinder.C166_stricter`, `PeakFinder.C166_list`.
Limits: all dimensions, domains, windows and comparators.

### C167 — Mirror images and windows of the peaks of a row (partial)
from the characterisation of C40 for rows and the order of C41; `isPeak_mirror` shows that the peaks of the mirrored row are the mirrored ones.
Theorems: `PeakFinder.C167_mirror_partial`, `PeakFinder.C167_mirror_iff`, `PeakFinder.C167_window`, `PeakFinder.C167_violated`.
Limits: the window in full; the mirror image exactly when no end of the row is a peak (C167_mirror_iff).

### C168 — Plane aligner and the frame of the scene (partial)
the sum of the inliers turns with the cloud (`inliers_move`); the products with the axes follow from the coordinates in a frame (`Frame.parseval`), so that the axes of the moved scene differ from the moved axes by a turn around z (`move_core`). Order: commutativity of the body of the loop. Unit and sign: the normalised normal is the same (`C168_coeffs`).
Theorems: `PlaneAligner.C168_move_partial`, `PlaneAligner.C168_translate_iff`, `PlaneAligner.C168_order` [propext, Quot.sound], `PlaneAligner.C168_coeffs`, `PlaneAligner.C168_coeffs_iff`, `PlaneAligner.C168_violated`, `PlaneAligner.C168_tol_violated`.
Limits: the order of the points in full; unit and sign exactly when the sign is kept or the plane does not contain the origin; a motion up to a turn around z and a height.

### C169 — Order of the approximated angles (partial)
the polynomial of fastAtan increases on [-1, 1] (sign of its derivative); closed forms of fastAtan2 in the sectors bounded by the diagonals (`fastAtan2_flat`, `fastAtan2_steep`); the order of the arguments gives the sign of the cross product, hence the order of the quotients. The approximation of the sine is folded to a quarter turn (`wave_fold`), where it and the sine increase.
Theorems: `Functions.C169_sector_partial`, `Functions.C169_far_partial`, `Functions.C169_length`, `Functions.C169_quarter_iff`, `Functions.C169_cosSin`, `Functions.C169_violated`, `FunctionsFp.C169_double_violated`.
Limits: fastCosSin and the length in full; the order of the angles inside each sector bounded by the diagonals and for angles 4e-5 apart, false across a diagonal; the quarter turn exactly off the diagonals.

### C170 — Saving what was read (proved)
invariant `Saveable` of the tables that were read (`read_readable`: what fits the line buffer can be written on one line); with C43 it gives the round trip, and `C170_roundtrip_iff` says that it is the exact condition for all tables.
Theorems: `ParamMap.C170_save`, `ParamMap.C170_inj`, `ParamMap.C170_again`, `ParamMap.C170_range`, `ParamMap.C170_roundtrip_iff`, `ParamMap.C170_args_violated` [propext, Quot.sound].
Limits: all sequences of texts; C170_range: exactly the tables that can be read; C170_args_violated: not so for command lines, which are outside the statement.

### C171 — There and back between vectors and angles (proved)
C74 (exact), C86, C87 (double) and C89, C90 (float) give the errors of the two functions; `near_unit`, `near_length`, `near_arg` carry them through the composition: the error of the pair is split along and across the true direction (`err_dir`), and the angle between the two is an arc tangent.
Theorems: `Functions.C171_direction`, `Functions.C171_length`, `Functions.C171_angle`, `FunctionsFp.C171_double_direction`, `FunctionsFp.C171_double_angle`, `FunctionsFp.C171_double_violated`, `FunctionsFp.C171_float_direction`.
Limits: exact arithmetic and double; C171_double_violated: not so for large angles, which are outside the statement.

### C172 — The heap as a double-ended priority queue (partial)
relation `Queue` between histories and results, defined with multisets only; the orders proved for C20 make each result an extreme of the contents (`trace_queue`), without ties the relation is a function (`Queue.unique`) that is symmetric (`Queue.rev`) and blind to the order of insertions (`Queue.swap_push`). Ties are harmless when the removals at the top come last (`C172_phases_partial`), and exactly up to 5 elements (`C172_size_iff`).
Theorems: `Heap.C172_queue_partial`, `Heap.C172_bottom_partial`, `Heap.C172_opposite_partial`, `Heap.C172_order_partial`, `Heap.C172_violated` [propext, Quot.sound], `Heap.C172_phases_partial`, `Heap.C172_size_iff`.
Limits: false with ties and other operations after a removal at the top; proved when no two of the inserted elements are equivalent, and with ties when the removals at the top come last.

### C173 — Unit and origin of the measurements of the profiler (partial)
one update commutes with the conversion of the members (`update_rescaled`), then induction over the history; `C173_variance_iff` is the exact condition for the variance.
Theorems: `Profiler.C173_members_partial`, `Profiler.C173_variance_iff`, `Profiler.C173_origin`, `Profiler.C173_violated`.
Limits: all but the variance, which is computed from the average; C173_variance_iff gives the exact condition.

### C174 — Change of the origin of the local coordinates (partial)
the difference is the way from the second origin times the difference of the scales (`C174_iff`); the scales are Lipschitz because the cosines are (`scale_lat`, `scale_lon`).
Theorems: `Gis.C174_leg_partial`, `Gis.C174_iff`, `Gis.C174_violated`.
Limits: false: each origin has its own scale; proved up to 19.9 m (north) and 1955 m (east) per square degree, and the exact condition.

### C175 — First elements of a stream (proved)
invariant `FirstOf` of the contents (`FirstOf.add_small`, `FirstOf.add_full`), with `popBottom_ordered`, which allows ties; `C175_determined` shows that the specification fixes the result up to equivalent elements; `C175_last` is the other end, without ties.
Theorems: `Heap.C175_first`, `Heap.C175_determined`, `Heap.C175_order`, `Heap.C175_last`.
Limits: all streams with ties at the bottom end, which is the statement; C175_last: the other end, for streams without ties.

### C176 — Cells outside the domain of a grid (partial)
the position of any indices is their rank or overflows (`staticGetPos_cases`, `rasterGetPos_cases`); with the bijection of C31 the access is one to the inside cell of that rank (`C176_access_partial`); `C176_alias` builds such an outside cell for every grid with a second coordinate of two values, `C176_row` excludes it for one coordinate.
Theorems: `Grid.C176_access_partial`, `Grid.C176_never`, `Grid.C176_row`, `Grid.C176_alias`, `Grid.C176_position_partial`, `Grid.C176_violated`.
Limits: false: no access with indices throws; proved: what every access does, and that with two or more coordinates cells outside are taken for cells inside.

### C177 — A stored default is read back (partial)
reading inverts writing for integers (`readInt_intStr`, from `Text.natStr_spec`); a floating point number is read as the rounding of its six digits (`parse_print`), so `C177_iff`; the scale of the digits (`scale`) shows that six digits of the rounding of a decimal number with at most six digits are that decimal number (`written_decimal_pos`), and bounds the change of any other number (`C177_error_partial`).
Theorems: `ParamMap.C177_string`, `ParamMap.C177_int`, `ParamMap.C177_iff`, `ParamMap.C177_decimal_partial`, `ParamMap.C177_error_partial`, `ParamMap.C177_one_per_text`, `ParamMap.C177_interval_violated`, `ParamMap.C177_violated`.
Limits: false for floating point numbers, which are stored with six digits; proved for strings and int, with the exact condition and the error for floating point numbers.

### C178 — Selecting a spanning forest (proved)
`join` returns the number of items exactly for linked items (`join_sim`), so the client's choice is the inductive `Kept`; a join of unlinked items makes the number of sets less by one (`parts_cons`, from `setNum`), hence the counts (`Kept.count`); the weight by induction on the sorted list from its end (`weight_le`: the difference of the weights is bounded by the difference of the lengths times any bound of the weights).
Theorems: `DisjointSet.C178_forest`, `DisjointSet.C178_weight`, `DisjointSet.C178_prefix`.
Limits: a client that keeps the pairs joined; all lists of pairs.

### C179 — Membership and multiplicity in a Morton tree (proved)
the items that do not come after the query are a prefix of the sorted items (`lt_countP_iff`), the position is the number of the smaller ones (C144), the difference counts the equivalent values; for integers equivalence is equality of the coordinates (C09, `equiv_int`).
Theorems: `MortonTree.C179_block`, `MortonTree.C179_member`, `MortonTree.C179_int`.
Limits: integer coordinates, and any strict weak order.

### C180 — Shape of the interpolated look-up table (proved)
every value of the table is on a polygon (C54); a bound of the slopes of the edges is one of the slopes of the chords (`polygon_slope`), applied to the values and to their opposites.
Theorems: `Functions.C180_lipschitz`, `Functions.C180_antitone_iff`.
Limits: exact arithmetic.

## 6. Disagreements between the code, its documentation and the properties

Each item was found while writing the model or its proofs. The theorem in parentheses is the evidence; items without theorem were read off the text.

Common library:

* numeric_traits.h:261-263: the `int64_t` copy of `log2Mod` calls `nlz8` (`C05_log2Mod_int64_violated`).
* numeric_traits.h: `ceilPow2` wraps above the largest representable power (`C06_ceilPow2_beyond_violated`).
* numeric_traits.h:440: `EXPONENT_BITS` of `double` is 8, hence a negative `EXPONENT_MAX` and a wrong mask (`C18_double_constants_violated`).
* morton_sort.h: the dimension index has the type of the coordinates and wraps for more than 2^w dimensions (`C08_mortonCmpInt_dim_violated`).
* morton_sort.h:115-118: equal arguments shift by −1, levels from 31 on overflow `int`, unsigned numbers with different top bits get a wrong mid (`C10_*_violated`).
* morton_sort.h:265: `intervalPow2Float` prints a debug line at each call; an uninitialised variable is swapped; `1 << level` is undefined for `double` (`C70_double_violated`).
* morton_sort.h: the float comparison is not an order (`C17_*_violated`) and the float split does not separate negative numbers (`C72_negative_violated`).
* morton_tree.h: two insertion overloads overwrite the identifier by −1 (`C13_violated`); `searchInBox` reports nothing and dereferences `end()` (`C16_*`).
* bit_manip.cpp:286-317: exponents above the range change the sign of the composed number, and beyond that shift out of the type (`C04_float_range`, `C04_double_range`).
* min_max_heap.h: `popTop` breaks the order with ties (`C20_violated`); `nextTop`, `nextBottom` are wrong for small heaps (`C21_violated`).
* min_max_heap.h:83, 312: the position of a pushed element is converted to `int`; with 2^31 elements or more it becomes negative and the element is not moved (`C132_violated`).
* disjoint_set.cpp: `makeSet` is not counted in `setNum` (`C25_setNum_violated`); `size` and `join` use invalid identifiers as indices (`C28_*_violated`).
* disjoint_set.cpp:60: `find` compares with `nodes_.size()` converted to `int`; with 2^31 nodes or more every identifier is rejected (`C133_violated`); disjoint_set.cpp:81: `setNum_` overflows after `initSets` of a large negative number (`C133_overflow_violated`).
* label_set.cpp:57, 61: `std::equal` with three iterators (`C30_equality_violated`).
* interval_indices.h: `RasterIndexer::getPos` overflows on legitimate cells (`C31_dynamic_violated`); `intersect` overflows on distant intervals (`C36_intersect_violated`); negative dimensions are empty but have a size (`C38_violated`); boustrophedon steps jump for odd inner sizes in 3D (`C35_violated`).
* grid.h: re-initialisation moves the values to other cells (`C67_violated`).
* peak_finder_d.h:36, 47: the documentation says that the default comparator finds maxima; `std::less` finds minima. The first cell is never reported (`C40_violated`). In two dimensions a cell that enters the window again is twice in the heap, whose order `popTop` then breaks: cells that are no peaks are reported even if all values are distinct (`C40_twoDim_violated`); in three dimensions also because the boustrophedon order jumps (`C40_threeDim_violated`). `setDomainCentered` (107) passes a size to a function that takes a half-size, so that the domain is about twice as large.
* param_map.h/.cpp: values that cannot be converted leave the output untouched with result true (`C45_violated`); `adaptTildeInPaths` goes on from an erased element and `getenv("HOME")` may be null (`C47_tilde_violated`); `isalpha` gets negative values (`C44_violated`); lines of 2000 characters stop the reading (`C43_long`).
* profiler.cpp:36: the divisor of Welford's mean is the old count (`C49_average_wrong`).
* functions.h:28, types.h:43: `K_2PI` is truncated to 12 digits and larger than 2π (`C51_*_violated`, `C59_turn_violated`).
* functions.cpp: `findLUFourier` is documented for the frequencies 2k, `evaluateFourier` uses k (`C53_frequency_violated`); `PnebiLUT::eval` rejects the largest order and reads out of bounds for order 0 (`C54_*_violated`).
* tls_scalar_consensus.h: documented as maximum consensus, which it is not (`C56_consensus_violated`); the empty input is undefined (`C56_empty`); the running sums cancel in floating point.
* vector_array.h: the binary operators do not compile when instantiated and `operator-` adds; `v *= v[0]` reads the overwritten component (`C75_alias_violated`).
* io.cpp: `getDirectoryFiles` appends to the vector it is given and sorts old and new entries together; after an exception the vector is not sorted (`C66_exception`). `generateStampedString` dereferences the result of `std::localtime` without a test (`C84_null`); two calls within a second give the same string.

Geometry and PCL:

* base_geometry2.h: `ccw` is documented as signed area, it is twice the area (`C59_area_violated`); the interval of a full turn is empty (`C59_full_turn_violated`); the cone test has open limits, the interval test closed ones.
* functions.cpp, floating point: `fastAtan2(0, 0)` and `fastAtan2(±inf, ±inf)` are NaN (`C86_atan2_zero`, `C86_atan2_inf`), `std::atan2` gives 0 and π/4; `fastAtan2f(-1, 0)` is greater than π (`C89_range_violated`); `normalize360(-1e-20)` is `K_2PI`, greater than 2π (`C88_upper_violated`), `normalize360(106.81415022206)` is negative (`C88_lower_violated`), `normalize180(1e18)` is 128 (`C88_large_violated`); `fastCosSin(1e18)` is (0, 0) (`C87_violated`), `fastCosSinf` likewise (`C90_violated`) and depends on the overload of `floor` that the headers provide (`C90_floor_differ`).
* types.h: `Vector6` and `Vector7` have 5 components.
* gis.h/.cpp: the x scale uses the longitude of the origin instead of its latitude (`C77_violated`), therefore the round trip fails at the longitudes 90 + 180 k (`C58_violated`); the comments of the two scale functions are exchanged; `ROFL_WGS84_ECCENTRICITY` is the second eccentricity (`C78_constants_violated`).
* box_registration.h: the sign of the determinant is corrected at index 1 instead of the last one (`C80_space_violated`); the initial alignment may be a reflection (`C81_orientation_violated`); `perm_` is not initialised before `setDimension`.
* hough_plane_detector: `phiNum` below 8 gives a remainder by zero (`C60_notify_violated`); the first rho bin has twice the width (`C60_bin_violated`); `getPlaneParam(int,int,int)` omits `rhoMin` (`C61_violated`); `findPlanes` keeps the previous hypotheses; the first rho and the first normal are never found (`C82_violated`); one `insert` accumulates, the other one starts from zero.
* morton_tree with `float`: three finite points form a cycle of the comparison, so that `std::sort` has no sorted result (`C14_float_violated`); in the sorted range 0, -0, 2 the level is 1 but the zeros are at distance 128 (`C15_float_violated`).
* hough_line_detector: `findLines` never finds a line of the first angle or distance (`C83_violated`).
* hough_line_detector: `insert` is empty (`C62_violated`, `C62_no_lines`); the template `insert` and `findLines(linesParams)` are declared only; the lines are sorted per angle, not globally.
* correspondence_graph_association: items inserted again keep the old distances (`C63_violated`); `nodes_` is never cleared; the recursion erases the visited element and reads it (`C64_undefined`); `cliquesMax` is never written (`C64_no_association`); the static counter limits the search to 200 calls per program (`C64_limit`, `C64_exhausted`); `insertDst` reserves the source vector.
* point_cloud_plane_aligner.h: the plane goes to height −d/|n| instead of 0 (`C65_violated`); the distances of the inliers are not divided by |n|; a null normal gives a non-finite transformation (`C65_null_normal`); a null constant flips the normal; a null cloud is dereferenced.
* base_geometry2.cpp, floating point: `ccw` is positive for the clockwise points (23.3, 6.2), (59.6, 13.5), (95.899994, 20.8) (`C91_sign_violated`) and gives opposite orientations for a cyclic exchange of the points (`C91_cyclic_violated`); the cone test rejects a point of the cone (`C91_cone_violated`); `normalizeAngle2Pi(-1e-10)` is `K_2PI`, greater than 2π (`C92_upper_violated`), about three (five) turns give a negative angle, and then `insideAngleIntervalEq` excludes the begin of the interval (`C92_lower_violated`); 1e10 gives less than −335 (`C92_large_violated`).
* functions.cpp `printLUT`: more than the `n` documented rows, up to 2n, the last entry possibly twice (`C93_count_violated`); n = 0 divides by zero and an empty table has no last entry (`C93_undefined`).
* interval_indices.h `print`: an interval that ends at the largest `int` overflows (`C94_interval_violated`).
* profiler.h: the macro ROFL_COMMON_PROFILER_SCOPED_TIMER_HERE makes a temporary, destroyed at once, so that the time of the block is not measured (`C96_violated`); hough_plane_detector.cpp:209 uses it.
* macros.h: ROFL_VAR7 writes the seventh value beside the sixth expression (`C98_violated`).
* morton_tree.h:50-53: the item constructor copies the whole list into the array and initialises nothing else (`C99_long_violated`, `C99_short_violated`); the box around a centre overflows or wraps near the limits of the type (`C100_overflow_violated`, `C100_wrap_violated`).
* macros.h: ROFL_ASSERT is an `if` without braces around it, so that a following `else` belongs to it (`C102_else_violated`).
* param_map.cpp:113-122: the state of the stream after writing is not checked (`C103_full_violated`). When the space ends inside a value, its beginning is read back as if it were the value, e.g. 1 for 1000 (`C103_cut`).
* hough_line_detector.h:64-67: the documentation says that the whole interval is used; lines below the origin have no cell (`C104_lines_violated`).

* profiler.cpp:33-34: in double arithmetic, after the measurements 1.0 and 1e-30 the average is 0, less than both, and the sum of the squared differences is negative (`C105_violated`).
* functions.cpp:358-361: at 2^53 times `2.0 * M_PI` the cosine is negative, but findLUCos returns about 1 for both ends : the reduction is modulo `2.0 * M_PI`, not 2π (`C106_violated`).
* tls_scalar_consensus.h:93-127: the candidates of empty sets are not excluded; for the doubles 100002.2, 100002.1 with ranges 1e-7, 0.2 the estimate is about -1.3e15 with no inlier, for the floats 1002.1, 1002.3 with ranges 0.02, 0.3 about -3145 (`C107_violated`, `C107_float_violated`).
* functions.cpp:405-416: the bounds of findLUFourier are not rounded outwards: for 1 cos(2θ) + 2^-30 sin(2θ) over [0, 100] the upper bound is 1 and the series is greater (`C109_violated`); an empty vector is read out of bounds also in double arithmetic (`C109_empty_violated`).
* hough_plane_detector.cpp:213-219: in float, with bins of one unit from -5, the point at 1 - 2^-24 is counted in the bin 6 instead of 5 (`C110_violated`); the point at the rho reported for the cell 1 of 10 cells of 0.1 is counted in the cell 0 (`C110_plane_violated`); a NaN coordinate or a far point makes the conversion to int undefined (`C110_nan_violated`, `C110_far_violated`).
* functions.cpp:183: the order at which the back recursion starts depends on n only; for a large argument it is too low: for every n >= 1 and x >= 2048 n^2 the value of order 1 is less than a fifth of 2 exp(-x) I_1(x) (`C112_large_violated`).
* functions.cpp:255-260: for a tolerance below 2e-6 the second point is below 1e-6, where the values are constant; the ratio is 0, the derivative is replaced by the tiny constant and the next point is beyond 1e8: at 100 the table of order 0 answers about 2 instead of 0.08 (`C113_tiny_violated`). For every n >= 2 and every tolerance below 0.006 / n the table is wrong by more than 0.006 / n for some order and argument, because of the start order of the back recursion (`C113_large_violated`). In double arithmetic the same happens from 1e-9 to 1.9e-6 (`C120_tiny_violated`), and the order 1 is wrong for large arguments (`C120_large_violated`).
* functions.cpp:183-206, floating point: one multiplication by 1e-10 per step does not prevent the overflow when 2k/x is greater than 1e10: for n = 20000 and x = 1e-6 all the values are NaN (`C115_overflow_violated`); from about n = 1.07e9 the start order overflows an int (`C115_order_violated`).
* gis.cpp:27-29, floating point: `Scalar` is `float`, whose spacing at the radius of the Earth is 0.5 m: altitudes below 25 cm have no effect, and the position is off by up to a few metres (`C118_altitude_violated`).
* hough_plane_detector.cpp:192-196, hough_line_detector.cpp:125-128, floating point: the quotient of the size and the resolution is rounded before `ceil`, so sizes just above a multiple get a window that is one cell too small (0.3 with cells of 0.1, `C121_violated`), and the decimal 2.7 gets 4 cells of 0.9 (`C121_decimal_violated`). Before `init` the resolutions are zero and the conversion to int is undefined (`C121_undefined_violated`).
* correspondence_graph_association.cpp, floating point: the limits distance +- tolerance are rounded, so from distances of 2^21 on the default tolerance 0.1 links nothing, not even equal objects (`C122_far_violated`); NaN distances are not a strict weak order, so the sort is undefined (`C122_nan_violated`).
* box_registration.h:108-150, floating point: for points inside, the distances to the faces are rounded before they are compared, so a face may be chosen that is not the nearest (`C123_violated`); the error is a factor of at most (1 + u) / (1 - u).
* numeric_traits.h:416-426, 467-477: `dividePow2(x, n)`, which the tests print as x / 2^n, keeps the exponent of x and some low bits of its mantissa, so it is never the quotient for n other than 0 (`C125_never_violated`); for the numbers from 2^(n + 24) on (`double`: 2^(n + 53)) the shift amount is negative, which is undefined behaviour (`C125_result`).
* grid.h, initialisations: the domain is stored before the storage is resized; if the resize throws, the grid has the new domain with the old storage, and inside cells beyond it are read out of bounds (`C126_violated`, `C126_cells`).
* hough_plane_detector.cpp:59-76, hough_line_detector.cpp:52-66: the numbers of bins are set before the storages are resized; if one of the three resizes throws, bins inside the reported numbers are read out of bounds, the counters are not cleared, and after a failure of the transform the spectrum and the normals are read with the old strides (`C130_violated`, `C130_transform_violated`, `C130_spectrum_violated`, `C130_normals_violated`, `C130_line_transform_violated`, `C130_line_spectrum_violated`).
* functions.cpp:163-206, 252-264: a negative order is not checked: the order -1 writes the first element of a vector that may be empty, lower orders throw a length error; orders above 1073534600 overflow `int`; a PnebiLUT of order 0 reads the second element of a vector of length 1 (`C127_violated`, `C127_orders`, `C127_table`).
* morton_tree.h:155: `computeLevel(it, begin())` decreases the begin iterator (`C15_empty_begin`).
* point_cloud_plane_aligner.h:113: the squared norm of a normal shorter than about 2^-75 underflows, the normal is not normalised, the determinant is 0 and the transformation is not a number (`C128_violated`, for all the normals with components up to 2^-78 `C128_tiny_violated`); with a component from 2^64 on the squared norm overflows, the axis z is 0 and the result is the same (`C128_huge_violated`).
* point_cloud_plane_aligner.h:142-144: the inliers are added in `float`: the sum of equal coordinates stops growing at 2^24 points, and the center of 2^25 points (1, 0, 0) is (1/2, 0, 0) (`C129_violated`).
* tls_scalar_consensus.h:80-108: `rangesInverseSum` is the sum of the ranges of the outliers (a length), and it is added to the squared residuals of the inliers (a squared length): the estimate depends on the unit. 0 m and 1 m with ranges 1 m give 1/2 m, in a unit of 1/3 m they give 0 (`C134_unit_violated`); in a small enough unit the estimate is one of the measures whatever their number (`C134_small_unit`).
* morton_tree.h:179, 201-202, 238: the identifiers are `int`: a range insertion that makes the tree reach 2^31 items overflows the counter, even without `resetId` (`C135_range_violated`); single insertions give negative identifiers from 2^31 on and repeat them from 2^32 on (`C135_negative_violated`, `C135_duplicate_violated`).
* box_registration.h:193-196: since the reflection is corrected at the second singular value (see C80), a step in space can move the box away from the cloud: the squared distances grow from 1448 to at least 3600 (`C136_farther_violated`), so that repeated registration need not converge.
* min_max_heap.h:354-376: as a consequence of the defect of C20, 1, 1, 5, 1, 1, 3 pushed and taken out at the top, twice at the bottom and three times at the top come out as 1 1 1 3 1 5 (`C137_violated`); at one end only the order is right even with ties (`C137_sort_partial`).
* base_geometry2.cpp:26-32: in `float` the transformation of a pose is never an isometry unless the computed cosine or sine is zero (`C138_isometry_iff`, `C138_violated`); the squared distances change by up to 2^-21 of them. With an angle that is not finite the translation is NaN too (`C138_nan`).
* tls_scalar_consensus.h:61-64 (C149): the sort compares only the positions of the endpoints, so that where one interval ends and another begins the order is left to std::sort and to the order of the measures. The measures
  0 and 1/2 with ranges 1/4 give the estimate 0 with one inlier, and in the other order the estimate 1/4 with none (`C149_touch_violated`).
* profiler.cpp:32-42 (C150): as the first measurement is not part of the average (C49), the average of the same measurements in another order is different whenever the first one is (`C150_average_iff`).
* test_tls_scalar_consensus.cpp:37-39, test_morton_functions.cpp:49-51 (C151): these programs do not read the command line again after the configuration file, as the three others do; an option that the file
  mentions has no effect (`C151_reversed_violated`, `C151_violated`).
* correspondence_graph_association.cpp:180-205 (C152): because of C64 no correspondence of a moved point set is ever returned (`C152_violated`).
* morton_sort.h (C154): the orders of integers and floats agree up to 24 bits and no further: (-2^24, 2) is after (-2^24 + 1, 0) as integers and before it as floats, although all four numbers are exact
  floats (`C154_bound`).
* gis.cpp:39-49 (C156): `meterPerDegLon` is the length of a degree of longitude as a function of the *latitude*, and `convertLatLonToLocalXY` calls it with the longitude of the origin. The x coordinates
  are wrong unless cos(lon) = |cos(lat)| up to 2e-4, and grow to the west for longitudes beyond 90 degrees (`C156_east`, `C156_violated`).
* correspondence_graph_association.cpp:67 (C158): the minimum distance is compared with the distance of the sources only, so a link may appear or vanish when source and destination are exchanged
  (`C158_exchange_partial`, `C158_violated`).
* C162: when two consensus sets have the same cost, `std::min_element` (tls_scalar_consensus.h:126) takes the one with the smaller values, so the estimate depends on the direction of the axis: 0 and 5 with ranges 1 give 0, and 0 and -5 give -5.
* C163: the result of `mortonCmpFloat` (morton_sort.h) depends on the unit near the subnormal floats: (0, 0) and (0, 2^-149) are equivalent (or a negative integer is shifted to the left), while (0, 0) comes before (0, 2^-109).
* C165: the step of `computeTransform` (box_registration.h) does not turn with the scene when the rotation is not determined by the points, for example with one point: the result is the same rotation for all scenes, whatever the decomposition. `estimateInitTranform` does not turn after half a turn of the plane: the eigenvectors are the same (the box is placed on the same surface, but its axes are opposite to the turned ones).
* C167: the first cell of the domain is never found by `detect` (peak_finder_d.h), while the last one can be: the row 5 1 2 has the peak 2 (third cell), its mirror image 2 1 5 the peak 5 (third cell as well).
* C168: point_cloud_plane_aligner.h: the aligned cloud depends on the frame of the input: a scene turned around the normal gives a turned result (`C168_violated`), a scene moved along the normal a raised one (`C168_translate_iff`); the tolerance is compared with the value of the equation, so it depends on the unit of the coefficients (`C168_tol_violated`); a plane through the origin given with the opposite sign is aligned upside down (`C168_coeffs_iff`).
* C169: functions.cpp:71-104: the polynomial gives 0.7854096 at 1, more than pi/4, so `fastAtan2` jumps back by 2.3e-5 at the diagonals: (1, 1) gets a larger angle than (0.99999, 1) (`C169_violated`, in double and float `C169_double_violated`), and the vectors of the diagonals are the ones that do not get the turned angle after a quarter turn (`C169_quarter_iff`).
* C170: param_map.cpp: a map read from the command line need not be restored by the written text: the value of `-a "1 2"` is cut at the space (`C170_args_violated`); `C170_roundtrip_iff` gives the exact tables.
* C171: functions.cpp:47-58: for a large angle such as 1e18 both results of `fastCosSin` are 0, so that `fastAtan2` of them is not a number (`C171_double_violated`; outside the quantifier).
* C172: min_max_heap.h: with ties a removal at the top followed by two at the bottom gives 5 and 1 while 3 is in the heap, and the opposite comparator with the ends exchanged gives 5 and 3 (`C172_violated`; same cause as C20).
* C173: profiler.h:54-60: the variance is computed from the average, so that it has the wrong unit (1 s and 3 s: 3, in milliseconds 3000) and changes with the origin (`C173_violated`, `C173_origin`; same cause as C49).
* C174: gis.cpp:32-49: the legs do not add up, as each origin has its own scale: from the equator to the pole and back are different distances (`C174_violated`); the north error is at most 20 m per square degree, the east error, because the scale depends on the longitude (C77), up to 1955 m (`C174_leg_partial`).
* C176: grid.h:109-119: `value(indices)` has no check (the one with `at` is commented out): indices outside the domain are taken for another cell, which a write changes, or have undefined behaviour (`C176_access_partial`, `C176_alias`, `C176_violated`); no such access throws (`C176_never`).
* C177: param_map.h:98-99: a floating point default is stored with six significant digits, so the first `getParam` gives the default and the later ones another number: every number between 1 and 1.000004 comes back as 1 (`C177_interval_violated`, `C177_violated`). Exactly the numbers determined by their six digits come back (`C177_iff`), among them those of decimal numbers with at most six digits (`C177_decimal_partial`).

## 7. Seeded bugs

`seeded/LOG.jsonl` has one line per wrong program: the definition, the edit, the claim it should break, the theorems that failed and, for the survivors, the reason or the theorem that was added.
The runner copies `lean/` to a scratch directory, makes one edit, builds, and records the failing declarations.
