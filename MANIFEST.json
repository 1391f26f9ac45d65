{"claims": [
  {"property": "C01", "status": "proved", "theorems": ["Verif.BitManip.C01_nlz", "Verif.BitManip.C01_spec_unique"], "note": "all widths 8..64"},
  {"property": "C02", "status": "proved", "theorems": ["Verif.BitManip.C02_flp2"], "note": "all widths"},
  {"property": "C03", "status": "proved", "theorems": ["Verif.BitManip.C03_clp2"], "note": "all widths"},
  {"property": "C04", "status": "proved", "theorems": ["Verif.BitManip.C04_float_set_get", "Verif.BitManip.C04_float_get_set", "Verif.BitManip.C04_double_set_get", "Verif.BitManip.C04_double_get_set", "Verif.BitManip.C04_float_range", "Verif.BitManip.C04_double_range"], "note": "bit patterns of float and double"},
  {"property": "C05", "status": "partial", "theorems": ["Verif.NumericTraits.C05_log2Mod_partial", "Verif.NumericTraits.C05_int64_iff", "Verif.NumericTraits.C05_log2Mod_int64_violated", "Verif.NumericTraits.C05_log2Mod_violated"], "note": "holds for 7 of 8 types; the int64_t specialisation calls nlz8 and is wrong for every magnitude below 2^55; C05_int64_iff: what it computes and exactly when that is right"},
  {"property": "C06", "status": "partial", "theorems": ["Verif.NumericTraits.C06_floorPow2_partial", "Verif.NumericTraits.C06_ceilPow2_partial", "Verif.NumericTraits.C06_ceilPow2_beyond_violated", "Verif.NumericTraits.C06_violated", "Verif.NumericTraits.C06_iff"], "note": "holds exactly when the negation does not overflow and the result is representable (C06_iff); ceilPow2 wraps above the largest power of two"},
  {"property": "C07", "status": "proved", "theorems": ["Verif.Morton.C07_msb"], "note": "all widths"},
  {"property": "C08", "status": "partial", "theorems": ["Verif.Morton.C08_mortonCmpInt_partial", "Verif.Morton.C08_iff", "Verif.Morton.C08_mortonCmpInt_dim_violated"], "note": "holds for 1 <= Dim <= 2^w; the dimension index is kept in the coordinate type and wraps beyond; C08_iff: exactly for these numbers of dimensions"},
  {"property": "C09", "status": "partial", "theorems": ["Verif.Morton.C09_order_partial", "Verif.Morton.C09_iff", "Verif.Morton.C09_dim_violated"], "note": "strict total order for 1 <= Dim <= 2^w; totality fails beyond; C09_iff: exactly for these numbers of dimensions"},
  {"property": "C10", "status": "partial", "theorems": ["Verif.Morton.C10_intervalPow2Int_partial", "Verif.Morton.C10_intervalPow2Int_signed_partial", "Verif.Morton.C10_iff", "Verif.Morton.C10_equal_violated", "Verif.Morton.C10_level31_violated", "Verif.Morton.C10_level64_violated", "Verif.Morton.C10_unsigned_violated", "Verif.Morton.C10_violated"], "note": "holds for distinct values agreeing above bit 30 and in the top bit or of opposite sign; undefined for equal values and levels >= 31; wrong mid for unsigned values with different top bits; C10_iff: exactly on these pairs"},
  {"property": "C100", "status": "partial", "theorems": ["Verif.MortonTree.C100_box_partial", "Verif.MortonTree.C100_overflow_violated", "Verif.MortonTree.C100_wrap_violated", "Verif.MortonTree.C100_violated", "Verif.MortonTree.C100_reports_nothing_violated", "Verif.MortonTree.C100_iff"], "note": "holds exactly when the corners are representable (C100_iff, ranges that are not negative); otherwise int and long overflow and the other types wrap; the search itself reports nothing (C16)"},
  {"property": "C101", "status": "proved", "theorems": ["Verif.Text.C101_item", "Verif.Text.C101_printIt", "Verif.Text.C101_printInter", "Verif.Text.C101_form"], "note": "coordinates of type int"},
  {"property": "C102", "status": "partial", "theorems": ["Verif.Text.C102_assert_partial", "Verif.Text.C102_else_violated", "Verif.Text.C102_violated", "Verif.Text.C102_else_iff", "Verif.Text.C102_nested"], "note": "all but the use before an else, which pairs with the if of the macro"},
  {"property": "C103", "status": "partial", "theorems": ["Verif.ParamMap.C103_file_partial", "Verif.ParamMap.C103_full_violated", "Verif.ParamMap.C103_violated", "Verif.ParamMap.C103_cut", "Verif.ParamMap.C103_iff"], "note": "all but a full disk, where the result is true and the text is cut; the table is read back exactly when all but the last character fits, otherwise the complete lines and possibly one shortened value"},
  {"property": "C104", "status": "partial", "theorems": ["Verif.Hough.C104_planes_partial", "Verif.Hough.C104_lines_partial", "Verif.Hough.C104_lines_violated", "Verif.Hough.C104_violated"], "note": "planes in full; lines exactly when the normal towards the line does not point downwards (rhoMin is 0 and theta is below pi)"},
  {"property": "C105", "status": "partial", "theorems": ["Verif.Profiler.C105_double_partial", "Verif.Profiler.C105_exact_partial", "Verif.Profiler.C105_violated"], "note": "up to 2^-52 of the range of the measurements for the average and 2^-51 of its square for the sum; exactly it fails for 1.0 and 1e-30"},
  {"property": "C106", "status": "partial", "theorems": ["Verif.FunctionsFp.C106_range_partial", "Verif.FunctionsFp.C106_violated"], "note": "for arguments up to M the error is that of cos plus 2^-48 + M / 2^54; for large arguments the reduction modulo 2.0 * M_PI is wrong"},
  {"property": "C107", "status": "partial", "theorems": ["Verif.TlsFp.C107_tls_partial", "Verif.TlsFp.C107_double", "Verif.TlsFp.C107_float", "Verif.TlsFp.C107_cap", "Verif.TlsFp.C107_lengths", "Verif.TlsFp.C107_empty", "Verif.TlsFp.C107_violated", "Verif.TlsFp.C107_float_violated"], "note": "up to explicit errors, when the sizes of the values and of the ranges and the number of measures fit the precision; in general false: the rounding errors left after the last endpoint can be chosen as the estimate"},
  {"property": "C108", "status": "proved", "theorems": ["Verif.FunctionsFp.C108_fourier"], "note": ""},
  {"property": "C109", "status": "partial", "theorems": ["Verif.FunctionsFp.C109_near_partial", "Verif.FunctionsFp.C109_empty_violated", "Verif.FunctionsFp.C109_violated"], "note": "up to an explicit error, for coefficients up to 2^500 and angles up to 2^900 (when the error of one sinusoid is at most 1); exact bounds are false, as the amplitude is rounded"},
  {"property": "C11", "status": "partial", "theorems": ["Verif.Morton.C11_mortonSplitInt_partial", "Verif.Morton.C11_equal_violated", "Verif.Morton.C11_unsigned_violated"], "note": "holds when all coordinate pairs are supported by intervalPow2Int (equal coordinates if 1 << -1 yields any value); undefined for equal coordinates, wrong for unsigned values with different top bits"},
  {"property": "C110", "status": "partial", "theorems": ["Verif.HoughFp.C110_index_partial", "Verif.HoughFp.C110_insert_partial", "Verif.HoughFp.C110_plane_partial", "Verif.HoughFp.C110_violated", "Verif.HoughFp.C110_plane_violated", "Verif.HoughFp.C110_nan_violated", "Verif.HoughFp.C110_far_violated"], "note": "for coordinates up to 2^k, -60 <= k <= 60, indices below 2^30 and at least 8 cells of phi: exact up to a margin of 33 * 2^(k-25) at the ends of the bins; false at the ends, for far points and for NaN"},
  {"property": "C111", "status": "proved", "theorems": ["Verif.Bessel.C111_accuracy"], "note": ""},
  {"property": "C112", "status": "partial", "theorems": ["Verif.Bessel.C112_accuracy_partial", "Verif.Bessel.C112_range_partial", "Verif.Bessel.C112_large_violated", "Verif.Bessel.C112_violated"], "note": "proved for |x| <= 5 n + n^2 / 10 (there, from 1e-6 on, the relative error is at most 1e-6); false in general: for x >= 2048 n^2 the value of order 1 is less than a fifth of the function"},
  {"property": "C113", "status": "partial", "theorems": ["Verif.Bessel.C113_zero_partial", "Verif.Bessel.C113_orders_partial", "Verif.Bessel.C113_large_violated", "Verif.Bessel.C113_tiny_violated", "Verif.Bessel.C113_violated"], "note": "proved from the tolerance 2e-6 on, for the order 0 before the last point of the table, for all orders between the points up to 5 n + n^2 / 10; false in general: for n >= 2 and tolerances below 0.006 / n some order is wrong by more than 0.006 / n, for tolerances below 2e-6 the order 0 is wrong by 1.9 at 100"},
  {"property": "C114", "status": "proved", "theorems": ["Verif.FunctionsFp.C114_accuracy", "Verif.FunctionsFp.C114_nan", "Verif.FunctionsFp.C114_inf"], "note": "also: NaN gives NaN and an infinity gives 0; sqrt is correctly rounded, exp has a given relative error on [-4, 0]"},
  {"property": "C115", "status": "partial", "theorems": ["Verif.FunctionsFp.C115_accuracy_partial", "Verif.FunctionsFp.C115_range_partial", "Verif.FunctionsFp.C115_order0_partial", "Verif.FunctionsFp.C115_large_violated", "Verif.FunctionsFp.C115_overflow_violated", "Verif.FunctionsFp.C115_order_violated", "Verif.FunctionsFp.C115_violated"], "note": "proved for n <= 100000 and |x| <= 5 n + n^2/10 with n <= 3e8 |x| or |x| < 1e-6 (relative error 0.95e-6 + 1.2 d as well); the order 0 for |x| up to 2^400; false for large |x|, all values NaN for n >= 2e10 |x|, overflow of an int for great n"},
  {"property": "C116", "status": "proved", "theorems": ["Verif.GisFp.C116_roundtrip"], "note": "up to an additional 2^-130; the scale of the longitude is at least 2^-8 as no float is a zero of the cosine, so the failure of C58 in exact arithmetic does not occur"},
  {"property": "C117", "status": "proved", "theorems": ["Verif.GisFp.C117_accuracy"], "note": "up to an additional 2^-150"},
  {"property": "C118", "status": "partial", "theorems": ["Verif.GisFp.C118_accuracy_partial", "Verif.GisFp.C118_altitude_violated", "Verif.GisFp.C118_violated"], "note": "accuracy in full; all altitudes below 25 cm in absolute value give the same coordinates, at every place"},
  {"property": "C119", "status": "proved", "theorems": ["Verif.HoughFp.C119_init", "Verif.HoughFp.C119_insert", "Verif.HoughFp.C119_param"], "note": "at least 8 cells of phi for the insertion (C60), k from -60 to 60, resolution at least 2^(k-27), range at most 2^(k+2), fewer than 2^64 points"},
  {"property": "C12", "status": "proved", "theorems": ["Verif.Morton.C12_distance_cell", "Verif.Morton.C12_ultrametric", "Verif.Morton.C12_order"], "note": "all dimensions and types"},
  {"property": "C120", "status": "partial", "theorems": ["Verif.FunctionsFp.C120_table", "Verif.FunctionsFp.C120_zero_partial", "Verif.FunctionsFp.C120_orders_partial", "Verif.FunctionsFp.C120_violated", "Verif.FunctionsFp.C120_large_violated", "Verif.FunctionsFp.C120_tiny_violated"], "note": "proved for tolerances from 2e-6: table and search defined for every finite argument, order 0 before the last point, all orders between the points up to 5 n + n^2/10; false for larger arguments and for smaller tolerances"},
  {"property": "C121", "status": "partial", "theorems": ["Verif.HoughFp.C121_violated", "Verif.HoughFp.C121_cells_partial", "Verif.HoughFp.C121_multiple", "Verif.HoughFp.C121_windows_partial", "Verif.HoughFp.C121_decimal_violated", "Verif.HoughFp.C121_undefined_violated", "Verif.HoughFp.C121_iff"], "note": "false when the size is just above a multiple of the resolution (0.3 with cells of 0.1); proved: never too great, exact for multiples, and covering up to 2^(k-25) of a cell for at most 2^k cells; undefined for zero resolutions, NaN and 2^31 cells or more"},
  {"property": "C122", "status": "partial", "theorems": ["Verif.CorrGraph.C122_violated", "Verif.CorrGraph.C122_edges_partial", "Verif.CorrGraph.C122_multiples", "Verif.CorrGraph.C122_far_violated", "Verif.CorrGraph.C122_nan_violated"], "note": "false: with the default tolerance 0.1 items at distances of 2^21 or more are never linked; proved: no wrong link, all the links with a margin of 2^(k-25) for distances up to 2^k, and exact for multiples of 2^j up to 2^(j+24); NaN distances are not a valid order for the sort"},
  {"property": "C123", "status": "partial", "theorems": ["Verif.Box.C123_violated", "Verif.Box.C123_nearest_partial"], "note": "false for points inside: a face at nearly the same distance may be chosen; proved: exactly on the surface, nearest for the points outside, and up to a factor (1+u)/(1-u) inside, where u is 2^-24 or 2^-53"},
  {"property": "C124", "status": "proved", "theorems": ["Verif.Interval.C124_bidirectional"], "note": ""},
  {"property": "C125", "status": "partial", "theorems": ["Verif.NumericTraits.C125_violated", "Verif.NumericTraits.C125_never_violated", "Verif.NumericTraits.C125_result", "Verif.NumericTraits.C125_bounds_partial", "Verif.NumericTraits.C125_iff"], "note": "false for every normal number and every n other than 0: the exponent is not changed; proved: the exact result for all bit patterns, and that it is zero below 2^n and otherwise between |x|/2 and |x|"},
  {"property": "C126", "status": "partial", "theorems": ["Verif.Grid.C126_cells", "Verif.Grid.C126_violated", "Verif.Grid.C126_partial", "Verif.Grid.C126_agrees", "Verif.Grid.C126_iff"], "note": "false: the domain is stored before the storage is resized, so after a failed allocation inside cells are read out of bounds; proved: the exact behaviour of every cell, and the property when the allocation succeeds or the old storage is large enough"},
  {"property": "C127", "status": "partial", "theorems": ["Verif.Functions.C127_orders", "Verif.Functions.C127_violated", "Verif.Functions.C127_partial", "Verif.Functions.C127_table"], "note": "false: the order -1 writes to an empty vector and orders above 1073534600 overflow; a table for the orders -1 and 0 accesses elements that do not exist; proved: the exact behaviour for every order, and the property for the orders 0 to 1073534600"},
  {"property": "C128", "status": "partial", "theorems": ["Verif.PlaneAligner.C128_axes_partial", "Verif.PlaneAligner.C128_partial", "Verif.PlaneAligner.C128_violated", "Verif.PlaneAligner.C128_tiny_violated", "Verif.PlaneAligner.C128_huge_violated"], "note": "false: the squared norm of a tiny normal underflows, that of a huge one overflows, and the transformation is not a number (all the finite normals with components up to 2^-78, or with one from 2^64 on); proved for squared lengths from 2^-120 and components up to 2^62, with the effect of the transformation on points"},
  {"property": "C129", "status": "partial", "theorems": ["Verif.PlaneAligner.C129_inlier", "Verif.PlaneAligner.C129_partial", "Verif.PlaneAligner.C129_violated", "Verif.PlaneAligner.C129_none", "Verif.PlaneAligner.C129_coeffs", "Verif.PlaneAligner.C129_null"], "note": "false: the sum of the inliers saturates (witness: 2^25 equal points); proved for up to 2^20 inliers with an explicit error, and the test of the inliers in full"},
  {"property": "C13", "status": "partial", "theorems": ["Verif.MortonTree.C13_insert_partial", "Verif.MortonTree.C13_values", "Verif.MortonTree.C13_violated", "Verif.MortonTree.C13_iff"], "note": "insert(item, false) and insert(beg, end, false) replace the identifier by -1; the values are kept for every history, the identifiers exactly when these two overloads only get items with identifier -1 (C13_iff)"},
  {"property": "C130", "status": "partial", "theorems": ["Verif.Hough.C130_planes_partial", "Verif.Hough.C130_lines_partial", "Verif.Hough.C130_violated", "Verif.Hough.C130_transform_violated", "Verif.Hough.C130_spectrum_violated", "Verif.Hough.C130_normals_violated", "Verif.Hough.C130_line_transform_violated", "Verif.Hough.C130_line_spectrum_violated", "Verif.Hough.C130_planes_iff", "Verif.Hough.C130_lines_iff"], "note": "false: the numbers of bins are set before the three storages are resized; proved when the allocations succeed or are not needed (also after an initialisation that threw), and the exact result of each failure"},
  {"property": "C131", "status": "proved", "theorems": ["Verif.Heap.C131_comparisons", "Verif.Heap.C131_history"], "note": "every branch in which the comparator is called is counted; the counted operations have the results of the operations of C19; the bound of push is attained (example)"},
  {"property": "C132", "status": "partial", "theorems": ["Verif.Heap.C132_contents", "Verif.Heap.C132_small_partial", "Verif.Heap.C132_order_partial", "Verif.Heap.C132_violated", "Verif.Heap.C132_push_violated", "Verif.Heap.C132_size_iff"], "note": "false: push converts the position to int, so that from 2^31 to 2^32 - 1 elements (modulo 2^32) a pushed element is not moved and the top is wrong; proved: the contents in full, and the equality with the model of C19 to C21 while the heap has at most 2^31 elements"},
  {"property": "C133", "status": "partial", "theorems": ["Verif.DisjointSet.C133_small_partial", "Verif.DisjointSet.C133_violated", "Verif.DisjointSet.C133_large_violated", "Verif.DisjointSet.C133_parents_violated", "Verif.DisjointSet.C133_overflow_violated", "Verif.DisjointSet.C133_parents_iff"], "note": "false: from 2^31 nodes on (modulo 2^32) find rejects every identifier, join joins nothing, size reads out of bounds and parents overflows; a negative number of sets lets the counter of join overflow; proved: the equality with the model of C22 to C27 while there are fewer than 2^31 nodes and no negative numbers of sets"},
  {"property": "C134", "status": "partial", "theorems": ["Verif.Tls.C134_origin", "Verif.Tls.C134_sort", "Verif.Tls.C134_unit_partial", "Verif.Tls.C134_unit_violated", "Verif.Tls.C134_small_unit"], "note": "the shift is proved for all inputs; the unit is false: the cost adds ranges to squared residuals"},
  {"property": "C135", "status": "partial", "theorems": ["Verif.MortonTree.C135_small_partial", "Verif.MortonTree.C135_violated", "Verif.MortonTree.C135_range_violated", "Verif.MortonTree.C135_negative_violated", "Verif.MortonTree.C135_duplicate_violated", "Verif.MortonTree.C135_iff"], "note": "false: from 2^31 items on the counter of the range insertion overflows and single insertions give negative and repeated identifiers; proved below 2^31 items"},
  {"property": "C136", "status": "partial", "theorems": ["Verif.Box.C136_plane_partial", "Verif.Box.C136_rigid_partial", "Verif.Box.C136_farther_violated", "Verif.Box.C136_violated", "Verif.Box.C136_empty"], "note": "proved in the plane; in space the transformations are rigid but one step can move the box away from the cloud"},
  {"property": "C137", "status": "partial", "theorems": ["Verif.Heap.C137_sort_partial", "Verif.Heap.C137_violated", "Verif.Heap.C137_phases_partial", "Verif.Heap.C137_size_iff"], "note": "false with ties when elements are taken out at the bottom after some at the top; proved with ties if no bottom is taken after a top, and for elements without ties in any order of the ends"},
  {"property": "C138", "status": "partial", "theorems": ["Verif.Geometry2Fp.C138_matrix", "Verif.Geometry2Fp.C138_pose_partial", "Verif.Geometry2Fp.C138_isometry_iff", "Verif.Geometry2Fp.C138_angles_violated", "Verif.Geometry2Fp.C138_violated", "Verif.Geometry2Fp.C138_nan", "Verif.Geometry2Fp.C138_vector"], "note": "false: exact isometry only when the computed cosine or sine is zero; proved up to 2^-21 of the squared distances and areas, with the exact translation"},
  {"property": "C139", "status": "proved", "theorems": ["Verif.HoughFp.C139_init", "Verif.HoughFp.C139_normals", "Verif.HoughFp.C139_windows"], "note": "the functions of the C library are parameters with errors up to a unit in the last place and results between -1 and 1"},
  {"property": "C14", "status": "partial", "theorems": ["Verif.MortonTree.C14_findItem_partial", "Verif.MortonTree.C14_findItem_generic", "Verif.MortonTree.C14_float_partial", "Verif.MortonTree.C14_float_violated", "Verif.MortonTree.C14_grid_partial"], "note": "integer coordinates with at most 2^w dimensions, vectors of floats with exponents in the handled range, and any comparison that is a strict weak order; other floats form cycles of the comparison"},
  {"property": "C140", "status": "proved", "theorems": ["Verif.Heap.C140_related", "Verif.Heap.C140_relabelled", "Verif.Heap.C140_comparator"], "note": ""},
  {"property": "C141", "status": "proved", "theorems": ["Verif.PeakFinder.C141_order", "Verif.PeakFinder.C141_outside", "Verif.PeakFinder.C141_monotone", "Verif.PeakFinder.C141_filter"], "note": ""},
  {"property": "C142", "status": "proved", "theorems": ["Verif.HoughFp.C142_order", "Verif.HoughFp.C142_append", "Verif.HoughFp.C142_found"], "note": "with less than 8 angles phi every insertion is undefined (C60)"},
  {"property": "C143", "status": "proved", "theorems": ["Verif.Morton.C143_never_after", "Verif.Morton.C143_before", "Verif.Morton.C143_box", "Verif.MortonFloat.C143_float_never_after", "Verif.MortonFloat.C143_float_before", "Verif.MortonTree.C143_tree"], "note": "the strict part for integers with at most 2^w coordinates and for tame floats"},
  {"property": "C144", "status": "proved", "theorems": ["Verif.MortonTree.C144_position", "Verif.MortonTree.C144_same", "Verif.MortonTree.C144_int"], "note": ""},
  {"property": "C145", "status": "proved", "theorems": ["Verif.Functions.C145_cos", "Verif.Functions.C145_inclusion", "Verif.Functions.C145_gap", "Verif.Functions.C145_point"], "note": "exact arithmetic"},
  {"property": "C146", "status": "proved", "theorems": ["Verif.ParamMap.C146_concat", "Verif.ParamMap.C146_again", "Verif.ParamMap.C146_swap"], "note": "an example shows that an overlong line breaks the concatenation"},
  {"property": "C147", "status": "proved", "theorems": ["Verif.Gis.C147_turn", "Verif.Gis.C147_mirror", "Verif.Gis.C147_injective", "Verif.Gis.C147_centre"], "note": "exact arithmetic"},
  {"property": "C148", "status": "proved", "theorems": ["Verif.DisjointSet.C148_same", "Verif.DisjointSet.C148_order", "Verif.DisjointSet.C148_redundant"], "note": ""},
  {"property": "C149", "status": "partial", "theorems": ["Verif.Tls.C149_order_partial", "Verif.Tls.C149_touch_violated", "Verif.Tls.C149_violated"], "note": "false when intervals touch: 0 and 1/2 with ranges 1/4 give 0 or 1/4 depending on the order; proved when no two endpoints coincide"},
  {"property": "C15", "status": "partial", "theorems": ["Verif.MortonTree.C15_computeLevel_partial", "Verif.MortonTree.C15_empty_end", "Verif.MortonTree.C15_empty_begin", "Verif.MortonTree.C15_float_partial", "Verif.MortonTree.C15_float_violated", "Verif.MortonTree.C15_grid_partial"], "note": "integer coordinates with at most 2^w dimensions and floats with exponents in the handled range; an empty range at the end dereferences end(), and an end of the range at begin() is decreased; other floats violate it"},
  {"property": "C150", "status": "partial", "theorems": ["Verif.Profiler.C150_labels", "Verif.Profiler.C150_extremes", "Verif.Profiler.C150_average_iff", "Verif.Profiler.C150_violated"], "note": "the average and variance depend on which measurement is the first (C49); count, minimum, maximum and independence of other labels proved"},
  {"property": "C151", "status": "partial", "theorems": ["Verif.ParamMap.C151_precedence_partial", "Verif.ParamMap.C151_reversed_violated", "Verif.ParamMap.C151_violated", "Verif.ParamMap.C151_iff"], "note": "false for test_tls_scalar_consensus and test_morton_functions, where the file has precedence; proved for the other three programs"},
  {"property": "C152", "status": "partial", "theorems": ["Verif.CorrGraph.C152_linked", "Verif.CorrGraph.C152_found_partial", "Verif.CorrGraph.C152_small_partial", "Verif.CorrGraph.C152_matching", "Verif.CorrGraph.C152_violated"], "note": "associate has undefined behaviour and returns nothing (C64); proved: the links of the graph, and the printed sets when the loop is given the intended meaning and the search ends before the bound of 200 calls"},
  {"property": "C153", "status": "proved", "theorems": ["Verif.Hough.C153_centre", "Verif.Hough.C153_overflow", "Verif.Hough.C153_votes", "Verif.Hough.C153_program"], "note": ""},
  {"property": "C154", "status": "proved", "theorems": ["Verif.MortonFloat.C154_agree", "Verif.MortonFloat.C154_sorted", "Verif.MortonFloat.C154_long", "Verif.MortonFloat.C154_bound", "Verif.MortonFloat.C154_distance"], "note": "the floats are exact multiples (hypothesis Same); C154_bound: from -2^24 on the orders differ"},
  {"property": "C155", "status": "proved", "theorems": ["Verif.Tls.C155_robust", "Verif.Tls.C155_recovery", "Verif.Tls.C155_exact", "Verif.Tls.C155_tie", "Verif.Tls.C155_noise"], "note": "exact arithmetic; C155_tie and C155_noise show that the hypotheses cannot be dropped"},
  {"property": "C156", "status": "partial", "theorems": ["Verif.Gis.C156_north_partial", "Verif.Gis.C156_east", "Verif.Gis.C156_violated"], "note": "the north scale is right everywhere; the east scale is that of the latitude equal to the longitude (exact condition up to 2e-4 in C156_east); exact arithmetic"},
  {"property": "C157", "status": "proved", "theorems": ["Verif.Box.C157_mirror", "Verif.Box.C157_idempotent", "Verif.Box.C157_contract", "Verif.Box.C157_needed"], "note": "exact arithmetic; C157_needed: the restrictions are needed"},
  {"property": "C158", "status": "partial", "theorems": ["Verif.CorrGraph.C158_monotone", "Verif.CorrGraph.C158_relabel", "Verif.CorrGraph.C158_scale", "Verif.CorrGraph.C158_exchange_partial", "Verif.CorrGraph.C158_far_partial", "Verif.CorrGraph.C158_violated"], "note": "all but the exchange of the sets are proved; the exchange holds exactly for pairs of distances on the same side of the minimum (C158_exchange_partial)"},
  {"property": "C159", "status": "proved", "theorems": ["Verif.Morton.C159_spec", "Verif.Morton.C159_types", "Verif.Morton.C159_children", "Verif.Morton.C159_translate", "Verif.Morton.C159_mirror", "Verif.Morton.C159_needed"], "note": "at most 2^w coordinates, see C08"},
  {"property": "C16", "status": "partial", "theorems": ["Verif.MortonTree.C16_partial", "Verif.MortonTree.C16_reports_nothing", "Verif.MortonTree.C16_end_violated", "Verif.MortonTree.C16_violated", "Verif.MortonTree.C16_iff", "Verif.MortonTree.C16_item_violated"], "note": "searchInBox never reports an item and dereferences end() when all the items come before boxMax; right only for boxes without items"},
  {"property": "C160", "status": "proved", "theorems": ["Verif.Functions.C160_terms", "Verif.Functions.C160_single", "Verif.Functions.C160_shift", "Verif.Functions.C160_period", "Verif.Functions.C160_scale", "Verif.Functions.C160_sum", "Verif.Functions.C160_needed"], "note": "exact arithmetic; rounding: C119"},
  {"property": "C161", "status": "proved", "theorems": ["Verif.PeakFinder.C161_moved", "Verif.PeakFinder.C161_returns", "Verif.PeakFinder.C161_needed"], "note": "for domains of at most 2^31-1 cells"},
  {"property": "C162", "status": "partial", "theorems": ["Verif.Tls.C162_best_partial", "Verif.Tls.C162_mirror_partial", "Verif.Tls.C162_tie_violated", "Verif.Tls.C162_violated"], "note": "false when consensus sets tie: the one with the smaller values is taken in both directions; proved: both estimates come from sets of the least cost, and they are opposite with the same inliers when these sets have the same mean; exact arithmetic"},
  {"property": "C163", "status": "partial", "theorems": ["Verif.MortonFloat.C163_spec_partial", "Verif.MortonFloat.C163_unit_partial", "Verif.MortonFloat.C163_translate_partial", "Verif.MortonFloat.C163_violated"], "note": "false near the subnormals; proved for zero and magnitudes from 2^-103 on (negative powers of two if aligned, see C17), where the comparison is the Morton order of the exact values; moving both vectors by multiples of a common cell does not change it either"},
  {"property": "C164", "status": "proved", "theorems": ["Verif.Hough.C164_turn", "Verif.Hough.C164_mirror", "Verif.Hough.C164_unit"], "note": "exact arithmetic; the planes found do not turn with the cloud, as the first cells are never found (C82)"},
  {"property": "C165", "status": "partial", "theorems": ["Verif.Box.C165_step_partial", "Verif.Box.C165_steps_partial", "Verif.Box.C165_translate", "Verif.Box.C165_unit_partial", "Verif.Box.C165_init_partial", "Verif.Box.C165_violated", "Verif.Box.C165_init_violated"], "note": "false when the rotation is not determined by the points (one point) and for the axes of the initial alignment; proved: translations in full, rotations and the unit of length when the singular values are not 0 and the determinant is positive or the second value is simple, and the placed surface of the initial alignment for distinct eigenvalues; exact arithmetic"},
  {"property": "C166", "status": "proved", "theorems": ["Verif.PeakFinder.C166_filter", "Verif.PeakFinder.C166_stricter", "Verif.PeakFinder.C166_list"], "note": "all dimensions, domains, windows and comparators"},
  {"property": "C167", "status": "partial", "theorems": ["Verif.PeakFinder.C167_mirror_partial", "Verif.PeakFinder.C167_mirror_iff", "Verif.PeakFinder.C167_window", "Verif.PeakFinder.C167_violated"], "note": "the window in full; the mirror image exactly when no end of the row is a peak (C167_mirror_iff)"},
  {"property": "C168", "status": "partial", "theorems": ["Verif.PlaneAligner.C168_move_partial", "Verif.PlaneAligner.C168_translate_iff", "Verif.PlaneAligner.C168_order", "Verif.PlaneAligner.C168_coeffs", "Verif.PlaneAligner.C168_coeffs_iff", "Verif.PlaneAligner.C168_violated", "Verif.PlaneAligner.C168_tol_violated"], "note": "the order of the points in full; unit and sign exactly when the sign is kept or the plane does not contain the origin; a motion up to a turn around z and a height"},
  {"property": "C169", "status": "partial", "theorems": ["Verif.Functions.C169_sector_partial", "Verif.Functions.C169_far_partial", "Verif.Functions.C169_length", "Verif.Functions.C169_quarter_iff", "Verif.Functions.C169_cosSin", "Verif.Functions.C169_violated", "Verif.FunctionsFp.C169_double_violated"], "note": "fastCosSin and the length in full; the order of the angles inside each sector bounded by the diagonals and for angles 4e-5 apart, false across a diagonal; the quarter turn exactly off the diagonals"},
  {"property": "C17", "status": "partial", "theorems": ["Verif.MortonFloat.C17_zorder_partial", "Verif.MortonFloat.C17_order_partial", "Verif.MortonFloat.C17_cycle_violated", "Verif.MortonFloat.C17_denormals_violated", "Verif.MortonFloat.C17_zeros_violated", "Verif.MortonFloat.C17_shift_violated", "Verif.MortonFloat.C17_double_violated", "Verif.MortonFloat.C17_doubleCmp_violated", "Verif.MortonFloat.C17_aligned_partial"], "note": "false: negative powers of two give cycles, denormals and signed zeros are misordered, negative numbers with distant exponents shift negative values; proved on tame floats (zero, magnitudes from 2^-103 on that are not negative powers of two), where the comparison is the Z-order of the exact values"},
  {"property": "C170", "status": "proved", "theorems": ["Verif.ParamMap.C170_save", "Verif.ParamMap.C170_inj", "Verif.ParamMap.C170_again", "Verif.ParamMap.C170_range", "Verif.ParamMap.C170_roundtrip_iff", "Verif.ParamMap.C170_args_violated"], "note": "all sequences of texts; C170_range: exactly the tables that can be read; C170_args_violated: not so for command lines, which are outside the statement"},
  {"property": "C171", "status": "proved", "theorems": ["Verif.Functions.C171_direction", "Verif.Functions.C171_length", "Verif.Functions.C171_angle", "Verif.FunctionsFp.C171_double_direction", "Verif.FunctionsFp.C171_double_angle", "Verif.FunctionsFp.C171_double_violated", "Verif.FunctionsFp.C171_float_direction"], "note": "exact arithmetic and double; C171_double_violated: not so for large angles, which are outside the statement"},
  {"property": "C172", "status": "partial", "theorems": ["Verif.Heap.C172_queue_partial", "Verif.Heap.C172_bottom_partial", "Verif.Heap.C172_opposite_partial", "Verif.Heap.C172_order_partial", "Verif.Heap.C172_violated", "Verif.Heap.C172_phases_partial", "Verif.Heap.C172_size_iff"], "note": "false with ties and other operations after a removal at the top; proved when no two of the inserted elements are equivalent, and with ties when the removals at the top come last"},
  {"property": "C173", "status": "partial", "theorems": ["Verif.Profiler.C173_members_partial", "Verif.Profiler.C173_variance_iff", "Verif.Profiler.C173_origin", "Verif.Profiler.C173_violated"], "note": "all but the variance, which is computed from the average; C173_variance_iff gives the exact condition"},
  {"property": "C174", "status": "partial", "theorems": ["Verif.Gis.C174_leg_partial", "Verif.Gis.C174_iff", "Verif.Gis.C174_violated"], "note": "false: each origin has its own scale; proved up to 19.9 m (north) and 1955 m (east) per square degree, and the exact condition"},
  {"property": "C175", "status": "proved", "theorems": ["Verif.Heap.C175_first", "Verif.Heap.C175_determined", "Verif.Heap.C175_order", "Verif.Heap.C175_last"], "note": "all streams with ties at the bottom end, which is the statement; C175_last: the other end, for streams without ties"},
  {"property": "C176", "status": "partial", "theorems": ["Verif.Grid.C176_access_partial", "Verif.Grid.C176_never", "Verif.Grid.C176_row", "Verif.Grid.C176_alias", "Verif.Grid.C176_position_partial", "Verif.Grid.C176_violated"], "note": "false: no access with indices throws; proved: what every access does, and that with two or more coordinates cells outside are taken for cells inside"},
  {"property": "C177", "status": "partial", "theorems": ["Verif.ParamMap.C177_string", "Verif.ParamMap.C177_int", "Verif.ParamMap.C177_iff", "Verif.ParamMap.C177_decimal_partial", "Verif.ParamMap.C177_error_partial", "Verif.ParamMap.C177_one_per_text", "Verif.ParamMap.C177_interval_violated", "Verif.ParamMap.C177_violated"], "note": "false for floating point numbers, which are stored with six digits; proved for strings and int, with the exact condition and the error for floating point numbers"},
  {"property": "C178", "status": "proved", "theorems": ["Verif.DisjointSet.C178_forest", "Verif.DisjointSet.C178_weight", "Verif.DisjointSet.C178_prefix"], "note": "a client that keeps the pairs joined; all lists of pairs"},
  {"property": "C179", "status": "proved", "theorems": ["Verif.MortonTree.C179_block", "Verif.MortonTree.C179_member", "Verif.MortonTree.C179_int"], "note": "integer coordinates, and any strict weak order"},
  {"property": "C18", "status": "partial", "theorems": ["Verif.MortonFloat.C18_float_partial", "Verif.MortonFloat.C18_double_constants_violated", "Verif.MortonFloat.C18_double_violated", "Verif.MortonFloat.C18_violated"], "note": "true for float; the double constants are wrong (EXPONENT_BITS 8, EXPONENT_MAX -768)"},
  {"property": "C180", "status": "proved", "theorems": ["Verif.Functions.C180_lipschitz", "Verif.Functions.C180_antitone_iff"], "note": "exact arithmetic"},
  {"property": "C19", "status": "proved", "theorems": ["Verif.Heap.C19_contents", "Verif.Heap.C19_peek"], "note": ""},
  {"property": "C20", "status": "partial", "theorems": ["Verif.Heap.C20_extremes_partial", "Verif.Heap.C20_distinct_partial", "Verif.Heap.C20_noPopTop_partial", "Verif.Heap.C20_popTopLast_partial", "Verif.Heap.C20_violated", "Verif.Heap.C20_size_iff"], "note": "heapDownMin goes on from a child on a max level: with equivalent elements popTop breaks the order (bottom, and later top, are wrong); proved when the heap has no ties at each popTop, and for the top when nothing is pushed after the first popTop (ties allowed); with ties, right for heaps of at most 5 elements and not for 6 (C20_size_iff)"},
  {"property": "C21", "status": "partial", "theorems": ["Verif.Heap.C21_next_partial", "Verif.Heap.C21_iff", "Verif.Heap.C21_violated"], "note": "nextTop is wrong for some heaps of 4 and 5 elements, nextBottom for some heaps of 4 or more; right for sizes 2, 3 (both) and 6 or more (nextTop); C21_iff: the exact heaps"},
  {"property": "C22", "status": "proved", "theorems": ["Verif.DisjointSet.C22_find"], "note": "all valid histories"},
  {"property": "C23", "status": "proved", "theorems": ["Verif.DisjointSet.C23_join"], "note": "all valid histories"},
  {"property": "C24", "status": "proved", "theorems": ["Verif.DisjointSet.C24_size"], "note": "all valid histories"},
  {"property": "C25", "status": "partial", "theorems": ["Verif.DisjointSet.C25_setNum_exact_partial", "Verif.DisjointSet.C25_setNum_partial", "Verif.DisjointSet.C25_setNum_violated", "Verif.DisjointSet.C25_iff"], "note": "exact value for all valid histories: makeSet is not counted, negative initSets counted as such"},
  {"property": "C26", "status": "proved", "theorems": ["Verif.DisjointSet.C26_depth"], "note": "all valid histories"},
  {"property": "C27", "status": "proved", "theorems": ["Verif.DisjointSet.C27_parents", "Verif.DisjointSet.C27_total"], "note": "all valid histories"},
  {"property": "C28", "status": "partial", "theorems": ["Verif.DisjointSet.C28_invalid_partial", "Verif.DisjointSet.C28_size_violated", "Verif.DisjointSet.C28_join_violated", "Verif.DisjointSet.C28_violated", "Verif.DisjointSet.C28_iff"], "note": "find is safe; join is defined exactly when both ids are valid or both invalid, size exactly for valid ids (C28_iff)"},
  {"property": "C29", "status": "proved", "theorems": ["Verif.LabelSet.C29_algebra"], "note": "all reachable label sets"},
  {"property": "C30", "status": "partial", "theorems": ["Verif.LabelSet.C30_equality_partial", "Verif.LabelSet.C30_equality_violated", "Verif.LabelSet.C30_iff"], "note": "operator== uses the 3-iterator std::equal: prefix test, undefined when the right operand is a strict prefix; right exactly when neither set is a strict prefix of the other (C30_iff)"},
  {"property": "C31", "status": "partial", "theorems": ["Verif.Interval.C31_static", "Verif.Interval.C31_dynamic_partial", "Verif.Interval.C31_dynamic_iff", "Verif.Interval.C31_dynamic_violated"], "note": "full for StaticRasterIndexer; RasterIndexer::getPos adds the index before subtracting the minimum and overflows on legitimate cells; C31_dynamic_iff gives the exact set of boxes on which it is right"},
  {"property": "C32", "status": "partial", "theorems": ["Verif.Interval.C32_partial", "Verif.Interval.C32_iff", "Verif.Interval.C32_violated"], "note": "getIndices always agree; getPos agree exactly on the boxes where the dynamic one does not overflow (C32_iff)"},
  {"property": "C33", "status": "proved", "theorems": ["Verif.Interval.C33_raster_iteration"], "note": ""},
  {"property": "C34", "status": "proved", "theorems": ["Verif.Interval.C34_boustrophedon_iteration"], "note": ""},
  {"property": "C35", "status": "partial", "theorems": ["Verif.Interval.C35_partial", "Verif.Interval.C35_iff", "Verif.Interval.C35_violated"], "note": "false for 3 or more coordinates with an odd inner dimension (2x3x2); C35_iff gives the exact set of boxes on which it holds"},
  {"property": "C36", "status": "partial", "theorems": ["Verif.Interval.C36_inside", "Verif.Interval.C36_empty", "Verif.Interval.C36_initBounds", "Verif.Interval.C36_initMinMax", "Verif.Interval.C36_initCentered", "Verif.Interval.C36_intersect_partial", "Verif.Interval.C36_intersect_iff", "Verif.Interval.C36_intersect_violated"], "note": "intersect overflows exactly when the gap of two disjoint intervals with cells does not fit an int"},
  {"property": "C37", "status": "proved", "theorems": ["Verif.Interval.C37_stacked", "Verif.Interval.C37_stacked_assert"], "note": ""},
  {"property": "C38", "status": "partial", "theorems": ["Verif.Interval.C38_partial", "Verif.Interval.C38_violated", "Verif.Interval.C38_iff"], "note": "negative dimensions: empty but non-zero size; the iteration is empty exactly when 2^32 divides the product of the dimensions (C38_iff)"},
  {"property": "C39", "status": "proved", "theorems": ["Verif.Grid.C39_history", "Verif.Grid.C39_init", "Verif.Grid.C39_init_dims", "Verif.Grid.C39_init_minMax", "Verif.Grid.C39_init_center", "Verif.Grid.C39_position_throws"], "note": ""},
  {"property": "C40", "status": "partial", "theorems": ["Verif.PeakFinder.C40_oneDim_partial", "Verif.PeakFinder.C40_cells_partial", "Verif.PeakFinder.C40_returns_partial", "Verif.PeakFinder.C40_setDomain", "Verif.PeakFinder.C40_violated", "Verif.PeakFinder.C40_twoDim_violated", "Verif.PeakFinder.C40_threeDim_violated"], "note": "exact in one dimension with distinct values apart from the first cell; false for the first cell, plateaus, zero windows; in two and three dimensions peaks are missed and cells that are no peaks are reported, even with distinct values. In any dimension the reported cells are distinct domain cells that pass the filter"},
  {"property": "C41", "status": "proved", "theorems": ["Verif.PeakFinder.C41_order"], "note": "any comparator that is a strict weak order, ties included, any dimension, whenever detect returns"},
  {"property": "C42", "status": "proved", "theorems": ["Verif.ParamMap.C42_read", "Verif.ParamMap.C42_sorted", "Verif.ParamMap.C42_overlong", "Verif.ParamMap.C42_file"], "note": ""},
  {"property": "C43", "status": "partial", "theorems": ["Verif.ParamMap.C43_roundtrip_partial", "Verif.ParamMap.C43_long", "Verif.ParamMap.C43_violated", "Verif.ParamMap.C43_iff", "Verif.ParamMap.C170_roundtrip_iff"], "note": "lines of 2000 characters or more are not read back, and with them all later ones (C43_iff gives the exact part); tables without null characters"},
  {"property": "C44", "status": "partial", "theorems": ["Verif.ParamMap.C44_readArgs_partial", "Verif.ParamMap.C44_negative_number", "Verif.ParamMap.C44_violated", "Verif.ParamMap.C44_iff"], "note": "isalpha is called with a negative value for a byte above 127 after a dash (undefined behaviour); proved exactly for all other command lines (C44_iff), and for all when the library answers false for such bytes"},
  {"property": "C45", "status": "partial", "theorems": ["Verif.ParamMap.C45_getParam_partial", "Verif.ParamMap.C45_badCast", "Verif.ParamMap.C45_set_get", "Verif.ParamMap.C45_violated", "Verif.ParamMap.C45_iff"], "note": "a parameter that cannot be converted leaves the output untouched and the result is true; C45_iff: right exactly for the others"},
  {"property": "C46", "status": "proved", "theorems": ["Verif.ParamMap.C46_container", "Verif.ParamMap.C46_tokens_exist"], "note": ""},
  {"property": "C47", "status": "partial", "theorems": ["Verif.ParamMap.C47_noTilde_partial", "Verif.ParamMap.C47_tilde_violated", "Verif.ParamMap.C47_violated", "Verif.ParamMap.C47_iff"], "note": "the current element is erased during the iteration: undefined behaviour for every value to expand; a second tilde prevents the expansion; C47_iff gives the exact tables for which it is right"},
  {"property": "C48", "status": "proved", "theorems": ["Verif.Profiler.C48_count_extremes", "Verif.Profiler.C48_nan"], "note": "for measurements in a linear order, i.e. doubles without NaN; C48_nan shows the behaviour with NaN on IEEE doubles"},
  {"property": "C49", "status": "partial", "theorems": ["Verif.Profiler.C49_actual", "Verif.Profiler.C49_average_partial", "Verif.Profiler.C49_average_wrong", "Verif.Profiler.C49_violated", "Verif.Profiler.C49_iff"], "note": "the average and the variance ignore the first measurement when there are two or more, and getVariance divides by the number minus one; what is computed is proved"},
  {"property": "C50", "status": "proved", "theorems": ["Verif.Functions.C50_fourier", "Verif.Functions.C50_overflow_violated"], "note": "over the reals, all vectors up to 2^31 elements; 2^31+2 elements overflow the int index"},
  {"property": "C51", "status": "partial", "theorems": ["Verif.Functions.C51_normalize_partial", "Verif.Functions.C51_range_violated", "Verif.Functions.C51_turn_violated", "Verif.Functions.C51_violated", "Verif.Functions.C51_iff"], "note": "normalize180 holds; the other two use decimal constants larger than 2*pi, so they hold for those constants only"},
  {"property": "C52", "status": "proved", "theorems": ["Verif.Functions.C52_findLUCos"], "note": "exact minimum and maximum over the reals, for both orders of the ends"},
  {"property": "C53", "status": "proved", "theorems": ["Verif.Functions.C53_findLUFourier", "Verif.Functions.C53_empty_violated", "Verif.Functions.C53_frequency_violated"], "note": "bounds for the documented series (frequencies 2k); an empty vector is read out of bounds; evaluateFourier uses frequencies k, so the bounds do not apply to it"},
  {"property": "C54", "status": "partial", "theorems": ["Verif.Functions.C54_table_partial", "Verif.Functions.C54_eval_partial", "Verif.Functions.C54_nodes_partial", "Verif.Functions.C54_vector_partial", "Verif.Functions.C54_order_violated", "Verif.Functions.C54_zero_violated", "Verif.Functions.C54_violated", "Verif.Functions.C54_empty", "Verif.Functions.C54_build_iff", "Verif.Functions.C54_eval_iff", "Verif.Functions.C54_even"], "note": "everything but the largest order, whose evaluation aborts, and order 0, which reads out of bounds"},
  {"property": "C55", "status": "proved", "theorems": ["Verif.Functions.C55_cosSin", "Verif.Functions.C55_atan2", "Verif.Functions.C55_atan2_zero"], "note": "over the reals; the zero vector has no quadrant and gives NaN"},
  {"property": "C56", "status": "proved", "theorems": ["Verif.Tls.C56_tls", "Verif.Tls.C56_empty", "Verif.Tls.C56_lengths", "Verif.Tls.C56_consensus_violated"], "note": "exact arithmetic; the empty input dereferences an end iterator; the documented maximum consensus is false (witness)"},
  {"property": "C57", "status": "proved", "theorems": ["Verif.Box.C57_nearest"], "note": "exact arithmetic; box sizes at least zero, dimension at least one (with dimension zero the assertion fails)"},
  {"property": "C58", "status": "partial", "theorems": ["Verif.Gis.C58_roundtrip_partial", "Verif.Gis.C58_violated", "Verif.Gis.C58_iff"], "note": "exact arithmetic; fails exactly at the origins of longitude 90 + 180 k"},
  {"property": "C59", "status": "partial", "theorems": ["Verif.Geometry2.C59_ccw", "Verif.Geometry2.C59_angles_partial", "Verif.Geometry2.C59_cone", "Verif.Geometry2.C59_area_violated", "Verif.Geometry2.C59_turn_violated", "Verif.Geometry2.C59_full_turn_violated", "Verif.Geometry2.C59_violated"], "note": "exact arithmetic with the stored constants; ccw is twice the documented area; the interval of a full turn is empty and the turn constant is truncated (witnesses)"},
  {"property": "C60", "status": "partial", "theorems": ["Verif.Hough.C60_init", "Verif.Hough.C60_insert_partial", "Verif.Hough.C60_range_partial", "Verif.Hough.C60_notify_violated", "Verif.Hough.C60_bin_violated", "Verif.Hough.C60_iff"], "note": "exact counts for at least 8 cells of phi, with a first bin of twice the width; below 8 cells the remainder by zero is undefined; the projections are in exact arithmetic"},
  {"property": "C61", "status": "partial", "theorems": ["Verif.Hough.C61_overloads_iff", "Verif.Hough.C61_votes_partial", "Verif.Hough.C61_partial", "Verif.Hough.C61_outside", "Verif.Hough.C61_violated", "Verif.Hough.C61_rounding_violated"], "note": "one overload forgets rhoMin, so that it agrees only for rhoMin = 0; the votes are right in exact arithmetic, wrong after rounding in float"},
  {"property": "C62", "status": "partial", "theorems": ["Verif.Hough.C62_init", "Verif.Hough.C62_insert_iff_partial", "Verif.Hough.C62_violated", "Verif.Hough.C62_no_lines"], "note": "the code of insert is empty: the property holds exactly for the points that vote for no cell, and no sequence of calls finds a line"},
  {"property": "C63", "status": "partial", "theorems": ["Verif.CorrGraph.C63_edges_partial", "Verif.CorrGraph.C63_symm", "Verif.CorrGraph.C63_tolerance", "Verif.CorrGraph.C63_violated", "Verif.CorrGraph.C63_dst_violated", "Verif.CorrGraph.C63_fewer_violated", "Verif.CorrGraph.C63_no_items", "Verif.CorrGraph.C63_history", "Verif.CorrGraph.C63_history_iff"], "note": "proved for objects whose items are inserted once; false for objects whose items are inserted again (the old distances are kept; with fewer items an assertion fails); the links after any number of insertions without a decrease, and when they are right, in C63_history and C63_history_iff"},
  {"property": "C64", "status": "partial", "theorems": ["Verif.CorrGraph.C64_undefined", "Verif.CorrGraph.C64_violated", "Verif.CorrGraph.C64_no_association", "Verif.CorrGraph.C64_cliques_partial", "Verif.CorrGraph.C64_small_partial", "Verif.CorrGraph.C64_limit", "Verif.CorrGraph.C64_limit_violated", "Verif.CorrGraph.C64_exhausted"], "note": "the behaviour is undefined for every non-empty input and nothing is ever returned; what is proved is that the printed cliques would be the maximal ones if the loop visited a copy and the counter did not reach 200"},
  {"property": "C65", "status": "partial", "theorems": ["Verif.PlaneAligner.C65_frame_partial", "Verif.PlaneAligner.C65_violated", "Verif.PlaneAligner.C65_coeffs", "Verif.PlaneAligner.C65_null_normal", "Verif.PlaneAligner.C65_transform", "Verif.PlaneAligner.C65_sequence", "Verif.PlaneAligner.C65_initial", "Verif.PlaneAligner.C65_tolerance", "Verif.PlaneAligner.C65_compose", "Verif.PlaneAligner.C65_iff"], "note": "all but that the plane goes to height zero, which is false: it goes to height -d/|n|; exact arithmetic, Eigen and PCL operations modelled from their documentation; C65_iff: exactly the planes through the origin"},
  {"property": "C66", "status": "proved", "theorems": ["Verif.Io.C66_listing", "Verif.Io.C66_exception"], "note": "the file system is a parameter; the exceptions of the directory iterator are included"},
  {"property": "C67", "status": "partial", "theorems": ["Verif.Grid.C67_partial", "Verif.Grid.C67_violated", "Verif.Grid.C67_moves", "Verif.Grid.C67_iff", "Verif.Grid.C67_plane_iff", "Verif.Grid.C67_space_iff"], "note": "resize keeps values by position, so they move to other cells; right when only the last dimension changes"},
  {"property": "C68", "status": "proved", "theorems": ["Verif.ParamMap.C68_prefix"], "note": ""},
  {"property": "C69", "status": "proved", "theorems": ["Verif.ParamMap.C69_inserter"], "note": ""},
  {"property": "C70", "status": "partial", "theorems": ["Verif.MortonFloat.C70_bounds_partial", "Verif.MortonFloat.C70_dyadic_partial", "Verif.MortonFloat.C70_equal_violated", "Verif.MortonFloat.C70_double_violated", "Verif.MortonFloat.C70_violated", "Verif.MortonFloat.C70_iff"], "note": "proved for all pairs of different finite floats (dyadic part: same sign, not both subnormal); equal arguments shift by -1"},
  {"property": "C71", "status": "partial", "theorems": ["Verif.MortonFloat.C71_distance_partial", "Verif.MortonFloat.C71_violated", "Verif.MortonFloat.C71_aligned_partial"], "note": "proved on tame floats; false on subnormals; C71_aligned_partial: also with aligned negative powers of two"},
  {"property": "C72", "status": "partial", "theorems": ["Verif.MortonFloat.C72_split_partial", "Verif.MortonFloat.C72_negative_violated", "Verif.MortonFloat.C72_violated"], "note": "proved when every pair of coordinates differs and is nonnegative (not both subnormal) or of opposite sign; two negative coordinates give a mid that does not separate"},
  {"property": "C73", "status": "proved", "theorems": ["Verif.Functions.C73_pnebiVector", "Verif.Functions.C73_positive"], "note": "over every ordered field (recurrence) and the reals (positivity)"},
  {"property": "C74", "status": "proved", "theorems": ["Verif.Functions.C74_cosSin", "Verif.Functions.C74_atan2"], "note": "over the reals; the angle of a vector is the argument of the complex number"},
  {"property": "C75", "status": "partial", "theorems": ["Verif.Geometry2.C75_operators_partial", "Verif.Geometry2.C75_alias_violated", "Verif.Geometry2.C75_scale_self", "Verif.Geometry2.C75_scale_iff"], "note": "arguments that are components of the array itself are read after they are overwritten (witness)"},
  {"property": "C76", "status": "proved", "theorems": ["Verif.Geometry2.C76_pose", "Verif.Geometry2.C76_compose"], "note": "exact arithmetic"},
  {"property": "C77", "status": "partial", "theorems": ["Verif.Gis.C77_turn_partial", "Verif.Gis.C77_violated", "Verif.Gis.C77_iff"], "note": "exact arithmetic; the scale of x depends on the longitude of the origin instead of its latitude; C77_iff: exactly the turns that keep the coordinates"},
  {"property": "C78", "status": "partial", "theorems": ["Verif.Gis.C78_ellipsoid", "Verif.Gis.C78_constants_partial", "Verif.Gis.C78_constants_violated"], "note": "positions proved; the constant ROFL_WGS84_ECCENTRICITY is the second eccentricity and does not match its comment (witness)"},
  {"property": "C79", "status": "proved", "theorems": ["Verif.Box.C79_rigid"], "note": "exact arithmetic; the singular value decomposition of Eigen is a parameter assumed correct for the matrix it is given"},
  {"property": "C80", "status": "partial", "theorems": ["Verif.Box.C80_optimal_partial", "Verif.Box.C80_plane", "Verif.Box.C80_space_violated", "Verif.Box.C80_violated", "Verif.Box.C80_last", "Verif.Box.C80_excess", "Verif.Box.C80_iff"], "note": "proved in the plane and without reflection; in space the sign is corrected at the wrong singular value (witness, for every correct decomposition)"},
  {"property": "C81", "status": "partial", "theorems": ["Verif.Box.C81_init_partial", "Verif.Box.C81_orientation_violated", "Verif.Box.C81_violated", "Verif.Box.C81_iff"], "note": "all but the orientation; for every solver and cloud some order of the sizes gives a reflection"},
  {"property": "C82", "status": "partial", "theorems": ["Verif.Hough.C82_findPlanes_partial", "Verif.Hough.C82_params", "Verif.Hough.C82_parallel", "Verif.Hough.C82_normals", "Verif.Hough.C82_window", "Verif.Hough.C82_violated"], "note": "order, membership in the grid and parameters; the cells are not exactly the peaks (first rho and first normal never found)"},
  {"property": "C83", "status": "partial", "theorems": ["Verif.Hough.C83_findLines_partial", "Verif.Hough.C83_peaks_partial", "Verif.Hough.C83_normals", "Verif.Hough.C83_violated"], "note": "order and correspondence for all contents; exactly the local maxima for distinct counters except the first angle and distance, which are never found"},
  {"property": "C84", "status": "proved", "theorems": ["Verif.Io.C84_order", "Verif.Io.C84_null"], "note": "std::put_time modelled for the C locale and years 1900-9999"},
  {"property": "C85", "status": "proved", "theorems": ["Verif.FunctionsFp.C85_atan", "Verif.FunctionsFp.C85_atan_rounding", "Verif.FunctionsFp.C85_atan_odd"], "note": "IEEE-754 double arithmetic, every operation rounded separately"},
  {"property": "C86", "status": "partial", "theorems": ["Verif.FunctionsFp.C86_atan2", "Verif.FunctionsFp.C86_atan2_arg", "Verif.FunctionsFp.C86_atan2_odd", "Verif.FunctionsFp.C86_atan2_range", "Verif.FunctionsFp.C86_atan2_zero", "Verif.FunctionsFp.C86_atan2_inf", "Verif.FunctionsFp.C86_atan2_one_inf", "Verif.FunctionsFp.C86_violated", "Verif.FunctionsFp.C86_iff"], "note": "all but that the result is a number: NaN at the zero vector and for two infinite components (C86_iff: exactly then)"},
  {"property": "C87", "status": "partial", "theorems": ["Verif.FunctionsFp.C87_cosSin_partial", "Verif.FunctionsFp.C87_violated", "Verif.FunctionsFp.C87_inf"], "note": "error bound 0.0012 + 2^k/2^46 for |x| <= 2^k, k <= 46; false for large arguments (10^18 gives 0, 0)"},
  {"property": "C88", "status": "partial", "theorems": ["Verif.FunctionsFp.C88_normalize_partial", "Verif.FunctionsFp.C88_fixed_partial", "Verif.FunctionsFp.C88_upper_violated", "Verif.FunctionsFp.C88_lower_violated", "Verif.FunctionsFp.C88_large_violated", "Verif.FunctionsFp.C88_violated", "Verif.FunctionsFp.C88_turn_iff"], "note": "up to rounding for |angle| <= 2^50, exact inside the interval; the interval is left at both ends and for large angles"},
  {"property": "C89", "status": "partial", "theorems": ["Verif.FunctionsFp.C89_atan2f", "Verif.FunctionsFp.C89_atanf", "Verif.FunctionsFp.C89_atanf_odd", "Verif.FunctionsFp.C89_range_violated", "Verif.FunctionsFp.C89_range_partial", "Verif.FunctionsFp.C89_range_iff"], "note": "all but the range: fastAtan2f(-1, 0) exceeds pi; proved: no result exceeds the float nearest to pi, which is the only value outside the range"},
  {"property": "C90", "status": "partial", "theorems": ["Verif.FunctionsFp.C90_cosSinf_partial", "Verif.FunctionsFp.C90_violated", "Verif.FunctionsFp.C90_floor_differ", "Verif.FunctionsFp.C90_inf"], "note": "error bound 0.0012 + 2^k/2^17 for |x| <= 2^k, k <= 17, for both overloads of floor; false for large arguments"},
  {"property": "C91", "status": "partial", "theorems": ["Verif.Geometry2Fp.C91_sign_partial", "Verif.Geometry2Fp.C91_integers_partial", "Verif.Geometry2Fp.C91_swap_partial", "Verif.Geometry2Fp.C91_cone_partial", "Verif.Geometry2Fp.C91_cone_integers_partial", "Verif.Geometry2Fp.C91_sign_violated", "Verif.Geometry2Fp.C91_cyclic_violated", "Verif.Geometry2Fp.C91_cone_violated", "Verif.Geometry2Fp.C91_violated"], "note": "sign exact for determinants above 2^-22 of their terms and for integers up to 2^11; exchange of two points exact; wrong for nearly collinear points"},
  {"property": "C92", "status": "partial", "theorems": ["Verif.Geometry2Fp.C92_normalize_partial", "Verif.Geometry2Fp.C92_angle_partial", "Verif.Geometry2Fp.C92_interval_partial", "Verif.Geometry2Fp.C92_fixed_partial", "Verif.Geometry2Fp.C92_upper_violated", "Verif.Geometry2Fp.C92_lower_violated", "Verif.Geometry2Fp.C92_large_violated", "Verif.Geometry2Fp.C92_violated", "Verif.Geometry2Fp.C92_turn_iff"], "note": "up to rounding for |angle| <= 2^21, exact inside the interval, intervals decided right away from their ends; the interval is left at both ends and for large angles"},
  {"property": "C93", "status": "partial", "theorems": ["Verif.LutPrint.C93_rows_partial", "Verif.LutPrint.C93_count_violated", "Verif.LutPrint.C93_undefined", "Verif.LutPrint.C93_violated", "Verif.LutPrint.C93_count_iff", "Verif.LutPrint.C93_twice_iff"], "note": "which rows are printed; their number is above n, up to 2n"},
  {"property": "C94", "status": "partial", "theorems": ["Verif.Text.C94_outIdx", "Verif.Text.C94_labels", "Verif.Text.C94_interval_partial", "Verif.Text.C94_interval_violated", "Verif.Text.C94_violated", "Verif.Text.C94_interval_iff"], "note": "indices and labels in full; intervals exactly when the sums of bounds and lengths do not overflow (C94_interval_iff)"},
  {"property": "C95", "status": "proved", "theorems": ["Verif.Text.C95_heap"], "note": ""},
  {"property": "C96", "status": "partial", "theorems": ["Verif.Profiler.C96_scoped_partial", "Verif.Profiler.C96_macro", "Verif.Profiler.C96_violated"], "note": "holds for declared timers; the macro makes a temporary which measures nothing of the block"},
  {"property": "C97", "status": "proved", "theorems": ["Verif.Profiler.C97_report"], "note": ""},
  {"property": "C98", "status": "partial", "theorems": ["Verif.Text.C98_report_partial", "Verif.Text.C98_seven_violated", "Verif.Text.C98_violated"], "note": "ROFL_VAR7 writes the seventh value beside the sixth expression"},
  {"property": "C99", "status": "partial", "theorems": ["Verif.MortonTree.C99_item_partial", "Verif.MortonTree.C99_short_violated", "Verif.MortonTree.C99_long_violated", "Verif.MortonTree.C99_violated", "Verif.MortonTree.C99_iff"], "note": "holds exactly for lists of the size of the dimension; longer lists are written out of bounds, shorter ones leave indeterminate coordinates"}
]}
