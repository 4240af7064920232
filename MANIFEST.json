{
 "claims": [
  {
   "property": "C01",
   "status": "proved",
   "theorems": [
    "Verif.Persist.C01_published_slices_never_change",
    "Verif.Persist.C01_transients_do_not_interfere"
   ],
   "note": "All histories of sequential calls; concurrent Set is C04."
  },
  {
   "property": "C02",
   "status": "proved",
   "theorems": [
    "Verif.Persist.C02_behaves_as_lists",
    "Verif.Persist.C02_each_call_is_a_list_step",
    "Verif.Persist.C02_iteration"
   ],
   "note": "Refinement to plain lists for every history."
  },
  {
   "property": "C03",
   "status": "proved",
   "theorems": [
    "Verif.Persist.C03_never_fails_internally",
    "Verif.Persist.C03_height_and_tail"
   ],
   "note": "Every allowed call succeeds in every reachable state."
  },
  {
   "property": "C04",
   "status": "proved",
   "theorems": [
    "Verif.Persist.C04_never_stuck",
    "Verif.Persist.C04_nothing_lost",
    "Verif.Persist.C04_each_index",
    "Verif.Persist.C04_others_unaffected",
    "Verif.Persist.C04_programs_behave_as_lists"
   ],
   "note": "Every schedule of the atomic steps of any number of goroutines, each making any list of Set calls; sequentially consistent atomics assumed."
  },
  {
   "property": "C05",
   "status": "proved",
   "theorems": [
    "Verif.Par.C05_exact_cover",
    "Verif.Par.C05_waits_and_reports"
   ],
   "note": "All lengths, costs, processor counts; the wait/report protocol under every schedule."
  },
  {
   "property": "C06",
   "status": "proved",
   "theorems": [
    "Verif.Par.C06_schedule_independent",
    "Verif.Par.C06_deterministic",
    "Verif.Par.C06_pointwise"
   ],
   "note": "Workers are the concurrent Set calls of C04 on a fresh editor; every schedule."
  },
  {
   "property": "C07",
   "status": "partial",
   "theorems": [
    "Verif.Par.C07_assignment_deterministic_partial",
    "Verif.Par.C07_repeated_indexes_race"
   ],
   "note": "Violated when an index is repeated across goroutines (witness C07_repeated_indexes_race); proved when goroutines touch different cells."
  },
  {
   "property": "C08",
   "status": "partial",
   "theorems": [
    "Verif.Num.C08_exact_partial",
    "Verif.Num.C08_expressions_partial",
    "Verif.Num.C08_ring_total",
    "Verif.Num.C08_meaning_unique",
    "Verif.Num.C08_violated"
   ],
   "note": "Violated: |, ^ and unary ^ leave machine integers beyond 2^31, whose product overflows (C08_violated). Proved for operands up to 2^31 in machine form and for whole expressions, without restriction for expressions built from + - * negation abs."
  },
  {
   "property": "C09",
   "status": "partial",
   "theorems": [
    "Verif.Num.C09_canonical_partial",
    "Verif.Num.C09_indistinguishable_partial",
    "Verif.Num.C09_violated",
    "Verif.Num.C09_deviations"
   ],
   "note": "Violated by 0**n, 1**n, max, unary -, abs, idiv and bit operators (witnesses in C09_deviations). Proved up to the two forms of +-2^31 for all other operators."
  },
  {
   "property": "C10",
   "status": "proved",
   "theorems": [
    "Verif.Num.C10_rational_exact"
   ],
   "note": "Operands in any mixture of representations with machine integers up to 2^31 (see C08 for the others)."
  },
  {
   "property": "C11",
   "status": "proved",
   "theorems": [
    "Verif.Num.C11_division",
    "Verif.Num.C11_zero_divisor"
   ],
   "note": "Operands as in C10."
  },
  {
   "property": "C13",
   "status": "partial",
   "theorems": [
    "Verif.Num.C13_limit_partial",
    "Verif.Num.C13_violated",
    "Verif.Num.C13_deviations",
    "Verif.Num.C13_overflow_in_check"
   ],
   "note": "Violated by 2**n, <<, ! and by overflow in the check; proved for + - * and for ** with other bases while the product of exponent and length fits."
  },
  {
   "property": "C14",
   "status": "proved",
   "theorems": [
    "Verif.Num.C14_powers"
   ],
   "note": "Exponents below 2^63 in absolute value."
  },
  {
   "property": "C15",
   "status": "proved",
   "theorems": [
    "Verif.Num.C15_factorial",
    "Verif.Num.C15_operator"
   ],
   "note": "All n below 2^63."
  },
  {
   "property": "C16",
   "status": "partial",
   "theorems": [
    "Verif.Num.C16_binomial_partial",
    "Verif.Num.C16_violated"
   ],
   "note": "Violated for n ! 0 with n > 0; proved otherwise for 0..2^31."
  },
  {
   "property": "C17",
   "status": "proved",
   "theorems": [
    "Verif.Num.C17_floor_ceil"
   ],
   "note": "Integers and fractions."
  },
  {
   "property": "C49",
   "status": "proved",
   "theorems": [
    "Verif.Num.C49_bits"
   ],
   "note": "Integers with machine form up to 2^31; shift counts 0..2^31-2."
  },
  {
   "property": "C50",
   "status": "proved",
   "theorems": [
    "Verif.Num.C50_comparisons",
    "Verif.Num.C50_logic",
    "Verif.Num.C50_min_max"
   ],
   "note": "Integers and fractions in any mixture of representations."
  },
  {
   "property": "C12",
   "status": "partial",
   "theorems": [
    "Verif.Heap.C12_kept_partial",
    "Verif.Heap.C12_program_partial",
    "Verif.Heap.C12_extent",
    "Verif.Heap.C12_damage",
    "Verif.Heap.C12_violated",
    "Verif.Heap.C12_wrong_value"
   ],
   "note": "Violated: mod (QuoRem) negates negative fractions in place (C12_violated; C12_damage shows it always happens, C12_extent that nothing else changes). Proved for all programs that take no mod of a negative fraction. Model: exact scalars with rational cells; floats and encode not modelled."
  },
  {
   "property": "C18",
   "status": "partial",
   "theorems": [
    "Verif.Order.C18_preorder_partial",
    "Verif.Order.C18_meaning",
    "Verif.Order.C18_total",
    "Verif.Order.C18_numbers",
    "Verif.Order.C18_violated"
   ],
   "note": "Violated by complex numbers with imaginary part zero, which sqrt can return (6 < 1j1 < 5j0 < 6). Proved for all other exact values of any nesting, with the documented order as an independent specification."
  },
  {
   "property": "C19",
   "status": "partial",
   "theorems": [
    "Verif.Order.C19_match_partial",
    "Verif.Order.C19_match_data",
    "Verif.Order.C19_violated"
   ],
   "note": "Violated: shapes of matrices are not compared. C19_match_data says exactly what is compared; proved when no matrix occurs."
  },
  {
   "property": "C20",
   "status": "proved",
   "theorems": [
    "Verif.Order.C20_membership",
    "Verif.Order.C20_index_of",
    "Verif.Order.C20_index_of_rows"
   ],
   "note": "All vectors of exact values (complex numbers not real, see C18), every sort meeting Go's documentation, Go's binary search loop."
  },
  {
   "property": "C21",
   "status": "proved",
   "theorems": [
    "Verif.Order.C21_grade",
    "Verif.Order.C21_sorts",
    "Verif.Order.C21_grade_rows"
   ],
   "note": "Values as in C20; rows of matrices are sorted but not stably."
  },
  {
   "property": "C22",
   "status": "partial",
   "theorems": [
    "Verif.Order.C22_unique_partial",
    "Verif.Order.C22_unique_stable_partial",
    "Verif.Order.C22_unique_violated",
    "Verif.Order.C22_union",
    "Verif.Order.C22_intersect",
    "Verif.Order.C22_scalar"
   ],
   "note": "unique keeps the first occurrence only if sort.Slice happens to be stable (it promises not to be); everything else proved."
  },
  {
   "property": "C23",
   "status": "proved",
   "theorems": [
    "Verif.Arr.C23_rho",
    "Verif.Arr.C23_rho_vec",
    "Verif.Arr.C23_rho_refused",
    "Verif.Arr.C23_rho_rho",
    "Verif.Arr.C23_well_formed"
   ],
   "note": "All shapes and sources; well-formedness for every matrix made by rho, rot, flip, transp, take and drop."
  },
  {
   "property": "C24",
   "status": "partial",
   "theorems": [
    "Verif.Arr.C24_rotate_vec_partial",
    "Verif.Arr.C24_rotate_vec_meaning",
    "Verif.Arr.C24_rotate_mat",
    "Verif.Arr.C24_vrotate_mat",
    "Verif.Arr.C24_reverse_vec",
    "Verif.Arr.C24_reverse_mat",
    "Verif.Arr.C24_vec_violated",
    "Verif.Arr.C24_no_columns_violated",
    "Verif.Arr.C24_rot_hangs"
   ],
   "note": "Violated: a vector of one element rotates to a scalar; matrices without columns crash or hang. Proved for all other vectors and for all matrices with elements, for every schedule of pfor."
  },
  {
   "property": "C25",
   "status": "partial",
   "theorems": [
    "Verif.Arr.C25_transp",
    "Verif.Arr.C25_transp_by",
    "Verif.Arr.C25_transp_by_refused",
    "Verif.Arr.C25_no_columns_violated"
   ],
   "note": "Violated: transp of a matrix with rows but no columns crashes. Unary transp proved for matrices with elements; p transp m proved for all well-formed matrices and all p."
  },
  {
   "property": "C26",
   "status": "proved",
   "theorems": [
    "Verif.Arr.C26_take_vec",
    "Verif.Arr.C26_drop_vec",
    "Verif.Arr.C26_take_drop_vec",
    "Verif.Arr.C26_take_mat",
    "Verif.Arr.C26_drop_mat"
   ],
   "note": "All counts, including overtake and wrap-around of the element count; matrices with up to one count per axis."
  },
  {
   "property": "C27",
   "status": "partial",
   "theorems": [
    "Verif.Arr.C27_index_partial",
    "Verif.Arr.C27_elements",
    "Verif.Arr.C27_points",
    "Verif.Arr.C27_refused",
    "Verif.Arr.C27_elem_refused",
    "Verif.Arr.C27_violated",
    "Verif.Arr.C27_no_columns_violated"
   ],
   "note": "Violated: several missing indexes give the wrong shape (their lengths reversed), and matrices without columns crash. C27_elements says exactly when the shape is right and that the elements always are."
  },
  {
   "property": "C28",
   "status": "proved",
   "theorems": [
    "Verif.Arr.C28_assign",
    "Verif.Arr.C28_distinct",
    "Verif.Arr.C28_refused",
    "Verif.Arr.C28_accepted",
    "Verif.Arr.C28_points",
    "Verif.Arr.C28_missing_violated"
   ],
   "note": "Elements are matched in row-major order; with repeated indexes a cell holds one of its elements. Accepted shapes inherit the fault of C27 (C28_missing_violated)."
  },
  {
   "property": "C29",
   "status": "partial",
   "theorems": [
    "Verif.Arr.C29_reduce",
    "Verif.Arr.C29_reduce_first",
    "Verif.Arr.C29_scan_partial",
    "Verif.Arr.C29_scan_first_partial",
    "Verif.Arr.C29_scan_associative_partial",
    "Verif.Arr.C29_scan_numbers",
    "Verif.Arr.C29_scan_numbers_total",
    "Verif.Arr.C29_violated"
   ],
   "note": "Violated: a user operator named min, max, or, and, xor is assumed associative by Scan. Reductions proved for every operator; scans for every other name, and for the built-in associative operators on exact numbers."
  },
  {
   "property": "C30",
   "status": "partial",
   "theorems": [
    "Verif.Arr.C30_inner_partial",
    "Verif.Arr.C30_inner_refused",
    "Verif.Arr.C30_outer_partial",
    "Verif.Arr.C30_outer_violated",
    "Verif.Arr.C30_fraction_violated",
    "Verif.Arr.C30_empty_violated"
   ],
   "note": "Inner products with an empty inner axis crash; outer products with a single number have axes neither operand has, one or two depending on whether the number is a fraction. Everything else proved for all operators, shapes and schedules."
  },
  {
   "property": "C52",
   "status": "partial",
   "theorems": [
    "Verif.Arr.C52_elementwise_partial",
    "Verif.Arr.C52_refused_partial",
    "Verif.Arr.C52_unary",
    "Verif.Arr.C52_violated",
    "Verif.Arr.C52_column_violated"
   ],
   "note": "Violated for a one-element matrix with a scalar or vector on the right, and for n by 1 matrices taken for vectors."
  },
  {
   "property": "C31",
   "status": "proved",
   "theorems": [
    "Verif.Arr.C31_decode_encode",
    "Verif.Arr.C31_encode_decode",
    "Verif.Arr.C31_encode",
    "Verif.Arr.C31_decode",
    "Verif.Arr.C31_decode_refused",
    "Verif.Arr.C31_encode_array",
    "Verif.Arr.C31_encode_residues",
    "Verif.Arr.C31_decode_matrix",
    "Verif.Arr.C31_decode_encode_array",
    "Verif.Arr.C31_single_radix",
    "Verif.Arr.C31_no_rows_violated"
   ],
   "note": "Also for fractions, fractional radices, radix zero, and arrays of numbers. Negative fractions in encode are left out (C12). decode of a matrix without rows crashes (C31_no_rows_violated)."
  },
  {
   "property": "C32",
   "status": "partial",
   "theorems": [
    "Verif.Arr.C32_sel",
    "Verif.Arr.C32_sel_matrix",
    "Verif.Arr.C32_sel_refused",
    "Verif.Arr.C32_sel_no_rows_violated",
    "Verif.Arr.C32_zeros",
    "Verif.Arr.C32_fill",
    "Verif.Arr.C32_fill_refused",
    "Verif.Arr.C32_fill_sel",
    "Verif.Arr.C32_sel_fill",
    "Verif.Arr.C32_part",
    "Verif.Arr.C32_part_runs_unique",
    "Verif.Arr.C32_part_refused",
    "Verif.Arr.C32_part_matrix_partial",
    "Verif.Arr.C32_part_matrix_violated"
   ],
   "note": "Violated: part of a matrix of one row, or with a score starting with zero, is refused; sel of a matrix without rows crashes; part of it gives a negative dimension. Everything else proved."
  },
  {
   "property": "C34",
   "status": "partial",
   "theorems": [
    "Verif.Exec.C34_unary_partial",
    "Verif.Exec.C34_binary_partial",
    "Verif.Exec.C34_expr_partial",
    "Verif.Exec.C34_scoped",
    "Verif.Exec.C34_violated"
   ],
   "note": "Proved for every sequential evaluation: any operators, any built-ins calling back, any ending. Violated when a user operator named like a built-in is run by several goroutines on one stack (C34_violated)."
  },
  {
   "property": "C35",
   "status": "partial",
   "theorems": [
    "Verif.Exec.C35_unary_partial",
    "Verif.Exec.C35_binary_partial",
    "Verif.Exec.C35_definite_partial",
    "Verif.Exec.C35_violated"
   ],
   "note": "Violated: slots of the stack are reused without clearing (C35_violated). Proved when no operator reads a local it may not have assigned, which C35_definite_partial shows of all operators whose conditionals assign nothing on the right of the colon."
  },
  {
   "property": "C36",
   "status": "proved",
   "theorems": [
    "Verif.Exec.C36_bound",
    "Verif.Exec.C36_refused_unary",
    "Verif.Exec.C36_refused_binary",
    "Verif.Exec.C36_accepted",
    "Verif.Exec.C36_unwinds"
   ],
   "note": "All programs, sequential evaluation, maxstack constant."
  },
  {
   "property": "C37",
   "status": "proved",
   "theorems": [
    "Verif.Exec.C37_defs"
   ],
   "note": "All histories of definitions, deletions and assignments."
  },
  {
   "property": "C38",
   "status": "partial",
   "theorems": [
    "Verif.Exec.C38_disjoint_partial",
    "Verif.Exec.C38_define_partial",
    "Verif.Exec.C38_violated"
   ],
   "note": "Violated: noOp is never called, so assignment to the name of an operator succeeds. Proved for histories without such assignments."
  },
  {
   "property": "C39",
   "status": "partial",
   "theorems": [
    "Verif.Exec.C39_failed_partial",
    "Verif.Exec.C39_violated",
    "Verif.Exec.C39_violated_declared"
   ],
   "note": "Violated: the list of definitions, a variable 0 of that name and declared parameters are not restored. C39_failed_partial says nothing else changes."
  },
  {
   "property": "C41",
   "status": "partial",
   "theorems": [
    "Verif.Syn.C41_partial",
    "Verif.Syn.C41_violated_complex",
    "Verif.Syn.C41_violated_index",
    "Verif.Syn.C41_violated_declared",
    "Verif.Syn.C41_violated_forward"
   ],
   "note": "Violated by complex constants, constants with indexes inside vectors, operators without body, and the declarations )save writes for binary operators. Otherwise the text of every accepted definition is accepted again and gives the same operator, in every context with operators of the same names."
  },
  {
   "property": "C42",
   "status": "partial",
   "theorems": [
    "Verif.Syn.C42_line",
    "Verif.Syn.C42_expression",
    "Verif.Syn.C42_unambiguous",
    "Verif.Syn.C42_total",
    "Verif.Syn.C42_unary",
    "Verif.Syn.C42_right",
    "Verif.Syn.C42_index",
    "Verif.Syn.C42_print_partial",
    "Verif.Syn.C42_violated_index",
    "Verif.Syn.C42_violated_variable"
   ],
   "note": "The parser accepts exactly the grammar, with its unique trees. Printing and reading back is violated by constants with indexes inside vectors and by variables named like operators; proved for all other trees."
  },
  {
   "property": "C43",
   "status": "proved",
   "theorems": [
    "Verif.Sess.C43_bases",
    "Verif.Sess.C43_base_fails",
    "Verif.Sess.C43_base_decimal",
    "Verif.Sess.C43_base_refused",
    "Verif.Sess.C43_decimal",
    "Verif.Sess.C43_too_large"
   ],
   "note": "Every command, every argument and every ending, whatever the files it runs do."
  },
  {
   "property": "C44",
   "status": "partial",
   "theorems": [
    "Verif.Sess.C44_bounded",
    "Verif.Sess.C44_depth",
    "Verif.Sess.C44_reads_partial",
    "Verif.Sess.C44_lost",
    "Verif.Sess.C44_violated",
    "Verif.Sess.C44_violated_example"
   ],
   "note": "Nesting is bounded. Violated: each refusal leaves the depth one too high; after nine no file is read any more. Proved: with at most eight refusals files can be read."
  },
  {
   "property": "C33",
   "status": "partial",
   "theorems": [
    "Verif.Shape.C33_partial",
    "Verif.Shape.C33_exact_partial",
    "Verif.Shape.C33_new",
    "Verif.Shape.C33_kept_partial",
    "Verif.Shape.C33_violated",
    "Verif.Shape.C33_violated_twice"
   ],
   "note": "Violated: outer product and mix append to the shape of the left operand, in place if its array has room, which it has after reduction, split, each, indexing and outer products. Proved for histories that append only to shapes without room; new values always get the right shape; all other operations leave all shapes alone."
  },
  {
   "property": "C48",
   "status": "partial",
   "theorems": [
    "Verif.Arr.C48_inverse",
    "Verif.Arr.C48_product",
    "Verif.Arr.C48_singular",
    "Verif.Arr.C48_accepted_partial",
    "Verif.Arr.C48_violated",
    "Verif.Arr.C48_shapes",
    "Verif.Arr.C48_rank_four_violated",
    "Verif.Arr.C48_vector",
    "Verif.Arr.C48_vector_one_refused",
    "Verif.Arr.C48_complex_inverse",
    "Verif.Arr.C48_complex_accepted_partial",
    "Verif.Arr.C48_complex_vector"
   ],
   "note": "What inv gives is the inverse, from both sides, and singular matrices are refused. Violated: invertible matrices with a zero leading minor are refused too (C48_violated); the accepted ones are exactly those without (C48_accepted_partial). Also for complex elements."
  },
  {
   "property": "C51",
   "status": "proved",
   "theorems": [
    "Verif.Num.C51_binary",
    "Verif.Num.C51_binary_total",
    "Verif.Num.C51_unary",
    "Verif.Num.C51_unary_total",
    "Verif.Num.C51_real",
    "Verif.Num.C51_expressions"
   ],
   "note": "Integers and fractions as parts; the value is an element of Mathlib's complex numbers. Floating-point parts are not modelled."
  },
  {
   "property": "C57",
   "status": "partial",
   "theorems": [
    "Verif.Num.C57_violated",
    "Verif.Num.C57_floor_partial",
    "Verif.Num.C57_ceil",
    "Verif.Num.C57_meaning"
   ],
   "note": "Violated: with x = -2/3, floor x j x is -1 instead of -1j-1, because mod negates the rational both parts share. Holds when the parts are not one negative rational; ceil holds always."
  },
  {
   "property": "C53",
   "status": "partial",
   "theorems": [
    "Verif.Arr.C53_each_partial",
    "Verif.Arr.C53_each_order_partial",
    "Verif.Arr.C53_binary_partial",
    "Verif.Arr.C53_binary_order_partial",
    "Verif.Arr.C53_violated",
    "Verif.Arr.C53_empty_violated",
    "Verif.Arr.C53_scalar_violated"
   ],
   "note": "Violated for arrays without elements whose leading dimensions are not zero, and for single values, which are not refused. Proved for all other operands, any number of signs and all operators, with the order of their effects."
  },
  {
   "property": "C46",
   "status": "partial",
   "theorems": [
    "Verif.Fmt.C46_violated",
    "Verif.Fmt.C46_text_violated",
    "Verif.Fmt.C46_date_violated",
    "Verif.Fmt.C46_negative_violated",
    "Verif.Fmt.C46_verb_partial",
    "Verif.Fmt.C46_accepted",
    "Verif.Fmt.C46_numbers",
    "Verif.Fmt.C46_numbers_verb",
    "Verif.Fmt.C46_strings",
    "Verif.Fmt.C46_reported_partial"
   ],
   "note": "Violated: after an escape %% the index of the verb is that in the rest of the format, so another byte is taken for the verb; formats with a sign after the period are accepted. Proved: a verb without an escape before it is found at its place; every format with a verb is accepted; a format that has no percent sign followed by flags, digits and periods in any order and a verb is reported."
  },
  {
   "property": "C58",
   "status": "partial",
   "theorems": [
    "Verif.Fmt.C58_violated",
    "Verif.Fmt.C58_nested_violated",
    "Verif.Fmt.C58_number",
    "Verif.Fmt.C58_complex",
    "Verif.Fmt.C58_rune",
    "Verif.Fmt.C58_bool",
    "Verif.Fmt.C58_string",
    "Verif.Fmt.C58_not_string",
    "Verif.Fmt.C58_vector",
    "Verif.Fmt.C58_matrix"
   ],
   "note": "Violated: with a verb for numbers nothing is printed for an element that is a vector or matrix. Proved: numbers are given to Go's formatting exactly, with the format of the user, once each; the layout of vectors and matrices of every shape."
  },
  {
   "property": "C60",
   "status": "partial",
   "theorems": [
    "Verif.Arr.C60_violated",
    "Verif.Arr.C60_fraction_violated",
    "Verif.Arr.C60_last_partial",
    "Verif.Arr.C60_first_partial",
    "Verif.Arr.C60_last_refused",
    "Verif.Arr.C60_first_refused"
   ],
   "note": "Violated: (0 3 rho 0), iota 0 divides by zero; a single fraction or complex number cannot be catenated to a matrix. Everything else proved for all ranks and shapes."
  },
  {
   "property": "C61",
   "status": "proved",
   "theorems": [
    "Verif.Arr.C61_iota",
    "Verif.Arr.C61_iota_number",
    "Verif.Arr.C61_iota_refused",
    "Verif.Arr.C61_where_vector",
    "Verif.Arr.C61_where_matrix",
    "Verif.Arr.C61_where_unique",
    "Verif.Arr.C61_where_number",
    "Verif.Arr.C61_where_refused"
   ],
   "note": "All shapes, counts and origins. iota of an empty vector is an empty vector, which the theorems leave out."
  },
  {
   "property": "C62",
   "status": "partial",
   "theorems": [
    "Verif.Arr.C62_violated",
    "Verif.Arr.C62_lost_violated",
    "Verif.Arr.C62_order_violated",
    "Verif.Arr.C62_ones_violated",
    "Verif.Arr.C62_mix_partial",
    "Verif.Arr.C62_mix_refused",
    "Verif.Arr.C62_split",
    "Verif.Arr.C62_split_refused",
    "Verif.Arr.C62_mix_split",
    "Verif.Arr.C62_mix_split_violated"
   ],
   "note": "Violated: with elements of several ranks the shape is computed from the leading axes but the elements are placed on the trailing ones, so elements are lost and the result depends on the order; matrices of one element are not extended; mix split of a matrix without rows. Proved for elements of one rank, and mix undoes split when there are rows. split proved."
  },
  {
   "property": "C47",
   "status": "partial",
   "theorems": [
    "Verif.Rand.C47_violated",
    "Verif.Rand.C47_reproducible_partial",
    "Verif.Rand.C47_state_partial",
    "Verif.Rand.C47_runs",
    "Verif.Rand.C47_fails_alike",
    "Verif.Rand.C47_seeds"
   ],
   "note": "Violated: rand of 200 or more numbers runs in goroutines that share the generator, so the result depends on the schedule. Proved for all sessions of )seed, ? and shorter rands, for every generator, and for any session with one processor."
  },
  {
   "property": "C63",
   "status": "partial",
   "theorems": [
    "Verif.Rand.C63_violated",
    "Verif.Rand.C63_rand_violated",
    "Verif.Rand.C63_above_violated",
    "Verif.Rand.C63_roll_partial",
    "Verif.Rand.C63_roll_big",
    "Verif.Rand.C63_deal",
    "Verif.Rand.C63_deal_all",
    "Verif.Rand.C63_rand_partial"
   ],
   "note": "Violated: a roll of a big integer is not moved by the origin; rand x can give x, and for an x of more than 53 bits a larger number. Proved: rolls of machine integers, deals, and rand between zero and x inclusive under every schedule."
  },
  {
   "property": "C64",
   "status": "proved",
   "theorems": [
    "Verif.Scan.C64_ends",
    "Verif.Scan.C64_split",
    "Verif.Scan.C64_error",
    "Verif.Scan.C64_forms"
   ],
   "note": "For every text, context and table of characters (the table must be right for ASCII for the last part)."
  },
  {
   "property": "C56",
   "status": "partial",
   "theorems": [
    "Verif.Scan.C56_violated_name",
    "Verif.Scan.C56_violated_sign",
    "Verif.Scan.C56_name_partial",
    "Verif.Scan.C56_sign_partial"
   ],
   "note": "Violated: names of j and digits are scanned as numbers; after )base 10 a sign before a name that begins with a is an error (base 16: g, and so on). Proved for all other words and bases."
  },
  {
   "property": "C40",
   "status": "partial",
   "theorems": [
    "Verif.Save.C40_violated",
    "Verif.Save.C40_violated_one",
    "Verif.Save.C40_violated_texts",
    "Verif.Save.C40_violated_box",
    "Verif.Save.C40_violated_rho",
    "Verif.Save.C40_partial"
   ],
   "note": "Violated: one-element vectors, texts inside of vectors, one-element matrices of vectors, and matrices if rho is redefined. Proved for all other values without floating-point parts: numbers, characters, texts, vectors and matrices nested at will."
  },
  {
   "property": "C65",
   "status": "partial",
   "theorems": [
    "Verif.Lit.C65_int",
    "Verif.Lit.C65_refused",
    "Verif.Lit.C65_zero",
    "Verif.Lit.C65_decimal",
    "Verif.Lit.C65_exponent",
    "Verif.Lit.C65_ratio",
    "Verif.Lit.C65_complex",
    "Verif.Lit.C65_violated",
    "Verif.Lit.C65_violated_letter",
    "Verif.Lit.C65_partial"
   ],
   "note": "Violated: a number with a point is read base 10 whatever the input base, or refused. Everything else in the statement is proved for all texts and bases; decimals are proved to be exact decimal fractions in every base."
  },
  {
   "property": "C66",
   "status": "proved",
   "theorems": [
    "Verif.Lit.C66",
    "Verif.Lit.C66_distinct",
    "Verif.Lit.C66_prints"
   ],
   "note": "For every base that can be set, if no operator has a name made of digits of the base (such a name hides the number, as it should)."
  },
  {
   "property": "C45",
   "status": "partial",
   "theorems": [
    "Verif.Safe.C45_violated",
    "Verif.Safe.C45_full_violated",
    "Verif.Safe.C45_rot_hangs",
    "Verif.Safe.C45_local_violated",
    "Verif.Safe.C45_operators_partial",
    "Verif.Safe.C45_index_partial",
    "Verif.Safe.C45_session_partial",
    "Verif.Safe.C45_code_partial",
    "Verif.Safe.C45_plain_lines"
   ],
   "note": "Violated: sixteen kinds of operations on arrays without elements end the program, and so does assigning an element of a local variable that has no value. Proved: operators on operands with elements end in values or errors; in whole sessions nothing else faults. Floating point, quiet values (C104), and user-defined operators inside derived ones, are not modelled."
  },
  {
   "property": "C59",
   "status": "partial",
   "theorems": [
    "Verif.Print.C59_vector",
    "Verif.Print.C59_string",
    "Verif.Print.C59_utf8",
    "Verif.Print.C59_matrix",
    "Verif.Print.C59_text",
    "Verif.Print.C59_blocks",
    "Verif.Print.C59_aligned",
    "Verif.Print.C59_words",
    "Verif.Print.C59_readback",
    "Verif.Print.C59_distinct",
    "Verif.Print.C59_nested_vector",
    "Verif.Print.C59_nested_matrix",
    "Verif.Print.C59_boxes_partial",
    "Verif.Print.C59_boxes_matrix_partial",
    "Verif.Print.C59_violated_crash",
    "Verif.Print.C59_violated_crash_blocks",
    "Verif.Print.C59_violated_crash_vector",
    "Verif.Print.C59_violated_crash_string",
    "Verif.Print.C59_violated_align",
    "Verif.Print.C59_violated_utf8",
    "Verif.Print.C59_violated_rank4",
    "Verif.Print.C59_violated_rank4_chars"
   ],
   "note": "Violated: some nested values end the program when printed, boxes of one line beside taller ones are misaligned, widths are counted in bytes, and columns of arrays of rank four or more differ from part to part. Proved: exact layout of arrays of scalars of rank one to three, contents of arrays of numbers of every rank, reading back, and the exact layout of vectors and matrices of numbers and matrices."
  },
  {
   "property": "C67",
   "status": "partial",
   "theorems": [
    "Verif.Flt.C67_violated",
    "Verif.Flt.C67_sin_partial",
    "Verif.Flt.C67_functions_partial",
    "Verif.Flt.C67_power_partial"
   ],
   "note": "Violated: with six bits of precision sin 992 never ends. Proved with 12 bits and more (sine, cosine, tangent: 7) for every argument. Missing: inverses of powers that are not whole; infinities."
  },
  {
   "property": "C68",
   "status": "partial",
   "theorems": [
    "Verif.Flt.C68_violated",
    "Verif.Flt.C68_violated_big",
    "Verif.Flt.C68_powers",
    "Verif.Flt.C68_powers_big",
    "Verif.Flt.C68_whole_partial"
   ],
   "note": "Violated: 2 log 12 is 3. Proved: powers of the base have their exponents as logarithms; a whole number reported is the logarithm rounded down."
  },
  {
   "property": "C69",
   "status": "proved",
   "theorems": [
    "Verif.Flt.C69_exact",
    "Verif.Flt.C69_error"
   ],
   "note": "For all precisions, numbers and exponents, exponents of floating-point numbers being unlimited in the model."
  },
  {
   "property": "C70",
   "status": "partial",
   "theorems": [
    "Verif.Flt.C70_violated",
    "Verif.Flt.C70_sqrt_partial",
    "Verif.Flt.C70_zero",
    "Verif.Flt.C70_squares_partial"
   ],
   "note": "Violated: a number computed with a higher precision than the present one has no root (did not converge). Proved for 12 bits and more and numbers of the same precision: converges always, within a unit in the last place, exact for squares."
  },
  {
   "property": "C71",
   "status": "partial",
   "theorems": [
    "Verif.Flt.C71_violated",
    "Verif.Flt.C71_exp_partial",
    "Verif.Flt.C71_exp_nonneg",
    "Verif.Flt.C71_exp_value_partial",
    "Verif.Flt.C71_hyperbolic",
    "Verif.Flt.C71_hyperbolic_value_partial"
   ],
   "note": "Violated: for negative arguments the terms of the series cancel; with 256 bits **-92 is negative. Proved: relative error of at most 160(p+1) units for arguments that are not negative, 250(p+1) for sinh and cosh, 600(p+1) for tanh, for all arguments; for negative arguments of the exponential function the error grows like the square of exp |x|. Values exist for arguments up to 2p (4p)."
  },
  {
   "property": "C72",
   "status": "partial",
   "theorems": [
    "Verif.Flt.C72_violated",
    "Verif.Flt.C72_sin",
    "Verif.Flt.C72_sin_small",
    "Verif.Flt.C72_cos_partial",
    "Verif.Flt.C72_value_partial"
   ],
   "note": "Violated: cos does not reduce negative arguments; with 256 bits cos -200 is below -300000000. Proved: sine for all arguments, cosine for arguments from -7 on, given a constant for pi right to 4 units of 2^-p. That a value exists is proved where sine (cosine) is larger than the error."
  },
  {
   "property": "C73",
   "status": "proved",
   "theorems": [
    "Verif.Flt.C73_log",
    "Verif.Flt.C73_error"
   ],
   "note": "Value and error bound for all positive floats and all precisions of 16 to 10000 bits, with the constant of the source (C77)."
  },
  {
   "property": "C74",
   "status": "partial",
   "theorems": [
    "Verif.Flt.C74_violated",
    "Verif.Flt.C74_power_partial",
    "Verif.Flt.C74_power_large"
   ],
   "note": "Violated: for small bases and fractional exponents the exponential function of a negative number is used (C71). Proved with a factor x^-2 for x < 1 as long as the error is below one; for bases from 1 on without further hypothesis (32 bits and more, exponents up to a million, log x <= 2p-1)."
  },
  {
   "property": "C75",
   "status": "proved",
   "theorems": [
    "Verif.Flt.C75_atan",
    "Verif.Flt.C75_atan_small",
    "Verif.Flt.C75_asin",
    "Verif.Flt.C75_acos"
   ],
   "note": "Values and error bounds for all floats in the domain and all precisions of 16 to 10000 bits, with the constants of the source."
  },
  {
   "property": "C76",
   "status": "partial",
   "theorems": [
    "Verif.Flt.C76_violated",
    "Verif.Flt.C76_atanh",
    "Verif.Flt.C76_acosh",
    "Verif.Flt.C76_asinh_nonneg",
    "Verif.Flt.C76_asinh_neg_partial",
    "Verif.Flt.C76_range"
   ],
   "note": "Violated: asinh of negative numbers cancels. Proved for atanh, acosh and asinh of nonnegative numbers; for negative x with an error that grows with x^2, as long as it is below one."
  },
  {
   "property": "C77",
   "status": "proved",
   "theorems": [
    "Verif.Flt.C77_digits",
    "Verif.Flt.C77_constants",
    "Verif.Flt.C77_sin"
   ],
   "note": "The digits are compared with Machin's formula and with the series of the logarithm and the exponential function, summed by the kernel in whole numbers; the remainder of the series is bounded in the reals."
  },
  {
   "property": "C78",
   "status": "partial",
   "theorems": [
    "Verif.LogB.C78_violated",
    "Verif.LogB.C78_violated_eval",
    "Verif.LogB.C78_split_partial",
    "Verif.LogB.C78_coprime",
    "Verif.LogB.C78_digit"
   ],
   "note": "Violated: 10 log 250000 is 5.30103. Proved: accurate whenever the number was split into a power of the base and a factor without a rest, in particular for numbers that are no multiple of the base and for those with one digit that is not zero. Exact results for powers are C68."
  },
  {
   "property": "C79",
   "status": "partial",
   "theorems": [
    "Verif.Time.C79_violated_offset",
    "Verif.Time.C79_violated_zone",
    "Verif.Time.C79_violated_operand",
    "Verif.Time.C79_calendar",
    "Verif.Time.C79_encode",
    "Verif.Time.C79_back_partial",
    "Verif.Time.C79_back_fixed",
    "Verif.Time.C79_carry",
    "Verif.Time.C79_decode",
    "Verif.Time.C79_location",
    "Verif.Time.C79_operand_partial"
   ],
   "note": "Violated: decode goes by the machine's offset now, and changes its operand. Proved: the calendar; the vector of encode; that decode inverts encode with an error of 1.6 ns and 2^-62 if the offset is not the machine's or the location has only that offset; carrying; that operands whose seconds are not a float are unchanged."
  },
  {
   "property": "C80",
   "status": "partial",
   "theorems": [
    "Verif.Cell.C80_violated",
    "Verif.Cell.C80_violated_pi",
    "Verif.Cell.C80_violated_again",
    "Verif.Cell.C80_violated_variable",
    "Verif.Cell.C80_violated_alias",
    "Verif.Cell.C80_session_partial",
    "Verif.Cell.C80_careful_partial",
    "Verif.Cell.C80_again_partial",
    "Verif.Cell.C80_range"
   ],
   "note": "Violated: sin, cos, tan and the complex functions change the float they are given. Proved for sessions where these functions are applied to new values only; missing are variables, log and phase as direct operands."
  },
  {
   "property": "C81",
   "status": "partial",
   "theorems": [
    "Verif.Cell.C81_sin",
    "Verif.Cell.C81_cos_partial",
    "Verif.Cell.C81_sinh_partial",
    "Verif.Cell.C81_cosh_partial",
    "Verif.Cell.C81_exp_partial",
    "Verif.Cell.C81_tan",
    "Verif.Cell.C81_tanh",
    "Verif.Cell.C81_violated",
    "Verif.Cell.C81_violated_cosh"
   ],
   "note": "Violated by cos, sinh, cosh and ** for arguments of the cosine below -7. Proved for all other operands, given a result; missing: that there is a result (the loops can give up near zeros of the sine)."
  },
  {
   "property": "C82",
   "status": "proved",
   "theorems": [
    "Verif.Cell.C82_phase",
    "Verif.Cell.C82_log",
    "Verif.Cell.C82_abs"
   ],
   "note": "For every operand, with existence of the result; the errors are those of the model's correctly rounded arithmetic."
  },
  {
   "property": "C83",
   "status": "partial",
   "theorems": [
    "Verif.Cell.C83_violated",
    "Verif.Cell.C83_partial"
   ],
   "note": "Violated: the smaller part can be lost. Proved: the larger part is accurate and the smaller one has half of the digits, given a result; missing: that there is always a result."
  },
  {
   "property": "C84",
   "status": "partial",
   "theorems": [
    "Verif.Cell.C84_exact",
    "Verif.Cell.C84_float_partial",
    "Verif.Cell.C84_violated_real",
    "Verif.Cell.C84_violated_unit"
   ],
   "note": "Proved: whole powers of complex numbers with exact parts are exact, for all exponents; error bound for floats and exponents that are not negative. Violated: whole powers of negative floats are not real, and powers through the cosine of negative arguments are wrong. Missing: error bounds for negative exponents of floats and for exponents that are not whole."
  },
  {
   "property": "C85",
   "status": "partial",
   "theorems": [
    "Verif.Shown.C85_fixed",
    "Verif.Shown.C85_exponent_partial",
    "Verif.Shown.C85_general",
    "Verif.Shown.C85_general_partial",
    "Verif.Shown.C85_read",
    "Verif.Shown.C85_formats",
    "Verif.Shown.C85_violated",
    "Verif.Shown.C85_violated_billion",
    "Verif.Shown.C85_violated_text",
    "Verif.Shown.C85_violated_crash"
   ],
   "note": "Proved for %f, and for %g without exponent: every number is rounded to nearest. With an exponent the digits are cut off (violated), for fractions some are wrong by a factor of ten or are no numbers (violated), and %.0g crashes (violated); the partial theorems bound the error by one in the last place for all integers and for the fractions outside the exceptions named in Regular."
  },
  {
   "property": "C86",
   "status": "partial",
   "theorems": [
    "Verif.Shown.C86_fixed",
    "Verif.Shown.C86_exponent",
    "Verif.Shown.C86_general",
    "Verif.Shown.C86_partial",
    "Verif.Shown.C86_violated"
   ],
   "note": "Proved for all floats and all formats except those ending in F, with which floats are printed as %F (violated). Text of math/big is modelled from its source; huge floats (exponent beyond 10000) take another path and are not covered."
  },
  {
   "property": "C87",
   "status": "partial",
   "theorems": [
    "Verif.Shown.C87_partial",
    "Verif.Shown.C87_violated",
    "Verif.Shown.C87_violated_same"
   ],
   "note": "Violated: at 256 bits two floats are saved as the same text. Proved: what is read differs from the float by at most 5 units of the precision, and is the float wherever floats are further apart than the last digit."
  },
  {
   "property": "C88",
   "status": "partial",
   "theorems": [
    "Verif.Ctx.C88_one_partial",
    "Verif.Ctx.C88_after",
    "Verif.Ctx.C88_log",
    "Verif.Ctx.C88_variables_partial",
    "Verif.Ctx.C88_violated",
    "Verif.Ctx.C88_violated_error",
    "Verif.Ctx.C88_violated_variable",
    "Verif.Ctx.C88_violated_saved"
   ],
   "note": "Violated by two contexts of different precision, by an error behind )prec, and for the variables e and pi. Proved for one context without such errors, for each context after its special commands, and for all other variables."
  },
  {
   "property": "C89",
   "status": "partial",
   "theorems": [
    "Verif.Shown.C89_partial",
    "Verif.Shown.C89_default",
    "Verif.Shown.C89_long",
    "Verif.Shown.C89_violated",
    "Verif.Shown.C89_violated_fixed",
    "Verif.Shown.C89_violated_digits"
   ],
   "note": "Violated for one digit, for %f, and with few bits. Proved, with an explicit error bound, for 48 bits or more and two digits or more; without a format and in 96 bits or more, eleven digits are right."
  },
  {
   "property": "C55",
   "status": "partial",
   "theorems": [
    "Verif.Sess.C55_partial",
    "Verif.Sess.C55_program",
    "Verif.Sess.C55_lost",
    "Verif.Sess.C55_violated",
    "Verif.Sess.C55_violated_stack"
   ],
   "note": "Violated: )get undoes the bases the file sets, )maxstack is not in the file, and with -maxbits of 2^31 or more nothing after that line is read. Proved exactly what )get, and running the file as a program, set."
  },
  {
   "property": "C90",
   "status": "partial",
   "theorems": [
    "Verif.Sess.C90_partial",
    "Verif.Sess.C90_violated",
    "Verif.Sess.C90_violated_others",
    "Verif.Sess.C90_violated_depth"
   ],
   "note": "Violated by )prec, )maxstack, )debug, )timezone and by refused )get; proved for all histories in which the first four do not occur."
  },
  {
   "property": "C91",
   "status": "partial",
   "theorems": [
    "Verif.Cell.C91_atan_partial",
    "Verif.Cell.C91_atan_poles",
    "Verif.Cell.C91_atanh_partial",
    "Verif.Cell.C91_atanh_poles",
    "Verif.Cell.C91_violated"
   ],
   "note": "Proved for numbers with exact parts: existence of the result everywhere but at the poles, and the absolute error. Violated: relative error, the imaginary part of atan of tiny numbers is zero. Missing: parts that are floats."
  },
  {
   "property": "C92",
   "status": "partial",
   "theorems": [
    "Verif.Cell.C92_acosh_partial",
    "Verif.Cell.C92_asinh_partial",
    "Verif.Cell.C92_asin_partial",
    "Verif.Cell.C92_acos_partial",
    "Verif.Cell.C92_violated_acosh",
    "Verif.Cell.C92_violated_asin"
   ],
   "note": "Violated: acosh of numbers with a negative real part is not the principal value, and large numbers in the half plane where the logarithm's terms cancel are errors. Proved in the other half plane, if there is a result. Missing: existence of the square root (C83), parts that are zero or floats."
  },
  {
   "property": "C54",
   "status": "partial",
   "theorems": [
    "Verif.Safe.C54_char_partial",
    "Verif.Safe.C54_code",
    "Verif.Safe.C54_roundtrip_partial",
    "Verif.Safe.C54_valid",
    "Verif.Safe.C54_violated"
   ],
   "note": "Violated: machine integers beyond 2^31, which some operators leave, are cut to 32 bits by char. Proved for all other values."
  },
  {
   "property": "C93",
   "status": "proved",
   "theorems": [
    "Verif.Safe.C93_flatten",
    "Verif.Safe.C93_unique",
    "Verif.Safe.C93_first",
    "Verif.Safe.C93_count",
    "Verif.Safe.C93_rebuild"
   ],
   "note": "flatten is characterised by the positions of the leaves; reshaping the elements of an array to its shape gives the array (matrices of rank one, which C52 shows to arise by a defect, are excluded)."
  },
  {
   "property": "C94",
   "status": "partial",
   "theorems": [
    "Verif.Arr.C94_solve_partial",
    "Verif.Arr.C94_complex_partial",
    "Verif.Arr.C94_project",
    "Verif.Arr.C94_refused",
    "Verif.Arr.C94_violated"
   ],
   "note": "Violated as C48: matrices with a leading minor of zero are refused although they have an inverse. For all others the result is the exact solution. Missing: floats, and a limit on the size of numbers."
  },
  {
   "property": "C95",
   "status": "proved",
   "theorems": [
    "Verif.Iota.C95_right",
    "Verif.Iota.C95_alone",
    "Verif.Iota.C95_nodeadlock",
    "Verif.Iota.C95_ends",
    "Verif.Iota.C95_total"
   ],
   "note": "Any number of goroutines, step by step, with Go's lock for readers and writers."
  },
  {
   "property": "C96",
   "status": "partial",
   "theorems": [
    "Verif.Sess.C96_partial",
    "Verif.Sess.C96_distinct",
    "Verif.Sess.C96_violated"
   ],
   "note": "Violated for tabs and for &. Proved for all other texts, with a small model of the application and the browser as specification."
  },
  {
   "property": "C97",
   "status": "partial",
   "theorems": [
    "Verif.Sess.Sys.C97_read_partial",
    "Verif.Sess.Sys.C97_unique",
    "Verif.Sess.Sys.C97_settings",
    "Verif.Sess.Sys.C97_violated"
   ],
   "note": "Violated: a string of one character is no vector, so a file with such a name cannot be read. Proved for all other names and all contents."
  },
  {
   "property": "C98",
   "status": "partial",
   "theorems": [
    "Verif.Sess.Sys.C98_partial",
    "Verif.Sess.Sys.C98_violated"
   ],
   "note": "Violated by lines of 65536 bytes or more, which end the demonstration for good. Proved for all other texts; Eval is a parameter."
  },
  {
   "property": "C99",
   "status": "partial",
   "theorems": [
    "Verif.Time.Zone.C99_set_partial",
    "Verif.Time.Zone.C99_refused",
    "Verif.Time.Zone.C99_case",
    "Verif.Time.Zone.C99_violated"
   ],
   "note": "Violated: the name with a capital letter is made but not searched for. Proved for all other names, with the files of the system as parameters."
  },
  {
   "property": "C100",
   "status": "partial",
   "theorems": [
    "Verif.Exec.C100_partial",
    "Verif.Exec.C100_accepted",
    "Verif.Exec.C100_exchange",
    "Verif.Exec.C100_violated"
   ],
   "note": "Violated: ((b c) a) = 1 2 is an error but changes a. Proved for values that fit, global and local variables in any nesting; missing: indexes on the left side."
  },
  {
   "property": "C101",
   "status": "proved",
   "theorems": [
    "Verif.Blanks.C101_right",
    "Verif.Blanks.C101_alone",
    "Verif.Blanks.C101_nodeadlock",
    "Verif.Blanks.C101_ends",
    "Verif.Blanks.C101_total"
   ],
   "note": "Any number of goroutines, step by step, with Go's lock for readers and writers. Negative lengths are the subject of C59."
  },
  {
   "property": "C102",
   "status": "partial",
   "theorems": [
    "Verif.Sess.Out.C102_partial",
    "Verif.Sess.Out.C102_all",
    "Verif.Sess.Out.C102_quiet",
    "Verif.Sess.Out.C102_flag",
    "Verif.Sess.Out.C102_types",
    "Verif.Sess.Out.C102_file",
    "Verif.Sess.Out.C102_same",
    "Verif.Sess.Out.C102_underscore_partial",
    "Verif.Sess.Out.C102_underscore_violated",
    "Verif.Sess.Out.C102_violated"
   ],
   "note": "Violated: after 3; x = 4 the variable _ is 4 and quiet, so the line _ prints nothing; 1; \"2\\n\" prints 12. Proved for texts that do not end with a newline, and for lines whose last value is printed. Missing: interactive sessions, errors."
  },
  {
   "property": "C103",
   "status": "partial",
   "theorems": [
    "Verif.Sess.Out.C103_partial",
    "Verif.Sess.Out.C103_one",
    "Verif.Sess.Out.C103_result",
    "Verif.Sess.Out.C103_result_violated",
    "Verif.Sess.Out.C103_order_violated"
   ],
   "note": "Violated: a text that ends with a blank line, comment or definition gives an empty vector and prints its last value; output of print comes before the values of the line before it. Proved for texts whose last line is an expression and whose lines, but for the first, write nothing themselves. Missing: errors."
  },
  {
   "property": "C104",
   "status": "partial",
   "theorems": [
    "Verif.Exec.Quiet.C104_partial",
    "Verif.Exec.Quiet.C104_neg",
    "Verif.Exec.Quiet.C104_violated",
    "Verif.Exec.Quiet.C104_each_violated",
    "Verif.Exec.Quiet.C104_left",
    "Verif.Exec.Quiet.C104_left_violated",
    "Verif.Exec.Quiet.C104_later_violated",
    "Verif.Exec.Quiet.C104_underscore_violated"
   ],
   "note": "Violated: -(x = 3) 4 and - print@ 1 2 end the program, (x = 1 2) @+ 3 is not 1 2 @+ 3. Proved for expressions in which no element of a vector is an assignment or a call of print and print@ is not used. Missing: operators other than -, print and print@, user-defined operators that return the result of an assignment."
  }
 ]
}