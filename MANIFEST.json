{
 "claims": [
  {
   "property": "C01",
   "status": "partial",
   "theorems": [
    "EAntic.C01_enclosures_partial",
    "EAntic.C01_enclosures_unique_root",
    "EAntic.C01_enclosures_apart_partial",
    "EAntic.C01_enclosures_near_partial",
    "EAntic.C01_counterexample"
   ],
   "note": "Proved for every history for fields whose polynomial has a single real root (C01_enclosures_unique_root), for several roots under an idealised ball intersection (C01_enclosures_apart_partial), for any root preserving refinement (C01_enclosures_partial), and for every field of degree at least two with any number of roots, an arithmetic with tight radii and a small enough first enclosure (C01_enclosures_near_partial). FALSE for arbitrary isolating balls: C01_counterexample, where refinement jumps to the other root of x^2+3x+1 and floor of the generator is then wrong."
  },
  {
   "property": "C02",
   "status": "proved",
   "theorems": [
    "EAntic.C02_exact_arithmetic",
    "EAntic.C02_binary",
    "EAntic.C02_unary",
    "EAntic.C02_mixed_integer",
    "EAntic.C02_mixed_rational",
    "EAntic.C02_exact_unique_root",
    "EAntic.C02_exact_near_root"
   ],
   "note": "All arithmetic entry points over all states and aliasings; zero divisors are outside the domain. C02_binary, _unary, _mixed do not involve refinement. C02_exact_unique_root and C02_exact_near_root: whole programs with the modelled refinement."
  },
  {
   "property": "C03",
   "status": "partial",
   "theorems": [
    "EAntic.C03_counterexample",
    "EAntic.C03_rational_div_partial"
   ],
   "note": "False in general (C03_counterexample: stores c*b); correct when the destination aliases the divisor."
  },
  {
   "property": "C04",
   "status": "partial",
   "theorems": [
    "EAntic.C04_generator_partial",
    "EAntic.C04_counterexample"
   ],
   "note": "False in degree one (C04_counterexample); proved in degree at least two."
  },
  {
   "property": "C05",
   "status": "proved",
   "theorems": [
    "EAntic.C05_sign",
    "EAntic.C05_sign_near_root"
   ],
   "note": "For every state of the enclosures; termination is C44. Stated for any refinement that keeps the root (FieldInv.refine); the theorem with suffix _near_root has the modelled renf_refine_embedding instead and no assumption about it (arithmetic with tight radii, first enclosure small enough). C01_counterexample shows that the condition is needed."
  },
  {
   "property": "C06",
   "status": "proved",
   "theorems": [
    "EAntic.C06_compare",
    "EAntic.C06_equal",
    "EAntic.C06_compare_near_root"
   ],
   "note": "Stated for any refinement that keeps the root (FieldInv.refine); the theorem with suffix _near_root has the modelled renf_refine_embedding instead and no assumption about it (arithmetic with tight radii, first enclosure small enough). C01_counterexample shows that the condition is needed."
  },
  {
   "property": "C07",
   "status": "proved",
   "theorems": [
    "EAntic.C07_compare_rational",
    "EAntic.C07_equal_rational",
    "EAntic.C07_compare_rational_near_root"
   ],
   "note": "Stated for any refinement that keeps the root (FieldInv.refine); the theorem with suffix _near_root has the modelled renf_refine_embedding instead and no assumption about it (arithmetic with tight radii, first enclosure small enough). C01_counterexample shows that the condition is needed."
  },
  {
   "property": "C08",
   "status": "proved",
   "theorems": [
    "EAntic.C08_predicates"
   ],
   "note": ""
  },
  {
   "property": "C09",
   "status": "partial",
   "theorems": [
    "EAntic.C09_floor_ceil_partial",
    "EAntic.C09_floor_ceil_zero_partial",
    "EAntic.C09_counterexample",
    "EAntic.C09_floor_ceil_near_root_partial"
   ],
   "note": "False for a zero element with leftover storage in degree at least three (C09_counterexample); proved for all other cases."
  },
  {
   "property": "C10",
   "status": "proved",
   "theorems": [
    "EAntic.C10_floor_division",
    "EAntic.C10_floor_division_near_root"
   ],
   "note": "Stated for any refinement that keeps the root (FieldInv.refine); the theorem with suffix _near_root has the modelled renf_refine_embedding instead and no assumption about it (arithmetic with tight radii, first enclosure small enough). C01_counterexample shows that the condition is needed."
  },
  {
   "property": "C11",
   "status": "proved",
   "theorems": [
    "EAntic.C11_get_arb",
    "EAntic.C11_get_arb_near_root"
   ],
   "note": "Stated for any refinement that keeps the root (FieldInv.refine); the theorem with suffix _near_root has the modelled renf_refine_embedding instead and no assumption about it (arithmetic with tight radii, first enclosure small enough). C01_counterexample shows that the condition is needed."
  },
  {
   "property": "C12",
   "status": "partial",
   "theorems": [
    "EAntic.C12_get_d_partial",
    "EAntic.C12_get_d_irrational_partial",
    "EAntic.C12_get_d_directed_partial",
    "EAntic.C12_counterexample_subnormal",
    "EAntic.C12_counterexample_overflow"
   ],
   "note": "False for subnormal rationals in mode near and for irrationals beyond the largest double (two counterexamples); proved in the normal range, for irrationals up to the largest double and for rationals in directed modes."
  },
  {
   "property": "C13",
   "status": "partial",
   "theorems": [
    "EAntic.C13_cfrac_partial",
    "EAntic.C13_cfrac_count",
    "EAntic.C13_cfrac_positive",
    "EAntic.C13_zero_counterexample"
   ],
   "note": "Proved for all nonzero elements. FALSE for zero, which yields no term (C13_zero_counterexample)."
  },
  {
   "property": "C14",
   "status": "partial",
   "theorems": [
    "EAntic.C14_near_root_partial",
    "EAntic.C14_refine_embedding_partial",
    "EAntic.C14_sequences_partial",
    "EAntic.C14_counterexample"
   ],
   "note": "Proved for polynomials with one real root (any sequence of refinements), for balls far from the other roots relative to their radius, and for balls inside a dyadic interval without another root when intersections do not grow. C14_near_root_partial: for every field and root there is a radius below which every sequence of refinements keeps the root, reaches the requested accuracy and changes nothing else, for any arithmetic with tight radii. C14_counterexample: the statement is false in general (x^2+3x+1 jumps to the other root)."
  },
  {
   "property": "C15",
   "status": "proved",
   "theorems": [
    "EAntic.C15_newton_step"
   ],
   "note": "Newton step."
  },
  {
   "property": "C16",
   "status": "partial",
   "theorems": [
    "EAntic.C16_bisection_step_partial",
    "EAntic.C16_counterexample"
   ],
   "note": "Proved if no other root lies between the outward rounded end points. C16_counterexample shows that the statement is false without this."
  },
  {
   "property": "C17",
   "status": "proved",
   "theorems": [
    "EAntic.C17_evaluate_arb",
    "EAntic.C17_evaluate_arb_rational"
   ],
   "note": "Relative to the inclusion contract of the Arb operations."
  },
  {
   "property": "C18",
   "status": "partial",
   "theorems": [
    "EAntic.C18_accepts",
    "EAntic.C18_at_most_one",
    "EAntic.C18_exactly_one_partial",
    "EAntic.C18_root_near_partial",
    "EAntic.C18_terminates",
    "EAntic.C18_counterexample"
   ],
   "note": "At most one root: proved in full. Existence: proved for linear polynomials and representable end points, and in the outward rounded interval. C18_counterexample: accepted ball without a root. C18_accepts: which balls are accepted (small, root at least c 4^-p from the ends, from some precision on)."
  },
  {
   "property": "C19",
   "status": "partial",
   "theorems": [
    "EAntic.C19_same_root",
    "EAntic.C19_same_polynomial",
    "EAntic.C19_equal_partial",
    "EAntic.C19_counterexample"
   ],
   "note": "Same root implies equal, equal implies same polynomial: proved in full. Equal implies same root: proved for separated roots; C19_counterexample at precision 64."
  },
  {
   "property": "C20",
   "status": "partial",
   "theorems": [
    "EAntic.C20_nth_root_succeeds_partial",
    "EAntic.C20_nth_root_high_precision_partial",
    "EAntic.C20_nth_root_partial",
    "EAntic.C20_nth_root_odd",
    "EAntic.C20_negative"
   ],
   "note": "Odd n: proved in full for irreducible x^n-d. Even n: at every precision from some P(d,n) on (C20_nth_root_high_precision_partial; C20_nth_root_succeeds_partial: the construction also returns, if Arb's enclosure has the root inside), and at low precision under the condition that refinement cannot leave the root (see C14)."
  },
  {
   "property": "C21",
   "status": "partial",
   "theorems": [
    "EAntic.C21_counterexample",
    "EAntic.C21_num_real_roots_upper_bound_partial"
   ],
   "note": "False (C21_counterexample); proved under the sign condition the root bound needs."
  },
  {
   "property": "C22",
   "status": "proved",
   "theorems": [
    "EAntic.C22_descartes_bound_0_1",
    "EAntic.C22_descartes_bound_0_1_total"
   ],
   "note": ""
  },
  {
   "property": "C23",
   "status": "partial",
   "theorems": [
    "EAntic.C23_counterexample",
    "EAntic.C23_positive_root_upper_bound_partial",
    "EAntic.C23_positive_root_upper_bound_factor4"
   ],
   "note": "False (C23_counterexample); proved under the sign condition, and with a factor 4 for all polynomials."
  },
  {
   "property": "C24",
   "status": "proved",
   "theorems": [
    "EAntic.C24_isolate_0_1",
    "EAntic.C24_isolate_0_1_safe",
    "EAntic.C24_isolate_0_1_total",
    "EAntic.C24_multiple_root_diverges"
   ],
   "note": "Total correctness for polynomials whose roots in [0,1] are simple (in particular squarefree ones); with a multiple non-dyadic root the function provably never returns."
  },
  {
   "property": "C25",
   "status": "partial",
   "theorems": [
    "EAntic.C25_counterexample",
    "EAntic.C25_isolate_real_roots_partial",
    "EAntic.C25_isolate_real_roots_in_window_partial",
    "EAntic.C25_isolate_real_roots_safe",
    "EAntic.C25_isolate_real_roots_terminates"
   ],
   "note": "False (C25_counterexample); proved under the sign condition, and inside the searched window for all polynomials; terminates when the real roots are simple."
  },
  {
   "property": "C26",
   "status": "partial",
   "theorems": [
    "EAntic.C26_num_real_roots_0_1_vca",
    "EAntic.C26_num_real_roots_0_1_vca_total",
    "EAntic.C26_num_real_roots_vca_counterexample",
    "EAntic.C26_num_real_roots_vca_partial",
    "EAntic.C26_num_real_roots_vca_total_partial",
    "EAntic.C26_num_real_roots_0_1_sturm_value_partial",
    "EAntic.C26_num_real_roots_0_1_sturm_partial",
    "EAntic.C26_num_real_roots_0_1_sturm_counterexample",
    "EAntic.C26_num_real_roots_0_1_sturm_right_end",
    "EAntic.C26_num_real_roots_0_1_sturm_multiple_value_partial",
    "EAntic.C26_num_real_roots_0_1_sturm_multiple_partial",
    "EAntic.C26_num_real_roots_0_1_sturm_multiple_counterexample",
    "EAntic.C26_num_real_roots_0_1_sturm_zero"
   ],
   "note": "False for fmpz_poly_num_real_roots_vca (counterexample) and for fmpz_poly_num_real_roots_0_1_sturm, which reports a root of x^2+1 (counterexample). 0_1_vca proved. For 0_1_sturm the exact returned value is proved for every polynomial of which neither 0 nor 1 is a multiple root (via Sturm theorem, also for multiple roots elsewhere): different roots in [0,1] plus members of the sequence vanishing at 0, and the iff describing when it is right. Multiple root at 0 or 1: wrong also for different roots in the closed interval (C26_num_real_roots_0_1_sturm_multiple_counterexample)."
  },
  {
   "property": "C27",
   "status": "proved",
   "theorems": [
    "EAntic.C27_entries_0_1",
    "EAntic.C27_entries"
   ],
   "note": ""
  },
  {
   "property": "C28",
   "status": "proved",
   "theorems": [
    "EAntic.C28_scale_0_1",
    "EAntic.C28_root_count"
   ],
   "note": "Affine rescaling."
  },
  {
   "property": "C29",
   "status": "proved",
   "theorems": [
    "EAntic.C29_squarefree_part",
    "EAntic.C29_simple_roots",
    "EAntic.C29_primitive_divisor",
    "EAntic.C29_unique",
    "EAntic.C29_zero"
   ],
   "note": "Nonzero polynomials; zero is mapped to zero. gcd and exact division of FLINT by contract."
  },
  {
   "property": "C30",
   "status": "proved",
   "theorems": [
    "EAntic.C30_has_real_root"
   ],
   "note": "All normalised coefficient vectors; FLINT's root counter only through 'zero iff no real root'."
  },
  {
   "property": "C31",
   "status": "proved",
   "theorems": [
    "EAntic.Text.C31_parser",
    "EAntic.Text.C31_rejects",
    "EAntic.Text.C31_unambiguous"
   ],
   "note": "fmpq_set_str is a parameter R; the language is specified in Spec/Text.lean. The theorem is an equivalence for every string and every variable name. Quirks the language documents: x2 is read as x^2, *x as x, the empty string as 0, a single blank is rejected, exponents above LONG_MAX are rejected. ASCII, C locale."
  },
  {
   "property": "C32",
   "status": "partial",
   "theorems": [
    "EAntic.Cxx.C32_string_round_trip",
    "EAntic.Cxx.C32_constructor",
    "EAntic.Cxx.C32_stream_round_trip",
    "EAntic.Cxx.C32_print_no_throw",
    "EAntic.Cxx.C32_default_to_string_counterexample",
    "EAntic.Cxx.C32_to_string",
    "EAntic.Cxx.C32_print_ends_partial"
   ],
   "note": "String and stream round trips for all elements; the text of FLINT rationals and of doubles are contracts (TextLib.Ok). FALSE for the default to_string(): its text is in parentheses and the string constructor rejects it (C32_default_to_string_counterexample). to_string with all flags: C32_to_string. Printing terminates for narrow enclosures and numbers of moderate size (C32_print_ends_partial); otherwise the stream theorem is conditional on print returning."
  },
  {
   "property": "C33",
   "status": "proved",
   "theorems": [
    "EAntic.Cxx.C33_compound",
    "EAntic.Cxx.C33_binary",
    "EAntic.Cxx.C33_rational_left",
    "EAntic.Cxx.C33_rational_right",
    "EAntic.Cxx.C33_neg"
   ],
   "note": "All pairs of parents, aliasing included; relative to the contracts of the element layer."
  },
  {
   "property": "C34",
   "status": "proved",
   "theorems": [
    "EAntic.Cxx.C34_eq",
    "EAntic.Cxx.C34_lt",
    "EAntic.Cxx.C34_rational",
    "EAntic.Cxx.C34_hash"
   ],
   "note": "== always returns or throws; < is partial correctness (termination: C44). Hashes: equal numbers in any fields, histories and worlds. For any refinement that keeps the roots (C14)."
  },
  {
   "property": "C35",
   "status": "proved",
   "theorems": [
    "EAntic.Cxx.C35_construct_assign",
    "EAntic.Cxx.C35_arithmetic",
    "EAntic.Cxx.C35_comparison"
   ],
   "note": "All widths allowed by Widths.Ok."
  },
  {
   "property": "C36",
   "status": "partial",
   "theorems": [
    "EAntic.Cxx.C36_pow_partial",
    "EAntic.Cxx.C36_int_min_counterexample"
   ],
   "note": "All exponents except the smallest int; C36_int_min_counterexample: signed overflow."
  },
  {
   "property": "C37",
   "status": "proved",
   "theorems": [
    "EAntic.Cxx.C37_den",
    "EAntic.Cxx.C37_num_vector",
    "EAntic.Cxx.C37_num_content",
    "EAntic.Cxx.C37_rational",
    "EAntic.Cxx.C37_den_unique"
   ],
   "note": "num() only for rational elements, as the code asserts."
  },
  {
   "property": "C38",
   "status": "proved",
   "theorems": [
    "EAntic.Registry.C38_valid_exactly_while_held",
    "EAntic.Registry.C38_make",
    "EAntic.Registry.C38_unique",
    "EAntic.Registry.C38_destroyed_once",
    "EAntic.Registry.C38_copy_release"
   ],
   "note": "All sequences of complete operations of one thread; equality of fields is taken to be an equality of keys (see C19)."
  },
  {
   "property": "C39",
   "status": "partial",
   "theorems": [
    "EAntic.Registry.C39_counterexample",
    "EAntic.Registry.C39_double_delete",
    "EAntic.Registry.C39_threads_partial",
    "EAntic.Registry.C39_kept_fields_partial",
    "EAntic.Registry.C39_no_leak_partial"
   ],
   "note": "False (C39_counterexample: use of a deleted field, C39_double_delete). Proved for all interleavings in which make does not return a field whose last pointer has just been dropped, and for fields that some thread keeps."
  },
  {
   "property": "C40",
   "status": "partial",
   "theorems": [
    "EAntic.C40_restore_high_precision_partial",
    "EAntic.Cxx.C40_partial",
    "EAntic.Cxx.C40_address_reuse_counterexample",
    "EAntic.C40_restore_partial",
    "EAntic.C40_text_accuracy",
    "EAntic.C40_restore_counterexample",
    "EAntic.Fields.C40_same_object_partial"
   ],
   "note": "Round trip for every sequence of elements, each field stored once, identifiers as uint32 with the flag bit. Assumed: fields are not destroyed while the archive is open (FALSE otherwise: C40_address_reuse_counterexample), fewer than 2^31 fields, and make() restores a field from construction() (FieldIO.Ok). C40_restore_partial gives this from the model of make() when check_unique_real_root accepts the ball read back; C40_restore_high_precision_partial: without assumptions on the code for fields of high precision whose root is inside the ball read back; FALSE in general: C40_restore_counterexample (clustered roots). C40_text_accuracy: the text of the embedding has enough digits. C40_same_object_partial: with the registry of C61, loading a field in the program that saved it returns the same object."
  },
  {
   "property": "C41",
   "status": "proved",
   "theorems": [
    "EAntic.C41_add_fmpq",
    "EAntic.C41_canonical_unique"
   ],
   "note": "All aliasing patterns; result determined up to nothing (canonical form is unique)."
  },
  {
   "property": "C42",
   "status": "proved",
   "theorems": [
    "EAntic.C42_refine_immutable",
    "EAntic.C42_refine_flag",
    "EAntic.C42_set_immutable",
    "EAntic.C42_ndebug_ignores"
   ],
   "note": "Flag semantics in checking builds; C42_ndebug_ignores records that other builds ignore it."
  },
  {
   "property": "C43",
   "status": "proved",
   "theorems": [
    "EAntic.C43_queries_preserve_values",
    "EAntic.C43_answers_independent"
   ],
   "note": "For any refinement that keeps the root (FieldInv.refine), see C14 and C01_counterexample."
  },
  {
   "property": "C44",
   "status": "partial",
   "theorems": [
    "EAntic.C44_made_field_partial",
    "EAntic.C44_queries_end_partial",
    "EAntic.C44_programs_end_partial",
    "EAntic.C44_high_precision",
    "EAntic.C44_sgn_partial",
    "EAntic.C44_cmp_partial",
    "EAntic.C44_cmp_fmpq_partial",
    "EAntic.C44_floor_partial",
    "EAntic.C44_ceil_partial",
    "EAntic.C44_get_arb_partial",
    "EAntic.C44_evaluation_legal",
    "EAntic.C44_precision_counterexample"
   ],
   "note": "C44_programs_end_partial: every program of legal calls (all modelled operations: sgn, cmp, cmp_fmpq, floor, ceil, fdiv, get_arb, get_d, get_cfrac and arithmetic) in a field of degree at least 2 whose root is enclosed tightly enough ends with the exact answers, for the modelled refinement and every tight and convergent ball arithmetic; the other outcomes are overflow of a machine word by a working precision, and abort of a rounding call whose enclosure has an exponent outside a word. C44_queries_end_partial: the same per query from every reachable memory. C44_sgn_partial etc.: any refinement that succeeds up to a bound depending on the stored numbers only. Sizeable/EvalOk cannot be dropped: C44_precision_counterexample. Missing: enclosures that are not tight (C55_counterexample shows that refinement itself may not return), and numbers that are not Sizeable at the precision of the field; C44_high_precision: from some precision on, given by the size of the root, all numbers whose coefficients fit into the address space are Sizeable. C44_made_field_partial: the same from the beginning, the field being made from texts of the polynomial and of a small ball."
  },
  {
   "property": "C45",
   "status": "partial",
   "theorems": [
    "EAntic.C45_condition_number_partial",
    "EAntic.C45_condition_number_off_by_one_partial",
    "EAntic.C45_counterexample",
    "EAntic.C45_counterexample_infinite"
   ],
   "note": "Proved for finite balls and nonnegative leading coefficient, off by at most one bit otherwise; C45_counterexample; C45_counterexample_infinite."
  },
  {
   "property": "C46",
   "status": "proved",
   "theorems": [
    "EAntic.Cxx.C46_copy",
    "EAntic.Cxx.C46_move_swap_destroy",
    "EAntic.Cxx.C46_convert"
   ],
   "note": "All combinations of parents and aliasing; moved-from sources are C50."
  },
  {
   "property": "C47",
   "status": "partial",
   "theorems": [
    "EAntic.C47_set_embeddings_partial",
    "EAntic.C47_counterexample"
   ],
   "note": "Proved under the sign condition of C23, for intervals that fit the precision and when refinement cannot leave the root; C47_counterexample: an embedding is missed."
  },
  {
   "property": "C48",
   "status": "partial",
   "theorems": [
    "EAntic.Cxx.C48_floordiv_partial",
    "EAntic.Cxx.C48_counterexample"
   ],
   "note": "Same parent or one rational operand (for zero divided by a rational element with another parent in a field of degree three or more the value 0 is not asserted, see C09). C48_counterexample: irrational elements with different parents are undefined behaviour instead of an exception."
  },
  {
   "property": "C49",
   "status": "proved",
   "theorems": [
    "EAntic.Cxx.C49_call",
    "EAntic.Cxx.C49_approximating_call",
    "EAntic.Cxx.C49_program",
    "EAntic.Cxx.C49_safe_program",
    "EAntic.Cxx.C49_no_leak",
    "EAntic.Cxx.C49_program_near_roots"
   ],
   "note": "Programs are lists of calls of all modelled operations; calls that evaluate numerically: partial correctness (termination: C44). C49_program_near_roots has the modelled refinement and no assumption about it. Memory after exceptions: C56."
  },
  {
   "property": "C50",
   "status": "partial",
   "theorems": [
    "EAntic.Cxx.C50_moved_from_partial",
    "EAntic.Cxx.C50_copy_counterexample"
   ],
   "note": "Everything but copying. C50_copy_counterexample: copying a moved-from element dereferences a null pointer."
  },
  {
   "property": "C51",
   "status": "partial",
   "theorems": [
    "EAntic.Cxx.C51_white_space_counterexample",
    "EAntic.Cxx.C51_end_counterexample",
    "EAntic.Cxx.C51_no_field_counterexample",
    "EAntic.Cxx.C51_unclosed_counterexample",
    "EAntic.Cxx.C51_partial"
   ],
   "note": "FALSE as stated: operator>> does not skip white space (reads 0 forever), reads 0 at an unnoticed end, dereferences null without set_pword, uses an indeterminate character after an unclosed parenthesis with trailing blank. C51_partial: programs that skip white space themselves."
  },
  {
   "property": "C52",
   "status": "partial",
   "theorems": [
    "EAntic.C52_make_succeeds_partial",
    "EAntic.C52_callback_accepted",
    "EAntic.C52_make_partial",
    "EAntic.C52_rejects_polynomial",
    "EAntic.C52_rejects_ball",
    "EAntic.C52_rejects_not_isolating",
    "EAntic.C52_make_callback_partial",
    "EAntic.C52_trivial",
    "EAntic.C52_isolating_counterexample"
   ],
   "note": "Soundness and rejection for all texts; the root stays enclosed if the polynomial is irreducible (not checked by the code) and refinement cannot leave the root (Secure, see C15). Balls that contain no root but catch one when rounded outwards are accepted (C18). FALSE: that every isolating ball is accepted (C52_isolating_counterexample). C52_make_succeeds_partial: make returns the field at the root for every irreducible polynomial of degree at least two, every high precision and every small ball with the root inside (other outcome: overflow of the working precision). C52_callback_accepted: with a callback whose balls shrink to the root one is accepted after finitely many doublings."
  },
  {
   "property": "C53",
   "status": "partial",
   "theorems": [
    "EAntic.C53_set_str_partial",
    "EAntic.C53_set_str_general",
    "EAntic.C53_rejects",
    "EAntic.C53_counterexample"
   ],
   "note": "FALSE as stated: coefficients of the old value beyond the degree read survive (C53_counterexample). Proved: exact contents in general, and the property when the old coefficients beyond the degree vanish."
  },
  {
   "property": "C54",
   "status": "partial",
   "theorems": [
    "EAntic.Ptr.C54_reading_partial",
    "EAntic.Ptr.C54_refines",
    "EAntic.Ptr.C54_text_counterexample",
    "EAntic.Ptr.C54_variable_counterexample",
    "EAntic.Ptr.C54_print_field",
    "EAntic.Ptr.C54_print_element"
   ],
   "note": "All ASCII strings, all memory contents. FALSE for strings with bytes above 127: isdigit/isalpha of a negative char (C54_text_counterexample, C54_variable_counterexample). fmpq_set_str, nf_elem_get_str_pretty and arb_get_str by their results."
  },
  {
   "property": "C55",
   "status": "partial",
   "theorems": [
    "EAntic.C55_refine_returns_partial",
    "EAntic.C55_counterexample"
   ],
   "note": "Proved: for every field of degree at least two and every root there is a radius below which refinement to any precision returns an accurate enclosure of this root (the only other outcome, overflow of the working precision, needs that the given enclosure or one computed on the way has 2^61 correct bits). FALSE for arbitrary isolating balls at the level of the contract: C55_counterexample, an arithmetic with tight radii for which renf_init never returns on a ball around sqrt 2 accepted by check_unique_real_root. Whether Arb's own roundings reach such a fixed point is not decided by the contract."
  },
  {
   "property": "C56",
   "status": "partial",
   "theorems": [
    "EAntic.Cxx.C56_programs_end_partial",
    "EAntic.Cxx.C56_call",
    "EAntic.Cxx.C56_program_partial",
    "EAntic.Cxx.C56_no_leak",
    "EAntic.Cxx.C56_safe_program",
    "EAntic.Cxx.C56_end",
    "EAntic.Cxx.C56_leak_counterexample"
   ],
   "note": "Proved for all programs that catch exceptions: a call that throws leaves every variable as it was, later answers are exact, programs without numerical evaluation always run to the end, and what leaks is at most one cell per failed conversion to another field. C56_programs_end_partial: programs with numerical evaluation come to an end from narrow enclosures for numbers of moderate size. FALSE for that conversion: it leaks the storage of the element it was constructing, every time (C56_leak_counterexample)."
  },
  {
   "property": "C57",
   "status": "partial",
   "theorems": [
    "EAntic.C57_threads_partial",
    "EAntic.C57_progress",
    "EAntic.C57_exact",
    "EAntic.C57_get_d_counterexample",
    "EAntic.C57_query_race_counterexample",
    "EAntic.C57_ndebug_counterexample"
   ],
   "note": "All modelled element functions, any number of threads, all interleavings of whole-element accesses (sequentially consistent; legitimate as there is no race). Proved with assertions on and if elements that a thread writes or queries numerically are used by no other thread. FALSE if threads share an element that they only query: sgn and comparisons store enclosures in their const arguments (C57_query_race_counterexample), and conversion to double negates the element in place, so that another thread can get the wrong sign (C57_get_d_counterexample). FALSE without assertions: the flag is ignored (C57_ndebug_counterexample)."
  },
  {
   "property": "C58",
   "status": "proved",
   "theorems": [
    "EAntic.Cxx.C58_relation",
    "EAntic.Cxx.C58_relation_number_right",
    "EAntic.Cxx.C58_relation_number_left",
    "EAntic.Cxx.C58_number_right",
    "EAntic.Cxx.C58_number_left"
   ],
   "note": "Boost's derivations are modelled from the documented definitions of boost/operators.hpp (not in the repository). Relations by numerical evaluation: whenever they return (termination: C44)."
  },
  {
   "property": "C59",
   "status": "partial",
   "theorems": [
    "EAntic.C59_irreducible",
    "EAntic.C59_field_partial",
    "EAntic.C59_field_exact_intersection",
    "EAntic.C59_counterexample",
    "EAntic.C59_len",
    "EAntic.C59_interval_ball",
    "EAntic.C59_search_returns",
    "EAntic.C59_element"
   ],
   "note": "For every answer of FLINT's generators (contract Draw.Ok): irreducibility over the rationals, sizes, and, when the call returns, the embedding at a real root if refinement cannot leave it (Secure) or intersections do not grow. FALSE: renf_randtest aborts when the polynomial drawn is linear with an integer root (C59_counterexample)."
  },
  {
   "property": "C60",
   "status": "partial",
   "theorems": [
    "EAntic.MemOrder.C60_counterexample",
    "EAntic.MemOrder.C60_one_thread_releases_partial",
    "EAntic.MemOrder.C60_joined_threads_partial",
    "EAntic.MemOrder.C60_acquire_would_suffice",
    "EAntic.MemOrder.C60_order",
    "EAntic.MemOrder.C60_not_leaked"
   ],
   "note": "C++ memory model restricted to one field: happens-before from program order, hand-overs, the mutex and the memory orders of the reference count. FALSE: the decrement has release but no acquire semantics, so that deletion races with the last accesses of other threads (C60_counterexample). Proved: one deletion, nothing afterwards in time order (C60_order); happens-before if one thread does all releases or the others are joined before; with acq_rel it would hold for all executions (C60_acquire_would_suffice)."
  },
  {
   "property": "C61",
   "status": "partial",
   "theorems": [
    "EAntic.Fields.C61_make_partial",
    "EAntic.Fields.C61_make_again_partial",
    "EAntic.Fields.C61_unique_partial",
    "EAntic.Fields.C61_release_partial",
    "EAntic.Fields.C61_name_and_polynomial_partial",
    "EAntic.Fields.C61_constants",
    "EAntic.Fields.C61_small_enclosures",
    "EAntic.Fields.C61_one_root",
    "EAntic.Fields.C61_clear_enclosures",
    "EAntic.Fields.C61_counterexample",
    "EAntic.Fields.C61_zero_root_counterexample"
   ],
   "note": "The registry with its concrete keys, one thread. FALSE: for two roots of 2^141 (x-1)^2 - 1 make returns the field at the first root when asked for the second (C61_counterexample); for the polynomial x the constructor divides by zero (C61_zero_root_counterexample). Proved for all histories, if enclosures stay clear of other roots (C61_small_enclosures: the first ones being small suffices, for every field of degree at least two; C61_clear_enclosures: an explicit bound; C61_one_root: any enclosure if there is one real root, in every degree): make (also with another enclosure of the root: C61_make_again_partial), uniqueness, lifetime. For all histories without that: name and polynomial of the result, and the constants."
  },
  {
   "property": "C62",
   "status": "partial",
   "theorems": [
    "EAntic.Cxx.C62_programs_end_partial"
   ],
   "note": "C62_programs_end_partial: for every family of fields there are radii such that all programs of calls of the C++ layer that start from enclosures that are not wider come to an end with the exact answers, or throw where allowed; the other outcomes are overflow of a machine word by a working precision, and abort of a rounding call whose enclosure has an exponent outside a word. Missing: enclosures that are wider (C55_counterexample) and numbers that are not Sizeable at the precision of the field (C44_precision_counterexample; at high precision all are, C44_high_precision)."
  },
  {
   "property": "C63",
   "status": "partial",
   "theorems": [
    "EAntic.Rsc.C63_resources_partial",
    "EAntic.Rsc.C63_check_unique_partial",
    "EAntic.Rsc.C63_check_unique_leaks",
    "EAntic.Rsc.C63_counterexample",
    "EAntic.Rsc.C63_cxx_partial",
    "EAntic.Rsc.C63_cxx_throw_partial",
    "EAntic.Rsc.C63_cxx_counterexample"
   ],
   "note": "All 128 functions of libeantic/src and 41 (groups of) functions of libeantic/srcxx that handle C objects, as programs with uninterpreted conditions and unbounded loops. FALSE: fmpq_poly_check_unique_real_root loses two or three objects on two of its paths (C63_check_unique_leaks, C63_counterexample); the constructor from a string, the constructor from an element of another field and renf_class::make from strings lose memory when they throw (C63_cxx_counterexample). Proved for all the other functions (C63_resources_partial, C63_cxx_partial), and exactly what those four lose (C63_check_unique_partial, C63_cxx_throw_partial). Out-of-bounds accesses inside vectors and strings and uninitialised machine integers are not part of it."
  },
  {
   "property": "C64",
   "status": "partial",
   "theorems": [
    "EAntic.C64_descartes",
    "EAntic.C64_positive_root_bound",
    "EAntic.C64_poly_root_bound",
    "EAntic.C64_upper_bound",
    "EAntic.C64_isolate_partial",
    "EAntic.C64_isolate_degree_partial",
    "EAntic.C64_count_0_1_partial",
    "EAntic.C64_scale_0_1",
    "EAntic.C64_has_real_root",
    "EAntic.C64_evaluate",
    "EAntic.C64_condition_number_partial",
    "EAntic.C64_abs",
    "EAntic.C64_set_embeddings_partial",
    "EAntic.C64_counterexample",
    "EAntic.C64_sturm_partial",
    "EAntic.C64_sturm_returns_partial",
    "EAntic.C64_sturm_any_length",
    "EAntic.C64_sturm_counterexample",
    "EAntic.C64_get_cfrac",
    "EAntic.C64_randtest"
   ],
   "note": "Loops with indices, every access checked; each computes what the list model of the other claims computes. Proved for every polynomial except zero (lengths and bit sizes at most 2^60). FALSE for the zero polynomial: fmpz_poly_num_real_roots_0_1_vca and fmpz_poly_relative_condition_number_2exp read outside of an empty vector (C64_counterexample); C64_scale_0_1, C64_has_real_root, C64_evaluate and C64_abs hold for it as well. get_cfrac, randtest and, for lengths up to 2^31 (an int counter), 0_1_sturm: C64_get_cfrac, C64_randtest, C64_sturm_partial. The bound 2^31 is the best possible: C64_sturm_any_length (any length: the same result, or overflow of the counter), C64_sturm_counterexample (overflow for polynomials of every length above). FLINT's own vector functions are taken to access the range they are given."
  },
  {
   "property": "C65",
   "status": "proved",
   "theorems": [
    "EAntic.Py.C65_to_sage",
    "EAntic.Py.C65_from_sage",
    "EAntic.Py.C65_coefficients_unique",
    "EAntic.Py.C65_round_trip",
    "EAntic.Py.C65_richcmp",
    "EAntic.Py.C65_rational",
    "EAntic.Py.C65_integer",
    "EAntic.Py.C65_pickle",
    "EAntic.Py.C65_richcmp_ends_partial"
   ],
   "note": "SageMath's elements as lists of coefficients, cppyy's calls as the C++ functions of the model. Comparisons: whenever they return; C65_richcmp_ends_partial: they return from enclosures that are narrow enough, for numbers of moderate size (otherwise see C55, C44)."
  },
  {
   "property": "C66",
   "status": "partial",
   "theorems": [
    "EAntic.Py.C66_sound",
    "EAntic.Py.C66_found_partial",
    "EAntic.Py.C66_lost",
    "EAntic.Py.C66_init_partial",
    "EAntic.Py.C66_round_trip_partial",
    "EAntic.Py.C66_demo",
    "EAntic.Py.C66_same_object_partial",
    "EAntic.Py.C66_same_object_one_root_partial"
   ],
   "note": "FALSE: fields whose polynomial has a negative or fractional leading coefficient, and the field of the polynomial x, cannot be converted: an exception (C66_lost, for all of them). Proved: every field that is returned is the right one (C66_sound); it is returned whenever at one of the precisions tried no other root's ball overlaps with the printed enclosure (C66_found_partial); the way back (C66_init_partial, C66_round_trip_partial), if refinement cannot leave the root (Secure, see C15); with the registry of C61 the program gets back the very object it started from, whatever it has done before (C66_same_object_partial; C66_same_object_one_root_partial: if the polynomial has one real root, without assumptions on enclosures). SageMath by contract (Sage.Ok), Arb's texts by contract."
  },
  {
   "property": "C67",
   "status": "partial",
   "theorems": [
    "EAntic.Py.C67_poly_string",
    "EAntic.Py.C67_interval_partial",
    "EAntic.Py.C67_interval_total",
    "EAntic.Py.C67_interval_returns",
    "EAntic.Py.C67_interval_overflow",
    "EAntic.Py.C67_interval_counterexample",
    "EAntic.Py.C67_field_partial",
    "EAntic.Py.C67_element"
   ],
   "note": "poly_string and elements: proved for all lists. FALSE for intervals: roots of about 1000 and more at 15 decimal places can be lost in the rounding of doubles (C67_interval_counterexample: the ball is disjoint from the interval). Proved if the sum of the end points is at most 2^54 times the width. Doubles are those of IEEE 754 (nearest, ties to even, subnormal numbers, overflow): the conversion returns exactly if sum, difference and 10^prec are below the range of doubles and throws OverflowError otherwise (C67_interval_total), so always up to 308 decimal places and never from 309 on. The empty list of coefficients raises an exception."
  },
  {
   "property": "C68",
   "status": "partial",
   "theorems": [
    "EAntic.Cxx.C68_from_text_partial",
    "EAntic.Cxx.C68_programs",
    "EAntic.Cxx.C68_safe_programs",
    "EAntic.Cxx.C68_pipe",
    "EAntic.Cxx.C68_token_unique",
    "EAntic.Cxx.C68_token_total",
    "EAntic.Cxx.C68_blank_counterexample",
    "EAntic.Cxx.C68_programs_end_partial"
   ],
   "note": "Answers, streams, exceptions and memory: for all programs (C68_programs), always returning or throwing if nothing is evaluated numerically (C68_safe_programs). Missing: termination of printing and hashing is proved for narrow enclosures and numbers of moderate size only (C68_programs_end_partial, the conditions of C44 and C62; C68_from_text_partial starts with making the fields from texts). FALSE for a blank in front of a closing parenthesis: the parenthesis and what follows are taken for a part of the number (C68_blank_counterexample: a second number is swallowed without an exception); Token describes what the code does. Undefined behaviour, excluded by ValidT, exactly for streams that end with white space inside of a parenthesis (C68_token_total). The lifetime of the field that is attached to the stream is C69."
  },
  {
   "property": "C69",
   "status": "proved",
   "theorems": [
    "EAntic.Registry.C69_read",
    "EAntic.Registry.C69_read_undefined",
    "EAntic.Registry.C69_stays",
    "EAntic.Registry.C69_attach",
    "EAntic.Registry.C69_counterexample"
   ],
   "note": "The condition under which reading is legitimate is exact: C69_read and C69_read_undefined. C69_counterexample: the stream alone does not keep the field alive, so that make(...)->set_pword(is) followed by a read uses a deleted object. One thread; objects have their own addresses (an address reused by another field is not distinguished from a deleted object)."
  },
  {
   "property": "C70",
   "status": "partial",
   "theorems": [
    "EAntic.Cxx.C70_roundtrip_partial",
    "EAntic.Cxx.C70_malformed_partial",
    "EAntic.Cxx.C70_version_counterexample",
    "EAntic.Cxx.C70_null_name_counterexample",
    "EAntic.Cxx.C70_member_order_counterexample",
    "EAntic.Cxx.C70_by_name_counterexample"
   ],
   "note": "Round trip in JSON archives, by position or by name, and for files of older versions: C70_roundtrip_partial under the assumptions of C40_partial. Files whose field records are nonempty objects, without a class version in front and without identifiers zero, are read or rejected: C70_malformed_partial. FALSE otherwise: C70_version_counterexample (the branch for the class version leaves the record, the load throws), C70_null_name_counterexample (an empty object or an array: a null pointer is compared), C70_member_order_counterexample (name and embedding are read by position), C70_by_name_counterexample (the second of two elements cannot be loaded first). cereal's JSON archive is a contract (Model/Json.lean)."
  },
  {
   "property": "C71",
   "status": "partial",
   "theorems": [
    "EAntic.Concurrent.C71_different_polynomials_partial",
    "EAntic.Concurrent.C71_as_alone_partial",
    "EAntic.Concurrent.C71_registry",
    "EAntic.Concurrent.C71_no_deadlock",
    "EAntic.Concurrent.C71_names_counterexample",
    "EAntic.Concurrent.C71_same_field_counterexample",
    "EAntic.Concurrent.C71_one_thread",
    "EAntic.Concurrent.C71_sequential_partial"
   ],
   "note": "FALSE: C71_names_counterexample (thread 0 makes a field of the same number under another name and reads the enclosure that thread 1 is about to write: fields_equality compares enclosures before names) and C71_same_field_counterexample (two threads that make equal fields get the same object, and both refine it). Proved without condition: C71_registry (no race on the set of fields), C71_no_deadlock, C71_one_thread (a thread alone, one access at a time, is the model with whole calls of C61). Proved if fields of different threads have different defining polynomials: C71_as_alone_partial (each thread gets the answers, pointers and contents that it would get alone) C71_sequential_partial (these are the results of the same calls executed one after the other by the model of C61) and C71_different_polynomials_partial, for any number of threads, all modelled element functions, all interleavings of make, lookups, single accesses to memory, copies and releases. C71_registry: the set of fields itself is never accessed by two threads at a time. Sequentially consistent, which is enough as long as there is no race; the order of the last release and the deletion is C60."
  },
  {
   "property": "C72",
   "status": "proved",
   "theorems": [
    "EAntic.C72_rationals",
    "EAntic.C72_exact"
   ],
   "note": "For every field of degree one, not only the trivial one, with or without the immutable flag. Excluded are renf_refine_embedding and renf_elem_get_arb, which C++ programs do not call. Accesses as in C57: whole elements and fields."
  },
  {
   "property": "C73",
   "status": "proved",
   "theorems": [
    "EAntic.Cxx.C73_assertions",
    "EAntic.Cxx.C73_assertions_uncaught",
    "EAntic.Cxx.C73_assertions_text",
    "EAntic.Cxx.C73_rounds",
    "EAntic.Cxx.C73_rounds_text"
   ],
   "note": "All assertions of the element layer; those of the isolation of roots do not depend on the build (C19, C64) and those of the registry are C60. C73_rounds and C73_rounds_text: the number of rounds after which the model cuts off loops is not part of the behaviour. Allocation and timing are not observed."
  },
  {
   "property": "C74",
   "status": "partial",
   "theorems": [
    "EAntic.Py.C74_programs_end_partial",
    "EAntic.Py.C74_for_eantic",
    "EAntic.Py.C74_text",
    "EAntic.Py.C74_operator",
    "EAntic.Py.C74_operator_other",
    "EAntic.Py.C74_unary_partial",
    "EAntic.Py.C74_pow_counterexample",
    "EAntic.Py.C74_make_number",
    "EAntic.Py.C74_make_copy",
    "EAntic.Py.C74_make_convert",
    "EAntic.Py.C74_make_list",
    "EAntic.Py.C74_statement_partial",
    "EAntic.Py.C74_program_partial"
   ],
   "note": "FALSE for x ** (-2**31): undefined behaviour (C74_pow_counterexample, see C36); proved for everything else. When there is an exception is exact: an int of Python beyond the C type that cppyy uses for it (so x + 2**40 raises, x + mpz(2**40) does not), elements of different fields that cannot be combined. cppyy by contract (an int that does not fit raises, selected overloads have the number), gmpy2 is installed; relations of Python (cppyythonizations) are not modelled. C74_program_partial: programs of any length that mix such statements with calls of C++ and catch exceptions; at most one leaked cell for every failed conversion. C74_programs_end_partial: such programs come to an end from narrow enclosures for numbers of moderate size. Zero divisors are outside of the domain."
  },
  {
   "property": "C75",
   "status": "partial",
   "theorems": [
    "EAntic.Cxx.C75_program_partial",
    "EAntic.Cxx.C75_call_partial",
    "EAntic.Cxx.C75_floor_counterexample",
    "EAntic.Py.C75_python_partial",
    "EAntic.Py.C75_sage",
    "EAntic.Cxx.C75_text_partial",
    "EAntic.Cxx.C75_enclosure_counterexample"
   ],
   "note": "FALSE for floor and ceil of zero in fields of degree three and more, whose answer depends on what the variable held before (C75_floor_counterexample, see C09). Proved for all other calls, except floordiv of zero by a rational element of another field (it calls floor of the quotient zero), in such fields; both runs are assumed to come to an end (C44, C62, C68). toDouble is included for all values: the cast is a function of the exact value, also where it is not the nearest double (C12). C75_text_partial extends this to programs that print, hash, convert to strings and read: every character that is written is the same; C75_python_partial extends it to Python programs (C74); FALSE for the strings with the stored enclosure (C75_enclosure_counterexample). Programs of SageMath do not call floor: for them the full statement holds (C75_sage)."
  },
  {
   "property": "C76",
   "status": "partial",
   "theorems": [
    "EAntic.Py.C76_program",
    "EAntic.Py.C76_programs_end_partial",
    "EAntic.Py.C76_hash"
   ],
   "note": "Every result, exception and value of programs of any length is that of exact arithmetic, nothing leaks, and programs without comparisons, printing and hashes come to an end (C76_program); elements with the same value have the same hash (C76_hash). Other programs come to an end if the enclosures of the generators are narrow enough and the numbers are of moderate size, or the working precision overflows (C76_programs_end_partial); for wide enclosures termination is FALSE at the level of the contract of Arb (C55_counterexample). Division by zero is outside the domain."
  }
 ]
}