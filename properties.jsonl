{"id": "C01", "title": "Every enclosure contains the exact value, for ever", "statement": "After any sequence of C-API calls on a real embedded number field and its elements (setters, arithmetic, queries, refinements, in any order and with any aliasing), the ball stored in each element contains the exact real value of that element, and the ball stored in the field contains the root chosen at construction.", "quantifier": "all fields, all call sequences of any length, all rounding behaviours of the ball arithmetic that satisfy containment, all precisions", "why_tests_cant": "Enclosure errors only show when a later query consults the stale ball; the set of histories and roundings is infinite.", "anchors": ["libeantic/src/renf_elem/*.c", "libeantic/src/renf/refine_embedding.c: renf_refine_embedding"]}
{"id": "C02", "title": "Exact field arithmetic", "statement": "add, sub, mul, div, neg, inv, pow and the mixed variants with slong/ulong/fmpz/fmpq store in the destination exactly the real number sum, difference, product, quotient, opposite, inverse or power of the operands, including when destination and operands alias; division by a zero divisor is outside the domain and never yields a value.", "quantifier": "all fields, all operands, all aliasing patterns", "why_tests_cant": "Infinitely many operands; aliasing combinations and the three storage layouts (linear, quadratic, generic) multiply.", "anchors": ["libeantic/src/renf_elem/{add,sub,mul,div}*.c", "libeantic/src/renf_elem/{inv,neg,pow}.c"]}
{"id": "C03", "title": "Rational divided by element", "statement": "renf_elem_fmpq_div(a, b, c, nf) stores b/c in a for every rational b and nonzero element c.", "quantifier": "all b, c and aliasing patterns of a and c", "why_tests_cant": "No unit test of this entry point exists; the result must hold for every pair and both aliasing patterns.", "anchors": ["libeantic/src/renf_elem/fmpq_div.c: renf_elem_fmpq_div"]}
{"id": "C04", "title": "The generator", "statement": "renf_elem_gen stores the element whose real value is the root of the defining polynomial that the field was embedded with, in every degree.", "quantifier": "all defining polynomials of every degree, including degree one", "why_tests_cant": "Tests only use x^n - 2/3; the degree one code is separate.", "anchors": ["libeantic/src/renf_elem/gen.c: renf_elem_gen", "libeantic/srcxx/renf_class.cpp: renf_class::gen"]}
{"id": "C05", "title": "Sign", "statement": "As long as refinements keep the chosen root in the enclosure of the field (C14), renf_elem_sgn returns -1, 0 or 1 according to the sign of the exact real value of the element, whatever the current precision of the element and of the field.", "quantifier": "all elements, all embedding precisions, all rounding behaviours", "why_tests_cant": "An element can be arbitrarily close to zero; no finite set of precisions covers it.", "anchors": ["libeantic/src/renf_elem/sgn.c: renf_elem_sgn"]}
{"id": "C06", "title": "Comparison of two elements", "statement": "As long as refinements keep the chosen root in the enclosure of the field (C14), renf_elem_cmp(a,b) is negative, zero or positive exactly as the real numbers are ordered, so that it is a total order compatible with renf_elem_equal; renf_elem_equal is true exactly when both elements denote the same real number.", "quantifier": "all pairs of elements, all embedding precisions, all histories", "why_tests_cant": "Pairs may agree to arbitrarily many digits; the order laws quantify over triples.", "anchors": ["libeantic/src/renf_elem/cmp.c: renf_elem_cmp", "libeantic/src/renf_elem/equal.c"]}
{"id": "C07", "title": "Comparison with rationals and integers", "statement": "As long as refinements keep the chosen root in the enclosure of the field (C14), renf_elem_cmp_fmpq, _cmp_fmpz, _cmp_si, _cmp_ui have the sign of a - b for the exact real values; renf_elem_equal_{fmpq,fmpz,si,ui} are true exactly on equality.", "quantifier": "all elements and all rationals/integers, all precisions", "why_tests_cant": "A rational can be chosen arbitrarily close to the element.", "anchors": ["libeantic/src/renf_elem/cmp_fmpq.c", "libeantic/src/renf_elem/cmp_{fmpz,si,ui}.c", "libeantic/src/renf_elem/equal_*.c"]}
{"id": "C08", "title": "Predicates", "statement": "renf_elem_is_zero, is_one, is_integer, is_rational are true exactly when the real value is 0, is 1, is an integer, is a rational number.", "quantifier": "all elements of all fields", "why_tests_cant": "is_rational inspects coefficients; that it decides rationality of a real number rests on irreducibility of the defining polynomial, not on samples.", "anchors": ["libeantic/src/renf_elem/is_*.c"]}
{"id": "C09", "title": "Floor and ceiling", "statement": "renf_elem_floor returns the largest integer not above the real value and renf_elem_ceil the smallest integer not below it, for every element and whatever the element and field were used for before.", "quantifier": "all elements, all storage histories, all precisions", "why_tests_cant": "Values arbitrarily close to integers and stale storage left by previous operations are not enumerable.", "anchors": ["libeantic/src/renf_elem/floor_ceil.c", "libeantic/src/renf_elem/rounding_template.h"]}
{"id": "C10", "title": "Floor division", "statement": "As long as refinements keep the chosen root in the enclosure of the field (C14), renf_elem_fdiv(a,b,c) stores the floor of the real quotient b/c for every nonzero c.", "quantifier": "all b and nonzero c, all precisions, all rounding behaviours", "why_tests_cant": "b/c may be an integer or arbitrarily close to one from either side; c of either sign.", "anchors": ["libeantic/src/renf_elem/fdiv.c: renf_elem_fdiv"]}
{"id": "C11", "title": "Ball conversion", "statement": "As long as refinements keep the chosen root in the enclosure of the field (C14), renf_elem_get_arb(x, a, nf, prec) returns a ball that contains the exact value, with at least prec bits of relative accuracy when a is nonzero and irrational.", "quantifier": "all elements and precisions", "why_tests_cant": "The loop has no bound on the number of refinements; each must preserve containment.", "anchors": ["libeantic/src/renf_elem/get_arb.c: renf_elem_get_arb"]}
{"id": "C12", "title": "Conversion to double", "statement": "renf_elem_get_d(a, nf, rnd) is the double obtained by rounding the exact real value in direction rnd (IEEE 754, including subnormal numbers and overflow), and depends only on that value.", "quantifier": "all elements, all rounding modes, all precisions and histories", "why_tests_cant": "Correct rounding near ties and in the subnormal range concerns infinitely many reals.", "anchors": ["libeantic/src/renf_elem/get_d.c: renf_elem_get_d"]}
{"id": "C13", "title": "Continued fraction", "statement": "renf_elem_get_cfrac writes at most n terms; they are the leading partial quotients of the real value, it stops early only if the element is rational, and in that case the terms reconstruct the element exactly.", "quantifier": "all elements and all n", "why_tests_cant": "Partial quotients are unbounded and the loop length is an input.", "anchors": ["libeantic/src/renf_elem/get_cfrac.c: renf_elem_get_cfrac"]}
{"id": "C14", "title": "Refinement keeps the root", "statement": "renf_refine_embedding never changes which root the field is embedded at: after it returns, the ball still contains the same root of the defining polynomial, has at least the requested relative accuracy, and all element values are unchanged.", "quantifier": "all fields, precisions, sequences of refinements", "why_tests_cant": "Newton and bisection choices depend on rounding at run time; a wrong half is chosen only on rare inputs.", "anchors": ["libeantic/src/renf/refine_embedding.c", "libeantic/src/fmpz_poly_extra/newton_step_arb.c", "libeantic/src/fmpz_poly_extra/bisection_step_arb.c"]}
{"id": "C15", "title": "Newton step", "statement": "If the Newton step reports success then the returned ball lies inside the given ball and contains every root of the polynomial that lay in the given ball.", "quantifier": "all integer polynomials, balls, precisions and lawful rounding", "why_tests_cant": "A statement about all reals of a ball.", "anchors": ["libeantic/src/fmpz_poly_extra/newton_step_arb.c: _fmpz_poly_newton_step_arb"]}
{"id": "C16", "title": "Bisection step", "statement": "If the bisection step reports success and the given ball contains exactly one root, a sign change, then the returned ball still contains that root.", "quantifier": "all polynomials, balls, precisions, lawful rounding", "why_tests_cant": "Rounding of the end points and of the intersection can pull in a neighbouring root.", "anchors": ["libeantic/src/fmpz_poly_extra/bisection_step_arb.c: _fmpz_poly_bisection_step_arb"]}
{"id": "C17", "title": "Ball evaluation of polynomials", "statement": "fmpz_poly_evaluate_arb and fmpq_poly_evaluate_arb return a ball that contains p(x) for every x in the input ball.", "quantifier": "all polynomials, balls, points of the ball, precisions", "why_tests_cant": "Universal over the reals of the ball.", "anchors": ["libeantic/src/fmpz_poly_extra/evaluate.c", "libeantic/src/fmpq_poly_extra/evaluate.c"]}
{"id": "C18", "title": "Uniqueness check at construction", "statement": "fmpq_poly_check_unique_real_root(pol, a, prec) returns 1 only if the ball a contains exactly one real root of pol.", "quantifier": "all polynomials, balls, precisions", "why_tests_cant": "Outward rounding of the end points matters only for roots at the rim of the ball.", "anchors": ["libeantic/src/fmpq_poly_extra/check_unique_real_root.c: fmpq_poly_check_unique_real_root"]}
{"id": "C19", "title": "Equality of fields", "statement": "renf_equal(K,L) returns true exactly when both have the same defining polynomial and are embedded at the same root, at every precision.", "quantifier": "all pairs of fields, all precisions of either", "why_tests_cant": "Overlapping enclosures of two distinct close roots need special precisions.", "anchors": ["libeantic/src/renf/equal.c: renf_equal"]}
{"id": "C20", "title": "n-th root fields", "statement": "renf_init_nth_root_fmpq(nf,d,n,prec) on positive d and n>=2 builds the field whose generator is the positive real n-th root of d.", "quantifier": "all positive rationals d and all n", "why_tests_cant": "Infinite family; the enclosure is computed numerically.", "anchors": ["libeantic/src/renf/init_nth_root.c: renf_init_nth_root_fmpq"]}
{"id": "C21", "title": "Upper bound for the number of real roots", "statement": "fmpz_poly_num_real_roots_upper_bound(p) is at least the number of real roots of p, so that buffers of this size hold all of them.", "quantifier": "all nonzero integer polynomials", "why_tests_cant": "Descartes' rule is a theorem over all polynomials.", "anchors": ["libeantic/src/fmpz_poly_extra/descartes_bound.c: fmpz_poly_num_real_roots_upper_bound"]}
{"id": "C22", "title": "Descartes bound on the unit interval", "statement": "fmpz_poly_descartes_bound_0_1(p, bound) never underestimates: unless it reports overflow of bound, its value is at least the number of roots in the open interval (0,1) counted with multiplicity; 0 means no root and 1 means exactly one root there.", "quantifier": "all nonzero integer polynomials and bounds", "why_tests_cant": "The early exits of the incremental Taylor shift depend on every coefficient.", "anchors": ["libeantic/src/fmpz_poly_extra/descartes_bound_0_1.c"]}
{"id": "C23", "title": "Upper bound for positive roots", "statement": "fmpz_poly_positive_root_upper_bound_2exp(p) = k implies that every positive real root of p is at most 2^k, and the value WORD_MIN implies there is no positive root.", "quantifier": "all nonzero integer polynomials", "why_tests_cant": "The failing configurations of coefficient signs and sizes are rare among random inputs (the existing random test passes).", "anchors": ["libeantic/src/fmpz_poly_extra/positive_root_upper_bound_2exp.c"]}
{"id": "C24", "title": "Root isolation in the unit interval", "statement": "fmpz_poly_isolate_real_roots_0_1_vca on a squarefree polynomial returns exact dyadic roots and open dyadic intervals, pairwise disjoint, each containing exactly one root, that together account for every root of the polynomial in [0,1).", "quantifier": "all squarefree integer polynomials", "why_tests_cant": "Recursion depth is unbounded and depends on root separation.", "anchors": ["libeantic/src/fmpz_poly_extra/isolate_real_roots.c: _fmpz_poly_isolate_real_roots_0_1_vca"]}
{"id": "C25", "title": "Root isolation on the real line", "statement": "fmpz_poly_isolate_real_roots accounts for every real root of a squarefree polynomial, negative, zero and positive, by exactly one exact root or open interval, and each returned interval contains exactly one root.", "quantifier": "all squarefree integer polynomials", "why_tests_cant": "Depends on the root bound being valid for every polynomial.", "anchors": ["libeantic/src/fmpz_poly_extra/isolate_real_roots.c: fmpz_poly_isolate_real_roots"]}
{"id": "C26", "title": "Number of real roots", "statement": "fmpz_poly_num_real_roots_0_1_sturm, _0_1_vca and fmpz_poly_num_real_roots_vca return the number of distinct real roots in [0,1) respectively on the real line.", "quantifier": "all squarefree integer polynomials", "why_tests_cant": "Sign change counting has boundary cases (zero signs) that random tests hit rarely.", "anchors": ["libeantic/src/fmpz_poly_extra/num_real_roots_0_1_sturm.c", "libeantic/src/fmpz_poly_extra/num_real_roots_0_1_vca.c", "libeantic/src/fmpz_poly_extra/num_real_roots_vca.c"]}
{"id": "C27", "title": "Buffers for isolated roots suffice", "statement": "The arrays sized by the documented upper bounds are large enough for all roots and intervals written by the isolation functions: at most Descartes-bound many entries are ever produced.", "quantifier": "all squarefree polynomials, all recursion trees", "why_tests_cant": "Memory safety over every recursion tree.", "anchors": ["libeantic/src/fmpz_poly_extra/isolate_real_roots.c", "libeantic/src/renf/set_embeddings_fmpz_poly.c"]}
{"id": "C28", "title": "Affine rescaling", "statement": "_fmpz_poly_scale_0_1_fmpq(p, len, a, b) replaces p by a nonzero constant multiple of p(a + (b-a) x), so roots in (0,1) of the result correspond to roots of p in (a,b) with the same multiplicities.", "quantifier": "all polynomials and rationals a<b", "why_tests_cant": "Universal over polynomials and rationals, including negative and equal denominators.", "anchors": ["libeantic/src/fmpz_poly_extra/scale_0_1_fmpq.c"]}
{"id": "C29", "title": "Squarefree part", "statement": "fmpz_poly_squarefree_part returns a squarefree polynomial with exactly the same complex (hence real) roots.", "quantifier": "all integer polynomials", "why_tests_cant": "Universal over polynomials.", "anchors": ["libeantic/src/fmpz_poly_extra/squarefree_part.c"]}
{"id": "C30", "title": "Existence of a real root", "statement": "fmpz_poly_has_real_root returns a true value exactly when the polynomial has a real root.", "quantifier": "all nonzero integer polynomials", "why_tests_cant": "Several shortcut tests; each must be exact for all inputs.", "anchors": ["libeantic/src/fmpz_poly_extra/has_real_root.c"]}
{"id": "C31", "title": "Parsing rational polynomials", "statement": "fmpq_poly_set_str_pretty maps every string made of signed monomials with rational coefficients, powers and optional blanks to the sum of these monomials, and rejects strings with an unknown variable or a malformed coefficient without a result.", "quantifier": "all strings; all lists of monomials, spacings and variable names", "why_tests_cant": "Infinite language.", "anchors": ["libeantic/src/fmpq_poly_extra/set_str_pretty.c"]}
{"id": "C32", "title": "Text round trip of elements", "statement": "Reading back the text printed for an element (algebraic form with optional numerical approximation, bare integers) into the same field yields an equal element.", "quantifier": "all elements of all fields, all variable names accepted", "why_tests_cant": "Infinite set of elements and names.", "anchors": ["libeantic/srcxx/renf_elem_class.cpp: renf_elem_class(const renf_class&, const std::string&), operator<<, operator>>", "libeantic/src/renf_elem/get_str_pretty.c"]}
{"id": "C33", "title": "Mixed-field arithmetic", "statement": "The C++ operators +, -, *, /, and their compound forms on elements with different parents give the real sum, difference, product, quotient if at least one operand is rational (and, when strict checks are switched on in the environment, one parent is the trivial field): in the parent of the left operand if the right one is rational, otherwise in the parent of the right operand. Otherwise they throw an exception. No such operation combines raw data of two different fields.", "quantifier": "all pairs of elements and parents", "why_tests_cant": "The case analysis on parents, rationality and integrality must be complete for every operand pair.", "anchors": ["libeantic/srcxx/renf_elem_class.cpp: coerce, binop, floordiv"]}
{"id": "C34", "title": "Mixed-field comparison and hashing", "statement": "As long as refinements keep the chosen root in the enclosure of the field (C14), operator== and operator< on elements with the same or different parents agree with the real numbers whenever they return, and elements that compare equal have equal hashes.", "quantifier": "all pairs of elements and parents, all embedding precisions", "why_tests_cant": "Hash consistency quantifies over equal pairs and all refinement histories.", "anchors": ["libeantic/srcxx/renf_elem_class.cpp: operator==, operator<, hash"]}
{"id": "C35", "title": "Native integer operands", "statement": "Construction from, assignment of, arithmetic and comparison with every C++ integer type use exactly the mathematical value of the integer, for all widths and signs.", "quantifier": "all integer types and all their values", "why_tests_cant": "64-bit ranges.", "anchors": ["libeantic/srcxx/renf_elem_class.cpp: maybe_fmpz, binop_maybe_fmpz, relop_maybe_fmpz"]}
{"id": "C36", "title": "Integer powers", "statement": "renf_elem_class::pow(int e) equals the e-th power for every int e (for negative e the inverse power, provided the element is nonzero).", "quantifier": "all elements and all ints", "why_tests_cant": "INT_MIN and 0 are boundary cases among 2^32 exponents.", "anchors": ["libeantic/srcxx/renf_elem_class.cpp: pow"]}
{"id": "C37", "title": "Numerator, denominator, coefficients", "statement": "den() is the least positive integer d with d*x having integer coefficients on the power basis, num_vector() has exactly degree entries which are the coefficients of d*x, num_content() is their gcd, and for a rational element num() and den() are its numerator and denominator in lowest terms.", "quantifier": "all elements of all fields", "why_tests_cant": "Universal over elements; three storage layouts.", "anchors": ["libeantic/srcxx/renf_elem_class.cpp: num, den, num_vector, num_content"]}
{"id": "C38", "title": "Field registry (single threaded)", "statement": "renf_class::make returns the same object for equal fields while one is alive, a returned pointer stays valid exactly as long as a user handle or an element refers to it, and a field is destroyed exactly once.", "quantifier": "all sequences of make, copy, release, element creation and destruction", "why_tests_cant": "All histories of reference counting operations.", "anchors": ["libeantic/srcxx/renf_class.cpp: make, intrusive_ptr_add_ref, intrusive_ptr_release"]}
{"id": "C39", "title": "Field registry (threads)", "statement": "No interleaving of renf_class::make and of releasing handles in different threads lets a thread hold a pointer to a destroyed field.", "quantifier": "all interleavings of any number of threads", "why_tests_cant": "Scheduling windows are a few instructions wide.", "anchors": ["libeantic/srcxx/renf_class.cpp: make, intrusive_ptr_release"]}
{"id": "C40", "title": "Serialization round trip", "statement": "Saving a sequence of elements to an archive and loading it yields equal elements in the same order, elements that shared a field share it again, each field is stored once.", "quantifier": "all sequences of elements over any number of fields", "why_tests_cant": "All sequences; identifier allocation depends on the history.", "anchors": ["libeantic/e-antic/cereal.hpp"]}
{"id": "C41", "title": "Adding a rational constant to a polynomial", "statement": "fmpq_poly_add_fmpq(res, poly, c) stores poly + c in canonical form (positive denominator coprime to the content, nonzero leading coefficient), also when res aliases poly.", "quantifier": "all canonical polynomials and rationals", "why_tests_cant": "Canonical form is a gcd statement over all inputs.", "anchors": ["libeantic/upstream/patched/fmpq_poly_add_fmpq.c"]}
{"id": "C42", "title": "Immutability flag", "statement": "In a checking build, an embedding refinement attempted while the field is flagged immutable is stopped by an assertion, and a refinement never leaves the flag set; set_immutable returns the previous value.", "quantifier": "all call sequences and both build modes", "why_tests_cant": "Histories of flag operations and refinements.", "anchors": ["libeantic/src/renf/set_immutable.c", "libeantic/src/renf/refine_embedding.c"]}
{"id": "C43", "title": "Queries do not change values", "statement": "As long as refinements keep the chosen root in the enclosure of the field (C14), sign, comparison, floor, ceiling, conversion and printing leave the exact value of all elements unchanged, and the answers do not depend on which queries were made before.", "quantifier": "all interleavings of queries and updates", "why_tests_cant": "Hidden mutable precision state makes results history dependent in principle.", "anchors": ["libeantic/src/renf_elem/{sgn,cmp,cmp_fmpq,get_d,get_arb,fdiv}.c"]}
{"id": "C44", "title": "Queries terminate", "statement": "Sign, comparison with an element and with a rational, floor, ceiling and conversion to a ball return after finitely many refinements on every element, provided the field refinement does and ball arithmetic converges as precision grows.", "quantifier": "all elements, all convergent roundings", "why_tests_cant": "Termination over unboundedly small values.", "anchors": ["libeantic/src/renf_elem/{sgn,cmp,cmp_fmpq,floor_ceil,get_arb}.c"]}
{"id": "C45", "title": "Condition numbers bound the loss of precision", "statement": "fmpz_poly_relative_condition_number_2exp(c, p, x, prec), when it reports success, sets c so that |p_0| + |p_1||t| + ... + |p_n||t|^n < 2^c for every t in the ball x.", "quantifier": "all polynomials, balls and precisions", "why_tests_cant": "Universal over the ball and over coefficient sizes beyond the working precision.", "anchors": ["libeantic/src/fmpz_poly_extra/relative_condition_number_2exp.c"]}
{"id": "C46", "title": "Assignment, copy, move, swap of C++ elements", "statement": "Copying and copy-assigning preserve the value and parent for every combination of parents and self-assignment; swap exchanges values and parents, moving transfers the value and parent; conversion to another field preserves the value or throws.", "quantifier": "all pairs of elements and parents including self", "why_tests_cant": "Combinations of aliasing and parent changes with reference counting.", "anchors": ["libeantic/srcxx/renf_elem_class.cpp: constructors, operator=, swap"]}
{"id": "C47", "title": "All real embeddings", "statement": "renf_set_embeddings_fmpz_poly enumerates one field per real root of the irreducible polynomial, with each embedding at a different root.", "quantifier": "all irreducible integer polynomials", "why_tests_cant": "Depends on isolation for every polynomial.", "anchors": ["libeantic/src/renf/set_embeddings_fmpz_poly.c"]}
{"id": "C48", "title": "Floor division of elements", "statement": "floordiv(x, y) returns floor(x / y) for all elements x and nonzero y whose parents agree or one of which is rational, and throws an exception for other pairs.", "quantifier": "all pairs of elements and parents", "why_tests_cant": "The case analysis on parents and rationality must be complete for every operand pair.", "anchors": ["libeantic/srcxx/renf_elem_class.cpp: floordiv"]}
{"id": "C49", "title": "Programs using the C++ interface", "statement": "As long as refinements keep the chosen roots in the enclosures of the fields (C14): in every program that uses the C++ element interface as documented, every call up to the first exception returns what exact real arithmetic gives or throws a documented exception; no element is used after its release, released twice, leaked, or combined with a field it was not made for, and when all elements are destroyed no memory is left. (Memory after exceptions: C56.)", "quantifier": "all finite sequences of calls, all fields, all elements, all answers of earlier calls", "why_tests_cant": "Quantifies over all programs.", "anchors": ["libeantic/srcxx/renf_elem_class.cpp"]}
{"id": "C50", "title": "Moved-from elements", "statement": "A moved-from element can be destroyed, assigned to, swapped, moved again and copied, like every object of a regular C++ type.", "quantifier": "all programs that move elements", "why_tests_cant": "Quantifies over histories.", "anchors": ["libeantic/srcxx/renf_elem_class.cpp: constructors, operator=, swap"]}
{"id": "C51", "title": "Reading several elements from a stream", "statement": "Extracting n times with operator>> from a stream that contains the texts of n elements separated by white space yields these elements in order; extraction from a stream without a text, or without a field attached to it, is reported as an error.", "quantifier": "all sequences of elements and separators", "why_tests_cant": "Depends on what each extraction leaves in the stream, for every sequence.", "anchors": ["libeantic/srcxx/renf_class.cpp: operator>>"]}
{"id": "C52", "title": "Making a field from text", "statement": "renf_class::make(minpoly, gen, emb, prec) returns a field whose polynomial is the one written in minpoly, whose generator is called gen and is the root of the polynomial in the ball written in emb, at precision prec; it throws std::invalid_argument if minpoly is not a polynomial in gen, emb is not a ball, or the ball does not isolate a root. make() without arguments returns the rational numbers.", "quantifier": "all texts, names, balls and precisions", "why_tests_cant": "Quantifies over all texts and polynomials and depends on refinement staying at the root.", "anchors": ["libeantic/srcxx/renf_class.cpp: renf_class::make, renf_class::construction"]}
{"id": "C53", "title": "Integer polynomials from text", "statement": "fmpz_poly_set_str_pretty(p, s, var) sets p to the polynomial with integer coefficients written in s, whatever p was before, and reports failure for any other text.", "quantifier": "all texts, all earlier contents of p", "why_tests_cant": "Depends on the earlier contents of the output variable.", "anchors": ["libeantic/src/fmpz_poly_extra/set_str_pretty.c"]}
{"id": "C54", "title": "Text conversion stays within its buffers", "statement": "Reading a polynomial from any NUL terminated string, and printing any field or element with any flags, reads and writes only within the strings and buffers involved, returns, and does not depend on the contents of fresh memory.", "quantifier": "all strings, all lengths of texts, all contents of fresh memory", "why_tests_cant": "Buffer overruns and reads of indeterminate bytes depend on lengths and memory contents.", "anchors": ["libeantic/src/fmpq_poly_extra/set_str_pretty.c", "libeantic/src/renf/get_str.c", "libeantic/src/renf_elem/get_str_pretty.c"]}
{"id": "C55", "title": "Refinement of an embedding returns", "statement": "renf_refine_embedding(nf, prec) returns for every field and every precision, with an enclosure of the same root that has at least prec correct bits.", "quantifier": "all fields of degree at least two, all enclosures of the root, all precisions that fit in a word, all roundings of the ball arithmetic", "why_tests_cant": "Convergence of a Newton iteration with bisection as fallback, under rounding, for every polynomial and every start; tests see only starts that converge.", "anchors": ["libeantic/src/renf/refine_embedding.c", "libeantic/src/fmpz_poly_extra/newton_step_arb.c", "libeantic/src/fmpz_poly_extra/bisection_step_arb.c"]}
{"id": "C56", "title": "Exceptions leave everything as it was", "statement": "When a call on elements throws an exception, every variable of the program still holds the value and the field it had before the call, no variable is half constructed, no storage is lost or released twice, and the program can catch the exception and go on; all later answers are those of exact arithmetic in which the failed call did nothing.", "quantifier": "all programs (lists of calls of the C++ interface) that catch exceptions, all states they reach, all places where a call can throw", "why_tests_cant": "The states at which exceptions leave a call depend on the whole history and on the fields involved; leaks and half-built objects are only seen later or not at all.", "anchors": ["libeantic/srcxx/renf_elem_class.cpp", "libeantic/e-antic/renf_elem_class.hpp"]}
{"id": "C57", "title": "Threads in an immutable field", "statement": "After renf_set_immutable(nf, 1), any number of threads can call functions on elements of the field at the same time, as long as no thread assigns to an element that another thread uses: there is no data race, every call returns what it would return if its thread were alone, and a call that would have to refine the field fails properly (assertion) instead.", "quantifier": "all numbers of threads, all programs of the threads, all interleavings of their accesses to memory, all elements and all immutable fields", "why_tests_cant": "A data race shows on a vanishing fraction of the schedules, and its effects depend on the schedule.", "anchors": ["libeantic/src/renf/set_immutable.c", "libeantic/src/renf/refine_embedding.c: assert", "libeantic/src/renf_elem/*.c", "ChangeLog: 316-321"]}
{"id": "C58", "title": "All operators with numbers of every type", "statement": "As long as refinements keep the chosen roots in the enclosures of the fields (C14): for elements x, y and every short, int, long, long long (signed or unsigned), mpz_class or mpq_class n, the relations ==, !=, <, >, <=, >= in x o y, x o n and n o x return the truth value for the real numbers (x o y throws when the parents differ and neither is rational), and x + n, n + x, x - n, n - x, x * n, n * x, x / n, n / x return the exact result without changing x and never throw, as elements of the parent of x, except that n - x and n / x for rational x are elements of the trivial field.", "quantifier": "all elements, all fields, all number types and values, both operand orders, all operators", "why_tests_cant": "None of these operators is written out: they come from a template library, for ten number types and both orders. A wrong derivation (e.g. from > instead of <) shows only for some operands, and the type conversions only at the ends of the ranges.", "anchors": ["libeantic/e-antic/renf_elem_class.hpp: boost::ordered_field_operators", "libeantic/srcxx/renf_elem_class.cpp: operator==, operator<, operator>, operator+=, operator-=, operator*=, operator/="]}
{"id": "C59", "title": "Random polynomials, fields and elements", "statement": "fmpz_poly_randtest_irreducible(p, state, len, bits) gives a polynomial with at most len coefficients below 2^bits in absolute value that is irreducible over the rational numbers if it is not constant; renf_randtest(nf, state, len, prec, bits) with len >= 2 returns a field with such a polynomial, embedded at one of its real roots, and renf_elem_randtest an element with a correct enclosure.", "quantifier": "all answers of the random number generator, all lengths, precisions and numbers of bits", "why_tests_cant": "The generators are the source of the inputs of the other tests; what they can produce depends on every answer of the random state.", "anchors": ["libeantic/src/fmpz_poly_extra/randtest_irreducible.c", "libeantic/src/renf/randtest.c", "libeantic/src/renf_elem/randtest.c", "libeantic/src/renf/degree.c"]}
{"id": "C60", "title": "Deleting a field after all its uses", "statement": "Threads may use a field, copy, hand over and release pointers to it (elements hold such pointers) as they like, each pointer being used by one thread at a time: when the last pointer is released and the field deleted, every earlier access to the field by any thread happens before the deletion in the sense of the C++ memory model, the field is deleted once, and it is not touched afterwards.", "quantifier": "all executions, any number of threads, all orders of copies, hand-overs and releases", "why_tests_cant": "A missing synchronisation is invisible on common hardware and in most schedules; a race detector sees only the executions that are tried.", "anchors": ["libeantic/srcxx/renf_class.cpp: intrusive_ptr_add_ref, intrusive_ptr_release, ~renf_class"]}
{"id": "C61", "title": "Making a field twice gives the same field", "statement": "renf_class::make returns a field with the generator name, the polynomial and the root asked for. If the program has a pointer to such a field already, make returns this very object, so that at all times there is one object per name, polynomial and root, and elements of equal fields are in the same field; other fields are unchanged. A field lives exactly as long as there are pointers to it; zero(), one() and gen() are zero, one and the root at all times, whatever has been refined meanwhile.", "quantifier": "all sequences of make, copies, releases and computations in the fields (which refine the enclosures that make compares), all bucket functions of the hash table", "why_tests_cant": "Fields are hashed by the double nearest to their generator and compared by overlap of enclosures that shrink over time; tests see a few histories with well separated roots.", "anchors": ["libeantic/srcxx/renf_class.cpp: fields_hasher, fields_equality, renf_class::make, renf_class::renf_class, intrusive_ptr_add_ref, intrusive_ptr_release, zero, one, gen", "libeantic/src/renf/equal.c", "libeantic/src/renf_elem/gen.c"]}
{"id": "C62", "title": "C++ programs come to an end", "statement": "A program that makes elements of several fields, computes with them, compares them (also with numbers and across fields), rounds, divides with floor and converts them to double comes to an end: every call returns, or throws where the documentation says so; the values returned are those of exact arithmetic and the objects are in order at the end.", "quantifier": "all families of fields (including the trivial one), all programs of calls of the C++ layer, all elements, every machine word size", "why_tests_cant": "Calls of the C++ layer that evaluate numerically loop until an enclosure is good enough, in whichever field the numbers happen to be compared; whether the loops end depends on all the numbers.", "anchors": ["libeantic/srcxx/renf_elem_class.cpp: operator<, sgn, floor, ceil, floordiv, explicit operator double", "libeantic/src/renf/refine_embedding.c", "libeantic/src/renf_elem/cmp.c"]}
{"id": "C63", "title": "No memory lost, nothing used before it is initialised", "statement": "On every path through every function, including error returns and exceptions: an object that owns memory (integer, rational, ball, polynomial, vector, string, field, element) is initialised before it is used, is not initialised while it owns memory, is released exactly once and with the length it was made with; when the function returns, nothing is left but the objects of the caller and what the function is to produce; when it throws, everything is as before the call.", "quantifier": "all functions of the C library and those of the C++ layer that handle C objects, all paths through them (every choice of branches, every number of turns of the loops)", "why_tests_cant": "A leak or a use of uninitialised memory on an error path shows only if a test takes that path under a checker; the paths are unboundedly many because of the loops.", "anchors": ["libeantic/src/**/*.c", "libeantic/srcxx/renf_elem_class.cpp", "libeantic/srcxx/renf_class.cpp"]}
{"id": "C64", "title": "No access outside of an array", "statement": "Functions that walk over the coefficients of polynomials, and functions that store roots, embeddings or coefficients in arrays of the caller, access only the entries that exist: root bounds, Descartes' rule, isolation of real roots into arrays with as many entries as fmpz_poly_num_real_roots_upper_bound says or as the degree (or NULL pointers, to count), scaling, evaluation, condition numbers, absolute values and renf_set_embeddings_fmpz_poly with an array of lim fields. Entries behind those that are stored keep their contents, and the machine words in the root bounds do not overflow.", "quantifier": "all polynomials that fit into memory, all contents of the arrays and of uninitialised memory, all numbers of iterations, all positions of the coefficients in a larger block", "why_tests_cant": "An access one entry behind an array usually has no visible effect; which entries are accessed depends on the signs and sizes of all coefficients, and the isolation reverses and shifts parts of the arrays in place.", "anchors": ["libeantic/src/fmpz_poly_extra/isolate_real_roots.c", "libeantic/src/fmpz_poly_extra/positive_root_upper_bound_2exp.c", "libeantic/src/fmpz_poly_extra/descartes_bound_0_1.c", "libeantic/src/fmpz_poly_extra/descartes_bound.c", "libeantic/src/fmpz_poly_extra/scale_0_1_fmpq.c", "libeantic/src/fmpz_poly_extra/has_real_root.c", "libeantic/src/fmpz_poly_extra/evaluate.c", "libeantic/src/fmpz_poly_extra/relative_condition_number_2exp.c", "libeantic/src/fmpz_poly_extra/abs.c", "libeantic/src/renf/set_embeddings_fmpz_poly.c", "libeantic/src/renf_elem/get_cfrac.c", "libeantic/src/renf/randtest.c", "libeantic/src/fmpz_poly_extra/num_real_roots_0_1_sturm.c"]}
{"id": "C65", "title": "Elements in SageMath", "statement": "Converting an element to SageMath gives its coefficients with respect to the powers of the generator, as many as the degree; converting coefficients of SageMath gives the element with their value; the two conversions are inverse to each other. Comparisons of Python objects are those of the real numbers, QQ(x) and ZZ(x) give the number or raise an exception exactly if it is not rational or not an integer, and pickling an element and loading it again gives an equal one.", "quantifier": "all fields, all elements, all lists of coefficients up to the degree, all six comparison operators", "why_tests_cant": "Numerators and denominators are padded, divided and reassembled in every degree; tests use a few elements of quadratic fields.", "anchors": ["pyeantic/src/pyeantic/real_embedded_number_field.py: RealEmbeddedNumberFieldElement, CoercionNumberFieldRenf"]}
{"id": "C66", "title": "Fields in SageMath", "statement": "Converting an embedded field to SageMath gives the number field with the same polynomial and generator name, embedded at the same root, and converting it back gives the same field.", "quantifier": "all fields, all polynomials, all names, all enclosures, all roots", "why_tests_cant": "The conversion takes the printed field apart with regular expressions and searches the root among the roots of the polynomial by overlap of balls with limited precision; tests use monic polynomials with well separated roots.", "anchors": ["pyeantic/src/pyeantic/real_embedded_number_field.py: RealEmbeddedNumberField._normalize_embedding, RealEmbeddedNumberField.__init__", "pyeantic/src/pyeantic/cppyy_eantic.py"]}
{"id": "C67", "title": "Conversion from realalg", "statement": "A field of realalg becomes the field with the same polynomial, embedded at the same root, and an element of realalg becomes the element with the same coefficients: the text made for a list of coefficients is read as this polynomial, and the ball made for an interval contains the interval.", "quantifier": "all lists of coefficients, all generator names, all intervals and precisions", "why_tests_cant": "The text is put together from signed coefficients in one format and parsed by another program; the interval goes through floating point numbers whose rounding errors depend on the size of the root.", "anchors": ["pyeantic/src/pyeantic/realalg_conversion.py: poly_string, realalg_interval_to_arb, realalg_nf_to_eantic, realalg_nf_elem_to_eantic"]}
{"id": "C68", "title": "Programs that compute, print and read", "statement": "A program that mixes arithmetic, comparisons, to_string with any flags, operator<<, hashing, construction from strings and operator>> in any order behaves like a program on exact real numbers with an input and an output stream: the answers are those of exact arithmetic; what is printed is the integer, or a text of the number followed by its nearest double; reading takes one parenthesised group or the characters up to the next white space, leaves the rest, and yields the number the text denotes; the hash depends on the nearest double only; an exception is thrown exactly for text that denotes no number, an exhausted stream or a parenthesis that is not closed. What one program prints another one reads back as the same number, whatever follows after white space. The program does not run forever.", "quantifier": "all programs (any length, any number of variables and fields), all contents of the streams, all numbers, all histories of the precision of the fields", "why_tests_cant": "Printing refines the enclosures of the field as a side effect, so what is printed and hashed could depend on the history; texts interact with whatever stands next to them in the stream.", "anchors": ["libeantic/srcxx/renf_elem_class.cpp: to_string, operator<<, operator>>, renf_elem_class(const renf_class&, const std::string&)", "libeantic/srcxx/renf_class.cpp: set_pword, get_pword", "libeantic/src/renf_elem/get_str_pretty.c", "libeantic/src/renf_elem/get_d.c", "libeantic/e-antic/renf_elem_class.hpp: std::hash"]}
{"id": "C69", "title": "The field attached to a stream", "statement": "After k.set_pword(is), every is >> x makes an element of the field k, whatever happens to other fields and streams in between, until another field is attached; a failed read leaves nothing behind. The stream does not own the field: reading is legitimate exactly while the program has a pointer to the field or an element of it.", "quantifier": "all programs that make, copy and release fields and elements, attach fields to any number of streams and read, in any order", "why_tests_cant": "The address in the stream is not counted as a pointer, so whether a read uses a deleted object depends on the whole history of pointers; a test that keeps the field in a variable never sees it.", "anchors": ["libeantic/srcxx/renf_class.cpp: set_pword, get_pword, operator>>, intrusive_ptr_add_ref, intrusive_ptr_release"]}
{"id": "C70", "title": "JSON archives", "statement": "Elements written to a JSON archive are read back, without names or with the names under which they were written, also from the files of older versions that the library promises to accept; a file that is not such an archive is reported by an exception.", "quantifier": "all sequences of elements of any fields, all choices of names, all JSON files", "why_tests_cant": "The file is text that anyone can write or edit; a test has a few files. Whether a field can be resolved depends on everything that was read before.", "anchors": ["libeantic/e-antic/cereal.hpp: getId, load, save"]}
{"id": "C71", "title": "Threads with fields of their own", "statement": "Threads that share nothing, where every thread makes its own fields with renf_class::make, computes with its own elements of them and drops them, do not interfere: no two threads access the same memory at the same time with one of them writing, whatever the other threads make; each thread gets the answers that it would get alone; and no thread waits forever for the others.", "quantifier": "all numbers of threads, all fields they make, all programs, all interleavings of their accesses to memory", "why_tests_cant": "All fields of the process are in one registry, and looking for a field reads the fields of other threads; whether this meets a write is a matter of the schedule, and of fields made elsewhere in the program.", "anchors": ["libeantic/srcxx/renf_class.cpp: make, fields_equality, fields_hasher, intrusive_ptr_release", "libeantic/src/renf/equal.c", "libeantic/src/renf/refine_embedding.c"]}
{"id": "C72", "title": "Threads that compute with rational numbers", "statement": "Elements made from integers and fractions can be used in any number of threads without synchronisation, as long as no thread assigns to an element that another one uses, although all of them belong to one field object: there is no data race, the field is never written, asking for sign, comparisons, floor, quotients and doubles does not write the elements, and every answer is that of exact arithmetic.", "quantifier": "all numbers of threads, all programs of the threads without explicit refinement and without conversion to a ball of Arb, all interleavings of their accesses to memory, all rational numbers", "why_tests_cant": "In other fields the same functions write to the field and to their arguments (C57); that they do not here depends on every path through them.", "anchors": ["libeantic/srcxx/renf_class.cpp: make()", "libeantic/src/renf_elem/sgn.c", "libeantic/src/renf_elem/cmp.c", "libeantic/src/renf_elem/cmp_fmpq.c", "libeantic/src/renf_elem/rounding_template.h", "libeantic/src/renf_elem/fdiv.c", "libeantic/src/renf_elem/get_d.c", "libeantic/src/renf_elem/get_cfrac.c"]}
{"id": "C73", "title": "Assertions do not change results", "statement": "A program linked against the library compiled with assertions either stops at an assertion or does exactly what it does with the library compiled without them: the same values, the same exceptions at the same calls, the same texts and hashes, the same objects and enclosures afterwards.", "quantifier": "all families of fields, all programs of calls of the C++ layer with texts and streams, caught and uncaught exceptions, all memories to start from", "why_tests_cant": "Some assertions have side effects (they set a flag of the field) or call functions of the library; tests are run with one build, users link to the other.", "anchors": ["libeantic/src/renf/refine_embedding.c: renf_refine_embedding", "libeantic/src/renf/set_immutable.c", "libeantic/src/renf_elem/cmp_fmpq.c", "libeantic/srcxx/renf_elem_class.cpp: num, explicit operator mpz_class, explicit operator mpq_class, to_string, renf_elem_class(std::shared_ptr<const renf_class>, const std::vector<...>&)"]}
{"id": "C74", "title": "Elements and numbers of Python", "statement": "In pyeantic, +, -, * and / between an element and an element, an int of Python, an mpz or mpq of gmpy2 or an Integer or Rational of SageMath, on either side, unary minus, ** with an integer, and renf_elem made from such numbers, from elements and from lists of coefficients give the element with the exact value. Otherwise there is a Python exception and the operands are as before; never a wrong value.", "quantifier": "all numbers of all these kinds and sizes, all elements, both sides of the operators, all lists of coefficients not longer than the degree, all states of the program, programs of any length with caught exceptions", "why_tests_cant": "Numbers go through decimal text, which GMP reads with a base that it finds out from the first characters, and through machine integers of various sizes that cppyy selects; a test has a few small numbers.", "anchors": ["pyeantic/src/pyeantic/cppyy_eantic.py: enable_arithmetic, for_eantic, make_renf_elem_class", "libeantic/e-antic/cppyy.hpp: add, sub, mul, truediv, neg"]}
{"id": "C75", "title": "Results do not depend on the precision", "statement": "The precision of a field, the quality of the enclosure of its generator, how the field and the elements were refined by earlier calls, and the options the library was compiled with do not affect results: the same program on variables with the same values gets the same answers from all queries, comparisons, conversions, coefficients, strings and hashes, prints the same characters, the same calls throw, and the variables have the same values at the end.", "quantifier": "all families of fields, all pairs of precisions, enclosures, histories and builds, all programs of calls of the C++ layer and all Python programs with caught exceptions", "why_tests_cant": "Every precision and every history takes another path through the numerical evaluation; a test compares a few precisions on a few elements.", "anchors": ["libeantic/e-antic/renf_class.hpp: make (documentation of prec)", "libeantic/srcxx/renf_elem_class.cpp", "libeantic/src/renf_elem/cmp.c", "libeantic/src/renf_elem/get_d.c", "libeantic/src/renf_elem/rounding_template.h"]}
{"id": "C76", "title": "Programs of SageMath", "statement": "A program that works with elements of a RealEmbeddedNumberField (made from elements of the number field, arithmetic, comparisons, conversions to QQ, ZZ and back to the number field, printing, hashes, pickling, and variables that go out of scope) computes as with exact real numbers: every comparison, rational, integer, list of coefficients, text and hash is the one of the exact values, elements with the same value have the same hash, conversions of numbers that are not rational or not integers are exceptions after which everything is as before, no other element is affected, nothing is left in memory, and the program comes to an end.", "quantifier": "all families of fields, all programs of such operations of any length with caught exceptions, all histories of refinements before it", "why_tests_cant": "Every operation leaves refined enclosures and shared fields behind on which the next one builds; a test runs a few short programs.", "anchors": ["pyeantic/src/pyeantic/real_embedded_number_field.py: RealEmbeddedNumberFieldElement, CoercionNumberFieldRenf", "libeantic/e-antic/cppyy.hpp"]}
