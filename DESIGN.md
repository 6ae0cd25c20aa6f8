# Formal model of libeantic (flatsurf/e-antic): design

The model lives in `/verif/lean/Verif`. The code modelled is `/repo/libeantic`
(C library `src/`, C++ layer `srcxx/`, headers `e-antic/`, the patched FLINT
function in `upstream/patched`). It is read as text; nothing is compiled or run.

## Shape of the model

* **External libraries are parameters with contracts.** FLINT/Arb/Antic are not
  part of the repository. Where libeantic only passes values through, we model
  the external function by a parameter with an explicit contract, collected in a
  structure (`ArbOps`: every ball operation encloses; `NfOps`: exact number
  field arithmetic returns the canonical representative of the exact result).
  Every contract structure has an instance, so theorems over it are not vacuous.
  Where libeantic looks *inside* the external data (storage layout of
  `nf_elem_t`, coefficient arrays, signs of coefficients, bit lengths), the data
  and the function are modelled concretely.
* **Reals are the specification.** Exact values of elements are real numbers
  `val e = (sum c_i alpha^i)/den`; specifications are stated with Mathlib's
  `Polynomial`, `IsRoot`, `Int.floor`, `SignType`/`<`.
* **Mutation** through pointers becomes returning the new state. Queries that
  refine precision return the new field and element.
* **Loops without a bound** take fuel; `none` means "still running". Results are
  stated for every fuel; termination is a separate theorem.
* **Undefined behaviour, aborts and exceptions** are distinct outcomes
  (`Res.abort`, `Res.ub`, `Res.throw`).
* If the code violates a property, the negation is proved on a concrete witness
  (`..._false` / `..._counterexample`) and the part that does hold is `..._partial`.

## Plan per property

| id | modelled | proof |
|----|----------|-------|
| C01 | all element operations over a store of elements, with enclosure | invariant by induction over the operation list, for every `ArbOps` |
| C02 | each arithmetic entry point over `NfOps` | value equation per operation, aliasing through the store |
| C01 | after a refinement the enclosure of the field of `x^2+3x+1` misses the chosen root and the floor of the generator is -3 instead of -1 (`C01_counterexample`) |
| C03 | `renf_elem_fmpq_div` on the store | negation by witness; partial for aliased `a = c` |
| C04 | `renf_elem_gen` for the three layouts | negation for degree 1; partial for degree >= 2 |
| C05-C07 | the sgn/cmp/cmp_fmpq loops | partial correctness for all fuel from the enclosure invariant |
| C08 | structural predicates on the storage | irreducibility gives linear independence of powers |
| C09 | floor/ceil template including raw storage | correct for all well-formed storage except stale zero; witness for stale zero |
| C10 | fdiv loop | case analysis on the integer contained in the quotient ball |
| C11 | get_arb loop | containment for all fuel |
| C12 | get_d loop with an abstract monotone rounding; concrete rounding for the rational path | squeeze by monotonicity; witness for double rounding |
| C13 | cfrac loop | induction over n against the Gauss map specification |
| C14-C16 | Newton, bisection, refine loop | mean value theorem, intermediate value theorem, loop invariant |
| C17 | Horner evaluation over balls | induction over coefficients |
| C18 | check_unique_real_root | monotonicity / root counting; witness for rim roots; completeness (`C18_accepts`) from bounds on the polynomial and its derivative around the root |
| C19 | renf_equal | overlap of balls; witness of two roots |
| C20 | init_nth_root | enclosure of the real root; at high precision the enclosure is in the basin of C14 |
| C21-C22 | Descartes loops on coefficient lists | loop = sign variations, Mathlib rule of signs |
| C23 | local-max root bound with exact integer logs | negation by witness; partial under sign hypothesis |
| C24-C28 | VCA recursion, scaling | invariant over the bisection tree |
| C29 | gcd with derivative | via contract of gcd |
| C30 | has_real_root decision list | case analysis, intermediate value theorem |
| C31-C32 | parser over `List Char` | grammar soundness by induction over monomials |
| C33-C37 | C++ operators, coercion, integer widths | decision logic over outcomes |
| C38 | registry state machine, sequential | invariant by induction over histories |
| C39 | registry state machine, interleaved | reachable use-after-free witness; partial for the sequential scheduler |
| C40 | archive encoder/decoder | round trip by induction over the sequence |
| C41 | patched fmpq_poly_add_fmpq | gcd lemmas |
| C42 | immutability flag machine | invariant over histories |
| C43 | exact part of the store under queries | corollary of the refinement theorem |
| C44 | all loops under a convergence contract; whole programs with the modelled refinement (`Spec/Ends`, `Spec/Near`, `Spec/Legal`) | rules for calls that end (`Lemmas/Ends*`): after enough rounds the outcome no longer depends on the cut-off; overflow of a working precision is made visible by `reportOverflow`, and `Lemmas/Agree` shows that this changes nothing else.  `Sizeable` depends on the precision of the field; with enough precision all numbers meet its lower bound (`C44_high_precision`) |
| C45 | condition number with directed rounding | induction; witnesses for a negative leading coefficient and for infinite balls |
| C46 | element handles with optional parent | case analysis |
| C47 | set_embeddings | corollary of C25 (partial) |
| C48 | C++ `floordiv` over the C division | case analysis on parents; witness for two irrational operands of different fields |
| C49 | lists of calls of the C++ interface over a table of fields | induction over the program |
| C50 | moved-from handles | case analysis; witness for copying |
| C51 | `operator>>` over a character stream, repeated | induction over the stream; witnesses |
| C52 | `renf_class::make` over texts | case analysis per attempt, induction over attempts; refinement as in C15; success for small balls from `C18_accepts` and C55 |
| C53 | `fmpz_poly_set_str_pretty` with its output variable | coefficientwise; witness of a nonzero old value |
| C54 | the parser and the printers on byte arrays with explicit bounds | refinement of the parser on strings; invariant per `strcat` |
| C55 | the refinement loop with a quantitative contract of the arithmetic | local bounds near the root by continuity, quadratic decrease for Newton, a factor 3/4 for bisection, induction over radii and doublings; witness of a fixed point |
| C56 | calls whose exceptions carry the memory they leave, unwinding of local objects, a program that catches every exception | representation invariant up to a set of leaked cells, preserved on the throwing exits; induction over the program; witness of a leak; programs come to an end from narrow enclosures as in C62 (`Props/CatchEnds.lean`) |
| C57 | every element function as a tree of its accesses to memory; threads that make the accesses in the order of a schedule | the tree run alone is the function of the other model; accesses stay within the arguments; each thread is where it would be alone (induction over the schedule); witnesses of races and of a wrong sign |
| C58 | the operators that Boost derives from `==`, `<`, `>` and the compound assignments, for ten number types | rules for calls (as C49), one per derived operator |
| C59 | `randtest_irreducible`, the two `randtest`; the random state is the list of its answers | reduction modulo the prime and Gauss's lemma; isolation (C25), then as C47; counterexample |
| C60 | events on one field and the happens-before relation of C++ with the memory orders in the code | where the knowledge of each access goes (induction over the execution); a racy execution |
| C61 | `make` and release with fields as keys, hashed by a double and compared by overlapping enclosures, which work in the fields refines | invariant over histories: registered, alive, held; stored hashes are those of the root; overlap of clear enclosures is equality of roots; witness |
| C62 | the calls of the C++ layer with all loops cut off after `k` rounds, `k` arbitrary | outcome of every call independent of `k` from some `k` on, from the termination of the C queries (C44) and their not throwing; induction over programs; fields of degree one separately (nothing is evaluated) |
| C63 | every function as a program of initialisations, releases and uses of the objects that own memory, conditions left open (`Model/Resource.lean`, produced from the C sources by a translator; `Model/ResourceCxx.lean` by hand) | an abstract interpreter for these programs, proved sound and exact for all paths and any number of turns of the loops; the kernel evaluates it on every function |
| C64 | the loops over coefficient vectors and output arrays with indices, every access checked against the block, `slong` arithmetic of the root bounds checked (`Model/Arrays.lean`, `Model/ArraysMore.lean`, `Model/ArraysLast.lean`) | each loop refines the corresponding list function (induction over the iterations, arrays split at the index); the number of entries written is the number of roots in the window, bounded by Descartes' rule and by the degree; witnesses for the zero polynomial |
| C65 | `RealEmbeddedNumberFieldElement` and the conversion to SageMath as calls of the C++ model; an element of SageMath is its list of coefficients (`Model/Py.lean`) | composition of the triples of the C++ calls; coefficients are unique because the defining polynomial is irreducible; comparisons come to an end from narrow enclosures as in C62 (`Props/PyEnds.lean`) |
| C66 | `_normalize_embedding` on the printed field: the two regular expressions with backtracking, the search of the root among the roots at 53, 64, 128 and 256 bits; `__init__` as a call of `make` (`Model/Py.lean`) | what the patterns match on FLINT's text, by induction over the characters; the right root always overlaps, so a single candidate is the right one; the text of SageMath's polynomials is one that `make` reads (C31); with the invariant of the registry (C61), `make` then returns the object the program already has (`Props/PyRegistry.lean`) |
| C67 | `poly_string`, the interval through doubles, the calls of `make` and of the constructor (`Model/Py.lean`) | the text is one of the grammar of C31; error analysis with relative errors of `2^-53` and absolute errors of `2^-1075`; the exact condition for overflow; a witness with a large root |
| C68 | `TCmd`: the calls of C35 together with `to_string`, `<<`, `>>`, hashing, construction from text, on two streams (`Model/TextProg.lean`) | each call refines a step on exact numbers and streams; induction over programs; what is printed is a token of the stream whatever follows; termination from C62; from the texts of the fields on, by C52 (`C68_from_text_partial`) |
| C69 | the registry of C38 with raw addresses in streams (`Model/StreamField.lean`) | invariant of the registry; an object is alive exactly while there are pointers |
| C70 | JSON archives: names, iterators, search (`Model/Json.lean`); cereal's JSON archive is a contract | the records of C40 with names; case analysis of `getId` for every JSON value |
| C71 | threads that make fields, look them up entry by entry, compute one access at a time and drop them (`Model/Concurrent.lean`) | every object belongs to the thread whose polynomial it has (invariant over the interleaving); what one thread sees of the state is a run of that thread alone (simulation, `Lemmas/ConcurrentAlone.lean`), and this run is, call by call, one of the model without threads about which C61 speaks (`Lemmas/Sequential.lean`; needs that refining keeps the number field, which `renf_refine_embedding` does for every Arb); two witnesses of races |
| C72 | the accesses of C57, in fields of degree one | no function writes the field, queries write nothing (by the structure of the code); each thread is where it would be alone |
| C73 | the library with and without assertions (`build`), all calls of the C++ layer with texts | a relation between pieces of code (equal, or the first stops at an assertion) that all constructions of the model respect; the same relation with "is still running" for the bound of the loops |
| C74 | `for_eantic`, the operators and `make_renf_elem_class` of `cppyy_eantic.py`, GMP's reading of numbers (`Model/PyNum.lean`) | the text of a number does not begin with 0; each statement is a call of C++ (C58, C49) or an exception; programs with caught exceptions by induction over the statements (`Spec/PyProg.lean`), leaks counted with C56; they come to an end from narrow enclosures as in C62: the translated calls do not evaluate, the others as in C56 |
| C75 | two libraries with the same fields and different arithmetic, precision, refinement and build (`SameFields`) | both runs follow the exact semantics of C56, which is a function of the values: denominators, coordinates, contents, roundings to doubles are unique; for programs with text of C68 (`StepT`): the printed polynomial is the one of least degree in lowest terms, what is read is unique; Python programs (`PySteps`) likewise |
| C76 | operations of SageMath on elements of one parent (`SageCmd`, `Model/SageProg.lean`), composed of the functions of C65, of the operators of C74, of printing (C32) and of `std::hash`, each in a `try` block; the coercion of other operands to the parent by SageMath is not modelled, it is the operation `make` of a program | every operation keeps `Represents` and has the result of `SageCmd.Step`; induction over programs; termination from narrow enclosures by C65_richcmp_ends, C68 and the induction of C74; results are unique, hence independent of precisions (`C75_sage`), and hashes of equal elements are equal |

`MANIFEST.json` says what became of each row.

## Trusted base

* **Lean 4.33.0's kernel**, and the definitions of Mathlib that the statements use (`Polynomial`, `Real`,
  `Int.floor`, `Multiset.card`, ...).
* **Axioms.** Every theorem depends on at most `propext`, `Classical.choice` and `Quot.sound`. No axiom is
  added; there is no `sorry`, `native_decide`, `bv_decide`, `implemented_by` or `unsafe` in the project.
  `decide +kernel` is used for concrete witnesses; it is evaluated by the kernel.
* **That the model is the code.** Each definition cites the lines it was written from. This reading is
  not checked by a machine. As evidence, `Verif/Upstream/*.lean` evaluates the model (by the kernel) on literal
  inputs of the project's own tests and compares with the outcome those tests require. These are tests of the
  model, not proofs of properties; no claim in `MANIFEST.json` rests on them.
* **The contracts of the external libraries** (next section). They are hypotheses of the theorems or fields
  of structures the theorems quantify over, never axioms. Each has an instance in the project:

| contract | says | instance |
|----------|------|----------|
| `ArbOps` (`Model/Ball.lean`) | for precision at least 2 every ball operation encloses; `arb_set_round` is tight | `exactArb` (no rounding), `fpArb` (30 bit radii, rounded midpoints; `forcedArb_eq` has it in a form the kernel evaluates fast) |
| `ArbOps.Convergent` (`Spec/Converge.lean`) | results shrink with operands and precision; only used by C44 | `fpArb_convergent` |
| `ArbOps.Tight` (`Spec/Tight.lean`) | radii are at most a constant times the exact ones plus a relative rounding error; only used by C55, C44 (end to end) and `C14_near_root_partial` | `fpArb_tight` |
| `NfOps K` (`Model/Nf.lean`) | antic's exact arithmetic returns the canonical representative of the exact result | `cubOps` (executable), `nfOps` (any field), `fastOps` (`Lemmas/FastNf.lean`: computes a result, checks it, and falls back to another instance) |
| `Scale2`, gcd and division of FLINT polynomials | exact results | `Lemmas/Scale2Inst.lean`, `Lemmas/PolyExtra.lean` |
| `FieldInv` (`Spec/Store.lean`) | what refinement preserves; false for some fields (`C01_counterexample`), so the properties that need it say so. `Props/Modelled.lean` has the versions without it: the modelled `renf_refine_embedding`, a small enough first ball | `goodField_inv`, from the modelled `renf_refine_embedding` |
| `Registry` key equality | `renf_equal` decides equality of fields (see C19 for when it does) | `Lemmas/Registry.lean` |
| `Cxx.Lib` | the C functions used by the C++ layer, per field | `CxxDemo.lib` |
| `TextLib.Ok` (`Spec/TextIO.lean`) | text of rationals and doubles can be read back, contains no separator | `textLib_ok` |
| `FieldIO.Ok` (`Spec/Archive.lean`) | `make(construction())` gives the field back | `fieldIO_ok`; derived in part by `C40_restore_partial` and `C40_restore_high_precision_partial` |
| `BallText.Wf`, `.Encloses`, `.Accurate`, `.Exact` (`Spec/Make.lean`) | what `arb_set_str` and `arb_get_str` do with texts of balls | `exists_exact` |
| `PyEnv.Ok` (`Spec/PyNum.lean`) | the overload that cppyy selects for an `int` of Python has the number | `demoPy_ok` |
| `Sage.Ok`, `PlainBalls`, `Nearest`, `Shows` (`Spec/Py.lean`) | SageMath reads FLINT's polynomials, finds each real root once, its balls enclose; the text of a ball has no parenthesis; doubles round to nearest with ties to even; Python's text of a double reads back as it | `realSage_ok`, `exists_plain`, `near_doubles` |

## What is modelled

| files (`libeantic/`) | model |
|-------|-------|
| `src/fmpz_poly_extra/descartes_bound*.c`, `evaluate_at_one.c`, `abs.c` | `Model/Descartes.lean` |
| `src/fmpz_poly_extra/{num_real_roots*,isolate_real_roots}.c` | `Model/Vca.lean`, `Model/Sturm.lean` |
| `src/fmpz_poly_extra/positive_root_upper_bound_2exp.c` | `Model/RootBound.lean` |
| `src/fmpz_poly_extra/scale_0_1_fmpq.c` | `Model/Scale01.lean` |
| `src/fmpz_poly_extra/{squarefree_part,has_real_root}.c` | `Model/PolyExtra.lean` |
| `src/fmp{z,q}_poly_extra/evaluate.c`, `relative_condition_number_2exp.c` | `Model/Field.lean` |
| `src/fmpz_poly_extra/{newton,bisection}_step_arb.c`, `src/renf/refine_embedding.c` | `Model/Refine.lean` |
| `src/fmpq_poly_extra/check_unique_real_root.c`, `src/renf/{init,init_nth_root,init_set,equal,set_embeddings_fmpz_poly,set_immutable}.c` | `Model/Init.lean` |
| `src/fmpq_poly_extra/set_str_pretty.c` | `Model/Text.lean` (strings), `Model/Ptr.lean` (pointers) |
| `src/fmpz_poly_extra/set_str_pretty.c` | `Model/Make.lean` |
| `src/renf_elem/*.c` (setters, arithmetic, predicates) | `Model/Nf.lean`, `Model/Elem.lean` |
| `src/renf_elem/{sgn,cmp,cmp_*,floor_ceil}.c`, `rounding_template.h` | `Model/Query.lean` |
| `src/renf_elem/{fdiv,get_arb,get_cfrac}.c`, `get_d.c` | `Model/Convert.lean`, `Model/GetD.lean` |
| `src/renf_elem/{get_str_pretty,print_pretty}.c` | `Model/TextIO.lean` (the text), `Model/Ptr.lean` (the buffers) |
| `src/renf/get_str.c` | `Model/Ptr.lean` |
| `upstream/patched/fmpq_poly_add_fmpq.c` | `Model/AddFmpq.lean` |
| `srcxx/renf_class.cpp` (registry, pword, `get`) | `Model/Registry.lean`, `Model/StreamField.lean`, `Model/TextIO.lean` |
| `srcxx/renf_class.cpp` (`make`, `construction`) | `Model/Make.lean` |
| `srcxx/renf_elem_class.cpp`, `e-antic/renf_elem_class.hpp` | `Model/Cxx.lean`, `Model/Ops.lean`, `Model/TextIO.lean` |
| the same functions as accesses to memory, for threads | `Model/Access.lean` |
| `e-antic/cereal.hpp` | `Model/Archive.lean`, `Model/Json.lean` |
| `src/fmpz_poly_extra/randtest_irreducible.c`, `src/renf/{randtest,degree}.c`, `src/renf_elem/randtest.c` | `Model/Rand.lean` |
| `srcxx/renf_class.cpp` (registry with its keys, constructor, constants) | `Model/Fields.lean` |
| `srcxx/renf_class.cpp` (making and dropping fields in several threads) | `Model/Concurrent.lean` |
| `srcxx/renf_class.cpp` (memory orders of the reference count) | `Model/MemOrder.lean` |
| all of `src/**/*.c` as users of objects that own memory | `Model/Resource.lean` |
| `srcxx/*.cpp`, the functions that handle C objects | `Model/ResourceCxx.lean` |
| `src/fmpz_poly_extra/{descartes_bound*,positive_root_upper_bound_2exp,isolate_real_roots,num_real_roots_0_1_vca,scale_0_1_fmpq,has_real_root,evaluate,relative_condition_number_2exp,abs,num_real_roots_0_1_sturm}.c`, `src/renf_elem/get_cfrac.c`, `src/renf/randtest.c`, `src/renf/set_embeddings_fmpz_poly.c`, with indices into arrays | `Model/Arrays.lean`, `Model/ArraysMore.lean`, `Model/ArraysLast.lean` |
| `pyeantic/src/pyeantic/real_embedded_number_field.py` (conversions, comparison, pickling), `realalg_conversion.py`, `renf` in `cppyy_eantic.py` | `Model/Py.lean` |

Simplifications that hold throughout:

* numbers: `fmpz`, `fmpq`, `arf` and `mag` are unbounded; midpoints and radii are arbitrary rationals. `slong`
  overflow is modelled where the repository's own arithmetic can reach it (refinement precision, integer
  powers, native operands, exponents in text, root bounds in C64), not for lengths of polynomials.
* memory: allocation succeeds; storage of numbers is not modelled except the coefficient arrays of elements,
  where stale contents are visible to the code (C09).
* threads: the registry is modelled with sequentially consistent interleavings. `renf_class.cpp` uses relaxed
  and release operations without an acquire fence before deletion, so real executions can be worse than C39 says;
  C60 has the C++ memory model, for one field.
  For threads on one field (C57) an access reads or writes a whole element or field; the intermediate enclosures
  that refinement stores are left out (C57 is about executions without refinement, or races at its first write).
  C71 adds the registry to these accesses; counts of references are replaced by the list of pointers there, and addresses are not used twice.
* text: ASCII (bytes above 127 only in `Model/Ptr.lean`), the "C" locale, 64 bit `long`, no NUL characters.
* archives: names of fields in the archive and the branches reading old formats are left out.

## What is not modelled

* `upstream/patched/nf_init_randtest.c`; the other random generators are modelled by what they do with the
  answers of FLINT's generators (contract `Draw.Ok`);
* `src/renf/print.c` and the clear functions other than as users of memory (C63);
* conversions to and from `mpz_t`/`mpq_t` other than through the rational they denote;
* `upstream/patched/EANTIC_nf_elem_*.c`: the files they include are dangling links in the checkout;
* the rest of the Python layer (coercion framework, printing, relations, cppyy's overload resolution other than by
  `PyEnv.Ok`), benchmarks and tests; performance.

## Defects found in the code

Each is a theorem on a concrete witness; names in `MANIFEST.json`.

| property | defect |
|----------|--------|
| C03 | `renf_elem_fmpq_div(a, b, c)` stores `c*b` unless `a` aliases `c` |
| C04 | `renf_elem_gen` in degree one uses the wrong coefficients (`-c1/c0`) |
| C09 | floor and ceiling of zero read stale storage in degree at least three |
| C12 | conversion to double rounds twice for subnormal rationals; wrong beyond the largest double |
| C13 | the continued fraction of zero is empty |
| C14, C16 | refinement can move to another root (`x^2+3x+1`) |
| C18 | a ball without a root is accepted when rounding outwards catches one |
| C19 | `renf_equal` identifies embeddings at two different roots |
| C21, C23, C25, C26, C47 | the bound for positive roots is too small, so roots are missed |
| C24 | isolation does not return on a multiple non-dyadic root |
| C26 | `fmpz_poly_num_real_roots_0_1_sturm` reports one root of `x² + 1`: it counts one more for every member of the sequence, after the first, that vanishes at 0, and it counts the root 1; if 0 or 1 is a multiple root then roots outside of the interval are counted, for example 2 for `(x-1)²(x-2)` |
| C32 | the default `to_string()` is not accepted by the string constructor |
| C36 | `pow` with the smallest `int` overflows |
| C39 | `make` can return a field that another thread deletes; double deletion |
| C40 | archives identify fields by address, also after the field is gone |
| C40 | a field made from a ball with one root of an irreducible polynomial cannot be restored from its archive: `make` throws on what `construction()` returned (roots that nearly coincide) |
| C44 | the sign of `(a+1)-1` in the field of `2^(-161/2)` calls Arb with a negative precision |
| C45 | the condition number of a polynomial with negative leading coefficient is one too small; for an infinite ball it is 0, with success reported |
| C48 | `floordiv` of irrational elements of different fields is undefined instead of throwing |
| C50 | copying a moved-from element dereferences a null pointer |
| C51 | `operator>>`: no white space skipping, zero at the end of input, null dereference without a field, indeterminate character |
| C52 | `make` does not check that the polynomial is irreducible; it refuses some balls that contain exactly one root |
| C59 | `renf_randtest` aborts when the polynomial drawn is linear with an integer root |
| C53 | `fmpz_poly_set_str_pretty` keeps old coefficients beyond the degree it reads |
| C54 | a text or a variable name that begins with a byte above 127 passes a negative number to `isdigit` or `isalpha` |
| C55 | refinement has fixed points that are not accurate: for `x^2-2` and the ball `5793/4096 ± 3/2` a correctly rounding arithmetic repeats the same bisection step for ever. (Arb adds an ulp to every radius, so its own trajectory differs; nothing in the code forces progress: with `fpArb`, and the polynomial `-1705x^2-7650x-3297` and radius 3 of `test/renf/t-init.c` around the root itself, thousands of steps bring nothing. That test draws centres that are off the root.) |
| C56 | the constructor from an element of another field leaks the storage of the new element when it throws |
| C57 | `renf_elem_overflows_d` negates its argument in place for a while: with a `const` conversion to `double` in one thread, another thread gets the wrong sign of the same element; sign and comparison write to their arguments; without assertions the immutable flag protects nothing |
| C60 | `intrusive_ptr_release` decrements with `memory_order_release` and deletes without an acquire fence: a data race with the last accesses of other threads |
| C61 | `make` of the field at one root returns the registered field at another root when the enclosures touch; the field of the polynomial `x` cannot be made without a division by zero in `renf_elem_gen` |
| C63 | `fmpq_poly_check_unique_real_root` loses `l`, `r` when it counts the roots, and `b`, `l`, `r` when the signs at the ends are not opposite; the constructor from a string loses its copy of the text when it throws (`renf_elem_class.cpp:426-430`), `renf_class::make` loses the ball and the polynomial when the function giving the embedding throws, the constructor from an element of another field the parts of the new element |
| C64 | for the zero polynomial, `fmpz_poly_num_real_roots_0_1_vca` reads `p[0]` of an empty vector and `fmpz_poly_relative_condition_number_2exp` reads `p[-1]`; the `int` counter of `fmpz_poly_num_real_roots_0_1_sturm` overflows for polynomials of every length above `2^31` |
| C66 | the conversion of a field to SageMath fails for polynomials with a negative or fractional leading coefficient and for the polynomial `x`: the second regular expression does not find the generator |
| C67 | `realalg_interval_to_arb` rounds to doubles: for roots of about 1000 and more at 15 decimal places the ball can miss the interval; from 309 decimal places on it throws `OverflowError` |
| C68 | `operator>>` does not see a closing parenthesis right after white space: from `(a ~ 1.26 ) (7)` the number `a` is read and the 7 is lost; a stream that ends with white space inside of a parenthesis is undefined behaviour |
| C69 | `set_pword` stores an address without counting it: a read after the last pointer to the field was dropped uses a deleted object |
| C70 | JSON: a class version in front of a field record is not stripped, the record is left; an empty record compares a null pointer; name, embedding and polynomial are read by position whatever their names |
| C71 | `make` compares the enclosures of registered fields with the same polynomial while other threads may refine them (the mutex does not protect the enclosures), and gives the same mutable object to threads that make equal fields: threads that share nothing race |
