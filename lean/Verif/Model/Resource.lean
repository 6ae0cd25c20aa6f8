import Verif.Spec.Resource

/-!
# What the C functions do with the objects that own memory

Every function of `libeantic/src/**/*.c`, read statement by statement (the definitions were produced
by a translator from the C sources and checked by eye against them).  The convention of FLINT and
Arb is taken for granted: `X_init (v, …)` initialises `v`, `X_clear (v, …)` releases it,
`_fmpz_vec_init (n)`, `flint_malloc` and the functions returning strings give memory to release,
and every other call uses its arguments and neither initialises nor releases them; where a called
function belongs to the library this is what is proved of it here.

Simplifications:
* conditions are not interpreted (both branches of an `if`, any number of turns of a loop);
* a `renf_t` is its parts `nf`, `der`, `emb`, a `renf_elem_t` its parts `elem`, `emb`;
* pointer parameters (`fmpz *`, `slong *`, `char *`) belong to the caller and are not followed, nor
  are pointers into an object that another pointer owns;
* two variables of the same name in different blocks are numbered (`s`, `s2`, …);
* of `#if __FLINT_RELEASE` the branch of FLINT 3 is taken, `renf_elem/rounding_template.h` is
  instantiated for `floor` and for `ceil` (renf_elem/floor_ceil.c);
* `flint_realloc` of a block uses it;
* a length such as `pol->length` is taken to change when `pol` is the first argument of a call.
-/

namespace EAntic.Rsc.C

open Stm

/-- `arb_sgn2`, libeantic/src/fmpq_poly_extra/check_unique_real_root.c:21-27. -/
def arb_sgn2 : Fn :=
  let a := 0
  { name := "arb_sgn2"
    objs := 1, ints := 0
    pre := [a]
    post := [a]
    body :=
      blk [
        uses [a],
        choice
          (ret none)
          (blk [
            uses [a],
            choice
              (ret none)
              skip]),
        ret none] }

/-- `fmpq_poly_check_unique_real_root`, libeantic/src/fmpq_poly_extra/check_unique_real_root.c:29-114.
`n_pol_length_minus_1` stands for the expression `pol->length-1`. -/
def fmpq_poly_check_unique_real_root : Fn :=
  let pol := 0
  let a := 1
  let root := 2
  let b := 3
  let c := 4
  let l := 5
  let r := 6
  let der := 7
  let pol2 := 8
  let ql := 9
  let qr := 10
  let n_pol_length_minus_1 := 0
  { name := "fmpq_poly_check_unique_real_root"
    objs := 11, ints := 1
    pre := [pol, a]
    post := [pol, a]
    body :=
      blk [
        uses [pol],
        choice
          (ret none)
          (blk [
            uses [pol],
            choice
              (blk [
                act (.init root),
                blk [uses [root, pol], act (.setInt n_pol_length_minus_1), uses [pol], act (.setInt n_pol_length_minus_1)],
                uses [root],
                uses [a, root],
                act (.clear root),
                ret none])
              (blk [
                act (.init b),
                act (.init c),
                act (.init l),
                act (.init r),
                uses [l, r, a],
                uses [b, l],
                uses [c, pol, b],
                uses [c],
                uses [b, r],
                uses [c, pol, b],
                uses [c],
                act (.clear c),
                choice
                  (blk [
                    act (.initLen der n_pol_length_minus_1),
                    uses [der, pol],
                    uses [b, der, pol, a],
                    act (.clearLen der n_pol_length_minus_1),
                    uses [b],
                    choice
                      (blk [
                        act (.clear l),
                        act (.clear r),
                        act (.clear b),
                        ret none])
                      skip])
                  (ret none),
                act (.clear b),
                act (.init ql),
                act (.init qr),
                uses [ql, l],
                uses [qr, r],
                act (.init pol2),
                uses [pol2, pol],
                uses [pol2, pol],
                uses [pol, pol2],
                uses [pol2, ql, qr],
                uses [pol2],
                act (.clear pol2),
                act (.clear ql),
                act (.clear qr),
                ret none])])] }

/-- `_fmpq_poly_evaluate_arf`, libeantic/src/fmpq_poly_extra/evaluate.c:18-22. -/
def _fmpq_poly_evaluate_arf : Fn :=
  let res := 0
  let pol := 1
  let a := 2
  { name := "_fmpq_poly_evaluate_arf"
    objs := 3, ints := 0
    pre := [res, pol, a]
    post := [res, pol, a]
    body :=
      blk [
        uses [res, pol, a],
        uses [res, pol]] }

/-- `fmpq_poly_evaluate_arf`, libeantic/src/fmpq_poly_extra/evaluate.c:24-40. -/
def fmpq_poly_evaluate_arf : Fn :=
  let res := 0
  let pol := 1
  let a := 2
  let tmp := 3
  { name := "fmpq_poly_evaluate_arf"
    objs := 4, ints := 0
    pre := [res, pol, a]
    post := [res, pol, a]
    body :=
      blk [
        uses [a, res],
        choice
          (blk [
            act (.init tmp),
            uses [tmp, pol, a],
            uses [tmp, res],
            act (.clear tmp)])
          (uses [res, pol, a])] }

/-- `_fmpq_poly_evaluate_arb`, libeantic/src/fmpq_poly_extra/evaluate.c:42-46. -/
def _fmpq_poly_evaluate_arb : Fn :=
  let res := 0
  let pol := 1
  let a := 2
  { name := "_fmpq_poly_evaluate_arb"
    objs := 3, ints := 0
    pre := [res, pol, a]
    post := [res, pol, a]
    body :=
      blk [
        uses [res, pol, a],
        uses [res, pol]] }

/-- `fmpq_poly_evaluate_arb`, libeantic/src/fmpq_poly_extra/evaluate.c:48-64. -/
def fmpq_poly_evaluate_arb : Fn :=
  let res := 0
  let pol := 1
  let a := 2
  let tmp := 3
  { name := "fmpq_poly_evaluate_arb"
    objs := 4, ints := 0
    pre := [res, pol, a]
    post := [res, pol, a]
    body :=
      blk [
        uses [a, res],
        choice
          (blk [
            act (.init tmp),
            uses [tmp, pol, a],
            uses [tmp, res],
            act (.clear tmp)])
          (uses [res, pol, a])] }

/-- `_monomial_set_str`, libeantic/src/fmpq_poly_extra/set_str_pretty.c:24-134. -/
def _monomial_set_str : Fn :=
  let coeff := 0
  { name := "_monomial_set_str"
    objs := 1, ints := 0
    pre := [coeff]
    post := [coeff]
    body :=
      blk [
        forever
          (choice
            skip
            brk),
        choice
          (ret none)
          skip,
        forever
          (choice
            (ret none)
            (choice
              skip
              (choice
                brk
                skip))),
        choice
          (blk [
            forever
              (choice
                skip
                brk),
            uses [coeff],
            choice
              (ret none)
              skip])
          (uses [coeff]),
        choice
          (uses [coeff])
          skip,
        forever
          (choice
            skip
            brk),
        choice
          (ret none)
          skip,
        choice
          (blk [
            forever
              (choice
                skip
                brk),
            choice
              (ret none)
              skip])
          skip,
        choice
          (ret none)
          skip,
        choice
          (blk [
            forever
              (choice
                skip
                brk),
            choice
              (ret none)
              skip,
            choice
              (ret none)
              skip,
            forever
              (choice
                skip
                brk)])
          skip,
        choice
          (ret none)
          skip,
        choice
          (ret none)
          skip,
        forever
          (choice
            skip
            brk),
        choice
          (ret none)
          skip,
        ret none] }

/-- `str_is_varname`, libeantic/src/fmpq_poly_extra/set_str_pretty.c:136-151. -/
def str_is_varname : Fn :=
  { name := "str_is_varname"
    objs := 0, ints := 0
    pre := []
    post := []
    body :=
      blk [
        choice
          skip
          (ret none),
        forever
          (blk [
            choice
              skip
              brk,
            choice
              (ret none)
              skip]),
        ret none] }

/-- `fmpq_poly_set_str_pretty`, libeantic/src/fmpq_poly_extra/set_str_pretty.c:153-204. -/
def fmpq_poly_set_str_pretty : Fn :=
  let p := 0
  let z := 1
  let coeff := 2
  let mon := 3
  { name := "fmpq_poly_set_str_pretty"
    objs := 4, ints := 0
    pre := [p]
    post := [p]
    body :=
      blk [
        choice
          (ret none)
          skip,
        act (.init z),
        act (.init mon),
        uses [p],
        act (.init coeff),
        forever
          (blk [
            choice
              skip
              brk,
            forever
              (choice
                skip
                brk),
            forever
              (choice
                skip
                brk),
            forever
              (choice
                skip
                brk),
            uses [z],
            uses [z],
            uses [coeff, z],
            choice
              (blk [
                act (.clear z),
                act (.clear coeff),
                act (.clear mon),
                ret none])
              skip,
            uses [mon, coeff],
            uses [p, mon],
            uses [mon]]),
        act (.clear z),
        act (.clear coeff),
        act (.clear mon),
        ret none] }

/-- `_fmpz_vec_abs`, libeantic/src/fmpz_poly_extra/abs.c:16-21. -/
def _fmpz_vec_abs : Fn :=
  { name := "_fmpz_vec_abs"
    objs := 0, ints := 0
    pre := []
    post := []
    body :=
      forever
        (choice
          skip
          brk) }

/-- `fmpz_poly_abs`, libeantic/src/fmpz_poly_extra/abs.c:23-33. -/
def fmpz_poly_abs : Fn :=
  let res := 0
  let p := 1
  { name := "fmpz_poly_abs"
    objs := 2, ints := 0
    pre := [res, p]
    post := [res, p]
    body :=
      blk [
        uses [p],
        uses [res, p],
        choice
          (blk [
            uses [res],
            uses [res]])
          skip,
        uses [res, p]] }

/-- `_fmpz_poly_bisection_step_arf`, libeantic/src/fmpz_poly_extra/bisection_step_arb.c:16-53. -/
def _fmpz_poly_bisection_step_arf : Fn :=
  let l := 0
  let r := 1
  let b := 2
  let c := 3
  let m := 4
  { name := "_fmpz_poly_bisection_step_arf"
    objs := 5, ints := 0
    pre := [l, r]
    post := [l, r]
    body :=
      blk [
        act (.init m),
        uses [m, l, r],
        uses [m],
        uses [m, l, r],
        choice
          (blk [
            act (.clear m),
            ret none])
          skip,
        act (.init b),
        act (.init c),
        uses [b, m],
        uses [c, b],
        uses [c],
        choice
          (blk [
            act (.clear m),
            act (.clear b),
            act (.clear c),
            ret none])
          skip,
        uses [c],
        choice
          (uses [l, m])
          (uses [r, m]),
        act (.clear b),
        act (.clear c),
        act (.clear m)] }

/-- `_fmpz_poly_bisection_step_arb`, libeantic/src/fmpz_poly_extra/bisection_step_arb.c:55-108. -/
def _fmpz_poly_bisection_step_arb : Fn :=
  let res := 0
  let a := 1
  let b := 2
  let c := 3
  let rres := 4
  let l := 5
  let r := 6
  { name := "_fmpz_poly_bisection_step_arb"
    objs := 7, ints := 0
    pre := [res, a]
    post := [res, a]
    body :=
      blk [
        act (.init l),
        act (.init r),
        act (.init b),
        act (.init c),
        act (.init rres),
        uses [l, r, a],
        uses [b, l],
        uses [c, b],
        uses [c],
        choice
          (blk [
            act (.clear l),
            act (.clear r),
            act (.clear b),
            act (.clear c),
            act (.clear rres),
            ret none])
          skip,
        uses [c],
        uses [b, r],
        uses [c, b],
        uses [c],
        choice
          (blk [
            act (.clear l),
            act (.clear r),
            act (.clear b),
            act (.clear c),
            act (.clear rres),
            ret none])
          skip,
        uses [c],
        uses [l, r],
        uses [rres, l, r],
        uses [res, rres, a],
        act (.clear b),
        act (.clear c),
        act (.clear rres),
        act (.clear l),
        act (.clear r),
        ret none] }

/-- `fmpz_poly_bisection_step_arb`, libeantic/src/fmpz_poly_extra/bisection_step_arb.c:110-113. -/
def fmpz_poly_bisection_step_arb : Fn :=
  let res := 0
  let pol := 1
  let a := 2
  { name := "fmpz_poly_bisection_step_arb"
    objs := 3, ints := 0
    pre := [res, pol, a]
    post := [res, pol, a]
    body :=
      blk [
        uses [res, pol, a],
        ret none] }

/-- `fmpz_poly_num_real_roots_upper_bound`, libeantic/src/fmpz_poly_extra/descartes_bound.c:21-65. -/
def fmpz_poly_num_real_roots_upper_bound : Fn :=
  let pol := 0
  let pol2 := 1
  let n_len := 0
  { name := "fmpz_poly_num_real_roots_upper_bound"
    objs := 2, ints := 1
    pre := [pol]
    post := [pol]
    body :=
      blk [
        uses [pol],
        choice
          abort
          skip,
        forever
          (blk [
            uses [pol],
            choice
              skip
              brk]),
        blk [uses [pol], act (.setInt n_len)],
        act (.initLen pol2 n_len),
        uses [pol2, pol],
        uses [pol2],
        choice
          (blk [
            uses [pol2],
            uses [pol2]])
          skip,
        uses [pol2, pol],
        forever
          (blk [
            choice
              skip
              brk,
            uses [pol2]]),
        uses [pol2],
        choice
          (blk [
            uses [pol2],
            uses [pol2]])
          skip,
        act (.clearLen pol2 n_len),
        ret none] }

/-- `_fmpz_poly_descartes_bound_0_1`, libeantic/src/fmpz_poly_extra/descartes_bound_0_1.c:23-102. -/
def _fmpz_poly_descartes_bound_0_1 : Fn :=
  let q := 0
  let n_len := 0
  { name := "_fmpz_poly_descartes_bound_0_1"
    objs := 1, ints := 1
    pre := []
    post := []
    body :=
      blk [
        forever
          (choice
            skip
            brk),
        choice
          (ret none)
          skip,
        act (.initLen q n_len),
        uses [q],
        forever
          (blk [
            choice
              skip
              brk,
            uses [q],
            uses [q]]),
        uses [q],
        forever
          (blk [
            choice
              skip
              brk,
            forever
              (blk [
                choice
                  skip
                  brk,
                uses [q]]),
            forever
              (blk [
                uses [q],
                choice
                  skip
                  brk]),
            choice
              (blk [
                act (.clearLen q n_len),
                ret none])
              skip,
            forever
              (blk [
                choice
                  skip
                  brk,
                uses [q]]),
            choice
              (uses [q])
              (blk [
                uses [q],
                choice
                  (choice
                    (blk [
                      act (.clearLen q n_len),
                      ret none])
                    skip)
                  skip])]),
        uses [q],
        choice
          (choice
            (blk [
              act (.clearLen q n_len),
              ret none])
            skip)
          skip,
        act (.clearLen q n_len),
        ret none] }

/-- `_fmpz_poly_evaluate_arb`, libeantic/src/fmpz_poly_extra/evaluate.c:17-27. -/
def _fmpz_poly_evaluate_arb : Fn :=
  let res := 0
  let a := 1
  { name := "_fmpz_poly_evaluate_arb"
    objs := 2, ints := 0
    pre := [res, a]
    post := [res, a]
    body :=
      blk [
        uses [res],
        forever
          (blk [
            choice
              skip
              brk,
            uses [res, a],
            uses [res]])] }

/-- `fmpz_poly_evaluate_arb`, libeantic/src/fmpz_poly_extra/evaluate.c:29-45. -/
def fmpz_poly_evaluate_arb : Fn :=
  let res := 0
  let pol := 1
  let a := 2
  let tmp := 3
  { name := "fmpz_poly_evaluate_arb"
    objs := 4, ints := 0
    pre := [res, pol, a]
    post := [res, pol, a]
    body :=
      blk [
        uses [a, res],
        choice
          (blk [
            act (.init tmp),
            uses [tmp, pol, a],
            uses [tmp, res],
            act (.clear tmp)])
          (uses [res, pol, a])] }

/-- `_fmpz_poly_evaluate_arf`, libeantic/src/fmpz_poly_extra/evaluate.c:47-57. -/
def _fmpz_poly_evaluate_arf : Fn :=
  let res := 0
  let a := 1
  { name := "_fmpz_poly_evaluate_arf"
    objs := 2, ints := 0
    pre := [res, a]
    post := [res, a]
    body :=
      blk [
        uses [res],
        forever
          (blk [
            choice
              skip
              brk,
            uses [res, a],
            uses [res]])] }

/-- `fmpz_poly_evaluate_arf`, libeantic/src/fmpz_poly_extra/evaluate.c:59-75. -/
def fmpz_poly_evaluate_arf : Fn :=
  let res := 0
  let pol := 1
  let a := 2
  let tmp := 3
  { name := "fmpz_poly_evaluate_arf"
    objs := 4, ints := 0
    pre := [res, pol, a]
    post := [res, pol, a]
    body :=
      blk [
        uses [a, res],
        choice
          (blk [
            act (.init tmp),
            uses [tmp, pol, a],
            uses [tmp, res],
            act (.clear tmp)])
          (uses [res, pol, a])] }

/-- `fmpz_poly_evaluate_at_one`, libeantic/src/fmpz_poly_extra/evaluate_at_one.c:18-21. -/
def fmpz_poly_evaluate_at_one : Fn :=
  let res := 0
  { name := "fmpz_poly_evaluate_at_one"
    objs := 1, ints := 0
    pre := [res]
    post := [res]
    body :=
      uses [res] }

/-- `_fmpz_poly_has_real_root`, libeantic/src/fmpz_poly_extra/has_real_root.c:16-65. -/
def _fmpz_poly_has_real_root : Fn :=
  { name := "_fmpz_poly_has_real_root"
    objs := 0, ints := 0
    pre := []
    post := []
    body :=
      blk [
        choice
          (ret none)
          skip,
        choice
          (ret none)
          skip,
        choice
          (ret none)
          skip,
        forever
          (blk [
            choice
              skip
              brk,
            catchCont
              (choice
                cont
                skip)]),
        choice
          (ret none)
          skip,
        forever
          (blk [
            choice
              skip
              brk,
            catchCont
              (choice
                cont
                skip)]),
        choice
          (ret none)
          skip,
        ret none] }

/-- `fmpz_poly_has_real_root`, libeantic/src/fmpz_poly_extra/has_real_root.c:67-70. -/
def fmpz_poly_has_real_root : Fn :=
  let pol := 0
  { name := "fmpz_poly_has_real_root"
    objs := 1, ints := 0
    pre := [pol]
    post := [pol]
    body :=
      blk [
        uses [pol],
        ret none] }

/-- `_fmpz_poly_isolate_real_roots_0_1_vca`, libeantic/src/fmpz_poly_extra/isolate_real_roots.c:29-119. -/
def _fmpz_poly_isolate_real_roots_0_1_vca : Fn :=
  let c := 0
  let p0 := 1
  let one := 2
  let n_len := 0
  let n_len0 := 1
  { name := "_fmpz_poly_isolate_real_roots_0_1_vca"
    objs := 3, ints := 2
    pre := []
    post := []
    body :=
      blk [
        act (.copyInt n_len0 n_len),
        act (.init one),
        uses [one],
        act (.initLen p0 n_len),
        uses [p0],
        act (.init c),
        uses [c],
        forever
          (blk [
            forever
              (blk [
                uses [p0],
                choice
                  skip
                  brk,
                choice
                  (uses [c])
                  skip,
                uses [p0],
                act (.setInt n_len)]),
            uses [p0],
            catchBrk
              (choice
                (blk [
                  uses [c],
                  uses [p0],
                  cont])
                (choice
                  (blk [
                    choice
                      (uses [c])
                      skip,
                    brk])
                  (choice
                    brk
                    abort))),
            uses [c],
            uses [c],
            choice
              (blk [
                act (.clear c),
                act (.clear one),
                act (.clearLen p0 n_len0),
                ret none])
              skip,
            uses [p0, one],
            choice
              (blk [
                uses [p0],
                uses [c]])
              skip])] }

/-- `fmpz_poly_isolate_real_roots`, libeantic/src/fmpz_poly_extra/isolate_real_roots.c:121-224. -/
def fmpz_poly_isolate_real_roots : Fn :=
  let pol := 0
  let p := 1
  let n_len := 0
  { name := "fmpz_poly_isolate_real_roots"
    objs := 2, ints := 1
    pre := [pol]
    post := [pol]
    body :=
      blk [
        blk [uses [pol], act (.setInt n_len)],
        uses [pol],
        choice
          abort
          skip,
        forever
          (blk [
            uses [pol],
            choice
              skip
              brk]),
        act (.setInt n_len),
        act (.initLen p n_len),
        uses [p, pol],
        forever
          (blk [
            choice
              skip
              brk,
            uses [p]]),
        uses [p],
        choice
          (blk [
            uses [p],
            uses [p],
            choice
              (blk [
                forever
                  (choice
                    skip
                    brk),
                forever
                  (choice
                    skip
                    brk)])
              skip,
            choice
              (blk [
                forever
                  (choice
                    skip
                    brk),
                forever
                  (choice
                    skip
                    brk)])
              skip])
          skip,
        choice
          (forever
            (choice
              skip
              brk))
          skip,
        uses [p, pol],
        uses [p],
        choice
          (blk [
            uses [p],
            uses [p],
            choice
              (forever
                (choice
                  skip
                  brk))
              skip,
            choice
              (forever
                (choice
                  skip
                  brk))
              skip])
          skip,
        act (.clearLen p n_len)] }

/-- `_fmpz_poly_newton_step_arb`, libeantic/src/fmpz_poly_extra/newton_step_arb.c:19-52. -/
def _fmpz_poly_newton_step_arb : Fn :=
  let res := 0
  let a := 1
  let m := 2
  let y := 3
  { name := "_fmpz_poly_newton_step_arb"
    objs := 4, ints := 0
    pre := [res, a]
    post := [res, a]
    body :=
      blk [
        choice
          abort
          skip,
        uses [res, a],
        uses [res],
        choice
          (ret none)
          skip,
        act (.init m),
        act (.init y),
        uses [m, a],
        uses [m],
        uses [y, m],
        uses [res, y],
        uses [res, m],
        uses [res],
        act (.clear m),
        act (.clear y),
        uses [a, res],
        ret none] }

/-- `fmpz_poly_newton_step_arb`, libeantic/src/fmpz_poly_extra/newton_step_arb.c:54-58. -/
def fmpz_poly_newton_step_arb : Fn :=
  let res := 0
  let pol := 1
  let der := 2
  let a := 3
  { name := "fmpz_poly_newton_step_arb"
    objs := 4, ints := 0
    pre := [res, pol, der, a]
    post := [res, pol, der, a]
    body :=
      blk [
        uses [res, pol, der, a],
        ret none] }

/-- `fmpz_poly_num_real_roots_0_1`, libeantic/src/fmpz_poly_extra/num_real_roots_0_1.c:16-19. -/
def fmpz_poly_num_real_roots_0_1 : Fn :=
  let pol := 0
  { name := "fmpz_poly_num_real_roots_0_1"
    objs := 1, ints := 0
    pre := [pol]
    post := [pol]
    body :=
      blk [
        uses [pol],
        ret none] }

/-- `fmpz_poly_num_real_roots_0_1_sturm`, libeantic/src/fmpz_poly_extra/num_real_roots_0_1_sturm.c:18-87. -/
def fmpz_poly_num_real_roots_0_1_sturm : Fn :=
  let pol := 0
  let p0 := 1
  let p1 := 2
  let c := 3
  { name := "fmpz_poly_num_real_roots_0_1_sturm"
    objs := 4, ints := 0
    pre := [pol]
    post := [pol]
    body :=
      blk [
        uses [pol],
        choice
          abort
          skip,
        act (.init c),
        act (.init p0),
        act (.init p1),
        uses [p0, pol],
        uses [p1, p0],
        uses [pol],
        uses [c, pol],
        uses [c],
        forever
          (blk [
            uses [p1],
            choice
              skip
              brk,
            uses [p1],
            uses [c, p1],
            uses [c],
            uses [p0, p1],
            uses [p1, p0],
            uses [p0],
            choice
              (uses [p1])
              skip,
            uses [c, p1],
            uses [c],
            choice
              (forever
                (blk [
                  uses [p1],
                  choice
                    skip
                    brk,
                  uses [p1, c]]))
              skip]),
        act (.clear p0),
        act (.clear p1),
        act (.clear c),
        ret none] }

/-- `fmpz_poly_num_real_roots_0_1_vca`, libeantic/src/fmpz_poly_extra/num_real_roots_0_1_vca.c:16-24. -/
def fmpz_poly_num_real_roots_0_1_vca : Fn :=
  let pol := 0
  { name := "fmpz_poly_num_real_roots_0_1_vca"
    objs := 1, ints := 0
    pre := [pol]
    post := [pol]
    body :=
      blk [
        uses [pol],
        ret none] }

/-- `fmpz_poly_num_real_roots_vca`, libeantic/src/fmpz_poly_extra/num_real_roots_vca.c:16-21. -/
def fmpz_poly_num_real_roots_vca : Fn :=
  let pol := 0
  { name := "fmpz_poly_num_real_roots_vca"
    objs := 1, ints := 0
    pre := [pol]
    post := [pol]
    body :=
      blk [
        uses [pol],
        ret none] }

/-- `_fmpz_poly_positive_root_upper_bound_2exp_local_max`, libeantic/src/fmpz_poly_extra/positive_root_upper_bound_2exp.c:31-88. -/
def _fmpz_poly_positive_root_upper_bound_2exp_local_max : Fn :=
  let tmp := 0
  let coeffs := 1
  { name := "_fmpz_poly_positive_root_upper_bound_2exp_local_max"
    objs := 2, ints := 0
    pre := []
    post := []
    body :=
      blk [
        act (.init tmp),
        act (.init coeffs),
        forever
          (blk [
            choice
              skip
              brk,
            uses [coeffs]]),
        forever
          (blk [
            choice
              skip
              brk,
            catchCont
              (blk [
                choice
                  cont
                  skip,
                forever
                  (blk [
                    choice
                      skip
                      brk,
                    uses [coeffs],
                    uses [tmp],
                    uses [tmp],
                    uses [tmp],
                    uses [tmp],
                    uses [tmp],
                    uses [tmp],
                    choice
                      (choice
                        brk
                        skip)
                      skip]),
                uses [coeffs]])]),
        act (.clear tmp),
        act (.clear coeffs),
        ret none] }

/-- `_fmpz_poly_positive_root_upper_bound_2exp`, libeantic/src/fmpz_poly_extra/positive_root_upper_bound_2exp.c:90-93. -/
def _fmpz_poly_positive_root_upper_bound_2exp : Fn :=
  { name := "_fmpz_poly_positive_root_upper_bound_2exp"
    objs := 0, ints := 0
    pre := []
    post := []
    body :=
      ret none }

/-- `fmpz_poly_positive_root_upper_bound_2exp`, libeantic/src/fmpz_poly_extra/positive_root_upper_bound_2exp.c:95-107. -/
def fmpz_poly_positive_root_upper_bound_2exp : Fn :=
  let pol := 0
  { name := "fmpz_poly_positive_root_upper_bound_2exp"
    objs := 1, ints := 0
    pre := [pol]
    post := [pol]
    body :=
      blk [
        uses [pol],
        choice
          (ret none)
          skip,
        forever
          (blk [
            uses [pol],
            choice
              skip
              brk]),
        uses [pol],
        ret none] }

/-- `fmpz_poly_randtest_irreducible`, libeantic/src/fmpz_poly_extra/randtest_irreducible.c:19-62. -/
def fmpz_poly_randtest_irreducible : Fn :=
  let p := 0
  let c := 1
  let q := 2
  let ctx := 3
  { name := "fmpz_poly_randtest_irreducible"
    objs := 4, ints := 0
    pre := [p]
    post := [p]
    body :=
      blk [
        act (.init c),
        uses [c],
        blk [uses [c], act (.init ctx)],
        blk [uses [ctx], act (.init q)],
        uses [q, ctx],
        uses [p, q, ctx],
        forever
          (blk [
            uses [p],
            choice
              skip
              brk,
            choice
              (uses [p, c])
              skip]),
        blk [uses [ctx], act (.clear q)],
        act (.clear ctx),
        act (.clear c)] }

/-- `_fmpz_poly_relative_condition_number_2exp`, libeantic/src/fmpz_poly_extra/relative_condition_number_2exp.c:16-55. -/
def _fmpz_poly_relative_condition_number_2exp : Fn :=
  let x := 0
  let abs := 1
  let res := 2
  let cond2 := 3
  { name := "_fmpz_poly_relative_condition_number_2exp"
    objs := 4, ints := 0
    pre := [x]
    post := [x]
    body :=
      blk [
        act (.init res),
        act (.init abs),
        act (.init cond2),
        uses [abs, x],
        choice
          (uses [res])
          (blk [
            uses [res],
            uses [res]]),
        forever
          (blk [
            choice
              skip
              brk,
            uses [res, abs],
            choice
              (uses [res])
              (choice
                (uses [res])
                skip)]),
        uses [cond2, res],
        act (.clear res),
        act (.clear abs),
        uses [cond2],
        choice
          (blk [
            act (.clear cond2),
            ret none])
          skip,
        uses [cond2],
        act (.clear cond2),
        ret none] }

/-- `fmpz_poly_relative_condition_number_2exp`, libeantic/src/fmpz_poly_extra/relative_condition_number_2exp.c:57-60. -/
def fmpz_poly_relative_condition_number_2exp : Fn :=
  let p := 0
  let x := 1
  { name := "fmpz_poly_relative_condition_number_2exp"
    objs := 2, ints := 0
    pre := [p, x]
    post := [p, x]
    body :=
      blk [
        uses [p, x],
        ret none] }

/-- `_fmpz_poly_scale_0_1_fmpq`, libeantic/src/fmpz_poly_extra/scale_0_1_fmpq.c:16-60. -/
def _fmpz_poly_scale_0_1_fmpq : Fn :=
  let a := 0
  let b := 1
  let c := 2
  let t := 3
  let p1 := 4
  let q := 5
  { name := "_fmpz_poly_scale_0_1_fmpq"
    objs := 6, ints := 0
    pre := [a, b]
    post := [a, b]
    body :=
      blk [
        choice
          (ret none)
          skip,
        act (.init p1),
        act (.init q),
        act (.init c),
        act (.init t),
        uses [q, a, b],
        uses [t, a, b],
        uses [p1, a, b],
        uses [p1, t],
        uses [c, b, a],
        uses [c, t],
        uses [t, c, p1],
        uses [c],
        forever
          (blk [
            choice
              skip
              brk,
            uses [c, q],
            uses [c]]),
        uses [p1],
        uses [c],
        forever
          (blk [
            choice
              skip
              brk,
            uses [c, t],
            uses [c]]),
        act (.clear t),
        act (.clear c),
        act (.clear p1),
        act (.clear q)] }

/-- `fmpz_poly_set_str_pretty`, libeantic/src/fmpz_poly_extra/set_str_pretty.c:17-43. -/
def fmpz_poly_set_str_pretty : Fn :=
  let p := 0
  let q := 1
  { name := "fmpz_poly_set_str_pretty"
    objs := 2, ints := 0
    pre := [p]
    post := [p]
    body :=
      blk [
        act (.init q),
        uses [q],
        choice
          (blk [
            act (.clear q),
            ret none])
          skip,
        uses [q],
        choice
          (blk [
            act (.clear q),
            ret none])
          skip,
        uses [q],
        forever
          (blk [
            choice
              skip
              brk,
            uses [p, q]]),
        act (.clear q),
        ret none] }

/-- `fmpz_poly_squarefree_part`, libeantic/src/fmpz_poly_extra/squarefree_part.c:16-44. -/
def fmpz_poly_squarefree_part : Fn :=
  let res := 0
  let poly := 1
  let der := 2
  let gcd := 3
  { name := "fmpz_poly_squarefree_part"
    objs := 4, ints := 0
    pre := [res, poly]
    post := [res, poly]
    body :=
      blk [
        uses [poly],
        choice
          (uses [res])
          (blk [
            uses [poly],
            choice
              (uses [res])
              (blk [
                act (.init der),
                act (.init gcd),
                uses [der, poly],
                uses [gcd, poly, der],
                uses [res, poly, gcd],
                act (.clear der),
                act (.clear gcd),
                uses [res],
                choice
                  (uses [res])
                  skip])])] }

/-- `renf_clear`, libeantic/src/renf/clear.c:16-21. -/
def renf_clear : Fn :=
  let nf_nf := 0
  let nf_der := 1
  let nf_emb := 2
  { name := "renf_clear"
    objs := 3, ints := 0
    pre := [nf_nf, nf_der, nf_emb]
    post := []
    body :=
      blk [
        act (.clear nf_nf),
        act (.clear nf_der),
        act (.clear nf_emb)] }

/-- `renf_degree`, libeantic/src/renf/degree.c:16-19. -/
def renf_degree : Fn :=
  let nf_nf := 0
  let nf_der := 1
  let nf_emb := 2
  { name := "renf_degree"
    objs := 3, ints := 0
    pre := [nf_nf, nf_der, nf_emb]
    post := [nf_nf, nf_der, nf_emb]
    body :=
      blk [
        uses [nf_nf],
        ret none] }

/-- `nf_equal`, libeantic/src/renf/equal.c:16-20. -/
def nf_equal : Fn :=
  let nf1 := 0
  let nf2 := 1
  { name := "nf_equal"
    objs := 2, ints := 0
    pre := [nf1, nf2]
    post := [nf1, nf2]
    body :=
      blk [
        uses [nf1, nf2],
        ret none] }

/-- `renf_equal`, libeantic/src/renf/equal.c:22-25. -/
def renf_equal : Fn :=
  let nf1_nf := 0
  let nf1_der := 1
  let nf1_emb := 2
  let nf2_nf := 3
  let nf2_der := 4
  let nf2_emb := 5
  { name := "renf_equal"
    objs := 6, ints := 0
    pre := [nf1_nf, nf1_der, nf1_emb, nf2_nf, nf2_der, nf2_emb]
    post := [nf1_nf, nf1_der, nf1_emb, nf2_nf, nf2_der, nf2_emb]
    body :=
      blk [
        uses [nf1_nf, nf2_nf, nf1_emb, nf2_emb],
        ret none] }

/-- `renf_get_str`, libeantic/src/renf/get_str.c:19-33. -/
def renf_get_str : Fn :=
  let nf_nf := 0
  let nf_der := 1
  let nf_emb := 2
  let p := 3
  let e := 4
  let res := 5
  { name := "renf_get_str"
    objs := 6, ints := 0
    pre := [nf_nf, nf_der, nf_emb]
    post := [nf_nf, nf_der, nf_emb]
    body :=
      blk [
        blk [uses [nf_nf], act (.init p)],
        blk [uses [nf_emb], act (.init e)],
        blk [uses [p, e], act (.init res)],
        uses [res],
        uses [res],
        uses [res, p],
        uses [res],
        uses [res, e],
        uses [res],
        act (.clear p),
        act (.clear e),
        ret (some res)] }

/-- `renf_init`, libeantic/src/renf/init.c:19-41. -/
def renf_init : Fn :=
  let nf_nf := 0
  let nf_der := 1
  let nf_emb := 2
  let pol := 3
  let emb := 4
  { name := "renf_init"
    objs := 5, ints := 0
    pre := [pol, emb]
    post := [pol, emb, nf_nf, nf_der, nf_emb]
    body :=
      blk [
        uses [pol],
        uses [pol, emb],
        choice
          abort
          skip,
        act (.init nf_emb),
        uses [nf_emb, emb],
        blk [uses [pol], act (.init nf_nf)],
        act (.init nf_der),
        uses [nf_der],
        uses [nf_der, pol],
        uses [nf_der],
        uses [nf_nf],
        choice
          (uses [nf_nf, nf_der, nf_emb])
          skip] }

/-- `renf_init_nth_root_fmpq`, libeantic/src/renf/init_nth_root.c:19-44. -/
def renf_init_nth_root_fmpq : Fn :=
  let nf_nf := 0
  let nf_der := 1
  let nf_emb := 2
  let d := 3
  let p0 := 4
  let pol := 5
  let emb := 6
  { name := "renf_init_nth_root_fmpq"
    objs := 7, ints := 0
    pre := [d]
    post := [d, nf_nf, nf_der, nf_emb]
    body :=
      blk [
        uses [d],
        choice
          abort
          skip,
        act (.init pol),
        act (.init p0),
        uses [p0, d],
        uses [p0],
        uses [pol, p0],
        uses [pol],
        act (.init emb),
        uses [emb, d],
        uses [emb],
        blk [uses [pol, emb], act (.init nf_nf), act (.init nf_der), act (.init nf_emb)],
        act (.clear p0),
        act (.clear pol),
        act (.clear emb)] }

/-- `renf_init_set`, libeantic/src/renf/init_set.c:16-28. -/
def renf_init_set : Fn :=
  let dest_nf := 0
  let dest_der := 1
  let dest_emb := 2
  let src_nf := 3
  let src_der := 4
  let src_emb := 5
  { name := "renf_init_set"
    objs := 6, ints := 0
    pre := [src_nf, src_der, src_emb]
    post := [src_nf, src_der, src_emb, dest_nf, dest_der, dest_emb]
    body :=
      blk [
        act (.init dest_emb),
        uses [dest_emb, src_emb],
        blk [uses [src_nf], act (.init dest_nf)],
        act (.init dest_der),
        uses [dest_der, src_der]] }

/-- `renf_print`, libeantic/src/renf/print.c:16-23. -/
def renf_print : Fn :=
  let nf_nf := 0
  let nf_der := 1
  let nf_emb := 2
  { name := "renf_print"
    objs := 3, ints := 0
    pre := [nf_nf, nf_der, nf_emb]
    post := [nf_nf, nf_der, nf_emb]
    body :=
      blk [
        uses [nf_nf],
        uses [nf_emb]] }

/-- `arb_from_interval`, libeantic/src/renf/randtest.c:22-38. -/
def arb_from_interval : Fn :=
  let x := 0
  let c := 1
  { name := "arb_from_interval"
    objs := 2, ints := 0
    pre := [x, c]
    post := [x, c]
    body :=
      blk [
        uses [c],
        choice
          abort
          skip,
        uses [x, c],
        uses [x],
        uses [x],
        uses [x],
        uses [x]] }

/-- `renf_randtest`, libeantic/src/renf/randtest.c:40-94.
`n_p_length` stands for the expression `p->length`. -/
def renf_randtest : Fn :=
  let nf_nf := 0
  let nf_der := 1
  let nf_emb := 2
  let p := 3
  let p2 := 4
  let c_array := 5
  let k_array := 6
  let emb := 7
  let n_p_length := 0
  { name := "renf_randtest"
    objs := 8, ints := 1
    pre := []
    post := [nf_nf, nf_der, nf_emb]
    body :=
      blk [
        choice
          abort
          skip,
        act (.init p),
        forever
          (blk [
            blk [uses [p], act (.setInt n_p_length)],
            uses [p],
            choice
              skip
              brk]),
        act (.initLen c_array n_p_length),
        blk [uses [p], act (.init k_array)],
        uses [c_array, k_array, p],
        choice
          abort
          skip,
        act (.init emb),
        uses [emb, c_array, k_array],
        act (.init p2),
        uses [p2, p],
        blk [uses [p2, emb], act (.init nf_nf), act (.init nf_der), act (.init nf_emb)],
        act (.clearLen c_array n_p_length),
        act (.clear k_array),
        act (.clear p),
        act (.clear p2),
        act (.clear emb)] }

/-- `renf_refine_embedding`, libeantic/src/renf/refine_embedding.c:20-64. -/
def renf_refine_embedding : Fn :=
  let nf_nf := 0
  let nf_der := 1
  let nf_emb := 2
  let tmp := 3
  { name := "renf_refine_embedding"
    objs := 4, ints := 0
    pre := [nf_nf, nf_der, nf_emb]
    post := [nf_nf, nf_der, nf_emb]
    body :=
      blk [
        uses [nf_nf, nf_der, nf_emb],
        uses [nf_nf, nf_emb],
        uses [nf_nf],
        act (.init tmp),
        uses [nf_emb],
        forever
          (blk [
            uses [nf_emb],
            choice
              skip
              brk,
            uses [tmp, nf_nf, nf_der, nf_emb],
            choice
              (blk [
                uses [tmp, nf_nf, nf_emb],
                choice
                  cont
                  skip])
              skip,
            uses [tmp, nf_emb],
            uses [nf_nf, nf_emb],
            uses [nf_emb, nf_nf]]),
        act (.clear tmp),
        uses [nf_nf, nf_der, nf_emb]] }

/-- `renf_set_embeddings_fmpz_poly`, libeantic/src/renf/set_embeddings_fmpz_poly.c:22-68.
`renf_init(nf + i) on memory of the caller`: not followed. -/
def renf_set_embeddings_fmpz_poly : Fn :=
  let pol := 0
  let p2 := 1
  let a := 2
  let c := 3
  let k := 4
  let n_n := 0
  { name := "renf_set_embeddings_fmpz_poly"
    objs := 5, ints := 1
    pre := [pol]
    post := [pol]
    body :=
      blk [
        blk [uses [pol], act (.setInt n_n)],
        act (.initLen c n_n),
        act (.init k),
        uses [c, k, pol],
        choice
          abort
          skip,
        act (.init a),
        act (.init p2),
        uses [p2],
        uses [p2, pol],
        uses [p2, pol],
        uses [pol, p2],
        forever
          (blk [
            choice
              skip
              brk,
            uses [a, c],
            uses [a],
            uses [a],
            uses [a],
            uses [a, k],
            uses [p2, a]]),
        act (.clear a),
        act (.clear p2),
        act (.clearLen c n_n),
        act (.clear k),
        ret none] }

/-- `renf_set_immutable`, libeantic/src/renf/set_immutable.c:16-21. -/
def renf_set_immutable : Fn :=
  let nf_nf := 0
  let nf_der := 1
  let nf_emb := 2
  { name := "renf_set_immutable"
    objs := 3, ints := 0
    pre := [nf_nf, nf_der, nf_emb]
    post := [nf_nf, nf_der, nf_emb]
    body :=
      ret none }

/-- `renf_elem_add`, libeantic/src/renf_elem/add.c:16-20. -/
def renf_elem_add : Fn :=
  let a_elem := 0
  let a_emb := 1
  let b_elem := 2
  let b_emb := 3
  let c_elem := 4
  let c_emb := 5
  let nf_nf := 6
  let nf_der := 7
  let nf_emb := 8
  { name := "renf_elem_add"
    objs := 9, ints := 0
    pre := [a_elem, a_emb, b_elem, b_emb, c_elem, c_emb, nf_nf, nf_der, nf_emb]
    post := [a_elem, a_emb, b_elem, b_emb, c_elem, c_emb, nf_nf, nf_der, nf_emb]
    body :=
      blk [
        uses [a_elem, b_elem, c_elem, nf_nf],
        uses [a_emb, b_emb, c_emb]] }

/-- `arb_add_fmpq`, libeantic/src/renf_elem/add_fmpq.c:16-23. -/
def arb_add_fmpq : Fn :=
  let a := 0
  let b := 1
  let c := 2
  let x := 3
  { name := "arb_add_fmpq"
    objs := 4, ints := 0
    pre := [a, b, c]
    post := [a, b, c]
    body :=
      blk [
        act (.init x),
        uses [x, c],
        uses [a, b, x],
        act (.clear x)] }

/-- `renf_elem_add_fmpq`, libeantic/src/renf_elem/add_fmpq.c:25-29. -/
def renf_elem_add_fmpq : Fn :=
  let a_elem := 0
  let a_emb := 1
  let b_elem := 2
  let b_emb := 3
  let c := 4
  let nf_nf := 5
  let nf_der := 6
  let nf_emb := 7
  { name := "renf_elem_add_fmpq"
    objs := 8, ints := 0
    pre := [a_elem, a_emb, b_elem, b_emb, c, nf_nf, nf_der, nf_emb]
    post := [a_elem, a_emb, b_elem, b_emb, c, nf_nf, nf_der, nf_emb]
    body :=
      blk [
        uses [a_elem, b_elem, c, nf_nf],
        uses [a_emb, b_emb, c]] }

/-- `renf_elem_add_fmpz`, libeantic/src/renf_elem/add_fmpz.c:16-20. -/
def renf_elem_add_fmpz : Fn :=
  let a_elem := 0
  let a_emb := 1
  let b_elem := 2
  let b_emb := 3
  let c := 4
  let nf_nf := 5
  let nf_der := 6
  let nf_emb := 7
  { name := "renf_elem_add_fmpz"
    objs := 8, ints := 0
    pre := [a_elem, a_emb, b_elem, b_emb, c, nf_nf, nf_der, nf_emb]
    post := [a_elem, a_emb, b_elem, b_emb, c, nf_nf, nf_der, nf_emb]
    body :=
      blk [
        uses [a_elem, b_elem, c, nf_nf],
        uses [a_emb, b_emb, c]] }

/-- `renf_elem_add_si`, libeantic/src/renf_elem/add_si.c:16-20. -/
def renf_elem_add_si : Fn :=
  let a_elem := 0
  let a_emb := 1
  let b_elem := 2
  let b_emb := 3
  let nf_nf := 4
  let nf_der := 5
  let nf_emb := 6
  { name := "renf_elem_add_si"
    objs := 7, ints := 0
    pre := [a_elem, a_emb, b_elem, b_emb, nf_nf, nf_der, nf_emb]
    post := [a_elem, a_emb, b_elem, b_emb, nf_nf, nf_der, nf_emb]
    body :=
      blk [
        uses [a_elem, b_elem, nf_nf],
        uses [a_emb, b_emb]] }

/-- `renf_elem_add_ui`, libeantic/src/renf_elem/add_ui.c:16-24. -/
def renf_elem_add_ui : Fn :=
  let a_elem := 0
  let a_emb := 1
  let b_elem := 2
  let b_emb := 3
  let nf_nf := 4
  let nf_der := 5
  let nf_emb := 6
  let tmp := 7
  { name := "renf_elem_add_ui"
    objs := 8, ints := 0
    pre := [a_elem, a_emb, b_elem, b_emb, nf_nf, nf_der, nf_emb]
    post := [a_elem, a_emb, b_elem, b_emb, nf_nf, nf_der, nf_emb]
    body :=
      blk [
        act (.init tmp),
        uses [tmp],
        uses [a_elem, b_elem, tmp, nf_nf],
        uses [a_emb, b_emb, tmp],
        act (.clear tmp)] }

/-- `renf_elem_check_embedding`, libeantic/src/renf_elem/check_embedding.c:19-49. -/
def renf_elem_check_embedding : Fn :=
  let a_elem := 0
  let a_emb := 1
  let nf_nf := 2
  let nf_der := 3
  let nf_emb := 4
  let emb := 5
  { name := "renf_elem_check_embedding"
    objs := 6, ints := 0
    pre := [a_elem, a_emb, nf_nf, nf_der, nf_emb]
    post := [a_elem, a_emb, nf_nf, nf_der, nf_emb]
    body :=
      blk [
        act (.init emb),
        uses [nf_nf],
        choice
          (uses [emb, a_elem])
          (blk [
            uses [nf_nf],
            choice
              (blk [
                uses [emb, nf_emb, a_elem],
                uses [emb, a_elem],
                uses [emb, a_elem]])
              (uses [emb, a_elem, nf_emb])]),
        uses [a_emb, emb],
        choice
          (blk [
            uses [a_emb],
            uses [emb],
            act (.clear emb),
            abort])
          skip,
        act (.clear emb)] }

/-- `renf_elem_clear`, libeantic/src/renf_elem/clear.c:17-21. -/
def renf_elem_clear : Fn :=
  let a_elem := 0
  let a_emb := 1
  let nf_nf := 2
  let nf_der := 3
  let nf_emb := 4
  { name := "renf_elem_clear"
    objs := 5, ints := 0
    pre := [a_elem, a_emb, nf_nf, nf_der, nf_emb]
    post := [nf_nf, nf_der, nf_emb]
    body :=
      blk [
        blk [uses [nf_nf], act (.clear a_elem)],
        act (.clear a_emb)] }

/-- `renf_elem_cmp`, libeantic/src/renf_elem/cmp.c:18-83. -/
def renf_elem_cmp : Fn :=
  let a_elem := 0
  let a_emb := 1
  let b_elem := 2
  let b_emb := 3
  let nf_nf := 4
  let nf_der := 5
  let nf_emb := 6
  let diff_elem := 7
  let diff_emb := 8
  { name := "renf_elem_cmp"
    objs := 9, ints := 0
    pre := [a_elem, a_emb, b_elem, b_emb, nf_nf, nf_der, nf_emb]
    post := [a_elem, a_emb, b_elem, b_emb, nf_nf, nf_der, nf_emb]
    body :=
      blk [
        uses [a_elem, b_elem, nf_nf],
        choice
          (ret none)
          skip,
        uses [a_emb, b_emb],
        choice
          (ret none)
          skip,
        uses [a_emb, b_emb],
        choice
          (ret none)
          skip,
        uses [a_elem, nf_nf, b_elem],
        choice
          (blk [
            uses [a_elem, nf_nf],
            choice
              (blk [
                uses [b_elem, b_emb, nf_nf, nf_der, nf_emb],
                ret none])
              skip,
            uses [b_elem, nf_nf],
            choice
              (blk [
                uses [a_elem, a_emb, nf_nf, nf_der, nf_emb],
                ret none])
              skip,
            uses [nf_nf],
            choice
              (blk [
                uses [a_elem, b_elem],
                ret none])
              (blk [
                uses [nf_nf],
                choice
                  (blk [
                    uses [a_elem, b_elem],
                    ret none])
                  (blk [
                    uses [a_elem, b_elem],
                    ret none])])])
          skip,
        uses [nf_emb],
        uses [a_elem, a_emb, nf_nf, nf_der, nf_emb],
        uses [a_elem, a_emb, nf_nf, nf_der, nf_emb],
        uses [b_elem, b_emb, nf_nf, nf_der, nf_emb],
        uses [b_elem, b_emb, nf_nf, nf_der, nf_emb],
        uses [a_emb, b_emb],
        choice
          (ret none)
          skip,
        uses [a_emb, b_emb],
        choice
          (ret none)
          skip,
        blk [uses [nf_nf, nf_der, nf_emb], act (.init diff_elem), act (.init diff_emb)],
        uses [diff_elem, diff_emb, a_elem, a_emb, b_elem, b_emb, nf_nf, nf_der, nf_emb],
        uses [diff_elem, diff_emb, nf_nf, nf_der, nf_emb],
        blk [uses [nf_nf, nf_der, nf_emb], act (.clear diff_elem), act (.clear diff_emb)],
        ret none] }

/-- `renf_elem_cmp_fmpq`, libeantic/src/renf_elem/cmp_fmpq.c:19-86. -/
def renf_elem_cmp_fmpq : Fn :=
  let a_elem := 0
  let a_emb := 1
  let b := 2
  let nf_nf := 3
  let nf_der := 4
  let nf_emb := 5
  let diffball := 6
  let diffnf_elem := 7
  let diffnf_emb := 8
  { name := "renf_elem_cmp_fmpq"
    objs := 9, ints := 0
    pre := [a_elem, a_emb, b, nf_nf, nf_der, nf_emb]
    post := [a_elem, a_emb, b, nf_nf, nf_der, nf_emb]
    body :=
      blk [
        uses [b],
        choice
          (blk [
            uses [a_elem, a_emb, nf_nf, nf_der, nf_emb],
            ret none])
          skip,
        uses [a_elem, nf_nf],
        choice
          (blk [
            uses [b],
            ret none])
          skip,
        uses [a_elem, nf_nf],
        choice
          (blk [
            uses [nf_nf],
            choice
              (blk [
                uses [a_elem, b],
                ret none])
              (blk [
                uses [nf_nf],
                choice
                  (blk [
                    uses [a_elem, b],
                    ret none])
                  (blk [
                    uses [a_elem, b],
                    ret none])])])
          skip,
        act (.init diffball),
        uses [diffball, b],
        uses [diffball, a_emb],
        uses [diffball],
        choice
          (blk [
            uses [diffball],
            act (.clear diffball),
            ret none])
          skip,
        uses [a_elem, a_emb, nf_nf, nf_der, nf_emb],
        uses [nf_emb],
        uses [a_elem, a_emb, nf_nf, nf_der, nf_emb],
        uses [diffball, b],
        uses [diffball, a_emb],
        uses [diffball],
        choice
          (blk [
            uses [diffball],
            act (.clear diffball),
            ret none])
          skip,
        act (.clear diffball),
        blk [uses [nf_nf, nf_der, nf_emb], act (.init diffnf_elem), act (.init diffnf_emb)],
        uses [diffnf_elem, diffnf_emb, a_elem, a_emb, nf_nf, nf_der, nf_emb],
        uses [diffnf_elem, diffnf_emb, b, nf_nf, nf_der, nf_emb],
        uses [diffnf_elem, diffnf_emb, nf_nf, nf_der, nf_emb],
        blk [uses [nf_nf, nf_der, nf_emb], act (.clear diffnf_elem), act (.clear diffnf_emb)],
        ret none] }

/-- `renf_elem_cmp_fmpz`, libeantic/src/renf_elem/cmp_fmpz.c:16-28. -/
def renf_elem_cmp_fmpz : Fn :=
  let a_elem := 0
  let a_emb := 1
  let b := 2
  let nf_nf := 3
  let nf_der := 4
  let nf_emb := 5
  let bq := 6
  { name := "renf_elem_cmp_fmpz"
    objs := 7, ints := 0
    pre := [a_elem, a_emb, b, nf_nf, nf_der, nf_emb]
    post := [a_elem, a_emb, b, nf_nf, nf_der, nf_emb]
    body :=
      blk [
        act (.init bq),
        uses [bq, b],
        uses [bq],
        uses [a_elem, a_emb, bq, nf_nf, nf_der, nf_emb],
        act (.clear bq),
        ret none] }

/-- `renf_elem_cmp_si`, libeantic/src/renf_elem/cmp_si.c:16-28. -/
def renf_elem_cmp_si : Fn :=
  let a_elem := 0
  let a_emb := 1
  let nf_nf := 2
  let nf_der := 3
  let nf_emb := 4
  let bq := 5
  { name := "renf_elem_cmp_si"
    objs := 6, ints := 0
    pre := [a_elem, a_emb, nf_nf, nf_der, nf_emb]
    post := [a_elem, a_emb, nf_nf, nf_der, nf_emb]
    body :=
      blk [
        act (.init bq),
        uses [bq],
        uses [bq],
        uses [a_elem, a_emb, bq, nf_nf, nf_der, nf_emb],
        act (.clear bq),
        ret none] }

/-- `renf_elem_cmp_ui`, libeantic/src/renf_elem/cmp_ui.c:16-28. -/
def renf_elem_cmp_ui : Fn :=
  let a_elem := 0
  let a_emb := 1
  let nf_nf := 2
  let nf_der := 3
  let nf_emb := 4
  let bq := 5
  { name := "renf_elem_cmp_ui"
    objs := 6, ints := 0
    pre := [a_elem, a_emb, nf_nf, nf_der, nf_emb]
    post := [a_elem, a_emb, nf_nf, nf_der, nf_emb]
    body :=
      blk [
        act (.init bq),
        uses [bq],
        uses [bq],
        uses [a_elem, a_emb, bq, nf_nf, nf_der, nf_emb],
        act (.clear bq),
        ret none] }

/-- `renf_elem_div`, libeantic/src/renf_elem/div.c:16-20. -/
def renf_elem_div : Fn :=
  let a_elem := 0
  let a_emb := 1
  let b_elem := 2
  let b_emb := 3
  let c_elem := 4
  let c_emb := 5
  let nf_nf := 6
  let nf_der := 7
  let nf_emb := 8
  { name := "renf_elem_div"
    objs := 9, ints := 0
    pre := [a_elem, a_emb, b_elem, b_emb, c_elem, c_emb, nf_nf, nf_der, nf_emb]
    post := [a_elem, a_emb, b_elem, b_emb, c_elem, c_emb, nf_nf, nf_der, nf_emb]
    body :=
      blk [
        uses [a_elem, b_elem, c_elem, nf_nf],
        uses [a_emb, b_emb, c_emb]] }

/-- `arb_div_fmpq`, libeantic/src/renf_elem/div_fmpq.c:16-23. -/
def arb_div_fmpq : Fn :=
  let a := 0
  let b := 1
  let c := 2
  let x := 3
  { name := "arb_div_fmpq"
    objs := 4, ints := 0
    pre := [a, b, c]
    post := [a, b, c]
    body :=
      blk [
        act (.init x),
        uses [x, c],
        uses [a, b, x],
        act (.clear x)] }

/-- `renf_elem_div_fmpq`, libeantic/src/renf_elem/div_fmpq.c:25-29. -/
def renf_elem_div_fmpq : Fn :=
  let a_elem := 0
  let a_emb := 1
  let b_elem := 2
  let b_emb := 3
  let c := 4
  let nf_nf := 5
  let nf_der := 6
  let nf_emb := 7
  { name := "renf_elem_div_fmpq"
    objs := 8, ints := 0
    pre := [a_elem, a_emb, b_elem, b_emb, c, nf_nf, nf_der, nf_emb]
    post := [a_elem, a_emb, b_elem, b_emb, c, nf_nf, nf_der, nf_emb]
    body :=
      blk [
        uses [a_elem, b_elem, c, nf_nf],
        uses [a_emb, b_emb, c]] }

/-- `renf_elem_div_fmpz`, libeantic/src/renf_elem/div_fmpz.c:16-20. -/
def renf_elem_div_fmpz : Fn :=
  let a_elem := 0
  let a_emb := 1
  let b_elem := 2
  let b_emb := 3
  let c := 4
  let nf_nf := 5
  let nf_der := 6
  let nf_emb := 7
  { name := "renf_elem_div_fmpz"
    objs := 8, ints := 0
    pre := [a_elem, a_emb, b_elem, b_emb, c, nf_nf, nf_der, nf_emb]
    post := [a_elem, a_emb, b_elem, b_emb, c, nf_nf, nf_der, nf_emb]
    body :=
      blk [
        uses [a_elem, b_elem, c, nf_nf],
        uses [a_emb, b_emb, c]] }

/-- `renf_elem_div_si`, libeantic/src/renf_elem/div_si.c:16-20. -/
def renf_elem_div_si : Fn :=
  let a_elem := 0
  let a_emb := 1
  let b_elem := 2
  let b_emb := 3
  let nf_nf := 4
  let nf_der := 5
  let nf_emb := 6
  { name := "renf_elem_div_si"
    objs := 7, ints := 0
    pre := [a_elem, a_emb, b_elem, b_emb, nf_nf, nf_der, nf_emb]
    post := [a_elem, a_emb, b_elem, b_emb, nf_nf, nf_der, nf_emb]
    body :=
      blk [
        uses [a_elem, b_elem, nf_nf],
        uses [a_emb, b_emb]] }

/-- `renf_elem_div_ui`, libeantic/src/renf_elem/div_ui.c:16-24. -/
def renf_elem_div_ui : Fn :=
  let a_elem := 0
  let a_emb := 1
  let b_elem := 2
  let b_emb := 3
  let nf_nf := 4
  let nf_der := 5
  let nf_emb := 6
  let tmp := 7
  { name := "renf_elem_div_ui"
    objs := 8, ints := 0
    pre := [a_elem, a_emb, b_elem, b_emb, nf_nf, nf_der, nf_emb]
    post := [a_elem, a_emb, b_elem, b_emb, nf_nf, nf_der, nf_emb]
    body :=
      blk [
        act (.init tmp),
        uses [tmp],
        uses [a_elem, b_elem, tmp, nf_nf],
        uses [a_emb, b_emb, tmp],
        act (.clear tmp)] }

/-- `renf_elem_equal`, libeantic/src/renf_elem/equal.c:16-19. -/
def renf_elem_equal : Fn :=
  let a_elem := 0
  let a_emb := 1
  let b_elem := 2
  let b_emb := 3
  let nf_nf := 4
  let nf_der := 5
  let nf_emb := 6
  { name := "renf_elem_equal"
    objs := 7, ints := 0
    pre := [a_elem, a_emb, b_elem, b_emb, nf_nf, nf_der, nf_emb]
    post := [a_elem, a_emb, b_elem, b_emb, nf_nf, nf_der, nf_emb]
    body :=
      blk [
        uses [a_elem, b_elem, nf_nf],
        ret none] }

/-- `renf_elem_equal_fmpq`, libeantic/src/renf_elem/equal_fmpq.c:16-19. -/
def renf_elem_equal_fmpq : Fn :=
  let a_elem := 0
  let a_emb := 1
  let b := 2
  let nf_nf := 3
  let nf_der := 4
  let nf_emb := 5
  { name := "renf_elem_equal_fmpq"
    objs := 6, ints := 0
    pre := [a_elem, a_emb, b, nf_nf, nf_der, nf_emb]
    post := [a_elem, a_emb, b, nf_nf, nf_der, nf_emb]
    body :=
      blk [
        uses [a_elem, b, nf_nf],
        ret none] }

/-- `renf_elem_equal_fmpz`, libeantic/src/renf_elem/equal_fmpz.c:16-19. -/
def renf_elem_equal_fmpz : Fn :=
  let a_elem := 0
  let a_emb := 1
  let b := 2
  let nf_nf := 3
  let nf_der := 4
  let nf_emb := 5
  { name := "renf_elem_equal_fmpz"
    objs := 6, ints := 0
    pre := [a_elem, a_emb, b, nf_nf, nf_der, nf_emb]
    post := [a_elem, a_emb, b, nf_nf, nf_der, nf_emb]
    body :=
      blk [
        uses [a_elem, b, nf_nf],
        ret none] }

/-- `renf_elem_equal_si`, libeantic/src/renf_elem/equal_si.c:16-19. -/
def renf_elem_equal_si : Fn :=
  let a_elem := 0
  let a_emb := 1
  let nf_nf := 2
  let nf_der := 3
  let nf_emb := 4
  { name := "renf_elem_equal_si"
    objs := 5, ints := 0
    pre := [a_elem, a_emb, nf_nf, nf_der, nf_emb]
    post := [a_elem, a_emb, nf_nf, nf_der, nf_emb]
    body :=
      blk [
        uses [a_elem, nf_nf],
        ret none] }

/-- `renf_elem_equal_ui`, libeantic/src/renf_elem/equal_ui.c:16-19. -/
def renf_elem_equal_ui : Fn :=
  let a_elem := 0
  let a_emb := 1
  let nf_nf := 2
  let nf_der := 3
  let nf_emb := 4
  { name := "renf_elem_equal_ui"
    objs := 5, ints := 0
    pre := [a_elem, a_emb, nf_nf, nf_der, nf_emb]
    post := [a_elem, a_emb, nf_nf, nf_der, nf_emb]
    body :=
      blk [
        uses [a_elem, nf_nf],
        ret none] }

/-- `renf_elem_fdiv`, libeantic/src/renf_elem/fdiv.c:24-106. -/
def renf_elem_fdiv : Fn :=
  let a := 0
  let b_elem := 1
  let b_emb := 2
  let c_elem := 3
  let c_emb := 4
  let nf_nf := 5
  let nf_der := 6
  let nf_emb := 7
  let quotient := 8
  let ac_elem := 9
  let ac_emb := 10
  let quotient_elem := 11
  let quotient_emb := 12
  { name := "renf_elem_fdiv"
    objs := 13, ints := 0
    pre := [a, b_elem, b_emb, c_elem, c_emb, nf_nf, nf_der, nf_emb]
    post := [a, b_elem, b_emb, c_elem, c_emb, nf_nf, nf_der, nf_emb]
    body :=
      blk [
        uses [c_elem, c_emb, nf_nf, nf_der, nf_emb],
        choice
          (blk [
            uses [nf_emb],
            uses [b_elem, b_emb, nf_nf, nf_der, nf_emb],
            uses [c_elem, c_emb, nf_nf, nf_der, nf_emb],
            uses [b_elem, b_emb, nf_nf, nf_der, nf_emb],
            forever
              (blk [
                uses [b_emb],
                choice
                  skip
                  brk,
                uses [nf_nf, nf_der, nf_emb],
                uses [b_elem, b_emb, nf_nf, nf_der, nf_emb]]),
            uses [c_elem, c_emb, nf_nf, nf_der, nf_emb],
            forever
              (blk [
                uses [c_emb],
                choice
                  skip
                  brk,
                uses [nf_nf, nf_der, nf_emb],
                uses [c_elem, c_emb, nf_nf, nf_der, nf_emb]]),
            act (.init quotient),
            uses [quotient, b_emb, c_emb],
            forever
              (blk [
                uses [quotient],
                choice
                  skip
                  brk,
                uses [nf_nf, nf_der, nf_emb],
                uses [b_elem, b_emb, nf_nf, nf_der, nf_emb],
                uses [c_elem, c_emb, nf_nf, nf_der, nf_emb],
                uses [quotient, b_emb, c_emb]]),
            uses [quotient],
            choice
              (blk [
                uses [a, quotient],
                blk [uses [nf_nf, nf_der, nf_emb], act (.init ac_elem), act (.init ac_emb)],
                uses [ac_elem, ac_emb, c_elem, c_emb, a, nf_nf, nf_der, nf_emb],
                uses [ac_elem, ac_emb, b_elem, b_emb, nf_nf, nf_der, nf_emb],
                uses [c_elem, c_emb, nf_nf, nf_der, nf_emb],
                choice
                  (uses [a])
                  skip,
                blk [uses [nf_nf, nf_der, nf_emb], act (.clear ac_elem), act (.clear ac_emb)]])
              (uses [a, quotient]),
            act (.clear quotient)])
          (blk [
            blk [uses [nf_nf, nf_der, nf_emb], act (.init quotient_elem), act (.init quotient_emb)],
            uses [quotient_elem, quotient_emb, b_elem, b_emb, c_elem, c_emb, nf_nf, nf_der, nf_emb],
            uses [a, quotient_elem, quotient_emb, nf_nf, nf_der, nf_emb],
            blk [uses [nf_nf, nf_der, nf_emb], act (.clear quotient_elem), act (.clear quotient_emb)]])] }

/-- `arb_unique_floor_fmpz`, libeantic/src/renf_elem/rounding_template.h:28-40. -/
def arb_unique_floor_fmpz : Fn :=
  let res := 0
  let x := 1
  let cl := 2
  let cr := 3
  { name := "arb_unique_floor_fmpz"
    objs := 4, ints := 0
    pre := [res, x, cl, cr]
    post := [res, x, cl, cr]
    body :=
      blk [
        uses [cl, cr, x],
        uses [cl],
        uses [cr],
        uses [cl, cr],
        choice
          (blk [
            uses [res, cl],
            ret none])
          skip,
        ret none] }

/-- `renf_elem_floor`, libeantic/src/renf_elem/rounding_template.h:42-117. -/
def renf_elem_floor : Fn :=
  let a := 0
  let b_elem := 1
  let b_emb := 2
  let nf_nf := 3
  let nf_der := 4
  let nf_emb := 5
  let cl := 6
  let cr := 7
  let zsize := 8
  { name := "renf_elem_floor"
    objs := 9, ints := 0
    pre := [a, b_elem, b_emb, nf_nf, nf_der, nf_emb]
    post := [a, b_elem, b_emb, nf_nf, nf_der, nf_emb]
    body :=
      blk [
        uses [b_elem, nf_nf],
        choice
          (blk [
            uses [nf_nf],
            choice
              (uses [a, b_elem])
              (blk [
                uses [nf_nf],
                choice
                  (uses [a, b_elem])
                  (uses [a, b_elem])]),
            ret none])
          skip,
        uses [b_emb],
        choice
          (blk [
            uses [b_elem, b_emb, nf_nf, nf_der, nf_emb],
            uses [nf_emb],
            uses [b_elem, b_emb, nf_nf, nf_der, nf_emb],
            forever
              (blk [
                uses [b_emb],
                choice
                  skip
                  brk,
                uses [nf_nf, nf_der, nf_emb],
                uses [b_elem, b_emb, nf_nf, nf_der, nf_emb]])])
          skip,
        act (.init cl),
        act (.init cr),
        uses [a, b_emb, cl, cr],
        choice
          (blk [
            act (.clear cl),
            act (.clear cr),
            ret none])
          skip,
        act (.init zsize),
        uses [zsize, cl],
        uses [zsize],
        choice
          abort
          skip,
        uses [zsize],
        uses [zsize, cr],
        uses [zsize],
        choice
          abort
          skip,
        uses [zsize],
        act (.clear zsize),
        uses [nf_emb],
        choice
          (uses [b_elem, b_emb, nf_nf, nf_der, nf_emb])
          skip,
        forever
          (blk [
            uses [b_elem, b_emb, nf_nf, nf_der, nf_emb],
            uses [a, b_emb, cl, cr],
            choice
              (blk [
                act (.clear cl),
                act (.clear cr),
                ret none])
              skip,
            uses [nf_nf, nf_der, nf_emb]])] }

/-- `arb_unique_ceil_fmpz`, libeantic/src/renf_elem/rounding_template.h:28-40. -/
def arb_unique_ceil_fmpz : Fn :=
  let res := 0
  let x := 1
  let cl := 2
  let cr := 3
  { name := "arb_unique_ceil_fmpz"
    objs := 4, ints := 0
    pre := [res, x, cl, cr]
    post := [res, x, cl, cr]
    body :=
      blk [
        uses [cl, cr, x],
        uses [cl],
        uses [cr],
        uses [cl, cr],
        choice
          (blk [
            uses [res, cl],
            ret none])
          skip,
        ret none] }

/-- `renf_elem_ceil`, libeantic/src/renf_elem/rounding_template.h:42-117. -/
def renf_elem_ceil : Fn :=
  let a := 0
  let b_elem := 1
  let b_emb := 2
  let nf_nf := 3
  let nf_der := 4
  let nf_emb := 5
  let cl := 6
  let cr := 7
  let zsize := 8
  { name := "renf_elem_ceil"
    objs := 9, ints := 0
    pre := [a, b_elem, b_emb, nf_nf, nf_der, nf_emb]
    post := [a, b_elem, b_emb, nf_nf, nf_der, nf_emb]
    body :=
      blk [
        uses [b_elem, nf_nf],
        choice
          (blk [
            uses [nf_nf],
            choice
              (uses [a, b_elem])
              (blk [
                uses [nf_nf],
                choice
                  (uses [a, b_elem])
                  (uses [a, b_elem])]),
            ret none])
          skip,
        uses [b_emb],
        choice
          (blk [
            uses [b_elem, b_emb, nf_nf, nf_der, nf_emb],
            uses [nf_emb],
            uses [b_elem, b_emb, nf_nf, nf_der, nf_emb],
            forever
              (blk [
                uses [b_emb],
                choice
                  skip
                  brk,
                uses [nf_nf, nf_der, nf_emb],
                uses [b_elem, b_emb, nf_nf, nf_der, nf_emb]])])
          skip,
        act (.init cl),
        act (.init cr),
        uses [a, b_emb, cl, cr],
        choice
          (blk [
            act (.clear cl),
            act (.clear cr),
            ret none])
          skip,
        act (.init zsize),
        uses [zsize, cl],
        uses [zsize],
        choice
          abort
          skip,
        uses [zsize],
        uses [zsize, cr],
        uses [zsize],
        choice
          abort
          skip,
        uses [zsize],
        act (.clear zsize),
        uses [nf_emb],
        choice
          (uses [b_elem, b_emb, nf_nf, nf_der, nf_emb])
          skip,
        forever
          (blk [
            uses [b_elem, b_emb, nf_nf, nf_der, nf_emb],
            uses [a, b_emb, cl, cr],
            choice
              (blk [
                act (.clear cl),
                act (.clear cr),
                ret none])
              skip,
            uses [nf_nf, nf_der, nf_emb]])] }

/-- `renf_elem_fmpq_div`, libeantic/src/renf_elem/fmpq_div.c:16-21. -/
def renf_elem_fmpq_div : Fn :=
  let a_elem := 0
  let a_emb := 1
  let b := 2
  let c_elem := 3
  let c_emb := 4
  let nf_nf := 5
  let nf_der := 6
  let nf_emb := 7
  { name := "renf_elem_fmpq_div"
    objs := 8, ints := 0
    pre := [a_elem, a_emb, b, c_elem, c_emb, nf_nf, nf_der, nf_emb]
    post := [a_elem, a_emb, b, c_elem, c_emb, nf_nf, nf_der, nf_emb]
    body :=
      blk [
        uses [a_elem, a_emb, c_elem, c_emb, nf_nf, nf_der, nf_emb],
        uses [a_elem, a_emb, nf_nf, nf_der, nf_emb],
        uses [a_elem, a_emb, c_elem, c_emb, b, nf_nf, nf_der, nf_emb]] }

/-- `arb_fmpq_sub`, libeantic/src/renf_elem/fmpq_sub.c:16-23. -/
def arb_fmpq_sub : Fn :=
  let a := 0
  let c := 1
  let b := 2
  let x := 3
  { name := "arb_fmpq_sub"
    objs := 4, ints := 0
    pre := [a, c, b]
    post := [a, c, b]
    body :=
      blk [
        act (.init x),
        uses [x, c],
        uses [a, x, b],
        act (.clear x)] }

/-- `renf_elem_fmpq_sub`, libeantic/src/renf_elem/fmpq_sub.c:25-29. -/
def renf_elem_fmpq_sub : Fn :=
  let a_elem := 0
  let a_emb := 1
  let c := 2
  let b_elem := 3
  let b_emb := 4
  let nf_nf := 5
  let nf_der := 6
  let nf_emb := 7
  { name := "renf_elem_fmpq_sub"
    objs := 8, ints := 0
    pre := [a_elem, a_emb, c, b_elem, b_emb, nf_nf, nf_der, nf_emb]
    post := [a_elem, a_emb, c, b_elem, b_emb, nf_nf, nf_der, nf_emb]
    body :=
      blk [
        uses [a_elem, c, b_elem, nf_nf],
        uses [a_emb, c, b_emb]] }

/-- `renf_elem_gen`, libeantic/src/renf_elem/gen.c:16-41. -/
def renf_elem_gen : Fn :=
  let a_elem := 0
  let a_emb := 1
  let nf_nf := 2
  let nf_der := 3
  let nf_emb := 4
  let p := 5
  { name := "renf_elem_gen"
    objs := 6, ints := 0
    pre := [a_elem, a_emb, nf_nf, nf_der, nf_emb]
    post := [a_elem, a_emb, nf_nf, nf_der, nf_emb]
    body :=
      blk [
        uses [nf_nf],
        choice
          (blk [
            uses [a_elem, nf_nf],
            uses [a_elem, nf_nf],
            uses [a_elem],
            uses [a_elem],
            uses [a_emb, a_elem]])
          (blk [
            act (.init p),
            uses [p],
            uses [p],
            uses [a_elem, a_emb, p, nf_nf, nf_der, nf_emb],
            act (.clear p)])] }

/-- `renf_elem_get_arb`, libeantic/src/renf_elem/get_arb.c:16-46. -/
def renf_elem_get_arb : Fn :=
  let x := 0
  let a_elem := 1
  let a_emb := 2
  let nf_nf := 3
  let nf_der := 4
  let nf_emb := 5
  { name := "renf_elem_get_arb"
    objs := 6, ints := 0
    pre := [x, a_elem, a_emb, nf_nf, nf_der, nf_emb]
    post := [x, a_elem, a_emb, nf_nf, nf_der, nf_emb]
    body :=
      blk [
        uses [a_elem, nf_nf],
        choice
          (blk [
            uses [x],
            ret none])
          skip,
        uses [a_emb],
        choice
          (blk [
            uses [x, a_emb],
            ret none])
          skip,
        uses [a_elem, a_emb, nf_nf, nf_der, nf_emb],
        uses [nf_emb],
        forever
          (blk [
            uses [a_elem, a_emb, nf_nf, nf_der, nf_emb],
            uses [a_emb],
            choice
              (blk [
                uses [x, a_emb],
                ret none])
              skip,
            uses [nf_nf, nf_der, nf_emb]])] }

/-- `renf_elem_get_cfrac`, libeantic/src/renf_elem/get_cfrac.c:16-32. -/
def renf_elem_get_cfrac : Fn :=
  let rem_elem := 0
  let rem_emb := 1
  let a_elem := 2
  let a_emb := 3
  let nf_nf := 4
  let nf_der := 5
  let nf_emb := 6
  { name := "renf_elem_get_cfrac"
    objs := 7, ints := 0
    pre := [rem_elem, rem_emb, a_elem, a_emb, nf_nf, nf_der, nf_emb]
    post := [rem_elem, rem_emb, a_elem, a_emb, nf_nf, nf_der, nf_emb]
    body :=
      blk [
        uses [rem_elem, rem_emb, a_elem, a_emb, nf_nf, nf_der, nf_emb],
        uses [rem_elem, rem_emb, nf_nf, nf_der, nf_emb],
        choice
          (ret none)
          skip,
        forever
          (blk [
            choice
              skip
              brk,
            uses [rem_elem, rem_emb, nf_nf, nf_der, nf_emb],
            uses [rem_elem, rem_emb, nf_nf, nf_der, nf_emb],
            uses [rem_elem, rem_emb, nf_nf, nf_der, nf_emb],
            choice
              (ret none)
              skip,
            uses [rem_elem, rem_emb, nf_nf, nf_der, nf_emb]]),
        ret none] }

/-- `renf_elem_overflows_d`, libeantic/src/renf_elem/get_d.c:23-43. -/
def renf_elem_overflows_d : Fn :=
  let a_elem := 0
  let a_emb := 1
  let nf_nf := 2
  let nf_der := 3
  let nf_emb := 4
  let dbl_max := 5
  { name := "renf_elem_overflows_d"
    objs := 6, ints := 0
    pre := [a_elem, a_emb, nf_nf, nf_der, nf_emb]
    post := [a_elem, a_emb, nf_nf, nf_der, nf_emb]
    body :=
      blk [
        uses [a_elem, a_emb, nf_nf, nf_der, nf_emb],
        choice
          (blk [
            uses [a_elem, a_emb, nf_nf, nf_der, nf_emb],
            choice
              (ret none)
              skip,
            act (.init dbl_max),
            uses [dbl_max],
            uses [a_elem, a_emb, dbl_max, nf_nf, nf_der, nf_emb],
            act (.clear dbl_max),
            ret none])
          (blk [
            uses [a_elem, a_emb, nf_nf, nf_der, nf_emb],
            uses [a_elem, a_emb, nf_nf, nf_der, nf_emb],
            uses [a_elem, a_emb, nf_nf, nf_der, nf_emb],
            ret none])] }

/-- `renf_elem_get_d`, libeantic/src/renf_elem/get_d.c:45-151. -/
def renf_elem_get_d : Fn :=
  let a_elem := 0
  let a_emb := 1
  let nf_nf := 2
  let nf_der := 3
  let nf_emb := 4
  let b := 5
  let c := 6
  let lbound := 7
  let ubound := 8
  { name := "renf_elem_get_d"
    objs := 9, ints := 0
    pre := [a_elem, a_emb, nf_nf, nf_der, nf_emb]
    post := [a_elem, a_emb, nf_nf, nf_der, nf_emb]
    body :=
      blk [
        uses [a_elem, a_emb, nf_nf, nf_der, nf_emb],
        choice
          (ret none)
          skip,
        uses [a_elem, a_emb, nf_nf, nf_der, nf_emb],
        choice
          (blk [
            act (.init b),
            act (.init c),
            uses [b, a_elem, nf_nf],
            uses [c, b],
            uses [c],
            act (.clear c),
            act (.clear b),
            ret none])
          skip,
        choice
          (uses [a_elem, a_emb, nf_nf, nf_der, nf_emb])
          skip,
        choice
          (uses [a_elem, a_emb, nf_nf, nf_der, nf_emb])
          skip,
        uses [a_elem, a_emb, nf_nf, nf_der, nf_emb],
        choice
          (ret none)
          skip,
        choice
          (ret none)
          skip,
        uses [a_emb],
        choice
          (blk [
            uses [a_emb],
            choice
              (uses [a_elem, a_emb, nf_nf, nf_der, nf_emb])
              skip,
            forever
              (blk [
                uses [a_emb],
                choice
                  skip
                  brk,
                uses [nf_nf, nf_der, nf_emb],
                uses [a_elem, a_emb, nf_nf, nf_der, nf_emb]])])
          skip,
        uses [a_emb],
        act (.init lbound),
        act (.init ubound),
        forever
          (blk [
            uses [lbound, a_emb],
            uses [ubound, a_emb],
            uses [lbound],
            uses [ubound],
            choice
              brk
              skip,
            uses [nf_nf, nf_der, nf_emb],
            uses [a_elem, a_emb, nf_nf, nf_der, nf_emb]]),
        act (.clear lbound),
        act (.clear ubound),
        ret none] }

/-- `renf_elem_get_str_pretty`, libeantic/src/renf_elem/get_str_pretty.c:28-105. -/
def renf_elem_get_str_pretty : Fn :=
  let a_elem := 0
  let a_emb := 1
  let nf_nf := 2
  let nf_der := 3
  let nf_emb := 4
  let t := 5
  let s := 6
  let s2 := 7
  let x := 8
  let s3 := 9
  { name := "renf_elem_get_str_pretty"
    objs := 10, ints := 0
    pre := [a_elem, a_emb, nf_nf, nf_der, nf_emb]
    post := [a_elem, a_emb, nf_nf, nf_der, nf_emb]
    body :=
      blk [
        act (.init t),
        uses [t],
        choice
          (blk [
            blk [uses [a_elem, nf_nf], act (.init s)],
            choice
              (blk [
                uses [t, s],
                uses [t, s],
                uses [t]])
              (blk [
                uses [t, s],
                uses [t, s]]),
            act (.clear s)])
          skip,
        choice
          (blk [
            act (.lose s2),
            uses [a_elem, a_emb, nf_nf, nf_der, nf_emb],
            choice
              (choice
                (blk [
                  act (.init s2),
                  uses [s2]])
                (blk [
                  act (.init s2),
                  uses [s2]]))
              (blk [
                act (.init x),
                uses [x],
                blk [uses [x], act (.init s2)],
                act (.clear x)]),
            uses [t, s2],
            uses [t, s2],
            act (.clear s2)])
          (choice
            (blk [
              blk [uses [a_emb], act (.init s3)],
              uses [t, s3],
              uses [t, s3],
              act (.clear s3)])
            skip),
        ret (some t)] }

/-- `renf_elem_init`, libeantic/src/renf_elem/init.c:17-21. -/
def renf_elem_init : Fn :=
  let a_elem := 0
  let a_emb := 1
  let nf_nf := 2
  let nf_der := 3
  let nf_emb := 4
  { name := "renf_elem_init"
    objs := 5, ints := 0
    pre := [nf_nf, nf_der, nf_emb]
    post := [nf_nf, nf_der, nf_emb, a_elem, a_emb]
    body :=
      blk [
        blk [uses [nf_nf], act (.init a_elem)],
        act (.init a_emb)] }

/-- `renf_elem_inv`, libeantic/src/renf_elem/inv.c:16-20. -/
def renf_elem_inv : Fn :=
  let a_elem := 0
  let a_emb := 1
  let b_elem := 2
  let b_emb := 3
  let nf_nf := 4
  let nf_der := 5
  let nf_emb := 6
  { name := "renf_elem_inv"
    objs := 7, ints := 0
    pre := [a_elem, a_emb, b_elem, b_emb, nf_nf, nf_der, nf_emb]
    post := [a_elem, a_emb, b_elem, b_emb, nf_nf, nf_der, nf_emb]
    body :=
      blk [
        uses [a_elem, b_elem, nf_nf],
        uses [a_emb, b_emb]] }

/-- `renf_elem_is_integer`, libeantic/src/renf_elem/is_integer.c:16-19. -/
def renf_elem_is_integer : Fn :=
  let a_elem := 0
  let a_emb := 1
  let nf_nf := 2
  let nf_der := 3
  let nf_emb := 4
  { name := "renf_elem_is_integer"
    objs := 5, ints := 0
    pre := [a_elem, a_emb, nf_nf, nf_der, nf_emb]
    post := [a_elem, a_emb, nf_nf, nf_der, nf_emb]
    body :=
      blk [
        uses [a_elem, nf_nf],
        ret none] }

/-- `renf_elem_is_one`, libeantic/src/renf_elem/is_one.c:16-19. -/
def renf_elem_is_one : Fn :=
  let a_elem := 0
  let a_emb := 1
  let nf_nf := 2
  let nf_der := 3
  let nf_emb := 4
  { name := "renf_elem_is_one"
    objs := 5, ints := 0
    pre := [a_elem, a_emb, nf_nf, nf_der, nf_emb]
    post := [a_elem, a_emb, nf_nf, nf_der, nf_emb]
    body :=
      blk [
        uses [a_elem, nf_nf],
        ret none] }

/-- `renf_elem_is_rational`, libeantic/src/renf_elem/is_rational.c:16-19. -/
def renf_elem_is_rational : Fn :=
  let a_elem := 0
  let a_emb := 1
  let nf_nf := 2
  let nf_der := 3
  let nf_emb := 4
  { name := "renf_elem_is_rational"
    objs := 5, ints := 0
    pre := [a_elem, a_emb, nf_nf, nf_der, nf_emb]
    post := [a_elem, a_emb, nf_nf, nf_der, nf_emb]
    body :=
      blk [
        uses [a_elem, nf_nf],
        ret none] }

/-- `renf_elem_is_zero`, libeantic/src/renf_elem/is_zero.c:16-19. -/
def renf_elem_is_zero : Fn :=
  let a_elem := 0
  let a_emb := 1
  let nf_nf := 2
  let nf_der := 3
  let nf_emb := 4
  { name := "renf_elem_is_zero"
    objs := 5, ints := 0
    pre := [a_elem, a_emb, nf_nf, nf_der, nf_emb]
    post := [a_elem, a_emb, nf_nf, nf_der, nf_emb]
    body :=
      blk [
        uses [a_elem, nf_nf],
        ret none] }

/-- `renf_elem_mul`, libeantic/src/renf_elem/mul.c:16-20. -/
def renf_elem_mul : Fn :=
  let a_elem := 0
  let a_emb := 1
  let b_elem := 2
  let b_emb := 3
  let c_elem := 4
  let c_emb := 5
  let nf_nf := 6
  let nf_der := 7
  let nf_emb := 8
  { name := "renf_elem_mul"
    objs := 9, ints := 0
    pre := [a_elem, a_emb, b_elem, b_emb, c_elem, c_emb, nf_nf, nf_der, nf_emb]
    post := [a_elem, a_emb, b_elem, b_emb, c_elem, c_emb, nf_nf, nf_der, nf_emb]
    body :=
      blk [
        uses [a_elem, b_elem, c_elem, nf_nf],
        uses [a_emb, b_emb, c_emb]] }

/-- `arb_mul_fmpq`, libeantic/src/renf_elem/mul_fmpq.c:16-23. -/
def arb_mul_fmpq : Fn :=
  let a := 0
  let b := 1
  let c := 2
  let x := 3
  { name := "arb_mul_fmpq"
    objs := 4, ints := 0
    pre := [a, b, c]
    post := [a, b, c]
    body :=
      blk [
        act (.init x),
        uses [x, c],
        uses [a, b, x],
        act (.clear x)] }

/-- `renf_elem_mul_fmpq`, libeantic/src/renf_elem/mul_fmpq.c:25-29. -/
def renf_elem_mul_fmpq : Fn :=
  let a_elem := 0
  let a_emb := 1
  let b_elem := 2
  let b_emb := 3
  let c := 4
  let nf_nf := 5
  let nf_der := 6
  let nf_emb := 7
  { name := "renf_elem_mul_fmpq"
    objs := 8, ints := 0
    pre := [a_elem, a_emb, b_elem, b_emb, c, nf_nf, nf_der, nf_emb]
    post := [a_elem, a_emb, b_elem, b_emb, c, nf_nf, nf_der, nf_emb]
    body :=
      blk [
        uses [a_elem, b_elem, c, nf_nf],
        uses [a_emb, b_emb, c]] }

/-- `renf_elem_mul_fmpz`, libeantic/src/renf_elem/mul_fmpz.c:16-20. -/
def renf_elem_mul_fmpz : Fn :=
  let a_elem := 0
  let a_emb := 1
  let b_elem := 2
  let b_emb := 3
  let c := 4
  let nf_nf := 5
  let nf_der := 6
  let nf_emb := 7
  { name := "renf_elem_mul_fmpz"
    objs := 8, ints := 0
    pre := [a_elem, a_emb, b_elem, b_emb, c, nf_nf, nf_der, nf_emb]
    post := [a_elem, a_emb, b_elem, b_emb, c, nf_nf, nf_der, nf_emb]
    body :=
      blk [
        uses [a_elem, b_elem, c, nf_nf],
        uses [a_emb, b_emb, c]] }

/-- `renf_elem_mul_si`, libeantic/src/renf_elem/mul_si.c:16-20. -/
def renf_elem_mul_si : Fn :=
  let a_elem := 0
  let a_emb := 1
  let b_elem := 2
  let b_emb := 3
  let nf_nf := 4
  let nf_der := 5
  let nf_emb := 6
  { name := "renf_elem_mul_si"
    objs := 7, ints := 0
    pre := [a_elem, a_emb, b_elem, b_emb, nf_nf, nf_der, nf_emb]
    post := [a_elem, a_emb, b_elem, b_emb, nf_nf, nf_der, nf_emb]
    body :=
      blk [
        uses [a_elem, b_elem, nf_nf],
        uses [a_emb, b_emb]] }

/-- `renf_elem_mul_ui`, libeantic/src/renf_elem/mul_ui.c:16-24. -/
def renf_elem_mul_ui : Fn :=
  let a_elem := 0
  let a_emb := 1
  let b_elem := 2
  let b_emb := 3
  let nf_nf := 4
  let nf_der := 5
  let nf_emb := 6
  let tmp := 7
  { name := "renf_elem_mul_ui"
    objs := 8, ints := 0
    pre := [a_elem, a_emb, b_elem, b_emb, nf_nf, nf_der, nf_emb]
    post := [a_elem, a_emb, b_elem, b_emb, nf_nf, nf_der, nf_emb]
    body :=
      blk [
        act (.init tmp),
        uses [tmp],
        uses [a_elem, b_elem, tmp, nf_nf],
        uses [a_emb, b_emb, tmp],
        act (.clear tmp)] }

/-- `renf_elem_neg`, libeantic/src/renf_elem/neg.c:16-20. -/
def renf_elem_neg : Fn :=
  let a_elem := 0
  let a_emb := 1
  let b_elem := 2
  let b_emb := 3
  let nf_nf := 4
  let nf_der := 5
  let nf_emb := 6
  { name := "renf_elem_neg"
    objs := 7, ints := 0
    pre := [a_elem, a_emb, b_elem, b_emb, nf_nf, nf_der, nf_emb]
    post := [a_elem, a_emb, b_elem, b_emb, nf_nf, nf_der, nf_emb]
    body :=
      blk [
        uses [a_elem, b_elem, nf_nf],
        uses [a_emb, b_emb]] }

/-- `renf_elem_one`, libeantic/src/renf_elem/one.c:16-20. -/
def renf_elem_one : Fn :=
  let a_elem := 0
  let a_emb := 1
  let nf_nf := 2
  let nf_der := 3
  let nf_emb := 4
  { name := "renf_elem_one"
    objs := 5, ints := 0
    pre := [a_elem, a_emb, nf_nf, nf_der, nf_emb]
    post := [a_elem, a_emb, nf_nf, nf_der, nf_emb]
    body :=
      blk [
        uses [a_elem, nf_nf],
        uses [a_emb]] }

/-- `renf_elem_pow`, libeantic/src/renf_elem/pow.c:16-20. -/
def renf_elem_pow : Fn :=
  let res_elem := 0
  let res_emb := 1
  let a_elem := 2
  let a_emb := 3
  let nf_nf := 4
  let nf_der := 5
  let nf_emb := 6
  { name := "renf_elem_pow"
    objs := 7, ints := 0
    pre := [res_elem, res_emb, a_elem, a_emb, nf_nf, nf_der, nf_emb]
    post := [res_elem, res_emb, a_elem, a_emb, nf_nf, nf_der, nf_emb]
    body :=
      blk [
        uses [res_elem, a_elem, nf_nf],
        uses [res_emb, a_emb]] }

/-- `renf_elem_print_pretty`, libeantic/src/renf_elem/print_pretty.c:18-23. -/
def renf_elem_print_pretty : Fn :=
  let a_elem := 0
  let a_emb := 1
  let nf_nf := 2
  let nf_der := 3
  let nf_emb := 4
  let res := 5
  { name := "renf_elem_print_pretty"
    objs := 6, ints := 0
    pre := [a_elem, a_emb, nf_nf, nf_der, nf_emb]
    post := [a_elem, a_emb, nf_nf, nf_der, nf_emb]
    body :=
      blk [
        blk [uses [a_elem, a_emb, nf_nf, nf_der, nf_emb], act (.init res)],
        uses [res],
        act (.clear res)] }

/-- `renf_elem_randtest`, libeantic/src/renf_elem/randtest.c:17-22. -/
def renf_elem_randtest : Fn :=
  let a_elem := 0
  let a_emb := 1
  let nf_nf := 2
  let nf_der := 3
  let nf_emb := 4
  { name := "renf_elem_randtest"
    objs := 5, ints := 0
    pre := [a_elem, a_emb, nf_nf, nf_der, nf_emb]
    post := [a_elem, a_emb, nf_nf, nf_der, nf_emb]
    body :=
      blk [
        uses [a_elem, nf_nf],
        uses [a_elem, a_emb, nf_nf, nf_der, nf_emb]] }

/-- `renf_elem_relative_condition_number_2exp`, libeantic/src/renf_elem/relative_condition_number_2exp.c:18-42. -/
def renf_elem_relative_condition_number_2exp : Fn :=
  let a_elem := 0
  let a_emb := 1
  let nf_nf := 2
  let nf_der := 3
  let nf_emb := 4
  { name := "renf_elem_relative_condition_number_2exp"
    objs := 5, ints := 0
    pre := [a_elem, a_emb, nf_nf, nf_der, nf_emb]
    post := [a_elem, a_emb, nf_nf, nf_der, nf_emb]
    body :=
      blk [
        uses [a_elem, nf_nf],
        choice
          (ret none)
          skip,
        uses [nf_nf],
        choice
          (uses [a_elem])
          (blk [
            uses [a_elem],
            uses [a_elem]]),
        uses [nf_emb],
        ret none] }

/-- `renf_elem_set`, libeantic/src/renf_elem/set.c:16-20. -/
def renf_elem_set : Fn :=
  let a_elem := 0
  let a_emb := 1
  let b_elem := 2
  let b_emb := 3
  let nf_nf := 4
  let nf_der := 5
  let nf_emb := 6
  { name := "renf_elem_set"
    objs := 7, ints := 0
    pre := [a_elem, a_emb, b_elem, b_emb, nf_nf, nf_der, nf_emb]
    post := [a_elem, a_emb, b_elem, b_emb, nf_nf, nf_der, nf_emb]
    body :=
      blk [
        uses [a_elem, b_elem, nf_nf],
        uses [a_emb, b_emb]] }

/-- `renf_elem_set_evaluation`, libeantic/src/renf_elem/set_evaluation.c:17-33. -/
def renf_elem_set_evaluation : Fn :=
  let a_elem := 0
  let a_emb := 1
  let nf_nf := 2
  let nf_der := 3
  let nf_emb := 4
  { name := "renf_elem_set_evaluation"
    objs := 5, ints := 0
    pre := [a_elem, a_emb, nf_nf, nf_der, nf_emb]
    post := [a_elem, a_emb, nf_nf, nf_der, nf_emb]
    body :=
      blk [
        uses [nf_nf],
        choice
          (uses [a_emb, a_elem])
          (blk [
            uses [nf_nf],
            choice
              (blk [
                uses [a_emb, nf_emb, a_elem],
                uses [a_emb, a_elem],
                uses [a_emb, a_elem]])
              (uses [a_emb, a_elem, nf_emb])])] }

/-- `renf_elem_set_fmpq`, libeantic/src/renf_elem/set_fmpq.c:16-20. -/
def renf_elem_set_fmpq : Fn :=
  let a_elem := 0
  let a_emb := 1
  let c := 2
  let nf_nf := 3
  let nf_der := 4
  let nf_emb := 5
  { name := "renf_elem_set_fmpq"
    objs := 6, ints := 0
    pre := [a_elem, a_emb, c, nf_nf, nf_der, nf_emb]
    post := [a_elem, a_emb, c, nf_nf, nf_der, nf_emb]
    body :=
      blk [
        uses [a_elem, c, nf_nf],
        uses [a_emb, c]] }

/-- `renf_elem_set_fmpq_poly`, libeantic/src/renf_elem/set_fmpq_poly.c:18-22. -/
def renf_elem_set_fmpq_poly : Fn :=
  let a_elem := 0
  let a_emb := 1
  let pol := 2
  let nf_nf := 3
  let nf_der := 4
  let nf_emb := 5
  { name := "renf_elem_set_fmpq_poly"
    objs := 6, ints := 0
    pre := [a_elem, a_emb, pol, nf_nf, nf_der, nf_emb]
    post := [a_elem, a_emb, pol, nf_nf, nf_der, nf_emb]
    body :=
      blk [
        uses [a_elem, pol, nf_nf],
        uses [a_emb, pol, nf_emb]] }

/-- `renf_elem_set_fmpz`, libeantic/src/renf_elem/set_fmpz.c:16-20. -/
def renf_elem_set_fmpz : Fn :=
  let a_elem := 0
  let a_emb := 1
  let c := 2
  let nf_nf := 3
  let nf_der := 4
  let nf_emb := 5
  { name := "renf_elem_set_fmpz"
    objs := 6, ints := 0
    pre := [a_elem, a_emb, c, nf_nf, nf_der, nf_emb]
    post := [a_elem, a_emb, c, nf_nf, nf_der, nf_emb]
    body :=
      blk [
        uses [a_elem, c, nf_nf],
        uses [a_emb, c]] }

/-- `renf_elem_set_mpq`, libeantic/src/renf_elem/set_mpq.c:16-22. -/
def renf_elem_set_mpq : Fn :=
  let a_elem := 0
  let a_emb := 1
  let nf_nf := 2
  let nf_der := 3
  let nf_emb := 4
  let x := 5
  { name := "renf_elem_set_mpq"
    objs := 6, ints := 0
    pre := [a_elem, a_emb, nf_nf, nf_der, nf_emb]
    post := [a_elem, a_emb, nf_nf, nf_der, nf_emb]
    body :=
      blk [
        act (.init x),
        uses [a_elem, a_emb, x, nf_nf, nf_der, nf_emb],
        act (.clear x)] }

/-- `renf_elem_set_mpz`, libeantic/src/renf_elem/set_mpz.c:16-22. -/
def renf_elem_set_mpz : Fn :=
  let a_elem := 0
  let a_emb := 1
  let nf_nf := 2
  let nf_der := 3
  let nf_emb := 4
  let x := 5
  { name := "renf_elem_set_mpz"
    objs := 6, ints := 0
    pre := [a_elem, a_emb, nf_nf, nf_der, nf_emb]
    post := [a_elem, a_emb, nf_nf, nf_der, nf_emb]
    body :=
      blk [
        act (.init x),
        uses [a_elem, a_emb, x, nf_nf, nf_der, nf_emb],
        act (.clear x)] }

/-- `renf_elem_set_nf_elem`, libeantic/src/renf_elem/set_nf_elem.c:16-20. -/
def renf_elem_set_nf_elem : Fn :=
  let a_elem := 0
  let a_emb := 1
  let b := 2
  let nf_nf := 3
  let nf_der := 4
  let nf_emb := 5
  { name := "renf_elem_set_nf_elem"
    objs := 6, ints := 0
    pre := [a_elem, a_emb, b, nf_nf, nf_der, nf_emb]
    post := [a_elem, a_emb, b, nf_nf, nf_der, nf_emb]
    body :=
      blk [
        uses [a_elem, b, nf_nf],
        uses [a_elem, a_emb, nf_nf, nf_der, nf_emb]] }

/-- `renf_elem_set_si`, libeantic/src/renf_elem/set_si.c:16-20. -/
def renf_elem_set_si : Fn :=
  let a_elem := 0
  let a_emb := 1
  let nf_nf := 2
  let nf_der := 3
  let nf_emb := 4
  { name := "renf_elem_set_si"
    objs := 5, ints := 0
    pre := [a_elem, a_emb, nf_nf, nf_der, nf_emb]
    post := [a_elem, a_emb, nf_nf, nf_der, nf_emb]
    body :=
      blk [
        uses [a_elem, nf_nf],
        uses [a_emb]] }

/-- `renf_elem_set_ui`, libeantic/src/renf_elem/set_ui.c:16-20. -/
def renf_elem_set_ui : Fn :=
  let a_elem := 0
  let a_emb := 1
  let nf_nf := 2
  let nf_der := 3
  let nf_emb := 4
  { name := "renf_elem_set_ui"
    objs := 5, ints := 0
    pre := [a_elem, a_emb, nf_nf, nf_der, nf_emb]
    post := [a_elem, a_emb, nf_nf, nf_der, nf_emb]
    body :=
      blk [
        uses [a_elem, nf_nf],
        uses [a_emb]] }

/-- `renf_elem_sgn`, libeantic/src/renf_elem/sgn.c:16-49. -/
def renf_elem_sgn : Fn :=
  let a_elem := 0
  let a_emb := 1
  let nf_nf := 2
  let nf_der := 3
  let nf_emb := 4
  { name := "renf_elem_sgn"
    objs := 5, ints := 0
    pre := [a_elem, a_emb, nf_nf, nf_der, nf_emb]
    post := [a_elem, a_emb, nf_nf, nf_der, nf_emb]
    body :=
      blk [
        uses [a_elem, nf_nf],
        choice
          (blk [
            uses [nf_nf],
            choice
              (blk [
                uses [a_elem],
                ret none])
              (blk [
                uses [nf_nf],
                choice
                  (blk [
                    uses [a_elem],
                    ret none])
                  (blk [
                    uses [a_elem],
                    choice
                      (ret none)
                      (blk [
                        uses [a_elem],
                        ret none])])])])
          skip,
        uses [a_emb],
        choice
          (blk [
            uses [a_emb],
            ret none])
          skip,
        uses [a_elem, a_emb, nf_nf, nf_der, nf_emb],
        uses [nf_emb],
        uses [a_elem, a_emb, nf_nf, nf_der, nf_emb],
        forever
          (blk [
            uses [a_emb],
            choice
              (blk [
                uses [a_emb],
                ret none])
              skip,
            uses [nf_nf, nf_der, nf_emb],
            uses [a_elem, a_emb, nf_nf, nf_der, nf_emb]])] }

/-- `renf_elem_sub`, libeantic/src/renf_elem/sub.c:16-20. -/
def renf_elem_sub : Fn :=
  let a_elem := 0
  let a_emb := 1
  let b_elem := 2
  let b_emb := 3
  let c_elem := 4
  let c_emb := 5
  let nf_nf := 6
  let nf_der := 7
  let nf_emb := 8
  { name := "renf_elem_sub"
    objs := 9, ints := 0
    pre := [a_elem, a_emb, b_elem, b_emb, c_elem, c_emb, nf_nf, nf_der, nf_emb]
    post := [a_elem, a_emb, b_elem, b_emb, c_elem, c_emb, nf_nf, nf_der, nf_emb]
    body :=
      blk [
        uses [a_elem, b_elem, c_elem, nf_nf],
        uses [a_emb, b_emb, c_emb]] }

/-- `arb_sub_fmpq`, libeantic/src/renf_elem/sub_fmpq.c:16-23. -/
def arb_sub_fmpq : Fn :=
  let a := 0
  let b := 1
  let c := 2
  let x := 3
  { name := "arb_sub_fmpq"
    objs := 4, ints := 0
    pre := [a, b, c]
    post := [a, b, c]
    body :=
      blk [
        act (.init x),
        uses [x, c],
        uses [a, b, x],
        act (.clear x)] }

/-- `renf_elem_sub_fmpq`, libeantic/src/renf_elem/sub_fmpq.c:25-29. -/
def renf_elem_sub_fmpq : Fn :=
  let a_elem := 0
  let a_emb := 1
  let b_elem := 2
  let b_emb := 3
  let c := 4
  let nf_nf := 5
  let nf_der := 6
  let nf_emb := 7
  { name := "renf_elem_sub_fmpq"
    objs := 8, ints := 0
    pre := [a_elem, a_emb, b_elem, b_emb, c, nf_nf, nf_der, nf_emb]
    post := [a_elem, a_emb, b_elem, b_emb, c, nf_nf, nf_der, nf_emb]
    body :=
      blk [
        uses [a_elem, b_elem, c, nf_nf],
        uses [a_emb, b_emb, c]] }

/-- `renf_elem_sub_fmpz`, libeantic/src/renf_elem/sub_fmpz.c:16-20. -/
def renf_elem_sub_fmpz : Fn :=
  let a_elem := 0
  let a_emb := 1
  let b_elem := 2
  let b_emb := 3
  let c := 4
  let nf_nf := 5
  let nf_der := 6
  let nf_emb := 7
  { name := "renf_elem_sub_fmpz"
    objs := 8, ints := 0
    pre := [a_elem, a_emb, b_elem, b_emb, c, nf_nf, nf_der, nf_emb]
    post := [a_elem, a_emb, b_elem, b_emb, c, nf_nf, nf_der, nf_emb]
    body :=
      blk [
        uses [a_elem, b_elem, c, nf_nf],
        uses [a_emb, b_emb, c]] }

/-- `renf_elem_sub_si`, libeantic/src/renf_elem/sub_si.c:16-20. -/
def renf_elem_sub_si : Fn :=
  let a_elem := 0
  let a_emb := 1
  let b_elem := 2
  let b_emb := 3
  let nf_nf := 4
  let nf_der := 5
  let nf_emb := 6
  { name := "renf_elem_sub_si"
    objs := 7, ints := 0
    pre := [a_elem, a_emb, b_elem, b_emb, nf_nf, nf_der, nf_emb]
    post := [a_elem, a_emb, b_elem, b_emb, nf_nf, nf_der, nf_emb]
    body :=
      blk [
        uses [a_elem, b_elem, nf_nf],
        uses [a_emb, b_emb]] }

/-- `renf_elem_sub_ui`, libeantic/src/renf_elem/sub_ui.c:16-24. -/
def renf_elem_sub_ui : Fn :=
  let a_elem := 0
  let a_emb := 1
  let b_elem := 2
  let b_emb := 3
  let nf_nf := 4
  let nf_der := 5
  let nf_emb := 6
  let tmp := 7
  { name := "renf_elem_sub_ui"
    objs := 8, ints := 0
    pre := [a_elem, a_emb, b_elem, b_emb, nf_nf, nf_der, nf_emb]
    post := [a_elem, a_emb, b_elem, b_emb, nf_nf, nf_der, nf_emb]
    body :=
      blk [
        act (.init tmp),
        uses [tmp],
        uses [a_elem, b_elem, tmp, nf_nf],
        uses [a_emb, b_emb, tmp],
        act (.clear tmp)] }

/-- `renf_elem_zero`, libeantic/src/renf_elem/zero.c:16-20. -/
def renf_elem_zero : Fn :=
  let a_elem := 0
  let a_emb := 1
  let nf_nf := 2
  let nf_der := 3
  let nf_emb := 4
  { name := "renf_elem_zero"
    objs := 5, ints := 0
    pre := [a_elem, a_emb, nf_nf, nf_der, nf_emb]
    post := [a_elem, a_emb, nf_nf, nf_der, nf_emb]
    body :=
      blk [
        uses [a_elem, nf_nf],
        uses [a_emb]] }

/-- All the functions of `libeantic/src`. -/
def library : List Fn :=
  [arb_sgn2,
   fmpq_poly_check_unique_real_root,
   _fmpq_poly_evaluate_arf,
   fmpq_poly_evaluate_arf,
   _fmpq_poly_evaluate_arb,
   fmpq_poly_evaluate_arb,
   _monomial_set_str,
   str_is_varname,
   fmpq_poly_set_str_pretty,
   _fmpz_vec_abs,
   fmpz_poly_abs,
   _fmpz_poly_bisection_step_arf,
   _fmpz_poly_bisection_step_arb,
   fmpz_poly_bisection_step_arb,
   fmpz_poly_num_real_roots_upper_bound,
   _fmpz_poly_descartes_bound_0_1,
   _fmpz_poly_evaluate_arb,
   fmpz_poly_evaluate_arb,
   _fmpz_poly_evaluate_arf,
   fmpz_poly_evaluate_arf,
   fmpz_poly_evaluate_at_one,
   _fmpz_poly_has_real_root,
   fmpz_poly_has_real_root,
   _fmpz_poly_isolate_real_roots_0_1_vca,
   fmpz_poly_isolate_real_roots,
   _fmpz_poly_newton_step_arb,
   fmpz_poly_newton_step_arb,
   fmpz_poly_num_real_roots_0_1,
   fmpz_poly_num_real_roots_0_1_sturm,
   fmpz_poly_num_real_roots_0_1_vca,
   fmpz_poly_num_real_roots_vca,
   _fmpz_poly_positive_root_upper_bound_2exp_local_max,
   _fmpz_poly_positive_root_upper_bound_2exp,
   fmpz_poly_positive_root_upper_bound_2exp,
   fmpz_poly_randtest_irreducible,
   _fmpz_poly_relative_condition_number_2exp,
   fmpz_poly_relative_condition_number_2exp,
   _fmpz_poly_scale_0_1_fmpq,
   fmpz_poly_set_str_pretty,
   fmpz_poly_squarefree_part,
   renf_clear,
   renf_degree,
   nf_equal,
   renf_equal,
   renf_get_str,
   renf_init,
   renf_init_nth_root_fmpq,
   renf_init_set,
   renf_print,
   arb_from_interval,
   renf_randtest,
   renf_refine_embedding,
   renf_set_embeddings_fmpz_poly,
   renf_set_immutable,
   renf_elem_add,
   arb_add_fmpq,
   renf_elem_add_fmpq,
   renf_elem_add_fmpz,
   renf_elem_add_si,
   renf_elem_add_ui,
   renf_elem_check_embedding,
   renf_elem_clear,
   renf_elem_cmp,
   renf_elem_cmp_fmpq,
   renf_elem_cmp_fmpz,
   renf_elem_cmp_si,
   renf_elem_cmp_ui,
   renf_elem_div,
   arb_div_fmpq,
   renf_elem_div_fmpq,
   renf_elem_div_fmpz,
   renf_elem_div_si,
   renf_elem_div_ui,
   renf_elem_equal,
   renf_elem_equal_fmpq,
   renf_elem_equal_fmpz,
   renf_elem_equal_si,
   renf_elem_equal_ui,
   renf_elem_fdiv,
   arb_unique_floor_fmpz,
   renf_elem_floor,
   arb_unique_ceil_fmpz,
   renf_elem_ceil,
   renf_elem_fmpq_div,
   arb_fmpq_sub,
   renf_elem_fmpq_sub,
   renf_elem_gen,
   renf_elem_get_arb,
   renf_elem_get_cfrac,
   renf_elem_overflows_d,
   renf_elem_get_d,
   renf_elem_get_str_pretty,
   renf_elem_init,
   renf_elem_inv,
   renf_elem_is_integer,
   renf_elem_is_one,
   renf_elem_is_rational,
   renf_elem_is_zero,
   renf_elem_mul,
   arb_mul_fmpq,
   renf_elem_mul_fmpq,
   renf_elem_mul_fmpz,
   renf_elem_mul_si,
   renf_elem_mul_ui,
   renf_elem_neg,
   renf_elem_one,
   renf_elem_pow,
   renf_elem_print_pretty,
   renf_elem_randtest,
   renf_elem_relative_condition_number_2exp,
   renf_elem_set,
   renf_elem_set_evaluation,
   renf_elem_set_fmpq,
   renf_elem_set_fmpq_poly,
   renf_elem_set_fmpz,
   renf_elem_set_mpq,
   renf_elem_set_mpz,
   renf_elem_set_nf_elem,
   renf_elem_set_si,
   renf_elem_set_ui,
   renf_elem_sgn,
   renf_elem_sub,
   arb_sub_fmpq,
   renf_elem_sub_fmpq,
   renf_elem_sub_fmpz,
   renf_elem_sub_si,
   renf_elem_sub_ui,
   renf_elem_zero]

end EAntic.Rsc.C
