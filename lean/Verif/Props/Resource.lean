import Verif.Model.Resource
import Verif.Model.ResourceCxx
import Verif.Lemmas.Resource

/-!
# C63: no memory is leaked, and nothing is used before it is initialised or released twice
-/

namespace EAntic.Rsc

open C

/-- **C63** (partial: but for one function).  On every path through a function of the C library,
whichever branches are taken and however often the loops run: an object is initialised before it is
used and not initialised twice, it is released once and with the length it was made with, and when
the function returns nothing is left but what belongs to the caller. -/
theorem C63_resources_partial :
    ∀ f ∈ library, f.name ≠ "fmpq_poly_check_unique_real_root" → f.Safe := by
  intro f hf hn
  have h : library.all (fun f => f.name == "fmpq_poly_check_unique_real_root" || f.check) = true := by
    decide +kernel
  rw [List.all_eq_true] at h
  have := h f hf
  rw [Bool.or_eq_true, beq_iff_eq] at this
  exact Fn.check_sound (this.resolve_left hn)

/-- **C63** for the function left out above: it has no fault either, but when it returns the objects
`l` and `r` (numbers 5 and 6), or `b`, `l` and `r` (numbers 3, 5 and 6), may be left. -/
theorem C63_check_unique_partial :
    fmpq_poly_check_unique_real_root.Leaves [[], [5, 6], [3, 5, 6]] :=
  Fn.leaves_sound (by decide +kernel)

/-- The objects that `fmpq_poly_check_unique_real_root` leaves are really left on some of its paths:
`l` and `r` when it has counted the roots, `b`, `l` and `r` when the signs at the ends of the
enclosure are not opposite. -/
theorem C63_check_unique_leaks :
    fmpq_poly_check_unique_real_root.Leaks [5, 6] ∧ fmpq_poly_check_unique_real_root.Leaks [3, 5, 6] :=
  ⟨Fn.leaks_sound (by decide +kernel), Fn.leaks_sound (by decide +kernel)⟩

/-- Hence the property is false of that function, and of the library as a whole. -/
theorem C63_counterexample : ¬ ∀ f ∈ library, f.Safe := by
  intro h
  have hf : fmpq_poly_check_unique_real_root ∈ library := by
    unfold library
    exact List.mem_cons_of_mem _ List.mem_cons_self
  obtain ⟨s, s', h1, h2, h3⟩ := C63_check_unique_leaks.1
  have h4 : s'.obj 5 = none := h _ hf s _ h1 h2 5
  have h5 : s'.obj 5 = some none := h3 5
  rw [h4] at h5
  cases h5

/-! ## The C++ layer -/

/-- The functions of the C++ layer that lose memory when they throw. -/
def leaky : List String :=
  ["renf_elem_class(k, string)", "renf_elem_class(k, element)", "make(minpoly, gen, emb, prec)"]

/-- **C63** for the C++ layer (partial: but for three functions).  Whichever branches are taken, every
object of the C library that a function handles is initialised before it is used and released once;
when the function returns nothing is left but what belongs to the element, to the field or to the
caller, and when it throws an exception everything is as it was when it was called. -/
theorem C63_cxx_partial : ∀ f ∈ Cxx.library, f.name ∉ leaky → f.Safe := by
  intro f hf hn
  have h : Cxx.library.all (fun f => decide (f.name ∈ leaky) || f.check) = true := by decide +kernel
  rw [List.all_eq_true] at h
  have := h f hf
  rw [Bool.or_eq_true, decide_eq_true_eq] at this
  exact Fn.check_sound (this.resolve_left hn)

/-- The three functions are safe as long as they do not throw, and they may throw without losing
anything; but an exception may also leave: the copy of the text (object 4) when a string is not an
element; the parts of the element (objects 0 and 1) when an element cannot be taken to the other
field; the ball and the polynomial (objects 0 and 1) when the function giving the embedding throws,
as it does when a polynomial has no unique root in the given interval. -/
theorem C63_cxx_throw_partial :
    Cxx.fromString.SafeBut [[4]] ∧ Cxx.fromElement.SafeBut [[0, 1]] ∧
    Cxx.makeFieldStr.SafeBut [[], [0, 1]] :=
  ⟨Fn.checkBut_sound (by decide +kernel), Fn.checkBut_sound (by decide +kernel),
    Fn.checkBut_sound (by decide +kernel)⟩

/-- These objects really are left. -/
theorem C63_cxx_counterexample :
    Cxx.fromString.LeaksOnThrow [4] ∧ Cxx.fromElement.LeaksOnThrow [0, 1] ∧
    Cxx.makeFieldStr.LeaksOnThrow [0, 1] :=
  ⟨Fn.leaksOnThrow_sound (by decide +kernel), Fn.leaksOnThrow_sound (by decide +kernel),
    Fn.leaksOnThrow_sound (by decide +kernel)⟩

/-- Hence the property is false of the C++ layer: a constructor that throws leaves an object which
nobody can release. -/
example : ¬ Cxx.fromString.Safe := by
  intro h
  obtain ⟨s, s', h1, h2, h3⟩ := C63_cxx_counterexample.1
  have h4 : s'.obj 4 = none := h s _ h1 h2 4
  have h5 : s'.obj 4 = some none := h3 4
  rw [h4] at h5
  cases h5

open Stm in
/-- With `flint_free (t)` before the `throw` the constructor from a string is safe. -/
example : ({ Cxx.fromString with
    body := blk [
      choice (blk [act (.init 4), uses [4]]) (blk [act (.init 4), uses [4]]),
      act (.init 5), uses [5, 4],
      choice (blk [act (.clear 5), act (.clear 4), throw]) skip,
      Cxx.initA, uses [0, 1, 5], act (.clear 5), act (.clear 4)] } : Fn).Safe :=
  Fn.check_sound (by decide +kernel)

/-! ## The statements say something

The property fails for functions with the usual mistakes, and holds when `l`, `r` and `b` are
released on all the paths of `fmpq_poly_check_unique_real_root`. -/

open Stm in
/-- `fmpq_poly_check_unique_real_root` with the missing calls: what the code ought to be. -/
def checkUniqueFixed : Fn :=
  { fmpq_poly_check_unique_real_root with
    body :=
      blk [
        uses [0],
        choice (ret none) (blk [
          choice
            (blk [act (.init 2), uses [2, 0], uses [1, 2], act (.clear 2), ret none])
            (blk [
              act (.init 3), act (.init 4), act (.init 5), act (.init 6),
              uses [5, 6, 1], uses [3, 5], uses [4, 0, 3], uses [3, 6], uses [4, 0, 3],
              act (.clear 4),
              choice
                (blk [
                  act (.initLen 7 0), uses [7, 0], uses [3, 7, 0, 1], act (.clearLen 7 0), uses [3],
                  choice (blk [act (.clear 5), act (.clear 6), act (.clear 3), ret none]) skip])
                (blk [act (.clear 5), act (.clear 6), act (.clear 3), ret none]),
              act (.clear 3), act (.init 9), act (.init 10), uses [9, 5], uses [10, 6],
              act (.clear 5), act (.clear 6),
              act (.init 8), uses [8, 0], uses [8, 9, 10], act (.clear 8), act (.clear 9),
              act (.clear 10), ret none])])] }

example : checkUniqueFixed.Safe := Fn.check_sound (by decide +kernel)

/-- There are calls, and executions that come to the end: `renf_elem_cmp` returns, having released
its two temporaries and the difference. -/
example : ∃ s s', renf_elem_cmp.Starts s ∧ Exec renf_elem_cmp.body s (.ret none s') := by
  obtain ⟨s, s', h1, h2, -⟩ := Fn.leaks_sound (f := renf_elem_cmp) (l := []) (by decide +kernel)
  exact ⟨s, s', h1, h2⟩

/-- The string functions return the block that the caller has to free. -/
example : renf_get_str.Safe ∧ renf_elem_get_str_pretty.Safe :=
  ⟨Fn.check_sound (by decide +kernel), Fn.check_sound (by decide +kernel)⟩

/-- A vector released with the current length instead of the one it was made with, after the length
has been changed in a loop, is refused. -/
example : ¬ (Fn.mk "" 1 1 [] []
    (blk [.act (.initLen 0 0), .act (.setInt 0), .act (.clearLen 0 0)])).Safe := by
  intro h
  refine h ⟨fun _ => none, fun _ => 0⟩ .err (fun v => by simp) ?_
  refine .seq (.act (.inl ⟨rfl, rfl⟩)) (.seq (.act ⟨1, rfl⟩) (.actErr (.inr ⟨?_, rfl⟩)))
  simp

/-- Using an object after its release is a fault. -/
example : ¬ (Fn.mk "" 1 0 [0] [] (blk [.act (.clear 0), .act (.use 0)])).Safe := by
  intro h
  refine h ⟨fun v => if v = 0 then some none else none, fun _ => 0⟩ .err (fun v => by simp) ?_
  refine .seq (.act (.inl ⟨rfl, rfl⟩)) (.actErr (.inr ⟨?_, rfl⟩))
  simp

end EAntic.Rsc
