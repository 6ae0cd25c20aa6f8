import Verif.Spec.Cxx
import Verif.Spec.Near

/-!
# Specification: C++ programs that come to an end

Sizes are required in terms of exact real numbers only.
-/

namespace EAntic.Cxx

/-- The library with all loops and the refinements of the fields cut off after `k` rounds. -/
def libs (K : ℕ → Nf) (A : ℕ → ArbOps) (N : ∀ i, NfOps (K i)) (R : ℕ → ℕ → Field → ℤ → Res Field)
    (strict ndebug : Bool) (bits : Widths) (k : ℕ) : Lib :=
  ⟨K, fun i => envs (A i) (N i) (R i) k, strict, ndebug, bits⟩

/-- The piece of code `m` ends from the memory `w`.  `m'` is the same code with overflow of the
working precision of a refinement reported (a C function that reports something aborts).  It returns
a value and a memory satisfying `Post`; or it throws an exception described by `T`; or a refinement
overflows, which is undefined behaviour that is absent if the overflow is reported; or, only if `V`,
it calls `abort`.  The outcome does not depend on the number `k` of rounds after which loops are cut
off. -/
def EndsW {β : Type} (V : Prop) (T : String → World → Prop) (m m' : ℕ → W β) (w : World)
    (Post : β → World → Prop) : Prop :=
  ∃ n : ℕ, (∃ z w', Post z w' ∧ ∀ k, n ≤ k → m k w = .ok (z, w') ∧ m' k w = .ok (z, w')) ∨
    (∃ s w', T s w' ∧ ∀ k, n ≤ k → m k w = .throw s w' ∧ m' k w = .throw s w') ∨
    (∀ k, n ≤ k → m k w = .ub ∧ m' k w = .abort) ∨
    (V ∧ ∀ k, n ≤ k → m k w = .abort ∧ m' k w = .abort)

/-- sizes that a comparison of `a` and `b` in one field needs -/
def CmpSize (K : Nf) (α : ℝ) (p : ℤ) (a b : ℝ) : Prop :=
  Sizeable K α p a ∧ Sizeable K α p b ∧ Sizeable K α p (a - b)

/-- sizes that the floor of `a / b` in one field needs -/
def FdivSize (K : Nf) (α : ℝ) (p : ℤ) (a b : ℝ) : Prop :=
  Sizeable K α p a ∧ Sizeable K α p b ∧ Sizeable K α p (a / b) ∧
    ∀ z : ℤ, |(z : ℝ) - a / b| < 1 → Sizeable K α p (b * z) ∧ Sizeable K α p (b * z - a)

/-- sizes that a comparison of an element `a` of field `i` with an element `b` of field `j` needs:
it is done in the common field, or in the field of the one that is not known to be rational -/
def LtSize (K : ℕ → Nf) (α : ℕ → ℝ) (p : ℕ → ℤ) (i : ℕ) (a : ℝ) (j : ℕ) (b : ℝ) : Prop :=
  CmpSize (K i) (α i) (p i) a b ∧ (i ≠ j → CmpSize (K j) (α j) (p j) b a)

/-- The numbers that occur in a call that evaluates numerically are of moderate size; `p i` is the precision of
field `i`. -/
def SizeOk (K : ℕ → Nf) (α : ℕ → ℝ) (p : ℕ → ℤ) (S : ℕ → Slot) : Cmd → Prop
  | .sgn x => ∀ i a, S x = .elem i a → Sizeable (K i) (α i) (p i) a
  | .floor x => ∀ i a, S x = .elem i a → Sizeable (K i) (α i) (p i) a
  | .ceil x => ∀ i a, S x = .elem i a → Sizeable (K i) (α i) (p i) a
  | .toDouble x => ∀ i a, S x = .elem i a → ∀ r : ℝ, |r| = |a| → Sizeable (K i) (α i) (p i) r ∧
      Sizeable (K i) (α i) (p i) (r - (uintMax : ℚ)) ∧ Sizeable (K i) (α i) (p i) (r - (dblMax : ℚ))
  | .ltQ x q => ∀ i a, S x = .elem i a → CmpSize (K i) (α i) (p i) a q
  | .gtQ x q => ∀ i a, S x = .elem i a → CmpSize (K i) (α i) (p i) a q
  | .ltInt x _ z => ∀ i a, S x = .elem i a → CmpSize (K i) (α i) (p i) a z
  | .gtInt x _ z => ∀ i a, S x = .elem i a → CmpSize (K i) (α i) (p i) a z
  | .relNum _ x n => ∀ i a, S x = .elem i a → CmpSize (K i) (α i) (p i) a n.val
  | .numRel _ n x => ∀ i a, S x = .elem i a → CmpSize (K i) (α i) (p i) a n.val
  | .lt x y => ∀ i a j b, S x = .elem i a → S y = .elem j b → LtSize K α p i a j b
  | .rel _ x y => ∀ i a j b, S x = .elem i a → S y = .elem j b →
      LtSize K α p i a j b ∧ LtSize K α p j b i a
  | .floordiv x y => ∀ i a j b, S x = .elem i a → S y = .elem j b →
      (i = j → FdivSize (K i) (α i) (p i) a b) ∧
      (i ≠ j → IsRat b → Sizeable (K i) (α i) (p i) (a / b)) ∧
      (i ≠ j → IsRat a → FdivSize (K j) (α j) (p j) a b)
  | _ => True

/-- Every call of a program is one it may make and its numbers are of moderate size, whatever the
earlier calls returned. -/
def AllowedSized (L : Lib) (α : ℕ → ℝ) (p : ℕ → ℤ) : (ℕ → Slot) → List Cmd → Prop
  | _, [] => True
  | S, c :: cs => Valid L α S c ∧ SizeOk L.K α p S c ∧
      ∀ a S', Step L α S c a S' → AllowedSized L α p S' cs

/-- The calls that round a number to an integer.  They `abort` if the binary exponent of the
enclosure does not fit into a machine word. -/
def Cmd.rounds : Cmd → Prop
  | .floor _ | .ceil _ | .floordiv _ _ => True
  | _ => False

/-- Fields of the C++ layer with which calls may start: of degree one, or enclosing the root in a
ball of radius at most `δ`, with a precision of at least `p`.  In a build with assertions they must not be immutable. -/
def FieldStart (K : Nf) (α δ : ℝ) (p : ℤ) (ndebug : Bool) (f : Field) : Prop :=
  f.nf = K ∧ α ∈ f.emb ∧ p ≤ f.prec ∧ (3 ≤ K.pol.length → Start K α δ p ndebug f)

end EAntic.Cxx
