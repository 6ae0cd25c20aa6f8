import Verif.Model.Ops
import Verif.Spec.Store
import Verif.Spec.CFrac

/-!
# Specification of the calls: a calculator with exact real numbers

`Step K α v op ans v'` says what the call `op` should answer and which numbers the elements should
hold afterwards, in terms of real numbers only.  Two constructors follow the code where the code
departs from its documentation: `gen` in degree one and `qDiv` (see `Props/Elements.lean` for the
proofs that these are wrong).  For `floor` and `ceil` of an element that is zero, and for `getD`
outside the normal range, only the part that the code meets is required here; see C09 and C12.
-/

namespace EAntic

/-- the number that `renf_elem_gen` stores -/
noncomputable def genValue (K : Nf) (α : ℝ) : ℝ :=
  if K.isLinear then (-(K.pol.getD 1 0 : ℝ)) / (K.pol.getD 0 0 : ℝ) else α

/-- Effect and answer of one call on exact real numbers. -/
def Step (K : Nf) (α : ℝ) (v : ℕ → ℝ) (op : Op) (ans : Ans) (v' : ℕ → ℝ) : Prop :=
  let put (a : ℕ) (x : ℝ) : Prop := ans = .unit ∧ v' = Function.update v a x
  match op with
  | .zero a => put a 0
  | .one a => put a 1
  | .set a b => put a (v b)
  | .setZ a c => put a c
  | .setQ a c => put a c
  | .setPoly a num den => put a (realValue α num den)
  | .gen a => put a (genValue K α)
  | .swap a b => ans = .unit ∧ v' = Function.update (Function.update v a (v b)) b (v a)
  | .neg a b => put a (-v b)
  | .add a b c => put a (v b + v c)
  | .sub a b c => put a (v b - v c)
  | .mul a b c => put a (v b * v c)
  | .div a b c => v c ≠ 0 ∧ put a (v b / v c)
  | .inv a b => v b ≠ 0 ∧ put a (v b)⁻¹
  | .pow a b n => put a (v b ^ n)
  | .addZ a b c => put a (v b + c)
  | .subZ a b c => put a (v b - c)
  | .mulZ a b c => put a (v b * c)
  | .divZ a b c => c ≠ 0 ∧ put a (v b / c)
  | .addQ a b c => put a (v b + c)
  | .subQ a b c => put a (v b - c)
  | .qSub a c b => put a (c - v b)
  | .mulQ a b c => put a (v b * c)
  | .divQ a b c => c ≠ 0 ∧ put a (v b / c)
  | .qDiv a b c => v c ≠ 0 ∧ put a (if a = c then b / v c else v c * b)
  | .refine _ => ans = .unit ∧ v' = v
  | .setEvaluation _ _ => ans = .unit ∧ v' = v
  | .checkEmbedding _ _ => ans = .unit ∧ v' = v
  | .isZero a => v' = v ∧ ∃ b, ans = .bool b ∧ (b = true ↔ v a = 0)
  | .isOne a => v' = v ∧ ∃ b, ans = .bool b ∧ (b = true ↔ v a = 1)
  | .isInteger a => v' = v ∧ ∃ b, ans = .bool b ∧ (b = true ↔ ∃ z : ℤ, v a = z)
  | .isRational a => v' = v ∧ ∃ b, ans = .bool b ∧ (b = true ↔ ∃ q : ℚ, v a = q)
  | .equal a b => v' = v ∧ ∃ c, ans = .bool c ∧ (c = true ↔ v a = v b)
  | .equalQ a c => v' = v ∧ ∃ b, ans = .bool b ∧ (b = true ↔ v a = c)
  | .sgn a => v' = v ∧ ans = .int (sgnR (v a))
  | .cmp a b => v' = v ∧ ans = .int (sgnR (v a - v b))
  | .cmpQ a c => v' = v ∧ ans = .int (sgnR (v a - c))
  | .floor a => v' = v ∧ ∃ z, ans = .int z ∧ (v a ≠ 0 ∨ K.degree ≤ 2 → z = ⌊v a⌋)
  | .ceil a => v' = v ∧ ∃ z, ans = .int z ∧ (v a ≠ 0 ∨ K.degree ≤ 2 → z = ⌈v a⌉)
  | .fdiv b c => v' = v ∧ v c ≠ 0 ∧ ans = .int ⌊v b / v c⌋
  | .getArb a prec => v' = v ∧ ∃ m r : ℚ, ans = .ball (.fin m r) ∧ v a ∈ Ball.fin m r ∧
      r * 2 ^ prec ≤ |m|
  | .getD a rnd => v' = v ∧ ∃ d, ans = .dbl d ∧
      ((2 : ℝ) ^ (-1022 : ℤ) ≤ |v a| → |v a| ≤ dblMax → RoundsTo rnd (v a) d)
  | .getCfrac rem a n =>
      v' = Function.update v rem (if v a = 0 then 0 else cfRem (v a) n) ∧
      ans = .terms (if v a = 0 then [] else cfTerms (v a) n)

/-- A sequence of calls on exact real numbers. -/
def Steps (K : Nf) (α : ℝ) : (ℕ → ℝ) → List Op → List Ans → (ℕ → ℝ) → Prop
  | v, [], [], v' => v' = v
  | v, op :: ops, a :: as, v' => ∃ w, Step K α v op a w ∧ Steps K α w ops as v'
  | _, _, _, _ => False

/-- the elements of the caller -/
def usr (v : Reg → ℝ) : ℕ → ℝ := fun n => v (.user n)

end EAntic
