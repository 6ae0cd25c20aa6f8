import Verif.Model.Cxx
import Verif.Spec.Store
import Verif.Spec.Double
import Mathlib.Algebra.Order.Floor.Ring
import Mathlib.Data.Real.Archimedean
import Mathlib.Data.Set.Card

/-!
# Specification of the C++ elements

The state of a program is what every variable holds: nothing, a moved-from element, or a real number
together with the field it is an element of.  `Valid` says which calls a program may make, `Step`
what a call returns and how the state changes, `Throws` when it throws an exception instead.

Two entries follow the code rather than its documentation, see C09 and C12: `floor`, `ceil` of zero
and `toDouble` below the range of normal doubles.
-/

namespace EAntic.Cxx

/-- What a variable holds. -/
inductive Slot where
  /-- no object -/
  | absent
  /-- an element that was moved from -/
  | moved
  /-- the real number `x` as an element of the field `i` -/
  | elem (i : ℕ) (x : ℝ)

/-- the four operations on real numbers -/
noncomputable def BinK.real : BinK → ℝ → ℝ → ℝ
  | .add, a, b => a + b
  | .sub, a, b => a - b
  | .mul, a, b => a * b
  | .div, a, b => a / b

/-- the relations on real numbers -/
def Rel.Holds : Rel → ℝ → ℝ → Prop
  | .eq, a, b => a = b
  | .ne, a, b => a ≠ b
  | .lt, a, b => a < b
  | .gt, a, b => a > b
  | .le, a, b => a ≤ b
  | .ge, a, b => a ≥ b

/-- the value of a number operand -/
def Num.val : Num → ℚ
  | .int _ z => z
  | .mpz z => z
  | .mpq q => q

/-- a number operand is a value of its type -/
def Num.Has (b : Widths) : Num → Prop
  | .int t z => t.Has b z
  | _ => True

/-- a real number is rational -/
def IsRat (x : ℝ) : Prop := ∃ q : ℚ, x = q
/-- a real number is an integer -/
def IsInt (x : ℝ) : Prop := ∃ z : ℤ, x = z

/-- `x` has integer coordinates `l` over the denominator `d`, with respect to the powers of the
generator `α` -/
def HasCoords (α : ℝ) (x : ℝ) (l : List ℤ) (d : ℤ) : Prop :=
  0 < d ∧ x = realValue α l d

/-- `d` is the least denominator of `x` with respect to the powers `1, …, α^(n-1)` -/
def IsDen (α : ℝ) (n : ℕ) (x : ℝ) (d : ℤ) : Prop :=
  (∃ l : List ℤ, l.length = n ∧ HasCoords α x l d) ∧
  ∀ (l : List ℤ) (d' : ℤ), l.length = n → HasCoords α x l d' → d ∣ d'

/-- The field that the result of an operation on `a` in field `i` and `b` in field `j` lives in: that
of the first operand if the second is rational, otherwise that of the second. -/
def ResultField (i : ℕ) (j : ℕ) (b : ℝ) (k : ℕ) : Prop :=
  (i = j ∧ k = i) ∨ (i ≠ j ∧ IsRat b ∧ k = i) ∨ (i ≠ j ∧ ¬ IsRat b ∧ k = j)

/-- The operation on elements of different fields is supported: one of the operands is rational, and
if the environment asks for it one of the fields is the trivial one. -/
def Supported (strict : Bool) (i : ℕ) (a : ℝ) (j : ℕ) (b : ℝ) : Prop :=
  i = j ∨ ((IsRat a ∨ IsRat b) ∧ (strict = true → i = 0 ∨ j = 0))

/-- Calls a program may make: operands are elements that were not moved from, results of
constructors and operators are new variables, divisors are nonzero, native integers are values of
their type, and the documented requirements on arguments. -/
def Valid (L : Lib) (α : ℕ → ℝ) (S : ℕ → Slot) : Cmd → Prop
  | .construct x _ => S x = .absent
  | .constructZ x _ _ => S x = .absent
  | .constructQ x _ _ => S x = .absent
  | .constructInt x _ t z => S x = .absent ∧ t.Has L.bits z
  | .constructVec x k n d => S x = .absent ∧ n.length ≤ (L.K k).degree ∧ 0 < d
  | .constructFrom x _ y => S x = .absent ∧ ∃ j b, S y = .elem j b
  | .copyCtor x y => S x = .absent ∧ ∃ j b, S y = .elem j b
  | .moveCtor x y => S x = .absent ∧ S y ≠ .absent
  | .destroy x => S x ≠ .absent
  | .assignZ x _ => S x ≠ .absent
  | .assignQ x _ => S x ≠ .absent
  | .assignInt x t z => S x ≠ .absent ∧ t.Has L.bits z
  | .copyAssign x y => S x ≠ .absent ∧ ∃ j b, S y = .elem j b
  | .moveAssign x y => S x ≠ .absent ∧ S y ≠ .absent
  | .swap x y => S x ≠ .absent ∧ S y ≠ .absent
  | .binop k x y => (∃ i a, S x = .elem i a) ∧ ∃ j b, S y = .elem j b ∧ (k = .div → b ≠ 0)
  | .binopZ k x z => (∃ i a, S x = .elem i a) ∧ (k = .div → z ≠ 0)
  | .binopQ k x q => (∃ i a, S x = .elem i a) ∧ (k = .div → q ≠ 0)
  | .binopInt k x t z => (∃ i a, S x = .elem i a) ∧ t.Has L.bits z ∧ (k = .div → z ≠ 0)
  | .binary k r x y => S r = .absent ∧ (∃ i a, S x = .elem i a) ∧
      ∃ j b, S y = .elem j b ∧ (k = .div → b ≠ 0)
  | .binaryNum k r x n => S r = .absent ∧ (∃ i a, S x = .elem i a) ∧ n.Has L.bits ∧
      (k = .div → n.val ≠ 0)
  | .numBinary k r n y => S r = .absent ∧ n.Has L.bits ∧
      ∃ j b, S y = .elem j b ∧ (k = .div → b ≠ 0)
  | .neg r x => S r = .absent ∧ ∃ i a, S x = .elem i a
  | .pow r x e => S r = .absent ∧ InS 32 e ∧ ∃ i a, S x = .elem i a ∧ (e < 0 → a ≠ 0 ∧ e ≠ -2 ^ 31)
  | .isZero x => ∃ i a, S x = .elem i a
  | .isOne x => ∃ i a, S x = .elem i a
  | .isInteger x => ∃ i a, S x = .elem i a
  | .isRational x => ∃ i a, S x = .elem i a
  | .toBool x => ∃ i a, S x = .elem i a
  | .eq x y => (∃ i a, S x = .elem i a) ∧ ∃ j b, S y = .elem j b
  | .eqQ x _ => ∃ i a, S x = .elem i a
  | .eqZ x _ => ∃ i a, S x = .elem i a
  | .eqInt x t z => (∃ i a, S x = .elem i a) ∧ t.Has L.bits z
  | .toMpz x => ∃ i a, S x = .elem i a ∧ IsInt a
  | .toMpq x => ∃ i a, S x = .elem i a ∧ IsRat a
  | .num x => ∃ i a, S x = .elem i a ∧ IsRat a
  | .den x => ∃ i a, S x = .elem i a
  | .numVector x => ∃ i a, S x = .elem i a
  | .numContent x => ∃ i a, S x = .elem i a
  | .lt x y => (∃ i a, S x = .elem i a) ∧ ∃ j b, S y = .elem j b
  | .ltQ x _ => ∃ i a, S x = .elem i a
  | .gtQ x _ => ∃ i a, S x = .elem i a
  | .ltInt x t z => (∃ i a, S x = .elem i a) ∧ t.Has L.bits z
  | .gtInt x t z => (∃ i a, S x = .elem i a) ∧ t.Has L.bits z
  | .rel _ x y => (∃ i a, S x = .elem i a) ∧ ∃ j b, S y = .elem j b
  | .relNum _ x n => (∃ i a, S x = .elem i a) ∧ n.Has L.bits
  | .numRel _ n x => (∃ i a, S x = .elem i a) ∧ n.Has L.bits
  | .sgn x => ∃ i a, S x = .elem i a
  | .floor x => ∃ i a, S x = .elem i a
  | .ceil x => ∃ i a, S x = .elem i a
  | .floordiv x y => ∃ i a j b, S x = .elem i a ∧ S y = .elem j b ∧ b ≠ 0 ∧
      (i = j ∨ IsRat a ∨ IsRat b)
  | .toDouble x => ∃ i a, S x = .elem i a

/-- Calls whose answer is found by evaluating the operands with increasing precision. -/
def Cmd.approximates : Cmd → Prop
  | .lt _ _ | .ltQ _ _ | .gtQ _ _ | .ltInt _ _ _ | .gtInt _ _ _ | .sgn _ | .floor _ | .ceil _
  | .floordiv _ _ | .toDouble _ => True
  | .rel o _ _ | .relNum o _ _ | .numRel o _ _ => o ≠ .eq ∧ o ≠ .ne
  | _ => False

/-- What a call returns, and the state after it. -/
def Step (L : Lib) (α : ℕ → ℝ) (S : ℕ → Slot) (c : Cmd) (ans : Val) (S' : ℕ → Slot) : Prop :=
  let put (x i : ℕ) (a : ℝ) : Prop := ans = .unit ∧ S' = Function.update S x (.elem i a)
  let tell (p : Prop) : Prop := S' = S ∧ ∃ b, ans = .bool b ∧ (b = true ↔ p)
  match c with
  | .construct x k => put x k 0
  | .constructZ x k z => put x k z
  | .constructQ x k q => put x k q
  | .constructInt x k _ z => put x k z
  | .constructVec x k n d => put x k (realValue (α k) n d)
  | .constructFrom x k y => ∃ j b, S y = .elem j b ∧ (j = k ∨ IsRat b) ∧ put x k b
  | .copyCtor x y => ∃ j b, S y = .elem j b ∧ put x j b
  | .moveCtor x y => ans = .unit ∧ S' = Function.update (Function.update S y .moved) x (S y)
  | .destroy x => ans = .unit ∧ S' = Function.update S x .absent
  | .assignZ x z => put x 0 z
  | .assignQ x q => put x 0 q
  | .assignInt x _ z => put x 0 z
  | .copyAssign x y => ∃ j b, S y = .elem j b ∧ put x j b
  | .moveAssign x y => ans = .unit ∧
      ((∃ i a, S x = .elem i a) ∧ S' = Function.update (Function.update S x (S y)) y (S x) ∨
       S x = .moved ∧ S' = Function.update (Function.update S y .moved) x (S y))
  | .swap x y => ans = .unit ∧ S' = Function.update (Function.update S x (S y)) y (S x)
  | .binop f x y => ∃ i a j b k, S x = .elem i a ∧ S y = .elem j b ∧ Supported L.strict i a j b ∧
      ResultField i j b k ∧ put x k (f.real a b)
  | .binopZ f x z => ∃ i a, S x = .elem i a ∧ put x i (f.real a z)
  | .binopQ f x q => ∃ i a, S x = .elem i a ∧ put x i (f.real a q)
  | .binopInt f x _ z => ∃ i a, S x = .elem i a ∧ put x i (f.real a z)
  | .binary f r x y => ∃ i a j b k, S x = .elem i a ∧ S y = .elem j b ∧ Supported L.strict i a j b ∧
      ResultField i j b k ∧ put r k (f.real a b)
  | .binaryNum f r x n => ∃ i a, S x = .elem i a ∧ put r i (f.real a n.val)
  | .numBinary f r n y => ∃ j b k, S y = .elem j b ∧
      (if f = .add ∨ f = .mul then k = j else ResultField 0 j b k) ∧ put r k (f.real n.val b)
  | .neg r x => ∃ i a, S x = .elem i a ∧ put r i (-a)
  | .pow r x e => ∃ i a, S x = .elem i a ∧ put r i (a ^ e)
  | .isZero x => ∃ i a, S x = .elem i a ∧ tell (a = 0)
  | .isOne x => ∃ i a, S x = .elem i a ∧ tell (a = 1)
  | .isInteger x => ∃ i a, S x = .elem i a ∧ tell (IsInt a)
  | .isRational x => ∃ i a, S x = .elem i a ∧ tell (IsRat a)
  | .toBool x => ∃ i a, S x = .elem i a ∧ tell (a ≠ 0)
  | .eq x y => ∃ i a j b, S x = .elem i a ∧ S y = .elem j b ∧ (i = j ∨ IsRat a ∨ IsRat b) ∧
      tell (a = b)
  | .eqQ x q => ∃ i a, S x = .elem i a ∧ tell (a = q)
  | .eqZ x z => ∃ i a, S x = .elem i a ∧ tell (a = z)
  | .eqInt x _ z => ∃ i a, S x = .elem i a ∧ tell (a = z)
  | .toMpz x => S' = S ∧ ∃ i a z, S x = .elem i a ∧ ans = .int z ∧ a = z
  | .toMpq x => S' = S ∧ ∃ i a q, S x = .elem i a ∧ ans = .rat q ∧ a = q
  | .num x => S' = S ∧ ∃ i a, ∃ q : ℚ, S x = .elem i a ∧ ans = .int q.num ∧ a = q
  | .den x => S' = S ∧ ∃ i a d, S x = .elem i a ∧ ans = .int d ∧ IsDen (α i) (L.K i).degree a d
  | .numVector x => S' = S ∧ ∃ i a l d, S x = .elem i a ∧ ans = .ints l ∧
      l.length = (L.K i).degree ∧ HasCoords (α i) a l d ∧ IsDen (α i) (L.K i).degree a d
  | .numContent x => S' = S ∧ ∃ i a l d g, S x = .elem i a ∧ ans = .int g ∧
      l.length = (L.K i).degree ∧ HasCoords (α i) a l d ∧ IsDen (α i) (L.K i).degree a d ∧
      0 ≤ g ∧ (∀ n ∈ l, g ∣ n) ∧ ∀ g' : ℤ, (∀ n ∈ l, g' ∣ n) → g' ∣ g
  | .lt x y => ∃ i a j b, S x = .elem i a ∧ S y = .elem j b ∧ (i = j ∨ IsRat a ∨ IsRat b) ∧
      tell (a < b)
  | .ltQ x q => ∃ i a, S x = .elem i a ∧ tell (a < q)
  | .gtQ x q => ∃ i a, S x = .elem i a ∧ tell (q < a)
  | .ltInt x _ z => ∃ i a, S x = .elem i a ∧ tell (a < z)
  | .gtInt x _ z => ∃ i a, S x = .elem i a ∧ tell (z < a)
  | .rel o x y => ∃ i a j b, S x = .elem i a ∧ S y = .elem j b ∧ (i = j ∨ IsRat a ∨ IsRat b) ∧
      tell (o.Holds a b)
  | .relNum o x n => ∃ i a, S x = .elem i a ∧ tell (o.Holds a n.val)
  | .numRel o n x => ∃ i a, S x = .elem i a ∧ tell (o.Holds n.val a)
  | .sgn x => S' = S ∧ ∃ i a, S x = .elem i a ∧ ans = .int (sgnR a)
  | .floor x => S' = S ∧ ∃ i a z, S x = .elem i a ∧ ans = .int z ∧ (a ≠ 0 ∨ (L.K i).degree ≤ 2 → z = ⌊a⌋)
  | .ceil x => S' = S ∧ ∃ i a z, S x = .elem i a ∧ ans = .int z ∧ (a ≠ 0 ∨ (L.K i).degree ≤ 2 → z = ⌈a⌉)
  | .floordiv x y => S' = S ∧ ∃ i a j b z, S x = .elem i a ∧ S y = .elem j b ∧ ans = .int z ∧
      (i = j ∨ a ≠ 0 ∨ ¬ IsRat b ∨ (L.K i).degree ≤ 2 → z = ⌊a / b⌋) ∧
      (IsRat b → Supported L.strict i a j b)
  | .toDouble x => S' = S ∧ ∃ i a d, S x = .elem i a ∧ ans = .dbl d ∧ CastsTo a d

/-- When a call throws, and which exception. -/
def Throws (L : Lib) (S : ℕ → Slot) : Cmd → String → Prop
  | .constructFrom _ k y, _ => ∃ j b, S y = .elem j b ∧ j ≠ k ∧ ¬ IsRat b
  | .binop _ x y, _ => ∃ i a j b, S x = .elem i a ∧ S y = .elem j b ∧ ¬ Supported L.strict i a j b
  | .binary _ _ x y, _ => ∃ i a j b, S x = .elem i a ∧ S y = .elem j b ∧
      ¬ Supported L.strict i a j b
  | .eq x y, _ => ∃ i a j b, S x = .elem i a ∧ S y = .elem j b ∧ ¬ (i = j ∨ IsRat a ∨ IsRat b)
  | .lt x y, _ => ∃ i a j b, S x = .elem i a ∧ S y = .elem j b ∧ ¬ (i = j ∨ IsRat a ∨ IsRat b)
  | .rel _ x y, _ => ∃ i a j b, S x = .elem i a ∧ S y = .elem j b ∧ ¬ (i = j ∨ IsRat a ∨ IsRat b)
  | .floordiv x y, _ => ∃ i a j b, S x = .elem i a ∧ S y = .elem j b ∧ IsRat b ∧
      ¬ Supported L.strict i a j b
  | _, _ => False

/-- Conversions of an element to another field. -/
def Cmd.converts : Cmd → Prop
  | .constructFrom _ _ _ => True
  | _ => False

/-- The cells that have leaked after a call that threw: a conversion may have added one. -/
def LeaksTo (c : Cmd) (Λ Λ' : Set ℕ) : Prop := Λ' = Λ ∨ c.converts ∧ ∃ d, Λ' = insert d Λ

/-- The memory of the process represents the state `S`: fields are in order, every element that was
not moved from owns a cell of its own that was made for its field and holds its number in canonical
form with an enclosure of it, moved-from elements own nothing, and every allocated cell is owned by
an element, except for the cells `Λ` that leaked. -/
structure Rep (L : Lib) (α : ℕ → ℝ) (I : ℕ → Field → Prop) (Λ : Set ℕ) (S : Reg → Slot)
    (w : World) : Prop where
  fld : ∀ i, I i (w.fld i)
  absent : ∀ x, S x = .absent → w.obj x = none
  moved : ∀ x, S x = .moved → ∃ c, w.obj x = some ⟨none, c⟩
  elem : ∀ x i a, S x = .elem i a → ∃ c e, w.obj x = some ⟨some i, c⟩ ∧ w.cell c = some (i, e) ∧
    e.elem.Wf (L.K i) ∧ e.elem.val (α i) = a ∧ a ∈ e.emb
  inj : ∀ x y i j c, w.obj x = some ⟨some i, c⟩ → w.obj y = some ⟨some j, c⟩ → x = y
  owned : ∀ c, w.cell c ≠ none → c ∉ Λ → ∃ x i, w.obj x = some ⟨some i, c⟩
  bound : ∀ c, w.cell c ≠ none → c < w.next

/-- the variables of a program; the library has no variables of its own between calls -/
def vars (S : ℕ → Slot) : Reg → Slot
  | .user x => S x
  | .tmp _ => .absent

/-- The memory represents the variables of the program, and the cells `Λ` leaked. -/
def RepresentsUpTo (L : Lib) (α : ℕ → ℝ) (I : ℕ → Field → Prop) (Λ : Set ℕ) (S : ℕ → Slot)
    (w : World) : Prop :=
  Rep L α I Λ (vars S) w

/-- The memory represents the variables of the program, nothing leaked. -/
abbrev Represents (L : Lib) (α : ℕ → ℝ) (I : ℕ → Field → Prop) (S : ℕ → Slot) (w : World) : Prop :=
  RepresentsUpTo L α I ∅ S w

/-- A program on exact real numbers. -/
def Steps (L : Lib) (α : ℕ → ℝ) : (ℕ → Slot) → List Cmd → List Val → (ℕ → Slot) → Prop
  | S, [], [], S' => S' = S
  | S, c :: cs, a :: as, S' => ∃ T, Step L α S c a T ∧ Steps L α T cs as S'
  | _, _, _, _ => False

/-- Every call of a program is one it may make, whatever the earlier calls returned. -/
def Allowed (L : Lib) (α : ℕ → ℝ) : (ℕ → Slot) → List Cmd → Prop
  | _, [] => True
  | S, c :: cs => Valid L α S c ∧ ∀ a S', Step L α S c a S' → Allowed L α S' cs

/-- A program throws at one of its calls. -/
def ThrowsIn (L : Lib) (α : ℕ → ℝ) : (ℕ → Slot) → List Cmd → String → Prop
  | _, [], _ => False
  | S, c :: cs, s => Throws L S c s ∨ ∃ a S', Step L α S c a S' ∧ ThrowsIn L α S' cs s

/-- A call with exceptions caught: one that throws changes nothing. -/
def TryStep (L : Lib) (α : ℕ → ℝ) (S : ℕ → Slot) (c : Cmd) (r : Except String Val)
    (S' : ℕ → Slot) : Prop :=
  match r with
  | .ok a => Step L α S c a S'
  | .error s => Throws L S c s ∧ S' = S

/-- A program on exact real numbers that catches exceptions. -/
def TrySteps (L : Lib) (α : ℕ → ℝ) :
    (ℕ → Slot) → List Cmd → List (Except String Val) → (ℕ → Slot) → Prop
  | S, [], [], S' => S' = S
  | S, c :: cs, r :: rs, S' => ∃ T, TryStep L α S c r T ∧ TrySteps L α T cs rs S'
  | _, _, _, _ => False

/-- Every call of a program that catches exceptions is one it may make. -/
def TryAllowed (L : Lib) (α : ℕ → ℝ) : (ℕ → Slot) → List Cmd → Prop
  | _, [] => True
  | S, c :: cs => Valid L α S c ∧ ∀ r S', TryStep L α S c r S' → TryAllowed L α S' cs

open Classical in
/-- the number of conversions to another field that threw -/
noncomputable def failedConversions : List Cmd → List (Except String Val) → ℕ
  | c :: cs, .error _ :: rs => (if c.converts then 1 else 0) + failedConversions cs rs
  | _ :: cs, .ok _ :: rs => failedConversions cs rs
  | _, _ => 0

end EAntic.Cxx
