import Verif.Spec.PyNum

/-!
# Specification: programs in Python
-/

namespace EAntic.Py
open Cxx

variable (P : PyEnv) (L : Lib) (α : ℕ → ℝ) (S : ℕ → Slot)

/-- no number and no element -/
def Obj.Odd (o : Obj) : Prop := o = .atom .other ∨ ∃ l, o = .list l

/-- The statements a program may make.  Divisors and what is raised to negative powers are not zero; the
smallest `int` as exponent is excluded (`C74_pow_counterexample`); a list of coefficients needs a field, is not
longer than the degree, and consists of numbers. -/
def PyCmd.Valid : PyCmd → Prop
  | .operator f r lhs rhs => S r = .absent ∧
      ((∃ l m a b, lhs = .atom l ∧ rhs = .atom m ∧ l.Is S a ∧ m.Is S b ∧ (l.IsElem ∨ m.IsElem) ∧
        (f = .div → b ≠ 0)) ∨ lhs.Odd ∨ rhs.Odd)
  | .neg r x => S r = .absent ∧ ∃ i a, S x = .elem i a
  | .pow r x n => S r = .absent ∧ n ≠ -2 ^ 31 ∧ ∃ i a, S x = .elem i a ∧ (n < 0 → a ≠ 0)
  | .make r K v => S r = .absent ∧ ((∃ m a, v = .atom m ∧ m.Is S a) ∨
      ∃ k l qs, K = some k ∧ v = .list l ∧ Numbers l qs ∧ l.length ≤ (L.K k).degree)
  | .zero r _ => S r = .absent

/-- an exception, and nothing has changed -/
def Raises (res : Except String Val) (S' : ℕ → Slot) : Prop := (∃ s, res = .error s) ∧ S' = S

/-- the new variable `r` is an element of field `k` with value `a` -/
def Makes (r k : ℕ) (a : ℝ) (res : Except String Val) (S' : ℕ → Slot) : Prop :=
  res = .ok .unit ∧ S' = Function.update S r (.elem k a)

open Classical in
/-- What a statement does. -/
def PyCmd.Step (c : PyCmd) (res : Except String Val) (S' : ℕ → Slot) : Prop :=
  match c with
  | .operator f r lhs rhs =>
    (∃ l m a b, lhs = .atom l ∧ rhs = .atom m ∧ l.Is S a ∧ m.Is S b ∧ (l.IsElem ∨ m.IsElem) ∧
      if l.Big L.bits ∨ m.Big L.bits ∨ Apart L S l m then Raises S res S'
      else ∃ k, Makes S r k (f.real a b) res S' ∧ ResultIn S f l m k) ∨
    (lhs.Odd ∨ rhs.Odd) ∧ Raises S res S'
  | .neg r x => ∃ i a, S x = .elem i a ∧ Makes S r i (-a) res S'
  | .pow r x n => ∃ i a, S x = .elem i a ∧
      if -2 ^ 31 < n ∧ n < 2 ^ 31 then Makes S r i (a ^ n) res S' else Raises S res S'
  | .make r K v =>
    (∃ m a, v = .atom m ∧ m.Is S a ∧ ¬ m.IsElem ∧
      if ∃ z, m = .int z ∧ P.pick z = none then Raises S res S' else Makes S r (K.getD 0) a res S') ∨
    (∃ y j b, v = .atom (.elem y) ∧ S y = .elem j b ∧
      if K.getD j = j ∨ IsRat b then Makes S r (K.getD j) b res S' else Raises S res S') ∨
    ∃ k l qs, K = some k ∧ v = .list l ∧ Numbers l qs ∧
      if ∃ z, .int z ∈ l ∧ P.pick z = none then Raises S res S' else Makes S r k (value (α k) qs) res S'
  | .zero r K => Makes S r (K.getD 0) 0 res S'

/-- The statements a program may make. -/
def PyStmt.Valid : PyStmt → Prop
  | .py c => c.Valid L S
  | .cxx c => Cxx.Valid L α S c

/-- What a statement does, in exact arithmetic. -/
def PyStmt.Step : PyStmt → Except String Val → (ℕ → Slot) → Prop
  | .py c, res, S' => c.Step P L α S res S'
  | .cxx c, res, S' => TryStep L α S c res S'

/-- A program on exact real numbers. -/
def PySteps : (ℕ → Slot) → List PyStmt → List (Except String Val) → (ℕ → Slot) → Prop
  | S, [], [], S' => S' = S
  | S, c :: cs, r :: rs, S' => ∃ T, c.Step P L α S r T ∧ PySteps T cs rs S'
  | _, _, _, _ => False

/-- Every statement of a program is one it may make. -/
def PyAllowed : (ℕ → Slot) → List PyStmt → Prop
  | _, [] => True
  | S, c :: cs => c.Valid L α S ∧ ∀ r S', c.Step P L α S r S' → PyAllowed S' cs

/-- Statements that evaluate numbers. -/
def PyStmt.approximates : PyStmt → Prop
  | .py _ => False
  | .cxx c => c.approximates

/-- Statements that convert an element to another field. -/
def PyStmt.converts : PyStmt → Prop
  | .py c => ∃ r k y, c = .make r (some k) (.atom (.elem y))
  | .cxx c => c.converts

open Classical in
/-- the number of conversions to another field that raised an exception -/
noncomputable def failed : List PyStmt → List (Except String Val) → ℕ
  | c :: cs, .error _ :: rs => (if c.converts then 1 else 0) + failed cs rs
  | _ :: cs, .ok _ :: rs => failed cs rs
  | _, _ => 0

end EAntic.Py
