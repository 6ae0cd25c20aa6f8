import Verif.Lemmas.FpArb

/-!
# The floating point instance with evaluated results

`forcedArb` is `fpArb`: the same functions.  The results are taken apart into numerals before they are used, so
that the kernel does not evaluate them again and again.
-/

namespace EAntic

/-- evaluate `n`, then go on -/
def forceNat {α : Sort*} (n : ℕ) (f : ℕ → α) : α :=
  match n with
  | 0 => f 0
  | k + 1 => f (k + 1)

theorem forceNat_eq {α : Sort*} (n : ℕ) (f : ℕ → α) : forceNat n f = f n := by cases n <;> rfl

/-- evaluate `n`, then go on -/
def forceInt {α : Sort*} (n : ℤ) (f : ℤ → α) : α :=
  match n with
  | .ofNat k => forceNat k fun k => f (.ofNat k)
  | .negSucc k => forceNat k fun k => f (.negSucc k)

theorem forceInt_eq {α : Sort*} (n : ℤ) (f : ℤ → α) : forceInt n f = f n := by
  cases n <;> simp only [forceInt, forceNat_eq]

/-- evaluate `q`, then go on -/
def forceRat {α : Sort*} (q : ℚ) (f : ℚ → α) : α :=
  forceInt q.num fun n => forceNat q.den fun d => f (mkRat n d)

theorem forceRat_eq {α : Sort*} (q : ℚ) (f : ℚ → α) : forceRat q f = f q := by
  simp only [forceRat, forceInt_eq, forceNat_eq, Rat.mkRat_self]

/-- evaluate a ball -/
def Ball.force (b : Ball) : Ball :=
  match b with
  | .fin m r => forceRat m fun m => forceRat r fun r => .fin m r
  | .whole => .whole

theorem Ball.force_eq (b : Ball) : b.force = b := by
  cases b <;> simp only [Ball.force, forceRat_eq]

open Ball in
/-- `fpArb` with evaluated results -/
def forcedArb : ArbOps where
  add a b p := forceInt p fun p => (fpArb.add a b p).force
  sub a b p := forceInt p fun p => (fpArb.sub a b p).force
  mul a b p := forceInt p fun p => (fpArb.mul a b p).force
  div a b p := forceInt p fun p => (fpArb.div a b p).force
  inv b p := forceInt p fun p => (fpArb.inv b p).force
  powUi a n p := forceInt p fun p => (fpArb.powUi a n p).force
  addFmpz a z p := forceInt p fun p => forceInt z fun z => (fpArb.addFmpz a z p).force
  subFmpz a z p := forceInt p fun p => forceInt z fun z => (fpArb.subFmpz a z p).force
  mulFmpz a z p := forceInt p fun p => forceInt z fun z => (fpArb.mulFmpz a z p).force
  divFmpz a z p := forceInt p fun p => forceInt z fun z => (fpArb.divFmpz a z p).force
  fmpzDivFmpz z w p := forceInt p fun p => forceInt z fun z => forceInt w fun w => (fpArb.fmpzDivFmpz z w p).force
  setFmpq q p := forceInt p fun p => (fpArb.setFmpq q p).force
  rootUi a n p := forceInt p fun p => (fpArb.rootUi a n p).force
  setInterval a b p := forceInt p fun p => (fpArb.setInterval a b p).force
  inter a b p := forceInt p fun p => (fpArb.inter a b p).force
  setRound a p := forceInt p fun p => (fpArb.setRound a p).force
  add_mem h h1 h2 := by rw [forceInt_eq, force_eq]; exact fpArb.add_mem h h1 h2
  sub_mem h h1 h2 := by rw [forceInt_eq, force_eq]; exact fpArb.sub_mem h h1 h2
  mul_mem h h1 h2 := by rw [forceInt_eq, force_eq]; exact fpArb.mul_mem h h1 h2
  div_mem h h0 h1 h2 := by rw [forceInt_eq, force_eq]; exact fpArb.div_mem h h0 h1 h2
  inv_mem h h0 h1 := by rw [forceInt_eq, force_eq]; exact fpArb.inv_mem h h0 h1
  powUi_mem h h1 := by rw [forceInt_eq, force_eq]; exact fpArb.powUi_mem h h1
  addFmpz_mem h h1 := by rw [forceInt_eq, forceInt_eq, force_eq]; exact fpArb.addFmpz_mem h h1
  subFmpz_mem h h1 := by rw [forceInt_eq, forceInt_eq, force_eq]; exact fpArb.subFmpz_mem h h1
  mulFmpz_mem h h1 := by rw [forceInt_eq, forceInt_eq, force_eq]; exact fpArb.mulFmpz_mem h h1
  divFmpz_mem h h0 h1 := by rw [forceInt_eq, forceInt_eq, force_eq]; exact fpArb.divFmpz_mem h h0 h1
  fmpzDivFmpz_mem h h0 := by rw [forceInt_eq, forceInt_eq, forceInt_eq, force_eq]; exact fpArb.fmpzDivFmpz_mem h h0
  setFmpq_mem h := by rw [forceInt_eq, force_eq]; exact fpArb.setFmpq_mem h
  rootUi_mem h h0 h1 h2 := by rw [forceInt_eq, force_eq]; exact fpArb.rootUi_mem h h0 h1 h2
  setInterval_mem h h1 h2 := by rw [forceInt_eq, force_eq]; exact fpArb.setInterval_mem h h1 h2
  inter_mem h h1 h2 := by rw [forceInt_eq, force_eq]; exact fpArb.inter_mem h h1 h2
  setRound_mem h h1 := by rw [forceInt_eq, force_eq]; exact fpArb.setRound_mem h h1
  setRound_tight h h1 := by simp only [forceInt_eq, force_eq]; exact fpArb.setRound_tight h h1

theorem forcedArb_eq : forcedArb = fpArb := by
  simp only [forcedArb, forceInt_eq, Ball.force_eq]

end EAntic
