import Verif.Model.Convert
import Verif.Model.GetD

/-!
# Programs: sequences of calls to the C interface

`Op` lists the functions of `e-antic/renf_elem.h` and `e-antic/renf.h` that read or change elements
and the enclosure of the field.  Pointers to elements of the caller are numbers, so a call in which
arguments alias is one in which numbers are equal.
-/

namespace EAntic

/-- One call; constructors are named after the function they stand for.  The scalar versions for
`slong`, `ulong`, `fmpz_t` (and `mpz_t` for `set`) share one constructor, as do `fmpq_t` and
`mpq_t`. -/
inductive Op where
  | zero (a : ℕ)
  | one (a : ℕ)
  | set (a b : ℕ)
  | setZ (a : ℕ) (c : ℤ)
  | setQ (a : ℕ) (c : ℚ)
  | setPoly (a : ℕ) (num : List ℤ) (den : ℤ)
  | gen (a : ℕ)
  | swap (a b : ℕ)
  | neg (a b : ℕ)
  | add (a b c : ℕ)
  | sub (a b c : ℕ)
  | mul (a b c : ℕ)
  | div (a b c : ℕ)
  | inv (a b : ℕ)
  | pow (a b : ℕ) (n : ℕ)
  | addZ (a b : ℕ) (c : ℤ)
  | subZ (a b : ℕ) (c : ℤ)
  | mulZ (a b : ℕ) (c : ℤ)
  | divZ (a b : ℕ) (c : ℤ)
  | addQ (a b : ℕ) (c : ℚ)
  | subQ (a b : ℕ) (c : ℚ)
  | qSub (a : ℕ) (c : ℚ) (b : ℕ)
  | mulQ (a b : ℕ) (c : ℚ)
  | divQ (a b : ℕ) (c : ℚ)
  | qDiv (a : ℕ) (b : ℚ) (c : ℕ)
  /-- `renf_refine_embedding` -/
  | refine (prec : ℤ)
  | setEvaluation (a : ℕ) (prec : ℤ)
  | checkEmbedding (a : ℕ) (prec : ℤ)
  | isZero (a : ℕ)
  | isOne (a : ℕ)
  | isInteger (a : ℕ)
  | isRational (a : ℕ)
  | equal (a b : ℕ)
  | equalQ (a : ℕ) (c : ℚ)
  | sgn (a : ℕ)
  | cmp (a b : ℕ)
  | cmpQ (a : ℕ) (c : ℚ)
  | floor (a : ℕ)
  | ceil (a : ℕ)
  | fdiv (b c : ℕ)
  | getArb (a : ℕ) (prec : ℤ)
  | getD (a : ℕ) (rnd : Rnd)
  | getCfrac (rem a : ℕ) (n : ℕ)
  deriving Repr

/-- What a call returns. -/
inductive Ans where
  | unit
  | bool (b : Bool)
  | int (z : ℤ)
  | ball (b : Ball)
  | dbl (d : Dbl)
  | terms (l : List ℤ)
  deriving Repr, DecidableEq

namespace Env

variable {K : Nf} (E : Env K)

open M

/-- Execution of one call.  The polynomial given to `setPoly` is an `fmpq_poly_t`, which has a
positive denominator. -/
def exec : Op → M Ans
  | .zero a => do E.zero (.user a); pure .unit
  | .one a => do E.one (.user a); pure .unit
  | .set a b => do E.set (.user a) (.user b); pure .unit
  | .setZ a c => do E.setZ (.user a) c; pure .unit
  | .setQ a c => do E.setQ (.user a) c; pure .unit
  | .setPoly a n d => if d ≤ 0 then ub else do E.setPoly (.user a) n d; pure .unit
  | .gen a => do E.gen (.user a); pure .unit
  | .swap a b => do E.swap (.user a) (.user b); pure .unit
  | .neg a b => do E.neg (.user a) (.user b); pure .unit
  | .add a b c => do E.add (.user a) (.user b) (.user c); pure .unit
  | .sub a b c => do E.sub (.user a) (.user b) (.user c); pure .unit
  | .mul a b c => do E.mul (.user a) (.user b) (.user c); pure .unit
  | .div a b c => do E.div (.user a) (.user b) (.user c); pure .unit
  | .inv a b => do E.inv (.user a) (.user b); pure .unit
  | .pow a b n => do E.pow (.user a) (.user b) n; pure .unit
  | .addZ a b c => do E.addZ (.user a) (.user b) c; pure .unit
  | .subZ a b c => do E.subZ (.user a) (.user b) c; pure .unit
  | .mulZ a b c => do E.mulZ (.user a) (.user b) c; pure .unit
  | .divZ a b c => do E.divZ (.user a) (.user b) c; pure .unit
  | .addQ a b c => do E.addQ (.user a) (.user b) c; pure .unit
  | .subQ a b c => do E.subQ (.user a) (.user b) c; pure .unit
  | .qSub a c b => do E.qSub (.user a) c (.user b); pure .unit
  | .mulQ a b c => do E.mulQ (.user a) (.user b) c; pure .unit
  | .divQ a b c => do E.divQ (.user a) (.user b) c; pure .unit
  | .qDiv a b c => do E.qDiv (.user a) b (.user c); pure .unit
  | .refine p => do E.refineField p; pure .unit
  | .setEvaluation a p => do E.setEvaluation (.user a) p; pure .unit
  | .checkEmbedding a p => do E.checkEmbedding (.user a) p; pure .unit
  | .isZero a => do let b ← E.isZero (.user a); pure (.bool b)
  | .isOne a => do let b ← E.isOne (.user a); pure (.bool b)
  | .isInteger a => do let b ← E.isInteger (.user a); pure (.bool b)
  | .isRational a => do let b ← E.isRational (.user a); pure (.bool b)
  | .equal a b => do let c ← E.equal (.user a) (.user b); pure (.bool c)
  | .equalQ a c => do let b ← E.equalQ (.user a) c; pure (.bool b)
  | .sgn a => do let z ← E.sgn (.user a); pure (.int z)
  | .cmp a b => do let z ← E.cmp (.user a) (.user b); pure (.int z)
  | .cmpQ a c => do let z ← E.cmpQ (.user a) c; pure (.int z)
  | .floor a => do let z ← E.floor (.user a); pure (.int z)
  | .ceil a => do let z ← E.ceil (.user a); pure (.int z)
  | .fdiv b c => do let z ← E.fdiv (.user b) (.user c); pure (.int z)
  | .getArb a p => do let b ← E.getArb (.user a) p; pure (.ball b)
  | .getD a r => do let d ← E.getD (.user a) r; pure (.dbl d)
  | .getCfrac rem a n => do let l ← E.getCfrac (.user rem) (.user a) n; pure (.terms l)

/-- Execution of a sequence of calls; the answers are collected. -/
def run : List Op → M (List Ans)
  | [] => pure []
  | op :: ops => do
    let a ← E.exec op
    let l ← run ops
    pure (a :: l)

end Env

end EAntic
