import Mathlib.Data.List.Basic
import Mathlib.Logic.Function.Basic
import Mathlib.Data.Int.Notation
import Mathlib.Data.Nat.Notation

/-!
# Objects that own memory in a function

A small language for what a function in C, or in the C style part of C++, does with the objects that own memory (`fmpz_t`, `arb_t`,
polynomials, vectors made by `_fmpz_vec_init`, strings and arrays from `flint_malloc`).  Conditions
are not interpreted: every branch can be taken and every loop can run any number of times, so the
executions of the language contain those of the function.
-/

namespace EAntic.Rsc

/-- What a statement does with an object `v` or with an integer variable `ℓ` used as a length. -/
inductive Act
  /-- `…_init (v)`, `v = flint_malloc (…)`: `v` did not own memory, and now does -/
  | init (v : ℕ)
  /-- `v = _fmpz_vec_init (ℓ)` -/
  | initLen (v ℓ : ℕ)
  /-- `…_clear (v)`, `flint_free (v)` -/
  | clear (v : ℕ)
  /-- `_fmpz_vec_clear (v, ℓ)`: the length has to be the one the vector was made with -/
  | clearLen (v ℓ : ℕ)
  /-- `v` is read or written, by this function or by one that it calls -/
  | use (v : ℕ)
  /-- the pointer `v` is overwritten: it must not own memory -/
  | lose (v : ℕ)
  /-- `ℓ` gets some value -/
  | setInt (ℓ : ℕ)
  /-- `ℓ = m` -/
  | copyInt (ℓ m : ℕ)
  deriving DecidableEq, Repr

/-- The state: `obj v` is `none` when `v` owns no memory, `some none` when it was initialised,
`some (some n)` when it is a vector initialised with `n` entries. -/
structure St where
  obj : ℕ → Option (Option ℤ)
  int : ℕ → ℤ

/-- One action; the outcome `none` is a fault: use of an object that is not initialised, second
initialisation, second release, release with a wrong length, loss of the last pointer to a block. -/
def Act.Step : Act → St → Option St → Prop
  | .init v, s, o =>
      (s.obj v = none ∧ o = some { s with obj := Function.update s.obj v (some none) }) ∨
      (s.obj v ≠ none ∧ o = none)
  | .initLen v ℓ, s, o =>
      (s.obj v = none ∧ o = some { s with obj := Function.update s.obj v (some (some (s.int ℓ))) }) ∨
      (s.obj v ≠ none ∧ o = none)
  | .clear v, s, o =>
      (s.obj v = some none ∧ o = some { s with obj := Function.update s.obj v none }) ∨
      (s.obj v ≠ some none ∧ o = none)
  | .clearLen v ℓ, s, o =>
      (s.obj v = some (some (s.int ℓ)) ∧ o = some { s with obj := Function.update s.obj v none }) ∨
      (s.obj v ≠ some (some (s.int ℓ)) ∧ o = none)
  | .use v, s, o => (s.obj v ≠ none ∧ o = some s) ∨ (s.obj v = none ∧ o = none)
  | .lose v, s, o => (s.obj v = none ∧ o = some s) ∨ (s.obj v ≠ none ∧ o = none)
  | .setInt ℓ, s, o => ∃ z : ℤ, o = some { s with int := Function.update s.int ℓ z }
  | .copyInt ℓ m, s, o => o = some { s with int := Function.update s.int ℓ (s.int m) }

/-- Statements. -/
inductive Stm
  | skip
  | act (a : Act)
  | seq (p q : Stm)
  /-- `if (…) p else q` -/
  | choice (p q : Stm)
  /-- `while (1) p`; a loop with a condition has `choice skip brk` where the condition is tested -/
  | forever (p : Stm)
  /-- the body of a `for`: `continue` goes to its end -/
  | catchCont (p : Stm)
  /-- the body of a `switch`: `break` goes to its end -/
  | catchBrk (p : Stm)
  | brk
  | cont
  /-- `return`, possibly of a pointer to memory that the caller has to free -/
  | ret (v : Option ℕ)
  /-- `throw` of an exception that this function does not catch -/
  | throw
  | abort
  deriving Repr

/-- How a statement ends. -/
inductive Out
  | norm (s : St)
  | brk (s : St)
  | cont (s : St)
  | ret (v : Option ℕ) (s : St)
  | throw (s : St)
  | abort
  | err

/-- The executions of a statement that reach an end or a fault. -/
inductive Exec : Stm → St → Out → Prop
  | skip {s} : Exec .skip s (.norm s)
  | act {a s s'} : a.Step s (some s') → Exec (.act a) s (.norm s')
  | actErr {a s} : a.Step s none → Exec (.act a) s .err
  | seq {p q s s' o} : Exec p s (.norm s') → Exec q s' o → Exec (.seq p q) s o
  | seqExit {p q s o} : Exec p s o → (∀ s', o ≠ .norm s') → Exec (.seq p q) s o
  | left {p q s o} : Exec p s o → Exec (.choice p q) s o
  | right {p q s o} : Exec q s o → Exec (.choice p q) s o
  | next {p s s' o} : Exec p s (.norm s') → Exec (.forever p) s' o → Exec (.forever p) s o
  | nextCont {p s s' o} : Exec p s (.cont s') → Exec (.forever p) s' o → Exec (.forever p) s o
  | leave {p s s'} : Exec p s (.brk s') → Exec (.forever p) s (.norm s')
  | loopRet {p s v s'} : Exec p s (.ret v s') → Exec (.forever p) s (.ret v s')
  | loopThrow {p s s'} : Exec p s (.throw s') → Exec (.forever p) s (.throw s')
  | loopAbort {p s} : Exec p s .abort → Exec (.forever p) s .abort
  | loopErr {p s} : Exec p s .err → Exec (.forever p) s .err
  | catchCont {p s s'} : Exec p s (.cont s') → Exec (.catchCont p) s (.norm s')
  | passCont {p s o} : Exec p s o → (∀ s', o ≠ .cont s') → Exec (.catchCont p) s o
  | catchBrk {p s s'} : Exec p s (.brk s') → Exec (.catchBrk p) s (.norm s')
  | passBrk {p s o} : Exec p s o → (∀ s', o ≠ .brk s') → Exec (.catchBrk p) s o
  | brk {s} : Exec .brk s (.brk s)
  | cont {s} : Exec .cont s (.cont s)
  | ret {v s} : Exec (.ret v) s (.ret v s)
  | throw {s} : Exec .throw s (.throw s)
  | abort {s} : Exec .abort s .abort

/-- A function: its body, the objects that are initialised when it is called (those of its
parameters, but for the parameters it initialises), and those that are initialised when it returns,
apart from a memory block that it returns. -/
structure Fn where
  name : String
  objs : ℕ
  ints : ℕ
  pre : List ℕ
  post : List ℕ
  body : Stm

/-- The state in which the function is called. -/
def Fn.Starts (f : Fn) (s : St) : Prop :=
  ∀ v, s.obj v = if v ∈ f.pre then some none else none

/-- The state in which the function ought to return: nothing is left but what belongs to the caller. -/
def Fn.Ends (f : Fn) (r : Option ℕ) (s : St) : Prop :=
  ∀ v, s.obj v = if v ∈ f.post ∨ r = some v then some none else none

/-- No execution of the function has a fault, whenever it returns nothing is left but what
belongs to the caller, and when it throws an exception everything is as it was when it was called. -/
def Fn.Safe (f : Fn) : Prop :=
  ∀ s o, f.Starts s → Exec f.body s o →
    match o with
    | .norm s' => f.Ends none s'
    | .ret r s' => f.Ends r s'
    | .throw s' => f.Starts s'
    | .abort => True
    | _ => False

/-- No execution of the function has a fault, and whenever it returns, what is left besides the
objects of the caller is one of the lists of objects `ls`. -/
def Fn.Leaves (f : Fn) (ls : List (List ℕ)) : Prop :=
  ∀ s o, f.Starts s → Exec f.body s o →
    match o with
    | .norm s' | .ret _ s' | .throw s' => ∃ l ∈ ls, ∀ v, s'.obj v = if v ∈ f.post ∨ v ∈ l then some none else none
    | .abort => True
    | _ => False

/-- As `Safe`, but when the function throws an exception one of the lists of objects `ls` may be left
besides the objects that were initialised when it was called. -/
def Fn.SafeBut (f : Fn) (ls : List (List ℕ)) : Prop :=
  ∀ s o, f.Starts s → Exec f.body s o →
    match o with
    | .norm s' => f.Ends none s'
    | .ret r s' => f.Ends r s'
    | .throw s' => ∃ l ∈ ls, ∀ v, s'.obj v = if v ∈ f.pre ∨ v ∈ l then some none else none
    | .abort => True
    | _ => False

/-- The function can throw an exception and leave behind exactly the objects `l`, besides those that
were initialised when it was called. -/
def Fn.LeaksOnThrow (f : Fn) (l : List ℕ) : Prop :=
  ∃ s s', f.Starts s ∧ Exec f.body s (.throw s') ∧
    ∀ v, s'.obj v = if v ∈ f.pre ∨ v ∈ l then some none else none

/-- The function can return, without returning a memory block, and leave behind exactly the objects
`l`. -/
def Fn.Leaks (f : Fn) (l : List ℕ) : Prop :=
  ∃ s s', f.Starts s ∧ Exec f.body s (.ret none s') ∧
    ∀ v, s'.obj v = if v ∈ f.post ∨ v ∈ l then some none else none

/-! ## Notation for the generated bodies -/

/-- A sequence of statements. -/
def blk : List Stm → Stm
  | [] => .skip
  | [p] => p
  | p :: ps => .seq p (blk ps)

/-- A statement that uses several objects. -/
def uses (l : List ℕ) : Stm := blk (l.map fun v => .act (.use v))

end EAntic.Rsc
