import Verif.Model.Access

/-!
# Specification of programs with several threads

`Op.changes` and `Op.uses` say which elements a call may write and which it looks at.  Queries that
evaluate an element store the better enclosure in it, so they change it in this sense.  `Race` is the
condition under which C calls the behaviour of a program undefined: one thread is about to write what
another is about to read or write.
-/

namespace EAntic

/-- Elements that a call may write. -/
def Op.changes : Op → List ℕ
  | .zero a | .one a | .set a _ | .setZ a _ | .setQ a _ | .setPoly a _ _ | .gen a => [a]
  | .swap a b => [a, b]
  | .neg a _ | .add a _ _ | .sub a _ _ | .mul a _ _ | .div a _ _ | .inv a _ | .pow a _ _ => [a]
  | .addZ a _ _ | .subZ a _ _ | .mulZ a _ _ | .divZ a _ _ => [a]
  | .addQ a _ _ | .subQ a _ _ | .qSub a _ _ | .mulQ a _ _ | .divQ a _ _ | .qDiv a _ _ => [a]
  | .refine _ => []
  | .setEvaluation a _ => [a]
  | .checkEmbedding _ _ | .isZero _ | .isOne _ | .isInteger _ | .isRational _ => []
  | .equal _ _ | .equalQ _ _ => []
  | .sgn a | .cmpQ a _ | .floor a | .ceil a | .getArb a _ | .getD a _ => [a]
  | .cmp a b | .fdiv a b => [a, b]
  | .getCfrac rem _ _ => [rem]

/-- Elements that a call reads or writes: all its arguments. -/
def Op.uses : Op → List ℕ
  | .zero a | .one a | .setZ a _ | .setQ a _ | .setPoly a _ _ | .gen a => [a]
  | .set a b | .swap a b | .neg a b | .inv a b | .pow a b _ => [a, b]
  | .add a b c | .sub a b c | .mul a b c | .div a b c => [a, b, c]
  | .addZ a b _ | .subZ a b _ | .mulZ a b _ | .divZ a b _ => [a, b]
  | .addQ a b _ | .subQ a b _ | .qSub a _ b | .mulQ a b _ | .divQ a b _ | .qDiv a _ b => [a, b]
  | .refine _ => []
  | .setEvaluation a _ | .checkEmbedding a _ => [a]
  | .isZero a | .isOne a | .isInteger a | .isRational a | .equalQ a _ => [a]
  | .equal a b | .cmp a b | .fdiv a b => [a, b]
  | .sgn a | .cmpQ a _ | .floor a | .ceil a | .getArb a _ | .getD a _ => [a]
  | .getCfrac rem a _ => [rem, a]

/-- some call of the program may write the element `a` -/
def Changes (ops : List Op) (a : ℕ) : Prop := ∃ op ∈ ops, a ∈ op.changes
/-- some call of the program has the element `a` as an argument -/
def Uses (ops : List Op) (a : ℕ) : Prop := ∃ op ∈ ops, a ∈ op.uses

/-- Places in memory that threads share. -/
inductive Place where
  | elem (n : ℕ)
  | field
  deriving DecidableEq

/-- The next access of a thread to shared memory: where, and whether it writes. -/
def Code.access {β : Type} : Code β → Option (Place × Bool)
  | .get (.user n) _ => some (.elem n, false)
  | .put (.user n) _ _ => some (.elem n, true)
  | .getField _ => some (.field, false)
  | .putField _ _ => some (.field, true)
  | _ => none

/-- A data race: one thread is about to write what another is about to read or write. -/
def Threads.Race {β : Type} (σ : Threads β) : Prop :=
  ∃ t u, t ≠ u ∧ ∃ l w, (σ.code t).access = some (l, true) ∧ (σ.code u).access = some (l, w)

/-- a thread has returned, or stopped otherwise -/
def Code.Done {β : Type} (c : Code β) : Prop := (∃ b, c = .ret b) ∨ ∃ o, c = .stop o

/-- refinement of an immutable field is stopped by the assertion -/
def Threaded.Checks {K : Nf} (E : Threaded K) : Prop := ∀ f p, f.immutable = true → E.refine f p = .abort

end EAntic
