import Verif.Spec.Threads
import Verif.Model.Concurrent

/-!
# Data races of threads that make fields

What memory a thread is about to access, and whether it writes.  The program is a list of steps of
threads in the order of their execution.
-/

namespace EAntic.Concurrent

/-- Memory that threads may share. -/
inductive Loc where
  /-- the set of all fields -/
  | registry
  /-- the enclosure and the precision of the field object at an address -/
  | field (o : Addr)
  /-- an element of that field -/
  | elem (o : Addr) (n : ℕ)
  deriving DecidableEq

/-- a place in the memory of the field `o` -/
def locOf (o : Addr) : Place → Loc
  | .field => .field o
  | .elem n => .elem o n

/-- The accesses that a thread is about to make.  Deleting a field, or hashing it before that, counts as
writing. -/
def Pc.accesses : Pc → List (Loc × Bool)
  | .idle | .dead | .waiting (.make _) => []
  | .waiting (.drop o) => [(.field o, true)]
  | .scan _ _ _ => [(.registry, true)]
  | .compare (.make _) _ e _ => [(.registry, false), (.field e.1, false)]
  | .compare (.drop o) _ e _ => [(.registry, false), (.field e.1, false), (.field o, false)]
  | .deleting o _ => [(.registry, true), (.field o, true)]
  | .working o _ c => (c.access.map fun a => (locOf o a.1, a.2)).toList

/-- is the thread about to lock the mutex -/
def Pc.waits : Pc → Bool
  | .waiting _ => true
  | _ => false

/-- May the thread make its next accesses now?  (It may not while it waits for the mutex.) -/
def State.CanGo (s : State) (t : ℕ) : Prop := (s.pc t).waits = true → s.lock = none

/-- A data race: one thread is about to write what another is about to read or write. -/
def State.Race (s : State) : Prop :=
  ∃ t u, t ≠ u ∧ s.CanGo t ∧ s.CanGo u ∧ ∃ l w, (l, true) ∈ (s.pc t).accesses ∧ (l, w) ∈ (s.pc u).accesses

/-- Thread `t` makes the field `k` in this program. -/
def Makes (as : List (ℕ × Act)) (t : ℕ) (k : NamedField) : Prop :=
  ∃ E, (t, Act.make k E) ∈ as

/-- Fields made by different threads have different defining polynomials.  (There is no action that
hands a pointer to another thread; but `make` may give the same object to two threads.) -/
def DifferentPolynomials (as : List (ℕ × Act)) : Prop :=
  ∀ t u k k', t ≠ u → Makes as t k → Makes as u k' →
    k.field.nf.pol ≠ k'.field.nf.pol ∨ k.den ≠ k'.den

/-- Is the step the call of a function?  (If not, the thread goes on in a function.) -/
def Act.isCall : Act → Bool
  | .next => false
  | _ => true

/-- An object that was deleted is still in the set of all fields. -/
def State.Dangling (s : State) : Prop := ∃ e ∈ s.reg, s.objs e.1 = none

end EAntic.Concurrent
