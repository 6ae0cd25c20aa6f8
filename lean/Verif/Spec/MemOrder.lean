import Verif.Model.MemOrder

/-!
# Happens-before

The relation of the C++ standard ([intro.races]) for the events of `Model/MemOrder.lean`.  An execution
is a sequence of events, in an order compatible with the modification order of the reference count
and with the order in which the mutex is taken.
-/

namespace EAntic.MemOrder

/-- The execution up to time `n`: every event is possible in the state at its time. -/
def Exec (ev : ℕ → Ev) (st : ℕ → St) (n : ℕ) : Prop :=
  st 0 = .init ∧ ∀ k < n, step (st k) (ev k) = some (st (k + 1))

/-- Does the event touch the field object? -/
def Ev.accesses : Ev → Prop
  | .use _ | .copy _ | .release _ => True
  | _ => False

/-- Is the event executed under `fields_mutex`? -/
def Ev.locks : Ev → Prop
  | .locked _ | .delete _ => True
  | _ => False

/-- Is the event a decrement of the reference count? -/
def Ev.releases : Ev → Prop
  | .release _ => True
  | _ => False

/-- The event at time `i` happens before the event at time `j`.  `acq`: does the decrement of the
count have acquire semantics, as in `memory_order_acq_rel`?  In the code it has not. -/
inductive Hb (acq : Bool) (ev : ℕ → Ev) : ℕ → ℕ → Prop
  /-- program order of a thread -/
  | po {i j : ℕ} : i < j → (ev i).tid = (ev j).tid → Hb acq ev i j
  /-- what the sender did before is visible to the receiver afterwards -/
  | send {i j t u : ℕ} : i < j → ev i = .send t u → (ev j).tid = u → Hb acq ev i j
  | sync {i j t u : ℕ} : i < j → ev i = .sync t u → (ev j).tid = u → Hb acq ev i j
  /-- unlocking the mutex happens before the next locking -/
  | mutex {i j : ℕ} : i < j → (ev i).locks → (ev j).locks → Hb acq ev i j
  /-- a release operation synchronises with the acquire operations that read from its release
  sequence.  Every access to the count is a read-modify-write, so that all later ones do. -/
  | count {i j : ℕ} : acq = true → i < j → (ev i).releases → (ev j).releases → Hb acq ev i j
  | trans {i j k : ℕ} : Hb acq ev i j → Hb acq ev j k → Hb acq ev i k

end EAntic.MemOrder
