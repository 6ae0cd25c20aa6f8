import Mathlib.Data.List.Basic
import Mathlib.Data.Int.Notation

/-!
# Model of the lifetime of one field under the C++ memory model (`srcxx/renf_class.cpp`)

`Registry.lean` interleaves threads over a sequentially consistent memory.  Here the accesses to one
field object are events of an execution; which of them *happen before* which is defined in
`Spec/MemOrder.lean` from the memory orders in the code.

Simplification: the field is not looked up again by `make` after the first pointer was returned (see
C39 for that).
-/

namespace EAntic.MemOrder

/-- An event of an execution; the first argument is the thread. -/
inductive Ev
  /-- any use of the field through a pointer held by the thread, for example in an element -/
  | use (t : ℕ)
  /-- `intrusive_ptr_add_ref`: `fetch_add(1, relaxed)` (`renf_class.cpp:283-285`) -/
  | copy (t : ℕ)
  /-- a pointer, or an element, is handed to thread `u` by synchronised means (thread creation,
  join, a queue with a mutex) -/
  | send (t u : ℕ)
  /-- synchronisation between threads that does not concern the field -/
  | sync (t u : ℕ)
  /-- the thread runs code under `fields_mutex` for another field (`renf_class.cpp:98, 297`) -/
  | locked (t : ℕ)
  /-- `intrusive_ptr_release`: `fetch_sub(1, release)` (`renf_class.cpp:288-289`) -/
  | release (t : ℕ)
  /-- `renf_class.cpp:297-301`: lock the mutex, unregister and delete the field -/
  | delete (t : ℕ)
  deriving DecidableEq

/-- the thread of an event -/
def Ev.tid : Ev → ℕ
  | .use t | .copy t | .send t _ | .sync t _ | .locked t | .release t | .delete t => t

/-- The reference count, the thread of each intrusive pointer in the program, and the thread that
has brought the count from 4 to 3 and has not yet deleted the field. -/
structure St where
  count : ℤ
  holders : List ℕ
  dying : Option ℕ

/-- after `make`: three pointers in the cache (`renf_class.cpp:68-79`) and the one returned to thread
0 -/
def St.init : St := ⟨4, [0], none⟩

/-- Which events may come next, and their effect. -/
def step (s : St) : Ev → Option St
  | .use t => if t ∈ s.holders then some s else none
  | .copy t =>
    if t ∈ s.holders then some { s with count := s.count + 1, holders := t :: s.holders } else none
  | .send t u => if t ∈ s.holders then some { s with holders := u :: s.holders.erase t } else none
  | .sync _ _ => some s
  | .locked _ => some s
  | .release t =>
    if t ∈ s.holders then
      some ⟨s.count - 1, s.holders.erase t, if s.count = 4 then some t else s.dying⟩
    else none
  | .delete t => if s.dying = some t then some { s with dying := none } else none

end EAntic.MemOrder
