import Mathlib.Data.List.Basic
import Mathlib.Data.Int.Notation
import Mathlib.Logic.Function.Basic

/-!
# Model of the registry of fields (`srcxx/renf_class.cpp`)

Threads run `renf_class::make`, copy and release intrusive pointers.  Each step below is one access
to shared memory: an atomic update of a reference count, or code executed under `fields_mutex`.
Elements hold an intrusive pointer to their parent, so an element counts as a handle.

Simplifications: memory is sequentially consistent; addresses are not reused (an object identifier
stands for one allocation); `renf_equal` together with the name is an equality test of keys of type
`κ` (but see C19), so that `fields.erase(nf)` removes `nf` itself.
-/

namespace EAntic.Registry

/-- A field object: what `fields_equality` compares, the reference count, and whether it has been
deleted. -/
structure Obj (κ : Type) where
  key : κ
  rc : ℤ
  alive : Bool

/-- Where a thread is in `make` (`renf_class.cpp:94-112`) or `intrusive_ptr_release`
(`renf_class.cpp:288-303`). -/
inductive Pc
  | idle
  /-- line 98: `key` is allocated, waiting for the mutex -/
  | making (o : ℕ)
  /-- line 100: holding the mutex -/
  | making1 (o : ℕ)
  /-- lines 105, 110: about to construct the returned pointer to `o` -/
  | returning (o : ℕ)
  /-- line 297: has decremented the count from 4, waiting for the mutex -/
  | dying (o : ℕ)
  /-- lines 299-301: holding the mutex -/
  | dying1 (o : ℕ)
  deriving DecidableEq

/-- Shared state, program counters and the intrusive pointers held by the threads.  `bad` records an
access to a deleted object or a second deletion. -/
structure State (κ : Type) where
  objs : ℕ → Option (Obj κ)
  next : ℕ
  reg : List ℕ
  lock : Option ℕ
  pc : ℕ → Pc
  handles : List (ℕ × ℕ)
  bad : Bool

variable {κ : Type} [DecidableEq κ]

/-- no fields, no handles -/
def init : State κ := ⟨fun _ => none, 0, [], none, fun _ => .idle, [], false⟩

/-- Steps of threads. -/
inductive Act (κ : Type)
  | new (t : ℕ) (k : κ)
  | lock (t : ℕ)
  | lookup (t : ℕ)
  | finish (t : ℕ)
  | copy (t o : ℕ)
  | give (t t' o : ℕ)
  | release (t o : ℕ)
  | delete (t : ℕ)

namespace State

/-- is the object allocated and not deleted -/
def isAlive (s : State κ) (o : ℕ) : Bool := match s.objs o with
  | some x => x.alive
  | none => false

/-- the key of an object -/
def keyOf (s : State κ) (o : ℕ) : Option κ := (s.objs o).map (·.key)

/-- change the count of `o`; touching a deleted object is recorded -/
def addRc (s : State κ) (o : ℕ) (d : ℤ) : State κ :=
  { s with
    objs := fun i => if i = o then (s.objs i).map fun x => { x with rc := x.rc + d } else s.objs i
    bad := s.bad || !s.isAlive o }

/-- `delete`; deleting twice is recorded -/
def kill (s : State κ) (o : ℕ) : State κ :=
  { s with
    objs := fun i => if i = o then (s.objs i).map fun x => { x with alive := false } else s.objs i
    bad := s.bad || !s.isAlive o }

/-- set a program counter -/
def setPc (s : State κ) (t : ℕ) (p : Pc) : State κ :=
  { s with pc := fun i => if i = t then p else s.pc i }

/-- reference count -/
def rcOf (s : State κ) (o : ℕ) : Option ℤ := (s.objs o).map (·.rc)

end State

/-- One step; `none` if it is not enabled. -/
def step (s : State κ) : Act κ → Option (State κ)
  -- renf_class.cpp:96, 68-79: a new object, the three cached elements hold a pointer to it
  | .new t k =>
    if s.pc t = .idle then
      some ({ s with objs := fun i => if i = s.next then some ⟨k, 3, true⟩ else s.objs i
                     next := s.next + 1 }.setPc t (.making s.next))
    else none
  -- renf_class.cpp:98 and 297
  | .lock t =>
    if s.lock = none then
      match s.pc t with
      | .making o => some ({ s with lock := some t }.setPc t (.making1 o))
      | .dying o => some ({ s with lock := some t }.setPc t (.dying1 o))
      | _ => none
    else none
  -- renf_class.cpp:100-110: find, insert or delete the new object (its destructor drops the three
  -- cached elements, which does not bring the count from 4 to 3)
  | .lookup t =>
    match s.pc t with
    | .making1 o =>
      match s.reg.find? (fun o' => s.keyOf o' = s.keyOf o) with
      | none => some ({ s with reg := o :: s.reg }.setPc t (.returning o))
      | some o' =>
        some ({ s.kill o with bad := (s.kill o).bad || !s.isAlive o' }.setPc t (.returning o'))
    | _ => none
  -- renf_class.cpp:105, 110, 283-285: the returned pointer is constructed, then the mutex released
  | .finish t =>
    match s.pc t with
    | .returning o =>
      some ({ s.addRc o 1 with handles := (t, o) :: s.handles, lock := none }.setPc t .idle)
    | _ => none
  -- copy of a pointer or creation of an element
  | .copy t o =>
    if s.pc t = .idle ∧ (t, o) ∈ s.handles then
      some { s.addRc o 1 with handles := (t, o) :: s.handles }
    else none
  -- move of a pointer or element to another thread
  | .give t t' o =>
    if s.pc t = .idle ∧ (t, o) ∈ s.handles then
      some { s with handles := (t', o) :: s.handles.erase (t, o) }
    else none
  -- renf_class.cpp:289
  | .release t o =>
    if s.pc t = .idle ∧ (t, o) ∈ s.handles then
      let s' := { s.addRc o (-1) with handles := s.handles.erase (t, o) }
      if s.rcOf o = some 4 then some (s'.setPc t (.dying o)) else some s'
    else none
  -- renf_class.cpp:299-301
  | .delete t =>
    match s.pc t with
    | .dying1 o =>
      some ({ s.kill o with reg := s.reg.erase o, lock := none
                            bad := (s.kill o).bad || !decide (o ∈ s.reg) }.setPc t .idle)
    | _ => none

/-- A schedule. -/
def run (s : State κ) : List (Act κ) → Option (State κ)
  | [] => some s
  | a :: as => (step s a).bind fun s' => run s' as

/-- Complete operations of one thread. -/
inductive Op (κ : Type)
  | make (k : κ)
  | copy (o : ℕ)
  | release (o : ℕ)

/-- One complete operation of thread 0. -/
def seqStep (s : State κ) : Op κ → Option (State κ)
  | .make k => run s [.new 0 k, .lock 0, .lookup 0, .finish 0]
  | .copy o => step s (.copy 0 o)
  | .release o =>
    (step s (.release 0 o)).bind fun s' =>
    if s'.pc 0 = .idle then some s' else run s' [.lock 0, .delete 0]

/-- A sequence of complete operations. -/
def seqRun (s : State κ) : List (Op κ) → Option (State κ)
  | [] => some s
  | a :: as => (seqStep s a).bind fun s' => seqRun s' as

end EAntic.Registry
