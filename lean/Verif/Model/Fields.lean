import Verif.Model.Make
import Verif.Model.Ops

/-!
# Model of the objects in the registry of fields (`srcxx/renf_class.cpp`)

`Model/Registry.lean` has the interleavings of threads, with abstract keys.  Here one thread uses the
registry, and the keys are what the code has: fields are hashed by the double nearest to their
generator and compared by `renf_equal`, which looks at the enclosures that change with every
refinement.

Simplification: the last pointer to a field is recognised by the number of pointers of the program
(C38 derives this from the reference counts).
-/

namespace EAntic.Fields

/-- A `renf_class` object (`e-antic/renf_class.hpp`): name, the denominator of the defining polynomial,
and memory with the field and the elements in it.  The first three elements are `cache`: zero, one and
the generator (`renf_class.cpp:176-189`).  `E`: the functions of the C library for this field. -/
structure Class where
  K : Nf
  E : Env K
  den : ℤ
  name : List Char
  mem : Mem

/-- what the constructor does with the cached elements (`renf_class.cpp:72-79`) -/
def fillCache {K : Nf} (E : Env K) : M Unit := do
  E.zero (.user 0)
  E.setZ (.user 1) 1
  E.zero (.user 2)
  E.gen (.user 2)

/-- the constructor `renf_class::renf_class(k, gen_name)` (`renf_class.cpp:68-80`) -/
def create (k : NamedField) (E : Env k.field.nf) : Res Class :=
  (fillCache E ⟨renfInitSet k.field, fun _ => ⟨NfElem.init k.field.nf, Ball.exact 0⟩⟩).bind fun p =>
  .ok ⟨k.field.nf, E, k.den, k.name, p.2⟩

/-- `fields_hasher` (`renf_class.cpp:39-41`, `renf_elem_class.cpp:1403-1407`), up to the hash of
doubles: the double nearest to the generator.  Computing it may refine the field. -/
def Class.hash (c : Class) : Res (Dbl × Class) :=
  (c.E.getD (.user 2) .near false c.mem).bind fun p => .ok (p.1, { c with mem := p.2 })

/-- `fields_equality` (`renf_class.cpp:47-51`) -/
def Class.same (c c' : Class) : Bool :=
  renfEqual c.mem.fld c.den c'.mem.fld c'.den && decide (c.name = c'.name)

/-- The objects, by address; `fields` (`renf_class.cpp:55`): their addresses, with the hash they had
when they were entered; the pointers of the program. -/
structure State where
  objs : ℕ → Option Class
  reg : List (ℕ × Dbl)
  next : ℕ
  handles : List ℕ

/-- the beginning of the program -/
def State.init : State := ⟨fun _ => none, [], 0, []⟩

/-- `fields.find(c)`: search the bucket for an entry that is equal to `c`; `bk` gives the number of
the bucket. -/
def State.find (s : State) (bk : Dbl → ℕ) (d : Dbl) (c : Class) : Option (ℕ × Dbl) :=
  s.reg.find? fun e => decide (bk e.2 = bk d) && match s.objs e.1 with
    | some c' => c'.same c
    | none => false

/-- replace the object at an address -/
def State.put (s : State) (o : ℕ) (c : Option Class) : State :=
  { s with objs := fun i => if i = o then c else s.objs i }

/-- What a program does with fields. -/
inductive Op
  /-- `renf_class::make(nf, gen)`, which all other versions of `make` call -/
  | make (k : NamedField) (E : Env k.field.nf)
  /-- copy a pointer, or create an element -/
  | copy (o : ℕ)
  /-- drop a pointer or an element -/
  | release (o : ℕ)
  /-- a call of the C library on elements of the field -/
  | work (o : ℕ) (op : EAntic.Op)

/-- One operation.  Using a field to which there is no pointer is undefined. -/
def step (bk : Dbl → ℕ) (s : State) : Op → Res State
  -- renf_class.cpp:94-112
  | .make k E =>
    (create k E).bind fun c =>
    c.hash.bind fun h =>
    match s.find bk h.1 h.2 with
    | none =>
      .ok { s.put s.next (some h.2) with
            reg := (s.next, h.1) :: s.reg, next := s.next + 1, handles := s.next :: s.handles }
    | some e => .ok { s with handles := e.1 :: s.handles }
  -- renf_class.cpp:283-285
  | .copy o => if o ∈ s.handles then .ok { s with handles := o :: s.handles } else .ub
  -- renf_class.cpp:288-303: the last pointer unregisters and deletes the field
  | .release o =>
    if o ∈ s.handles then
      if o ∈ s.handles.erase o then .ok { s with handles := s.handles.erase o }
      else
        match s.objs o with
        | none => .ub
        | some c =>
          c.hash.bind fun h =>
          match (s.put o (some h.2)).find bk h.1 h.2 with
          | none => .abort
          | some e =>
            .ok { s.put o none with reg := s.reg.erase e, handles := s.handles.erase o }
    else .ub
  | .work o op =>
    if o ∈ s.handles then
      match s.objs o with
      | none => .ub
      | some c => (c.E.exec op c.mem).bind fun p => .ok (s.put o (some { c with mem := p.2 }))
    else .ub

/-- A sequence of operations. -/
def run (bk : Dbl → ℕ) : State → List Op → Res State
  | s, [] => .ok s
  | s, op :: ops => (step bk s op).bind fun s' => run bk s' ops

end EAntic.Fields
