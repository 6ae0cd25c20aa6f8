import Verif.Model.Access
import Verif.Model.Fields

/-!
# Threads that make fields and compute in them (`srcxx/renf_class.cpp`)

`Model/Registry.lean` has threads with abstract fields, `Model/Fields.lean` one thread with the fields
of the code, `Model/Access.lean` threads that compute in one field.  Here threads make fields, compute
in them with the functions of `Model/Access.lean`, one access to memory at a time, and drop them.  A
lookup in the registry compares the new field with the entries that have the same hash, one after the
other; the comparison reads the enclosure of the entry (`renf/equal.c:17-26`), whoever works in that
field.

Simplifications: as in `Model/Fields.lean` and `Model/Access.lean`; the counts of references, which are
atomic, are replaced by the list of pointers (C38, C39, C60); defining polynomial, denominator and name
of a field are never written after construction, so that reading them is no access; the destructor is
one access; every thread has its own supply of addresses, and none is used twice.
-/

namespace EAntic.Concurrent

open Fields (Class create)

/-- The address of an object: the thread that has constructed it, and a number. -/
abbrev Addr := ℕ × ℕ

/-- Why a thread searches the registry: `make` with the object that it has constructed
(`renf_class.cpp:94-112`), or the release of the last pointer (`renf_class.cpp:288-303`). -/
inductive Job where
  | make (c : Class)
  | drop (o : Addr)

/-- Where a thread is. -/
inductive Pc where
  | idle
  /-- about to lock the mutex (`renf_class.cpp:98, 297`) -/
  | waiting (j : Job)
  /-- with the mutex, in `fields.find` or `fields.erase`: the hash, and the entries not yet looked at -/
  | scan (j : Job) (d : Dbl) (rest : List (Addr × Dbl))
  /-- the entry `e` has the same hash and the same polynomial: about to read its enclosure -/
  | compare (j : Job) (d : Dbl) (e : Addr × Dbl) (rest : List (Addr × Dbl))
  /-- about to unregister the entry `e` and to delete the object `o` (`renf_class.cpp:299-301`) -/
  | deleting (o : Addr) (e : Addr × Dbl)
  /-- in a function of the C library, on elements of the field `o`; `tmp`: its local variables -/
  | working (o : Addr) (tmp : ℕ → Elem) (c : Code Ans)
  /-- the thread was ended by an exception, `abort` or undefined behaviour -/
  | dead

/-- The objects, the registry, the next address for each thread, the holder of the mutex, the pointers of
each thread (thread, address), where the threads are, and what functions of the C library have returned
to each thread, last answer first. -/
structure State where
  objs : Addr → Option Class
  reg : List (Addr × Dbl)
  next : ℕ → ℕ
  lock : Option ℕ
  handles : List (ℕ × Addr)
  pc : ℕ → Pc
  out : ℕ → List Ans

/-- the beginning of the program -/
def State.init : State := ⟨fun _ => none, [], fun _ => 0, none, [], fun _ => .idle, fun _ => []⟩

/-- thread `t` goes on at `p` -/
def State.goto (s : State) (t : ℕ) (p : Pc) : State := { s with pc := Function.update s.pc t p }

/-- replace the object at an address -/
def State.put (s : State) (o : Addr) (c : Option Class) : State :=
  { s with objs := Function.update s.objs o c }

/-- the object that is looked for -/
def State.wanted (s : State) : Job → Option Class
  | .make c => some c
  | .drop o => s.objs o

/-- What a thread does next. -/
inductive Act where
  /-- call `renf_class::make(nf, gen)` (`renf_class.cpp:94-96`) -/
  | make (k : NamedField) (E : Env k.field.nf)
  /-- copy a pointer, or create an element (`renf_class.cpp:283-285`) -/
  | copy (o : Addr)
  /-- drop a pointer or an element (`renf_class.cpp:288-289`) -/
  | release (o : Addr)
  /-- call a function of the C library on elements of the field `o` -/
  | work (o : Addr) (op : EAntic.Op)
  /-- go on in the function that it is in -/
  | next

/-- `nf_equal` (`renf/equal.c:17-20`): the first part of `renf_equal` -/
def samePol (c c' : Class) : Bool := decide (c.K.pol = c'.K.pol) && decide (c.den = c'.den)

/-- The other parts of `fields_equality` (`renf_class.cpp:47-51`, `renf/equal.c:25`). -/
def sameRest (c c' : Class) : Bool :=
  c.mem.fld.emb.overlaps c'.mem.fld.emb && decide (c.name = c'.name)

/-- a thread in a function of the C library makes one access to memory -/
def access (s : State) (t : ℕ) (o : Addr) (tmp : ℕ → Elem) (c : Class) : Code Ans → State
  | .ret a => { s with out := Function.update s.out t (a :: s.out t) }.goto t .idle
  | .stop _ => s.goto t .dead
  | .get (.user n) k => s.goto t (.working o tmp (k (c.mem.heap (.user n))))
  | .get (.tmp n) k => s.goto t (.working o tmp (k (tmp n)))
  | .put (.user n) e k =>
    (s.put o (some { c with mem := c.mem.write (.user n) e })).goto t (.working o tmp k)
  | .put (.tmp n) e k => s.goto t (.working o (Function.update tmp n e) k)
  | .getField k => s.goto t (.working o tmp (k c.mem.fld))
  | .putField f k =>
    (s.put o (some { c with mem := { c.mem with fld := f } })).goto t (.working o tmp k)

/-- Thread `t` goes on; `none` if it has to wait.  `bk` is the hash of a double. -/
def proceed (bk : Dbl → ℕ) (s : State) (t : ℕ) : Pc → Option State
  | .idle => none
  | .dead => none
  -- renf_class.cpp:98-100 and 297-300: the mutex, then the hash of the object
  | .waiting (.make c) =>
    if s.lock = none then
      match c.hash with
      | .ok h => some ({ s with lock := some t }.goto t (.scan (.make h.2) h.1 s.reg))
      | _ => some (s.goto t .dead)
    else none
  | .waiting (.drop o) =>
    if s.lock = none then
      match s.objs o with
      | none => some (s.goto t .dead)
      | some c =>
        match c.hash with
        | .ok h => some (({ s with lock := some t }.put o (some h.2)).goto t (.scan (.drop o) h.1 s.reg))
        | _ => some (s.goto t .dead)
    else none
  -- renf_class.cpp:102-106: not found, enter the new object
  | .scan (.make c) d [] =>
    some (({ s with
      reg := ((t, s.next t), d) :: s.reg, next := Function.update s.next t (s.next t + 1), lock := none
      handles := (t, (t, s.next t)) :: s.handles }.put (t, s.next t) (some c)).goto t .idle)
  -- the assertion in renf_class.cpp:299
  | .scan (.drop _) _ [] => some ({ s with lock := none }.goto t .dead)
  | .scan j d (e :: rest) =>
    if bk e.2 = bk d then
      match s.objs e.1, s.wanted j with
      | some c', some c =>
        if samePol c' c then some (s.goto t (.compare j d e rest))
        else some (s.goto t (.scan j d rest))
      | _, _ => some ({ s with lock := none }.goto t .dead)
    else some (s.goto t (.scan j d rest))
  | .compare j d e rest =>
    match s.objs e.1, s.wanted j with
    | some c', some c =>
      if sameRest c' c then
        match j with
        -- renf_class.cpp:108-110: the new object is deleted
        | .make _ =>
          some ({ s with lock := none, handles := (t, e.1) :: s.handles }.goto t .idle)
        | .drop o => some (s.goto t (.deleting o e))
      else some (s.goto t (.scan j d rest))
    | _, _ => some ({ s with lock := none }.goto t .dead)
  | .deleting o e =>
    some (({ s with reg := s.reg.erase e, lock := none }.put o none).goto t .idle)
  | .working o tmp code =>
    match s.objs o with
    | none => some (s.goto t .dead)
    | some c => some (access s t o tmp c code)

/-- One step of thread `t`; `none` if it is not possible. -/
def step (bk : Dbl → ℕ) (s : State) (t : ℕ) : Act → Option State
  | .next => proceed bk s t (s.pc t)
  | .make k E =>
    match s.pc t, create k E with
    | .idle, .ok c => some (s.goto t (.waiting (.make c)))
    | .idle, _ => some (s.goto t .dead)
    | _, _ => none
  | .copy o =>
    match s.pc t with
    | .idle => if (t, o) ∈ s.handles then some { s with handles := (t, o) :: s.handles } else none
    | _ => none
  | .release o =>
    match s.pc t with
    | .idle =>
      if (t, o) ∈ s.handles then
        let hs := s.handles.erase (t, o)
        if o ∈ hs.map (·.2) then some { s with handles := hs }
        else some ({ s with handles := hs }.goto t (.waiting (.drop o)))
      else none
    | _ => none
  | .work o op =>
    match s.pc t, s.objs o with
    | .idle, some c =>
      if (t, o) ∈ s.handles then
        some (s.goto t (.working o (fun n => c.mem.heap (.tmp n)) (Threaded.exec ⟨c.E⟩ op)))
      else none
    | _, _ => none

/-- The steps of a schedule. -/
def run (bk : Dbl → ℕ) : State → List (ℕ × Act) → Option State
  | s, [] => some s
  | s, a :: as => (step bk s a.1 a.2).bind fun s' => run bk s' as

end EAntic.Concurrent
