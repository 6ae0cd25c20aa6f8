import Verif.Model.Field

/-!
# Memory of the C library: one field, many elements

The C functions take pointers.  A pointer to an element is a register name, so aliasing of
arguments is equality of names.  `user n` are the elements owned by the caller, `tmp n` the local
variables of the library functions.
-/

namespace EAntic

/-- Pointer to a `renf_elem_t`. -/
inductive Reg where
  | user (n : ℕ)
  | tmp (n : ℕ)
  deriving Repr, DecidableEq

/-- `renf_elem_t` (`e-antic/renf_elem.h`): exact element and enclosing ball. -/
structure Elem where
  elem : NfElem
  emb : Ball
  deriving Repr, DecidableEq

/-- The field and all elements. -/
structure Mem where
  fld : Field
  heap : Reg → Elem

/-- Contents of memory after writing `e` through the pointer `r`. -/
def Mem.write (s : Mem) (r : Reg) (e : Elem) : Mem :=
  { s with heap := fun r' => if r' = r then e else s.heap r' }

/-- A piece of C code: it transforms the memory and returns a value. -/
def M (α : Type) := Mem → Res (α × Mem)

namespace M

instance : Monad M where
  pure a := fun s => .ok (a, s)
  bind m f := fun s =>
    match m s with
    | .ok (a, s') => f a s'
    | .running => .running
    | .abort => .abort
    | .throw w => .throw w
    | .ub => .ub

/-- undefined behaviour -/
def ub {α : Type} : M α := fun _ => .ub
/-- `abort()` or failed `assert` -/
def abort {α : Type} : M α := fun _ => .abort
/-- read the field -/
def field : M Field := fun s => .ok (s.fld, s)
/-- replace the field -/
def setField (f : Field) : M Unit := fun s => .ok ((), { s with fld := f })
/-- read an element -/
def read (r : Reg) : M Elem := fun s => .ok (s.heap r, s)
/-- write an element -/
def write (r : Reg) (e : Elem) : M Unit := fun s => .ok ((), s.write r e)
/-- a call that only fails or returns a value -/
def lift {α : Type} (x : Res α) : M α := fun s =>
  match x with
  | .ok a => .ok (a, s)
  | .running => .running
  | .abort => .abort
  | .throw w => .throw w
  | .ub => .ub

/-- a local variable `r` of type `renf_elem_t`: `renf_elem_init(r)`, the body, `renf_elem_clear(r)`
(`renf_elem/init.c`, `renf_elem/clear.c`: zero element and zero ball in fresh storage).  The old
contents of the name are restored at the end so that calls nest like a stack. -/
def withTmp {α : Type} (r : Reg) (body : M α) : M α := do
  let old ← read r
  let f ← field
  write r ⟨NfElem.init f.nf, Ball.exact 0⟩
  let a ← body
  write r old
  pure a

/-- A loop: `inl` continues, `inr` leaves it. -/
def loop {σ α : Type} (step : σ → M (σ ⊕ α)) : ℕ → σ → M α
  | 0, _ => fun _ => .running
  | n + 1, s => do
    match ← step s with
    | .inl s' => loop step n s'
    | .inr a => pure a

end M

end EAntic
