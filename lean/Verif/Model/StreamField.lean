import Verif.Model.Registry
import Verif.Model.Res

/-!
# Model of the field that is attached to a stream (`srcxx/renf_class.cpp:208-220`, `244-279`)

One thread, with the registry of `Model/Registry.lean`.  A stream holds the address of a field, not an
intrusive pointer.
-/

namespace EAntic.Registry

variable {κ : Type} [DecidableEq κ]

/-- The registry, and for every stream the address in its `pword`. -/
structure SState (κ : Type) where
  reg : State κ
  pword : ℕ → Option ℕ

/-- no fields, no addresses -/
def SState.init : SState κ := ⟨Registry.init, fun _ => none⟩

/-- What a program does. -/
inductive SOp (κ : Type)
  /-- with fields -/
  | op (a : Op κ)
  /-- `o.set_pword(stream)` -/
  | attach (σ o : ℕ)
  /-- `stream >> x` into a new variable; whether the text is that of a number -/
  | read (σ : ℕ) (good : Bool)

/-- `renf_class::get_pword` (`renf_class.cpp:217-220`): a null pointer, or an intrusive pointer made from
the address, which increments the count in the object. -/
def getPword (s : SState κ) (σ : ℕ) : Res (Option ℕ × SState κ) :=
  match s.pword σ with
  | none => .ok (none, s)
  | some o =>
    if s.reg.isAlive o then
      .ok (some o, { s with reg := { s.reg.addRc o 1 with handles := (0, o) :: s.reg.handles } })
    else .ub

/-- one operation, undefined if the program has no right to it -/
def SState.doOp (s : SState κ) (a : Op κ) : Res (SState κ) :=
  match seqStep s.reg a with
  | some r => .ok { s with reg := r }
  | none => .ub

/-- One operation.  `read` (`renf_class.cpp:244-279`): the pointer `nf`, dereferenced in line 276; if the
text is good, a new element which holds a pointer to the field; at the end `nf` is released, also if an
exception is thrown. -/
def sstep (s : SState κ) : SOp κ → Res (SState κ)
  | .op a => s.doOp a
  | .attach σ o =>
    if (0, o) ∈ s.reg.handles then .ok { s with pword := Function.update s.pword σ (some o) } else .ub
  | .read σ good =>
    (getPword s σ).bind fun p =>
    match p.1 with
    | none => .ub
    | some o =>
      (if good then p.2.doOp (.copy o) else .ok p.2).bind fun s' => s'.doOp (.release o)

/-- A program. -/
def srun (s : SState κ) : List (SOp κ) → Res (SState κ)
  | [] => .ok s
  | a :: as => (sstep s a).bind fun s' => srun s' as

end EAntic.Registry
