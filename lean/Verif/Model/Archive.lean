import Verif.Model.TextIO

/-!
# Model of serialization (`e-antic/cereal.hpp`)

An archive is a sequence of values.  cereal itself is not part of the repository; of it we model the
bookkeeping of shared pointers (`cereal/cereal.hpp`, `registerSharedPointer`, `getSharedPointer`).
The names in JSON archives, and the branches of `getId` that read files of unreleased versions, are in
`Model/Json.lean`; XML archives are left out.
-/

namespace EAntic.Cxx

/-- a value in an archive -/
inductive Tok where
  | u32 (n : ℕ)
  | str (s : List Char)
  | slong (n : ℤ)
  deriving DecidableEq, Repr

/-- `cereal::detail::msb_32bit` -/
def msb : ℕ := 2 ^ 31

/-- `itsSharedPointerMap` and `itsCurrentPointerId` of an output archive -/
structure OutIds where
  map : List (ℕ × ℕ)
  next : ℕ

/-- a new output archive -/
def OutIds.empty : OutIds := ⟨[], 1⟩

/-- cereal's `registerSharedPointer(address)` of an output archive: a new identifier, with the most
significant bit set, for an address that was not seen before.  Identifiers are `uint32_t`. -/
def OutIds.register (o : OutIds) (p : ℕ) : ℕ × OutIds :=
  match o.map.lookup p with
  | some i => (i, o)
  | none => ((o.next % 2 ^ 32) ||| msb, ⟨(p, o.next % 2 ^ 32) :: o.map, o.next + 1⟩)

/-- `renf_class::construction()`: defining polynomial, name, embedding, precision -/
structure Construction where
  minpoly : List Char
  name : List Char
  emb : List Char
  prec : ℤ

/-- Fields and text: `construction k f` is what `construction()` returns for field `k` in state `f`,
`make` is `renf_class::make(minpoly, name, emb, prec)` (`none`: it throws). -/
structure FieldIO where
  construction : ℕ → Field → Construction
  make : List Char → List Char → List Char → ℤ → Option ℕ

/-- `save` of a field (`cereal.hpp:29-53`); `p` is its address -/
def putField (o : OutIds) (p : ℕ) (c : Construction) : List Tok × OutIds :=
  let r := o.register p
  if r.1 &&& msb ≠ 0 then
    ([.u32 r.1, .str c.name, .str c.emb, .str c.minpoly, .slong c.prec], r.2)
  else ([.u32 r.1], r.2)

/-- `save` of an element (`cereal.hpp:123-130`): its field and its algebraic text -/
def putElem (o : OutIds) (p : ℕ) (c : Construction) (s : List Char) : List Tok × OutIds :=
  ((putField o p c).1 ++ [.str s], (putField o p c).2)

/-- `itsSharedPointerMap` of an input archive -/
abbrev InIds := List (ℕ × ℕ)

/-- `load` of a field (`cereal.hpp:91-121`).  The archive throws if a value is missing or of another
type, and if the identifier is unknown. -/
def getField (F : FieldIO) (i : InIds) (ts : List Tok) : Res (ℕ × InIds × List Tok) :=
  match ts with
  | .u32 n :: ts =>
    if n &&& msb ≠ 0 then
      match ts with
      | .str name :: .str emb :: .str pol :: .slong prec :: ts =>
        match F.make pol name emb prec with
        | some k => .ok (k, (n - msb, k) :: i, ts)
        | none => .throw "invalid_argument"
      | _ => .throw "cereal"
    else if n = 0 then .ub
    else
      match i.lookup n with
      | some k => .ok (k, i, ts)
      | none => .throw "cereal"
  | _ => .throw "cereal"

variable (L : Lib) (T : TextLib) (F : FieldIO)

/-- `archive(x)` for an element whose field is at the address `p` at that time -/
def saveElem (o : OutIds) (x : Reg) (p : ℕ) : W (List Tok × OutIds) := do
  let k ← parent x
  let f ← (fun w => .ok (w.fld k, w) : W Field)
  let s ← toString L T x true false false
  pure (putElem o p (F.construction k f) s)

/-- `archive(x₁); archive(x₂); …` -/
def saveAll : OutIds → List (Reg × ℕ) → W (List Tok × OutIds)
  | o, [] => pure ([], o)
  | o, (x, p) :: l => do
    let r ← saveElem L T F o x p
    let r' ← saveAll r.2 l
    pure (r.1 ++ r'.1, r'.2)

/-- `archive(x)` for an input archive (`cereal.hpp:132-142`); `tmp 0` is the temporary of line 141 -/
def loadElem (i : InIds) (ts : List Tok) (x : Reg) : W (InIds × List Tok) := fun w =>
  match getField F i ts with
  | .ok (k, i', .str s :: ts') => (do
      constructStr L T (.tmp 0) k s
      moveAssign x (.tmp 0)
      destroy (.tmp 0)
      pure (i', ts') : W (InIds × List Tok)) w
  | .ok _ => .throw "cereal" w
  | .throw e => .throw e w
  | .ub => .ub
  | .abort => .abort
  | .running => .running

/-- `archive(x₁); archive(x₂); …` for an input archive -/
def loadAll : InIds → List Tok → List Reg → W (List Tok)
  | _, ts, [] => pure ts
  | i, ts, x :: l => do
    let r ← loadElem L T F i ts x
    loadAll r.1 r.2 l

end EAntic.Cxx
