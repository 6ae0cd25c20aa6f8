import Verif.Model.Archive

/-!
# Model of serialization with JSON archives (`e-antic/cereal.hpp`)

In a JSON archive values have names, and the template `getId` with the node names is the one that is
instantiated (`cereal.hpp:66-87`).  Of `cereal::JSONOutputArchive` and `cereal::JSONInputArchive`
(which are not part of the repository) we model the names, the stack of iterators and the search for
a name (`cereal/archives/json.hpp`: `startNode`, `finishNode`, `setNextName`, `search`,
`getNodeName`, `loadValue`).  The characters of the file are left out: the archive is the value that
RapidJSON returns.
-/

namespace EAntic.Cxx

/-- a JSON value -/
inductive Json where
  | num (n : ℤ)
  | str (s : List Char)
  | obj (m : List (String × Json))
  | arr (l : List Json)

/-! ## Writing -/

/-- `save` of a field (`cereal.hpp:29-53`), with the names of its members; `p` is its address -/
def putFieldJ (o : OutIds) (p : ℕ) (c : Construction) : Json × OutIds :=
  let r := o.register p
  if r.1 &&& msb ≠ 0 then
    (.obj [("id", .num r.1), ("name", .str c.name), ("embedding", .str c.emb),
      ("minpoly", .str c.minpoly), ("precision", .num c.prec)], r.2)
  else (.obj [("id", .num r.1)], r.2)

/-- `save` of an element (`cereal.hpp:123-130`) -/
def putElemJ (o : OutIds) (p : ℕ) (c : Construction) (s : List Char) : Json × OutIds :=
  (.obj [("parent", (putFieldJ o p c).1), ("value", .str s)], (putFieldJ o p c).2)

/-! ## Reading -/

/-- cereal's `Iterator`: the members of an object, or the entries of an array, and an index -/
structure JIter where
  items : List (Option String × Json)
  idx : ℕ

/-- `Iterator::name`: null at the end and in arrays -/
def JIter.name (j : JIter) : Option String := j.items[j.idx]?.bind Prod.fst

/-- `++` of an iterator -/
def JIter.next (j : JIter) : JIter := ⟨j.items, j.idx + 1⟩

/-- `JSONInputArchive::search`: move to the member with that name, unless it is the current one or no
name is given; throws if there is none. -/
def JIter.seek (j : JIter) : Option String → Res JIter
  | none => .ok j
  | some n =>
    if j.name = some n then .ok j
    else
      match j.items.findIdx? fun e => e.1 = some n with
      | some k => .ok ⟨j.items, k⟩
      | none => .throw "cereal"

/-- `Iterator::value`: throws at the end -/
def JIter.value (j : JIter) : Res Json :=
  match j.items[j.idx]? with
  | some e => .ok e.2
  | none => .throw "cereal"

/-- `itsIteratorStack`, the innermost iterator first -/
abbrev JStack := List JIter

/-- the iterator of an object or an array; RapidJSON throws for other values -/
def Json.iter : Json → Res JIter
  | .obj m => .ok ⟨m.map fun e => (some e.1, e.2), 0⟩
  | .arr l => .ok ⟨l.map fun e => (none, e), 0⟩
  | _ => .throw "cereal"

/-- `startNode` -/
def startNode (n : Option String) : JStack → Res JStack
  | [] => .ub
  | j :: st => do
    let j ← j.seek n
    let v ← j.value
    let k ← v.iter
    pure (k :: j :: st)

/-- `finishNode`: leave the innermost object and go to the next value in the one around it -/
def finishNode : JStack → Res JStack
  | _ :: j :: st => .ok (j.next :: st)
  | _ => .ub

/-- `getNodeName` -/
def nodeName : JStack → Option String
  | [] => none
  | j :: _ => j.name

/-- `loadValue` of a string -/
def loadStr (n : Option String) : JStack → Res (List Char × JStack)
  | [] => .ub
  | j :: st => do
    let j ← j.seek n
    match ← j.value with
    | .str s => pure (s, j.next :: st)
    | _ => .throw "cereal"

/-- `loadValue` of an integer of a type with values from `lo` to `hi`; RapidJSON throws for others -/
def loadNum (lo hi : ℤ) (n : Option String) : JStack → Res (ℤ × JStack)
  | [] => .ub
  | j :: st => do
    let j ← j.seek n
    match ← j.value with
    | .num z => if lo ≤ z ∧ z ≤ hi then pure (z, j.next :: st) else .throw "cereal"
    | _ => .throw "cereal"

/-- `getId` for archives with node names (`cereal.hpp:66-87`); the comparisons of lines 73 and 78
read the characters at the pointer that `getNodeName` returns. -/
def getIdJ (st : JStack) : Res (ℕ × JStack) :=
  match nodeName st with
  | none => .ub
  | some n => do
    let st ← if n = "cereal_class_version" then finishNode st else pure st
    match nodeName st with
    | none => .ub
    | some n => do
      let r ← loadNum 0 (2 ^ 32 - 1) (some (if n = "shared" then "shared" else "id")) st
      pure (r.1.toNat, r.2)

/-- `load` of a field (`cereal.hpp:91-121`): what is read after the identifier is read by position -/
def loadFieldJ (F : FieldIO) (i : InIds) (st : JStack) : Res (ℕ × InIds × JStack) := do
  let r ← getIdJ st
  if r.1 &&& msb ≠ 0 then do
    let name ← loadStr none r.2
    let emb ← loadStr none name.2
    let pol ← loadStr none emb.2
    let prec ← loadNum (-2 ^ 63) (2 ^ 63 - 1) none pol.2
    match F.make pol.1 name.1 emb.1 prec.1 with
    | some k => pure (k, (r.1 - msb, k) :: i, prec.2)
    | none => .throw "invalid_argument"
  else if r.1 = 0 then .ub
  else
    match i.lookup r.1 with
    | some k => pure (k, i, r.2)
    | none => .throw "cereal"

/-- the part of `load` of an element before the element is made (`cereal.hpp:135-139`), with
`startNode` of the element: its field and its text -/
def loadTextJ (F : FieldIO) (i : InIds) (n : Option String) (st : JStack) :
    Res ((ℕ × List Char) × InIds × JStack) := do
  let st ← startNode n st
  let st ← startNode (some "parent") st
  let f ← loadFieldJ F i st
  let st ← finishNode f.2.2
  let s ← loadStr (some "value") st
  pure ((f.1, s.1), f.2.1, s.2)

variable (L : Lib) (T : TextLib) (F : FieldIO)

/-- `archive(x)` for an element whose field is at the address `p` at that time -/
def saveElemJ (o : OutIds) (x : Reg) (p : ℕ) : W (Json × OutIds) := do
  let k ← parent x
  let f ← (fun w => .ok (w.fld k, w) : W Field)
  let s ← toString L T x true false false
  pure (putElemJ o p (F.construction k f) s)

/-- the name of a member: the one that is given with `make_nvp`, or `value0`, `value1`, … -/
def memberName (c : ℕ) : Option String → String × ℕ
  | some n => (n, c)
  | none => ("value" ++ ToString.toString c, c + 1)

/-- `archive(x₁); archive(make_nvp("name", x₂)); …`: the members of the file -/
def saveAllJ : ℕ → OutIds → List (Option String × Reg × ℕ) → W (List (String × Json) × OutIds)
  | _, o, [] => pure ([], o)
  | c, o, (n, x, p) :: l => do
    let r ← saveElemJ L T F o x p
    let r' ← saveAllJ (memberName c n).2 r.2 l
    pure (((memberName c n).1, r.1) :: r'.1, r'.2)

/-- `archive(x)` or `archive(make_nvp(n, x))` for an input archive (`cereal.hpp:132-142`); `tmp 0` is
the temporary of line 141 -/
def loadElemJ (i : InIds) (st : JStack) (n : Option String) (x : Reg) : W (InIds × JStack) := fun w =>
  match loadTextJ F i n st with
  | .ok ((k, s), i', st') => (do
      constructStr L T (.tmp 0) k s
      moveAssign x (.tmp 0)
      destroy (.tmp 0)
      match finishNode st' with
      | .ok st'' => pure (i', st'')
      | _ => fun _ => .ub : W (InIds × JStack)) w
  | .throw e => .throw e w
  | .ub => .ub
  | .abort => .abort
  | .running => .running

/-- `archive(x₁); archive(make_nvp("name", x₂)); …` for an input archive -/
def loadAllJ : InIds → JStack → List (Option String × Reg) → W Unit
  | _, _, [] => pure ()
  | i, st, (n, x) :: l => do
    let r ← loadElemJ L T F i st n x
    loadAllJ r.1 r.2 l

/-- a new input archive: the iterator of the outermost object -/
def openJ (m : List (String × Json)) : JStack := [⟨m.map fun e => (some e.1, e.2), 0⟩]

end EAntic.Cxx
