import Verif.Model.Ops
import Mathlib.Data.List.DropRight

/-!
# Model of the C++ elements (`srcxx/renf_elem_class.cpp`)

Many fields, many elements.  A `renf_elem_class` is an intrusive pointer to its parent (null once
it was moved from) and a `renf_elem_t`, which refers to storage on the heap.  Copying the struct
`*a` copies the reference, so storage has an identity, the number of a cell; it is allocated by
`renf_elem_init`, released by `renf_elem_clear`, and remembers the field it was made for: using it
as an element of another field, using it after its release, and releasing it twice are undefined
behaviour.  Parents are compared by address, so fields are numbers; field 0 is the trivial field
`renf_class::make()`.  Reference counts are the subject of `Model/Registry.lean`.
-/

namespace EAntic.Cxx

/-- Widths in bits of the integer types and of `slong`, `ulong` of FLINT. -/
structure Widths where
  short : ℕ
  int : ℕ
  long : ℕ
  llong : ℕ
  slong : ℕ

/-- The fields of a program, what the element layer is built on for each of them, whether the
environment variable `LIBEANTIC_STRICT_BINOP` is set, whether assertions are compiled out, and the
widths of the integer types. -/
structure Lib where
  K : ℕ → Nf
  E : ∀ i, Env (K i)
  strict : Bool
  ndebug : Bool
  bits : Widths

/-- `renf_elem_class` -/
structure Obj where
  nf : Option ℕ
  cell : ℕ
  deriving DecidableEq, Repr

/-- Fields, heap cells (with the field they were made for), and the objects by name. -/
structure World where
  fld : ℕ → Field
  cell : ℕ → Option (ℕ × Elem)
  next : ℕ
  obj : Reg → Option Obj

/-- Outcome of running a piece of C++ code, as `Res`.  A C++ exception leaves behind a memory, with
which the program goes on if it catches the exception. -/
inductive Out (β : Type) where
  | ok (p : β × World)
  | running
  | abort
  | throw (what : String) (w : World)
  | ub

/-- A piece of C++ code. -/
abbrev W (β : Type) := World → Out β

namespace W

/-- sequencing -/
def bind {β γ : Type} (m : W β) (f : β → W γ) : W γ := fun w =>
  match m w with
  | .ok (a, w') => f a w'
  | .running => .running
  | .abort => .abort
  | .throw s w' => .throw s w'
  | .ub => .ub

instance : Monad W where
  pure a := fun w => .ok (a, w)
  bind := W.bind

/-- undefined behaviour -/
def ub {β : Type} : W β := fun _ => .ub
/-- a C++ exception -/
def throw {β : Type} (s : String) : W β := fun w => .throw s w
/-- a failed `assert` -/
def assert (L : Lib) (b : Bool) : W Unit := fun w => if b || L.ndebug then .ok ((), w) else .abort
/-- the object with a name; reading a name that is not an object is undefined behaviour -/
def obj (x : Reg) : W Obj := fun w =>
  match w.obj x with
  | some o => .ok (o, w)
  | none => .ub
/-- change or create an object -/
def setObj (x : Reg) (o : Obj) : W Unit := fun w =>
  .ok ((), { w with obj := fun y => if y = x then some o else w.obj y })
/-- end the lifetime of an object -/
def dropObj (x : Reg) : W Unit := fun w =>
  .ok ((), { w with obj := fun y => if y = x then none else w.obj y })
/-- `nf->…`: dereferencing a null pointer is undefined behaviour -/
def deref (p : Option ℕ) : W ℕ := match p with
  | some i => pure i
  | none => ub

end W

open W

variable (L : Lib)

/-- contents of fresh storage of field `i` -/
def fresh (i : ℕ) : Elem := ⟨NfElem.init (L.K i), Ball.exact 0⟩

/-- `renf_elem_init(a, nf)`: returns the new storage -/
def alloc (i : ℕ) : W ℕ := fun w =>
  .ok (w.next, { w with cell := fun c => if c = w.next then some (i, fresh L i) else w.cell c
                        next := w.next + 1 })

/-- `renf_elem_clear(a, nf)` -/
def free (i c : ℕ) : W Unit := fun w =>
  match w.cell c with
  | some (j, _) =>
    if i = j then .ok ((), { w with cell := fun d => if d = c then none else w.cell d }) else .ub
  | none => .ub

/-- The memory that a C function of field `i` sees through pointers to the cells `cs`. -/
def view (w : World) (i : ℕ) (cs : List ℕ) : Mem where
  fld := w.fld i
  heap r := match r with
    | .user c => if c ∈ cs then ((w.cell c).map (·.2)).getD (fresh L i) else fresh L i
    | .tmp _ => fresh L i

/-- is the cell storage of field `i` -/
def owns (w : World) (i c : ℕ) : Bool := match w.cell c with
  | some (j, _) => i == j
  | none => false

/-- A call of a C function of field `i` with pointers to the cells `cs`.  C functions do not throw. -/
def call {β : Type} (i : ℕ) (cs : List ℕ) (m : M β) : W β := fun w =>
  if cs.all (owns w i) then
    match m (view L w i cs) with
    | .ok (a, s) => .ok (a, { w with
        fld := fun j => if j = i then s.fld else w.fld j
        cell := fun c => if c ∈ cs then some (i, s.heap (.user c)) else w.cell c })
    | .running => .running
    | .abort => .abort
    | .throw _ => .abort
    | .ub => .ub
  else .ub

/-- `x.parent()` -/
def parent (x : Reg) : W ℕ := do
  let o ← obj x
  deref o.nf

/-- a call with one element, `op` being given a pointer to it -/
def call1 {β : Type} (x : Reg) (op : (i : ℕ) → Reg → M β) : W β := do
  let o ← obj x
  let i ← deref o.nf
  call L i [o.cell] (op i (.user o.cell))

/-! ## Reading values -/

/-- `renf_elem_class.cpp:707-725` -/
def isZero (x : Reg) : W Bool := call1 L x fun i r => (L.E i).isZero r
@[inherit_doc isZero] def isOne (x : Reg) : W Bool := call1 L x fun i r => (L.E i).isOne r
@[inherit_doc isZero] def isInteger (x : Reg) : W Bool := call1 L x fun i r => (L.E i).isInteger r
@[inherit_doc isZero] def isRational (x : Reg) : W Bool :=
  call1 L x fun i r => (L.E i).isRational r

/-- `renf_elem_class.cpp:35-60`: first numerator; 0 in the generic layout with no numerators -/
def getFmpz (x : Reg) : W ℤ := call1 L x fun i r => do
  let e ← M.read r
  if (L.K i).isLinear then pure e.elem.raw0
  else if (L.K i).isQuadratic then pure e.elem.raw0
  else if e.elem.num.length = 0 then pure 0
  else pure e.elem.raw0

/-- `renf_elem_class.cpp:62-77`: numerator and denominator of a linear element, otherwise
`nf_elem_get_coeff_fmpq` -/
def getFmpq (x : Reg) : W ℚ := call1 L x fun i r => do
  let e ← M.read r
  if (L.K i).isLinear then pure ((e.elem.raw0 : ℚ) / e.elem.den)
  else pure ((e.elem.num.getD 0 0 : ℚ) / e.elem.den)

/-- `renf_elem_class.cpp:797-806`: conversion to `mpz_class` -/
def toMpz (x : Reg) : W ℤ := do
  W.assert L (← isInteger L x)
  getFmpz L x

/-- `renf_elem_class.cpp:808-829`: conversion to `mpq_class`.  `nf_elem_get_fmpq_poly` copies the
numerators and the denominator. -/
def toMpq (x : Reg) : W ℚ := do
  if ← isZero L x then pure 0
  else
    W.assert L (← isRational L x)
    call1 L x fun _ r => do
      let e ← M.read r
      pure ((e.elem.raw0 : ℚ) / e.elem.den)

/-- `renf_elem_class.cpp:732-754`: numerator of a rational element -/
def num (x : Reg) : W ℤ := do
  let o ← obj x
  let i ← deref o.nf
  let e ← call L i [o.cell] (M.read (.user o.cell))
  if (L.K i).isLinear then pure e.elem.raw0
  else if (L.K i).isQuadratic then
    W.assert L (e.elem.num.getD 1 0 == 0)
    pure e.elem.raw0
  else if e.elem.num.length = 0 then pure 0
  else
    W.assert L (e.elem.num.length == 1)
    pure e.elem.raw0

/-- `renf_elem_class.cpp:756-783`: gcd of the numerators (`_fmpz_poly_content` is a contract) -/
def numContent (x : Reg) : W ℤ := do
  let o ← obj x
  let i ← deref o.nf
  let e ← call L i [o.cell] (M.read (.user o.cell))
  if (L.K i).isLinear then
    pure (if e.elem.raw0 < 0 then -e.elem.raw0 else e.elem.raw0)
  else if (L.K i).isQuadratic then
    pure (Int.gcd (e.elem.num.getD 0 0) (e.elem.num.getD 1 0))
  else pure (NfElem.content e.elem.num)

/-- `renf_elem_class.cpp:785-795`: denominator -/
def den (x : Reg) : W ℤ := call1 L x fun _ r => do let e ← M.read r; pure e.elem.den

/-- the numerators that `nf_elem_get_fmpq_poly` stores: without leading zeros -/
def normalise (l : List ℤ) : List ℤ := l.rdropWhile (· == 0)

/-- `renf_elem_class.cpp:831-850`: numerators, as many as the degree -/
def numVector (x : Reg) : W (List ℤ) := call1 L x fun i r => do
  let e ← M.read r
  let l := normalise e.elem.num
  pure (l ++ List.replicate ((L.K i).degree - l.length) 0)

/-! ## Construction, assignment, destruction -/

/-- a constructor that calls `renf_elem_init` and then `f` (`renf_elem_class.cpp:326-399`) -/
def constructWith (x : Reg) (k : ℕ) (f : Reg → M Unit) : W Unit := fun w =>
  match w.obj x with
  | some _ => .ub
  | none => (do
      let c ← alloc L k
      setObj x ⟨some k, c⟩
      call L k [c] (f (.user c)) : W Unit) w

/-- `renf_elem_class(k)` (`renf_elem_class.cpp:326-331`) -/
def construct (x : Reg) (k : ℕ) : W Unit := constructWith L x k fun r => (L.E k).zero r
/-- `renf_elem_class(k, integer)`, `(k, mpz_class)`, `(k, fmpz_t)` -/
def constructZ (x : Reg) (k : ℕ) (z : ℤ) : W Unit :=
  constructWith L x k fun r => (L.E k).setZ r z
/-- `renf_elem_class(k, mpq_class)`, `(k, fmpq_t)` -/
def constructQ (x : Reg) (k : ℕ) (q : ℚ) : W Unit :=
  constructWith L x k fun r => (L.E k).setQ r q

/-- `renf_elem_class(k, coefficients)` (`renf_elem_class.cpp:451-557`): rational coefficients given
by numerators over a common positive denominator -/
def constructVec (x : Reg) (k : ℕ) (num : List ℤ) (den : ℤ) : W Unit := do
  W.assert L (decide (num.length ≤ (L.K k).degree))
  if den ≤ 0 then W.ub
  else
    construct L x k
    let o ← obj x
    call L k [o.cell] ((L.E k).setPoly (.user o.cell) num den)

/-- `renf_elem_class(k, value)` (`renf_elem_class.cpp:439-449`).  If it throws, the object never
existed: the destructor does not run, so the storage that was allocated before is not released. -/
def constructFrom (x : Reg) (k : ℕ) (y : Reg) : W Unit := fun w =>
  match w.obj x with
  | some _ => .ub
  | none => (do
      let oy ← obj y
      let j ← deref oy.nf
      let c ← alloc L k
      setObj x ⟨some k, c⟩
      if j = k then
        call L k [c, oy.cell] ((L.E k).set (.user c) (.user oy.cell))
      else if ← isRational L y then
        let q ← toMpq L y
        call L k [c] ((L.E k).setQ (.user c) q)
      else do
        dropObj x
        W.throw "not implemented: coercion between these number fields" : W Unit) w

/-- copy constructor (`renf_elem_class.cpp:281-282`) -/
def copyCtor (x y : Reg) : W Unit := do
  let k ← parent y
  constructFrom L x k y

/-- move constructor (`renf_elem_class.cpp:284-288`) -/
def moveCtor (x y : Reg) : W Unit := fun w =>
  match w.obj x with
  | some _ => .ub
  | none => (do
      let o ← obj y
      setObj y ⟨none, o.cell⟩
      setObj x o : W Unit) w

/-- destructor (`renf_elem_class.cpp:559-564`) -/
def destroy (x : Reg) : W Unit := do
  let o ← obj x
  let _ ← (match o.nf with
    | some i => free i o.cell
    | none => pure () : W Unit)
  dropObj x

/-- The rest of a block after the local object `x` came into existence.  When an exception leaves the
block, `x` is destroyed (stack unwinding); an exception in the destructor, which is `noexcept`, ends
the process. -/
def unwinding {β : Type} (x : Reg) (m : W β) : W β := fun w =>
  match m w with
  | .throw s w' =>
    match destroy x w' with
    | .ok (_, w'') => .throw s w''
    | .throw _ _ => .abort
    | .running => .running
    | .abort => .abort
    | .ub => .ub
  | .ok p => .ok p
  | .running => .running
  | .abort => .abort
  | .ub => .ub

/-- `if (nf) renf_elem_clear(a, nf->renf_t()); nf = k; renf_elem_init(a, nf->renf_t());` -/
def reparent (x : Reg) (k : ℕ) : W Unit := do
  let o ← obj x
  let _ ← (match o.nf with
    | some i => free i o.cell
    | none => pure () : W Unit)
  let c ← alloc L k
  setObj x ⟨some k, c⟩

/-- `operator=` from an integer or rational (`renf_elem_class.cpp:566-680`): the result lies in the
trivial field -/
def assignWith (x : Reg) (f : Reg → M Unit) : W Unit := do
  let o ← obj x
  let _ ← (if o.nf ≠ some 0 then reparent L x 0 else pure () : W Unit)
  let o ← obj x
  call L 0 [o.cell] (f (.user o.cell))

/-- assignment of an integer -/
def assignZ (x : Reg) (z : ℤ) : W Unit := assignWith L x fun r => (L.E 0).setZ r z
/-- assignment of a rational -/
def assignQ (x : Reg) (q : ℚ) : W Unit := assignWith L x fun r => (L.E 0).setQ r q

/-- copy assignment (`renf_elem_class.cpp:682-692`).  If the source was moved from, the null pointer
is dereferenced. -/
def copyAssign (x y : Reg) : W Unit := do
  let ox ← obj x
  let oy ← obj y
  let _ ← (if ox.nf ≠ oy.nf then do
      let k ← deref oy.nf
      reparent L x k
    else pure () : W Unit)
  let ox ← obj x
  let oy ← obj y
  let k ← deref ox.nf
  call L k [ox.cell, oy.cell] ((L.E k).set (.user ox.cell) (.user oy.cell))

/-- `swap` (`renf_elem_class.cpp:1394-1399`) -/
def swap (x y : Reg) : W Unit := do
  let ox ← obj x
  let oy ← obj y
  setObj x oy
  setObj y ox

/-- move assignment (`renf_elem_class.cpp:694-705`) -/
def moveAssign (x y : Reg) : W Unit := do
  let ox ← obj x
  match ox.nf with
  | some _ => swap x y
  | none =>
    let oy ← obj y
    setObj y ⟨none, oy.cell⟩
    setObj x oy

/-! ## Arithmetic -/

/-- the four operations -/
inductive BinK where
  | add | sub | mul | div
  deriving DecidableEq, Repr

/-- `renf_op` of `binop` -/
def BinK.op {K : Nf} (E : Env K) : BinK → Reg → Reg → Reg → M Unit
  | .add => E.add | .sub => E.sub | .mul => E.mul | .div => E.div
/-- `fmpz_op` of `binop`, also with `slong` and `ulong` -/
def BinK.opZ {K : Nf} (E : Env K) : BinK → Reg → Reg → ℤ → M Unit
  | .add => E.addZ | .sub => E.subZ | .mul => E.mulZ | .div => E.divZ
/-- `fmpq_op` of `binop` -/
def BinK.opQ {K : Nf} (E : Env K) : BinK → Reg → Reg → ℚ → M Unit
  | .add => E.addQ | .sub => E.subQ | .mul => E.mulQ | .div => E.divQ

/-- `renf_elem_class.cpp:79-105`.  `tmp 10` is the temporary of line 101. -/
def coerce (x : Reg) (k : ℕ) : W Unit := do
  let i ← parent x
  if k = i then pure ()
  else if ← isZero L x then
    -- `self = parent.zero()`: copy assignment from the cached zero
    reparent L x k
    let o ← obj x
    call L k [o.cell] ((L.E k).zero (.user o.cell))
  else if ← isInteger L x then
    let z ← getFmpz L x
    reparent L x k
    let o ← obj x
    call L k [o.cell] ((L.E k).zero (.user o.cell))
    call L k [o.cell] ((L.E k).setZ (.user o.cell) z)
  else if ← isRational L x then
    constructFrom L (.tmp 10) k x
    moveAssign x (.tmp 10)
    destroy (.tmp 10)
  else W.throw "not implemented: coercion of non-rational elements"

/-- `x op= y` for elements of the same field -/
def binopSame (b : BinK) (x y : Reg) : W Unit := do
  let ox ← obj x
  let oy ← obj y
  let i ← deref ox.nf
  call L i [ox.cell, oy.cell] (b.op (L.E i) (.user ox.cell) (.user ox.cell) (.user oy.cell))

/-- `x op= z` for an integer -/
def binopZ (b : BinK) (x : Reg) (z : ℤ) : W Unit :=
  call1 L x fun i r => b.opZ (L.E i) r r z
/-- `x op= q` for a rational (`renf_elem_class.cpp:182-191`) -/
def binopQ (b : BinK) (x : Reg) (q : ℚ) : W Unit :=
  call1 L x fun i r => b.opQ (L.E i) r r q

/-- `binop`, operators `+=`, `-=`, `*=`, `/=` (`renf_elem_class.cpp:112-151`).  After `coerce` the
parents are equal, so the recursive call takes the first branch. -/
def binop (b : BinK) (x y : Reg) : W Unit := do
  let i ← parent x
  let j ← parent y
  if i = j then binopSame L b x y
  else if i ≠ 0 ∧ j ≠ 0 ∧ L.strict then W.throw "invalid_argument"
  else if ← isInteger L y then do
    let z ← getFmpz L y
    binopZ L b x z
  else if ← isRational L y then do
    let q ← getFmpq L y
    binopQ L b x q
  else
    coerce L x j
    binopSame L b x y

/-- Binary operators (`boost::ordered_field_operators`): a copy of the left operand is changed in
place and becomes the new object `r`. -/
def binary (b : BinK) (r x y : Reg) : W Unit := do
  copyCtor L r x
  unwinding r (binop L b r y)

/-- unary minus (`renf_elem_class.cpp:911-916`) -/
def neg (r x : Reg) : W Unit := do
  copyCtor L r x
  call1 L r fun i c => (L.E i).neg c c

/-- `renf_elem_class::floor` (`renf_elem_class.cpp:873-884`) -/
def floor (x : Reg) : W ℤ := call1 L x fun i r => (L.E i).floor r
/-- `renf_elem_class::ceil` -/
def ceil (x : Reg) : W ℤ := call1 L x fun i r => (L.E i).ceil r
/-- `renf_elem_class::sgn` -/
def sgn (x : Reg) : W ℤ := call1 L x fun i r => (L.E i).sgn r
/-- conversion to `double` (`renf_elem_class.cpp:904-907`) -/
def toDouble (x : Reg) : W Dbl := call1 L x fun i r => (L.E i).getD r .near L.ndebug

/-- `renf_elem_fdiv(floor, a, rhs.a, nf)` -/
def fdivRaw (x y : Reg) : W ℤ := do
  let ox ← obj x
  let oy ← obj y
  let i ← deref ox.nf
  call L i [ox.cell, oy.cell] ((L.E i).fdiv (.user ox.cell) (.user oy.cell))

/-- `floordiv` (`renf_elem_class.cpp:943-964`); `tmp 11` is the temporary of lines 948 and 950. -/
def floordiv (x y : Reg) : W ℤ := do
  let i ← parent x
  let j ← parent y
  if i ≠ j then
    if ← isRational L y then do
      binary L .div (.tmp 11) x y
      let z ← floor L (.tmp 11)
      destroy (.tmp 11)
      pure z
    else if ← isRational L x then do
      let q ← toMpq L x
      constructQ L (.tmp 11) j q
      let z ← fdivRaw L (.tmp 11) y
      destroy (.tmp 11)
      pure z
    else fdivRaw L x y
  else fdivRaw L x y

/-- smallest `int` -/
def intMin : ℤ := -2 ^ 31

/-- `pow` (`renf_elem_class.cpp:966-981`); `-exp` overflows for the smallest `int` -/
def pow (r x : Reg) (exp : ℤ) : W Unit := do
  let i ← parent x
  construct L r i
  let o ← obj r
  let ox ← obj x
  if exp < 0 then
    call L i [o.cell, ox.cell] ((L.E i).inv (.user o.cell) (.user ox.cell))
    if exp = intMin then W.ub
    else call L i [o.cell] ((L.E i).pow (.user o.cell) (.user o.cell) (-exp).toNat)
  else call L i [o.cell, ox.cell] ((L.E i).pow (.user o.cell) (.user ox.cell) exp.toNat)

/-! ## Comparison -/

/-- `operator==` with a rational (`renf_elem_class.cpp:192-208`) -/
def eqQ (x : Reg) (q : ℚ) : W Bool := do
  if !(← isRational L x) then pure false
  else call1 L x fun i r => (L.E i).equalQ r q

/-- `operator==` with an integer: `mpz_class` and `long long` test for an integer first
(`renf_elem_class.cpp:163-179`, `247-260`), `long` does not (`:1178-1180`) -/
def eqZ (x : Reg) (z : ℤ) (first : Bool) : W Bool := do
  if first && !(← isInteger L x) then pure false
  else call1 L x fun i r => (L.E i).equalQ r z

/-- comparison with a rational or integer, `renf_elem_cmp_fmpq` and its relatives -/
def cmpQ (x : Reg) (q : ℚ) : W ℤ := call1 L x fun i r => (L.E i).cmpQ r q L.ndebug

/-- `operator==` (`renf_elem_class.cpp:983-1001`) -/
def eq (x y : Reg) : W Bool := do
  let ox ← obj x
  let oy ← obj y
  let i ← deref ox.nf
  let j ← deref oy.nf
  if i = j then call L i [ox.cell, oy.cell] ((L.E i).equal (.user ox.cell) (.user oy.cell))
  else if ← isRational L x then
    if !(← isRational L y) then pure false
    else
      let p ← toMpq L x
      let q ← toMpq L y
      pure (p == q)
  else if ← isRational L y then pure false
  else W.throw "not implemented: cannot compare renf_elem_class from different number fields"

/-- `operator<` (`renf_elem_class.cpp:1003-1020`); a rational on the left: `q < y` is `y > q` -/
def lt (x y : Reg) : W Bool := do
  let ox ← obj x
  let oy ← obj y
  let i ← deref ox.nf
  let j ← deref oy.nf
  if i = j then
    let z ← call L i [ox.cell, oy.cell] ((L.E i).cmp (.user ox.cell) (.user oy.cell))
    pure (decide (z < 0))
  else if ← isRational L x then
    let q ← toMpq L x
    let z ← cmpQ L y q
    pure (z.sign == 1)
  else if ← isRational L y then
    let q ← toMpq L y
    let z ← cmpQ L x q
    pure (z.sign == -1)
  else W.throw "not implemented: cannot compare renf_elem_class from different number fields"

/-- `std::hash` (`renf_elem_class.cpp:1404-1407`): a hash function of the standard library applied
to the nearest double -/
def hash {γ : Type} (h : Dbl → γ) (x : Reg) : W γ := do
  let d ← toDouble L x
  pure (h d)

/-! ## Native integers -/

/-- the integer types of C++ accepted by the overloads -/
inductive IntTy where
  | short | ushort | int | uint | long | ulong | llong | ullong
  deriving DecidableEq, Repr

/-- What holds on every platform supported by C++ and FLINT. -/
structure Widths.Ok (b : Widths) : Prop where
  pos : 0 < b.short
  short_int : b.short ≤ b.int
  int_long : b.int ≤ b.long
  long_llong : b.long ≤ b.llong
  long_slong : b.long ≤ b.slong

/-- conversion of an integer to a signed type of `n` bits -/
def castS (n : ℕ) (z : ℤ) : ℤ := (z + 2 ^ (n - 1)) % 2 ^ n - 2 ^ (n - 1)
/-- conversion of an integer to an unsigned type of `n` bits -/
def castU (n : ℕ) (z : ℤ) : ℤ := z % 2 ^ n

/-- values of a signed type of `n` bits -/
def InS (n : ℕ) (z : ℤ) : Prop := -2 ^ (n - 1) ≤ z ∧ z < 2 ^ (n - 1)
/-- values of an unsigned type of `n` bits -/
def InU (n : ℕ) (z : ℤ) : Prop := 0 ≤ z ∧ z < 2 ^ n

instance (n z) : Decidable (InS n z) := by unfold InS; infer_instance
instance (n z) : Decidable (InU n z) := by unfold InU; infer_instance

/-- values of an integer type -/
def IntTy.Has (b : Widths) : IntTy → ℤ → Prop
  | .short => InS b.short | .ushort => InU b.short
  | .int => InS b.int | .uint => InU b.int
  | .long => InS b.long | .ulong => InU b.long
  | .llong => InS b.llong | .ullong => InU b.llong

/-- `maybe_fmpz` (`renf_elem_class.cpp:213-228`): `boost::numeric_cast` throws if the value does not
fit, and then the decimal text of the value is read into an arbitrary precision integer.  Returns
the integer that is handed to the C function. -/
def maybeFmpz (b : Widths) (signed : Bool) (z : ℤ) : ℤ :=
  if signed then (if InS b.slong z then castS b.slong z else z)
  else (if InU b.slong z then castU b.slong z else z)

/-- The integer that is handed to the C function for a native operand: the small types are converted
to `long` or `unsigned long` (`renf_elem_class.cpp:333-357`, `566-608`, `1022-1224`), which become
`slong` or `ulong`; `long long` goes through `maybe_fmpz`. -/
def native (b : Widths) : IntTy → ℤ → ℤ
  | .short, z | .int, z | .long, z => castS b.slong (castS b.long z)
  | .ushort, z | .uint, z | .ulong, z => castU b.slong (castU b.long z)
  | .llong, z => maybeFmpz b true z
  | .ullong, z => maybeFmpz b false z

/-- constructor from a native integer (`renf_elem_class.cpp:290-371`) -/
def constructInt (x : Reg) (k : ℕ) (t : IntTy) (z : ℤ) : W Unit :=
  constructZ L x k (native L.bits t z)
/-- assignment of a native integer (`renf_elem_class.cpp:566-632`) -/
def assignInt (x : Reg) (t : IntTy) (z : ℤ) : W Unit := assignZ L x (native L.bits t z)
/-- compound assignment with a native integer (`renf_elem_class.cpp:1022-1284`) -/
def binopInt (k : BinK) (x : Reg) (t : IntTy) (z : ℤ) : W Unit :=
  binopZ L k x (native L.bits t z)
/-- `operator==` with a native integer: `short` and `int` treat 0 separately, `long long` tests for
an integer first (`renf_elem_class.cpp:1042-1288`, `247-260`) -/
def eqInt (x : Reg) (t : IntTy) (z : ℤ) : W Bool := do
  if (t = .short ∨ t = .int) ∧ z = 0 then isZero L x
  else eqZ L x (native L.bits t z) (t = .llong ∨ t = .ullong)
/-- `operator<` with a native integer (`renf_elem_class.cpp:1048-1292`, `262-272`) -/
def ltInt (x : Reg) (t : IntTy) (z : ℤ) : W Bool := do
  let c ← cmpQ L x (native L.bits t z)
  pure (decide (c < 0))
/-- `operator>` with a native integer (`renf_elem_class.cpp:1052-1296`, `262-272`) -/
def gtInt (x : Reg) (t : IntTy) (z : ℤ) : W Bool := do
  let c ← cmpQ L x (native L.bits t z)
  pure (decide (0 < c))
/-- `operator<` with `mpq_class` or `mpz_class` (`renf_elem_class.cpp:163-208`, `1322-1356`) -/
def ltQ (x : Reg) (q : ℚ) : W Bool := do
  let z ← cmpQ L x q
  pure (z.sign == -1)
/-- `operator>` with `mpq_class` or `mpz_class` (`renf_elem_class.cpp:163-208`, `1326-1360`) -/
def gtQ (x : Reg) (q : ℚ) : W Bool := do
  let z ← cmpQ L x q
  pure (z.sign == 1)
/-- conversion to `bool` (`renf_elem_class.cpp:918-921`) -/
def toBool (x : Reg) : W Bool := do
  let b ← eqInt L x .int 0
  pure (!b)

/-! ## Operators that Boost derives

`renf_elem_class` inherits from `boost::ordered_field_operators<renf_elem_class>` and, for every
number type `U`, from `boost::ordered_field_operators<renf_elem_class, U>`
(`renf_elem_class.hpp:60-72`).  They define the remaining operators in terms of `==`, `<`, `>` and
the compound assignments (`boost/operators.hpp`).  `n + x` and `n * x` change a copy of `x`; `n - x`
and `n / x` change `renf_elem_class(n)`, an element of the trivial field. -/

/-- A number operand: a native integer, an `mpz_class` or an `mpq_class`. -/
inductive Num where
  | int (t : IntTy) (z : ℤ)
  | mpz (z : ℤ)
  | mpq (q : ℚ)

/-- the six relational operators -/
inductive Rel where
  | eq | ne | lt | gt | le | ge
  deriving DecidableEq

/-- `renf_elem_class(n)`, an element of the trivial field (`renf_elem_class.cpp:290-371`) -/
def constructNum (x : Reg) : Num → W Unit
  | .int t z => constructInt L x 0 t z
  | .mpz z => constructZ L x 0 z
  | .mpq q => constructQ L x 0 q
/-- compound assignment with a number -/
def binopNum (b : BinK) (x : Reg) : Num → W Unit
  | .int t z => binopInt L b x t z
  | .mpz z => binopZ L b x z
  | .mpq q => binopQ L b x q
/-- `x == n` -/
def eqNum (x : Reg) : Num → W Bool
  | .int t z => eqInt L x t z
  | .mpz z => eqZ L x z true
  | .mpq q => eqQ L x q
/-- `x < n` -/
def ltNum (x : Reg) : Num → W Bool
  | .int t z => ltInt L x t z
  | .mpz z => ltQ L x z
  | .mpq q => ltQ L x q
/-- `x > n` -/
def gtNum (x : Reg) : Num → W Bool
  | .int t z => gtInt L x t z
  | .mpz z => gtQ L x z
  | .mpq q => gtQ L x q

/-- `r = x op n` (`boost/operators.hpp`, `addable2`, `subtractable2`, `multipliable2`, `dividable2`) -/
def binaryNum (b : BinK) (r x : Reg) (n : Num) : W Unit := do
  copyCtor L r x
  unwinding r (binopNum L b r n)

/-- `r = n op y` (`boost/operators.hpp`, `addable2`, `multipliable2`; `subtractable2_left`,
`dividable2_left`) -/
def numBinary (b : BinK) (r : Reg) (n : Num) (y : Reg) : W Unit :=
  match b with
  | .add | .mul => do
    copyCtor L r y
    unwinding r (binopNum L b r n)
  | .sub | .div => do
    constructNum L r n
    unwinding r (binop L b r y)

/-- `!` applied to the answer of a comparison -/
def wnot (m : W Bool) : W Bool := do
  let b ← m
  pure (!b)

/-- relations between elements (`boost/operators.hpp`, `equality_comparable1`,
`less_than_comparable1`) -/
def rel (o : Rel) (x y : Reg) : W Bool :=
  match o with
  | .eq => eq L x y
  | .ne => wnot (eq L x y)
  | .lt => lt L x y
  | .gt => lt L y x
  | .le => wnot (lt L y x)
  | .ge => wnot (lt L x y)

/-- relations with a number on the right (`equality_comparable2`, `less_than_comparable2`) -/
def relNum (o : Rel) (x : Reg) (n : Num) : W Bool :=
  match o with
  | .eq => eqNum L x n
  | .ne => wnot (eqNum L x n)
  | .lt => ltNum L x n
  | .gt => gtNum L x n
  | .le => wnot (gtNum L x n)
  | .ge => wnot (ltNum L x n)

/-- relations with a number on the left (`equality_comparable2`, `less_than_comparable2`) -/
def numRel (o : Rel) (n : Num) (x : Reg) : W Bool :=
  match o with
  | .eq => eqNum L x n
  | .ne => wnot (eqNum L x n)
  | .lt => gtNum L x n
  | .gt => ltNum L x n
  | .le => wnot (ltNum L x n)
  | .ge => wnot (gtNum L x n)

/-! ## Calls as data -/

/-- A call of the C++ interface; elements are named by numbers. -/
inductive Cmd where
  | construct (x k : ℕ) | constructZ (x k : ℕ) (z : ℤ) | constructQ (x k : ℕ) (q : ℚ)
  | constructInt (x k : ℕ) (t : IntTy) (z : ℤ)
  | constructVec (x k : ℕ) (num : List ℤ) (den : ℤ)
  | constructFrom (x k y : ℕ) | copyCtor (x y : ℕ) | moveCtor (x y : ℕ) | destroy (x : ℕ)
  | assignZ (x : ℕ) (z : ℤ) | assignQ (x : ℕ) (q : ℚ) | assignInt (x : ℕ) (t : IntTy) (z : ℤ)
  | copyAssign (x y : ℕ) | moveAssign (x y : ℕ) | swap (x y : ℕ)
  | binop (b : BinK) (x y : ℕ) | binopZ (b : BinK) (x : ℕ) (z : ℤ)
  | binopQ (b : BinK) (x : ℕ) (q : ℚ) | binopInt (b : BinK) (x : ℕ) (t : IntTy) (z : ℤ)
  | binary (b : BinK) (r x y : ℕ)
  | binaryNum (b : BinK) (r x : ℕ) (n : Num) | numBinary (b : BinK) (r : ℕ) (n : Num) (y : ℕ)
  | neg (r x : ℕ) | pow (r x : ℕ) (exp : ℤ)
  | isZero (x : ℕ) | isOne (x : ℕ) | isInteger (x : ℕ) | isRational (x : ℕ) | toBool (x : ℕ)
  | eq (x y : ℕ) | eqQ (x : ℕ) (q : ℚ) | eqZ (x : ℕ) (z : ℤ) | eqInt (x : ℕ) (t : IntTy) (z : ℤ)
  | toMpz (x : ℕ) | toMpq (x : ℕ)
  | num (x : ℕ) | den (x : ℕ) | numVector (x : ℕ) | numContent (x : ℕ)
  | lt (x y : ℕ) | ltQ (x : ℕ) (q : ℚ) | gtQ (x : ℕ) (q : ℚ)
  | ltInt (x : ℕ) (t : IntTy) (z : ℤ) | gtInt (x : ℕ) (t : IntTy) (z : ℤ)
  | rel (o : Rel) (x y : ℕ) | relNum (o : Rel) (x : ℕ) (n : Num) | numRel (o : Rel) (n : Num) (x : ℕ)
  | sgn (x : ℕ) | floor (x : ℕ) | ceil (x : ℕ) | floordiv (x y : ℕ) | toDouble (x : ℕ)

/-- What a call returns. -/
inductive Val where
  | unit | bool (b : Bool) | int (z : ℤ) | rat (q : ℚ) | ints (l : List ℤ) | dbl (d : Dbl)
  deriving DecidableEq, Repr

/-- return a value -/
def ret {β : Type} (f : β → Val) (m : W β) : W Val := do
  let a ← m
  pure (f a)

/-- Run a call. -/
def exec : Cmd → W Val
  | .construct x k => ret (fun _ => .unit) (construct L (.user x) k)
  | .constructZ x k z => ret (fun _ => .unit) (constructZ L (.user x) k z)
  | .constructQ x k q => ret (fun _ => .unit) (constructQ L (.user x) k q)
  | .constructInt x k t z => ret (fun _ => .unit) (constructInt L (.user x) k t z)
  | .constructVec x k n d => ret (fun _ => .unit) (constructVec L (.user x) k n d)
  | .constructFrom x k y => ret (fun _ => .unit) (constructFrom L (.user x) k (.user y))
  | .copyCtor x y => ret (fun _ => .unit) (copyCtor L (.user x) (.user y))
  | .moveCtor x y => ret (fun _ => .unit) (moveCtor (.user x) (.user y))
  | .destroy x => ret (fun _ => .unit) (destroy (.user x))
  | .assignZ x z => ret (fun _ => .unit) (assignZ L (.user x) z)
  | .assignQ x q => ret (fun _ => .unit) (assignQ L (.user x) q)
  | .assignInt x t z => ret (fun _ => .unit) (assignInt L (.user x) t z)
  | .copyAssign x y => ret (fun _ => .unit) (copyAssign L (.user x) (.user y))
  | .moveAssign x y => ret (fun _ => .unit) (moveAssign (.user x) (.user y))
  | .swap x y => ret (fun _ => .unit) (swap (.user x) (.user y))
  | .binop b x y => ret (fun _ => .unit) (binop L b (.user x) (.user y))
  | .binopZ b x z => ret (fun _ => .unit) (binopZ L b (.user x) z)
  | .binopQ b x q => ret (fun _ => .unit) (binopQ L b (.user x) q)
  | .binopInt b x t z => ret (fun _ => .unit) (binopInt L b (.user x) t z)
  | .binary b r x y => ret (fun _ => .unit) (binary L b (.user r) (.user x) (.user y))
  | .binaryNum b r x n => ret (fun _ => .unit) (binaryNum L b (.user r) (.user x) n)
  | .numBinary b r n y => ret (fun _ => .unit) (numBinary L b (.user r) n (.user y))
  | .neg r x => ret (fun _ => .unit) (neg L (.user r) (.user x))
  | .pow r x e => ret (fun _ => .unit) (pow L (.user r) (.user x) e)
  | .isZero x => ret .bool (isZero L (.user x))
  | .isOne x => ret .bool (isOne L (.user x))
  | .isInteger x => ret .bool (isInteger L (.user x))
  | .isRational x => ret .bool (isRational L (.user x))
  | .toBool x => ret .bool (toBool L (.user x))
  | .eq x y => ret .bool (eq L (.user x) (.user y))
  | .eqQ x q => ret .bool (eqQ L (.user x) q)
  | .eqZ x z => ret .bool (eqZ L (.user x) z true)
  | .eqInt x t z => ret .bool (eqInt L (.user x) t z)
  | .toMpz x => ret .int (toMpz L (.user x))
  | .toMpq x => ret .rat (toMpq L (.user x))
  | .num x => ret .int (num L (.user x))
  | .den x => ret .int (den L (.user x))
  | .numVector x => ret .ints (numVector L (.user x))
  | .numContent x => ret .int (numContent L (.user x))
  | .lt x y => ret .bool (lt L (.user x) (.user y))
  | .ltQ x q => ret .bool (ltQ L (.user x) q)
  | .gtQ x q => ret .bool (gtQ L (.user x) q)
  | .ltInt x t z => ret .bool (ltInt L (.user x) t z)
  | .gtInt x t z => ret .bool (gtInt L (.user x) t z)
  | .rel o x y => ret .bool (rel L o (.user x) (.user y))
  | .relNum o x n => ret .bool (relNum L o (.user x) n)
  | .numRel o n x => ret .bool (numRel L o n (.user x))
  | .sgn x => ret .int (sgn L (.user x))
  | .floor x => ret .int (floor L (.user x))
  | .ceil x => ret .int (ceil L (.user x))
  | .floordiv x y => ret .int (floordiv L (.user x) (.user y))
  | .toDouble x => ret .dbl (toDouble L (.user x))

/-- Run a program. -/
def execAll : List Cmd → W (List Val)
  | [] => pure []
  | c :: cs => do
    let a ← exec L c
    let l ← execAll cs
    pure (a :: l)

/-- `try { … } catch (…) { … }`: an exception becomes a result -/
def attempt {β : Type} (m : W β) : W (Except String β) := fun w =>
  match m w with
  | .ok (a, w') => .ok (.ok a, w')
  | .throw s w' => .ok (.error s, w')
  | .running => .running
  | .abort => .abort
  | .ub => .ub

/-- Run a program that catches every exception and goes on. -/
def execCatching : List Cmd → W (List (Except String Val))
  | [] => pure []
  | c :: cs => do
    let a ← attempt (exec L c)
    let l ← execCatching cs
    pure (a :: l)

end EAntic.Cxx
