import Verif.Model.PyNum
import Verif.Model.TextIO

/-!
# Model of the Python layer: programs of SageMath

Sequences of operations on elements of `RealEmbeddedNumberField`.  Of SageMath: it calls `_add_`, `_richcmp_` and so
on for two elements with the same parent, and brings other operands (integers, rationals, elements of the
number field) to the parent first, which is a `make` below.
-/

namespace EAntic.Py
open Cxx

/-- An operation on elements of `RealEmbeddedNumberField`; a variable is an element, `r` a new one; `k` is the
field of the parent.  `make` is `K(v)` for an element of the number field with coefficients `l`
(so are `gen`, `an_element`, `random_element`, `real_embedded_number_field.py:609`, `:652`, `:668`); `vector` is also
the conversion to the number field; `repr` is printing; `pickle` is `loads(dumps(x))`; `del` is the end of the life of a variable. -/
inductive SageCmd where
  | make (r k : ℕ) (l : List ℚ)
  | arith (f : BinK) (r x y : ℕ)
  | neg (r x : ℕ)
  | cmp (op : Rel) (x y : ℕ)
  | rational (x : ℕ)
  | integer (x : ℕ)
  | vector (x k : ℕ)
  | pickle (x r k : ℕ)
  | repr (x : ℕ)
  | hash (x : ℕ)
  | del (x : ℕ)

/-- what an operation returns; `γ` are the hash values -/
inductive SageVal (γ : Type) where
  | unit
  | bool (b : Bool)
  | rat (q : ℚ)
  | int (z : ℤ)
  | list (l : List ℚ)
  | text (s : List Char)
  | hash (h : γ)

variable (P : PyEnv) (L : Lib) (T : TextLib) {γ : Type} (h : Dbl → γ)

/-- An operation is executed: `__init__`, `_add_`, `_sub_`, `_mul_`, `_div_`, `_neg_`, `_richcmp_`, `_rational_`,
`_integer_`, `vector`, `_repr_`, `__hash__`, `__getstate__` and `__setstate__` (`real_embedded_number_field.py:99-370`).  The operators
of `renf_elem_class` are those of `Model/PyNum.lean`; `repr` and `hash` of it are `operator<<` and `std::hash`, which
cppyy calls. -/
def SageCmd.run : SageCmd → W (SageVal γ)
  | .make r k l => do
    fromSage L (.user r) k l
    pure .unit
  | .arith f r x y => do
    let _ ← PyCmd.run P L (.operator f r (.atom (.elem x)) (.atom (.elem y)))
    pure .unit
  | .neg r x => do
    let _ ← PyCmd.run P L (.neg r x)
    pure .unit
  | .cmp op x y => do
    let b ← richcmp L (.user x) (.user y) op
    pure (.bool b)
  | .rational x => do
    let q ← Py.rational L (.user x)
    pure (.rat q)
  | .integer x => do
    let z ← Py.integer L (.user x)
    pure (.int z)
  | .vector x k => do
    let l ← toSage L (.user x) (L.K k).degree
    pure (.list l)
  | .pickle x r k => do
    reload L (.user x) (.user r) k (L.K k).degree
    pure .unit
  | .repr x => do
    let s ← Cxx.print L T (.user x)
    pure (.text s)
  | .hash x => do
    let a ← Cxx.hash L h (.user x)
    pure (.hash a)
  | .del x => do
    let _ ← exec L (.destroy x)
    pure .unit

/-- A program with every operation in a `try` block of its own. -/
def runSage : List SageCmd → W (List (Except String (SageVal γ)))
  | [] => pure []
  | c :: cs => do
    let a ← attempt (c.run P L T h)
    let l ← runSage cs
    pure (a :: l)

end EAntic.Py
