import Verif.Model.TextIO

/-!
# Programs that compute, print and read

The calls of `Model/Cxx.lean` together with those of the text interface.  A program reads from one
stream and writes to another one.
-/

namespace EAntic.Cxx

/-- A call of a program with text. -/
inductive TCmd where
  /-- a call without text -/
  | call (c : Cmd)
  /-- `x.to_string(flags)` -/
  | toString (x : ℕ) (alg d arb : Bool)
  /-- `os << x` -/
  | print (x : ℕ)
  /-- `os << "…"` -/
  | write (s : List Char)
  /-- `std::hash<renf_elem_class>()(x)` -/
  | hash (x : ℕ)
  /-- `renf_elem_class x(k, "…")` -/
  | construct (x k : ℕ) (s : List Char)
  /-- `k.set_pword(is)` -/
  | setField (k : ℕ)
  /-- `is >> std::ws` -/
  | ws
  /-- `is >> x` -/
  | read (x : ℕ)

/-- The streams of a program: the input, the field attached to it, and what was written. -/
structure Streams where
  inp : Stream
  field : Option ℕ
  out : List Char

/-- What a call returns; `γ` are the hash values. -/
inductive TVal (γ : Type) where
  | val (v : Val)
  | text (s : List Char)
  | hash (h : γ)

/-- `std::ws` (of the C++ library): white space is skipped, reaching the end is noticed -/
def skipSpace (st : Stream) : Stream :=
  ⟨st.chars.dropWhile isSpace, st.eof || (st.chars.dropWhile isSpace).isEmpty⟩

variable (L : Lib) (T : TextLib) {γ : Type} (h : Dbl → γ)

/-- Run a call: `to_string` (`renf_elem_class.cpp:857-871`), `operator<<` (`renf_class.cpp:235-242`),
`std::hash` (`renf_elem_class.cpp:1404-1407`), the constructor from a string
(`renf_elem_class.cpp:401-437`), `set_pword` (`renf_class.cpp:208-212`), `operator>>`
(`renf_class.cpp:244-279`). -/
def execT : TCmd → Streams → W (TVal γ × Streams)
  | .call c, io => do
    let a ← exec L c
    pure (.val a, io)
  | .toString x alg d arb, io => do
    let s ← toString L T (.user x) alg d arb
    pure (.text s, io)
  | .print x, io => do
    let s ← print L T (.user x)
    pure (.val .unit, { io with out := io.out ++ s })
  | .write s, io => pure (.val .unit, { io with out := io.out ++ s })
  | .hash x, io => do
    let a ← hash L h (.user x)
    pure (.hash a, io)
  | .construct x k s, io => do
    constructStr L T (.user x) k s
    pure (.val .unit, io)
  | .setField k, io => pure (.val .unit, { io with field := some k })
  | .ws, io => pure (.val .unit, { io with inp := skipSpace io.inp })
  | .read x, io => do
    let st ← extract L T (.user x) io.field io.inp
    pure (.val .unit, { io with inp := st })

/-- Run a program. -/
def execAllT : List TCmd → Streams → W (List (TVal γ) × Streams)
  | [], io => pure ([], io)
  | c :: cs, io => do
    let a ← execT L T h c io
    let l ← execAllT cs a.2
    pure (a.1 :: l.1, l.2)

end EAntic.Cxx
