import Verif.Spec.Resource

/-!
# What the C++ layer does with the objects of the C library

The functions of `libeantic/srcxx` that handle objects of FLINT, Arb or of the C library directly, in
the language of `Spec/Resource.lean` and with the conventions of `Model/Resource.lean`.  The parts
`elem`, `emb` of the element that a member function works on are the objects 0 and 1, those of its
other operand 2 and 3.  An element owns its parts unless it was moved from (its pointer to the field
is null); functions that test this come in two versions, since the test tells the two cases apart.

Simplifications: the objects of the standard library, of GMP's C++ interface and the local variables
of type `renf_elem_class` have destructors, which also run when an exception passes; they are not
followed.  The field an element belongs to is kept alive by the element (C38, C58) and is not
followed.  `std::bad_alloc` is left out.  A constructor that throws leaves no object, so the parts
that it has initialised must have been released.
-/

namespace EAntic.Rsc.Cxx

open Stm

/-- `maybe_fmpz` with the lambdas of its callers, which use the element: the value fits into a
machine word, or it goes through a temporary integer, object `t`.
srcxx/renf_elem_class.cpp:213-272. -/
def maybeFmpz (t : ℕ) : Stm :=
  choice (uses [0, 1]) (blk [act (.init t), uses [0, 1, t], act (.clear t)])

/-- A function on one element with the temporaries 4, 5, …. -/
def method (name : String) (body : Stm) : Fn :=
  { name, objs := 7, ints := 0, pre := [0, 1, 2, 3], post := [0, 1, 2, 3], body }

/-- A constructor: the parts of the new element are initialised at the end. -/
def constructor (name : String) (body : Stm) : Fn :=
  { name, objs := 7, ints := 0, pre := [2, 3], post := [0, 1, 2, 3], body }

/-- `renf_elem_init (a, …)` -/
def initA : Stm := blk [act (.init 0), act (.init 1)]

/-- `renf_elem_clear (a, …)` -/
def clearA : Stm := blk [act (.clear 0), act (.clear 1)]

/-- `*a = *value.a`, after which `value` is a moved-from element: the memory changes hands. -/
def steal : Stm := blk [act (.clear 2), act (.clear 3), act (.init 0), act (.init 1)]

/-! ## Free functions -/

/-- `coerce`, srcxx/renf_elem_class.cpp:79-105.  The assignments work on an element that is valid. -/
def coerce : Fn := method "coerce" <|
  choice (ret none) <| blk [
    uses [0, 1],
    choice (uses [0, 1]) <| blk [
    uses [0, 1],
    choice (blk [act (.init 4), uses [4, 0, 1], uses [0, 1, 4], act (.clear 4)]) <| blk [
    uses [0, 1],
    choice (uses [0, 1]) throw]]]

/-- `binop`, srcxx/renf_elem_class.cpp:107-151. -/
def binop : Fn := method "binop" <| blk [
  choice (uses [0, 1, 2, 3]) <| blk [
    choice (choice throw skip) skip,
    uses [2, 3],
    choice (uses [0, 1, 2, 3]) <| blk [
    uses [2, 3],
    choice (blk [act (.init 4), uses [4, 2, 3], uses [0, 1, 4], act (.clear 4)]) <|
    blk [uses [0, 1], choice throw skip, uses [0, 1, 2, 3]]]],
  ret none]

/-- `binop_mpz`, srcxx/renf_elem_class.cpp:153-161. -/
def binop_mpz : Fn := method "binop_mpz" <| blk [
  act (.init 4), uses [0, 1, 4], act (.clear 4), ret none]

/-- `relop_mpz`, srcxx/renf_elem_class.cpp:163-179. -/
def relop_mpz : Fn := method "relop_mpz" <| blk [
  uses [0, 1], choice (ret none) skip, act (.init 4), choice (uses [0, 1, 4]) (uses [0, 1, 4]),
  act (.clear 4), ret none]

/-- `binop_mpq`, srcxx/renf_elem_class.cpp:181-190. -/
def binop_mpq : Fn := method "binop_mpq" <| blk [
  act (.init 4), uses [0, 1, 4], act (.clear 4), ret none]

/-- `relop_mpq`, srcxx/renf_elem_class.cpp:192-208. -/
def relop_mpq : Fn := method "relop_mpq" <| blk [
  uses [0, 1], choice (ret none) skip, act (.init 4), choice (uses [0, 1, 4]) (uses [0, 1, 4]),
  act (.clear 4), ret none]

/-- `assign_maybe_fmpz`, srcxx/renf_elem_class.cpp:230-236. -/
def assign_maybe_fmpz : Fn := method "assign_maybe_fmpz" (maybeFmpz 4)

/-- `binop_maybe_fmpz`, srcxx/renf_elem_class.cpp:238-245. -/
def binop_maybe_fmpz : Fn := method "binop_maybe_fmpz" <| blk [maybeFmpz 4, ret none]

/-- `relop_maybe_fmpz`, srcxx/renf_elem_class.cpp:247-272, both overloads. -/
def relop_maybe_fmpz : Fn := method "relop_maybe_fmpz" <| blk [
  choice (blk [uses [0, 1], choice (ret none) skip]) skip, maybeFmpz 4, ret none]

/-! ## Constructors and the destructor -/

/-- The constructors from a field, or from a field and a number other than `long long`:
srcxx/renf_elem_class.cpp:326-331, 345-357, 373-399 (those of 276-324 and 333-343 delegate to
them). -/
def fromNumber : Fn := constructor "renf_elem_class(k, number)" <| blk [initA, uses [0, 1]]

/-- The constructors from `long long` and `unsigned long long`, srcxx/renf_elem_class.cpp:359-371. -/
def fromLongLong : Fn := constructor "renf_elem_class(k, long long)" <| blk [initA, maybeFmpz 4]

/-- The constructor from a string, srcxx/renf_elem_class.cpp:401-437: `t` is 4, `p` is 5. -/
def fromString : Fn := constructor "renf_elem_class(k, string)" <| blk [
  choice (blk [act (.init 4), uses [4]]) (blk [act (.init 4), uses [4]]),
  act (.init 5),
  uses [5, 4],
  choice (blk [act (.clear 5), throw]) skip,
  initA,
  uses [0, 1, 5],
  act (.clear 5),
  act (.clear 4)]

/-- The constructor from an element of a field, srcxx/renf_elem_class.cpp:439-449; also the copy
constructor 281-282. -/
def fromElement : Fn := constructor "renf_elem_class(k, element)" <| blk [
  initA,
  choice (uses [0, 1, 2, 3]) <| blk [
    uses [2, 3],
    choice (uses [0, 1, 2, 3]) throw]]

/-- The constructors from vectors of machine integers, srcxx/renf_elem_class.cpp:451-509; the
delegation to the constructor of zero comes first. -/
def fromVector : Fn := constructor "renf_elem_class(k, vector<int>)" <| blk [
  initA, uses [0, 1],
  act (.init 4),
  forever (blk [choice skip brk, uses [4]]),
  uses [0, 1, 4],
  act (.clear 4)]

/-- The constructors from vectors of `mpz_class` and `mpq_class`, srcxx/renf_elem_class.cpp:511-557,
in the version for FLINT 3: `coeff` is 5. -/
def fromVectorMp : Fn := constructor "renf_elem_class(k, vector<mpz_class>)" <| blk [
  initA, uses [0, 1],
  act (.init 4),
  forever (blk [choice skip brk, act (.init 5), uses [4, 5], act (.clear 5)]),
  uses [0, 1, 4],
  act (.clear 4)]

/-- The move constructor, srcxx/renf_elem_class.cpp:284-288: the other element is left moved-from. -/
def fromMoved : Fn :=
  { name := "renf_elem_class(renf_elem_class &&)", objs := 4, ints := 0, pre := [2, 3], post := [0, 1],
    body := steal }

/-- The destructor, srcxx/renf_elem_class.cpp:559-564, of a valid element. -/
def destructor : Fn :=
  { name := "~renf_elem_class", objs := 2, ints := 0, pre := [0, 1], post := [], body := clearA }

/-- The destructor, srcxx/renf_elem_class.cpp:559-564, of a moved-from element. -/
def destructorMoved : Fn :=
  { name := "~renf_elem_class, moved from", objs := 2, ints := 0, pre := [], post := [], body := skip }

/-! ## Assignments -/

/-- Assignment of a number to a valid element, srcxx/renf_elem_class.cpp:586-608, 634-680 (those of
566-584 delegate to them). -/
def assign : Fn := method "operator=(number)" <| blk [
  choice (blk [clearA, initA]) skip, uses [0, 1], ret none]

/-- Assignment of a `long long` to a valid element, srcxx/renf_elem_class.cpp:610-632. -/
def assignLongLong : Fn := method "operator=(long long)" <| blk [
  choice (blk [clearA, initA]) skip, maybeFmpz 4, ret none]

/-- Assignment of a number to a moved-from element: its field is null, so it is not that of the
value. -/
def assignMoved : Fn := constructor "operator=(number), moved from" <| blk [initA, uses [0, 1], ret none]

/-- Assignment of a `long long` to a moved-from element. -/
def assignLongLongMoved : Fn := constructor "operator=(long long), moved from" <| blk [
  initA, maybeFmpz 4, ret none]

/-- Assignment of an element to a valid element, srcxx/renf_elem_class.cpp:682-692. -/
def assignElement : Fn := method "operator=(element)" <| blk [
  choice (blk [clearA, initA]) skip, uses [0, 1, 2, 3], ret none]

/-- Assignment of an element to a moved-from element. -/
def assignElementMoved : Fn := constructor "operator=(element), moved from" <| blk [
  initA, uses [0, 1, 2, 3], ret none]

/-- Move assignment to a valid element, srcxx/renf_elem_class.cpp:694-705: the two are swapped. -/
def assignMove : Fn := method "operator=(element &&)" <| blk [uses [0, 1, 2, 3], ret none]

/-- Move assignment to a moved-from element: the other one is left moved-from. -/
def assignMoveMoved : Fn :=
  { name := "operator=(element &&), moved from", objs := 4, ints := 0, pre := [2, 3], post := [0, 1],
    body := blk [steal, ret none] }

/-! ## Other member functions -/

/-- `num`, srcxx/renf_elem_class.cpp:732-754. -/
def num : Fn := method "num" <| blk [
  choice (uses [0]) (choice (uses [0]) (blk [uses [0], choice skip (uses [0])])), ret none]

/-- `num_content`, srcxx/renf_elem_class.cpp:756-783. -/
def num_content : Fn := method "num_content" <| blk [
  choice (uses [0]) <|
    choice (blk [act (.init 4), uses [4, 0], uses [4], act (.clear 4)]) <|
      blk [act (.init 5), uses [5, 0], uses [5], act (.clear 5)],
  ret none]

/-- `den`, srcxx/renf_elem_class.cpp:785-795. -/
def den : Fn := method "den" <| blk [act (.init 4), uses [4, 0], uses [4], act (.clear 4), ret none]

/-- `operator mpz_class`, srcxx/renf_elem_class.cpp:797-806. -/
def toMpz : Fn := method "operator mpz_class" <| blk [uses [0, 1], ret none]

/-- `operator mpq_class`, srcxx/renf_elem_class.cpp:808-829. -/
def toMpq : Fn := method "operator mpq_class" <| blk [
  uses [0, 1],
  choice (ret none) <| blk [
    uses [0, 1], act (.init 4), uses [4, 0], uses [4], uses [4], act (.clear 4), ret none]]

/-- `num_vector`, srcxx/renf_elem_class.cpp:831-850. -/
def num_vector : Fn := method "num_vector" <| blk [
  act (.init 4),
  uses [4, 0],
  forever (blk [uses [4], choice skip brk, uses [4]]),
  uses [4],
  forever (choice skip brk),
  act (.clear 4),
  ret none]

/-- `to_string`, srcxx/renf_elem_class.cpp:857-871: `u` is 4. -/
def to_string : Fn := method "to_string" <| blk [
  uses [0, 1], act (.init 4), uses [4], act (.clear 4), choice (ret none) (ret none)]

/-- `floor` and `ceil`, srcxx/renf_elem_class.cpp:873-897. -/
def floor : Fn := method "floor" <| blk [
  act (.init 4), uses [4, 0, 1], uses [4], act (.clear 4), ret none]

/-- `floordiv`, srcxx/renf_elem_class.cpp:943-964.  The division and the conversion of the first two
cases can throw; their temporaries have destructors. -/
def floordiv : Fn := method "floordiv" <| blk [
  choice
    (blk [
      uses [2, 3], choice (blk [uses [0, 1, 2, 3], choice throw skip, ret none]) skip,
      uses [0, 1], choice (blk [uses [0, 1, 2, 3], choice throw skip, ret none]) skip])
    skip,
  act (.init 4),
  uses [4, 0, 1, 2, 3],
  uses [4],
  act (.clear 4),
  ret none]

/-! ## The class of the fields -/

/-- The constructor of a field, srcxx/renf_class.cpp:68-79: the parts of `nf` are 0, 1, 2, the array
`cache` is 3, the parts of the argument are 4, 5, 6. -/
def fieldCopy : Fn :=
  { name := "renf_class(k, gen_name)", objs := 7, ints := 0, pre := [4, 5, 6],
    post := [0, 1, 2, 3, 4, 5, 6]
    body := blk [
      uses [4, 5, 6], act (.init 0), act (.init 1), act (.init 2),
      uses [0, 1, 2], act (.init 3), uses [3, 0, 1, 2]] }

/-- The destructor of a field, srcxx/renf_class.cpp:167-172. -/
def fieldDestructor : Fn :=
  { name := "~renf_class", objs := 4, ints := 0, pre := [0, 1, 2, 3], post := []
    body := blk [act (.clear 3), act (.clear 0), act (.clear 1), act (.clear 2)] }

/-- `make (k, gen_name)`, srcxx/renf_class.cpp:94-112: the new field is 3; it is handed over to the
registry or deleted. -/
def makeField : Fn :=
  { name := "make(k, gen_name)", objs := 4, ints := 0, pre := [0, 1, 2], post := [0, 1, 2]
    body := blk [
      uses [0, 1, 2], act (.init 3), uses [3],
      choice (ret (some 3)) (blk [act (.clear 3), ret none])] }

/-- `make (minpoly, gen, emb, prec)`, srcxx/renf_class.cpp:124-165: `e` is 0, `p` is 1, the parts of
`nf` are 2, 3, 4.  The function `emb` is an argument and may throw; in the overload for a string
(114-122) it does so in the second turn. -/
def makeFieldStr : Fn :=
  { name := "make(minpoly, gen, emb, prec)", objs := 5, ints := 0, pre := [], post := []
    body :=
      forever (blk [
        act (.init 1),
        uses [1],
        choice (blk [act (.clear 1), throw]) skip,
        act (.init 0),
        choice throw skip,
        uses [0],
        choice (blk [act (.clear 1), act (.clear 0), throw]) skip,
        uses [1, 0],
        choice (blk [act (.clear 1), act (.clear 0), cont]) skip,
        uses [1, 0],
        act (.init 2), act (.init 3), act (.init 4),
        act (.clear 1),
        act (.clear 0),
        uses [2, 3, 4],
        act (.clear 2), act (.clear 3), act (.clear 4),
        ret none]) }

/-- `construction`, srcxx/renf_class.cpp:191-201: `emb` is 3, `pol` is 4. -/
def construction : Fn :=
  { name := "construction", objs := 5, ints := 0, pre := [0, 1, 2], post := [0, 1, 2]
    body := blk [
      uses [2], act (.init 3), uses [0], act (.init 4), uses [4, 3], act (.clear 4), act (.clear 3),
      ret none] }

/-- `renf_class::to_string`, srcxx/renf_class.cpp:221-227: `u` is 3. -/
def fieldToString : Fn :=
  { name := "renf_class::to_string", objs := 4, ints := 0, pre := [0, 1, 2], post := [0, 1, 2]
    body := blk [uses [0, 1, 2], act (.init 3), uses [3], act (.clear 3), ret none] }

/-- All of them. -/
def library : List Fn :=
  [coerce, binop, binop_mpz, relop_mpz, binop_mpq, relop_mpq, assign_maybe_fmpz, binop_maybe_fmpz,
   relop_maybe_fmpz, fromNumber, fromLongLong, fromString, fromElement, fromVector, fromVectorMp,
   fromMoved, destructor, destructorMoved, assign, assignLongLong, assignMoved, assignLongLongMoved,
   assignElement, assignElementMoved, assignMove, assignMoveMoved, num, num_content, den, toMpz, toMpq,
   num_vector, to_string, floor, floordiv, fieldCopy, fieldDestructor, makeField, makeFieldStr,
   construction, fieldToString]

end EAntic.Rsc.Cxx
