import Verif.Lemmas.AssertionsCxx
import Verif.Props.TextProg

/-!
# C73: assertions do not change results

`build … false` is the library compiled with assertions, `build … true` the one compiled with
`NDEBUG`.  Assertions with side effects (`refine_embedding.c:26,63` set a flag of the field) and
assertions that call functions of the library (`renf_elem_class.cpp:801,818`) are among those that are
compiled out.
-/

namespace EAntic.Cxx

variable (K : ℕ → Nf) (A : ℕ → ArbOps) (N : ∀ i, NfOps (K i)) (strict : Bool) (bits : Widths)

/-- C73: from any memory, a program run with assertions fails an assertion, or does exactly what it
does without them: it returns the same values, throws the same exceptions at the same calls, which are
all caught, and leaves the same memory behind, or has undefined behaviour in both cases, or has not
come to an end in both cases. -/
theorem C73_assertions (k : ℕ) (cs : List Cmd) (w : World) :
    execCatching (build K A N strict bits false k) cs w = .abort ∨
    execCatching (build K A N strict bits false k) cs w = execCatching (build K A N strict bits true k) cs w := by
  rcases execCatching_below (K := K) (A := A) (N := N) (strict := strict) (bits := bits) (a := True) (r := False)
    (.inr ⟨trivial, rfl, rfl⟩) (.inl rfl) cs w with h | ⟨-, h⟩ | ⟨h, -⟩
  · exact .inr h
  · exact .inl h
  · exact h.elim

/-- C73 for programs that stop at the first exception. -/
theorem C73_assertions_uncaught (k : ℕ) (cs : List Cmd) (w : World) :
    execAll (build K A N strict bits false k) cs w = .abort ∨
    execAll (build K A N strict bits false k) cs w = execAll (build K A N strict bits true k) cs w := by
  rcases execAll_below (K := K) (A := A) (N := N) (strict := strict) (bits := bits) (a := True) (r := False)
    (.inr ⟨trivial, rfl, rfl⟩) (.inl rfl) cs w with h | ⟨-, h⟩ | ⟨h, -⟩
  · exact .inr h
  · exact .inl h
  · exact h.elim

/-- C73 for programs that also print, hash and read elements: the same characters are written and the
same ones are read. -/
theorem C73_assertions_text (T : TextLib) {γ : Type} (hash : Dbl → γ) (k : ℕ) (cs : List TCmd) (io : Streams)
    (w : World) :
    execAllT (build K A N strict bits false k) T hash cs io w = .abort ∨
    execAllT (build K A N strict bits false k) T hash cs io w =
      execAllT (build K A N strict bits true k) T hash cs io w := by
  rcases execAllT_below (K := K) (A := A) (N := N) (strict := strict) (bits := bits) (a := True) (r := False)
    (.inr ⟨trivial, rfl, rfl⟩) (.inl rfl) T hash cs io w with h | ⟨-, h⟩ | ⟨h, -⟩
  · exact .inr h
  · exact .inl h
  · exact h.elim

/-- The number of rounds after which the model cuts off loops is not part of the behaviour: a program
that came to an end within `k` rounds does the same with any larger number. -/
theorem C73_rounds (ndebug : Bool) {k k' : ℕ} (hk : k ≤ k') (cs : List Cmd) (w : World) :
    execCatching (build K A N strict bits ndebug k) cs w = .running ∨
    execCatching (build K A N strict bits ndebug k) cs w = execCatching (build K A N strict bits ndebug k') cs w := by
  rcases execCatching_below (K := K) (A := A) (N := N) (strict := strict) (bits := bits) (a := False) (r := True)
    (.inl rfl) (.inr ⟨trivial, hk⟩) cs w with h | ⟨h, -⟩ | ⟨-, h⟩
  · exact .inr h
  · exact h.elim
  · exact .inl h

/-- The same for programs with text. -/
theorem C73_rounds_text (T : TextLib) {γ : Type} (hash : Dbl → γ) (ndebug : Bool) {k k' : ℕ} (hk : k ≤ k')
    (cs : List TCmd) (io : Streams) (w : World) :
    execAllT (build K A N strict bits ndebug k) T hash cs io w = .running ∨
    execAllT (build K A N strict bits ndebug k) T hash cs io w =
      execAllT (build K A N strict bits ndebug k') T hash cs io w := by
  rcases execAllT_below (K := K) (A := A) (N := N) (strict := strict) (bits := bits) (a := False) (r := True)
    (.inl rfl) (.inr ⟨trivial, hk⟩) T hash cs io w with h | ⟨h, -⟩ | ⟨-, h⟩
  · exact .inr h
  · exact h.elim
  · exact .inl h

/-! ## Both cases occur -/

/-- a coarse enclosure of `∛2`, and the flag that forbids refinements -/
def coarse (immutable : Bool) : World where
  fld i := match i with
    | 0 => { nf := K1, emb := .fin 1 1, prec := 64 }
    | _ + 1 => { fld3 with immutable := immutable }
  cell _ := none
  next := 0
  obj _ := none

/-- what a program returned -/
def Out.vals {β : Type} : Out β → Option (Option β)
  | .ok (a, _) => some (some a)
  | .abort => some none
  | _ => none

/-- the two builds of the example -/
noncomputable abbrev demoBuild (ndebug : Bool) (k : ℕ) : Lib :=
  build lib.K (fun _ => exactArb) demoOps false lp64 ndebug k

/-- the sign of `∛2 - 5/4` and the floor of `∛2` -/
def demoSign : List Cmd :=
  [.constructVec 0 1 [-5, 4] 4, .sgn 0, .constructVec 1 1 [0, 1] 1, .floor 1]

/-- With assertions and without, in a field that may be refined. -/
example : (execAll (demoBuild false 64) demoSign (coarse false)).vals =
      some (some [.unit, .int 1, .unit, .int 1]) ∧
    (execAll (demoBuild true 64) demoSign (coarse false)).vals = some (some [.unit, .int 1, .unit, .int 1]) := by
  constructor <;> decide +kernel

/-- In a field that must not be refined an assertion fails; without assertions the program returns. -/
example : (execAll (demoBuild false 64) demoSign (coarse true)).vals = some none ∧
    (execAll (demoBuild true 64) demoSign (coarse true)).vals = some (some [.unit, .int 1, .unit, .int 1]) := by
  constructor <;> decide +kernel

/-- An integer asked of an element that is none: an assertion fails; without assertions the numerator of
the constant coefficient is returned. -/
example : (execAll (demoBuild false 64) [.constructVec 0 1 [-5, 4] 4, .toMpz 0] (coarse false)).vals = some none ∧
    (execAll (demoBuild true 64) [.constructVec 0 1 [-5, 4] 4, .toMpz 0] (coarse false)).vals =
      some (some [.unit, .int (-5)]) := by
  constructor <;> decide +kernel

/-- No round at all is not enough. -/
example : (match execAll (demoBuild false 0) demoSign (coarse false) with | .running => true | _ => false) = true := by
  decide +kernel

end EAntic.Cxx
