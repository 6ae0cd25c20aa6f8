import Verif.Spec.TextIO

/-!
# Specification: texts of several elements
-/

namespace EAntic.Cxx

/-- Read elements into the variables `ys`, skipping white space (`is >> std::ws`) before each. -/
def extractAll (L : Lib) (T : TextLib) (k : ℕ) : List ℕ → Stream → W Stream
  | [], st => pure st
  | y :: ys, st => do
    let st' ← extract L T (.user y) (some k) ⟨st.chars.dropWhile isSpace, st.eof⟩
    extractAll L T k ys st'

/-- a text of several elements: each is preceded by white space, but for the first -/
def joined : List (List Char × List Char) → List Char
  | [] => []
  | (b, s) :: l => b ++ s ++ joined l

/-- the state after reading the numbers `as` into the variables `ys` -/
noncomputable def stored (k : ℕ) (S : ℕ → Slot) : List ℕ → List ℝ → ℕ → Slot
  | y :: ys, a :: as => stored k (Function.update S y (.elem k a)) ys as
  | _, _ => S

/-- `s` was written by `operator<<` for an element `a` of field `k`, in some run. -/
def Written (L : Lib) (T : TextLib) (α : ℕ → ℝ) (I : ℕ → Field → Prop) (k : ℕ) (a : ℝ)
    (s : List Char) : Prop :=
  ∃ (S : ℕ → Slot) (w w' : World) (x : ℕ), Represents L α I S w ∧ S x = .elem k a ∧
    print L T (.user x) w = .ok (s, w')

end EAntic.Cxx
