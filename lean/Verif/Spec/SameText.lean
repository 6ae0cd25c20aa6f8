import Verif.Spec.Same
import Verif.Spec.TextProg

/-!
# Specification of programs with text whose answers do not depend on the precision
-/

namespace EAntic.Cxx

/-- The answer of the call is determined by the values of the operands and by the input: it is none of
those of `Exact`, and it does not ask for the stored enclosure. -/
def ExactT (L : Lib) (S : ℕ → Slot) : TCmd → Prop
  | .call c => Exact L S c
  | .toString _ _ _ arb => arb = false
  | _ => True

/-- All calls of a program are of this kind. -/
def AllExactT (L : Lib) (T : TextLib) {γ : Type} (h : Dbl → γ) (α : ℕ → ℝ) :
    (ℕ → Slot) → Streams → List TCmd → Prop
  | _, _, [] => True
  | S, io, c :: cs => ExactT L S c ∧
      ∀ a S' io', StepT L T h α S io c a S' io' → AllExactT L T h α S' io' cs

end EAntic.Cxx
