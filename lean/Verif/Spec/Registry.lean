import Verif.Model.Registry

/-!
# Specification: schedules in which fields are not dropped at the wrong moment
-/

namespace EAntic.Registry

variable {κ : Type} [DecidableEq κ]

/-- A schedule in which no thread completes `make` with a field whose last handle another thread
has just dropped. -/
def Careful (s : State κ) : List (Act κ) → Prop
  | [] => True
  | a :: as =>
    (∀ t, a = .finish t → ∀ o, s.pc t = .returning o → ∀ t', s.pc t' ≠ .dying o) ∧
    ∀ s', step s a = some s' → Careful s' as

/-- A schedule in which no release drops the last handle of a field. -/
def Keeps (s : State κ) : List (Act κ) → Prop
  | [] => True
  | a :: as =>
    (∀ t o, a = .release t o → ∃ x ∈ s.handles.erase (t, o), x.2 = o) ∧
    ∀ s', step s a = some s' → Keeps s' as

end EAntic.Registry
