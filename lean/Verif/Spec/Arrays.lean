import Mathlib.Data.Nat.Size
import Mathlib.Data.Int.Basic

/-! # What fits into the memory of a 64-bit machine -/

namespace EAntic

/-- A coefficient vector with at most `2^60` entries, each of at most `2^60` bits (no machine holds a
larger one). -/
def InMemory (p : List ℤ) : Prop :=
  p.length ≤ 2 ^ 60 ∧ ∀ a ∈ p, a.natAbs.size ≤ 2 ^ 60

/-- the array `a` after the entries `l` have been stored at its start, and nothing else changed -/
def stored {α : Type} (a l : List α) : List α := l ++ a.drop l.length

end EAntic
