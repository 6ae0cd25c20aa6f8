import Verif.Spec.Converge

/-!
# Specification: calls that end

Loops and refinements of the model are cut off after a number of rounds, with the result `running`.
A call ends if its result no longer depends on that number once it is large enough, and is not
`running`.
-/

namespace EAntic

/-- The library with all loops and the refinement of the field cut off after `k` rounds. -/
def envs {K : Nf} (A : ArbOps) (N : NfOps K) (R : ℕ → Field → ℤ → Res Field) (k : ℕ) : Env K :=
  ⟨A, N, R k, k⟩

/-- Overflow of the working precision in a refinement, which is undefined behaviour, made visible:
from now on it is reported as an exception.  No other function of the element layer throws. -/
def Res.reportOverflow {β : Type} : Res β → Res β
  | .ub => .throw "overflow"
  | r => r

/-- The piece of code `m` ends from the memory `s`: it returns a value and a memory satisfying
`Post`; or one of its refinements reports an overflow; or, only if `V`, it calls `abort`.  It neither
goes on for ever nor has undefined behaviour. -/
def Ends {β : Type} (V : Prop) (m : ℕ → M β) (s : Mem) (Post : β → Mem → Prop) : Prop :=
  ∃ n : ℕ, (∃ z s', Post z s' ∧ ∀ k, n ≤ k → m k s = .ok (z, s')) ∨
    (∀ k, n ≤ k → m k s = .throw "overflow") ∨ (V ∧ ∀ k, n ≤ k → m k s = .abort)

/-- Every refinement ends: the field has the requested number of bits; or the refinement reports an
overflow. -/
def RefinesOr (R : ℕ → Field → ℤ → Res Field) (I : Field → Prop) : Prop :=
  ∀ f p, I f → ∃ n : ℕ,
    (∃ f', (∀ k, n ≤ k → R k f p = .ok f') ∧ p ≤ f'.emb.relAccuracyBits) ∨
    (∀ k, n ≤ k → R k f p = .throw "overflow")

/-- The precision with which elements of value `x` are first evaluated is legal for Arb, in each of
the fields that occur (see `EvalOk`). -/
def LegalAt (K : Nf) (α : ℝ) (I : Field → Prop) (x : ℝ) : Prop :=
  ∀ f, I f → ∀ e : NfElem, e.Wf K → e.val α = x → EvalOk K f e

end EAntic
