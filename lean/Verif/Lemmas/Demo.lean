import Verif.Lemmas.Cubic
import Verif.Lemmas.FieldInst
import Verif.Model.Convert
import Verif.Model.GetD

/-!
# A concrete run-time state for the examples

The field of `∛2` with a poor enclosure, and elements that have a poor enclosure too, so that the
queries have to refine.
-/

namespace EAntic

/-- executable environment for `ℚ(∛2)` -/
def env3 : Env K3 := ⟨exactArb, cubOps, refineEmbedding exactArb false 64, 64⟩

/-- `∛2 ∈ [1, 3/2]` -/
def fld3 : Field := { nf := K3, emb := .fin (5 / 4) (1 / 4), prec := 64 }

/-- user 0: `∛2`; user 1: `∛2 - 1` with an enclosure that contains 0; user 2: `(1 + ∛4)/2`;
user 3: `2/3`; all others 0 -/
def mem3 : Mem where
  fld := fld3
  heap r := match r with
    | .user 0 => ⟨⟨[0, 1], 1, 0⟩, .fin (5 / 4) (1 / 4)⟩
    | .user 1 => ⟨⟨[-1, 1], 1, 0⟩, .fin 0 1⟩
    | .user 2 => ⟨⟨[1, 0, 1], 2, 0⟩, .whole⟩
    | .user 3 => ⟨⟨[2], 3, 0⟩, .fin 0 1⟩
    | _ => ⟨⟨[], 1, 0⟩, .fin 0 0⟩

/-- the numbers stored in `mem3` -/
noncomputable def val3 : Reg → ℝ
  | .user 0 => cbrt2
  | .user 1 => cbrt2 - 1
  | .user 2 => (1 + cbrt2 ^ 2) / 2
  | .user 3 => 2 / 3
  | _ => 0

theorem cbrt2_bounds : 1 ≤ cbrt2 ∧ cbrt2 ≤ 3 / 2 := by
  have h := cbrt2_pow
  have h0 := cbrt2_pos
  constructor
  · by_contra hc
    push Not at hc
    have : cbrt2 ^ 3 < 1 := pow_lt_one₀ h0.le hc (by norm_num)
    linarith
  · by_contra hc
    push Not at hc
    have : (3 / 2 : ℝ) ^ 3 < cbrt2 ^ 3 := pow_lt_pow_left₀ hc (by norm_num) (by norm_num)
    norm_num at this
    linarith

theorem cbrt2_ne_rat (q : ℚ) : cbrt2 ≠ q := by
  intro h
  have := cbrt2_pow
  rw [h] at this
  exact rat_cube_ne_two q (by exact_mod_cast this)

theorem fld3_good : GoodField K3 cbrt2 fld3 where
  nf := rfl
  prec := by decide
  enc := by
    show cbrt2 ∈ Ball.fin (5 / 4) (1 / 4)
    rw [Ball.mem_fin]
    push_cast
    have := cbrt2_bounds
    constructor <;> linarith [this.1, this.2]
  apart := fun _ _ _ β hβ hne => absurd (K3_unique β hβ) hne

theorem env3_inv : FieldInv env3 cbrt2 (GoodField K3 cbrt2) :=
  goodField_inv K3_ok K3_root (.inr K3_unique) (nd := false) (n := 64) rfl

theorem mem3_rep : Rep K3 cbrt2 (GoodField K3 cbrt2) val3 mem3 where
  inv := fld3_good
  wf r := by
    have hl : K3.isLinear = false := rfl
    have hq : K3.isQuadratic = false := rfl
    constructor
    · unfold mem3; simp only; split <;> decide
    · unfold mem3; simp only; split <;> decide
    · rw [hl]; simp
    · rw [hq]; simp
    · intro _ _; unfold mem3; simp only; split <;> decide
  val r := by
    unfold mem3 val3
    simp only
    split <;> simp [NfElem.val, realValue, toPoly] <;> ring
  enc r := by
    have h := cbrt2_bounds
    unfold mem3 val3
    simp only
    split <;> first | trivial | (rw [Ball.mem_fin]; push_cast; constructor <;> linarith [h.1, h.2])

/-- the value returned by a run -/
def out {α : Type} (m : M α) (s : Mem) : Option α :=
  match m s with
  | .ok (a, _) => some a
  | _ => none

theorem out_eq_some {α : Type} {m : M α} {s : Mem} {a : α} (h : out m s = some a) :
    ∃ s', m s = .ok (a, s') := by
  unfold out at h
  split at h
  · rename_i b s' hb
    injection h with h
    exact ⟨s', by rw [hb, h]⟩
  · simp at h

end EAntic
