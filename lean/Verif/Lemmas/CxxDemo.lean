import Verif.Lemmas.CxxRun
import Verif.Lemmas.NfInst
import Verif.Lemmas.FastNf
import Verif.Lemmas.Demo

/-! # A concrete setting for the C++ elements: the trivial field and copies of `ℚ(∛2)` -/

namespace EAntic.Cxx

/-- the trivial field `a - 1` (`renf_class.cpp:81-92`) -/
def K1 : Nf := ⟨[-1, 1]⟩

open Polynomial in
theorem K1_ok : K1.Ok where
  two_le := by decide
  lead := by decide
  irr := by
    have e : toPolyQ K1.pol = X - C 1 := by
      simp [K1, toPolyQ]; ring
    rw [e]; exact irreducible_X_sub_C 1

theorem K1_root : K1.IsRoot 1 := by simp [Nf.IsRoot, K1, toPoly]

/-- the trivial field's environment -/
noncomputable def env1 : Env K1 := ⟨exactArb, fastOps (nfOps K1_ok), refineEmbedding exactArb false 64, 64⟩

/-- usual 64 bit platform -/
def lp64 : Widths := ⟨16, 32, 64, 64, 64⟩
theorem lp64_ok : lp64.Ok := by constructor <;> decide

/-- The trivial field, and `ℚ(∛2)` under different names. -/
noncomputable def lib : Lib where
  K i := match i with
    | 0 => K1
    | _ + 1 => K3
  E i := match i with
    | 0 => env1
    | _ + 1 => env3
  strict := false
  ndebug := true
  bits := lp64

/-- the generators -/
noncomputable def gens : ℕ → ℝ
  | 0 => 1
  | _ + 1 => cbrt2

/-- what is required of the fields -/
def fine : ℕ → Field → Prop
  | 0 => GoodField K1 1
  | _ + 1 => GoodField K3 cbrt2

theorem lib_inv : ∀ i, FieldInv (lib.E i) (gens i) (fine i)
  | 0 => goodField_inv K1_ok K1_root (.inr fun _ h => linear_unique K1_ok rfl K1_root h)
      (nd := false) (n := 64) rfl
  | _ + 1 => env3_inv

/-- at the start there are fields and no elements -/
def start : World where
  fld i := match i with
    | 0 => { nf := K1, emb := .fin 1 1, prec := 64 }
    | _ + 1 => fld3
  cell _ := none
  next := 0
  obj _ := none

theorem start_rep : Represents lib gens fine (fun _ => .absent) start where
  fld i := match i with
    | 0 => ⟨rfl, by decide, by show (1 : ℝ) ∈ Ball.fin 1 1; rw [Ball.mem_fin]; norm_num,
        fun _ _ _ _ hβ hne => absurd (linear_unique K1_ok rfl K1_root hβ) hne⟩
    | _ + 1 => fld3_good
  absent _ _ := rfl
  moved x h := by cases x <;> simp [vars] at h
  elem x i a h := by cases x <;> simp [vars] at h
  inj _ _ _ _ _ h := by simp [start] at h
  owned _ h := by simp [start] at h
  bound _ h := by simp [start] at h

/-- the answer of a call -/
def Out.answer {β : Type} : Out β → Option β
  | .ok (a, _) => some a
  | _ => none

theorem answer_eq_some {β : Type} {r : Out β} {a : β} (h : r.answer = some a) : ∃ w', r = .ok (a, w') := by
  unfold Out.answer at h
  split at h
  · injection h with h
    exact ⟨_, by rw [h]⟩
  · simp at h

theorem cbrt2_irr : ¬ IsRat cbrt2 := by
  rintro ⟨q, hq⟩
  have := cbrt2_pow
  rw [hq] at this
  exact rat_cube_ne_two q (by exact_mod_cast this)

end EAntic.Cxx
