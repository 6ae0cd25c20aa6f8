import Verif.Props.RefineTerm
import Verif.Props.Cxx

/-!
# The answers with the modelled refinement

The theorems on answers (C02, C05–C13, C34, C43, C49) are stated for any refinement of the field that
keeps the root in the enclosure (`FieldInv.refine`).  `renf_refine_embedding` does so in fields whose
polynomial has a single real root, and near any root in general (C14); `C01_counterexample` shows what
happens otherwise.  Here the modelled refinement is put in, so that no assumption about it is left.
-/

namespace EAntic

variable {K : Nf} {α : ℝ}

/-- C02 with the modelled refinement, for polynomials with a single real root: after any program all
values and all answers (signs, comparisons, roundings, conversions) are those of exact arithmetic. -/
theorem C02_exact_unique_root {E : Env K} (hK : K.Ok) (hα : K.IsRoot α)
    (hu : ∀ β, (toPoly K.pol).IsRoot β → β = α) {nd : Bool} {n : ℕ}
    (hr : E.refine = refineEmbedding E.A nd n) {f : Field} (hf : f.nf = K) (hp : 2 ≤ f.prec)
    (he : α ∈ f.emb) {ops : List Op} {as : List Ans} {s' : Mem}
    (h : E.run ops (freshMem f) = .ok (as, s')) :
    Steps K α (fun _ => 0) ops as (fun a => (s'.heap (.user a)).elem.val α) :=
  C02_exact_arithmetic (goodField_inv hK hα (.inr hu) hr)
    ⟨hf, hp, he, fun _ _ _ β hβ hne => absurd (hu β hβ) hne⟩ h

/-- C02 with the modelled refinement, for every field of degree at least two and any number of real
roots: there is a radius, such that for every program on a field whose first enclosure is not wider
all values and all answers are those of exact arithmetic. -/
theorem C02_exact_near_root (hK : K.Ok) (h3 : 3 ≤ K.pol.length) (hα : K.IsRoot α) {A : ArbOps}
    (hA : A.Tight) :
    ∃ δ : ℝ, 0 < δ ∧ ∀ (E : Env K) (nd : Bool) (n : ℕ), E.A = A → E.refine = refineEmbedding A nd n →
      ∀ {f : Field}, NearBy K α δ f → ∀ {ops : List Op} {as : List Ans} {s' : Mem},
        E.run ops (freshMem f) = .ok (as, s') →
          Steps K α (fun _ => 0) ops as (fun a => (s'.heap (.user a)).elem.val α) := by
  obtain ⟨δ, hδ, H⟩ := near_inv hK h3 hα hA
  exact ⟨δ, hδ, fun E nd n hA hr f hf ops as s' h => C02_exact_arithmetic (H E nd n hA hr) hf h⟩

section near
variable (hK : K.Ok) (h3 : 3 ≤ K.pol.length) (hα : K.IsRoot α) {A : ArbOps} (hA : A.Tight)
include hK h3 hα hA

/-- C05 with the modelled refinement. -/
theorem C05_sign_near_root :
    ∃ δ : ℝ, 0 < δ ∧ ∀ (E : Env K) (nd : Bool) (n : ℕ), E.A = A → E.refine = refineEmbedding A nd n →
      ∀ {v : Reg → ℝ} {s s' : Mem}, Rep K α (NearBy K α δ) v s → ∀ {a : ℕ} {z : ℤ},
        E.sgn (.user a) s = .ok (z, s') →
        (z = 1 ∧ 0 < v (.user a) ∨ z = 0 ∧ v (.user a) = 0 ∨ z = -1 ∧ v (.user a) < 0) ∧
          Rep K α (NearBy K α δ) v s' := by
  obtain ⟨δ, hδ, H⟩ := near_inv hK h3 hα hA
  exact ⟨δ, hδ, fun E nd n hA hr v s s' hs a z h => C05_sign (H E nd n hA hr) hs h⟩

/-- C06 with the modelled refinement. -/
theorem C06_compare_near_root :
    ∃ δ : ℝ, 0 < δ ∧ ∀ (E : Env K) (nd : Bool) (n : ℕ), E.A = A → E.refine = refineEmbedding A nd n →
      ∀ {v : Reg → ℝ} {s s' : Mem}, Rep K α (NearBy K α δ) v s → ∀ {a b : ℕ} {z : ℤ},
        E.cmp (.user a) (.user b) s = .ok (z, s') →
        (z < 0 ↔ v (.user a) < v (.user b)) ∧ (z = 0 ↔ v (.user a) = v (.user b)) ∧
          (0 < z ↔ v (.user b) < v (.user a)) ∧ Rep K α (NearBy K α δ) v s' := by
  obtain ⟨δ, hδ, H⟩ := near_inv hK h3 hα hA
  exact ⟨δ, hδ, fun E nd n hA hr v s s' hs a b z h => C06_compare (H E nd n hA hr) hs h⟩

/-- C07 with the modelled refinement. -/
theorem C07_compare_rational_near_root :
    ∃ δ : ℝ, 0 < δ ∧ ∀ (E : Env K) (nd : Bool) (n : ℕ), E.A = A → E.refine = refineEmbedding A nd n →
      ∀ {v : Reg → ℝ} {s s' : Mem}, Rep K α (NearBy K α δ) v s → ∀ {a : ℕ} {q : ℚ} {nd' : Bool} {z : ℤ},
        E.cmpQ (.user a) q nd' s = .ok (z, s') →
        (z < 0 ↔ v (.user a) < q) ∧ (z = 0 ↔ v (.user a) = q) ∧ (0 < z ↔ q < v (.user a)) ∧
          Rep K α (NearBy K α δ) v s' := by
  obtain ⟨δ, hδ, H⟩ := near_inv hK h3 hα hA
  exact ⟨δ, hδ, fun E nd n hA hr v s s' hs a q nd' z h =>
    C07_compare_rational (H E nd n hA hr) hs h⟩

/-- C09 with the modelled refinement. -/
theorem C09_floor_ceil_near_root_partial :
    ∃ δ : ℝ, 0 < δ ∧ ∀ (E : Env K) (nd : Bool) (n : ℕ), E.A = A → E.refine = refineEmbedding A nd n →
      ∀ {v : Reg → ℝ} {s s' : Mem}, Rep K α (NearBy K α δ) v s → ∀ {a : ℕ} {z : ℤ},
        v (.user a) ≠ 0 →
        (E.floor (.user a) s = .ok (z, s') → z = ⌊v (.user a)⌋ ∧ Rep K α (NearBy K α δ) v s') ∧
        (E.ceil (.user a) s = .ok (z, s') → z = ⌈v (.user a)⌉ ∧ Rep K α (NearBy K α δ) v s') := by
  obtain ⟨δ, hδ, H⟩ := near_inv hK h3 hα hA
  exact ⟨δ, hδ, fun E nd n hA hr v s s' hs a z h => C09_floor_ceil_partial (H E nd n hA hr) hs h⟩

/-- C10 with the modelled refinement. -/
theorem C10_floor_division_near_root :
    ∃ δ : ℝ, 0 < δ ∧ ∀ (E : Env K) (nd : Bool) (n : ℕ), E.A = A → E.refine = refineEmbedding A nd n →
      ∀ {v : Reg → ℝ} {s s' : Mem}, Rep K α (NearBy K α δ) v s → ∀ {b c : ℕ} {z : ℤ},
        E.fdiv (.user b) (.user c) s = .ok (z, s') →
        v (.user c) ≠ 0 ∧ z = ⌊v (.user b) / v (.user c)⌋ ∧ Rep K α (NearBy K α δ) v s' := by
  obtain ⟨δ, hδ, H⟩ := near_inv hK h3 hα hA
  exact ⟨δ, hδ, fun E nd n hA hr v s s' hs b c z h => C10_floor_division (H E nd n hA hr) hs h⟩

/-- C11 with the modelled refinement. -/
theorem C11_get_arb_near_root :
    ∃ δ : ℝ, 0 < δ ∧ ∀ (E : Env K) (nd : Bool) (n : ℕ), E.A = A → E.refine = refineEmbedding A nd n →
      ∀ {v : Reg → ℝ} {s s' : Mem}, Rep K α (NearBy K α δ) v s → ∀ {a : ℕ} {prec : ℤ} {b : Ball},
        E.getArb (.user a) prec s = .ok (b, s') →
        v (.user a) ∈ b ∧ (∃ m r : ℚ, b = .fin m r ∧ r * 2 ^ prec ≤ |m|) ∧
          Rep K α (NearBy K α δ) v s' := by
  obtain ⟨δ, hδ, H⟩ := near_inv hK h3 hα hA
  exact ⟨δ, hδ, fun E nd n hA hr v s s' hs a prec b h => C11_get_arb (H E nd n hA hr) hs h⟩

end near

/-! Each of the theorems above applies: near every radius there is a memory with `∛2`, `∛2 - 1` and
`(1 + ∛2²) / 2` in its variables, and in it the calls give the answers below when they end (they do,
`C44_queries_end_partial`). -/

theorem near_mem3 {δ : ℝ} (hδ : 0 < δ) : ∃ m r : ℚ, cbrt2 ∈ Ball.fin m r ∧
    Rep K3 cbrt2 (NearBy K3 cbrt2 δ) val3 { mem3 with fld := ⟨K3, .fin m r, 64, false⟩ } := by
  obtain ⟨r, r0, r1⟩ := exists_rat_btwn hδ
  obtain ⟨m, m0, m1⟩ := exists_rat_btwn (show cbrt2 - r < cbrt2 by linarith)
  have hm : cbrt2 ∈ Ball.fin m r := by
    rw [Ball.mem_fin]; constructor <;> linarith
  exact ⟨m, r, hm, ⟨⟨rfl, m, r, rfl, hm, r1.le⟩, show (2 : ℤ) ≤ 64 by norm_num⟩, mem3_rep.wf,
    mem3_rep.val, mem3_rep.enc⟩

/-- the environment of the examples: the floating point arithmetic and the modelled refinement -/
def nearEnv (n : ℕ) : Env K3 := ⟨fpArb, cubOps, refineEmbedding fpArb false n, n⟩

theorem cbrt2_gt : 1 < cbrt2 :=
  lt_of_le_of_ne cbrt2_bounds.1 fun h => cbrt2_ne_rat 1 (by rw [← h]; norm_num)

example : ∃ m r : ℚ, cbrt2 ∈ Ball.fin m r ∧ ∀ {n : ℕ} {ops : List Op} {as : List Ans} {s' : Mem},
    (nearEnv n).run ops (freshMem ⟨K3, .fin m r, 64, false⟩) = .ok (as, s') →
    Steps K3 cbrt2 (fun _ => 0) ops as (fun a => (s'.heap (.user a)).elem.val cbrt2) := by
  refine ⟨5 / 4, 1 / 4, fld3_good.enc, fun h => ?_⟩
  exact C02_exact_unique_root (nd := false) K3_ok K3_root K3_unique rfl rfl
    (show (2 : ℤ) ≤ 64 by norm_num) fld3_good.enc h

example : ∃ m r : ℚ, cbrt2 ∈ Ball.fin m r ∧ ∀ {n : ℕ} {z : ℤ} {s' : Mem},
    (nearEnv n).sgn (.user 1) { mem3 with fld := ⟨K3, .fin m r, 64, false⟩ } = .ok (z, s') →
    z = 1 := by
  obtain ⟨δ, hδ, H⟩ := C05_sign_near_root K3_ok (by decide) K3_root fpArb_tight
  obtain ⟨m, r, hm, hs⟩ := near_mem3 hδ
  refine ⟨m, r, hm, fun {n z s'} h => ?_⟩
  have : 0 < cbrt2 - 1 := by linarith [cbrt2_gt]
  rcases (H (nearEnv n) false n rfl rfl hs h).1 with ⟨e, -⟩ | ⟨-, h0⟩ | ⟨-, h0⟩
  · exact e
  · exact absurd (show cbrt2 - 1 = 0 from h0) this.ne'
  · exact absurd (show cbrt2 - 1 < 0 from h0) (not_lt.2 this.le)

example : ∃ m r : ℚ, cbrt2 ∈ Ball.fin m r ∧ ∀ {n : ℕ} {z : ℤ} {s' : Mem},
    (nearEnv n).cmp (.user 1) (.user 0) { mem3 with fld := ⟨K3, .fin m r, 64, false⟩ } = .ok (z, s') →
    z < 0 := by
  obtain ⟨δ, hδ, H⟩ := C06_compare_near_root K3_ok (by decide) K3_root fpArb_tight
  obtain ⟨m, r, hm, hs⟩ := near_mem3 hδ
  refine ⟨m, r, hm, fun {n z s'} h => ?_⟩
  exact (H (nearEnv n) false n rfl rfl hs h).1.2 (show cbrt2 - 1 < cbrt2 by linarith)

example : ∃ m r : ℚ, cbrt2 ∈ Ball.fin m r ∧ ∀ {n : ℕ} {z : ℤ} {s' : Mem},
    (nearEnv n).cmpQ (.user 0) (3 / 2) false { mem3 with fld := ⟨K3, .fin m r, 64, false⟩ } =
      .ok (z, s') → z < 0 := by
  obtain ⟨δ, hδ, H⟩ := C07_compare_rational_near_root K3_ok (by decide) K3_root fpArb_tight
  obtain ⟨m, r, hm, hs⟩ := near_mem3 hδ
  refine ⟨m, r, hm, fun {n z s'} h => ?_⟩
  refine (H (nearEnv n) false n rfl rfl hs h).1.2 ?_
  refine lt_of_le_of_ne ?_ (cbrt2_ne_rat (3 / 2))
  push_cast
  exact cbrt2_bounds.2

example : ∃ m r : ℚ, cbrt2 ∈ Ball.fin m r ∧ ∀ {n : ℕ} {z : ℤ} {s' : Mem},
    (nearEnv n).ceil (.user 0) { mem3 with fld := ⟨K3, .fin m r, 64, false⟩ } = .ok (z, s') →
    z = 2 := by
  obtain ⟨δ, hδ, H⟩ := C09_floor_ceil_near_root_partial K3_ok (by decide) K3_root fpArb_tight
  obtain ⟨m, r, hm, hs⟩ := near_mem3 hδ
  refine ⟨m, r, hm, fun {n z s'} h => ?_⟩
  have e := ((H (nearEnv n) false n rfl rfl hs (a := 0) (show cbrt2 ≠ 0 from cbrt2_pos.ne')).2 h).1
  rw [e]
  refine Int.ceil_eq_iff.2 ⟨?_, ?_⟩
  · show ((2 : ℤ) : ℝ) - 1 < cbrt2
    push_cast; linarith [cbrt2_gt]
  · show cbrt2 ≤ ((2 : ℤ) : ℝ)
    push_cast; linarith [cbrt2_bounds.2]

example : ∃ m r : ℚ, cbrt2 ∈ Ball.fin m r ∧ ∀ {n : ℕ} {z : ℤ} {s' : Mem},
    (nearEnv n).fdiv (.user 1) (.user 0) { mem3 with fld := ⟨K3, .fin m r, 64, false⟩ } =
      .ok (z, s') → z = 0 := by
  obtain ⟨δ, hδ, H⟩ := C10_floor_division_near_root K3_ok (by decide) K3_root fpArb_tight
  obtain ⟨m, r, hm, hs⟩ := near_mem3 hδ
  refine ⟨m, r, hm, fun {n z s'} h => ?_⟩
  rw [(H (nearEnv n) false n rfl rfl hs h).2.1]
  refine Int.floor_eq_iff.2 ⟨?_, ?_⟩
  · show ((0 : ℤ) : ℝ) ≤ (cbrt2 - 1) / cbrt2
    push_cast
    exact div_nonneg (by linarith [cbrt2_gt]) cbrt2_pos.le
  · show (cbrt2 - 1) / cbrt2 < ((0 : ℤ) : ℝ) + 1
    rw [div_lt_iff₀ cbrt2_pos]; push_cast; linarith

example : ∃ m r : ℚ, cbrt2 ∈ Ball.fin m r ∧ ∀ {n : ℕ} {b : Ball} {s' : Mem},
    (nearEnv n).getArb (.user 0) 100 { mem3 with fld := ⟨K3, .fin m r, 64, false⟩ } = .ok (b, s') →
    cbrt2 ∈ b ∧ ∃ m r : ℚ, b = .fin m r ∧ r * 2 ^ (100 : ℤ) ≤ |m| := by
  obtain ⟨δ, hδ, H⟩ := C11_get_arb_near_root K3_ok (by decide) K3_root fpArb_tight
  obtain ⟨m, r, hm, hs⟩ := near_mem3 hδ
  refine ⟨m, r, hm, fun {n b s'} h => ?_⟩
  obtain ⟨h1, h2, -⟩ := H (nearEnv n) false n rfl rfl hs h
  exact ⟨h1, h2⟩

/-- the theorems apply to the floating point arithmetic and the field of `√2`: some first enclosure,
from which the sign of every element is right -/
example : ∃ f : Field, f.nf = K2 ∧ √2 ∈ f.emb ∧ ∀ (N : NfOps K2) (n : ℕ) {ops : List Op}
    {as : List Ans} {s' : Mem},
    (⟨fpArb, N, refineEmbedding fpArb false n, n⟩ : Env K2).run ops (freshMem f) = .ok (as, s') →
      Steps K2 √2 (fun _ => 0) ops as (fun a => (s'.heap (.user a)).elem.val √2) := by
  obtain ⟨δ, hδ, H⟩ := C02_exact_near_root K2_ok (by decide) K2_root fpArb_tight
  obtain ⟨r, r0, r1⟩ := exists_rat_btwn hδ
  obtain ⟨m, m0, m1⟩ := exists_rat_btwn (show √2 - r < √2 by linarith)
  have hm : √2 ∈ Ball.fin m r := by
    rw [Ball.mem_fin]; constructor <;> linarith
  refine ⟨⟨K2, .fin m r, 64, false⟩, rfl, hm, fun N n ops as s' h => ?_⟩
  exact H _ false n rfl rfl ⟨⟨rfl, m, r, rfl, hm, r1.le⟩, show (2 : ℤ) ≤ 64 by norm_num⟩ h

namespace Cxx

/-- C49 with the modelled refinement: for every family of fields there are radii such that every
program that starts with enclosures that are not wider gives the answers of exact arithmetic and
leaves the memory in order. -/
theorem C49_program_near_roots {K : ℕ → Nf} {α : ℕ → ℝ} (hK : ∀ i, (K i).Ok)
    (hα : ∀ i, (K i).IsRoot (α i)) {A : ℕ → ArbOps} (hA : ∀ i, (A i).Tight) :
    ∃ δ : ℕ → ℝ, (∀ i, 0 < δ i) ∧ ∀ (E : ∀ i, Env (K i)) (strict ndebug : Bool)
      (bits : Widths) (nd : ℕ → Bool) (n : ℕ → ℕ), bits.Ok → (∀ i, (E i).A = A i) →
      (∀ i, (E i).refine = refineEmbedding (A i) (nd i) (n i)) →
      let L : Lib := ⟨K, E, strict, ndebug, bits⟩
      ∀ {S : ℕ → Slot} {w w' : World} {cs : List Cmd} {as : List Val},
        Represents L α (fun i => FieldNear (K i) (α i) (δ i)) S w → Allowed L α S cs →
        execAll L cs w = .ok (as, w') →
        ∃ S', Steps L α S cs as S' ∧
          Represents L α (fun i => FieldNear (K i) (α i) (δ i)) S' w' := by
  have key : ∀ i, ∃ δ : ℝ, 0 < δ ∧ ∀ (E : Env (K i)) (nd : Bool) (n : ℕ), E.A = A i →
      E.refine = refineEmbedding (A i) nd n → FieldInv E (α i) (FieldNear (K i) (α i) δ) := by
    intro i
    by_cases h3 : 3 ≤ (K i).pol.length
    · obtain ⟨δ, hδ, H⟩ := near_inv (hK i) h3 (hα i) (hA i)
      refine ⟨δ, hδ, fun E nd n hA hr => ⟨hK i, hα i, fun h => h.1, fun h => h.2.1,
        fun h => h.2.2.1, fun {f p f'} h hf => ?_⟩⟩
      have := (H E nd n hA hr).refine ⟨h.2.2.2 h3, h.2.2.1⟩ hf
      exact ⟨(H E nd n hA hr).nf this, (H E nd n hA hr).enc this, this.2, fun _ => this.1⟩
    · have hu : ∀ β, (toPoly (K i).pol).IsRoot β → β = α i := by
        have h2 : (K i).pol.length = 2 := by have := (hK i).two_le; omega
        obtain ⟨c₀, c₁, e⟩ : ∃ c₀ c₁, (K i).pol = [c₀, c₁] := by
          match h : (K i).pol, h2 with
          | [c₀, c₁], _ => exact ⟨c₀, c₁, rfl⟩
        have hc : (c₁ : ℝ) ≠ 0 := by
          have := (hK i).lead
          rw [e] at this
          simpa using this
        have hα' : (toPoly (K i).pol).IsRoot (α i) := hα i
        intro β hβ
        rw [e] at hβ hα'
        simp [toPoly] at hβ hα'
        have : (c₁ : ℝ) * (β - α i) = 0 := by linarith
        rcases mul_eq_zero.1 this with h | h
        · exact absurd h hc
        · linarith
      refine ⟨1, one_pos, fun E nd n hA hr => ⟨hK i, hα i, fun h => h.1, fun h => h.2.1,
        fun h => h.2.2.1, fun {f p f'} h hf => ?_⟩⟩
      have H := goodField_inv (E := E) (hK i) (hα i) (.inr hu) (nd := nd) (n := n) (by rw [hA]; exact hr)
      have := H.refine ⟨h.1, h.2.2.1, h.2.1, fun _ _ _ β hβ hne => absurd (hu β hβ) hne⟩ hf
      exact ⟨this.nf, this.enc, this.prec, fun h => absurd h h3⟩
  choose δ hδ H using key
  refine ⟨δ, hδ, ?_⟩
  intro E strict ndebug bits nd n hb hEA hr L S w w' cs as h hv he
  exact C49_program (L := L) (fun i => H i (E i) (nd i) (n i) (hEA i) (hr i)) hb h hv he

/-- a process with fields and no elements yet, for every choice of enclosures: the hypotheses are met
by the trivial field and two copies of `ℚ(√2)` with enclosures that are small enough, and a program that
reads an element from coefficients, subtracts and asks for the sign -/
example (δ : ℕ → ℝ) (hδ : ∀ i, 0 < δ i) : ∃ w, Represents
    ⟨fun i => match i with | 0 => K1 | _ + 1 => K2, fun i => match i with
      | 0 => ⟨fpArb, nfOps K1_ok, refineEmbedding fpArb false 64, 64⟩
      | _ + 1 => ⟨fpArb, nfOps K2_ok, refineEmbedding fpArb false 64, 64⟩, false, true, lp64⟩
    (fun i => match i with | 0 => 1 | _ + 1 => √2)
    (fun i => match i with
      | 0 => FieldNear K1 1 (δ 0)
      | i + 1 => FieldNear K2 √2 (δ (i + 1))) (fun _ => .absent) w ∧
    Allowed ⟨fun i => match i with | 0 => K1 | _ + 1 => K2, fun i => match i with
      | 0 => ⟨fpArb, nfOps K1_ok, refineEmbedding fpArb false 64, 64⟩
      | _ + 1 => ⟨fpArb, nfOps K2_ok, refineEmbedding fpArb false 64, 64⟩, false, true, lp64⟩
      (fun i => match i with | 0 => 1 | _ + 1 => √2) (fun _ => .absent)
      [.constructVec 0 1 [0, 1] 1, .binopZ .sub 0 1, .sgn 0] := by
  have key : ∀ i, ∃ f : Field, FieldNear K2 √2 (δ i) f := by
    intro i
    obtain ⟨r, r0, r1⟩ := exists_rat_btwn (hδ i)
    obtain ⟨m, m0, m1⟩ := exists_rat_btwn (show √2 - r < √2 by linarith)
    have hm : √2 ∈ Ball.fin m r := by
      rw [Ball.mem_fin]; constructor <;> linarith
    exact ⟨⟨K2, .fin m r, 64, false⟩, rfl, hm, by norm_num, fun _ => ⟨rfl, m, r, rfl, hm, r1.le⟩⟩
  choose f hf using key
  refine ⟨⟨fun i => match i with
    | 0 => { nf := K1, emb := .fin 1 1, prec := 64 }
    | i + 1 => f (i + 1), fun _ => none, 0, fun _ => none⟩, ⟨fun i => ?_, fun _ _ => rfl, ?_, ?_, ?_, ?_,
      ?_⟩, ⟨rfl, by decide, by decide⟩, ?_⟩
  · cases i with
    | zero => exact ⟨rfl, by show (1 : ℝ) ∈ Ball.fin 1 1; rw [Ball.mem_fin]; norm_num, by norm_num,
        fun h => absurd h (by decide)⟩
    | succ i => exact hf (i + 1)
  · intro x h; cases x <;> simp [vars] at h
  · intro x i a h; cases x <;> simp [vars] at h
  · intro _ _ _ _ _ h; simp at h
  · intro _ h; simp at h
  · intro _ h; simp at h
  · rintro _ _ ⟨rfl, rfl⟩
    refine ⟨⟨⟨1, _, by simp; rfl⟩, by simp⟩, ?_⟩
    rintro _ _ ⟨i, a, -, rfl, rfl⟩
    exact ⟨⟨i, _, by simp; rfl⟩, fun _ _ _ => trivial⟩

end Cxx
end EAntic
