import Verif.Props.Except
import Verif.Lemmas.Same

/-!
# C75: the answers do not depend on the precision of the fields, nor on what happened before

The documentation of `renf_class::make` (e-antic/renf_class.hpp): the precision "only affects the
performance and inner workings of libeantic, the results of arithmetic operations and comparisons are
not affected by this".
-/

namespace EAntic.Cxx

variable {L L' : Lib} {α : ℕ → ℝ} {I I' : ℕ → Field → Prop} {S : ℕ → Slot} {w w' v v' : World}

/-- C75, partial.  The same program, catching exceptions, on variables with the same values, with two
versions of the library for the same fields: precisions, enclosures, refinement, arithmetic and build
options may all differ, and so may the history of the variables.  If both runs come to an end the
answers are the same, the same calls throw, and the variables hold the same values afterwards.
Missing: the calls that are not `Exact`, see `C75_floor_counterexample`. -/
theorem C75_program_partial (hs : SameFields L L') (hE : ∀ i, FieldInv (L.E i) (α i) (I i))
    (hE' : ∀ i, FieldInv (L'.E i) (α i) (I' i)) (hb : L.bits.Ok) {cs : List Cmd}
    (h : Represents L α I S w) (h' : Represents L' α I' S w') (hv : TryAllowed L α S cs)
    (he : AllExact L α S cs) {rs rs' : List (Except String Val)}
    (hr : execCatching L cs w = .ok (rs, v)) (hr' : execCatching L' cs w' = .ok (rs', v')) :
    List.Forall₂ SameAnswer rs rs' ∧
      ∃ S' Λ Λ', RepresentsUpTo L α I Λ S' v ∧ RepresentsUpTo L' α I' Λ' S' v' := by
  obtain ⟨S₁, Λ, h1, h2, -⟩ := C56_program_partial hE hb h hv hr
  obtain ⟨S₂, Λ', h3, h4, -⟩ := C56_program_partial hE' (hs.bits ▸ hb) h' ((hs.tryAllowed S).1 hv) hr'
  obtain ⟨h5, rfl⟩ := trySteps_det (fun i => (hE i).ok) (fun i => (hE i).root) he h1
    ((hs.trySteps S rs' S₂).2 h3)
  exact ⟨h5, S₁, Λ, Λ', h2, h4⟩

/-- C75, partial.  The case without exceptions: two runs that return have the same answers. -/
theorem C75_call_partial (hs : SameFields L L') (hE : ∀ i, FieldInv (L.E i) (α i) (I i))
    (hE' : ∀ i, FieldInv (L'.E i) (α i) (I' i)) (hb : L.bits.Ok) {c : Cmd}
    (h : Represents L α I S w) (h' : Represents L' α I' S w') (hv : Valid L α S c)
    (he : Exact L S c) :
    (∀ a a', exec L c w = .ok (a, v) → exec L' c w' = .ok (a', v') → a = a') ∧
    ∀ a s, exec L c w = .ok (a, v) → exec L' c w' ≠ .throw s v' := by
  have hb' : L'.bits.Ok := hs.bits ▸ hb
  have hv' := (hs.valid S c).1 hv
  constructor
  · intro a a' hr hr'
    have h1 := exec_good hE hb h hv
    have h2 := exec_good hE' hb' h' hv'
    rw [hr] at h1
    rw [hr'] at h2
    obtain ⟨S₁, h1, -⟩ := h1
    obtain ⟨S₂, h2, -⟩ := h2
    exact (step_det (fun i => (hE i).ok) (fun i => (hE i).root) he h1 ((hs.step S c a' S₂).2 h2)).1
  · intro a s hr hr'
    have h1 := exec_good hE hb h hv
    rw [hr] at h1
    obtain ⟨S₁, h1, -⟩ := h1
    have h2 := (C56_call hE' hb' h' hv' hr').1
    exact not_throws_step h1 ((hs.throws S c s).2 h2)

private theorem returns' {β : Type} {Q : β → World → Prop} {r : Out β}
    (h : Good False (fun _ _ => False) Q r) : ∃ a w', r = .ok (a, w') ∧ Q a w' := by
  cases r with
  | ok p => exact ⟨p.1, p.2, rfl, h⟩
  | _ => exact h.elim

/-- C75, FALSE for `floor` of zero: what it returns depends on what the variable held before. -/
theorem C75_floor_counterexample : ∃ (S : ℕ → Slot) (w w' : World), S 0 = .elem 1 0 ∧
    Represents lib gens fine S w ∧ Represents lib gens fine S w' ∧
    (∃ v, exec lib (.floor 0) w = .ok (.int 0, v)) ∧ ∃ v', exec lib (.floor 0) w' = .ok (.int 5, v') := by
  have has5 : IntTy.int.Has lib.bits 5 := show InS 32 5 by decide
  obtain ⟨a, w₁, e1, S₁, h1, r1⟩ := returns' ((exec_good lib_inv lp64_ok
    (c := .construct 0 1) start_rep rfl).weaken id fun _ _ h => h.1)
  obtain ⟨rfl, rfl⟩ := h1
  obtain ⟨a, w₂, e2, S₂, h2, r2⟩ := returns' ((exec_good lib_inv lp64_ok
    (c := .constructInt 0 1 .int 5) start_rep ⟨rfl, has5⟩).weaken id fun _ _ h => h.1)
  obtain ⟨rfl, rfl⟩ := h2
  obtain ⟨a, w₃, e3, S₃, h3, r3⟩ := returns' ((exec_good lib_inv lp64_ok
    (c := .binopZ .mul 0 0) r2 ⟨⟨1, (5 : ℤ), by simp⟩, by simp⟩).weaken id fun _ _ h => h.1)
  obtain ⟨i, b, e, rfl, rfl⟩ := h3
  simp only [Function.update_self, Slot.elem.injEq] at e
  obtain ⟨rfl, rfl⟩ := e
  refine ⟨Function.update (fun _ => .absent) 0 (.elem 1 0), w₁, w₃, by simp, r1, ?_, ?_, ?_⟩
  · convert r3 using 1
    rw [Function.update_idem]
    congr 1
    simp [BinK.real]
  · have key : (match exec lib (.construct 0 1) start with
      | .ok (_, w) => (exec lib (.floor 0) w).answer
      | _ => none) = some (.int 0) := by decide +kernel
    rw [e1] at key
    exact answer_eq_some key
  · have key : (match exec lib (.constructInt 0 1 .int 5) start with
      | .ok (_, w) => match exec lib (.binopZ .mul 0 0) w with
        | .ok (_, w) => (exec lib (.floor 0) w).answer
        | _ => none
      | _ => none) = some (.int 5) := by decide +kernel
    rw [e2] at key
    simp only [e3] at key
    exact answer_eq_some key

/-! ### A concrete case: `ℚ(∛2)` with 64 bits and `∛2 ∈ [1, 3/2]`, and with 8 bits and `∛2 ∈ [0, 4]` in a
debug build -/

/-- the second library -/
noncomputable def libB : Lib where
  K := lib.K
  E i := match i with
    | 0 => env1
    | _ + 1 => ⟨exactArb, cubOps, refineEmbedding exactArb true 80, 100⟩
  strict := false
  ndebug := false
  bits := lp64

/-- its fields at the start -/
def startB : World where
  fld i := match i with
    | 0 => { nf := K1, emb := .fin 1 1, prec := 64 }
    | _ + 1 => { nf := K3, emb := .fin 2 2, prec := 8 }
  cell _ := none
  next := 0
  obj _ := none

theorem libB_inv : ∀ i, FieldInv (libB.E i) (gens i) (fine i)
  | 0 => lib_inv 0
  | _ + 1 => goodField_inv K3_ok K3_root (.inr K3_unique) (nd := true) (n := 80) rfl

theorem startB_rep : Represents libB gens fine (fun _ => .absent) startB where
  fld i := match i with
    | 0 => start_rep.fld 0
    | _ + 1 => ⟨rfl, show (2 : ℤ) ≤ 8 by decide, by
        show cbrt2 ∈ Ball.fin 2 2
        rw [Ball.mem_fin]
        have := cbrt2_bounds
        constructor <;> push_cast <;> linarith, fun _ _ _ β hβ hne => absurd (K3_unique β hβ) hne⟩
  absent _ _ := rfl
  moved x h := by cases x <;> simp [vars] at h
  elem x i a h := by cases x <;> simp [vars] at h
  inj _ _ _ _ _ h := by simp [startB] at h
  owned _ h := by simp [startB] at h
  bound _ h := by simp [startB] at h

/-- `x = ∛2`, `x < 5/4`, `floor(x)`, `(double)x`, and `x` as an element of another field, which throws -/
def demoB : List Cmd :=
  [.constructVec 0 1 [0, 1] 1, .ltQ 0 (5 / 4), .floor 0, .toDouble 0, .constructFrom 1 2 0, .den 0]

theorem demoB_ok : TryAllowed lib gens (fun _ => .absent) demoB ∧
    AllExact lib gens (fun _ => .absent) demoB := by
  have e : realValue (gens 1) [0, 1] 1 = cbrt2 := by simp [realValue, toPoly, gens]
  have key : ∀ S : ℕ → Slot, S 0 = .elem 1 cbrt2 → S 1 = .absent →
      TryAllowed lib gens S demoB.tail ∧ AllExact lib gens S demoB.tail := by
    intro S h0 h1
    have one : ∀ {j : ℕ} {v : ℝ}, S 0 = .elem j v → j = 1 ∧ v = cbrt2 := by
      intro j v h2
      have := h2.symm.trans h0
      injection this with e1 e2
      exact ⟨e1, e2⟩
    have last : ∀ r S', TryStep lib gens S (.constructFrom 1 2 0) r S' → S' = S := by
      rintro (s | a) S' h
      · exact h.2
      · obtain ⟨j, b, h2, h3, -⟩ := h
        obtain ⟨rfl, rfl⟩ := one h2
        rcases h3 with h3 | h3
        · cases h3
        · exact absurd h3 cbrt2_irr
    refine ⟨⟨⟨1, cbrt2, h0⟩, ?_⟩, trivial, ?_⟩
    all_goals
      rintro (s | a) S₁ h
      · exact h.1.elim
      obtain ⟨j, b, -, rfl, -⟩ := h
    · refine ⟨⟨1, cbrt2, h0⟩, ?_⟩
      rintro (s | a) S₁ h
      · exact h.1.elim
      obtain ⟨rfl, -⟩ := h
      refine ⟨⟨1, cbrt2, h0⟩, ?_⟩
      rintro (s | a) S₁ h
      · exact h.1.elim
      obtain ⟨rfl, -⟩ := h
      refine ⟨⟨h1, 1, cbrt2, h0⟩, fun r S₁ h => ?_⟩
      obtain rfl := last _ _ h
      exact ⟨⟨1, cbrt2, h0⟩, fun _ _ _ => trivial⟩
    · refine ⟨fun j v h2 => (one h2).2 ▸ .inl cbrt2_pos.ne', ?_⟩
      rintro (s | a) S₁ h
      · exact h.1.elim
      obtain ⟨rfl, -⟩ := h
      refine ⟨trivial, ?_⟩
      rintro (s | a) S₁ h
      · exact h.1.elim
      obtain ⟨rfl, -⟩ := h
      refine ⟨trivial, fun r S₁ h => ?_⟩
      exact ⟨trivial, fun _ _ _ => trivial⟩
  refine ⟨⟨⟨rfl, by decide, by decide⟩, ?_⟩, trivial, ?_⟩
  all_goals
    rintro (s | a) S₁ h
    · exact h.1.elim
    obtain ⟨-, rfl⟩ := h
  · exact (key _ (by simp [e]) (by simp)).1
  · exact (key _ (by simp [e]) (by simp)).2

/-- is the list of answers what one expects? -/
def okAnswers : List (Except String Val) → Bool
  | [.ok .unit, .ok (.bool false), .ok (.int 1), .ok (.dbl _), .error _, .ok (.int 1)] => true
  | _ => false

/-- both runs come to an end, with a different course, and the answers agree -/
example : ∃ rs rs' v v', execCatching lib demoB start = .ok (rs, v) ∧
    execCatching libB demoB startB = .ok (rs', v') ∧ okAnswers rs = true ∧ okAnswers rs' = true ∧
    List.Forall₂ SameAnswer rs rs' := by
  have h1 : ((execCatching lib demoB start).answer).map okAnswers = some true := by decide +kernel
  have h2 : ((execCatching libB demoB startB).answer).map okAnswers = some true := by decide +kernel
  obtain ⟨rs, e1, h1⟩ := Option.map_eq_some_iff.1 h1
  obtain ⟨rs', e2, h2⟩ := Option.map_eq_some_iff.1 h2
  obtain ⟨v, e1⟩ := answer_eq_some e1
  obtain ⟨v', e2⟩ := answer_eq_some e2
  exact ⟨rs, rs', v, v', e1, e2, h1, h2, (C75_program_partial (L := lib) (L' := libB) ⟨rfl, rfl, rfl⟩ lib_inv libB_inv lp64_ok
    start_rep startB_rep demoB_ok.1 demoB_ok.2 e1 e2).1⟩

/-- one call on variables with the same values -/
example : ∃ w w', Represents lib gens fine (Function.update (fun _ => .absent) 0 (.elem 1 cbrt2)) w ∧
    Represents libB gens fine (Function.update (fun _ => .absent) 0 (.elem 1 cbrt2)) w' ∧
    ∀ a a' v v', exec lib (.floor 0) w = .ok (a, v) → exec libB (.floor 0) w' = .ok (a', v') → a = a' := by
  have e : realValue (gens 1) [0, 1] 1 = cbrt2 := by simp [realValue, toPoly, gens]
  obtain ⟨a, w₁, e1, S₁, h1, r1⟩ := returns' ((exec_good lib_inv lp64_ok
    (c := .constructVec 0 1 [0, 1] 1) start_rep ⟨rfl, by decide, by decide⟩).weaken id fun _ _ h => h.1)
  obtain ⟨rfl, rfl⟩ := h1
  obtain ⟨a, w₂, e2, S₂, h2, r2⟩ := returns' ((exec_good libB_inv lp64_ok
    (c := .constructVec 0 1 [0, 1] 1) startB_rep ⟨rfl, by decide, by decide⟩).weaken id fun _ _ h => h.1)
  obtain ⟨rfl, rfl⟩ := h2
  rw [e] at r1 r2
  exact ⟨w₁, w₂, r1, r2, fun a a' v v' => (C75_call_partial (L := lib) (L' := libB) ⟨rfl, rfl, rfl⟩ lib_inv libB_inv lp64_ok
    (c := .floor 0) r1 r2
    ⟨1, cbrt2, by simp⟩ (fun i v h => by
      simp only [Function.update_self, Slot.elem.injEq] at h
      exact h.2 ▸ .inl cbrt2_pos.ne')).1 a a'⟩

end EAntic.Cxx
