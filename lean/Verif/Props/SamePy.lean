import Verif.Props.PyProg
import Verif.Props.Same
import Verif.Lemmas.SamePy

/-!
# C75 for Python programs
-/

namespace EAntic.Py
open Cxx

variable {P : PyEnv} {L L' : Lib} {α : ℕ → ℝ} {I I' : ℕ → Field → Prop} {S : ℕ → Slot} {w w' v v' : World}

/-- C75, partial.  The same Python program, catching exceptions, on variables with the same values, with
two versions of the library for the same fields (any precisions, enclosures, histories and build options).  If
both runs come to an end the answers are the same, the same statements raise exceptions, and the variables
hold the same values afterwards.  Missing: the calls that are not `Exact`, see `C75_floor_counterexample`. -/
theorem C75_python_partial (hs : SameFields L L') (hE : ∀ i, FieldInv (L.E i) (α i) (I i))
    (hE' : ∀ i, FieldInv (L'.E i) (α i) (I' i)) (hb : L.bits.Ok) (hg : P.gmpy = true) (hP : P.Ok L.bits)
    {cs : List PyStmt} (h : Represents L α I S w) (h' : Represents L' α I' S w')
    (hv : PyAllowed P L α S cs) (he : PyAllExact P L α S cs) {rs rs' : List (Except String Val)}
    (hr : runCatching P L cs w = .ok (rs, v)) (hr' : runCatching P L' cs w' = .ok (rs', v')) :
    List.Forall₂ SameAnswer rs rs' ∧
      ∃ S' Λ Λ', RepresentsUpTo L α I Λ S' v ∧ RepresentsUpTo L' α I' Λ' S' v' := by
  obtain ⟨S₁, Λ, h1, h2, -⟩ := (C74_program_partial hE hb hg hP h hv).1 _ _ hr
  obtain ⟨S₂, Λ', h3, h4, -⟩ := (C74_program_partial hE' (hs.bits ▸ hb) hg (hs.bits ▸ hP) h'
    ((pyAllowed_congr hs S).1 hv)).1 _ _ hr'
  obtain ⟨h5, rfl⟩ := pySteps_det (fun i => (hE i).ok) (fun i => (hE i).root) he h1
    ((pySteps_congr hs S rs' S₂).2 h3)
  exact ⟨h5, S₁, Λ, Λ', h2, h4⟩

/-! ### A concrete case -/

/-- `x = renf_elem(K, [0, 1])`, `y = mpq(1/2) - x`, `y < 0`, `x + 2 ** 40` (an exception) -/
def demoPyB : List PyStmt :=
  [.py (.make 0 (some 1) (.list [.int 0, .gmpyMpz 1])),
    .py (.operator .sub 5 (.atom (.gmpyMpq (1 / 2))) (.atom (.elem 0))),
    .cxx (.ltQ 5 0), .py (.operator .add 6 (.atom (.elem 0)) (.atom (.int (2 ^ 40))))]

theorem demoPyB_ok : PyAllowed demoPy lib gens (fun _ => .absent) demoPyB ∧
    PyAllExact demoPy lib gens (fun _ => .absent) demoPyB := by
  have hl : Numbers [.int 0, .gmpyMpz 1] [0, 1] := by
    refine .cons ?_ (.cons ?_ .nil) <;> simp [Atom.Is]
  have key : ∀ (S : ℕ → Slot) (b : ℝ), S 0 = .elem 1 b → S 5 = .absent → S 6 = .absent →
      PyAllowed demoPy lib gens S demoPyB.tail := by
    intro S b h0 h5 h6
    refine ⟨⟨h5, .inl ⟨_, _, ((1 / 2 : ℚ) : ℝ), b, rfl, rfl, rfl, ⟨1, h0⟩, .inr trivial, by simp⟩⟩,
      fun r S₁ h => ?_⟩
    rcases h with ⟨l, m, a, b', e1, e2, h1, h2, -, h⟩ | ⟨(h | ⟨l, h⟩) | (h | ⟨l, h⟩), -⟩
    rotate_left
    · cases h
    · cases h
    · cases h
    · cases h
    cases e1
    cases e2
    rw [if_neg (by rintro (h | h | h) <;> exact h)] at h
    obtain ⟨k, ⟨-, rfl⟩, -⟩ := h
    refine ⟨⟨k, _, Function.update_self ..⟩, ?_⟩
    rintro (s | a₁) S₁ h
    · exact h.1.elim
    obtain ⟨j, c, -, rfl, -⟩ := h
    exact ⟨⟨by simp [h6], .inl ⟨_, _, b, ((2 ^ 40 : ℤ) : ℝ), rfl, rfl, ⟨1, by simp [h0]⟩, rfl, .inl trivial,
      by simp⟩⟩, fun _ _ _ => trivial⟩
  refine ⟨⟨⟨rfl, .inr ⟨1, _, _, rfl, rfl, hl, by decide⟩⟩, fun r S₁ h => ?_⟩, trivial, fun _ _ _ =>
    ⟨trivial, fun _ _ _ => ⟨trivial, fun _ _ _ => ⟨trivial, fun _ _ _ => trivial⟩⟩⟩⟩
  rcases h with ⟨m, _, h, -⟩ | ⟨_, _, _, h, -⟩ | ⟨k', l, qs, e1, e2, -, h⟩
  · cases h
  · cases h
  cases e1
  cases e2
  rw [if_neg (by
    rintro ⟨z, h, hz⟩
    simp only [List.mem_cons, Atom.int.injEq, reduceCtorEq, List.not_mem_nil, or_false] at h
    subst h
    exact absurd hz (by decide))] at h
  obtain ⟨-, rfl⟩ := h
  exact key _ _ (Function.update_self ..) (by simp) (by simp)

/-- is the list of answers what one expects? -/
def okAnswersPy : List (Except String Val) → Bool
  | [.ok .unit, .ok .unit, .ok (.bool true), .error _] => true
  | _ => false

/-- both runs come to an end, with a different course, and the answers agree -/
example : ∃ rs rs' v v', runCatching demoPy lib demoPyB start = .ok (rs, v) ∧
    runCatching demoPy libB demoPyB startB = .ok (rs', v') ∧ okAnswersPy rs = true ∧
    okAnswersPy rs' = true ∧ List.Forall₂ SameAnswer rs rs' := by
  have h1 : ((runCatching demoPy lib demoPyB start).answer).map okAnswersPy = some true := by decide +kernel
  have h2 : ((runCatching demoPy libB demoPyB startB).answer).map okAnswersPy = some true := by decide +kernel
  obtain ⟨rs, e1, h1⟩ := Option.map_eq_some_iff.1 h1
  obtain ⟨rs', e2, h2⟩ := Option.map_eq_some_iff.1 h2
  obtain ⟨v, e1⟩ := answer_eq_some e1
  obtain ⟨v', e2⟩ := answer_eq_some e2
  exact ⟨rs, rs', v, v', e1, e2, h1, h2, (C75_python_partial (L := lib) (L' := libB) ⟨rfl, rfl, rfl⟩ lib_inv
    libB_inv lp64_ok rfl demoPy_ok start_rep startB_rep demoPyB_ok.1 demoPyB_ok.2 e1 e2).1⟩

end EAntic.Py
