import Verif.Spec.SamePy
import Verif.Lemmas.Same

/-!
# The exact semantics of Python programs is deterministic
-/

namespace EAntic.Py
open Cxx

variable {P : PyEnv} {L L' : Lib} {α : ℕ → ℝ} {S : ℕ → Slot}

private theorem same {x i j : ℕ} {a b : ℝ} (h : S x = .elem i a) (h' : S x = .elem j b) : i = j ∧ a = b := by
  have := h.symm.trans h'
  injection this with e1 e2
  exact ⟨e1, e2⟩

theorem Atom.Is.unique {m : Atom} {a b : ℝ} (h : m.Is S a) (h' : m.Is S b) : a = b := by
  cases m with
  | elem x =>
    obtain ⟨i, h⟩ := h
    obtain ⟨j, h'⟩ := h'
    exact (same h h').2
  | other => exact h.elim
  | _ => exact Eq.trans h (Eq.symm h')

theorem ResultIn.unique {f : BinK} {l m : Atom} {k k' : ℕ} (h : ResultIn S f l m k)
    (h' : ResultIn S f l m k') : k = k' := by
  have left : ∀ {x : ℕ}, (∃ a, S x = .elem k a) → (∃ a, S x = .elem k' a) → k = k' :=
    fun ⟨_, h⟩ ⟨_, h'⟩ => (same h h').1
  have right : ∀ {y : ℕ}, (∃ j b, S y = .elem j b ∧ (f = .add ∨ f = .mul ∨ ¬ IsRat b → k = j) ∧
      (f = .sub ∨ f = .div → IsRat b → k = 0)) → (∃ j b, S y = .elem j b ∧
      (f = .add ∨ f = .mul ∨ ¬ IsRat b → k' = j) ∧ (f = .sub ∨ f = .div → IsRat b → k' = 0)) → k = k' := by
    rintro y ⟨j, b, h1, h2, h3⟩ ⟨j', b', h1', h2', h3'⟩
    obtain ⟨rfl, rfl⟩ := same h1 h1'
    by_cases hb : IsRat b
    · cases f
      · exact (h2 (.inl rfl)).trans (h2' (.inl rfl)).symm
      · exact (h3 (.inl rfl) hb).trans (h3' (.inl rfl) hb).symm
      · exact (h2 (.inr (.inl rfl))).trans (h2' (.inr (.inl rfl))).symm
      · exact (h3 (.inr rfl) hb).trans (h3' (.inr rfl) hb).symm
    · exact (h2 (.inr (.inr hb))).trans (h2' (.inr (.inr hb))).symm
  cases l with
  | elem x =>
    cases m with
    | elem y =>
      obtain ⟨i, a, j, b, h1, h2, h3⟩ := h
      obtain ⟨i', a', j', b', h1', h2', h3'⟩ := h'
      obtain ⟨rfl, rfl⟩ := same h1 h1'
      obtain ⟨rfl, rfl⟩ := same h2 h2'
      exact resultField_unique h3 h3'
    | _ => exact left h h'
  | _ =>
    cases m with
    | elem y => exact right h h'
    | _ => exact h.elim

theorem Numbers.unique : ∀ {l : List Atom} {qs qs' : List ℚ}, Numbers l qs → Numbers l qs' → qs = qs'
  | [], _, _, .nil, .nil => rfl
  | _ :: _, _, _, .cons h t, .cons h' t' => by
    rw [Numbers.unique t t', Rat.cast_injective (α := ℝ) (Atom.Is.unique h h')]

private theorem raises_det {S' S'' : ℕ → Slot} {r r' : Except String Val} (h : Raises S r S')
    (h' : Raises S r' S'') : SameAnswer r r' ∧ S' = S'' := by
  obtain ⟨⟨s, rfl⟩, rfl⟩ := h
  obtain ⟨⟨s', rfl⟩, rfl⟩ := h'
  exact ⟨trivial, rfl⟩

private theorem makes_det {S' S'' : ℕ → Slot} {r r' : Except String Val} {x k k' : ℕ} {a a' : ℝ}
    (h : Makes S x k a r S') (h' : Makes S x k' a' r' S'') (hk : k = k') (ha : a = a') :
    SameAnswer r r' ∧ S' = S'' := by
  obtain ⟨rfl, rfl⟩ := h
  obtain ⟨rfl, rfl⟩ := h'
  subst hk ha
  exact ⟨rfl, rfl⟩

private theorem ite_det {p : Prop} {_ : Decidable p} {A B A' B' Q : Prop} (h : if p then A else B)
    (h' : if p then A' else B') (h1 : A → A' → Q) (h2 : B → B' → Q) : Q := by
  by_cases hp : p
  · rw [if_pos hp] at h h'; exact h1 h h'
  · rw [if_neg hp] at h h'; exact h2 h h'

private theorem odd_is {m : Atom} {a : ℝ} (h : Obj.Odd (.atom m)) (h' : m.Is S a) : False := by
  rcases h with h | ⟨l, h⟩
  · cases h; exact h'
  · cases h

theorem pyCmd_det {S' S'' : ℕ → Slot} {c : PyCmd} {r r' : Except String Val}
    (h : c.Step P L α S r S') (h' : c.Step P L α S r' S'') : SameAnswer r r' ∧ S' = S'' := by
  cases c with
  | operator f x lhs rhs =>
    rcases h with ⟨l, m, a, b, e1, e2, h1, h2, -, h⟩ | ⟨ho, h⟩
    · rcases h' with ⟨l', m', a', b', e1', e2', h1', h2', -, h'⟩ | ⟨ho, -⟩
      · subst e1 e2
        cases e1'
        cases e2'
        obtain rfl := h1.unique h1'
        obtain rfl := h2.unique h2'
        refine ite_det h h' raises_det ?_
        rintro ⟨k, h3, h4⟩ ⟨k', h3', h4'⟩
        exact makes_det h3 h3' (h4.unique h4') rfl
      · subst e1 e2
        exact (ho.elim (odd_is · h1) (odd_is · h2)).elim
    · rcases h' with ⟨l', m', a', b', e1', e2', h1', h2', -, h'⟩ | ⟨-, h'⟩
      · subst e1' e2'
        exact (ho.elim (odd_is · h1') (odd_is · h2')).elim
      · exact raises_det h h'
  | neg x y =>
    obtain ⟨i, a, h1, h⟩ := h
    obtain ⟨i', a', h1', h'⟩ := h'
    obtain ⟨rfl, rfl⟩ := same h1 h1'
    exact makes_det h h' rfl rfl
  | pow x y n =>
    obtain ⟨i, a, h1, h⟩ := h
    obtain ⟨i', a', h1', h'⟩ := h'
    obtain ⟨rfl, rfl⟩ := same h1 h1'
    exact ite_det h h' (makes_det · · rfl rfl) raises_det
  | make x K v =>
    rcases h with ⟨m, a, rfl, h1, h2, h⟩ | ⟨y, j, b, rfl, h1, h⟩ | ⟨k, l, qs, rfl, rfl, h1, h⟩
    · rcases h' with ⟨m', a', e, h1', -, h'⟩ | ⟨y, j, b, e, h1', h'⟩ | ⟨k, l, qs, e, e', h1', h'⟩
      · cases e
        exact ite_det h h' raises_det (makes_det · · rfl (h1.unique h1'))
      · cases e
        exact (h2 trivial).elim
      · cases e'
    · rcases h' with ⟨m', a', e, -, h2, h'⟩ | ⟨y', j', b', e, h1', h'⟩ | ⟨k, l, qs, e, e', h1', h'⟩
      · cases e
        exact (h2 trivial).elim
      · cases e
        obtain ⟨rfl, rfl⟩ := same h1 h1'
        exact ite_det h h' (makes_det · · rfl rfl) raises_det
      · cases e'
    · rcases h' with ⟨m', a', e, -, h2, h'⟩ | ⟨y', j', b', e, h1', h'⟩ | ⟨k', l', qs', e, e', h1', h'⟩
      · cases e
      · cases e
      · cases e
        cases e'
        exact ite_det h h' raises_det (makes_det · · rfl (by rw [h1.unique h1']))
  | zero x K => exact makes_det h h' rfl rfl

theorem pyStmt_det (hK : ∀ i, (L.K i).Ok) (hα : ∀ i, (L.K i).IsRoot (α i)) {S' S'' : ℕ → Slot}
    {c : PyStmt} {r r' : Except String Val} (he : c.Exact L S)
    (h : c.Step P L α S r S') (h' : c.Step P L α S r' S'') : SameAnswer r r' ∧ S' = S'' := by
  cases c with
  | py c => exact pyCmd_det h h'
  | cxx c => exact tryStep_det hK hα he h h'

theorem pySteps_det (hK : ∀ i, (L.K i).Ok) (hα : ∀ i, (L.K i).IsRoot (α i)) {cs : List PyStmt} :
    ∀ {S S' S'' : ℕ → Slot} {rs rs' : List (Except String Val)}, PyAllExact P L α S cs →
      PySteps P L α S cs rs S' → PySteps P L α S cs rs' S'' →
      List.Forall₂ SameAnswer rs rs' ∧ S' = S'' := by
  induction cs with
  | nil =>
    intro S S' S'' rs rs' _ h h'
    cases rs with
    | nil =>
      cases rs' with
      | nil => exact ⟨.nil, Eq.trans h (Eq.symm h')⟩
      | cons _ _ => exact h'.elim
    | cons _ _ => exact h.elim
  | cons c cs ih =>
    intro S S' S'' rs rs' he h h'
    cases rs with
    | nil => exact h.elim
    | cons r rs =>
      cases rs' with
      | nil => exact h'.elim
      | cons r' rs' =>
        obtain ⟨T, h1, h2⟩ := h
        obtain ⟨T', h1', h2'⟩ := h'
        obtain ⟨h3, rfl⟩ := pyStmt_det hK hα he.1 h1 h1'
        obtain ⟨h4, h5⟩ := ih (he.2 _ _ h1) h2 h2'
        exact ⟨.cons h3 h4, h5⟩

/-! ### The semantics only depends on the fields -/

theorem pyStep_congr (h : SameFields L L') (S : ℕ → Slot) (c : PyStmt) (r : Except String Val)
    (S' : ℕ → Slot) : c.Step P L α S r S' ↔ c.Step P L' α S r S' := by
  cases c with
  | cxx c => exact h.tryStep S c r S'
  | py c =>
    have ha : Apart L S = Apart L' S := by
      funext l m
      cases l <;> cases m <;> simp only [Apart, h.strict]
    have hb : Atom.Big L.bits = Atom.Big L'.bits := by rw [h.bits]
    cases c with
    | operator f x lhs rhs =>
      simp only [PyStmt.Step, PyCmd.Step]
      rw [ha, hb]
    | _ => exact Iff.rfl

theorem pyValid_congr (h : SameFields L L') (S : ℕ → Slot) (c : PyStmt) :
    c.Valid L α S ↔ c.Valid L' α S := by
  cases c with
  | cxx c => exact h.valid (α := α) S c
  | py c => cases c <;> simp only [PyStmt.Valid, PyCmd.Valid, h.fields]

theorem pyAllowed_congr (h : SameFields L L') {cs : List PyStmt} : ∀ (S : ℕ → Slot),
    PyAllowed P L α S cs ↔ PyAllowed P L' α S cs := by
  induction cs with
  | nil => exact fun _ => Iff.rfl
  | cons c cs ih =>
    intro S
    refine and_congr (pyValid_congr h S c) (forall_congr' fun r => forall_congr' fun S' => ?_)
    exact imp_congr (pyStep_congr h S c r S') (ih S')

theorem pySteps_congr (h : SameFields L L') {cs : List PyStmt} :
    ∀ (S : ℕ → Slot) (rs : List (Except String Val)) (S' : ℕ → Slot),
    PySteps P L α S cs rs S' ↔ PySteps P L' α S cs rs S' := by
  induction cs with
  | nil => intro S rs S'; cases rs <;> exact Iff.rfl
  | cons c cs ih =>
    intro S rs S'
    cases rs with
    | nil => exact Iff.rfl
    | cons r rs => exact exists_congr fun T => and_congr (pyStep_congr h S c r T) (ih T rs S')

end EAntic.Py
