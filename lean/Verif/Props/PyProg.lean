import Verif.Spec.PyProg
import Verif.Props.PyNum

/-!
# C74: programs in Python
-/

namespace EAntic.Py
open Cxx

variable {L : Lib} {α : ℕ → ℝ} {I : ℕ → Field → Prop} {S : ℕ → Slot} {w : World} {P : PyEnv} {Λ : Set ℕ}

/-- C74.  One statement of Python: the exact result in the new variable, or an exception exactly where the
specification has one, and then nothing has changed.  Only a failed conversion leaks (C56). -/
theorem C74_statement_partial (hE : ∀ i, FieldInv (L.E i) (α i) (I i)) (hb : L.bits.Ok) (hg : P.gmpy = true)
    (hP : P.Ok L.bits) (h : RepresentsUpTo L α I Λ S w) {c : PyCmd} (hv : c.Valid L S) :
    ∃ res w' S' Λ', attempt (c.run P L) w = .ok (res, w') ∧ c.Step P L α S res S' ∧
      RepresentsUpTo L α I Λ' S' w' ∧
      (Λ' = Λ ∨ (PyStmt.py c).converts ∧ (∃ s, res = .error s) ∧ ∃ d, Λ' = insert d Λ) := by
  classical
  have ok : ∀ {w'}, c.run P L w = .ok (.unit, w') → attempt (c.run P L) w = .ok (.ok .unit, w') := by
    intro w' e; unfold attempt; rw [e]
  have bad : ∀ {s w'}, c.run P L w = .throw s w' → attempt (c.run P L) w = .ok (.error s, w') := by
    intro s w' e; unfold attempt; rw [e]
  cases c with
  | operator f r lhs rhs =>
    obtain ⟨hr, ⟨l, m, a, b, rfl, rfl, h1, h2, h3, h4⟩ | hodd⟩ := hv
    · have := C74_operator hE hb h hg f hr h1 h2 h3 h4
      by_cases hc : l.Big L.bits ∨ m.Big L.bits ∨ Apart L S l m
      · rw [if_pos hc] at this
        obtain ⟨s, w', e1, e2⟩ := this
        exact ⟨_, w', S, Λ, bad e1, .inl ⟨l, m, a, b, rfl, rfl, h1, h2, h3, by rw [if_pos hc]; exact ⟨⟨s, rfl⟩, rfl⟩⟩, e2, .inl rfl⟩
      · rw [if_neg hc] at this
        obtain ⟨k, w', e1, e2, e3⟩ := this
        exact ⟨_, w', _, Λ, ok e1, .inl ⟨l, m, a, b, rfl, rfl, h1, h2, h3, by
          rw [if_neg hc]; exact ⟨k, ⟨rfl, rfl⟩, e3⟩⟩, e2, .inl rfl⟩
    · obtain ⟨s, e⟩ := C74_operator_other (P := P) (L := L) (w := w) f r hodd
      exact ⟨_, w, S, Λ, bad e, .inr ⟨hodd, ⟨s, rfl⟩, rfl⟩, h, .inl rfl⟩
  | neg r x =>
    obtain ⟨hr, i, a, hx⟩ := hv
    obtain ⟨w', e1, e2⟩ := (C74_unary_partial (P := P) hE hb h hr hx).1
    exact ⟨_, w', _, Λ, ok e1, ⟨i, a, hx, rfl, rfl⟩, e2, .inl rfl⟩
  | pow r x n =>
    obtain ⟨hr, hn, i, a, hx, h0⟩ := hv
    obtain ⟨-, k1, k2, -⟩ := C74_unary_partial (P := P) hE hb h hr hx
    by_cases hc : -2 ^ 31 < n ∧ n < 2 ^ 31
    · obtain ⟨w', e1, e2⟩ := k1 n hc.1 hc.2 h0
      exact ⟨_, w', _, Λ, ok e1, ⟨i, a, hx, by rw [if_pos hc]; exact ⟨rfl, rfl⟩⟩, e2, .inl rfl⟩
    · obtain ⟨s, e⟩ := k2 n (by
        by_contra hh
        push Not at hh
        exact hc ⟨lt_of_le_of_ne hh.1 (Ne.symm hn), hh.2⟩)
      exact ⟨_, w, S, Λ, bad e, ⟨i, a, hx, by rw [if_neg hc]; exact ⟨⟨s, rfl⟩, rfl⟩⟩, h, .inl rfl⟩
  | make r K v =>
    obtain ⟨hr, ⟨m, a, rfl, hm⟩ | ⟨k, l, qs, rfl, rfl, hl, hd⟩⟩ := hv
    · by_cases hel : m.IsElem
      · obtain ⟨y, rfl⟩ : ∃ y, m = .elem y := by cases m <;> first | exact hel.elim | exact ⟨_, rfl⟩
        obtain ⟨j, hy⟩ := hm
        cases K with
        | none =>
          obtain ⟨w', e1, e2⟩ := C74_make_copy (P := P) hE hb h hr hy
          exact ⟨_, w', _, Λ, ok e1, .inr (.inl ⟨y, j, a, rfl, hy, by rw [if_pos (.inl rfl)]; exact ⟨rfl, rfl⟩⟩), e2, .inl rfl⟩
        | some k =>
          have := C74_make_convert (P := P) hE hb h (k := k) hr hy
          by_cases hc : j = k ∨ IsRat a
          · rw [if_pos hc] at this
            obtain ⟨w', e1, e2⟩ := this
            exact ⟨_, w', _, Λ, ok e1, .inr (.inl ⟨y, j, a, rfl, hy, by
              rw [if_pos (show (some k).getD j = j ∨ IsRat a from hc.imp_left Eq.symm)]; exact ⟨rfl, rfl⟩⟩), e2, .inl rfl⟩
          · rw [if_neg hc] at this
            obtain ⟨s, w', Λ', e1, e2, e3⟩ := this
            exact ⟨_, w', S, Λ', bad e1, .inr (.inl ⟨y, j, a, rfl, hy, by
              rw [if_neg (show ¬((some k).getD j = j ∨ IsRat a) from fun hh => hc (hh.imp_left Eq.symm))]; exact ⟨⟨s, rfl⟩, rfl⟩⟩), e2, e3.imp_right fun hd => ⟨⟨r, k, y, rfl⟩, ⟨s, rfl⟩, hd⟩⟩
      · have := C74_make_number hE hb h hg hP hr K hm hel
        by_cases hc : ∃ z, m = .int z ∧ P.pick z = none
        · rw [if_pos hc] at this
          obtain ⟨s, e⟩ := this
          exact ⟨_, w, S, Λ, bad e, .inl ⟨m, a, rfl, hm, hel, by rw [if_pos hc]; exact ⟨⟨s, rfl⟩, rfl⟩⟩, h, .inl rfl⟩
        · rw [if_neg hc] at this
          obtain ⟨w', e1, e2⟩ := this
          exact ⟨_, w', _, Λ, ok e1, .inl ⟨m, a, rfl, hm, hel, by rw [if_neg hc]; exact ⟨rfl, rfl⟩⟩, e2, .inl rfl⟩
    · have := C74_make_list hE hb h hg hr hl hd
      by_cases hc : ∃ z, .int z ∈ l ∧ P.pick z = none
      · rw [if_pos hc] at this
        obtain ⟨s, e⟩ := this
        exact ⟨_, w, S, Λ, bad e, .inr (.inr ⟨k, l, qs, rfl, rfl, hl, by rw [if_pos hc]; exact ⟨⟨s, rfl⟩, rfl⟩⟩), h, .inl rfl⟩
      · rw [if_neg hc] at this
        obtain ⟨w', e1, e2⟩ := this
        exact ⟨_, w', _, Λ, ok e1, .inr (.inr ⟨k, l, qs, rfl, rfl, hl, by rw [if_neg hc]; exact ⟨rfl, rfl⟩⟩), e2, .inl rfl⟩
  | zero r K =>
    rcases C49_call hE hb h (c := .construct r (K.getD 0)) hv id with
      ⟨ans, w', S', e1, ⟨rfl, rfl⟩, e2⟩ | ⟨s, w', e1, e2, -⟩
    · exact ⟨_, w', _, Λ, ok e1, ⟨rfl, rfl⟩, e2, .inl rfl⟩
    · exact e2.elim

private theorem good_of_ok {β : Type} {U : Prop} {X : String → World → Prop} {Q : β → World → Prop} {r : Out β}
    {a : β} {w : World} (e : r = .ok (a, w)) (h : Q a w) : Good U X Q r := by
  rw [e]; exact h

/-- Programs, in the form for the induction. -/
private theorem runCatching_good (hE : ∀ i, FieldInv (L.E i) (α i) (I i)) (hb : L.bits.Ok) (hg : P.gmpy = true)
    (hP : P.Ok L.bits) : ∀ {cs : List PyStmt} {Λ : Set ℕ} {S : ℕ → Slot} {w : World},
    RepresentsUpTo L α I Λ S w → Λ.Finite → PyAllowed P L α S cs →
    Good (∃ c ∈ cs, c.approximates) (fun _ _ => False)
      (fun rs w' => ∃ S' Λ', PySteps P L α S cs rs S' ∧ RepresentsUpTo L α I Λ' S' w' ∧ Λ'.Finite ∧
        Λ'.ncard ≤ Λ.ncard + failed cs rs) (runCatching P L cs w)
  | [], Λ, S, w, h, hf, _ => ⟨S, Λ, rfl, h, hf, by simp [failed]⟩
  | c :: cs, Λ, S, w, h, hf, hv => by
    classical
    unfold runCatching
    refine Good.bind (P := fun r w' => ∃ S' Λ', c.Step P L α S r S' ∧ RepresentsUpTo L α I Λ' S' w' ∧
      (Λ' = Λ ∨ c.converts ∧ (∃ s, r = .error s) ∧ ∃ d, Λ' = insert d Λ)) ?_ ?_
    · cases c with
      | py c =>
        obtain ⟨res, w', S', Λ', e1, e2, e3, e4⟩ := C74_statement_partial hE hb hg hP h hv.1
        exact good_of_ok e1 ⟨S', Λ', e2, e3, e4⟩
      | cxx c =>
        refine ((attempt_good (exec_good hE hb h hv.1)
          (R := fun r w' => ∃ S' Λ', TryStep L α S c r S' ∧ RepresentsUpTo L α I Λ' S' w' ∧
            (Λ' = Λ ∨ c.converts ∧ (∃ s, r = .error s) ∧ ∃ d, Λ' = insert d Λ)) ?_ ?_).weaken
          (fun hu => ⟨.cxx c, by simp, hu⟩) fun _ _ h => h)
        · rintro a w' ⟨S', hs, hr⟩
          exact ⟨S', Λ, hs, hr, .inl rfl⟩
        · rintro s w' ⟨ht, Λ', hl, hr⟩
          exact ⟨S, Λ', ⟨ht, rfl⟩, hr, hl.imp_right fun ⟨h1, h2⟩ => ⟨h1, ⟨s, rfl⟩, h2⟩⟩
    · rintro r w₁ ⟨S₁, Λ₁, hs, h₁, hl₁⟩
      have hf₁ : Λ₁.Finite ∧ Λ₁.ncard ≤ Λ.ncard + failed [c] [r] := by
        rcases hl₁ with rfl | ⟨hc, ⟨s, rfl⟩, d, rfl⟩
        · exact ⟨hf, by simp⟩
        · refine ⟨hf.insert d, ?_⟩
          simp only [failed, if_pos hc]
          exact Set.ncard_insert_le d Λ
      refine Good.bind ((runCatching_good hE hb hg hP h₁ hf₁.1 (hv.2 r S₁ hs)).weaken
        (fun ⟨c', hc, hu⟩ => ⟨c', by simp [hc], hu⟩) fun _ _ h => h) ?_
      rintro rs w₂ ⟨S₂, Λ₂, hs₂, h₂, hf₂, hl₂⟩
      refine Good.pure ⟨S₂, Λ₂, ⟨S₁, hs, hs₂⟩, h₂, hf₂, ?_⟩
      have := hf₁.2
      cases r <;> simp only [failed] at this ⊢ <;> omega

/-- C74.  Programs of Python with caught exceptions, of any length: when such a program comes to an end, every
statement had the exact result or the exception of the specification, the variables have the exact
values, and at most one cell leaked for every failed conversion (C56).  If no statement evaluates numbers it
does come to an end.  Missing: the smallest `int` as exponent. -/
theorem C74_program_partial (hE : ∀ i, FieldInv (L.E i) (α i) (I i)) (hb : L.bits.Ok) (hg : P.gmpy = true)
    (hP : P.Ok L.bits) (h : Represents L α I S w) {cs : List PyStmt} (hv : PyAllowed P L α S cs) :
    (∀ rs w', runCatching P L cs w = .ok (rs, w') →
      ∃ S' Λ, PySteps P L α S cs rs S' ∧ RepresentsUpTo L α I Λ S' w' ∧ Λ.Finite ∧ Λ.ncard ≤ failed cs rs) ∧
    ((∀ c ∈ cs, ¬ c.approximates) → ∃ rs w', runCatching P L cs w = .ok (rs, w')) := by
  have key := runCatching_good hE hb hg hP h Set.finite_empty hv
  constructor
  · intro rs w' e
    rw [e] at key
    simpa [Good] using key
  · intro hc
    cases hr : runCatching P L cs w with
    | ok p => exact ⟨p.1, p.2, rfl⟩
    | throw s w' => rw [hr] at key; exact key.elim
    | running => rw [hr] at key; obtain ⟨c, h1, h2⟩ := key; exact absurd h2 (hc c h1)
    | abort => rw [hr] at key; obtain ⟨c, h1, h2⟩ := key; exact absurd h2 (hc c h1)
    | ub => rw [hr] at key; obtain ⟨c, h1, h2⟩ := key; exact absurd h2 (hc c h1)

/-! ### A concrete case -/

/-- `y = QQ(1/2) - x`, `y + 2 ** 40` (an exception), `renf_elem(K, [1, mpz(3)])`, `y ** 2` -/
def demoProg : List PyStmt :=
  [.py (.operator .sub 5 (.atom (.sageRational (1 / 2))) (.atom (.elem 0))),
    .py (.operator .add 6 (.atom (.elem 5)) (.atom (.int (2 ^ 40)))),
    .py (.make 7 (some 1) (.list [.int 1, .gmpyMpz 3])), .py (.pow 6 5 2)]

theorem demoProg_ok : PyAllowed demoPy lib gens demoSlots demoProg := by
  refine ⟨⟨by simp [demoSlots], .inl ⟨_, _, ((1 / 2 : ℚ) : ℝ), cbrt2, rfl, rfl, rfl, ⟨1, by simp [demoSlots]⟩,
    .inr trivial, by simp⟩⟩, fun r S₁ h => ?_⟩
  rcases h with ⟨l, m, a, b, e1, e2, h1, h2, -, h⟩ | ⟨(h | ⟨l, h⟩) | (h | ⟨l, h⟩), -⟩
  rotate_left
  · cases h
  · cases h
  · cases h
  · cases h
  cases e1
  cases e2
  rw [if_neg (by rintro (h | h | h) <;> exact h)] at h
  obtain ⟨k, ⟨-, rfl⟩, -⟩ := h
  refine ⟨⟨by simp [demoSlots], .inl ⟨_, _, BinK.sub.real a b, _, rfl, rfl, ⟨k, by simp⟩, rfl, .inl trivial,
    by simp⟩⟩, fun r S₁ h => ?_⟩
  rcases h with ⟨l, m, a', b', e1, e2, h1', h2', -, h⟩ | ⟨(h | ⟨l, h⟩) | (h | ⟨l, h⟩), -⟩
  rotate_left
  · cases h
  · cases h
  · cases h
  · cases h
  cases e1
  cases e2
  rw [if_pos (.inr (.inl (show ¬ InS 32 (2 ^ 40) by decide)))] at h
  obtain ⟨-, rfl⟩ := h
  have hl : Numbers [.int 1, .gmpyMpz 3] [1, 3] := by
    refine .cons ?_ (.cons ?_ .nil) <;> simp [Atom.Is]
  refine ⟨⟨by simp [demoSlots], .inr ⟨1, _, _, rfl, rfl, hl, by decide⟩⟩, fun r S₁ h => ?_⟩
  rcases h with ⟨m, _, h, -⟩ | ⟨_, _, _, h, -⟩ | ⟨k', l, qs, e1, e2, -, h⟩
  · cases h
  · cases h
  cases e1
  cases e2
  rw [if_neg (by
    rintro ⟨z, h, hz⟩
    simp only [List.mem_cons, Atom.int.injEq, reduceCtorEq, List.not_mem_nil, or_false] at h
    subst h
    exact absurd hz (by decide))] at h
  obtain ⟨-, rfl⟩ := h
  exact ⟨⟨by simp [demoSlots], by norm_num, k, BinK.sub.real a b, by simp, by simp⟩, fun _ _ _ => trivial⟩

example : ∃ w rs w' S' Λ', Represents lib gens fine demoSlots w ∧
    runCatching demoPy lib demoProg w = .ok (rs, w') ∧ PySteps demoPy lib gens demoSlots demoProg rs S' ∧
    RepresentsUpTo lib gens fine Λ' S' w' := by
  obtain ⟨w, hw, -⟩ := demo_world
  obtain ⟨h1, h2⟩ := C74_program_partial lib_inv lp64_ok (P := demoPy) rfl demoPy_ok hw demoProg_ok
  obtain ⟨rs, w', e⟩ := h2 (by
    intro c hc
    simp only [demoProg, List.mem_cons, List.not_mem_nil, or_false] at hc
    rcases hc with rfl | rfl | rfl | rfl <;> exact id)
  obtain ⟨S', Λ', e1, e2, -⟩ := h1 _ _ e
  exact ⟨w, rs, w', S', Λ', hw, e, e1, e2⟩

end EAntic.Py
