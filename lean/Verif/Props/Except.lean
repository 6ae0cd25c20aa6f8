import Verif.Props.Cxx

/-!
# C56: programs that catch exceptions
-/

namespace EAntic.Cxx

variable {L : Lib} {α : ℕ → ℝ} {I : ℕ → Field → Prop} {S : ℕ → Slot} {w w' : World}

/-- C56.  Whatever call throws: the exception is one that it should throw, every variable still
holds what it held before, with storage of its own, and there is no trace of the variable that the
call was to create.  All storage is owned by variables, except for one cell if the call was a
conversion to another field. -/
theorem C56_call (hE : ∀ i, FieldInv (L.E i) (α i) (I i)) (hb : L.bits.Ok) {Λ : Set ℕ} {c : Cmd}
    (h : RepresentsUpTo L α I Λ S w) (hv : Valid L α S c) {s : String}
    (hs : exec L c w = .throw s w') :
    Throws L S c s ∧ ∃ Λ', LeaksTo c Λ Λ' ∧ RepresentsUpTo L α I Λ' S w' := by
  have := exec_good hE hb h hv
  rw [hs] at this
  exact this

/-- C56, partial.  A program that catches every exception and goes on: the answers are those of
exact arithmetic in which a call that throws has no effect, and the memory is in order at the end.
Missing: conversions to another field that throw leave storage behind, at most one cell each, see
`C56_leak_counterexample`. -/
theorem C56_program_partial (hE : ∀ i, FieldInv (L.E i) (α i) (I i)) (hb : L.bits.Ok)
    {cs : List Cmd} (h : Represents L α I S w) (hv : TryAllowed L α S cs)
    {rs : List (Except String Val)} (hr : execCatching L cs w = .ok (rs, w')) :
    ∃ S' Λ, TrySteps L α S cs rs S' ∧ RepresentsUpTo L α I Λ S' w' ∧
      Λ.Finite ∧ Λ.ncard ≤ failedConversions cs rs := by
  have := execCatching_good hE hb h Set.finite_empty hv
  rw [hr] at this
  obtain ⟨S', Λ, h1, h2, h3, h4⟩ := this
  exact ⟨S', Λ, h1, h2, h3, by simpa using h4⟩

/-- C56.  A program that catches exceptions and in which no conversion to another field fails leaks
nothing. -/
theorem C56_no_leak (hE : ∀ i, FieldInv (L.E i) (α i) (I i)) (hb : L.bits.Ok)
    {cs : List Cmd} (h : Represents L α I S w) (hv : TryAllowed L α S cs)
    {rs : List (Except String Val)} (hr : execCatching L cs w = .ok (rs, w'))
    (h0 : failedConversions cs rs = 0) :
    ∃ S', TrySteps L α S cs rs S' ∧ Represents L α I S' w' := by
  obtain ⟨S', Λ, h1, h2, h3, h4⟩ := C56_program_partial hE hb h hv hr
  rw [h0, Nat.le_zero, Set.ncard_eq_zero h3] at h4
  subst h4
  exact ⟨S', h1, h2⟩

/-- C56.  Programs without numerical evaluation that catch exceptions always run to the end. -/
theorem C56_safe_program (hE : ∀ i, FieldInv (L.E i) (α i) (I i)) (hb : L.bits.Ok)
    {cs : List Cmd} (h : Represents L α I S w) (hv : TryAllowed L α S cs)
    (hc : ∀ c ∈ cs, ¬ c.approximates) :
    ∃ rs w' S' Λ, execCatching L cs w = .ok (rs, w') ∧ TrySteps L α S cs rs S' ∧
      RepresentsUpTo L α I Λ S' w' ∧ Λ.Finite ∧ Λ.ncard ≤ failedConversions cs rs := by
  have key := (execCatching_good hE hb h Set.finite_empty hv).weaken (U' := False)
    (fun ⟨c, h1, h2⟩ => hc c h1 h2) fun _ _ h => h
  cases hr : execCatching L cs w with
  | ok p =>
    obtain ⟨rs, w'⟩ := p
    obtain ⟨S', Λ, h1, h2, h3, h4⟩ := C56_program_partial hE hb h hv hr
    exact ⟨rs, w', S', Λ, rfl, h1, h2, h3, h4⟩
  | _ => rw [hr] at key; exact key.elim

/-- C56.  When the program has destroyed all its variables, no more storage is left than the number
of conversions that threw. -/
theorem C56_end (hE : ∀ i, FieldInv (L.E i) (α i) (I i)) (hb : L.bits.Ok)
    {cs : List Cmd} (h : Represents L α I S w) (hv : TryAllowed L α S cs)
    {rs : List (Except String Val)} (hr : execCatching L cs w = .ok (rs, w'))
    (h0 : ∀ S', TrySteps L α S cs rs S' → ∀ x, S' x = .absent) :
    {c | w'.cell c ≠ none}.ncard ≤ failedConversions cs rs := by
  obtain ⟨S', Λ, h1, h2, h3, h4⟩ := C56_program_partial hE hb h hv hr
  refine (Set.ncard_le_ncard (fun c hc => ?_) h3).trans h4
  by_contra hn
  obtain ⟨x, i, hx⟩ := h2.owned c hc hn
  have : vars S' x = .absent := by
    cases x with
    | user x => exact h0 S' h1 x
    | tmp _ => rfl
  rw [h2.absent x this] at hx
  cases hx

/-- C56, FALSE for conversions: `renf_elem_class(k, value)` that throws leaves a cell allocated that
no variable owns, every time.  There is no way to release it. -/
theorem C56_leak_counterexample (hE : ∀ i, FieldInv (L.E i) (α i) (I i))
    (h : Represents L α I S w) {x y j k : ℕ} {b : ℝ} (hx : S x = .absent) (hy : S y = .elem j b)
    (hjk : j ≠ k) (hb : ¬ IsRat b) :
    ∃ s w' c, exec L (.constructFrom x k y) w = .throw s w' ∧ w'.cell c ≠ none ∧
      (∀ z i, w'.obj z ≠ some ⟨some i, c⟩) ∧ ∀ S', ¬ Represents L α I S' w' := by
  have key : Good False (fun _ w' => ∃ c, w'.cell c ≠ none ∧ ∀ z i, w'.obj z ≠ some ⟨some i, c⟩)
      (fun _ _ => False) (constructFrom L (.user x) k (.user y) w) :=
    (constructFrom_good hE k h (x := .user x) (y := .user y) hx hy
      fun _ _ _ _ c _ hc => ⟨c, hc⟩).mono fun _ _ hr => by
        rcases hr.1 with h | h
        · exact hjk h
        · exact hb h
  cases hr : constructFrom L (.user x) k (.user y) w with
  | throw s w' =>
    rw [hr] at key
    obtain ⟨c, h1, h2⟩ := key
    refine ⟨s, w', c, ?_, h1, h2, fun S' h' => ?_⟩
    · show W.bind (constructFrom L (.user x) k (.user y)) _ w = _
      unfold W.bind
      rw [hr]
    · obtain ⟨z, i, hz⟩ := h'.owned c h1 (by simp)
      exact h2 z i hz
  | _ => rw [hr] at key; exact key.elim

/-- `∛2` converted to another field, and what a program that catches the exception gets:
`try { renf_elem_class z(L, x); } catch (…) {}` and then `x + x` -/
example : ∃ w, (∃ s w' c, exec lib (.constructFrom 2 2 0) w = .throw s w' ∧ w'.cell c ≠ none ∧
      (∀ z i, w'.obj z ≠ some ⟨some i, c⟩) ∧ ∀ S', ¬ Represents lib gens fine S' w') ∧
    ∃ s rs w' S', execCatching lib [.constructFrom 2 2 0, .binary .add 2 0 0] w =
      .ok (.error s :: rs, w') ∧ S' 2 = .elem 1 (cbrt2 + cbrt2) ∧
      TrySteps lib gens (Function.update (Function.update (fun _ => .absent) 0 (.elem 1 cbrt2)) 1
        (.elem 0 3)) [.constructFrom 2 2 0, .binary .add 2 0 0] (.error s :: rs) S' := by
  obtain ⟨w, hw⟩ := demo_state
  refine ⟨w, C56_leak_counterexample lib_inv hw (j := 1) (b := cbrt2) (by simp) (by simp) (by simp)
    cbrt2_irr, ?_⟩
  have hv : TryAllowed lib gens (Function.update (Function.update (fun _ => .absent) 0
      (.elem 1 cbrt2)) 1 (.elem 0 3)) [.constructFrom 2 2 0, .binary .add 2 0 0] := by
    refine ⟨⟨by simp, 1, cbrt2, by simp⟩, ?_⟩
    rintro (s | a) S₁ h
    · obtain ⟨-, rfl⟩ := h
      exact ⟨⟨by simp, ⟨1, cbrt2, by simp⟩, 1, cbrt2, by simp⟩, fun _ _ _ => trivial⟩
    · obtain ⟨j, b, e, h5, -⟩ := h
      simp at e
      obtain ⟨rfl, rfl⟩ := e
      rcases h5 with h5 | h5
      · cases h5
      · exact absurd h5 cbrt2_irr
  obtain ⟨rs, w', S', Λ, h1, h2, -⟩ := C56_safe_program lib_inv lp64_ok hw hv
    (by simp [Cmd.approximates])
  · match rs, h2 with
    | r :: rs, h2 =>
      obtain ⟨S₁, h3, h4⟩ := h2
      cases r with
      | ok a =>
        obtain ⟨j, b, e, h5, -⟩ := h3
        simp at e
        obtain ⟨rfl, rfl⟩ := e
        rcases h5 with h5 | h5
        · cases h5
        · exact absurd h5 cbrt2_irr
      | error s =>
        obtain ⟨h3, rfl⟩ := h3
        refine ⟨s, rs, w', S', h1, ?_, ⟨_, ⟨h3, rfl⟩, h4⟩⟩
        match rs, h4 with
        | [r], ⟨S₂, h5, h6⟩ =>
          cases r with
          | ok a =>
            obtain ⟨i, a, j, b, k, e1, e2, h7, h8, -, rfl⟩ := h5
            simp at e1 e2
            obtain ⟨rfl, rfl⟩ := e1
            obtain ⟨rfl, rfl⟩ := e2
            have : k = 1 := by
              rcases h8 with ⟨_, h8⟩ | ⟨h8, _⟩ | ⟨h8, _⟩
              · exact h8
              · exact absurd rfl h8
              · exact absurd rfl h8
            subst this
            change S' = _ at h6
            rw [h6]
            simp [BinK.real]
          | error s =>
            obtain ⟨⟨i, a, j, b, e1, e2, h7⟩, -⟩ := h5
            simp at e1 e2
            obtain ⟨rfl, rfl⟩ := e1
            obtain ⟨rfl, rfl⟩ := e2
            exact absurd (.inl rfl) h7

end EAntic.Cxx
