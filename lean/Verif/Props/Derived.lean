import Verif.Props.Cxx

/-!
# Operators that Boost derives (C58)

All six relations between elements and between elements and numbers of any type on either side; the
four operations with a number on either side.  What the relations and operations mean is
`Rel.Holds`, `BinK.real` and `Num.val` (`Spec/Cxx.lean`).
-/

namespace EAntic.Cxx

variable {L : Lib} {α : ℕ → ℝ} {I : ℕ → Field → Prop} {S : ℕ → Slot} {w w' : World}

section
variable (hE : ∀ i, FieldInv (L.E i) (α i) (I i)) (hb : L.bits.Ok) (h : Represents L α I S w)
include hE hb h

/-- C58.  `x == y`, `x != y`, `x < y`, `x > y`, `x <= y`, `x >= y`: the answer is that for the real
numbers, whenever the call returns; it throws only if neither operand is rational and the parents
differ.  `==` and `!=` always return or throw. -/
theorem C58_relation (o : Rel) {x y i j : ℕ} {a b : ℝ} (hx : S x = .elem i a)
    (hy : S y = .elem j b) :
    (∀ ans w', exec L (.rel o x y) w = .ok (ans, w') →
      ∃ r, ans = .bool r ∧ (r = true ↔ o.Holds a b) ∧ Represents L α I S w') ∧
    (∀ s w', exec L (.rel o x y) w = .throw s w' → (i ≠ j ∧ ¬ IsRat a ∧ ¬ IsRat b) ∧
      Represents L α I S w') ∧
    (o = .eq ∨ o = .ne → (∃ r w', exec L (.rel o x y) w = .ok (r, w')) ∨
      ∃ s w', exec L (.rel o x y) w = .throw s w') := by
  have hv : Valid L α S (.rel o x y) := ⟨⟨i, a, hx⟩, j, b, hy⟩
  obtain ⟨h1, h2⟩ := C49_approximating_call hE hb h hv
  refine ⟨?_, ?_, ?_⟩
  · intro ans w' e
    obtain ⟨S', ⟨i', a', j', b', e1, e2, h2, rfl, r, rfl, hr⟩, h4⟩ := h1 ans w' e
    rw [hx] at e1; rw [hy] at e2
    injection e1 with e1 e1'; injection e2 with e2 e2'
    subst e1 e1' e2 e2'
    exact ⟨r, rfl, hr, h4⟩
  · intro s w' e
    obtain ⟨⟨i', a', j', b', e1, e2, h2⟩, h3⟩ := h2 s w' e
    rw [hx] at e1; rw [hy] at e2
    injection e1 with e1 e1'; injection e2 with e2 e2'
    subst e1 e1' e2 e2'
    push Not at h2
    exact ⟨h2, h3 id⟩
  · intro ho
    rcases C49_call hE hb h hv (fun hc => by rcases ho with rfl | rfl <;> simp [Cmd.approximates] at hc)
      with ⟨r, w', _, e, _⟩ | ⟨s, w', e, _⟩
    · exact .inl ⟨r, w', e⟩
    · exact .inr ⟨s, w', e⟩

/-- C58.  Relations with a number of any type on the right. -/
theorem C58_relation_number_right (o : Rel) {n : Num} {x i : ℕ} {a : ℝ} (hx : S x = .elem i a)
    (hn : n.Has L.bits) :
    (∀ ans w', exec L (.relNum o x n) w = .ok (ans, w') →
      ∃ r, ans = .bool r ∧ (r = true ↔ o.Holds a n.val) ∧ Represents L α I S w') ∧
    (∀ s w', exec L (.relNum o x n) w ≠ .throw s w') ∧
    (o = .eq ∨ o = .ne → ∃ r w', exec L (.relNum o x n) w = .ok (r, w')) := by
  have hv : Valid L α S (.relNum o x n) := ⟨⟨i, a, hx⟩, hn⟩
  obtain ⟨h1, h2⟩ := C49_approximating_call hE hb h hv
  refine ⟨?_, fun s w' e => (h2 s w' e).1, ?_⟩
  · intro ans w' e
    obtain ⟨S', ⟨i', a', e1, rfl, r, rfl, hr⟩, h4⟩ := h1 ans w' e
    rw [hx] at e1
    injection e1 with e1 e1'
    subst e1 e1'
    exact ⟨r, rfl, hr, h4⟩
  · intro ho
    rcases C49_call hE hb h hv (fun hc => by rcases ho with rfl | rfl <;> simp [Cmd.approximates] at hc)
      with ⟨r, w', _, e, _⟩ | ⟨s, w', e, ht, _⟩
    · exact ⟨r, w', e⟩
    · exact ht.elim

/-- C58.  Relations with a number of any type on the left. -/
theorem C58_relation_number_left (o : Rel) {n : Num} {x i : ℕ} {a : ℝ} (hx : S x = .elem i a)
    (hn : n.Has L.bits) :
    (∀ ans w', exec L (.numRel o n x) w = .ok (ans, w') →
      ∃ r, ans = .bool r ∧ (r = true ↔ o.Holds n.val a) ∧ Represents L α I S w') ∧
    (∀ s w', exec L (.numRel o n x) w ≠ .throw s w') ∧
    (o = .eq ∨ o = .ne → ∃ r w', exec L (.numRel o n x) w = .ok (r, w')) := by
  have hv : Valid L α S (.numRel o n x) := ⟨⟨i, a, hx⟩, hn⟩
  obtain ⟨h1, h2⟩ := C49_approximating_call hE hb h hv
  refine ⟨?_, fun s w' e => (h2 s w' e).1, ?_⟩
  · intro ans w' e
    obtain ⟨S', ⟨i', a', e1, rfl, r, rfl, hr⟩, h4⟩ := h1 ans w' e
    rw [hx] at e1
    injection e1 with e1 e1'
    subst e1 e1'
    exact ⟨r, rfl, hr, h4⟩
  · intro ho
    rcases C49_call hE hb h hv (fun hc => by rcases ho with rfl | rfl <;> simp [Cmd.approximates] at hc)
      with ⟨r, w', _, e, _⟩ | ⟨s, w', e, ht, _⟩
    · exact ⟨r, w', e⟩
    · exact ht.elim

end

section
variable {Λ : Set ℕ} (hE : ∀ i, FieldInv (L.E i) (α i) (I i)) (hb : L.bits.Ok)
  (h : RepresentsUpTo L α I Λ S w)
include hE hb h

/-- C58.  `x + n`, `x - n`, `x * n`, `x / n`: the exact result, as an element of the parent of `x`;
`x` is not changed. -/
theorem C58_number_right (f : BinK) {n : Num} {r x i : ℕ} {a : ℝ} (hr : S r = .absent)
    (hx : S x = .elem i a) (hn : n.Has L.bits) (h0 : f = .div → n.val ≠ 0) :
    ∃ w', exec L (.binaryNum f r x n) w = .ok (.unit, w') ∧
      RepresentsUpTo L α I Λ (Function.update S r (.elem i (f.real a n.val))) w' := by
  rcases C49_call hE hb h (c := .binaryNum f r x n) ⟨hr, ⟨i, a, hx⟩, hn, h0⟩ id with
    ⟨ans, w', S', h1, ⟨i', a', e1, rfl, rfl⟩, h4⟩ | ⟨s, _, h1, h2, -⟩
  · rw [hx] at e1
    injection e1 with e1 e1'
    subst e1 e1'
    exact ⟨w', h1, h4⟩
  · exact h2.elim

/-- C58.  `n + y`, `n - y`, `n * y`, `n / y`: the exact result.  Its parent is that of `y`, with one
exception: `n - y` and `n / y` with a rational `y` are elements of the trivial field. -/
theorem C58_number_left (f : BinK) {n : Num} {r y j : ℕ} {b : ℝ} (hr : S r = .absent)
    (hy : S y = .elem j b) (hn : n.Has L.bits) (h0 : f = .div → b ≠ 0) :
    ∃ k w', exec L (.numBinary f r n y) w = .ok (.unit, w') ∧
      RepresentsUpTo L α I Λ (Function.update S r (.elem k (f.real n.val b))) w' ∧
      (f = .add ∨ f = .mul ∨ ¬ IsRat b → k = j) ∧
      (f = .sub ∨ f = .div → IsRat b → k = 0) := by
  rcases C49_call hE hb h (c := .numBinary f r n y) ⟨hr, hn, j, b, hy, h0⟩ id with
    ⟨ans, w', S', h1, ⟨j', b', k, e2, h3, rfl, rfl⟩, h4⟩ | ⟨s, _, h1, h2, -⟩
  · rw [hy] at e2
    injection e2 with e2 e2'
    subst e2 e2'
    refine ⟨k, w', h1, h4, ?_⟩
    split_ifs at h3 with hf
    · exact ⟨fun _ => h3, fun hg => by rcases hf with rfl | rfl <;> simp at hg⟩
    · rcases h3 with ⟨rfl, rfl⟩ | ⟨_, h5, rfl⟩ | ⟨_, h5, rfl⟩
      · exact ⟨fun _ => rfl, fun _ _ => rfl⟩
      · refine ⟨fun hg => ?_, fun _ _ => rfl⟩
        rcases hg with hg | hg | hg
        · exact absurd (.inl hg) hf
        · exact absurd (.inr hg) hf
        · exact absurd h5 hg
      · exact ⟨fun _ => rfl, fun _ hr => absurd hr h5⟩
  · exact h2.elim

end

/-- `∛2 >= 1`, `3 > ∛2`, `3 - ∛2` and `1/2 * 3` are calls a program may make in the demo state, which
holds `∛2` and `3` -/
example : ∃ w, Represents lib gens fine (Function.update (Function.update (fun _ => .absent)
      0 (.elem 1 cbrt2)) 1 (.elem 0 3)) w ∧
    (Num.int .int 1).Has lib.bits ∧ (Num.mpq (1 / 2)).Has lib.bits ∧
    Rel.ge.Holds cbrt2 ((Num.int .int 1).val : ℚ) ∧
    (∃ w', exec lib (.numBinary .sub 2 (.int .int 3) 0) w = .ok (.unit, w')) := by
  obtain ⟨w, hw⟩ := demo_state
  have h3 : (Num.int .int 3).Has lib.bits := show InS 32 3 by decide
  refine ⟨w, hw, show InS 32 1 by decide, trivial, ?_, ?_⟩
  · simpa [Rel.Holds, Num.val] using cbrt2_bounds.1
  · obtain ⟨k, w', e, _⟩ := C58_number_left lib_inv lp64_ok hw .sub (r := 2) (y := 0)
      (j := 1) (b := cbrt2) (by simp) (by simp) h3 (by simp)
    exact ⟨w', e⟩

/-- `∛2 >= 3`, `∛2 != 5/4` and `1 < (3 + 2∛2)/6` in the state of `demo_world`: the calls return, with answers that
the theorems say are those of exact comparison -/
example : ∃ w w₁ w₂ w₃, Represents lib gens fine demoSlots w ∧
    exec lib (.rel .ge 0 1) w = .ok (.bool false, w₁) ∧ ¬ cbrt2 ≥ (3 : ℝ) ∧
    exec lib (.relNum .ne 0 (.mpq (5 / 4))) w = .ok (.bool true, w₂) ∧ cbrt2 ≠ ((5 / 4 : ℚ) : ℝ) ∧
    exec lib (.numRel .lt (.int .int 1) 2) w = .ok (.bool false, w₃) ∧ ¬ (1 : ℝ) < (3 + 2 * cbrt2) / 6 := by
  obtain ⟨w, hw, hr⟩ := demo_world
  obtain ⟨w₁, e₁⟩ := answer_eq_some (hr (.rel .ge 0 1, .bool false) (by simp))
  obtain ⟨w₂, e₂⟩ := answer_eq_some (hr (.relNum .ne 0 (.mpq (5 / 4)), .bool true) (by simp))
  obtain ⟨w₃, e₃⟩ := answer_eq_some (hr (.numRel .lt (.int .int 1) 2, .bool false) (by simp))
  obtain ⟨r₁, a₁, b₁, -⟩ := (C58_relation lib_inv lp64_ok hw .ge (x := 0) (y := 1) (i := 1) (a := cbrt2) (j := 0)
    (b := 3) (by simp [demoSlots]) (by simp [demoSlots])).1 _ _ e₁
  obtain ⟨r₂, a₂, b₂, -⟩ := (C58_relation_number_right lib_inv lp64_ok hw .ne (n := .mpq (5 / 4)) (x := 0) (i := 1)
    (a := cbrt2) (by simp [demoSlots]) trivial).1 _ _ e₂
  obtain ⟨r₃, a₃, b₃, -⟩ := (C58_relation_number_left lib_inv lp64_ok hw .lt (n := .int .int 1) (x := 2) (i := 1)
    (a := (3 + 2 * cbrt2) / 6) (by simp [demoSlots]) (show InS 32 1 by decide)).1 _ _ e₃
  cases a₁; cases a₂; cases a₃
  refine ⟨w, w₁, w₂, w₃, hw, e₁, ?_, e₂, b₂.1 rfl, e₃, ?_⟩
  · simpa [Rel.Holds] using b₁
  · simpa [Rel.Holds, Num.val] using b₃

/-- `∛2 / 7` -/
example : ∃ w w', Represents lib gens fine demoSlots w ∧
    exec lib (.binaryNum .div 5 0 (.int .long 7)) w = .ok (.unit, w') ∧
    Represents lib gens fine (Function.update demoSlots 5 (.elem 1 (cbrt2 / (7 : ℚ)))) w' := by
  obtain ⟨w, hw, -⟩ := demo_world
  obtain ⟨w', h1, h2⟩ := C58_number_right lib_inv lp64_ok hw .div (n := .int .long 7) (r := 5) (x := 0) (i := 1)
    (a := cbrt2) (by simp [demoSlots]) (by simp [demoSlots]) (show InS 64 7 by decide) (by simp [Num.val])
  exact ⟨w, w', hw, h1, by simpa [Num.val, BinK.real] using h2⟩

end EAntic.Cxx
