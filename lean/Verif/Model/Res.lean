/-!
# Outcomes of C/C++ calls
-/

namespace EAntic

/-- Outcome of running a piece of C or C++ code. -/
inductive Res (α : Type u) where
  /-- normal return -/
  | ok (a : α)
  /-- the loop is still running when the fuel given to the model is used up -/
  | running
  /-- `abort()`, a failed `assert`, or `flint_abort` -/
  | abort
  /-- a C++ exception leaves the function -/
  | throw (what : String)
  /-- undefined behaviour (out of bounds access, signed overflow, null dereference, …) -/
  | ub
  deriving Repr, DecidableEq

namespace Res

/-- sequencing -/
def bind {α : Type u} {β : Type v} : Res α → (α → Res β) → Res β
  | ok a, f => f a
  | running, _ => running
  | abort, _ => abort
  | throw w, _ => throw w
  | ub, _ => ub

instance : Monad Res where
  pure := ok
  bind := bind

@[simp] theorem pure_eq {α : Type u} (a : α) : (pure a : Res α) = ok a := rfl
@[simp] theorem ok_bind {α β : Type u} (a : α) (f : α → Res β) : (ok a >>= f) = f a := rfl
@[simp] theorem running_bind {α β : Type u} (f : α → Res β) : (running >>= f) = running := rfl
@[simp] theorem abort_bind {α β : Type u} (f : α → Res β) : (abort >>= f) = abort := rfl
@[simp] theorem throw_bind {α β : Type u} (w : String) (f : α → Res β) :
    (throw w >>= f) = throw w := rfl
@[simp] theorem ub_bind {α β : Type u} (f : α → Res β) : (ub >>= f) = ub := rfl

theorem bind_eq_ok {α β : Type u} {x : Res α} {f : α → Res β} {b : β} :
    (x >>= f) = ok b ↔ ∃ a, x = ok a ∧ f a = ok b := by
  cases x <;> simp

end Res

/-- A `while` loop whose body is `step`: `inl` continues, `inr` leaves the loop.  The fuel bounds
the number of iterations. -/
def loop {σ : Type u} {α : Type u} (step : σ → Res (σ ⊕ α)) : Nat → σ → Res α
  | 0, _ => .running
  | n + 1, s =>
    match step s with
    | .ok (.inl s') => loop step n s'
    | .ok (.inr a) => .ok a
    | .running => .running
    | .abort => .abort
    | .throw w => .throw w
    | .ub => .ub

/-- Hoare rule for `loop`: an invariant preserved by the body yields the postcondition. -/
theorem loop_ok {σ α : Type u} {step : σ → Res (σ ⊕ α)} {I : σ → Prop} {Q : α → Prop}
    (hstep : ∀ s s', I s → step s = .ok (.inl s') → I s')
    (hdone : ∀ s a, I s → step s = .ok (.inr a) → Q a) :
    ∀ (n : Nat) (s : σ) (a : α), I s → loop step n s = .ok a → Q a := by
  intro n
  induction n with
  | zero => intro s a _ h; simp [loop] at h
  | succ n ih =>
    intro s a hI h
    unfold loop at h
    split at h
    · rename_i s' hs; exact ih _ _ (hstep _ _ hI hs) h
    · rename_i b hs; injection h with h; subst h; exact hdone _ _ hI hs
    all_goals simp at h

/-- If no iteration from a state satisfying the invariant fails, the loop does not fail. -/
theorem loop_safe {σ α : Type u} {step : σ → Res (σ ⊕ α)} {I : σ → Prop}
    (hstep : ∀ s s', I s → step s = .ok (.inl s') → I s')
    (hsafe : ∀ s, I s → ∃ r, step s = .ok r) :
    ∀ (n : Nat) (s : σ), I s → loop step n s = .running ∨ ∃ a, loop step n s = .ok a := by
  intro n
  induction n with
  | zero => intro s _; left; rfl
  | succ n ih =>
    intro s hI
    obtain ⟨r, hr⟩ := hsafe s hI
    unfold loop
    rw [hr]
    cases r with
    | inl s' => exact ih s' (hstep _ _ hI hr)
    | inr a => right; exact ⟨a, rfl⟩

/-- More fuel does not change a result. -/
theorem loop_mono {σ α : Type u} {step : σ → Res (σ ⊕ α)} :
    ∀ (n m : Nat) (s : σ), n ≤ m → loop step n s ≠ .running → loop step m s = loop step n s := by
  intro n
  induction n with
  | zero => intro m s _ h; exact absurd rfl h
  | succ n ih =>
    intro m s hm h
    cases m with
    | zero => omega
    | succ m =>
      unfold loop at h ⊢
      split
      · rename_i s' hs
        rw [hs] at h
        exact ih m s' (by omega) h
      all_goals rfl

end EAntic
