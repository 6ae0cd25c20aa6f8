import Verif.Spec.MemOrder
import Mathlib.Tactic

namespace EAntic.MemOrder

variable {acq : Bool} {ev : ℕ → Ev} {st : ℕ → St} {n : ℕ}

theorem Hb.lt {i j : ℕ} (h : Hb acq ev i j) : i < j := by
  induction h with
  | trans _ _ h1 h2 => exact h1.trans h2
  | _ => assumption

/-- everything thread `t` does from time `n` on comes after `i` -/
def Known (acq : Bool) (ev : ℕ → Ev) (n i t : ℕ) : Prop :=
  ∀ k, n ≤ k → (ev k).tid = t → Hb acq ev i k

theorem Known.mono {n' i t : ℕ} (hn : n ≤ n') (h : Known acq ev n i t) : Known acq ev n' i t :=
  fun k hk e => h k (hn.trans hk) e

theorem known_self (i : ℕ) : Known acq ev (i + 1) i (ev i).tid :=
  fun _ hk e => .po (by omega) e.symm

/-- where the knowledge of an access went -/
def Tracked (acq : Bool) (ev : ℕ → Ev) (s : St) (n i : ℕ) : Prop :=
  (∃ t ∈ s.holders, Known acq ev n i t) ∨ ∃ r < n, (ev r).releases ∧ (i = r ∨ Hb acq ev i r)

theorem exec_mono {m : ℕ} (hm : m ≤ n) (h : Exec ev st n) : Exec ev st m :=
  ⟨h.1, fun k hk => h.2 k (by omega)⟩

theorem tracked {i : ℕ} : ∀ {n}, Exec ev st n → i < n → (ev i).accesses →
    Tracked acq ev (st n) n i := by
  intro n
  induction n with
  | zero => intro _ h; omega
  | succ n ih =>
    intro hx hi ha
    have hs := hx.2 n (by omega)
    have old : i < n → Tracked acq ev (st n) n i := fun h => ih (exec_mono (by omega) hx) h ha
    have hcase : i < n ∨ i = n := by omega
    cases he : ev n with
    | use t =>
      rw [he] at hs
      simp only [step] at hs
      split_ifs at hs with ht
      simp only [Option.some.injEq] at hs
      rw [← hs]
      rcases hcase with h | rfl
      · rcases old h with ⟨u, hu, hk⟩ | ⟨r, hr, hrr, hk⟩
        · exact .inl ⟨u, hu, hk.mono (by omega)⟩
        · exact .inr ⟨r, by omega, hrr, hk⟩
      · refine .inl ⟨t, ht, ?_⟩
        have := known_self (acq := acq) (ev := ev) i
        rwa [he] at this
    | copy t =>
      rw [he] at hs
      simp only [step] at hs
      split_ifs at hs with ht
      simp only [Option.some.injEq] at hs
      rw [← hs]
      rcases hcase with h | rfl
      · rcases old h with ⟨u, hu, hk⟩ | ⟨r, hr, hrr, hk⟩
        · exact .inl ⟨u, List.mem_cons_of_mem _ hu, hk.mono (by omega)⟩
        · exact .inr ⟨r, by omega, hrr, hk⟩
      · refine .inl ⟨t, List.mem_cons_of_mem _ ht, ?_⟩
        have := known_self (acq := acq) (ev := ev) i
        rwa [he] at this
    | send t u =>
      rw [he] at hs
      simp only [step] at hs
      split_ifs at hs with ht
      simp only [Option.some.injEq] at hs
      rw [← hs]
      rcases hcase with h | rfl
      · rcases old h with ⟨v, hv, hk⟩ | ⟨r, hr, hrr, hk⟩
        · by_cases hvt : v = t
          · refine .inl ⟨u, by simp, fun k hk' e => ?_⟩
            have h1 : Hb acq ev i n := hk n le_rfl (by rw [he, hvt]; rfl)
            exact h1.trans (.send (by omega) he e)
          · refine .inl ⟨v, List.mem_cons_of_mem _ ((List.mem_erase_of_ne hvt).2 hv), hk.mono (by omega)⟩
        · exact .inr ⟨r, by omega, hrr, hk⟩
      · rw [he] at ha; exact ha.elim
    | sync t u =>
      rw [he] at hs
      simp only [step, Option.some.injEq] at hs
      rw [← hs]
      rcases hcase with h | rfl
      · rcases old h with ⟨u, hu, hk⟩ | ⟨r, hr, hrr, hk⟩
        · exact .inl ⟨u, hu, hk.mono (by omega)⟩
        · exact .inr ⟨r, by omega, hrr, hk⟩
      · rw [he] at ha; exact ha.elim
    | locked t =>
      rw [he] at hs
      simp only [step, Option.some.injEq] at hs
      rw [← hs]
      rcases hcase with h | rfl
      · rcases old h with ⟨u, hu, hk⟩ | ⟨r, hr, hrr, hk⟩
        · exact .inl ⟨u, hu, hk.mono (by omega)⟩
        · exact .inr ⟨r, by omega, hrr, hk⟩
      · rw [he] at ha; exact ha.elim
    | release t =>
      rw [he] at hs
      simp only [step] at hs
      split_ifs at hs with ht
      all_goals
        simp only [Option.some.injEq] at hs
        rw [← hs]
        have hrel : (ev n).releases := by rw [he]; trivial
        rcases hcase with h | rfl
        · rcases old h with ⟨v, hv, hk⟩ | ⟨r, hr, hrr, hk⟩
          · by_cases hvt : v = t
            · exact .inr ⟨n, by omega, hrel, .inr (hk n le_rfl (by rw [he, hvt]; rfl))⟩
            · exact .inl ⟨v, (List.mem_erase_of_ne hvt).2 hv, hk.mono (by omega)⟩
          · exact .inr ⟨r, by omega, hrr, hk⟩
        · exact .inr ⟨i, by omega, hrel, .inl rfl⟩
    | delete t =>
      rw [he] at hs
      simp only [step] at hs
      split_ifs at hs with ht
      simp only [Option.some.injEq] at hs
      rw [← hs]
      rcases hcase with h | rfl
      · rcases old h with ⟨u, hu, hk⟩ | ⟨r, hr, hrr, hk⟩
        · exact .inl ⟨u, hu, hk.mono (by omega)⟩
        · exact .inr ⟨r, by omega, hrr, hk⟩
      · rw [he] at ha; exact ha.elim

/-- the count is right, and once it is 3 nobody holds a pointer -/
structure Inv (ev : ℕ → Ev) (s : St) (n : ℕ) : Prop where
  count : s.count = 3 + s.holders.length
  dying : ∀ t, s.dying = some t → s.holders = [] ∧
    ∃ r < n, ev r = .release t ∧ ∀ k, r < k → k < n → ¬ (ev k).accesses ∧ ¬ (ev k).releases

theorem inv_exec : ∀ {n}, Exec ev st n → Inv ev (st n) n := by
  intro n
  induction n with
  | zero => intro h; rw [h.1]; exact ⟨by simp [St.init], by simp [St.init]⟩
  | succ n ih =>
    intro hx
    obtain ⟨h1, h2⟩ := ih (exec_mono (by omega) hx)
    have hs := hx.2 n (by omega)
    have keep : (¬ (ev n).accesses ∧ ¬ (ev n).releases) → ∀ t, (st n).dying = some t →
        (st n).holders = [] ∧ ∃ r < n + 1, ev r = .release t ∧
          ∀ k, r < k → k < n + 1 → ¬ (ev k).accesses ∧ ¬ (ev k).releases := by
      intro hn t ht
      obtain ⟨a, r, b, c, d⟩ := h2 t ht
      refine ⟨a, r, by omega, c, fun k hk hk' => ?_⟩
      by_cases e : k = n
      · rwa [e]
      · exact d k hk (by omega)
    cases he : ev n with
    | use t =>
      rw [he] at hs
      simp only [step] at hs
      split_ifs at hs with ht
      simp only [Option.some.injEq] at hs
      rw [← hs]
      refine ⟨h1, fun u hu => ?_⟩
      rw [(h2 u hu).1] at ht; simp at ht
    | copy t =>
      rw [he] at hs
      simp only [step] at hs
      split_ifs at hs with ht
      simp only [Option.some.injEq] at hs
      rw [← hs]
      refine ⟨by simp [h1]; ring, fun u hu => ?_⟩
      rw [(h2 u hu).1] at ht; simp at ht
    | send t u =>
      rw [he] at hs
      simp only [step] at hs
      split_ifs at hs with ht
      simp only [Option.some.injEq] at hs
      rw [← hs]
      refine ⟨?_, fun v hv => ?_⟩
      · have := List.length_erase_add_one ht
        simp only [List.length_cons]; omega
      · rw [(h2 v hv).1] at ht; simp at ht
    | sync t u =>
      rw [he] at hs
      simp only [step, Option.some.injEq] at hs
      rw [← hs]
      exact ⟨h1, keep (by rw [he]; simp [Ev.accesses, Ev.releases])⟩
    | locked t =>
      rw [he] at hs
      simp only [step, Option.some.injEq] at hs
      rw [← hs]
      exact ⟨h1, keep (by rw [he]; simp [Ev.accesses, Ev.releases])⟩
    | release t =>
      rw [he] at hs
      simp only [step] at hs
      by_cases ht : t ∈ (st n).holders
      · rw [if_pos ht, Option.some.injEq] at hs
        rw [← hs]
        have hl := List.length_erase_add_one ht
        refine ⟨by simp only; omega, fun u hu => ?_⟩
        by_cases h4 : (st n).count = 4
        · simp only [if_pos h4, Option.some.injEq] at hu
          subst hu
          have h0 : ((st n).holders.erase t).length = 0 := by omega
          exact ⟨List.length_eq_zero_iff.1 h0, n, by omega, he, fun k _ _ => by omega⟩
        · simp only [if_neg h4] at hu
          rw [(h2 u hu).1] at ht; simp at ht
      · rw [if_neg ht] at hs; cases hs
    | delete t =>
      rw [he] at hs
      simp only [step] at hs
      split_ifs at hs with ht
      simp only [Option.some.injEq] at hs
      rw [← hs]
      exact ⟨h1, by simp⟩

theorem empty_stays {m : ℕ} (hx : Exec ev st n) (hm : (st m).holders = []) :
    ∀ k, m ≤ k → k ≤ n → (st k).holders = [] := by
  intro k hk
  induction k, hk using Nat.le_induction with
  | base => exact fun _ => hm
  | succ k hk ih =>
    intro hn
    have h0 := ih (by omega)
    have hs := hx.2 k (by omega)
    cases he : ev k <;> rw [he] at hs <;> simp [step, h0] at hs
    · rw [← hs]; exact h0
    · rw [← hs]; exact h0
    · rw [← hs.2]

theorem access_needs_holder {k : ℕ} (hx : Exec ev st n) (hk : k < n) (ha : (ev k).accesses) :
    (st k).holders ≠ [] := by
  intro h0
  have hs := hx.2 k hk
  cases he : ev k <;> rw [he] at hs ha <;> simp [step, h0, Ev.accesses] at hs ha

end EAntic.MemOrder
