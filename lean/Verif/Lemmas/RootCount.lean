import Verif.Lemmas.DescartesRoots

/-! # Counting roots (helper lemmas) -/

namespace EAntic
open Polynomial

lemma rootCount_mul {P Q : ℝ[X]} (h : P * Q ≠ 0) (s : Set ℝ) :
    rootCount (P * Q) s = rootCount P s + rootCount Q s := by
  classical
  unfold rootCount; rw [roots_mul h, Multiset.countP_add]

lemma rootCount_X_sub_C (a : ℝ) (s : Set ℝ) [Decidable (a ∈ s)] :
    rootCount (X - C a) s = if a ∈ s then 1 else 0 := by
  classical
  unfold rootCount
  rw [roots_X_sub_C]
  rw [← Multiset.cons_zero, Multiset.countP_cons]
  simp

lemma rootCount_X_sub_C_of_not_mem {a : ℝ} {s : Set ℝ} (h : a ∉ s) : rootCount (X - C a) s = 0 := by
  classical
  rw [rootCount_X_sub_C, if_neg h]

lemma rootCount_X_sub_C_of_mem {a : ℝ} {s : Set ℝ} (h : a ∈ s) : rootCount (X - C a) s = 1 := by
  classical
  rw [rootCount_X_sub_C, if_pos h]

lemma rootCount_C_mul {a : ℝ} (ha : a ≠ 0) (P : ℝ[X]) (s : Set ℝ) :
    rootCount (C a * P) s = rootCount P s := by
  unfold rootCount; rw [roots_C_mul _ ha]

lemma rootCount_union (P : ℝ[X]) {s t : Set ℝ} (h : Disjoint s t) :
    rootCount P (s ∪ t) = rootCount P s + rootCount P t := by
  classical
  unfold rootCount
  induction P.roots using Multiset.induction_on with
  | empty => simp
  | cons a m ih =>
    rw [Multiset.countP_cons, Multiset.countP_cons, Multiset.countP_cons, ih]
    by_cases hs : a ∈ s
    · have ht : a ∉ t := fun ht => Set.disjoint_left.1 h hs ht
      simp only [Set.mem_union, hs, ht]; simp; omega
    · by_cases ht : a ∈ t
      · simp only [Set.mem_union, hs, ht]; simp; omega
      · simp [hs, ht]

lemma rootCount_eq_zero_iff {P : ℝ[X]} (hP : P ≠ 0) (s : Set ℝ) :
    rootCount P s = 0 ↔ ∀ x ∈ s, ¬ P.IsRoot x := by
  classical
  unfold rootCount
  rw [Multiset.countP_eq_zero]
  constructor
  · intro h x hx hr; exact h x ((mem_roots hP).2 hr) hx
  · intro h x hx hs; exact h x hs ((mem_roots hP).1 hx)

lemma rootCount_pos_iff {P : ℝ[X]} (hP : P ≠ 0) (s : Set ℝ) :
    0 < rootCount P s ↔ ∃ x ∈ s, P.IsRoot x := by
  rw [Nat.pos_iff_ne_zero, Ne, rootCount_eq_zero_iff hP]; push Not; rfl

lemma rootCount_comp (Q : ℝ[X]) {a b : ℝ} (ha : a ≠ 0) (s t : Set ℝ)
    (h : ∀ x, a * x + b ∈ t ↔ x ∈ s) :
    rootCount (Q.comp (C a * X + C b)) s = rootCount Q t := by
  classical
  unfold rootCount
  rw [← map_roots_comp_C_mul_X_add_C Q a b (isUnit_iff_ne_zero.2 ha), Multiset.countP_map,
    Multiset.countP_eq_card_filter]
  congr 1
  apply Multiset.filter_congr
  intro x _
  exact (h x).symm

lemma rootCount_mono (P : ℝ[X]) {s t : Set ℝ} (h : s ⊆ t) : rootCount P s ≤ rootCount P t := by
  classical
  unfold rootCount
  rw [Multiset.countP_eq_card_filter, Multiset.countP_eq_card_filter]
  exact Multiset.card_le_card (Multiset.monotone_filter_right _ fun x hx => h hx)

lemma rootCount_prod_X_sub_C (l : List ℚ) (s : Set ℝ) (h : ∀ e ∈ l, (e : ℝ) ∈ s) :
    rootCount ((l.map fun e : ℚ => X - C (e : ℝ)).prod) s = l.length := by
  induction l with
  | nil => classical simp [rootCount]
  | cons a l ih =>
    rw [List.map_cons, List.prod_cons, rootCount_mul, rootCount_X_sub_C_of_mem (h a (by simp)),
      ih (fun e he => h e (by simp [he])), List.length_cons]
    · omega
    · refine mul_ne_zero (X_sub_C_ne_zero _) (List.prod_ne_zero ?_)
      intro h0
      obtain ⟨e, _, he⟩ := List.mem_map.1 h0
      exact X_sub_C_ne_zero _ he

lemma prod_X_sub_C_ne_zero (l : List ℚ) : ((l.map fun e : ℚ => X - C (e : ℝ)).prod) ≠ 0 := by
  refine List.prod_ne_zero ?_
  intro h0
  obtain ⟨e, _, he⟩ := List.mem_map.1 h0
  exact X_sub_C_ne_zero _ he

lemma rootCount_prod_X_sub_C_zero (l : List ℚ) (s : Set ℝ) (h : ∀ e ∈ l, (e : ℝ) ∉ s) :
    rootCount ((l.map fun e : ℚ => X - C (e : ℝ)).prod) s = 0 := by
  rw [rootCount_eq_zero_iff (prod_X_sub_C_ne_zero l)]
  intro x hx hr
  rw [IsRoot.def, eval_list_prod, List.prod_eq_zero_iff] at hr
  simp only [List.map_map, List.mem_map, Function.comp, eval_sub, eval_X, eval_C] at hr
  obtain ⟨e, he, h0⟩ := hr
  have : x = e := by linarith
  exact h e he (this ▸ hx)

/-- The Descartes count on (0,1) in terms of `rootCount`. -/
theorem rootCount_Ioo_le_var (p : List ℤ) (hp : toPoly p ≠ 0) :
    rootCount (toPoly p) (Set.Ioo 0 1) ≤ var 0 (tseq p) := by
  classical
  have h := rootCount_le_var p hp
  unfold rootCount
  convert h using 2
  exact Set.mem_Ioo

theorem rootCount_Ioo_of_var_one (p : List ℤ) (hp : toPoly p ≠ 0) (hv : var 0 (tseq p) = 1) :
    rootCount (toPoly p) (Set.Ioo 0 1) = 1 := by
  classical
  have h := rootCount_eq_one_of_var p hp hv
  unfold rootCount
  convert h using 2
  exact Set.mem_Ioo

/-- What each answer of the C function means. -/
theorem descartesBound01_sound (p : List ℤ) (bound n : ℕ) (hp : toPoly p ≠ 0)
    (h : descartesBound01 p bound = some n) : rootCount (toPoly p) (Set.Ioo 0 1) ≤ n ∧
      (n = 1 → rootCount (toPoly p) (Set.Ioo 0 1) = 1) ∧ n ≤ bound := by
  rw [descartesBound01_eq p bound (fun h => hp ((hom_eq_zero_iff p).1 h))] at h
  split at h
  · rename_i hb
    injection h with h
    subst h
    exact ⟨rootCount_Ioo_le_var p hp, rootCount_Ioo_of_var_one p hp, hb⟩
  · cases h

end EAntic
