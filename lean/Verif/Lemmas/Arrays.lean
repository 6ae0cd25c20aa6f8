import Verif.Model.Arrays
import Verif.Lemmas.Descartes

/-! # The index-by-index array functions compute the list functions (helper lemmas) -/

namespace EAntic.Arrays

variable {α σ ρ : Type}

lemma rd_mid (A B : List α) (x : α) (i : ℤ) (hi : i = A.length) : rd (A ++ x :: B) i = .ok x := by
  subst hi
  simp [rd]

lemma wr_mid (A B : List α) (x y : α) (i : ℤ) (hi : i = A.length) :
    wr (A ++ x :: B) i y = .ok (A ++ y :: B) := by
  subst hi
  simp [wr]

lemma rd_nat (a : List α) (i : ℕ) (h : i < a.length) : rd a (i : ℤ) = .ok a[i] := by
  simp [rd, h]

lemma rd_getD (a : List α) (d : α) (i : ℕ) (h : i < a.length) : rd a (i : ℤ) = .ok (a.getD i d) := by
  rw [rd_nat a i h]; simp [h]

lemma rd_ub (a : List α) (i : ℤ) (h : i < 0 ∨ (a.length : ℤ) ≤ i) : rd a i = .ub := by
  unfold rd
  split
  · rename_i h0
    have : a.length ≤ i.toNat := by omega
    simp [this]
  · rfl

lemma wr_nat (a : List α) (i : ℕ) (x : α) (h : i < a.length) : wr a (i : ℤ) x = .ok (a.set i x) := by
  simp [wr, h]

lemma window_mid (A w B : List α) (o len : ℤ) (ho : o = A.length) (hl : len = w.length) :
    window (A ++ w ++ B) o len = .ok w := by
  subst ho hl
  have : (0 : ℤ) ≤ A.length ∧ (0 : ℤ) ≤ w.length ∧ (A.length : ℤ) + w.length ≤ (A ++ w ++ B).length := by
    simp only [List.length_append]; omega
  rw [window, if_pos this]
  simp

lemma fill_mid (A w v B : List α) (o : ℤ) (ho : o = A.length) (hl : v.length = w.length) :
    fill (A ++ w ++ B) o v = .ok (A ++ v ++ B) := by
  subst ho
  have : (0 : ℤ) ≤ A.length ∧ (A.length : ℤ) + v.length ≤ (A ++ w ++ B).length := by
    simp only [List.length_append]; omega
  rw [fill, if_pos this]
  simp [hl]

lemma inPlace_mid (f : List α → List α) (A w B : List α) (o len : ℤ) (ho : o = A.length)
    (hl : len = w.length) (hf : (f w).length = w.length) :
    inPlace f (A ++ w ++ B) o len = .ok (A ++ f w ++ B) := by
  rw [inPlace, window_mid A w B o len ho hl, Res.ok_bind, fill_mid A w (f w) B o ho hf]

lemma forUp_nat (body : ℤ → σ → Res σ) (f : ℕ → σ) (lo n : ℕ)
    (h : ∀ k, k < n → body ((lo : ℤ) + k) (f k) = .ok (f (k + 1))) (hi : ℤ) (hh : hi = (lo : ℤ) + n) :
    forUp lo hi body (f 0) = .ok (f n) := by
  subst hh
  have key : ∀ m k, k + m = n →
      iter (ρ := Empty) (fun i s => do return .inl (← body i s)) m ((lo : ℤ) + k) (f k) = .ok (.inl (f n)) := by
    intro m
    induction m with
    | zero => intro k hk; obtain rfl : k = n := by omega
              rfl
    | succ m ih =>
      intro k hk
      rw [iter, h k (by omega)]
      have := ih (k + 1) (by omega)
      rw [Nat.cast_add, Nat.cast_one, ← add_assoc] at this
      exact this
  have := key n 0 (by omega)
  have e : ((lo : ℤ) + n - lo).toNat = n := by omega
  rw [forUp, e]
  rw [Nat.cast_zero, add_zero] at this
  rw [this]
  rfl

lemma forDown_nat (body : ℤ → σ → Res σ) (f : ℕ → σ) (n : ℕ)
    (h : ∀ k, k < n → body (k : ℤ) (f (k + 1)) = .ok (f k)) :
    downFrom body n (f n) = .ok (f 0) := by
  induction n with
  | zero => rfl
  | succ n ih =>
    rw [downFrom, h n (by omega)]
    exact ih fun k hk => h k (by omega)

/-! ## Descartes bound -/

lemma scanSame_spec (A B : List ℤ) (t : ℤ) (o : ℤ) (ho : o = A.length) (w : List ℤ) :
    ∃ j, scanSame (A ++ w ++ B) o t w.length = .ok j ∧ (j < 0 ↔ allSignOrZero t w = true) := by
  induction w using List.reverseRecOn generalizing B with
  | nil => exact ⟨-1, rfl, by simp [allSignOrZero]⟩
  | append_singleton w a ih =>
    obtain ⟨j, h1, h2⟩ := ih ([a] ++ B)
    have e : A ++ (w ++ [a]) ++ B = A ++ w ++ ([a] ++ B) := by simp
    rw [e, List.length_append, List.length_singleton, scanSame]
    have e2 : A ++ w ++ ([a] ++ B) = (A ++ w) ++ a :: B := by simp
    rw [e2, rd_mid (A ++ w) B a _ (by simp [ho]), Res.ok_bind]
    by_cases h : sgn a = t ∨ sgn a = 0
    · rw [if_pos h, ← e2, h1]
      refine ⟨j, rfl, h2.trans ?_⟩
      simp only [allSignOrZero, List.all_append, List.all_cons, List.all_nil, Bool.and_true]
      have : (sgn a == t || sgn a == 0) = true := by simpa using h
      simp [this]
    · rw [if_neg h]
      refine ⟨w.length, rfl, ?_⟩
      have : (sgn a == t || sgn a == 0) = false := by simpa using h
      simp only [allSignOrZero, List.all_append, List.all_cons, List.all_nil, this]
      simp

lemma scanSign_spec (B : List ℤ) (w : List ℤ) (s : ℤ) :
    scanSign (w ++ B) s w.length =
      .ok ((firstSign s w.reverse).1, ((firstSign s w.reverse).2.length : ℤ) - 1) ∧
    ∃ C, w = (firstSign s w.reverse).2.reverse ++ C := by
  induction w using List.reverseRecOn generalizing B s with
  | nil => exact ⟨rfl, [], rfl⟩
  | append_singleton w a ih =>
    rw [List.length_append, List.length_singleton, List.reverse_append]
    simp only [List.reverse_cons, List.reverse_nil, List.nil_append, List.singleton_append, firstSign]
    rw [scanSign]
    by_cases h : s = 0
    · rw [if_pos h, if_pos h]
      obtain ⟨h1, C, h2⟩ := ih ([a] ++ B) (sgn a)
      have e : w ++ [a] ++ B = w ++ ([a] ++ B) := by simp
      have e2 : w ++ ([a] ++ B) = w ++ a :: B := by simp
      rw [e, e2, rd_mid w B a _ rfl, Res.ok_bind, ← e2, h1]
      exact ⟨rfl, C ++ [a], by rw [← List.append_assoc, ← h2]⟩
    · rw [if_neg h, if_neg h]
      exact ⟨by simp, [], by simp⟩

lemma prefixSums_take (l : List ℤ) (k : ℕ) (h : k < l.length) :
    prefixSums (l.take (k + 1)) = prefixSums (l.take k) ++ [(l.take k).sum + l[k]] := by
  rw [List.take_succ_eq_append_getElem h, prefixSums_append]

lemma drop_cons {l : List α} {k : ℕ} (h : k < l.length) : l.drop k = l[k] :: l.drop (k + 1) :=
  List.drop_eq_getElem_cons h

/-- one `fmpz_add(q + j + 1, q + j + 1, q + j)` when the entries up to `j` are prefix sums -/
lemma addPrev_spec (l B : List ℤ) (k : ℕ) (h : k + 1 < l.length) :
    addPrev (k : ℤ) (prefixSums (l.take (k + 1)) ++ l.drop (k + 1) ++ B) =
      .ok (prefixSums (l.take (k + 2)) ++ l.drop (k + 2) ++ B) := by
  have hk : (prefixSums (l.take k)).length = k := by rw [prefixSums_length]; simp; omega
  have e1 : prefixSums (l.take (k + 1)) ++ l.drop (k + 1) ++ B =
      prefixSums (l.take (k + 1)) ++ l[k + 1] :: (l.drop (k + 2) ++ B) := by
    rw [drop_cons h, List.append_assoc, List.cons_append]
  have e2 : prefixSums (l.take (k + 1)) ++ l[k + 1] :: (l.drop (k + 2) ++ B) =
      prefixSums (l.take k) ++ ((l.take k).sum + l[k]) :: (l[k + 1] :: (l.drop (k + 2) ++ B)) := by
    rw [prefixSums_take l k (by omega)]; simp
  have hlen : (prefixSums (l.take (k + 1))).length = k + 1 := by rw [prefixSums_length]; simp; omega
  rw [e1, addPrev, rd_mid _ _ _ _ (by rw [hlen]; push_cast; rfl), Res.ok_bind, e2,
    rd_mid _ _ _ _ (by rw [hk]), Res.ok_bind, ← e2, wr_mid _ _ _ _ _ (by rw [hlen]; push_cast; rfl)]
  rw [prefixSums_take l (k + 1) h]
  have : l[k + 1] + ((l.take k).sum + l[k]) = (l.take (k + 1)).sum + l[k + 1] := by
    rw [List.take_succ_eq_append_getElem (by omega : k < l.length), List.sum_append, List.sum_singleton]
    ring
  rw [this]
  simp

lemma addPrev_loop (l B : List ℤ) (n : ℕ) (hn : l.length = n + 1) (hi : ℤ) (hh : hi = n) :
    forUp 0 hi addPrev (l ++ B) = .ok (prefixSums l ++ B) := by
  have h := forUp_nat addPrev (fun k => prefixSums (l.take (k + 1)) ++ l.drop (k + 1) ++ B) 0 n
    (fun k hk => by
      rw [Nat.cast_zero, zero_add]
      exact addPrev_spec l B k (by omega)) hi (by omega)
  have e0 : prefixSums (l.take (0 + 1)) ++ l.drop (0 + 1) ++ B = l ++ B := by
    cases l with
    | nil => simp at hn
    | cons a l => simp [prefixSums, prefixSumsFrom]
  have en : prefixSums (l.take (n + 1)) ++ l.drop (n + 1) ++ B = prefixSums l ++ B := by
    rw [← hn]; simp
  simp only [e0, en] at h
  exact h

/-- `descartes_bound_0_1.c:90-101` -/
def descEnd (bound : ℕ) : (List ℤ × ℤ × ℕ) ⊕ DBound → Res DBound
  | .inr r => .ok r
  | .inl (q, s, V) => do
    let a ← rd q 0
    if s = - sgn a then
      if V = bound then return none
      return some (V + 1)
    return some V

lemma descIter_spec (deg : ℤ) (bound : ℕ) : ∀ (n : ℕ) (l B : List ℤ) (i s : ℤ) (V : ℕ),
    l.length = n + 1 → i = deg - n →
    (iter (descIter deg bound) n i (l ++ B, s, V) >>= descEnd bound) = .ok (descLoop bound l s V) := by
  intro n
  induction n with
  | zero =>
    intro l B i s V hl hi
    obtain ⟨a, rfl⟩ := List.length_eq_one_iff.1 hl
    rw [iter, Res.ok_bind, descEnd, List.singleton_append, ← List.nil_append (a :: B), rd_mid [] B a 0 rfl, Res.ok_bind, descLoop]
    split_ifs <;> rfl
  | succ n ih =>
    intro l B i s V hl hi
    obtain ⟨a, b, l', rfl⟩ : ∃ a b l', l = a :: b :: l' := by
      match l, hl with
      | a :: b :: l', _ => exact ⟨a, b, l', rfl⟩
    generalize hL : a :: b :: l' = l at hl ⊢
    rw [iter, descIter]
    obtain ⟨hs1, C, hs2⟩ := scanSign_spec B l s
    have e1 : (deg - i + 1).toNat = l.length := by rw [hl]; omega
    rw [e1, hs1]
    simp only [Res.ok_bind]
    have e2 : (((firstSign s l.reverse).2.length : ℤ) - 1 + 1).toNat = (firstSign s l.reverse).2.reverse.length := by
      simp
    rw [e2]
    obtain ⟨j, hj1, hj2⟩ := scanSame_spec [] (C ++ B) (firstSign s l.reverse).1 0 rfl
      (firstSign s l.reverse).2.reverse
    have e3 : [] ++ (firstSign s l.reverse).2.reverse ++ (C ++ B) = l ++ B := by
      conv_rhs => rw [hs2]
      simp
    rw [e3] at hj1
    rw [hj1]
    simp only [Res.ok_bind]
    have hrev : allSignOrZero (firstSign s l.reverse).1 (firstSign s l.reverse).2.reverse =
        allSignOrZero (firstSign s l.reverse).1 (firstSign s l.reverse).2 := by
      simp [allSignOrZero]
    rw [hrev] at hj2
    rw [← hL, descLoop, hL]
    simp only
    by_cases hall : allSignOrZero (firstSign s l.reverse).1 (firstSign s l.reverse).2 = true
    · rw [if_pos (hj2.2 hall), if_pos hall]
      rfl
    · rw [if_neg (fun h => hall (hj2.1 h)), if_neg hall]
      rw [addPrev_loop l B (n + 1) hl _ (by omega)]
      simp only [Res.ok_bind, Res.pure_eq]
      obtain ⟨q, x, hq⟩ : ∃ q x, prefixSums l = q ++ [x] := by
        refine ⟨(prefixSums l).dropLast, (prefixSums l).getLast ?_, (List.dropLast_append_getLast _).symm⟩
        intro h
        have := congrArg List.length h
        rw [prefixSums_length, hl] at this
        simp at this
      have hql : q.length = n + 1 := by
        have := congrArg List.length hq
        rw [prefixSums_length, hl] at this
        simpa using this.symm
      have e4 : prefixSums l ++ B = q ++ x :: B := by rw [hq]; simp
      have hrd : rd (prefixSums l ++ B) (deg - i) = .ok x := by
        rw [e4]; exact rd_mid _ _ _ _ (by rw [hql]; omega)
      rw [hrd]
      simp only [Res.ok_bind]
      have hd : (prefixSums l).dropLast = q := by rw [hq]; simp
      have hg : (prefixSums l).getLastD 0 = x := by rw [hq]; simp
      rw [hd, hg]
      have hrec : ∀ s' V', (iter (descIter deg bound) n (i + 1) (prefixSums l ++ B, s', V') >>= descEnd bound)
          = .ok (descLoop bound q s' V') := by
        intro s' V'
        rw [e4, show q ++ x :: B = q ++ ([x] ++ B) by simp]
        exact ih q _ _ s' V' hql (by omega)
      by_cases hs0 : s = 0
      · rw [if_pos hs0, if_pos hs0]
        simp only [Res.ok_bind]
        exact hrec _ _
      · rw [if_neg hs0, if_neg hs0]
        by_cases hsx : s = - sgn x
        · rw [if_pos hsx, if_pos hsx]
          by_cases hV : V = bound
          · rw [if_pos hV, if_pos hV]; rfl
          · rw [if_neg hV, if_neg hV]
            simp only [Res.ok_bind]
            exact hrec _ _
        · rw [if_neg hsx, if_neg hsx]
          simp only [Res.ok_bind]
          exact hrec _ _

/-- The index-level function computes the list-level one on its window. -/
theorem descartes_spec (A w B : List ℤ) (o len : ℤ) (ho : o = A.length) (hl : len = w.length)
    (hw : w ≠ []) (bound : ℕ) :
    descartes (A ++ w ++ B) o len bound = .ok (descartesBound01 w bound) := by
  obtain ⟨v, x, rfl⟩ : ∃ v x, w = v ++ [x] :=
    ⟨w.dropLast, w.getLast hw, (List.dropLast_append_getLast hw).symm⟩
  set p := A ++ (v ++ [x]) ++ B with hp
  have hlv : len = v.length + 1 := by simp [hl]
  have hr1 : rd p (o + (len - 1)) = .ok x := by
    rw [hp, show A ++ (v ++ [x]) ++ B = (A ++ v) ++ x :: B by simp]
    exact rd_mid _ _ _ _ (by rw [ho, hlv, List.length_append]; push_cast; ring)
  rw [descartes]
  simp only [hr1, Res.ok_bind, Res.pure_eq]
  obtain ⟨j, hj1, hj2⟩ := scanSame_spec A B (sgn x) o ho (v ++ [x])
  have e1 : (len - 1 + 1).toNat = (v ++ [x]).length := by rw [hlv]; simp
  rw [e1, hj1]
  simp only [Res.ok_bind]
  rw [descartesBound01]
  have hg : (v ++ [x]).getLastD 0 = x := by simp
  rw [hg]
  by_cases hall : allSignOrZero (sgn x) (v ++ [x]) = true
  · rw [if_pos (hj2.2 hall), if_pos hall]
  · rw [if_neg (fun h => hall (hj2.1 h)), if_neg hall]
    obtain ⟨a, v', rfl⟩ : ∃ a v', v = a :: v' := by
      cases v with
      | nil =>
        exfalso; apply hall
        simp [allSignOrZero]
      | cons a v' => exact ⟨a, v', rfl⟩
    set w := a :: v' ++ [x] with hw'
    have hwl : w.length = v'.length + 2 := by simp [hw']
    have hr2 : rd p o = .ok a := by
      rw [hp]
      rw [show A ++ w ++ B = A ++ a :: (v' ++ [x] ++ B) by simp [hw']]
      exact rd_mid _ _ _ _ ho
    rw [hr2]
    have hi0 : vecInit len = 0 :: List.replicate (v'.length + 1) 0 := by
      rw [vecInit, hl, Int.toNat_natCast, hwl]; rfl
    rw [hi0, Res.ok_bind]
    have hw0 : wr (0 :: List.replicate (v'.length + 1) 0) 0 a = .ok (a :: List.replicate (v'.length + 1) 0) :=
      wr_mid [] _ 0 a 0 rfl
    rw [hw0, Res.ok_bind]
    -- the first loop
    have hloop : forUp 0 (len - 1 - 1 + 1) (fun j q => do
        let a ← rd p (o + j + 1)
        let q ← wr q (j + 1) a
        addPrev j q) (a :: List.replicate (v'.length + 1) 0) = .ok (prefixSums w) := by
      have h := forUp_nat (fun j q => do
        let a ← rd p (o + j + 1)
        let q ← wr q (j + 1) a
        addPrev j q) (fun k => prefixSums (w.take (k + 1)) ++ List.replicate (v'.length + 1 - k) 0) 0
        (v'.length + 1) (fun k hk => by
          have hkw : k + 1 < w.length := by omega
          have hr : rd p (o + ((0 : ℕ) + (k : ℤ)) + 1) = .ok w[k + 1] := by
            rw [hp, show A ++ w ++ B = (A ++ w.take (k + 1)) ++ w[k + 1] :: (w.drop (k + 2) ++ B) by
              conv_lhs => rw [← List.take_append_drop (k + 1) w, drop_cons hkw]
              simp only [List.append_assoc, List.cons_append]]
            refine rd_mid _ _ _ _ ?_
            rw [ho, List.length_append, List.length_take]
            push_cast
            rw [min_eq_left (by omega)]
            push_cast; ring
          have hlen : (prefixSums (w.take (k + 1))).length = k + 1 := by
            rw [prefixSums_length, List.length_take]; omega
          rw [hr]
          simp only [Res.ok_bind]
          rw [show v'.length + 1 - k = (v'.length + 1 - (k + 1)) + 1 by omega, List.replicate_succ,
            wr_mid _ _ _ _ _ (by rw [hlen]; push_cast; ring), Res.ok_bind]
          have := addPrev_spec (w.take (k + 2)) (List.replicate (v'.length + 1 - (k + 1)) 0) k
            (by rw [List.length_take]; omega)
          rw [List.take_take, List.take_take, min_eq_left (by omega), min_self] at this
          have e1 : (w.take (k + 2)).drop (k + 1) = [w[k + 1]] := by
            rw [show k + 2 = (k + 1) + 1 by rfl, List.take_succ_eq_append_getElem hkw]
            rw [List.drop_append_of_le_length (by rw [List.length_take]; omega)]
            simp
          have e2 : (w.take (k + 2)).drop (k + 2) = [] := by
            apply List.drop_eq_nil_of_le; rw [List.length_take]; omega
          rw [e1, e2] at this
          simp only [Nat.cast_zero, zero_add]
          simp only [List.append_assoc, List.singleton_append, List.nil_append] at this
          rw [this])
        (len - 1 - 1 + 1) (by rw [hl, hwl]; push_cast; ring)
      have e0 : prefixSums (w.take (0 + 1)) ++ List.replicate (v'.length + 1 - 0) 0 =
          a :: List.replicate (v'.length + 1) 0 := by
        simp [hw', prefixSums, prefixSumsFrom]
      have en : prefixSums (w.take (v'.length + 1 + 1)) ++
          List.replicate (v'.length + 1 - (v'.length + 1)) 0 = prefixSums w := by
        rw [show v'.length + 1 + 1 = w.length by omega]; simp
      simp only [e0, en] at h
      exact h
    rw [hloop, Res.ok_bind]
    have hps : prefixSums w = prefixSums (a :: v') ++ [(a :: v').sum + x] := by
      rw [hw']; exact prefixSums_append _ _
    have hr3 : rd (prefixSums w) (len - 1) = .ok ((a :: v').sum + x) := by
      rw [hps]
      refine rd_mid _ [] _ _ ?_
      rw [prefixSums_length, hl, hwl]; push_cast [List.length_cons]; ring
    rw [hr3, Res.ok_bind]
    have hfin := descIter_spec (len - 1) bound v'.length (prefixSums (a :: v')) [(a :: v').sum + x] 1
      (sgn ((a :: v').sum + x)) 0 (by rw [prefixSums_length]; simp) (by rw [hl, hwl]; push_cast; ring)
    rw [← hps] at hfin
    have hd : (prefixSums w).dropLast = prefixSums (a :: v') := by rw [hps]; simp
    have hg' : (prefixSums w).getLastD 0 = (a :: v').sum + x := by rw [hps]; simp
    simp only [hd, hg']
    rw [← hfin]
    have e5 : (len - 1 - 1).toNat = v'.length := by rw [hl, hwl]; omega
    rw [e5]
    congr 1

end EAntic.Arrays
