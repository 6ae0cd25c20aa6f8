import Verif.Lemmas.ArraysBound
import Verif.Lemmas.Scale2Inst

/-! # Isolation with output arrays, index by index (helper lemmas) -/

namespace EAntic.Arrays
open Polynomial

variable {α σ ρ : Type}

/-! ## Loops over arrays -/

lemma forUp_map (b : ℤ → List α → Res (List α)) (g : α → α)
    (hb : ∀ (A B : List α) (x : α) (i : ℤ), i = A.length → b i (A ++ x :: B) = .ok (A ++ g x :: B))
    (A l B : List α) (lo hi : ℤ) (hlo : lo = A.length) (hhi : hi = lo + l.length) :
    forUp lo hi b (A ++ l ++ B) = .ok (A ++ l.map g ++ B) := by
  have h := forUp_nat b (fun k => A ++ (l.take k).map g ++ l.drop k ++ B) A.length l.length
    (fun k hk => by
      have e1 : A ++ (l.take k).map g ++ l.drop k ++ B =
          (A ++ (l.take k).map g) ++ l[k] :: (l.drop (k + 1) ++ B) := by
        rw [drop_cons hk, List.append_assoc _ _ B, List.cons_append]
      rw [e1, hb _ _ _ _ (by simp; omega)]
      rw [List.take_succ_eq_append_getElem hk, List.map_append]
      simp only [List.map_cons, List.map_nil, List.append_assoc, List.nil_append, List.cons_append])
    hi (by rw [hhi, hlo])
  simp only [List.take_zero, List.map_nil, List.append_nil, List.drop_zero, List.take_length,
    List.drop_length] at h
  rw [hlo]
  exact h

lemma forUp_pair {σ₁ σ₂ : Type} (b₁ : ℤ → σ₁ → Res σ₁) (b₂ : ℤ → σ₂ → Res σ₂) (lo hi : ℤ) (s₁ r₁ : σ₁)
    (s₂ r₂ : σ₂) (h₁ : forUp lo hi b₁ s₁ = .ok r₁) (h₂ : forUp lo hi b₂ s₂ = .ok r₂) :
    forUp lo hi (fun i s => do
      let a ← b₁ i s.1
      let b ← b₂ i s.2
      return (a, b)) (s₁, s₂) = .ok (r₁, r₂) := by
  unfold forUp at *
  generalize (hi - lo).toNat = n at *
  induction n generalizing lo s₁ s₂ with
  | zero =>
    simp only [iter, Res.ok_bind, Res.ok.injEq] at *
    rw [h₁, h₂]
  | succ n ih =>
    rw [iter] at *
    cases e₁ : b₁ lo s₁ with
    | ok s₁' =>
      cases e₂ : b₂ lo s₂ with
      | ok s₂' =>
        rw [e₁] at h₁
        rw [e₂] at h₂
        simp only [Res.ok_bind, Res.pure_eq] at h₁ h₂ ih ⊢
        rw [e₁, e₂]
        simp only [Res.ok_bind]
        exact ih _ _ _ h₁ h₂
      | running => rw [e₂] at h₂; cases h₂
      | abort => rw [e₂] at h₂; cases h₂
      | throw w => rw [e₂] at h₂; cases h₂
      | ub => rw [e₂] at h₂; cases h₂
    | running => rw [e₁] at h₁; cases h₁
    | abort => rw [e₁] at h₁; cases h₁
    | throw w => rw [e₁] at h₁; cases h₁
    | ub => rw [e₁] at h₁; cases h₁

lemma incNeg_mid (A B : List ℤ) (x : ℤ) (i : ℤ) (hi : i = A.length) :
    incNeg (A ++ x :: B) i = .ok (A ++ (-(x + 1)) :: B) := by
  rw [incNeg, rd_mid A B x i hi, Res.ok_bind, wr_mid A B x _ i hi, Res.ok_bind, rd_mid A B _ i hi,
    Res.ok_bind, wr_mid A B _ _ i hi]

lemma addAt_mid (k : ℤ) (A B : List ℤ) (x : ℤ) (i : ℤ) (hi : i = A.length) :
    addAt (A ++ x :: B) i k = .ok (A ++ (x + k) :: B) := by
  rw [addAt, rd_mid A B x i hi, Res.ok_bind, wr_mid A B x _ i hi]

lemma swap_spec (A M B : List α) (x y : α) (i j : ℤ) (hi : i = A.length) (hj : j = A.length + 1 + M.length) :
    swap (A ++ x :: (M ++ y :: B)) i j = .ok (A ++ y :: (M ++ x :: B)) := by
  have e : ∀ z u : α, A ++ z :: (M ++ u :: B) = (A ++ z :: M) ++ u :: B := by simp
  rw [swap, rd_mid A _ x i hi, Res.ok_bind, e x y, rd_mid _ B y j (by simp [hj]; ring), Res.ok_bind, ← e x y,
    wr_mid A _ x y i hi, Res.ok_bind, e y y, wr_mid _ B y x j (by simp [hj]; ring), ← e y x]

/-- The two-sided swap loop reverses; `A`, `C` are the parts already done. -/
lemma swapLoop_aux (n : ℤ) : ∀ (m : ℕ) (A l C B : List α) (i : ℤ), l.length / 2 = m → i = A.length →
    C.length = A.length → n = A.length + l.length + C.length →
    iter (ρ := Empty) (fun i s => do return .inl (← swap s i (n - i - 1))) m i (A ++ l ++ C ++ B) =
      .ok (.inl (A ++ l.reverse ++ C ++ B)) := by
  intro m
  induction m with
  | zero =>
    intro A l C B i hl hi hC hn
    have : l.reverse = l := by
      match l, hl with
      | [], _ => rfl
      | [a], _ => rfl
      | a :: b :: l, hl => simp at hl
    rw [this]; rfl
  | succ m ih =>
    intro A l C B i hl hi hC hn
    obtain ⟨x, l', rfl⟩ : ∃ x l', l = x :: l' := by
      cases l with
      | nil => simp at hl
      | cons x l' => exact ⟨x, l', rfl⟩
    obtain ⟨M, y, rfl⟩ : ∃ M y, l' = M ++ [y] := by
      have : l' ≠ [] := by rintro rfl; simp at hl
      exact ⟨l'.dropLast, l'.getLast this, (List.dropLast_append_getLast this).symm⟩
    have e1 : A ++ x :: (M ++ [y]) ++ C ++ B = A ++ x :: (M ++ y :: (C ++ B)) := by simp
    simp only [List.length_cons, List.length_append, List.length_nil] at hl hn
    rw [iter, e1]
    rw [swap_spec A M (C ++ B) x y i (n - i - 1) hi (by rw [hn, hi, hC]; push_cast; ring)]
    simp only [Res.ok_bind, Res.pure_eq]
    have e2 : A ++ y :: (M ++ x :: (C ++ B)) = (A ++ [y]) ++ M ++ (x :: C) ++ B := by simp
    rw [e2]
    have := ih (A ++ [y]) M (x :: C) B (i + 1) (by omega) (by simp [hi]) (by simp [hC])
      (by simp; rw [hn]; push_cast; ring)
    simp only [Res.pure_eq] at this
    rw [this]
    simp

lemma swapLoop (l B : List α) (n : ℤ) (hn : n = l.length) :
    forUp 0 (n.tdiv 2) (fun i a => swap a i (n - i - 1)) (l ++ B) = .ok (l.reverse ++ B) := by
  have h := swapLoop_aux n (l.length / 2) [] l [] B 0 rfl rfl rfl (by simp [hn])
  rw [forUp]
  have e : (n.tdiv 2 - 0).toNat = l.length / 2 := by
    rw [hn, sub_zero]
    have : ((l.length : ℤ)).tdiv 2 = ((l.length / 2 : ℕ) : ℤ) := by
      rw [Int.tdiv_eq_ediv_of_nonneg (by positivity)]; simp
    rw [this, Int.toNat_natCast]
  rw [e]
  simp only [List.nil_append, List.append_nil, Res.pure_eq] at h ⊢
  rw [h]
  rfl

/-! ## Output arrays -/

/-- the array `a` after the entries `l` have been written from index `n` on -/
def written (a : List α) (n : ℕ) (l : List α) : List α := a.take n ++ l ++ a.drop (n + l.length)

lemma written_nil (a : List α) (n : ℕ) : written a n [] = a := by simp [written]

lemma wr_written (a : List α) (n : ℕ) (l : List α) (x : α) (i : ℤ) (hi : i = n + l.length)
    (h : n + l.length < a.length) : wr (written a n l) i x = .ok (written a n (l ++ [x])) := by
  unfold written
  rw [drop_cons h, wr_mid _ _ _ _ _ (by
    rw [hi, List.length_append, List.length_take, min_eq_left (by omega)]; push_cast; rfl)]
  simp [add_assoc]

lemma written_written (a : List α) (E l : List α) :
    written (written a 0 E) E.length l = written a 0 (E ++ l) := by
  simp only [written, List.take_zero, List.nil_append, zero_add, List.length_append]
  rw [List.take_left, List.drop_length_add_append, List.drop_drop]

/-- What the output arguments contain after the exact roots `ex` and the intervals `iv` have been stored
behind the first `nE`, `nI` entries. -/
def outIs (o : Out) (nE nI : ℕ) (ex : List ℚ) (iv : List (ℤ × ℤ)) : Out where
  exact := o.exact.map (written · nE ex)
  nExact := nE + ex.length
  cArr := if o.kArr.isSome then o.cArr.map (written · nI (iv.map Prod.fst)) else o.cArr
  kArr := if o.cArr.isSome then o.kArr.map (written · nI (iv.map Prod.snd)) else o.kArr
  nIv := nI + iv.length

/-- The arrays that are there have room for `r` more entries. -/
def Room (o : Out) (nE nI r : ℕ) : Prop :=
  (∀ a, o.exact = some a → nE + r ≤ a.length) ∧
  (∀ a, o.cArr = some a → nI + r ≤ a.length) ∧ ∀ a, o.kArr = some a → nI + r ≤ a.length

lemma Room.mono {o : Out} {nE nI r r' : ℕ} (h : Room o nE nI r) (hr : r' ≤ r) : Room o nE nI r' :=
  ⟨fun a ha => (by omega : nE + r' ≤ nE + r).trans (h.1 a ha),
    fun a ha => (by omega : nI + r' ≤ nI + r).trans (h.2.1 a ha),
    fun a ha => (by omega : nI + r' ≤ nI + r).trans (h.2.2 a ha)⟩

lemma putExact_spec (o : Out) (nE nI r : ℕ) (ex : List ℚ) (iv : List (ℤ × ℤ)) (h : Room o nE nI r)
    (hr : ex.length < r) (c k : ℕ) :
    putExact (outIs o nE nI ex iv) c k = .ok (outIs o nE nI (ex ++ [(c : ℚ) / 2 ^ k]) iv) := by
  unfold putExact
  cases he : o.exact with
  | none =>
    simp only [outIs, he, Option.map_none, Res.pure_eq, List.length_append, List.length_singleton]
    congr 2
  | some a =>
    have := h.1 a he
    simp only [outIs, he, Option.map_some, Res.pure_eq]
    rw [if_neg (by simp)]
    rw [wr_written a nE ex _ _ rfl (by omega)]
    simp only [Res.ok_bind, List.length_append, List.length_singleton, Int.toNat_natCast, Int.cast_natCast]
    congr 2

lemma putInterval_spec (o : Out) (nE nI r : ℕ) (ex : List ℚ) (iv : List (ℤ × ℤ)) (h : Room o nE nI r)
    (hr : iv.length < r) (c k : ℤ) :
    putInterval (outIs o nE nI ex iv) c k = .ok (outIs o nE nI ex (iv ++ [(c, -k)])) := by
  unfold putInterval
  have e : (nI : ℤ) + iv.length + 1 = nI + (iv ++ [(c, -k)]).length := by simp; ring
  cases hc : o.cArr with
  | none =>
    cases hk : o.kArr with
    | none => simp [outIs, hc, hk, ← add_assoc]
    | some ka => simp [outIs, hc, hk, ← add_assoc]
  | some ca =>
    cases hk : o.kArr with
    | none => simp [outIs, hc, hk, ← add_assoc]
    | some ka =>
      have h1 := h.2.1 ca hc
      have h2 := h.2.2 ka hk
      simp only [outIs, hc, hk, Option.map_some, Option.isSome_some, if_true, Res.pure_eq]
      rw [wr_written ca nI (iv.map Prod.fst) _ _ (by simp) (by simp; omega), Res.ok_bind,
        wr_written ka nI (iv.map Prod.snd) _ _ (by simp) (by simp; omega), Res.ok_bind, e]
      simp

lemma stripFrom_spec (o : Out) (nE nI r : ℕ) (iv : List (ℤ × ℤ)) (h : Room o nE nI r) (c k : ℕ) :
    ∀ (w A : List ℤ) (ex : List ℚ) (off : ℤ), off = A.length → (stripZeros w).2 ≠ [] →
    ex.length + (stripZeros w).1 ≤ r →
    stripFrom (A ++ w) c k w.length off (outIs o nE nI ex iv) =
      .ok (off + (stripZeros w).1, (stripZeros w).2.length,
        outIs o nE nI (ex ++ List.replicate (stripZeros w).1 ((c : ℚ) / 2 ^ k)) iv) := by
  intro w
  induction w with
  | nil => intro A ex off _ hne; exact absurd rfl hne
  | cons a w ih =>
    intro A ex off ho hne hr
    rw [List.length_cons, stripFrom, rd_mid A w a off ho, Res.ok_bind]
    by_cases ha : a = 0
    · subst ha
      simp only [stripZeros, if_true] at hne hr ⊢
      rw [putExact_spec o nE nI r ex iv h (by omega) c k, Res.ok_bind,
        show A ++ 0 :: w = (A ++ [0]) ++ w by simp,
        ih (A ++ [0]) (ex ++ [(c : ℚ) / 2 ^ k]) (off + 1) (by simp [ho]) hne (by simp; omega)]
      rw [List.replicate_succ, List.append_assoc, List.singleton_append]
      congr 2
      push_cast; ring
    · rw [if_neg ha]
      simp [stripZeros, ha]

lemma stripZeros_split (w : List ℤ) : w = List.replicate (stripZeros w).1 0 ++ (stripZeros w).2 :=
  (stripZeros_spec w).1

/-- The index-level state `s` is the list-level state `st`. -/
structure Sim (o : Out) (nE nI : ℕ) (s : Vca) (st : VcaState) : Prop where
  c : s.c = st.c
  k : s.k = st.k
  blk : ∃ A, s.p0 = A ++ st.p ∧ s.o = A.length
  len : s.len = st.p.length
  out : s.out = outIs o nE nI st.exact st.ivs

lemma taylorShift_length (c : ℤ) (p : List ℤ) : (taylorShift c p).length = p.length := by
  have h : ∀ (l : List ℤ) a, (taylorShift.addMul c a l).length = l.length + 1 := by
    intro l
    induction l with
    | nil => intro a; rfl
    | cons b l ih => intro a; simp [taylorShift.addMul, ih]
  induction p with
  | nil => rfl
  | cons a p ih => simp [taylorShift, h, ih]

lemma goUp_spec (F : Scale2) (o : Out) (nE nI : ℕ) (st : VcaState) (A w : List ℤ) (ex : List ℚ)
    (iv : List (ℤ × ℤ)) (off : ℤ) (ho : off = A.length) :
    (∀ st', vcaNext F st w ex iv = .ok (.inl st') →
      ∃ s', goUp F st.c st.k (A ++ w) off w.length (outIs o nE nI ex iv) = .ok (.inl s') ∧
        Sim o nE nI s' st') ∧
    (∀ r, vcaNext F st w ex iv = .ok (.inr r) →
      goUp F st.c st.k (A ++ w) off w.length (outIs o nE nI ex iv) = .ok (.inr (outIs o nE nI r.1 r.2))) := by
  have hc : ((st.c : ℤ) + 1).natAbs = st.c + 1 := by omega
  unfold vcaNext goUp
  simp only [hc]
  by_cases hk : st.k = val2 (st.c + 1)
  · rw [if_pos hk, if_pos (by exact_mod_cast hk)]
    refine ⟨fun st' h => by simp at h, fun r h => ?_⟩
    simp only [Res.ok.injEq, Sum.inr.injEq] at h
    rw [← h]; rfl
  · have hkz : ¬ ((st.k : ℤ) = (val2 (st.c + 1) : ℤ)) := by exact_mod_cast hk
    rw [if_neg hk, if_neg hkz]
    have hts : inPlace (taylorShift 1) (A ++ w) off w.length = .ok (A ++ taylorShift 1 w) := by
      have := inPlace_mid (taylorShift 1) A w [] off w.length ho rfl (taylorShift_length 1 w)
      simpa using this
    rw [hts, Res.ok_bind]
    by_cases hi : val2 (st.c + 1) = 0
    · rw [if_pos hi, if_neg (by simp [hi])]
      refine ⟨fun st' h => ?_, fun r h => by simp at h⟩
      simp only [Res.ok.injEq, Sum.inl.injEq] at h
      subst h
      exact ⟨_, rfl, by simp, rfl, ⟨A, rfl, ho⟩, (taylorShift_length 1 w).symm, rfl⟩
    · have hiz : (val2 (st.c + 1) : ℤ) ≠ 0 := by exact_mod_cast hi
      rw [if_neg hi, if_pos hiz]
      have hsc : inPlace (F.scale · (val2 (st.c + 1) : ℤ)) (A ++ taylorShift 1 w) off w.length =
          .ok (A ++ F.scale (taylorShift 1 w) (val2 (st.c + 1))) := by
        have := inPlace_mid (F.scale · (val2 (st.c + 1) : ℤ)) A (taylorShift 1 w) [] off w.length ho
          (by rw [taylorShift_length]) (F.length_scale _ _)
        simpa using this
      rw [hsc, Res.ok_bind]
      by_cases hik : val2 (st.c + 1) ≤ st.k
      · rw [if_pos hik, if_neg (by push Not; exact_mod_cast hik)]
        refine ⟨fun st' h => ?_, fun r h => by simp at h⟩
        simp only [Res.ok.injEq, Sum.inl.injEq] at h
        subst h
        refine ⟨_, rfl, by simp, by simp [hik], ⟨A, rfl, ho⟩, ?_, rfl⟩
        simp [F.length_scale, taylorShift_length]
      · rw [if_neg hik]
        exact ⟨fun st' h => by simp at h, fun r h => by simp at h⟩

lemma vcaNext_exact {F : Scale2} {st st' : VcaState} {w : List ℤ} {ex : List ℚ} {iv : List (ℤ × ℤ)}
    (h : vcaNext F st w ex iv = .ok (.inl st')) : st'.exact = ex ∧ st'.ivs = iv := by
  unfold vcaNext at h
  simp only at h
  split_ifs at h <;> simp only [Res.ok.injEq, Sum.inl.injEq, reduceCtorEq] at h <;> subst h <;> exact ⟨rfl, rfl⟩

lemma vcaNext_exact' {F : Scale2} {st : VcaState} {w : List ℤ} {ex : List ℚ} {iv : List (ℤ × ℤ)}
    {r : List ℚ × List (ℤ × ℤ)} (h : vcaNext F st w ex iv = .ok (.inr r)) : r = (ex, iv) := by
  unfold vcaNext at h
  simp only at h
  split_ifs at h <;> simp only [Res.ok.injEq, Sum.inr.injEq, reduceCtorEq] at h
  exact h.symm

lemma vcaIter_spec (F : Scale2) (o : Out) (nE nI r : ℕ) (h : Room o nE nI r) (s : Vca) (st : VcaState)
    (hs : Sim o nE nI s st) (hne : (stripZeros st.p).2 ≠ []) :
    (∀ st', vcaStep F st = .ok (.inl st') → st'.exact.length + st'.ivs.length ≤ r →
      ∃ s', vcaIter F s = .ok (.inl s') ∧ Sim o nE nI s' st') ∧
    (∀ q, vcaStep F st = .ok (.inr q) → q.1.length + q.2.length ≤ r →
      vcaIter F s = .ok (.inr (outIs o nE nI q.1 q.2))) := by
  obtain ⟨c, k, p0, off, len, out⟩ := s
  obtain ⟨h1, h2, ⟨A, h3, h4⟩, h5, h6⟩ := hs
  simp only at h1 h2 h3 h4 h5 h6
  subst h1 h2 h3 h5 h6
  generalize hz : (stripZeros st.p).1 = z
  generalize hw : (stripZeros st.p).2 = w at hne
  have hsplit : A ++ st.p = (A ++ List.replicate z 0) ++ w := by
    rw [← hz, ← hw, List.append_assoc, ← stripZeros_split]
  have hoff : off + z = ((A ++ List.replicate z (0 : ℤ)).length : ℤ) := by simp [h4]
  have hdesc : descartes (A ++ st.p) (off + z) w.length 2 = .ok (descartesBound01 w 2) := by
    have := descartes_spec (A ++ List.replicate z 0) w [] (off + z) w.length hoff rfl hne 2
    rw [List.append_nil] at this
    rw [hsplit]; exact this
  have hgo := fun iv => goUp_spec F o nE nI st (A ++ List.replicate z 0) w
    (st.exact ++ List.replicate z ((st.c : ℚ) / 2 ^ st.k)) iv (off + z) hoff
  have hstrip : st.exact.length + z ≤ r →
      stripFrom (A ++ st.p) st.c st.k st.p.length off (outIs o nE nI st.exact st.ivs) =
      .ok (off + z, w.length, outIs o nE nI (st.exact ++ List.replicate z ((st.c : ℚ) / 2 ^ st.k)) st.ivs) := by
    intro hr
    have := stripFrom_spec o nE nI r st.ivs h st.c st.k st.p A st.exact off h4 (by rw [hw]; exact hne)
      (by rw [hz]; exact hr)
    rw [hz, hw] at this
    exact this
  have hsc : inPlace (F.scale · (-1)) (A ++ st.p) (off + z) w.length =
      .ok ((A ++ List.replicate z 0) ++ F.scale w (-1)) := by
    have := inPlace_mid (F.scale · (-1)) (A ++ List.replicate z 0) w [] (off + z) w.length hoff rfl
      (F.length_scale _ _)
    rw [hsplit]; simpa using this
  unfold vcaStep vcaIter
  simp only [hz, hw, if_neg hne]
  have hlen : ∀ x : ℚ, (st.exact ++ List.replicate z x).length = st.exact.length + z := by intro x; simp
  rcases hd : descartesBound01 w 2 with _ | n
  · simp only
    refine ⟨fun st' e hr => ?_, fun q e => by simp at e⟩
    simp only [Res.ok.injEq, Sum.inl.injEq] at e
    subst e
    simp only [hlen] at hr
    rw [hstrip (by omega)]
    simp only [Res.ok_bind]
    rw [hdesc, hd]
    simp only [Res.ok_bind]
    rw [hsc]
    exact ⟨_, rfl, by push_cast; ring, by push_cast; ring, ⟨_, rfl, hoff⟩, (F.length_scale _ _).symm, rfl⟩
  · match n, hd with
    | 0, hd =>
      simp only
      refine ⟨fun st' e hr => ?_, fun q e hr => ?_⟩
      · obtain ⟨e1, e2⟩ := vcaNext_exact e
        rw [e1, e2, hlen] at hr
        rw [hstrip (by omega)]
        simp only [Res.ok_bind]
        rw [hdesc, hd]
        simp only [Res.ok_bind]
        rw [hsplit]
        exact (hgo st.ivs).1 st' e
      · have e1 := vcaNext_exact' e
        rw [e1] at hr
        simp only [hlen] at hr
        rw [hstrip (by omega)]
        simp only [Res.ok_bind]
        rw [hdesc, hd]
        simp only [Res.ok_bind]
        rw [hsplit]
        exact (hgo st.ivs).2 q e
    | 1, hd =>
      simp only
      refine ⟨fun st' e hr => ?_, fun q e hr => ?_⟩
      · obtain ⟨e1, e2⟩ := vcaNext_exact e
        rw [e1, e2, hlen, List.length_append, List.length_singleton] at hr
        rw [hstrip (by omega)]
        simp only [Res.ok_bind]
        rw [hdesc, hd]
        simp only [Res.ok_bind]
        rw [putInterval_spec o nE nI r _ st.ivs h (by omega), Res.ok_bind, hsplit]
        exact (hgo _).1 st' e
      · have e1 := vcaNext_exact' e
        rw [e1] at hr
        simp only [hlen, List.length_append, List.length_singleton] at hr
        rw [hstrip (by omega)]
        simp only [Res.ok_bind]
        rw [hdesc, hd]
        simp only [Res.ok_bind]
        rw [putInterval_spec o nE nI r _ st.ivs h (by omega), Res.ok_bind, hsplit]
        exact (hgo _).2 q e
    | 2, hd =>
      simp only
      refine ⟨fun st' e hr => ?_, fun q e => by simp at e⟩
      simp only [Res.ok.injEq, Sum.inl.injEq] at e
      subst e
      simp only [hlen] at hr
      rw [hstrip (by omega)]
      simp only [Res.ok_bind]
      rw [hdesc, hd]
      simp only [Res.ok_bind]
      rw [hsc]
      exact ⟨_, rfl, by push_cast; ring, by push_cast; ring, ⟨_, rfl, hoff⟩, (F.length_scale _ _).symm, rfl⟩
    | n + 3, hd =>
      simp only
      exact ⟨fun st' e => by simp at e, fun q e => by simp at e⟩

/-- The unit-interval isolation with output arrays that have room for all roots. -/
theorem vcaLoop_spec (F : Scale2) (pol : List ℤ) (hp : toPoly pol ≠ 0) (o : Out) (nE nI : ℕ)
    (h : Room o nE nI (rootCount (toPoly pol) (Set.Ico 0 1))) :
    ∀ (fuel : ℕ) (s : Vca) (st : VcaState), Sim o nE nI s st → (∃ Q lam, VInv (toPoly pol) Q lam st) →
    loop (vcaIter F) fuel s = (loop (vcaStep F) fuel st).bind fun q => .ok (outIs o nE nI q.1 q.2) := by
  intro fuel
  induction fuel with
  | zero => intro s st _ _; rfl
  | succ n ih =>
    rintro s st hs ⟨Q, lam, hI⟩
    obtain ⟨hit1, hit2⟩ := vcaIter_spec F o nE nI _ h s st hs (stripZeros_ne_nil hI.p_ne)
    rcases vcaStep_spec F hI with ⟨st', e, Q', lam', h'⟩ | ⟨q, e, h'⟩
    · obtain ⟨s', e', hs'⟩ := hit1 st' e h'.entries_le
      rw [loop, loop, e, e']
      exact ih s' st' hs' ⟨Q', lam', h'⟩
    · have e' := hit2 q e h'.count.ge
      rw [loop, loop, e, e']
      rfl

lemma outIs_nil (o : Out) (nE nI : ℕ) (hE : o.nExact = nE) (hI : o.nIv = nI) : outIs o nE nI [] [] = o := by
  obtain ⟨a, n, b, c, m⟩ := o
  simp only at hE hI
  subst hE hI
  simp only [outIs, List.map_nil, List.length_nil, Nat.cast_zero, add_zero]
  congr 1
  · cases a <;> simp [written_nil]
  · cases b <;> cases c <;> simp [written_nil]
  · cases b <;> cases c <;> simp [written_nil]

theorem isolateUnit_spec (F : Scale2) (pol : List ℤ) (hp : toPoly pol ≠ 0) (o : Out) (nE nI : ℕ)
    (hE : o.nExact = nE) (hI : o.nIv = nI)
    (h : Room o nE nI (rootCount (toPoly pol) (Set.Ico 0 1))) (fuel : ℕ) (len : ℤ) (hl : len = pol.length) :
    isolateUnit F fuel o pol len = (isolate01 F fuel pol).bind fun q => .ok (outIs o nE nI q.1 q.2) := by
  have hw : window pol 0 len = .ok pol := by
    have := window_mid [] pol [] 0 len rfl hl
    simpa using this
  have hf : fill (vecInit len) 0 pol = .ok pol := by
    have := fill_mid [] (vecInit len) pol [] 0 rfl (by simp [vecInit, hl])
    simpa using this
  rw [isolateUnit, hw, Res.ok_bind, hf, Res.ok_bind, isolate01]
  refine vcaLoop_spec F pol hp o nE nI h fuel _ _ ⟨rfl, rfl, ⟨[], rfl, rfl⟩, by simp [hl], ?_⟩ ⟨_, _, VInv.init hp⟩
  exact (outIs_nil o nE nI hE hI).symm

end EAntic.Arrays
