import Verif.Lemmas.Arrays
import Verif.Lemmas.RootBound
import Verif.Spec.Arrays

/-! # The root bound, index by index (helper lemmas) -/

namespace EAntic.Arrays

lemma clog2_bound {a : ℤ} (h : a.natAbs.size ≤ 2 ^ 60) : 0 ≤ clog2 a ∧ clog2 a ≤ 2 ^ 60 := by
  unfold clog2
  refine ⟨by positivity, ?_⟩
  have h1 : Nat.clog 2 a.natAbs ≤ a.natAbs.size :=
    Nat.clog_le_of_le_pow (Nat.lt_size_self _).le
  have : Nat.clog 2 a.natAbs ≤ 2 ^ 60 := h1.trans h
  exact_mod_cast this

lemma flog2_bound {f0 a : ℤ} (hf : |f0| ≤ 2 ^ 60) (h : a.natAbs.size ≤ 2 ^ 60) :
    -2 ^ 60 ≤ flog2 f0 a ∧ flog2 f0 a ≤ 2 ^ 60 := by
  unfold flog2
  have := abs_le.1 hf
  split
  · omega
  · have h1 : Nat.log 2 a.natAbs ≤ a.natAbs.size := by
      have h2 := Nat.log_le_clog 2 a.natAbs
      exact h2.trans (Nat.clog_le_of_le_pow (Nat.lt_size_self _).le)
    omega

lemma size_getD {p : List ℤ} (h : InMemory p) (i : ℕ) : (p.getD i 0).natAbs.size ≤ 2 ^ 60 := by
  by_cases hi : i < p.length
  · rw [List.getD_eq_getElem _ _ hi]
    exact h.2 _ (List.getElem_mem hi)
  · rw [List.getD_eq_default _ _ (by omega)]; simp

lemma tdiv_abs (x d : ℤ) : |Int.tdiv x d| ≤ |x| := by
  rw [Int.abs_eq_natAbs, Int.abs_eq_natAbs, Int.natAbs_tdiv]
  exact_mod_cast Nat.div_le_self _ _

lemma slong_ok {x : ℤ} (h1 : -2 ^ 63 ≤ x) (h2 : x < 2 ^ 63) : slong x = .ok x := by
  rw [slong, if_pos ⟨h1, h2⟩]

lemma rd_window (A w B : List ℤ) (o : ℤ) (ho : o = A.length) (i : ℕ) (hi : i < w.length) :
    rd (A ++ w ++ B) (o + i) = .ok (w.getD i 0) := by
  have e : A ++ w ++ B = (A ++ w.take i) ++ w[i] :: (w.drop (i + 1) ++ B) := by
    conv_lhs => rw [← List.take_append_drop i w, drop_cons hi]
    simp only [List.append_assoc, List.cons_append]
  rw [e, rd_mid _ _ _ _ (by rw [ho, List.length_append, List.length_take, min_eq_left hi.le]; push_cast; rfl),
    List.getD_eq_getElem _ _ hi]

/-- the counters never exceed the length -/
def CoeffsOk (len : ℕ) (m : ℕ) (c : List ℤ) : Prop :=
  c.length = len ∧ ∀ x ∈ c, 1 ≤ x ∧ x ≤ 1 + (m : ℤ)

lemma charge_spec (f0 : ℤ) (hf : |f0| ≤ 2 ^ 60) (A w B : List ℤ) (hm : InMemory w) (o : ℤ)
    (ho : o = A.length) (c : List ℤ) (m : ℕ) (hc : CoeffsOk w.length m c) (hmw : m ≤ w.length) (i j : ℕ)
    (hij : i < j) (hj : j < w.length) :
    charge f0 (A ++ w ++ B) o c i j = .ok (chargeExp f0 w c i j) ∧ |chargeExp f0 w c i j| ≤ 2 ^ 62 := by
  have hjc : j < c.length := by rw [hc.1]; exact hj
  have hx : 1 ≤ c.getD j 0 ∧ c.getD j 0 ≤ 1 + (m : ℤ) := by
    rw [List.getD_eq_getElem _ _ hjc]; exact hc.2 _ (List.getElem_mem hjc)
  have h1 := clog2_bound (size_getD hm i)
  have h2 := flog2_bound hf (size_getD hm j)
  have hl := hm.1
  have habs := tdiv_abs (c.getD j 0 + clog2 (w.getD i 0) - flog2 f0 (w.getD j 0) + (j : ℤ) - (i : ℤ) - 1)
    ((j : ℤ) - (i : ℤ))
  have hnum : |c.getD j 0 + clog2 (w.getD i 0) - flog2 f0 (w.getD j 0) + (j : ℤ) - (i : ℤ) - 1| ≤ 2 ^ 62 := by
    rw [abs_le]; omega
  have hb : |chargeExp f0 w c i j| ≤ 2 ^ 62 := habs.trans hnum
  refine ⟨?_, hb⟩
  rw [charge, rd_getD c 0 j hjc, Res.ok_bind, rd_window A w B o ho i (by omega), Res.ok_bind,
    slong_ok (by omega) (by omega), Res.ok_bind, rd_window A w B o ho j hj, Res.ok_bind,
    slong_ok (by omega) (by omega), Res.ok_bind, slong_ok (by omega) (by omega), Res.ok_bind,
    slong_ok (by omega) (by omega), Res.ok_bind, slong_ok (by omega) (by omega), Res.ok_bind,
    if_neg (by omega)]
  have := abs_le.1 hb
  unfold chargeExp at this
  rw [slong_ok (by omega) (by omega)]
  rfl

/-- `WORD_MIN` stands for no bound -/
def encB : Option ℤ → ℤ
  | none => wordMin
  | some b => b

/-- `(jmin, bmin)` -/
def EncBest : Option (ℕ × ℤ) → ℤ × ℤ → Prop
  | none, s => s.2 = wordMax
  | some (j, b), s => s = ((j : ℤ), b) ∧ |b| ≤ 2 ^ 62

lemma inner_spec (f0 : ℤ) (pol : List ℤ) (o : ℤ) (c : List ℤ) (b0 : Option ℤ) (i : ℤ) (f : ℕ → ℤ) :
    ∀ (m j : ℕ) (best : Option (ℕ × ℤ)) (s : ℤ × ℤ), EncBest best s →
    (∀ k, j ≤ k → k < j + m → charge f0 pol o c i k = .ok (f k) ∧ |f k| ≤ 2 ^ 62) →
    ∃ r, (iter (chargeIter f0 pol o c (encB b0) i) m j s = .ok (.inl r) ∨
      iter (chargeIter f0 pol o c (encB b0) i) m j s = .ok (.inr r)) ∧
      EncBest (innerLoop f b0 (List.range' j m) best) r := by
  intro m
  induction m with
  | zero => intro j best s h _; exact ⟨s, .inl rfl, h⟩
  | succ m ih =>
    intro j best s hs hf
    obtain ⟨h1, h2⟩ := hf j le_rfl (by omega)
    have hrec : ∀ best s, EncBest best s → ∃ r,
        (iter (chargeIter f0 pol o c (encB b0) i) m ((j : ℤ) + 1) s = .ok (.inl r) ∨
        iter (chargeIter f0 pol o c (encB b0) i) m ((j : ℤ) + 1) s = .ok (.inr r)) ∧
        EncBest (innerLoop f b0 (List.range' (j + 1) m) best) r := by
      intro best s hs
      have := ih (j + 1) best s hs fun k hk hk2 => hf k (by omega) (by omega)
      push_cast at this
      exact this
    rw [List.range'_succ]
    have habs := abs_le.1 h2
    have hB : innerLoop f b0 (j :: List.range' (j + 1) m) best =
        if f j < s.2 then
          (if f j < encB b0 then some (j, f j) else innerLoop f b0 (List.range' (j + 1) m) (some (j, f j)))
        else innerLoop f b0 (List.range' (j + 1) m) best := by
      have hmin : ¬ f j < wordMin := by unfold wordMin; omega
      cases best with
      | none =>
        have hs' : s.2 = wordMax := hs
        have hmax : f j < wordMax := by unfold wordMax; omega
        cases b0 with
        | none => simp [innerLoop, encB, hs', hmax, hmin]
        | some x => by_cases hx : f j < x <;> simp [innerLoop, encB, hs', hmax, hx]
      | some r =>
        obtain ⟨hs', _⟩ := hs
        subst hs'
        cases b0 with
        | none => simp [innerLoop, encB, hmin]
        | some x => by_cases hx : f j < x <;> by_cases hy : f j < r.2 <;> simp [innerLoop, encB, hx, hy]
    rw [hB, iter, chargeIter, h1]
    simp only [Res.ok_bind, Res.pure_eq]
    by_cases hlt : f j < s.2
    · rw [if_pos hlt, if_pos hlt]
      by_cases hst : f j < encB b0
      · rw [if_pos hst, if_pos hst]
        exact ⟨((j : ℤ), f j), .inr rfl, rfl, h2⟩
      · rw [if_neg hst, if_neg hst]
        exact hrec (some (j, f j)) ((j : ℤ), f j) ⟨rfl, h2⟩
    · rw [if_neg hlt, if_neg hlt]
      exact hrec best s hs

/-- the list-level state after the indices `len - 2, …, k` -/
def stateAt (f0 : ℤ) (w : List ℤ) (k : ℕ) : BoundState :=
  ((List.range' k (w.length - 1 - k)).reverse).foldl (boundStep f0 w)
    { coeffs := List.replicate w.length 1, b0 := none, charges := [] }

lemma stateAt_step (f0 : ℤ) (w : List ℤ) (k : ℕ) (hk : k < w.length - 1) :
    stateAt f0 w k = boundStep f0 w (stateAt f0 w (k + 1)) k := by
  unfold stateAt
  rw [show w.length - 1 - k = (w.length - 1 - (k + 1)) + 1 by omega, List.range'_succ, List.reverse_cons,
    List.foldl_append]
  rfl

lemma stateAt_zero (f0 : ℤ) (w : List ℤ) : stateAt f0 w 0 = boundLoop f0 w := by
  unfold stateAt boundLoop
  rw [List.range_eq_range']
  rfl

lemma downFrom_inv {σ : Type} (body : ℤ → σ → Res σ) (I : ℕ → σ → Prop) (n : ℕ) (s : σ) (h0 : I n s)
    (h : ∀ k s, k < n → I (k + 1) s → ∃ s', body (k : ℤ) s = .ok s' ∧ I k s') :
    ∃ s', downFrom body n s = .ok s' ∧ I 0 s' := by
  induction n generalizing s with
  | zero => exact ⟨s, rfl, h0⟩
  | succ n ih =>
    obtain ⟨s', h1, h2⟩ := h n s (by omega) h0
    rw [downFrom, h1, Res.ok_bind]
    exact ih s' h2 fun k s hk => h k s (by omega)

/-- what holds of `coeffs`, `b0` and `jmin` after the indices `len - 2, …, k` -/
def BoundRel (f0 : ℤ) (w : List ℤ) (k : ℕ) (s : List ℤ × ℤ × ℤ) : Prop :=
  s.1 = (stateAt f0 w k).coeffs ∧ s.2.1 = encB (stateAt f0 w k).b0 ∧
    CoeffsOk w.length (w.length - 1 - k) s.1 ∧ ∀ b, (stateAt f0 w k).b0 = some b → |b| ≤ 2 ^ 62

lemma boundIter_spec (f0 : ℤ) (hf : |f0| ≤ 2 ^ 60) (A w B : List ℤ) (hm : InMemory w) (o len : ℤ)
    (ho : o = A.length) (hl : len = w.length) (k : ℕ) (hk : k < w.length - 1) (s : List ℤ × ℤ × ℤ)
    (h : BoundRel f0 w (k + 1) s) :
    ∃ s', boundIter f0 (A ++ w ++ B) o len (sgn (w.getLastD 0)) k s = .ok s' ∧ BoundRel f0 w k s' := by
  obtain ⟨coeffs, b0, jmin⟩ := s
  obtain ⟨h1, h2, h3, h4⟩ := h
  simp only at h1 h2 h3
  rw [boundIter]
  simp only
  rw [rd_window A w B o ho k (by omega), Res.ok_bind]
  have hst := stateAt_step f0 w k hk
  rw [boundStep] at hst
  by_cases hs : sgn (w.getD k 0) = 0 ∨ sgn (w.getD k 0) = sgn (w.getLastD 0)
  · rw [if_pos hs]
    rw [if_pos hs] at hst
    refine ⟨_, rfl, ?_, ?_, ?_, ?_⟩
    · rw [hst]; exact h1
    · rw [hst]; exact h2
    · exact ⟨h3.1, fun x hx => by have := h3.2 x hx; omega⟩
    · rw [hst]; exact h4
  · rw [if_neg hs]
    rw [if_neg hs, ← h1] at hst
    have e : (len - ((k : ℤ) + 1)).toNat = w.length - 1 - k := by omega
    rw [e]
    obtain ⟨r, hr, hbest⟩ := inner_spec f0 (A ++ w ++ B) o coeffs (stateAt f0 w (k + 1)).b0 k
      (chargeExp f0 w coeffs k) (w.length - 1 - k) (k + 1) none (jmin, wordMax) rfl
      (fun j hj1 hj2 => charge_spec f0 hf A w B hm o ho coeffs _ h3 (by omega) k j (by omega) (by omega))
    obtain ⟨j, hj, hjm⟩ := innerLoop_none (chargeExp f0 w coeffs k) (stateAt f0 w (k + 1)).b0
      (List.range' (k + 1) (w.length - 1 - k)) (by
        intro h; have := congrArg List.length h; simp at this; omega)
    rw [hj] at hbest hst
    obtain ⟨hr2, hb⟩ := hbest
    simp only at hst
    have hjr : k + 1 ≤ j ∧ j < w.length := by
      rw [List.mem_range'_1] at hjm; omega
    have hjc : j < coeffs.length := by rw [h3.1]; exact hjr.2
    have hr3 : iter (chargeIter f0 (A ++ w ++ B) o coeffs b0 k) (w.length - 1 - k) ((k : ℤ) + 1) (jmin, wordMax)
          = .ok (.inl r) ∨
        iter (chargeIter f0 (A ++ w ++ B) o coeffs b0 k) (w.length - 1 - k) ((k : ℤ) + 1) (jmin, wordMax)
          = .ok (.inr r) := by
      rw [h2]; push_cast at hr; exact hr
    have hxj := h3.2 _ (List.getElem_mem hjc)
    have hlen := hm.1
    have hbb := abs_le.1 hb
    refine ⟨(coeffs.modify j (· + 1), max b0 (chargeExp f0 w coeffs k j), (j : ℤ)), ?_, ?_, ?_, ?_, ?_⟩
    · rcases hr3 with hr3 | hr3 <;>
      · rw [hr3]
        simp only [Res.ok_bind, Res.pure_eq, hr2]
        rw [if_neg (by omega)]
        rw [rd_nat coeffs j hjc, Res.ok_bind, slong_ok (by omega) (by omega), Res.ok_bind,
          wr_nat coeffs j _ hjc, Res.ok_bind, List.modify_eq_set_getElem? ]
        simp [hjc]
    · rw [hst]
    · rw [hst]
      simp only [h2]
      cases hb0 : (stateAt f0 w (k + 1)).b0 with
      | none =>
        simp only [maxBound, encB, wordMin]
        exact max_eq_right (by omega)
      | some x => rfl
    · refine ⟨by simp [h3.1], fun x hx => ?_⟩
      obtain ⟨n, hn, rfl⟩ := List.getElem_of_mem hx
      simp only [List.length_modify] at hn
      have := h3.2 _ (List.getElem_mem hn)
      rw [List.getElem_modify]
      split <;> omega
    · intro b hb'
      rw [hst] at hb'
      simp only at hb'
      cases hb0 : (stateAt f0 w (k + 1)).b0 with
      | none => rw [hb0] at hb'; simp only [maxBound, Option.some.injEq] at hb'; rw [← hb']; exact hb
      | some x =>
        rw [hb0] at hb'; simp only [maxBound, Option.some.injEq] at hb'; rw [← hb']
        have := h4 x hb0
        rcases max_choice x (chargeExp f0 w coeffs k j) with e | e <;> rw [e] <;> assumption

/-- The index-level root bound computes the list-level one on its window. -/
theorem rootBound_spec (f0 : ℤ) (hf : |f0| ≤ 2 ^ 60) (junk : ℕ → List ℤ) (hj : ∀ n, (junk n).length = n)
    (A w B : List ℤ) (hm : InMemory w) (hw : w ≠ []) (o len : ℤ) (ho : o = A.length) (hl : len = w.length) :
    rootBound f0 junk (A ++ w ++ B) o len = .ok (encB (rootUpperBound f0 w)) ∧
      ∀ k, rootUpperBound f0 w = some k → |k| ≤ 2 ^ 62 := by
  have hlen : 0 < w.length := List.length_pos_of_ne_nil hw
  have hfill : forUp 0 len (fun i c => wr c i 1) (junk len.toNat) = .ok (List.replicate w.length 1) := by
    have h := forUp_nat (fun i c => wr c i 1)
      (fun k => List.replicate k (1 : ℤ) ++ (junk w.length).drop k) 0 w.length
      (fun k hk => by
        have hjk : k < (junk w.length).length := by rw [hj]; exact hk
        rw [drop_cons hjk, wr_mid _ _ _ _ _ (by simp), List.replicate_succ', List.append_assoc,
          List.singleton_append])
      len (by omega)
    simp only [List.replicate_zero, List.nil_append, List.drop_zero] at h
    rw [show len.toNat = w.length by omega]
    rw [Nat.cast_zero] at h
    rw [h, List.drop_eq_nil_of_le (by rw [hj]), List.append_nil]
  have hlast : rd (A ++ w ++ B) (o + len - 1) = .ok (w.getLastD 0) := by
    have := rd_window A w B o ho (w.length - 1) (by omega)
    rw [show o + len - 1 = o + ((w.length - 1 : ℕ) : ℤ) by omega, this]
    congr 1
    rw [List.getD_eq_getElem _ _ (by omega), List.getLastD_eq_getLast?, List.getLast?_eq_getElem?]
    simp [hlen]
  have hinit : BoundRel f0 w (w.length - 1) (List.replicate w.length 1, wordMin, -1) := by
    have : stateAt f0 w (w.length - 1) = { coeffs := List.replicate w.length 1, b0 := none, charges := [] } := by
      unfold stateAt; simp
    refine ⟨by rw [this], by rw [this]; rfl, ⟨by simp, ?_⟩, by rw [this]; intro b hb; simp at hb⟩
    intro x hx
    obtain rfl := List.eq_of_mem_replicate hx
    simp
  obtain ⟨s, hs1, hs2, hs3, hs4, hs5⟩ := downFrom_inv (boundIter f0 (A ++ w ++ B) o len (sgn (w.getLastD 0)))
    (BoundRel f0 w) (w.length - 1) _ hinit
    (fun k s hk h => boundIter_spec f0 hf A w B hm o len ho hl k hk s h)
  rw [stateAt_zero] at hs3 hs5
  refine ⟨?_, fun k hk => hs5 k hk⟩
  rw [rootBound, if_neg (by omega)]
  simp only [Res.pure_eq]
  rw [hfill, Res.ok_bind, hlast, Res.ok_bind, forDown, show (len - 2 + 1).toNat = w.length - 1 by omega, hs1,
    Res.ok_bind]
  exact congrArg _ hs3

end EAntic.Arrays
