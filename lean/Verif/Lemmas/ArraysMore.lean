import Verif.Model.ArraysMore
import Verif.Lemmas.ArraysCount

/-! # More loops over coefficient arrays (helper lemmas) -/

namespace EAntic.Arrays
open Polynomial

/-! ## Scaling -/

lemma mulPow_mid (q : ℤ) (A B : List ℤ) (x c i : ℤ) (hi : i = A.length) :
    mulPow q i (A ++ x :: B, c) = .ok (A ++ x * (c * q) :: B, c * q) := by
  simp only [mulPow]
  rw [rd_mid A B x i hi, Res.ok_bind, wr_mid A B x _ i hi, Res.ok_bind]
  rfl

lemma scaleDen_singleton (q a : ℤ) : scaleDen q [a] = ([a], q) := by simp [scaleDen]

/-- the factor after the coefficients of `B`, for nonempty `B` -/
lemma mulPow_down (q : ℤ) (z : ℤ) : ∀ (n : ℕ) (A B : List ℤ), A.length = n →
    ∀ c, (scaleDen q (B ++ [z])).2 = c * q →
    downFrom (mulPow q) n (A ++ (scaleDen q (B ++ [z])).1, c) =
      .ok ((scaleDen q (A ++ B ++ [z])).1, (c * q ^ n)) := by
  intro n
  induction n with
  | zero =>
    intro A B hA c hc
    obtain rfl := List.length_eq_zero_iff.1 hA
    simp [downFrom]
  | succ n ih =>
    intro A B hA c hc
    obtain ⟨A', x, rfl⟩ : ∃ A' x, A = A' ++ [x] := by
      rcases List.eq_nil_or_concat A with h | ⟨A', x, h⟩
      · rw [h] at hA; simp at hA
      · exact ⟨A', x, by rw [h, List.concat_eq_append]⟩
    have hA' : A'.length = n := by simpa using hA
    rw [downFrom, List.append_assoc, List.singleton_append, mulPow_mid q A' _ x c n (by rw [hA']), Res.ok_bind]
    have e : scaleDen q (x :: B ++ [z]) = (x * (c * q) :: (scaleDen q (B ++ [z])).1, c * q * q) := by
      rw [List.cons_append, scaleDen, hc]
    have := ih A' (x :: B) hA' (c * q) (by rw [e])
    rw [e] at this
    rw [this, pow_succ]
    simp [mul_assoc, mul_comm, mul_left_comm]

lemma mulPow_up (t : ℤ) : ∀ (l A : List ℤ) (c : ℤ),
    iter (ρ := Empty) (fun i s => do return .inl (← mulPow t i s)) l.length A.length (A ++ l, c) =
      .ok (.inl (A ++ scaleNum t (c * t) l, c * t ^ l.length)) := by
  intro l
  induction l with
  | nil => intro A c; simp [iter, scaleNum]
  | cons x l ih =>
    intro A c
    rw [List.length_cons, iter, mulPow_mid t A l x c _ rfl]
    simp only [Res.ok_bind, Res.pure_eq]
    have := ih (A ++ [x * (c * t)]) (c * t)
    simp only [List.length_append, List.length_singleton, Nat.cast_add, Nat.cast_one, List.append_assoc,
      List.singleton_append, Res.pure_eq] at this
    rw [this, scaleNum, show c * t * t ^ l.length = c * t ^ (l.length + 1) by ring]

lemma scaleDen_length (q : ℤ) (p : List ℤ) : (scaleDen q p).1.length = p.length := by
  induction p with
  | nil => rfl
  | cons a p ih => simp [scaleDen, ih]

lemma scaleNum_length (t : ℤ) (p : List ℤ) : ∀ c, (scaleNum t c p).length = p.length := by
  induction p with
  | nil => intro c; rfl
  | cons a p ih => intro c; simp [scaleNum, ih]

theorem scale01_spec (pol : List ℤ) (a b : ℚ) : scale01 pol a b = EAntic.scale01 pol a b := by
  unfold scale01 EAntic.scale01
  by_cases h : pol.length ≤ 1
  · rw [if_pos (by exact_mod_cast h), if_pos h]; rfl
  rw [if_neg (by exact_mod_cast h), if_neg h]
  simp only
  obtain ⟨A, z, rfl⟩ : ∃ A z, pol = A ++ [z] := by
    rcases List.eq_nil_or_concat pol with h' | ⟨A', x, h'⟩
    · rw [h'] at h; simp at h
    · exact ⟨A', x, by rw [h', List.concat_eq_append]⟩
  generalize hq : ((Nat.lcm a.den b.den : ℕ) : ℤ) = q
  generalize a.num * b.den / ((Nat.gcd a.den b.den : ℕ) : ℤ) = p1
  generalize b.num * a.den / ((Nat.gcd a.den b.den : ℕ) : ℤ) - p1 = t
  have h1 := mulPow_down q z A.length A [] rfl 1 (by simp [scaleDen])
  simp only [List.nil_append, List.append_nil, scaleDen_singleton] at h1
  have hd : forDown (((A ++ [z]).length : ℤ) - 2) (mulPow q) (A ++ [z], 1) =
      .ok ((scaleDen q (A ++ [z])).1, 1 * q ^ A.length) := by
    unfold forDown
    rw [show ((((A ++ [z]).length : ℤ) - 2) + 1).toNat = A.length by simp; omega, h1]
  rw [hd, Res.ok_bind]
  dsimp only
  have hL : (scaleDen q (A ++ [z])).1.length = (A ++ [z]).length := scaleDen_length _ _
  generalize (scaleDen q (A ++ [z])).1 = w at hL ⊢
  rw [inPlace_all (taylorShift p1) w _ (by rw [hL]) (taylorShift_length _ _), Res.ok_bind]
  have hL2 : (taylorShift p1 w).length = (A ++ [z]).length := by rw [taylorShift_length, hL]
  generalize taylorShift p1 w = v at hL2 ⊢
  obtain ⟨x, v, rfl⟩ : ∃ x v', v = x :: v' := by
    cases v with
    | nil => simp at hL2
    | cons x v => exact ⟨x, v, rfl⟩
  have hu : forUp 1 ((A ++ [z]).length : ℤ) (mulPow t) (x :: v, 1) =
      .ok (scaleNum t 1 (x :: v), 1 * t ^ v.length) := by
    unfold forUp
    have := mulPow_up t v [x] 1
    simp only [List.length_singleton, Nat.cast_one, List.singleton_append] at this
    rw [show (((A ++ [z]).length : ℤ) - 1).toNat = v.length by rw [← hL2]; simp, this]
    simp [scaleNum]
  rw [hu, Res.ok_bind]
  dsimp only
  have hL3 : (scaleNum t 1 (x :: v)).length = (A ++ [z]).length := by rw [scaleNum_length, hL2]
  generalize scaleNum t 1 (x :: v) = u at hL3 ⊢
  rw [window_all u _ (by rw [hL3]), Res.ok_bind]
  unfold primitivePart
  split_ifs with hc
  · rfl
  · dsimp only; rw [Res.ok_bind, fill_all _ _ (by simp)]
  · dsimp only; rw [Res.ok_bind, fill_all _ _ (by simp)]

/-! ## `has_real_root.c` -/

lemma signIter_loop (alt : Bool) (p : List ℤ) : ∀ (l A : List ℤ) (n s : ℤ), p = A ++ l →
    ∃ s', iter (ρ := Empty) (fun i st => do return .inl (← signIter alt p i st)) l.length A.length (n, s) =
      .ok (.inl (n + signChanges alt A.length s l, s')) := by
  intro l
  induction l with
  | nil => intro A n s _; exact ⟨s, by simp [iter, signChanges]⟩
  | cons x l ih =>
    intro A n s hp
    have hp' : p = (A ++ [x]) ++ l := by rw [hp]; simp
    have hr : rd p (A.length : ℤ) = .ok x := by rw [hp]; exact rd_mid A l x _ rfl
    rw [List.length_cons, iter]
    have hlen : ((A ++ [x]).length : ℤ) = (A.length : ℤ) + 1 := by simp
    have hmod : decide ((A.length : ℤ).tmod 2 ≠ 0) = decide (A.length % 2 ≠ 0) := by
      congr 1
      rw [Int.tmod_eq_emod_of_nonneg (by omega)]
      apply propext
      constructor <;> intro h h' <;> apply h <;> omega
    simp only [signIter, hr, Res.ok_bind, Res.pure_eq, hmod, signChanges]
    by_cases hx : x = 0
    · rw [if_pos hx, if_pos hx]
      simp only [Res.ok_bind]
      obtain ⟨s', h'⟩ := ih (A ++ [x]) n s hp'
      rw [hlen] at h'
      simp only [Res.pure_eq, List.length_append, List.length_singleton] at h'
      exact ⟨s', h'⟩
    · rw [if_neg hx, if_neg hx]
      generalize (if (alt && decide (A.length % 2 ≠ 0)) = true then -sgn x else sgn x) = t
      by_cases ht : t ≠ s
      · rw [if_pos ht, if_pos ht]
        simp only [Res.ok_bind]
        obtain ⟨s', h'⟩ := ih (A ++ [x]) (n + 1) t hp'
        rw [hlen] at h'
        simp only [Res.pure_eq, List.length_append, List.length_singleton] at h'
        refine ⟨s', Eq.trans h' ?_⟩
        push_cast; ring_nf
      · rw [if_neg ht, if_neg ht]
        simp only [Res.ok_bind]
        obtain ⟨s', h'⟩ := ih (A ++ [x]) n s hp'
        rw [hlen] at h'
        simp only [Res.pure_eq, List.length_append, List.length_singleton] at h'
        exact ⟨s', h'⟩

lemma signIter_all (alt : Bool) (a : ℤ) (l : List ℤ) (len : ℤ) (hl : len = (a :: l).length) (s : ℤ) :
    ∃ s', forUp 1 len (signIter alt (a :: l)) (0, s) = .ok ((signChanges alt 1 s l : ℤ), s') := by
  obtain ⟨s', h⟩ := signIter_loop alt (a :: l) l [a] 0 s rfl
  refine ⟨s', ?_⟩
  unfold forUp
  simp only [List.length_singleton, Nat.cast_one, zero_add] at h
  rw [show (len - 1).toNat = l.length by rw [hl]; simp, h]
  rfl

theorem hasRealRoot_spec (N : List ℤ → ℕ) (p : List ℤ) :
    hasRealRoot N p = .ok (EAntic.hasRealRoot N p) := by
  have htm : ∀ n : ℕ, (n : ℤ).tmod 2 = ((n % 2 : ℕ) : ℤ) := by
    intro n; rw [Int.tmod_eq_emod_of_nonneg (by omega)]; omega
  unfold hasRealRoot EAntic.hasRealRoot
  simp only [Res.pure_eq]
  by_cases h1 : p.length = 1
  · rw [if_pos (by exact_mod_cast h1), if_pos h1]
  rw [if_neg (by exact_mod_cast h1), if_neg h1]
  by_cases h2 : p.length % 2 = 0
  · rw [if_pos (by rw [htm, h2]; rfl), if_pos h2]
  rw [if_neg (by rw [htm]; exact_mod_cast h2), if_neg h2]
  cases p with
  | nil => simp at h2
  | cons a l =>
    rw [show rd (a :: l) 0 = .ok a by simp [rd], Res.ok_bind]
    have hz : rd (a :: l) (((a :: l).length : ℤ) - 1) = .ok ((a :: l).getD ((a :: l).length - 1) 0) := by
      have := rd_getD (a :: l) 0 ((a :: l).length - 1) (by simp)
      rw [← this]; congr 1; simp
    rw [show (a :: l).getD 0 0 = a from rfl]
    by_cases h3 : a = 0
    · rw [if_pos h3, if_pos (.inl h3)]
    rw [if_neg h3, hz, Res.ok_bind]
    by_cases h4 : sgn a * sgn ((a :: l).getD ((a :: l).length - 1) 0) < 0
    · rw [if_pos h4, if_pos (.inr h4)]
    rw [if_neg h4, if_neg (by rintro (h | h); exacts [h3 h, h4 h])]
    obtain ⟨s1, e1⟩ := signIter_all false a l _ rfl (sgn a)
    obtain ⟨s2, e2⟩ := signIter_all true a l _ rfl (sgn a)
    rw [e1, Res.ok_bind, List.tail_cons]
    dsimp only
    by_cases h5 : signChanges false 1 (sgn a) l % 2 = 1
    · rw [if_pos (by rw [htm, h5]; rfl), if_pos h5]
    rw [if_neg (by rw [htm]; exact_mod_cast h5), if_neg h5, Res.ok_bind, e2, Res.ok_bind]
    dsimp only
    by_cases h6 : signChanges true 1 (sgn a) l % 2 = 1
    · rw [if_pos (by rw [htm, h6]; rfl), if_pos h6]
    rw [if_neg (by rw [htm]; exact_mod_cast h6), if_neg h6, window_all _ _ rfl, Res.ok_bind]

/-! ## Evaluation and condition number -/

theorem evalArb_spec (A : ArbOps) (pol : List ℤ) (a : Ball) (prec : ℤ) :
    evalArb A pol a prec = .ok (EAntic.evalArb A pol a prec) := by
  unfold evalArb forDown
  have := forDown_nat (fun i res => do
    let res := A.mul res a prec
    let c ← rd pol i
    return A.addFmpz res c prec) (fun k => EAntic.evalArb A (pol.drop k) a prec) pol.length (fun k hk => by
      simp only [rd_nat pol k hk, Res.ok_bind, Res.pure_eq]
      rw [drop_cons hk]
      rfl)
  rw [show (((pol.length : ℤ) - 1) + 1).toNat = pol.length by simp]
  simp only [List.drop_length, List.drop_zero] at this
  exact this

lemma condSum_cons (prec : ℤ) (abs : ℚ) (c : ℤ) (p : List ℤ) (hp : p ≠ []) : condSum prec abs (c :: p) =
    let res := arfRound .up prec (condSum prec abs p * abs)
    if 0 < c then arfRound .up prec (res + c)
    else if c < 0 then arfRound .up prec (res - c)
    else res := by
  cases p with
  | nil => exact absurd rfl hp
  | cons d p => rfl

/-- what the loop has computed after the coefficients `p` -/
def condArf (prec : ℤ) (abs : Arf) (p : List ℤ) : Arf :=
  match abs with
  | some a => some (condSum prec a p)
  | none => if p.length = 1 then some (condSum prec 0 p) else none

theorem condNumber_spec (p : List ℤ) (hp : p ≠ []) (x : Ball) (prec : ℤ) :
    condNumber p x prec = .ok (EAntic.condNumber p x prec) := by
  obtain ⟨A, z, rfl⟩ : ∃ A z, p = A ++ [z] :=
    ⟨p.dropLast, p.getLast hp, (List.dropLast_append_getLast hp).symm⟩
  unfold condNumber
  simp only [Res.pure_eq]
  rw [rd_mid A [] z _ (by simp), Res.ok_bind]
  have hloop := forDown_nat (condIter (A ++ [z]) (absUbound x prec) prec)
    (fun k => condArf prec (absUbound x prec) ((A ++ [z]).drop k)) A.length (fun k hk => by
      have hk' : k < (A ++ [z]).length := by simp; omega
      have hne : (A ++ [z]).drop (k + 1) ≠ [] := by
        intro h; have := congrArg List.length h; simp at this; omega
      simp only [condIter]
      rw [rd_nat (A ++ [z]) k hk', Res.ok_bind, drop_cons hk']
      generalize (A ++ [z])[k] = c
      generalize (A ++ [z]).drop (k + 1) = l at hne
      cases hb : absUbound x prec with
      | none =>
        have h0 : condArf prec none (c :: l) = none := by
          have : l.length ≠ 0 := by simpa using hne
          simp [condArf, this]
        simp only [Option.map_none, Option.bind_none, Option.bind_fun_none, h0, Res.pure_eq]
        split_ifs <;> rfl
      | some b =>
        simp only [condArf, Option.bind_some, Option.map_some, condSum_cons prec b c l hne, Res.pure_eq]
        split_ifs <;> rfl)
  have hz : condArf prec (absUbound x prec) ((A ++ [z]).drop A.length) =
      some (if 0 < z then arfRound .up prec z else -arfRound .down prec z) := by
    rw [List.drop_left]
    unfold condArf
    cases absUbound x prec <;> simp [condSum]
  unfold forDown
  rw [show ((((A ++ [z]).length : ℤ) - 2) + 1).toNat = A.length by simp; omega]
  rw [hz] at hloop
  rw [hloop, Res.ok_bind, List.drop_zero]
  unfold EAntic.condNumber
  congr 1
  cases hb : absUbound x prec with
  | none =>
    cases hA : A ++ [z] with
    | nil => simp at hA
    | cons c l =>
      simp only [condArf]
      split_ifs <;> rfl
  | some b =>
    cases hA : A ++ [z] with
    | nil => simp at hA
    | cons c l => rfl

theorem condNumber_nil (x : Ball) (prec : ℤ) : condNumber [] x prec = .ub := rfl

theorem polyAbs_spec (res p : List ℤ) (h : res.length = p.length) : polyAbs res p = .ok (p.map (|·|)) := by
  unfold polyAbs
  have := forUp_nat (fun i res => do
    let x ← rd p i
    wr res i |x|) (fun k => (p.take k).map (|·|) ++ res.drop k) 0 p.length (fun k hk => by
      have hk' : k < res.length := by omega
      simp only [Nat.cast_zero, zero_add]
      rw [rd_nat p k hk, Res.ok_bind, drop_cons hk', wr_mid _ _ _ _ _ (by simp; omega),
        List.take_succ_eq_append_getElem hk, List.map_append, List.append_assoc]
      rfl) p.length (by simp)
  simp only [List.take_zero, List.map_nil, List.nil_append, List.drop_zero, List.take_length, ← h,
    List.drop_length, List.append_nil, Nat.cast_zero] at this
  rw [← h, this, h, List.take_length]

theorem polyAbsSelf_spec (p : List ℤ) : polyAbsSelf p = .ok (p.map (|·|)) := by
  unfold polyAbsSelf
  have := forUp_map (fun i p => do
    let x ← rd p i
    wr p i |x|) (|·|) (fun A B x i hi => by
      rw [rd_mid A B x i hi, Res.ok_bind, wr_mid A B x _ i hi]) [] p [] 0 p.length rfl (by simp)
  simpa using this

/-! ## All embeddings -/

lemma initLoop_spec (A : ArbOps) (F : Scale2) (nd : Bool) (n₁ n₂ : ℕ) (pol : List ℤ) (prec : ℤ)
    (cB kB : List ℤ) : ∀ (m : ℕ) (l L : List (ℤ × ℤ)) (N : List (Option Field)) (R : List (Option Field)),
    N.length = L.length → m ≤ l.length → m ≤ R.length →
    iter (ρ := Empty) (fun i st => do
        return .inl (← initLoop A F nd n₁ n₂ pol prec ((L ++ l).map Prod.fst ++ cB) ((L ++ l).map Prod.snd ++ kB) i st))
      m L.length (N ++ R) =
      (initAll A F nd n₁ n₂ pol prec (l.take m)).bind fun fs =>
        .ok (.inl (N ++ fs.map some ++ R.drop m)) := by
  intro m
  induction m with
  | zero => intro l L N R _ _ _; simp [iter, initAll, Res.bind]
  | succ m ih =>
    intro l L N R hN hl hR
    cases l with
    | nil => simp at hl
    | cons I l =>
      cases R with
      | nil => simp at hR
      | cons r R =>
        rw [iter, List.take_succ_cons, initAll]
        have e1 : rd ((L ++ I :: l).map Prod.fst ++ cB) (L.length : ℤ) = .ok I.1 := by
          rw [List.map_append, List.map_cons, List.append_assoc, List.cons_append]
          exact rd_mid _ _ _ _ (by simp)
        have e2 : rd ((L ++ I :: l).map Prod.snd ++ kB) (L.length : ℤ) = .ok I.2 := by
          rw [List.map_append, List.map_cons, List.append_assoc, List.cons_append]
          exact rd_mid _ _ _ _ (by simp)
        simp only [initLoop, e1, e2, Res.ok_bind, Res.pure_eq]
        have key := fun f : Field => ih l (L ++ [I]) (N ++ [some f]) R (by simp [hN])
          (by simpa using hl) (by simpa using hR)
        simp only [List.append_assoc, List.singleton_append, List.length_append, List.length_singleton,
          Nat.cast_add, Nat.cast_one, initLoop, Res.pure_eq, List.cons_append, List.nil_append] at key
        rcases renfInit A F nd n₁ n₂ pol (embeddingBall prec (I.1, I.2)) prec with f | _ | _ | _ | _
        · simp only [Res.bind, Res.ok_bind]
          rw [wr_mid N R r _ _ (by rw [hN]), Res.ok_bind]
          simp only [Res.ok_bind]
          rw [key f]
          rcases initAll A F nd n₁ n₂ pol prec (l.take m) with fs | _ | _ | _ | _ <;> simp [Res.bind]
        all_goals rfl

lemma initAll_length {A : ArbOps} {F : Scale2} {nd : Bool} {n₁ n₂ : ℕ} {pol : List ℤ} {prec : ℤ} :
    ∀ {l : List (ℤ × ℤ)} {fs : List Field}, initAll A F nd n₁ n₂ pol prec l = .ok fs → fs.length = l.length
  | [], fs, h => by simp only [initAll, Res.ok.injEq] at h; rw [← h]; rfl
  | I :: l, fs, h => by
    rw [initAll] at h
    rcases hr : renfInit A F nd n₁ n₂ pol (embeddingBall prec I) prec with f | _ | _ | _ | _ <;>
      rw [hr] at h <;> simp only [Res.bind, reduceCtorEq] at h
    rcases h' : initAll A F nd n₁ n₂ pol prec l with fs' | _ | _ | _ | _ <;> rw [h'] at h <;>
      simp only [reduceCtorEq] at h
    rw [Res.ok.injEq] at h
    rw [← h, List.length_cons, initAll_length h', List.length_cons]

theorem setEmbeddings_spec (A : ArbOps) (F : Scale2) (f0 : ℤ) (hf : |f0| ≤ 2 ^ 60) (junk kmem : ℕ → List ℤ)
    (hj : ∀ n, (junk n).length = n) (hk : ∀ n, (kmem n).length = n) (nd : Bool) (n₁ n₂ : ℕ)
    (nf : List (Option Field)) (pol : List ℤ) (hp : toPoly pol ≠ 0) (hm : InMemory pol) (lim : ℕ) (prec : ℤ)
    (hnf : lim ≤ nf.length) :
    setEmbeddings A F f0 junk kmem nd n₁ n₂ nf pol lim prec =
      (EAntic.setEmbeddings A F f0 nd n₁ n₂ pol lim prec).bind fun r =>
        .ok (r.1.map some ++ nf.drop r.1.length, (r.2 : ℤ)) := by
  obtain ⟨n, h1, h2⟩ := upperBound_spec F f0 hf junk hj pol hp hm
  obtain ⟨n', h1', hn⟩ := allCount_le_bound F f0 pol hp
  obtain rfl : n = n' := by rw [h1] at h1'; exact Res.ok.inj h1'
  unfold setEmbeddings EAntic.setEmbeddings
  rw [h2, Res.ok_bind, h1]
  simp only [Res.bind]
  have hroom : Room ⟨none, 0, some (vecInit (n : ℤ)), some (kmem (n : ℤ).toNat), 0⟩ 0 0
      (allCount F f0 pol) := by
    refine ⟨by simp, ?_, ?_⟩
    · intro c hc; simp only [Option.some.injEq] at hc; subst hc; simpa [vecInit] using hn
    · intro c hc; simp only [Option.some.injEq] at hc; subst hc
      rw [Int.toNat_natCast, hk]; simpa using hn
  rw [isolate_spec F f0 hf junk hj n₁ _ pol hp hm hroom]
  rcases isolateRealRoots F f0 n₁ pol with q | _ | _ | _ | _
  · simp only [Res.bind, Res.ok_bind, Res.pure_eq]
    by_cases hq : q.1 = []
    · have e1 : (outIs ⟨none, 0, some (vecInit (n : ℤ)), some (kmem (n : ℤ).toNat), 0⟩ 0 0 q.1 q.2).nExact = 0 := by
        simp [outIs, hq]
      have e2 : (outIs ⟨none, 0, some (vecInit (n : ℤ)), some (kmem (n : ℤ).toNat), 0⟩ 0 0 q.1 q.2).nIv =
          q.2.length := by simp [outIs]
      have e3 : (outIs ⟨none, 0, some (vecInit (n : ℤ)), some (kmem (n : ℤ).toNat), 0⟩ 0 0 q.1 q.2).cArr.getD [] =
          ([] ++ q.2).map Prod.fst ++ (vecInit (n : ℤ)).drop q.2.length := by
        simp [outIs, written_zero]
      have e4 : (outIs ⟨none, 0, some (vecInit (n : ℤ)), some (kmem (n : ℤ).toNat), 0⟩ 0 0 q.1 q.2).kArr.getD [] =
          ([] ++ q.2).map Prod.snd ++ (kmem (n : ℤ).toNat).drop q.2.length := by
        simp [outIs, written_zero]
      rw [if_neg (by rw [e1]; simp), if_neg (by simp [hq])]
      rw [e2, e3, e4]
      have key := initLoop_spec A F nd n₁ n₂ pol prec ((vecInit (n : ℤ)).drop q.2.length)
        ((kmem (n : ℤ).toNat).drop q.2.length) (min lim q.2.length) q.2 [] [] nf rfl (min_le_right _ _)
        ((min_le_left _ _).trans hnf)
      unfold forUp
      rw [show (min (lim : ℤ) (q.2.length : ℤ) - 0).toNat = min lim q.2.length by omega]
      simp only [List.length_nil, Nat.cast_zero, List.nil_append] at key
      rw [List.nil_append, key, ← List.take_eq_take_min]
      rcases hi : initAll A F nd n₁ n₂ pol prec (q.2.take lim) with fs | _ | _ | _ | _
      · have hfs := initAll_length hi
        simp [Res.bind, hfs, min_comm]
      all_goals rfl
    · rw [if_pos (by simp [outIs, hq]), if_pos hq]
      rfl
  all_goals rfl

end EAntic.Arrays
