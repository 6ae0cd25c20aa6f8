import Verif.Lemmas.ArraysVca

/-! # The whole isolation with output arrays, index by index (helper lemmas) -/

namespace EAntic.Arrays
open Polynomial

variable {α σ ρ : Type}

lemma shift2exp_eq (x : ℚ) (k : ℤ) : shift2exp x k = mul2exp x k := by
  unfold shift2exp mul2exp
  split_ifs with h1 h2
  · rw [← zpow_natCast, Int.toNat_of_nonneg h1.le]
  · rw [← zpow_natCast, Int.toNat_of_nonneg (by omega), zpow_neg, div_inv_eq_mul]
  · obtain rfl : k = 0 := by omega
    simp

lemma written_zero (a l : List α) : written a 0 l = l ++ a.drop l.length := by simp [written]

lemma negIntervals_spec (o : Out) (ex : List ℚ) (iv : List (ℤ × ℤ)) (k : ℤ) :
    negIntervals (outIs o 0 0 ex iv) k =
      .ok (outIs o 0 0 ex (iv.map fun I => (-(I.1 + 1), I.2 + k)).reverse) := by
  unfold negIntervals
  cases hc : o.cArr with
  | none => cases hk : o.kArr <;> simp [outIs, hc, hk]
  | some ca =>
    cases hk : o.kArr with
    | none => simp [outIs, hc, hk]
    | some ka =>
      simp only [outIs, hc, hk, Option.map_some, Option.isSome_some, if_true, Nat.cast_zero, zero_add]
      have h1 := forUp_pair (fun i s => incNeg s i) (fun i s => addAt s i k) 0 (iv.length : ℤ) _ _ _ _
        (forUp_map (fun i s => incNeg s i) (fun x => -(x + 1)) (fun A B x i hi => incNeg_mid A B x i hi)
          [] (iv.map Prod.fst) (ca.drop (iv.map Prod.fst).length) 0 iv.length rfl (by simp))
        (forUp_map (fun i s => addAt s i k) (· + k) (fun A B x i hi => addAt_mid k A B x i hi)
          [] (iv.map Prod.snd) (ka.drop (iv.map Prod.snd).length) 0 iv.length rfl (by simp))
      have h2 := forUp_pair (fun i s => swap s i ((iv.length : ℤ) - i - 1))
        (fun i s => swap s i ((iv.length : ℤ) - i - 1)) 0 ((iv.length : ℤ).tdiv 2) _ _ _ _
        (swapLoop ((iv.map Prod.fst).map (fun x => -(x + 1))) (ca.drop (iv.map Prod.fst).length) iv.length
          (by simp))
        (swapLoop ((iv.map Prod.snd).map (· + k)) (ka.drop (iv.map Prod.snd).length) iv.length (by simp))
      simp only [List.nil_append] at h1
      rw [written_zero, written_zero]
      rw [h1, Res.ok_bind, h2, Res.ok_bind]
      simp only [Res.pure_eq, Res.ok.injEq, written_zero, List.length_reverse, List.length_map, List.map_reverse,
        List.map_map]
      rfl

lemma negExact_spec (o : Out) (ex : List ℚ) (iv : List (ℤ × ℤ)) (n k : ℤ) (hn : n = ex.length) :
    negExact (outIs o 0 0 ex iv) n k =
      .ok (outIs o 0 0 (ex.map fun e => -mul2exp e k).reverse iv) := by
  subst hn
  unfold negExact
  cases he : o.exact with
  | none => simp [outIs, he]
  | some a =>
    simp only [outIs, he, Option.map_some, Nat.cast_zero, zero_add]
    have h1 := forUp_map (fun i (a : List ℚ) => do
        let x ← rd a i
        let a ← wr a i (-x)
        let x ← rd a i
        wr a i (shift2exp x k)) (fun e => -mul2exp e k) (fun A B x i hi => by
          rw [rd_mid A B x i hi, Res.ok_bind, wr_mid A B x _ i hi, Res.ok_bind, rd_mid A B _ i hi, Res.ok_bind,
            wr_mid A B _ _ i hi, shift2exp_eq]
          simp [mul2exp]) [] ex (a.drop ex.length) 0 ex.length rfl (by simp)
    have h2 := swapLoop (ex.map fun e => -mul2exp e k) (a.drop ex.length) ex.length (by simp)
    simp only [List.nil_append] at h1
    rw [written_zero, h1, Res.ok_bind, h2, Res.ok_bind]
    simp [written_zero]

lemma putZeros_spec (o : Out) (ex : List ℚ) (iv : List (ℤ × ℤ)) (r z : ℕ) (h : Room o 0 0 r)
    (hr : ex.length + z ≤ r) :
    putZeros (outIs o 0 0 ex iv) z = .ok (outIs o 0 0 (ex ++ List.replicate z 0) iv) := by
  unfold putZeros
  cases he : o.exact with
  | none => simp [outIs, he]
  | some a =>
    have hcap := h.1 a he
    simp only [outIs, he, Option.map_some, Nat.cast_zero, zero_add]
    have := forUp_nat (fun i (a : List ℚ) => wr a i 0) (fun j => written a 0 (ex ++ List.replicate j 0))
      ex.length z (fun j hj => by
        rw [wr_written a 0 (ex ++ List.replicate j 0) 0 _ (by simp) (by simp; omega), List.append_assoc,
          ← List.replicate_succ'])
      ((ex.length : ℤ) + z) rfl
    simp only [List.replicate_zero, List.append_nil] at this
    rw [this, Res.ok_bind]
    simp

lemma posIntervals_spec (o : Out) (ex : List ℚ) (I iv : List (ℤ × ℤ)) (n k : ℤ) (hn : n = I.length) :
    posIntervals (outIs o 0 0 ex (I ++ iv)) n k =
      .ok (outIs o 0 0 ex (I ++ iv.map fun J => (J.1, J.2 + k))) := by
  subst hn
  unfold posIntervals
  cases hc : o.cArr with
  | none => cases hk : o.kArr <;> simp [outIs, hc, hk]
  | some ca =>
    cases hk : o.kArr with
    | none => simp [outIs, hc, hk]
    | some ka =>
      simp only [outIs, hc, hk, Option.map_some, Option.isSome_some, if_true, Nat.cast_zero, zero_add]
      have h1 := forUp_map (fun i s => addAt s i k) (· + k) (fun A B x i hi => addAt_mid k A B x i hi)
          (I.map Prod.snd) (iv.map Prod.snd) (ka.drop ((I ++ iv).map Prod.snd).length) I.length
          ((I ++ iv).length : ℕ) (by simp) (by simp)
      rw [written_zero ka, List.map_append]
      rw [List.map_append] at h1
      rw [h1, Res.ok_bind]
      simp only [Res.pure_eq, Res.ok.injEq, written_zero, List.length_map, List.map_append, List.map_map,
        List.length_append]
      rfl

lemma posExact_spec (o : Out) (E ex : List ℚ) (iv : List (ℤ × ℤ)) (n k : ℤ) (hn : n = E.length) :
    posExact (outIs o 0 0 (E ++ ex) iv) n k = .ok (outIs o 0 0 (E ++ ex.map (mul2exp · k)) iv) := by
  subst hn
  unfold posExact
  cases he : o.exact with
  | none => simp [outIs, he]
  | some a =>
    simp only [outIs, he, Option.map_some, Nat.cast_zero, zero_add]
    have h1 := forUp_map (fun i (a : List ℚ) => do
        let x ← rd a i
        wr a i (shift2exp x k)) (mul2exp · k) (fun A B x i hi => by
          rw [rd_mid A B x i hi, Res.ok_bind, wr_mid A B x _ i hi, shift2exp_eq]) E ex
          (a.drop (E ++ ex).length) E.length ((E ++ ex).length : ℕ) rfl (by simp)
    rw [written_zero, h1, Res.ok_bind]
    simp [written_zero]

lemma outIs_outIs (o : Out) (E : List ℚ) (I : List (ℤ × ℤ)) (ex : List ℚ) (iv : List (ℤ × ℤ)) :
    outIs (outIs o 0 0 E I) E.length I.length ex iv = outIs o 0 0 (E ++ ex) (I ++ iv) := by
  have h1 : ∀ ca : List ℤ, written (written ca 0 (I.map Prod.fst)) I.length (iv.map Prod.fst) =
      written ca 0 ((I ++ iv).map Prod.fst) := by
    intro ca
    have := written_written ca (I.map Prod.fst) (iv.map Prod.fst)
    simpa using this
  have h2 : ∀ ca : List ℤ, written (written ca 0 (I.map Prod.snd)) I.length (iv.map Prod.snd) =
      written ca 0 ((I ++ iv).map Prod.snd) := by
    intro ca
    have := written_written ca (I.map Prod.snd) (iv.map Prod.snd)
    simpa using this
  obtain ⟨a, n, b, c, m⟩ := o
  simp only [outIs]
  congr 1
  · cases a <;> simp [written_written]
  · simp
  · cases b <;> cases c <;> simp [h1] <;> simpa using h1 _
  · cases b <;> cases c <;> simp [h2] <;> simpa using h2 _
  · simp

lemma Room.outIs {o : Out} {r : ℕ} (h : Room o 0 0 r) (E : List ℚ) (I : List (ℤ × ℤ)) (r' : ℕ)
    (hr : E.length + I.length + r' ≤ r) : Room (outIs o 0 0 E I) E.length I.length r' := by
  obtain ⟨a, n, b, c, m⟩ := o
  have hw : ∀ {β : Type} (a l : List β), l.length ≤ a.length → (written a 0 l).length = a.length := by
    intro β a l hl; rw [written_zero]; simp; omega
  refine ⟨?_, ?_, ?_⟩
  · intro x hx
    cases a with
    | none => simp [Arrays.outIs] at hx
    | some a =>
      have := h.1 a rfl
      simp only [Arrays.outIs, Option.map_some, Option.some.injEq] at hx
      rw [← hx, hw _ _ (by omega)]; omega
  · intro x hx
    cases b with
    | none => simp [Arrays.outIs] at hx
    | some b =>
      have := h.2.1 b rfl
      cases c with
      | none => simp [Arrays.outIs] at hx; rw [← hx]; omega
      | some c =>
        simp only [Arrays.outIs, Option.map_some, Option.isSome_some, if_true, Option.some.injEq] at hx
        rw [← hx, hw _ _ (by simp; omega)]; omega
  · intro x hx
    cases c with
    | none => simp [Arrays.outIs] at hx
    | some c =>
      have := h.2.2 c rfl
      cases b with
      | none => simp [Arrays.outIs] at hx; rw [← hx]; omega
      | some b =>
        simp only [Arrays.outIs, Option.map_some, Option.isSome_some, if_true, Option.some.injEq] at hx
        rw [← hx, hw _ _ (by simp; omega)]; omega

/-! ## The preparations -/

lemma countZeros_spec : ∀ (w A : List ℤ) (i : ℤ), i = A.length →
    countZeros (A ++ w) w.length i = .ok (i + (stripZeros w).1) := by
  intro w
  induction w with
  | nil => intro A i _; simp [countZeros, stripZeros]
  | cons a w ih =>
    intro A i hi
    rw [List.length_cons, countZeros, rd_mid A w a i hi, Res.ok_bind]
    by_cases ha : a = 0
    · subst ha
      simp only [stripZeros, if_true]
      rw [show A ++ 0 :: w = (A ++ [0]) ++ w by simp, ih (A ++ [0]) (i + 1) (by simp [hi])]
      push_cast; congr 1; ring
    · simp [stripZeros, ha]

lemma skipZeros_spec : ∀ (w A : List ℤ) (i : ℤ), i = A.length → (stripZeros w).2 ≠ [] →
    skipZeros (A ++ w) w.length i = .ok (i + (stripZeros w).1) := by
  intro w
  induction w with
  | nil => intro A i _ h; exact absurd rfl h
  | cons a w ih =>
    intro A i hi hne
    rw [List.length_cons, skipZeros, rd_mid A w a i hi, Res.ok_bind]
    by_cases ha : a = 0
    · subst ha
      simp only [stripZeros, if_true] at hne ⊢
      rw [show A ++ 0 :: w = (A ++ [0]) ++ w by simp, ih (A ++ [0]) (i + 1) (by simp [hi]) hne]
      push_cast; congr 1; ring
    · simp [stripZeros, ha]

lemma negOddFrom_spec : ∀ (l A : List ℤ) (n : ℕ) (i len : ℤ), i = A.length + 1 → len = A.length + l.length →
    l.length ≤ n → negOddFrom n i len (A ++ l) = .ok (A ++ negOdd l)
  | [], A, n, i, len, hi, hl, _ => by
    cases n with
    | zero => rfl
    | succ n => rw [negOddFrom, if_neg (by simp at hl; omega)]; rfl
  | [a], A, n, i, len, hi, hl, _ => by
    cases n with
    | zero => rfl
    | succ n => rw [negOddFrom, if_neg (by simp at hl; omega)]; rfl
  | a :: b :: l, A, n, i, len, hi, hl, hn => by
    cases n with
    | zero => simp at hn
    | succ n =>
      simp only [List.length_cons] at hl hn
      have e : ∀ x, A ++ a :: x :: l = (A ++ [a]) ++ x :: l := by simp
      rw [negOddFrom, if_pos (by push_cast at hl; omega), e b, rd_mid (A ++ [a]) l b i (by simp [hi]), Res.ok_bind,
        wr_mid (A ++ [a]) l b _ i (by simp [hi]), Res.ok_bind,
        show (A ++ [a]) ++ (-b) :: l = (A ++ [a, -b]) ++ l by simp,
        negOddFrom_spec l (A ++ [a, -b]) n (i + 2) len (by simp [hi]; ring) (by simp [hl]; push_cast; ring) (by omega)]
      simp [negOdd]

lemma negOdd_length : ∀ p : List ℤ, (negOdd p).length = p.length
  | [] => rfl
  | [_] => rfl
  | _ :: _ :: p => by simp [negOdd, negOdd_length p]

lemma mem_negOdd : ∀ (p : List ℤ) (x : ℤ), x ∈ negOdd p → x ∈ p ∨ -x ∈ p
  | [], x, h => .inl h
  | [a], x, h => .inl h
  | a :: b :: p, x, h => by
    simp only [negOdd, List.mem_cons] at h ⊢
    rcases h with h | h | h
    · exact .inl (.inl h)
    · right; right; left; rw [h]; ring
    · rcases mem_negOdd p x h with h | h
      · exact .inl (.inr (.inr h))
      · exact .inr (.inr (.inr h))

lemma InMemory.negOdd {p : List ℤ} (h : InMemory p) : InMemory (negOdd p) := by
  refine ⟨by rw [negOdd_length]; exact h.1, fun x hx => ?_⟩
  rcases mem_negOdd p x hx with h' | h'
  · exact h.2 x h'
  · have := h.2 _ h'; rwa [Int.natAbs_neg] at this

lemma InMemory.strip {p : List ℤ} (h : InMemory p) : InMemory (stripZeros p).2 := by
  have e := stripZeros_split p
  refine ⟨?_, fun x hx => h.2 x ?_⟩
  · have := congrArg List.length e
    simp only [List.length_append, List.length_replicate] at this
    have := h.1; omega
  rw [e]; exact List.mem_append_right _ hx

lemma scale_ne_zero (F : Scale2) {p : List ℤ} (hp : toPoly p ≠ 0) (k : ℤ) : toPoly (F.scale p k) ≠ 0 := by
  obtain ⟨m, hm⟩ := F.toPoly_scale p k
  rw [hm]
  refine mul_ne_zero (C_ne_zero.2 (two_zpow_pos m).ne') ?_
  have := comp_aff_ne_zero hp (two_zpow_pos k).ne' 0
  simpa using this

/-- The number of roots found in one half. -/
noncomputable def posCount (F : Scale2) (f0 : ℤ) (p : List ℤ) : ℕ :=
  match rootUpperBound f0 p with
  | none => 0
  | some k => rootCount (toPoly (F.scale p k)) (Set.Ico 0 1)

/-- the number of all roots found -/
noncomputable def allCount (F : Scale2) (f0 : ℤ) (pol : List ℤ) : ℕ :=
  (stripZeros pol).1 + posCount F f0 (stripZeros pol).2 + posCount F f0 (negOdd (stripZeros pol).2)

lemma window_all (p : List ℤ) (len : ℤ) (hl : len = p.length) : window p 0 len = .ok p := by
  have := window_mid [] p [] 0 len rfl hl
  simpa using this

lemma fill_all (p q : List ℤ) (hl : q.length = p.length) : fill p 0 q = .ok q := by
  have := fill_mid [] p q [] 0 rfl hl
  simpa using this

lemma inPlace_all (f : List ℤ → List ℤ) (p : List ℤ) (len : ℤ) (hl : len = p.length)
    (hf : (f p).length = p.length) : inPlace f p 0 len = .ok (f p) := by
  have := inPlace_mid f [] p [] 0 len rfl hl hf
  simpa using this

lemma rootBound_all (f0 : ℤ) (hf : |f0| ≤ 2 ^ 60) (junk : ℕ → List ℤ) (hj : ∀ n, (junk n).length = n)
    (w : List ℤ) (hm : InMemory w) (hw : w ≠ []) (len : ℤ) (hl : len = w.length) :
    rootBound f0 junk w 0 len = .ok (encB (rootUpperBound f0 w)) ∧
      ∀ k, rootUpperBound f0 w = some k → k ≠ wordMin := by
  obtain ⟨h1, h2⟩ := rootBound_spec f0 hf junk hj [] w [] hm hw 0 len rfl hl
  rw [List.nil_append, List.append_nil] at h1
  refine ⟨h1, fun k hk => ?_⟩
  have := abs_le.1 (h2 k hk)
  unfold wordMin; omega

/-- **The isolation, index by index**: with arrays that have room for all roots, every access is inside
the arrays and the arrays end up with what the list-level function returns. -/
theorem isolate_spec (F : Scale2) (f0 : ℤ) (hf : |f0| ≤ 2 ^ 60) (junk : ℕ → List ℤ)
    (hj : ∀ n, (junk n).length = n) (fuel : ℕ) (o : Out) (pol : List ℤ) (hp : toPoly pol ≠ 0)
    (hm : InMemory pol) (h : Room o 0 0 (allCount F f0 pol)) :
    isolate F f0 junk fuel o pol =
      (isolateRealRoots F f0 fuel pol).bind fun q => .ok (outIs o 0 0 q.1 q.2) := by
  have hne : pol ≠ [] := by rintro rfl; exact hp rfl
  unfold isolate isolateRealRoots
  rw [if_neg hne, if_neg hne]
  have hz := countZeros_spec pol [] 0 rfl
  rw [List.nil_append, zero_add] at hz
  simp only [Res.pure_eq]
  rw [hz, Res.ok_bind]
  have hsplit := stripZeros_split pol
  have hwne := stripZeros_ne_nil hp
  have hmw := InMemory.strip hm
  have hpw : toPoly (stripZeros pol).2 ≠ 0 := by
    intro h0; apply hp
    rw [hsplit, toPoly_replicate_append, h0, mul_zero]
  have hpn : toPoly (negOdd (stripZeros pol).2) ≠ 0 := by
    rw [toPoly_negOdd]
    have := comp_aff_ne_zero hpw (a := -1) (by norm_num) 0
    simpa using this
  unfold allCount at h
  generalize hzn : (stripZeros pol).1 = z at *
  generalize hwn : (stripZeros pol).2 = w at *
  have hlen : (pol.length : ℤ) - z = w.length := by rw [hsplit]; simp
  rw [hlen]
  have hwin : window pol z w.length = .ok w := by
    have := window_mid (List.replicate z 0) w [] z w.length (by simp) rfl
    rw [List.append_nil, ← hsplit] at this
    exact this
  rw [hwin, Res.ok_bind, fill_all _ w (by simp [vecInit]), Res.ok_bind]
  have hneg := negOddFrom_spec w [] w.length 1 w.length rfl (by simp) le_rfl
  rw [List.nil_append, List.nil_append] at hneg
  rw [Int.toNat_natCast, hneg, Res.ok_bind]
  have hnn : negOdd w ≠ [] := by
    intro h0
    have := negOdd_length w
    rw [h0] at this
    exact hwne (List.length_eq_zero_iff.1 this.symm)
  obtain ⟨hb1, hb2⟩ := rootBound_all f0 hf junk hj (negOdd w) (InMemory.negOdd hmw) hnn w.length
    (by rw [negOdd_length])
  obtain ⟨hb3, hb4⟩ := rootBound_all f0 hf junk hj w hmw hwne w.length rfl
  rw [hb1, Res.ok_bind]
  -- what remains after the negative roots
  have hrest : ∀ (p : List ℤ) (E : List ℚ) (I : List (ℤ × ℤ)), p.length = w.length →
      E.length + I.length ≤ posCount F f0 (negOdd w) →
      (do
        let out ← putZeros (outIs o 0 0 E I) z
        let p ← fill p 0 w
        let k ← rootBound f0 junk p 0 w.length
        if k ≠ wordMin then do
          let p ← inPlace (F.scale · k) p 0 w.length
          let out ← isolateUnit F fuel out p w.length
          let out ← posIntervals out (I.length : ℤ) k
          posExact out ((E.length : ℤ) + z) k
        else Res.ok out) =
      (isolatePos F f0 fuel w).bind fun pos =>
        .ok (outIs o 0 0 (E ++ List.replicate z 0 ++ pos.1) (I ++ pos.2)) := by
    intro p E I hpl hEI
    rw [putZeros_spec o E I _ z h (by omega), Res.ok_bind, fill_all p w hpl.symm, Res.ok_bind,
      hb3, Res.ok_bind]
    unfold isolatePos
    cases hk : rootUpperBound f0 w with
    | none => simp [encB, Res.bind]
    | some k =>
      dsimp only
      rw [show encB (some k) = k from rfl, if_pos (hb4 k hk), inPlace_all (F.scale · k) w w.length rfl (F.length_scale _ _), Res.ok_bind]
      have hpc : posCount F f0 w = rootCount (toPoly (F.scale w k)) (Set.Ico 0 1) := by
        unfold posCount; rw [hk]
      have hroom := h.outIs (E ++ List.replicate z 0) I (rootCount (toPoly (F.scale w k)) (Set.Ico 0 1))
        (by simp; omega)
      rw [isolateUnit_spec F (F.scale w k) (scale_ne_zero F hpw k) _ (E ++ List.replicate z 0).length I.length
        (by simp [outIs]) (by simp [outIs]) hroom fuel w.length (by rw [F.length_scale])]
      rcases isolate01_safe F fuel _ (scale_ne_zero F hpw k) with hr | ⟨q, hr⟩
      · rw [hr]; rfl
      · rw [hr]
        simp only [Res.bind, Res.ok_bind]
        rw [outIs_outIs, posIntervals_spec o _ I q.2 _ k rfl, Res.ok_bind,
          posExact_spec o (E ++ List.replicate z 0) q.1 _ _ k (by simp)]
  cases hk : rootUpperBound f0 (negOdd w) with
  | none =>
    rw [if_neg (by simp [encB])]
    simp only [Res.ok_bind]
    have h0 : ({ o with nExact := 0, nIv := 0 } : Out) = outIs o 0 0 [] [] := by
      have := outIs_nil { o with nExact := 0, nIv := 0 } 0 0 rfl rfl
      rw [← this]; rfl
    rw [h0]
    have := hrest (negOdd w) [] [] (negOdd_length w) (by simp)
    simp only [List.length_nil, Nat.cast_zero] at this
    rw [this]
    have hip : isolatePos F f0 fuel (negOdd w) = .ok ([], []) := by unfold isolatePos; rw [hk]
    rw [hip]
    simp only [Res.bind]
    rcases isolatePos F f0 fuel w with q | _ | _ | _ | _ <;> simp [Res.bind]
  | some k =>
    rw [show encB (some k) = k from rfl, if_pos (hb2 k hk)]
    rw [inPlace_all (F.scale · k) (negOdd w) w.length (by rw [negOdd_length]) (F.length_scale _ _), Res.ok_bind]
    have hpc : posCount F f0 (negOdd w) = rootCount (toPoly (F.scale (negOdd w) k)) (Set.Ico 0 1) := by
      unfold posCount; rw [hk]
    have hroom : Room { o with nExact := 0, nIv := 0 } 0 0
        (rootCount (toPoly (F.scale (negOdd w) k)) (Set.Ico 0 1)) := by
      have := h.mono (r' := rootCount (toPoly (F.scale (negOdd w) k)) (Set.Ico 0 1)) (by omega)
      exact this
    rw [isolateUnit_spec F (F.scale (negOdd w) k) (scale_ne_zero F hpn k) _ 0 0 rfl rfl hroom fuel w.length
      (by rw [F.length_scale, negOdd_length])]
    have hip : isolatePos F f0 fuel (negOdd w) = (isolate01 F fuel (F.scale (negOdd w) k)).bind fun r =>
        .ok (r.1.map (mul2exp · k), r.2.map fun I => (I.1, I.2 + k)) := by unfold isolatePos; rw [hk]
    rw [hip]
    rcases isolate01_safe F fuel _ (scale_ne_zero F hpn k) with hr | ⟨q, hr⟩
    · rw [hr]; rfl
    · have hcount := (isolate01_ok F fuel _ (scale_ne_zero F hpn k) q hr).count
      rw [hr]
      simp only [Res.bind, Res.ok_bind]
      have hout : outIs { o with nExact := 0, nIv := 0 } 0 0 q.1 q.2 = outIs o 0 0 q.1 q.2 := rfl
      rw [hout, negIntervals_spec, Res.ok_bind, negExact_spec o q.1 _ _ k (by simp [outIs]), Res.ok_bind]
      simp only [Res.ok_bind]
      have := hrest (F.scale (negOdd w) k) (q.1.map fun e => -mul2exp e k).reverse
        (q.2.map fun I => (-(I.1 + 1), I.2 + k)).reverse (by rw [F.length_scale, negOdd_length])
        (by simp; omega)
      simp only [List.length_reverse, List.length_map] at this
      have e1 : (outIs o 0 0 q.1 q.2).nIv = (q.2.length : ℤ) := by simp [outIs]
      have e2 : (outIs o 0 0 q.1 q.2).nExact = (q.1.length : ℤ) := by simp [outIs]
      rw [e1, e2, this]
      rcases isolatePos F f0 fuel w with q' | _ | _ | _ | _ <;> simp [Res.bind, Function.comp_def]

end EAntic.Arrays
