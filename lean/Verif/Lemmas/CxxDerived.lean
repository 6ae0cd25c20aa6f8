import Verif.Lemmas.CxxExec

/-! # The C++ elements: operators derived by Boost -/

namespace EAntic.Cxx

variable {β : Type} {U : Prop} {T : String → World → Prop}
variable {L : Lib} {α : ℕ → ℝ} {I : ℕ → Field → Prop} {Λ : Set ℕ} {S : Reg → Slot} {w : World}

theorem wnot_good {m : W Bool} {P Q : Prop} {R : Bool → World → Prop}
    (h : Good U T (fun r w' => (r = true ↔ P) ∧ R r w') (m w)) (hq : Q ↔ ¬ P)
    (hR : ∀ r w', R r w' → R (!r) w') :
    Good U T (fun r w' => (r = true ↔ Q) ∧ R r w') (wnot m w) := by
  refine Good.bind h ?_
  rintro b w₁ ⟨hb, h₁⟩
  refine Good.pure ⟨?_, hR _ _ h₁⟩
  rw [Bool.not_eq_true', ← Bool.not_eq_true, hb, hq]

variable (hE : ∀ i, FieldInv (L.E i) (α i) (I i)) (hb : L.bits.Ok)
include hE

section
include hb

theorem constructNum_good {x : Reg} {n : Num} (h : Rep L α I Λ S w) (hx : S x = .absent)
    (hn : n.Has L.bits) :
    Good U T (fun _ w' => Rep L α I Λ (Function.update S x (.elem 0 n.val)) w')
      (constructNum L x n w) := by
  cases n with
  | int t z =>
    show Good U T _ (constructInt L x 0 t z w)
    unfold constructInt
    rw [native_eq hb hn]
    simpa [Num.val] using constructZ_good hE 0 z h hx
  | mpz z => simpa [Num.val, constructNum] using constructZ_good hE 0 z h hx
  | mpq q => exact constructQ_good hE 0 q h hx

theorem binopNum_good (f : BinK) {x : Reg} {i : ℕ} {a : ℝ} {n : Num} (h : Rep L α I Λ S w)
    (hx : S x = .elem i a) (hn : n.Has L.bits) (hz : f = .div → n.val ≠ 0) :
    Good U T (fun _ w' => Rep L α I Λ (Function.update S x (.elem i (f.real a n.val))) w')
      (binopNum L f x n w) := by
  cases n with
  | int t z =>
    show Good U T _ (binopInt L f x t z w)
    unfold binopInt
    rw [native_eq hb hn]
    simpa [Num.val] using binopZ_good hE f h hx (z := z) (by simpa [Num.val] using hz)
  | mpz z =>
    simpa [Num.val, binopNum] using binopZ_good hE f h hx (z := z) (by simpa [Num.val] using hz)
  | mpq q => exact binopQ_good hE f h hx hz

theorem eqNum_good {x : Reg} {i : ℕ} {a : ℝ} {n : Num} (h : Rep L α I Λ S w)
    (hx : S x = .elem i a) (hn : n.Has L.bits) :
    Good U T (fun b w' => (b = true ↔ a = n.val) ∧ Rep L α I Λ S w') (eqNum L x n w) := by
  cases n with
  | int t z =>
    show Good U T _ (eqInt L x t z w)
    unfold eqInt
    rw [native_eq hb hn]
    simp only [Num.val, Rat.cast_intCast]
    split_ifs with h0
    · rw [h0.2, Int.cast_zero]
      exact (isZero_good hE h hx).mono fun _ _ h => ⟨h.1, h.2.1⟩
    · exact eqZ_good hE h hx z _
  | mpz z => simpa [Num.val, eqNum] using eqZ_good hE h hx z true
  | mpq q => exact eqQ_good hE h hx q

theorem ltNum_good (hU : U) {x : Reg} {i : ℕ} {a : ℝ} {n : Num} (h : Rep L α I Λ S w)
    (hx : S x = .elem i a) (hn : n.Has L.bits) :
    Good U T (fun b w' => (b = true ↔ a < n.val) ∧ Rep L α I Λ S w') (ltNum L x n w) := by
  have key : ∀ q : ℚ, Good U T (fun b w' => (b = true ↔ a < q) ∧ Rep L α I Λ S w')
      (ltQ L x q w) := by
    intro q
    refine Good.bind (cmpQ_good hE hU h hx q) ?_
    rintro z w₁ ⟨rfl, h₁, _⟩
    refine Good.pure ⟨?_, h₁⟩
    rw [beq_iff_eq, sgnR_sign, sgnR_eq_neg_one, sub_neg]
  cases n with
  | int t z =>
    show Good U T _ (ltInt L x t z w)
    unfold ltInt
    rw [native_eq hb hn]
    refine Good.bind (cmpQ_good hE hU h hx z) ?_
    rintro c w₁ ⟨rfl, h₁, _⟩
    refine Good.pure ⟨?_, h₁⟩
    rw [decide_eq_true_eq, sgnR_neg_iff, sub_neg]
    rfl
  | mpz z => exact key z
  | mpq q => exact key q

theorem gtNum_good (hU : U) {x : Reg} {i : ℕ} {a : ℝ} {n : Num} (h : Rep L α I Λ S w)
    (hx : S x = .elem i a) (hn : n.Has L.bits) :
    Good U T (fun b w' => (b = true ↔ n.val < a) ∧ Rep L α I Λ S w') (gtNum L x n w) := by
  have key : ∀ q : ℚ, Good U T (fun b w' => (b = true ↔ q < a) ∧ Rep L α I Λ S w')
      (gtQ L x q w) := by
    intro q
    refine Good.bind (cmpQ_good hE hU h hx q) ?_
    rintro z w₁ ⟨rfl, h₁, _⟩
    refine Good.pure ⟨?_, h₁⟩
    rw [beq_iff_eq, sgnR_sign, sgnR_eq_one, sub_pos]
  cases n with
  | int t z =>
    show Good U T _ (gtInt L x t z w)
    unfold gtInt
    rw [native_eq hb hn]
    refine Good.bind (cmpQ_good hE hU h hx z) ?_
    rintro c w₁ ⟨rfl, h₁, _⟩
    refine Good.pure ⟨?_, h₁⟩
    rw [decide_eq_true_eq, sgnR_pos_iff, sub_pos]
    rfl
  | mpz z => exact key z
  | mpq q => exact key q

theorem binaryNum_good (f : BinK) {r x : Reg} {i : ℕ} {a : ℝ} {n : Num} (h : Rep L α I Λ S w)
    (hr : S r = .absent) (hx : S x = .elem i a) (hn : n.Has L.bits) (hz : f = .div → n.val ≠ 0) :
    Good U T (fun _ w' => Rep L α I Λ (Function.update S r (.elem i (f.real a n.val))) w')
      (binaryNum L f r x n w) := by
  unfold binaryNum
  refine Good.bind (copyCtor_good hE h hr hx) ?_
  intro _ w₁ h₁
  refine unwinding_good (L := L) (α := α) (I := I) (Λ := Λ) (sl := .elem i a) (by simp) hr ?_
  refine (binopNum_good hE hb f h₁ (x := r) (Function.update_self ..) hn hz).mono ?_
  rintro _ w' hrep
  rwa [Function.update_idem] at hrep

theorem numBinary_good (f : BinK) {r y : Reg} {n : Num} {j : ℕ} {b : ℝ} (h : Rep L α I Λ S w)
    (hr : S r = .absent) (hrt : r ≠ .tmp 10) (hy : S y = .elem j b) (hn : n.Has L.bits)
    (h0 : f = .div → b ≠ 0) (ht : S (.tmp 10) = .absent) :
    Good U T (fun _ w' => ∃ k, (if f = .add ∨ f = .mul then k = j else ResultField 0 j b k) ∧
      Rep L α I Λ (Function.update S r (.elem k (f.real n.val b))) w') (numBinary L f r n y w) := by
  have hcomm : f = .add ∨ f = .mul → Good U T
      (fun _ w' => Rep L α I Λ (Function.update S r (.elem j (f.real n.val b))) w')
      (binaryNum L f r y n w) := by
    intro hf
    have e : f.real n.val b = f.real b n.val := by
      rcases hf with rfl | rfl
      · exact add_comm _ _
      · exact mul_comm _ _
    rw [e]
    exact binaryNum_good hE hb f h hr hy hn (by rcases hf with rfl | rfl <;> simp)
  have hleft : Good U T (fun _ w' => ∃ k, ResultField 0 j b k ∧
      Rep L α I Λ (Function.update S r (.elem k (f.real n.val b))) w')
      ((do constructNum L r n; unwinding r (binop L f r y) : W Unit) w) := by
    refine Good.bind (constructNum_good hE hb h hr hn) ?_
    intro _ w₁ h₁
    have hyr : y ≠ r := by rintro rfl; rw [hr] at hy; cases hy
    refine unwinding_good (L := L) (α := α) (I := I) (Λ := Λ) (sl := .elem 0 (n.val : ℝ)) (by simp)
      hr ?_
    refine (binop_good hE f h₁ (x := r) (y := y) (Function.update_self ..)
      (by rw [Function.update_of_ne hyr, hy]) h0 (by rw [Function.update_of_ne hrt.symm, ht])
      fun hn => absurd (.inr ⟨.inl ⟨n.val, rfl⟩, fun _ => .inl rfl⟩) hn).mono ?_
    rintro _ w' ⟨hs, k, hk, hrep⟩
    rw [Function.update_idem] at hrep
    exact ⟨k, hk, hrep⟩
  cases f with
  | add => exact (hcomm (.inl rfl)).mono fun _ _ h => ⟨j, by simp, h⟩
  | mul => exact (hcomm (.inr rfl)).mono fun _ _ h => ⟨j, by simp, h⟩
  | sub => exact hleft.mono fun _ _ ⟨k, h1, h2⟩ => ⟨k, by simpa using h1, h2⟩
  | div => exact hleft.mono fun _ _ ⟨k, h1, h2⟩ => ⟨k, by simpa using h1, h2⟩

theorem relNum_good (o : Rel) (hU : o ≠ .eq ∧ o ≠ .ne → U) {x : Reg} {i : ℕ} {a : ℝ} {n : Num}
    (h : Rep L α I Λ S w) (hx : S x = .elem i a) (hn : n.Has L.bits) :
    Good U T (fun b w' => (b = true ↔ o.Holds a n.val) ∧ Rep L α I Λ S w') (relNum L o x n w) := by
  cases o with
  | eq => exact eqNum_good hE hb h hx hn
  | ne => exact wnot_good (eqNum_good hE hb h hx hn) Iff.rfl fun _ _ h => h
  | lt => exact ltNum_good hE hb (hU ⟨by simp, by simp⟩) h hx hn
  | gt => exact gtNum_good hE hb (hU ⟨by simp, by simp⟩) h hx hn
  | le =>
    exact wnot_good (gtNum_good hE hb (hU ⟨by simp, by simp⟩) h hx hn) not_lt.symm
      (fun _ _ h => h)
  | ge =>
    exact wnot_good (ltNum_good hE hb (hU ⟨by simp, by simp⟩) h hx hn) not_lt.symm
      (fun _ _ h => h)

theorem numRel_good (o : Rel) (hU : o ≠ .eq ∧ o ≠ .ne → U) {x : Reg} {i : ℕ} {a : ℝ} {n : Num}
    (h : Rep L α I Λ S w) (hx : S x = .elem i a) (hn : n.Has L.bits) :
    Good U T (fun b w' => (b = true ↔ o.Holds n.val a) ∧ Rep L α I Λ S w') (numRel L o n x w) := by
  cases o with
  | eq => exact (eqNum_good hE hb h hx hn).mono fun _ _ h => ⟨h.1.trans eq_comm, h.2⟩
  | ne => exact wnot_good (eqNum_good hE hb h hx hn) ne_comm fun _ _ h => h
  | lt => exact gtNum_good hE hb (hU ⟨by simp, by simp⟩) h hx hn
  | gt => exact ltNum_good hE hb (hU ⟨by simp, by simp⟩) h hx hn
  | le =>
    exact wnot_good (ltNum_good hE hb (hU ⟨by simp, by simp⟩) h hx hn) not_lt.symm
      (fun _ _ h => h)
  | ge =>
    exact wnot_good (gtNum_good hE hb (hU ⟨by simp, by simp⟩) h hx hn) not_lt.symm
      (fun _ _ h => h)

end

theorem rel_good (o : Rel) (hU : o ≠ .eq ∧ o ≠ .ne → U) {x y : Reg} {i j : ℕ} {a b : ℝ}
    (h : Rep L α I Λ S w) (hx : S x = .elem i a) (hy : S y = .elem j b)
    (hT : ¬ (i = j ∨ IsRat a ∨ IsRat b) → ∀ s w', Rep L α I Λ S w' → T s w') :
    Good U T (fun r w' => (i = j ∨ IsRat a ∨ IsRat b) ∧ (r = true ↔ o.Holds a b) ∧ Rep L α I Λ S w')
      (rel L o x y w) := by
  have hs : (j = i ∨ IsRat b ∨ IsRat a) ↔ (i = j ∨ IsRat a ∨ IsRat b) := by
    rw [eq_comm, or_comm (a := IsRat b)]
  have heq : Good U T (fun r w' => (r = true ↔ a = b) ∧ (i = j ∨ IsRat a ∨ IsRat b) ∧
      Rep L α I Λ S w') (eq L x y w) :=
    (eq_good hE h hx hy hT).mono fun _ _ h => ⟨h.2.1, h.1, h.2.2⟩
  have hlt : U → Good U T (fun r w' => (r = true ↔ a < b) ∧ (i = j ∨ IsRat a ∨ IsRat b) ∧
      Rep L α I Λ S w') (lt L x y w) := fun hu =>
    (lt_good hE hu h hx hy hT).mono fun _ _ h => ⟨h.2.1, h.1, h.2.2⟩
  have hgt : U → Good U T (fun r w' => (r = true ↔ b < a) ∧ (i = j ∨ IsRat a ∨ IsRat b) ∧
      Rep L α I Λ S w') (lt L y x w) := fun hu =>
    (lt_good hE hu h hy hx fun hn => hT fun h => hn (hs.2 h)).mono
      fun _ _ h => ⟨h.2.1, hs.1 h.1, h.2.2⟩
  suffices H : Good U T (fun r w' => (r = true ↔ o.Holds a b) ∧ (i = j ∨ IsRat a ∨ IsRat b) ∧
      Rep L α I Λ S w') (rel L o x y w) from H.mono fun _ _ h => ⟨h.2.1, h.1, h.2.2⟩
  cases o with
  | eq => exact heq
  | ne => exact wnot_good heq Iff.rfl fun _ _ h => h
  | lt => exact hlt (hU ⟨by simp, by simp⟩)
  | gt => exact hgt (hU ⟨by simp, by simp⟩)
  | le => exact wnot_good (hgt (hU ⟨by simp, by simp⟩)) not_lt.symm fun _ _ h => h
  | ge => exact wnot_good (hlt (hU ⟨by simp, by simp⟩)) not_lt.symm fun _ _ h => h

end EAntic.Cxx
