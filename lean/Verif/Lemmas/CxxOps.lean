import Verif.Lemmas.Cxx
import Mathlib.Data.List.DropRight

/-! # The C++ elements: every function -/

namespace EAntic.Cxx

variable {β γ : Type} {U : Prop} {T : String → World → Prop}
variable {L : Lib} {α : ℕ → ℝ} {I : ℕ → Field → Prop} {Λ : Set ℕ} {S : Reg → Slot} {w : World}
variable (hE : ∀ i, FieldInv (L.E i) (α i) (I i))
include hE

/-! ## Queries without loops -/

/-- a C function that looks at one element -/
theorem read_good {x : Reg} {i : ℕ} {a : ℝ} (h : Rep L α I Λ S w) (hx : S x = .elem i a)
    {m : ∀ i : ℕ, Reg → M β} {g : Elem → β} (hg : ∀ r s, m i r s = .ok (g (s.heap r), s))
    {Q : β → Prop} (hq : ∀ e : Elem, e.elem.Wf (L.K i) → e.elem.val (α i) = a → Q (g e)) :
    Good U T (fun r w' => Q r ∧ Rep L α I Λ S w' ∧ w'.obj = w.obj) (call1 L x m w) := by
  refine query_good hE h hx ?_
  intro v c hv s hs
  rw [hg]
  exact ⟨hs, hq _ (hs.wf _) (by rw [hs.val, hv])⟩

theorem isZero_good {x : Reg} {i : ℕ} {a : ℝ} (h : Rep L α I Λ S w) (hx : S x = .elem i a) :
    Good U T (fun b w' => (b = true ↔ a = 0) ∧ Rep L α I Λ S w' ∧ w'.obj = w.obj) (isZero L x w) :=
  read_good hE h hx (g := fun e => e.elem.isZero (L.K i)) (fun _ _ => rfl)
    (Q := fun b => b = true ↔ a = 0)
    fun e he hv => by rw [isZero_iff (hE i).ok (hE i).root he, hv]

theorem isOne_good {x : Reg} {i : ℕ} {a : ℝ} (h : Rep L α I Λ S w) (hx : S x = .elem i a) :
    Good U T (fun b w' => (b = true ↔ a = 1) ∧ Rep L α I Λ S w' ∧ w'.obj = w.obj) (isOne L x w) :=
  read_good hE h hx (g := fun e => e.elem.isOne (L.K i)) (fun _ _ => rfl)
    (Q := fun b => b = true ↔ a = 1)
    fun e he hv => by rw [isOne_iff (hE i).ok (hE i).root he, hv]

theorem isInteger_good {x : Reg} {i : ℕ} {a : ℝ} (h : Rep L α I Λ S w) (hx : S x = .elem i a) :
    Good U T (fun b w' => (b = true ↔ IsInt a) ∧ Rep L α I Λ S w' ∧ w'.obj = w.obj)
      (isInteger L x w) :=
  read_good hE h hx (g := fun e => e.elem.isInteger (L.K i)) (fun _ _ => rfl)
    (Q := fun b => b = true ↔ IsInt a)
    fun e he hv => by rw [isInteger_iff (hE i).ok (hE i).root he, hv, IsInt]

theorem isRational_good {x : Reg} {i : ℕ} {a : ℝ} (h : Rep L α I Λ S w) (hx : S x = .elem i a) :
    Good U T (fun b w' => (b = true ↔ IsRat a) ∧ Rep L α I Λ S w' ∧ w'.obj = w.obj)
      (isRational L x w) :=
  read_good hE h hx (g := fun e => e.elem.isRational (L.K i)) (fun _ _ => rfl)
    (Q := fun b => b = true ↔ IsRat a)
    fun e he hv => by rw [isRational_iff (hE i).ok (hE i).root he, hv, IsRat]

theorem equalQ_good {x : Reg} {i : ℕ} {a : ℝ} (h : Rep L α I Λ S w) (hx : S x = .elem i a) (q : ℚ) :
    Good U T (fun b w' => (b = true ↔ a = q) ∧ Rep L α I Λ S w' ∧ w'.obj = w.obj)
      (call1 L x (fun i r => (L.E i).equalQ r q) w) :=
  read_good hE h hx (g := fun e => e.elem.equalQ (L.K i) q) (fun _ _ => rfl)
    (Q := fun b => b = true ↔ a = q)
    fun e he hv => by rw [equalQ_iff (hE i).ok (hE i).root he, hv]

/-- `x` is a rational number with first numerator `n` and denominator `d` -/
theorem rational_parts {i : ℕ} {e : NfElem} (he : e.Wf (L.K i)) (hr : IsRat (e.val (α i))) :
    e.val (α i) = ((e.num.getD 0 0 : ℤ) : ℝ) / (e.den : ℝ) :=
  val_of_rational (hE i).ok (hE i).root he ((isRational_iff (hE i).ok (hE i).root he).2 hr)

theorem integer_den {i : ℕ} {e : NfElem} (he : e.Wf (L.K i)) (hr : IsInt (e.val (α i))) :
    e.den = 1 := by
  have := (isInteger_iff (hE i).ok (hE i).root he).2 hr
  exact ((isInteger_struct).1 this).2

theorem getFmpz_good {x : Reg} {i : ℕ} {a : ℝ} (h : Rep L α I Λ S w) (hx : S x = .elem i a)
    (ha : IsInt a) :
    Good U T (fun (z : ℤ) w' => a = z ∧ Rep L α I Λ S w' ∧ w'.obj = w.obj) (getFmpz L x w) := by
  refine read_good hE h hx (g := fun e => if (L.K i).isLinear then e.elem.raw0
    else if (L.K i).isQuadratic then e.elem.raw0
    else if e.elem.num.length = 0 then 0 else e.elem.raw0) ?_ (Q := fun z => a = z) ?_
  · intro r s
    show (if (L.K i).isLinear = true then (pure (s.heap r).elem.raw0 : M ℤ)
      else if (L.K i).isQuadratic = true then pure (s.heap r).elem.raw0
      else if (s.heap r).elem.num.length = 0 then pure 0 else pure (s.heap r).elem.raw0) s = _
    split_ifs <;> rfl
  · intro e he hv
    have hv' : IsInt (e.elem.val (α i)) := by rw [hv]; exact ha
    have hrat : IsRat (e.elem.val (α i)) := by
      obtain ⟨z, hz⟩ := hv'; exact ⟨z, by rw [hz]; simp⟩
    have h1 := rational_parts hE he hrat
    rw [integer_den hE he hv', hv] at h1
    have h2 : a = ((e.elem.num.getD 0 0 : ℤ) : ℝ) := by simpa using h1
    have key : ∀ n, (e.elem.num ≠ [] → n = e.elem.raw0) → (e.elem.num = [] → n = 0) → a = (n : ℝ) := by
      intro n h3 h4
      by_cases hn : e.elem.num = []
      · rw [h4 hn, h2, hn]; simp
      · rw [h3 hn, raw0_eq hn, h2]
    apply key
    · intro hn
      have : e.elem.num.length ≠ 0 := by simpa using hn
      simp [this]
    · intro hn
      have h3 := num_ne_nil he
      split_ifs with hl hq
      · exact absurd hn (h3 (.inl hl))
      · exact absurd hn (h3 (.inr (.inl hq)))
      · rfl
      · rename_i h0; simp [hn] at h0

theorem getFmpq_good {x : Reg} {i : ℕ} {a : ℝ} (h : Rep L α I Λ S w) (hx : S x = .elem i a)
    (ha : IsRat a) :
    Good U T (fun (q : ℚ) w' => a = q ∧ Rep L α I Λ S w' ∧ w'.obj = w.obj) (getFmpq L x w) := by
  refine read_good hE h hx (g := fun e => if (L.K i).isLinear then (e.elem.raw0 : ℚ) / e.elem.den
    else (e.elem.num.getD 0 0 : ℚ) / e.elem.den) ?_ (Q := fun q : ℚ => a = q) ?_
  · intro r s
    show (if (L.K i).isLinear = true then
        (pure (((s.heap r).elem.raw0 : ℚ) / (s.heap r).elem.den) : M ℚ)
      else pure (((s.heap r).elem.num.getD 0 0 : ℚ) / (s.heap r).elem.den)) s = _
    split_ifs <;> rfl
  · intro e he hv
    have h1 := rational_parts hE he (by rw [hv]; exact ha)
    rw [hv] at h1
    show a = ((if (L.K i).isLinear then (e.elem.raw0 : ℚ) / e.elem.den
      else (e.elem.num.getD 0 0 : ℚ) / e.elem.den : ℚ) : ℝ)
    split_ifs with hl
    · rw [h1, raw0_eq (num_ne_nil he (.inl hl))]; push_cast; rfl
    · rw [h1]; push_cast; rfl

omit hE in
theorem Good.assert {b : Bool} {f : Unit → W γ} {Q : γ → World → Prop} (hb : b = true)
    (hf : Good U T Q (f () w)) : Good U T Q ((W.assert L b >>= f) w) := by
  subst hb; exact hf

theorem toMpz_good {x : Reg} {i : ℕ} {a : ℝ} (h : Rep L α I Λ S w) (hx : S x = .elem i a)
    (ha : IsInt a) :
    Good U T (fun (z : ℤ) w' => a = z ∧ Rep L α I Λ S w' ∧ w'.obj = w.obj) (toMpz L x w) := by
  unfold toMpz
  refine Good.bind (isInteger_good hE h hx) ?_
  rintro b w₁ ⟨hb, h₁, ho⟩
  refine Good.assert (hb.2 ha) ?_
  exact (getFmpz_good hE h₁ hx ha).mono fun z w₂ h₂ => ⟨h₂.1, h₂.2.1, by rw [h₂.2.2, ho]⟩

theorem toMpq_good {x : Reg} {i : ℕ} {a : ℝ} (h : Rep L α I Λ S w) (hx : S x = .elem i a)
    (ha : IsRat a) :
    Good U T (fun (q : ℚ) w' => a = q ∧ Rep L α I Λ S w' ∧ w'.obj = w.obj) (toMpq L x w) := by
  unfold toMpq
  refine Good.bind (isZero_good hE h hx) ?_
  rintro b w₁ ⟨hb, h₁, ho⟩
  split_ifs with hz
  · exact Good.pure ⟨by rw [hb.1 hz]; simp, h₁, ho⟩
  · refine Good.bind (isRational_good hE h₁ hx) ?_
    rintro b' w₂ ⟨hb', h₂, ho'⟩
    refine Good.assert (hb'.2 ha) ?_
    refine (read_good hE h₂ hx (g := fun e => (e.elem.raw0 : ℚ) / e.elem.den) (fun _ _ => rfl)
      (Q := fun q : ℚ => a = q) ?_).mono
      fun q w₃ h₃ => ⟨h₃.1, h₃.2.1, by rw [h₃.2.2, ho', ho]⟩
    intro e he hv
    have h1 := rational_parts hE he (by rw [hv]; exact ha)
    rw [hv] at h1
    have hn : e.elem.num ≠ [] := by
      intro h0
      rw [h0] at h1
      exact hz (hb.2 (by simpa using h1))
    rw [raw0_eq hn, h1]; push_cast; rfl

/-- reading the storage of an element -/
theorem readElem_good {x : Reg} {i c : ℕ} {a : ℝ} (h : Rep L α I Λ S w) (hx : S x = .elem i a)
    (hc : w.obj x = some ⟨some i, c⟩) :
    Good U T (fun e w' => (e.elem.Wf (L.K i) ∧ e.elem.val (α i) = a) ∧ Rep L α I Λ S w' ∧
      w'.obj = w.obj) (call L i [c] (M.read (.user c)) w) := by
  have := read_good hE h hx (m := fun _ r => M.read r) (g := fun e => e) (fun _ _ => rfl)
    (Q := fun e => e.elem.Wf (L.K i) ∧ e.elem.val (α i) = a) (U := U) (T := T)
    fun e he hv => ⟨he, hv⟩
  unfold call1 at this
  have e : (W.obj x >>= fun o => W.deref o.nf >>= fun i => call L i [o.cell] (M.read (.user o.cell))) w
      = call L i [c] (M.read (.user c)) w := by
    rw [W.bind_def]; simp only [W.bind, W.obj, hc]; rfl
  rw [e] at this
  exact this

theorem num_good {x : Reg} {i : ℕ} {a : ℝ} (h : Rep L α I Λ S w) (hx : S x = .elem i a)
    (ha : IsRat a) :
    Good U T (fun z w' => (∃ q : ℚ, a = q ∧ z = q.num) ∧ Rep L α I Λ S w' ∧ w'.obj = w.obj)
      (num L x w) := by
  obtain ⟨c, hc, hh⟩ := h.find hx
  unfold num
  refine Good.obj hc (Good.deref ?_)
  refine Good.bind (readElem_good hE h hx hc) ?_
  rintro e w₁ ⟨⟨he, hv⟩, h₁, ho⟩
  obtain ⟨q, hq⟩ := ha
  have hparts := (NfElem.val_rat (hE i).ok (hE i).root he q).1 (by rw [hv, hq])
  have key : e.elem.num ≠ [] → e.elem.raw0 = q.num := fun hn => by rw [raw0_eq hn, hparts.2.1]
  split_ifs with hl hqd h0
  · exact Good.pure ⟨⟨q, hq, key (num_ne_nil he (.inl hl))⟩, h₁, ho⟩
  · refine Good.assert ?_ (Good.pure ⟨⟨q, hq, key (num_ne_nil he (.inr (.inl hqd)))⟩, h₁, ho⟩)
    simpa using hparts.2.2 1 le_rfl
  · refine Good.pure ⟨⟨q, hq, ?_⟩, h₁, ho⟩
    have : e.elem.num = [] := by simpa using h0
    rw [← hparts.2.1, this]; simp
  · have hn : e.elem.num ≠ [] := by simpa using h0
    refine Good.assert ?_ (Good.pure ⟨⟨q, hq, key hn⟩, h₁, ho⟩)
    have hlast := (he.generic (by simpa using hl) (by simpa using hqd)).2 hn
    rw [getLastD_getD] at hlast
    have : ¬ 1 ≤ e.elem.num.length - 1 := fun h1 => hlast (hparts.2.2 _ h1)
    have : e.elem.num.length ≠ 0 := h0
    simp; omega

/-! ### Coordinates -/

omit hE in
theorem realValue_congr {l l' : List ℤ} (h : ∀ i, l.getD i 0 = l'.getD i 0) (x : ℝ) (d : ℤ) :
    realValue x l d = realValue x l' d := by
  unfold realValue
  have : toPoly l = toPoly l' := by
    ext i; rw [toPoly_coeff, toPoly_coeff, h]
  rw [this]

theorem isDen_of_wf {i : ℕ} {e : NfElem} (he : e.Wf (L.K i)) :
    IsDen (α i) (L.K i).degree (e.val (α i)) e.den := by
  refine ⟨⟨e.num ++ List.replicate ((L.K i).degree - e.num.length) 0, ?_, he.den_pos, ?_⟩, ?_⟩
  · have := NfElem.num_length_le (hE i).ok he
    simp; omega
  · refine realValue_congr (fun j => ?_) _ _
    rcases Nat.lt_or_ge j e.num.length with hj | hj
    · rw [List.getD_append _ _ _ _ hj]
    · rw [List.getD_append_right _ _ _ _ hj, List.getD_eq_default _ _ hj]
      rcases Nat.lt_or_ge (j - e.num.length) ((L.K i).degree - e.num.length) with h2 | h2
      · rw [List.getD_replicate _ h2]
      · rw [List.getD_eq_default _ _ (by simpa using h2)]
  · rintro l d' hlen ⟨hd', hv⟩
    rw [NfElem.val_eq, realValue_eq] at hv
    have hp := polyQ_inj (hE i).ok (hE i).root (NfElem.polyQ_degree (hE i).ok he) ?_ hv
    · refine den_dvd he.coprime fun a ha => ?_
      obtain ⟨j, _, rfl⟩ := mem_getD ha
      have := congrArg (fun P => P.coeff j) hp
      simp only [NfElem.polyQ, Polynomial.coeff_C_mul, coeff_toPolyQ] at this
      have hdq : (e.den : ℚ) ≠ 0 := by exact_mod_cast he.den_pos.ne'
      have hdq' : (d' : ℚ) ≠ 0 := by exact_mod_cast hd'.ne'
      field_simp at this
      have h2 : ((d' * e.num.getD j 0 : ℤ) : ℚ) = ((e.den * l.getD j 0 : ℤ) : ℚ) := by
        push_cast; linarith
      have h3 : d' * e.num.getD j 0 = e.den * l.getD j 0 := by exact_mod_cast h2
      rw [h3]; exact dvd_mul_right _ _
    · refine lt_of_le_of_lt ?_ (toPolyQ_natDegree_lt (n := (L.K i).degree) hlen.le)
      rw [← Polynomial.smul_eq_C_mul]; exact Polynomial.degree_smul_le _ _

theorem den_good {x : Reg} {i : ℕ} {a : ℝ} (h : Rep L α I Λ S w) (hx : S x = .elem i a) :
    Good U T (fun d w' => IsDen (α i) (L.K i).degree a d ∧ Rep L α I Λ S w' ∧ w'.obj = w.obj)
      (den L x w) :=
  read_good hE h hx (g := fun e => e.elem.den) (fun _ _ => rfl)
    (Q := fun d => IsDen (α i) (L.K i).degree a d)
    fun e he hv => by rw [← hv]; exact isDen_of_wf hE he

omit hE in
theorem normalise_getD (l : List ℤ) (i : ℕ) : (normalise l).getD i 0 = l.getD i 0 := by
  unfold normalise
  induction l using List.reverseRecOn with
  | nil => rfl
  | append_singleton l a ih =>
    rw [List.rdropWhile_concat]
    split_ifs with h
    · have ha : a = 0 := by simpa using h
      subst ha
      rw [ih]
      rcases Nat.lt_or_ge i l.length with hi | hi
      · rw [List.getD_append _ _ _ _ hi]
      · rw [List.getD_append_right _ _ _ _ hi, List.getD_eq_default _ _ hi]
        cases i - l.length <;> simp
    · rfl

omit hE in
theorem pad_getD (l : List ℤ) (n i : ℕ) : (l ++ List.replicate n 0).getD i 0 = l.getD i 0 := by
  rcases Nat.lt_or_ge i l.length with hj | hj
  · rw [List.getD_append _ _ _ _ hj]
  · rw [List.getD_append_right _ _ _ _ hj, List.getD_eq_default _ _ hj]
    rcases Nat.lt_or_ge (i - l.length) n with h2 | h2
    · rw [List.getD_replicate _ h2]
    · rw [List.getD_eq_default _ _ (by simpa using h2)]

/-- the coordinates that `numVector` returns -/
theorem coords_of_wf {i : ℕ} {e : NfElem} (he : e.Wf (L.K i)) :
    let l := normalise e.num ++ List.replicate ((L.K i).degree - (normalise e.num).length) 0
    l.length = (L.K i).degree ∧ HasCoords (α i) (e.val (α i)) l e.den ∧
      ∀ j, l.getD j 0 = e.num.getD j 0 := by
  have hlen : (normalise e.num).length ≤ (L.K i).degree :=
    ((List.rdropWhile_prefix _ _).length_le).trans (NfElem.num_length_le (hE i).ok he)
  have hg : ∀ j, (normalise e.num ++
      List.replicate ((L.K i).degree - (normalise e.num).length) 0).getD j 0 = e.num.getD j 0 :=
    fun j => by rw [pad_getD, normalise_getD]
  refine ⟨?_, ⟨he.den_pos, ?_⟩, hg⟩
  · simp; omega
  · exact realValue_congr (fun j => (hg j).symm) _ _

theorem numVector_good {x : Reg} {i : ℕ} {a : ℝ} (h : Rep L α I Λ S w) (hx : S x = .elem i a) :
    Good U T (fun l w' => (l.length = (L.K i).degree ∧ ∃ d, HasCoords (α i) a l d ∧
      IsDen (α i) (L.K i).degree a d) ∧ Rep L α I Λ S w' ∧ w'.obj = w.obj) (numVector L x w) :=
  read_good hE h hx (g := fun e => normalise e.elem.num ++
      List.replicate ((L.K i).degree - (normalise e.elem.num).length) 0) (fun _ _ => rfl)
    (Q := fun l => l.length = (L.K i).degree ∧ ∃ d, HasCoords (α i) a l d ∧
      IsDen (α i) (L.K i).degree a d)
    fun e he hv => by
      have := coords_of_wf hE he
      rw [← hv]
      exact ⟨this.1, e.elem.den, this.2.1, isDen_of_wf hE he⟩

omit hE in
theorem content_dvd {l : List ℤ} {a : ℤ} (h : a ∈ l) : (NfElem.content l : ℤ) ∣ a := by
  induction l with
  | nil => simp at h
  | cons b l ih =>
    have e : NfElem.content (b :: l) = Int.gcd b (NfElem.content l : ℤ) := rfl
    rw [e]
    rcases List.mem_cons.1 h with rfl | h
    · exact Int.gcd_dvd_left ..
    · exact dvd_trans (Int.gcd_dvd_right ..) (ih h)

omit hE in
theorem dvd_content {l : List ℤ} {g : ℤ} (h : ∀ a ∈ l, g ∣ a) : g ∣ (NfElem.content l : ℤ) := by
  have := dvd_mul_content (d := g) (m := 1) (l := l) fun a ha => by simpa using h a ha
  simpa using this

theorem numContent_good {x : Reg} {i : ℕ} {a : ℝ} (h : Rep L α I Λ S w) (hx : S x = .elem i a) :
    Good U T (fun g w' => (∃ l d, l.length = (L.K i).degree ∧ HasCoords (α i) a l d ∧
      IsDen (α i) (L.K i).degree a d ∧ 0 ≤ g ∧ (∀ n ∈ l, g ∣ n) ∧
      ∀ g' : ℤ, (∀ n ∈ l, g' ∣ n) → g' ∣ g) ∧ Rep L α I Λ S w' ∧ w'.obj = w.obj)
      (numContent L x w) := by
  obtain ⟨c, hc, hh⟩ := h.find hx
  unfold numContent
  refine Good.obj hc (Good.deref ?_)
  refine Good.bind (readElem_good hE h hx hc) ?_
  rintro e w₁ ⟨⟨he, hv⟩, h₁, ho⟩
  have key : ∀ g : ℤ, g = NfElem.content e.elem.num → Good U T (fun g w' =>
      (∃ l d, l.length = (L.K i).degree ∧ HasCoords (α i) a l d ∧
      IsDen (α i) (L.K i).degree a d ∧ 0 ≤ g ∧ (∀ n ∈ l, g ∣ n) ∧
      ∀ g' : ℤ, (∀ n ∈ l, g' ∣ n) → g' ∣ g) ∧ Rep L α I Λ S w' ∧ w'.obj = w.obj)
      ((pure g : W ℤ) w₁) := by
    intro g hg
    obtain ⟨h1, h2, h3⟩ := coords_of_wf hE he (α := α)
    refine Good.pure ⟨⟨_, e.elem.den, h1, ?_, ?_, ?_, ?_, ?_⟩, h₁, ho⟩
    · rw [← hv]; exact h2
    · rw [← hv]; exact isDen_of_wf hE he
    · rw [hg]; positivity
    · intro n hn
      obtain ⟨j, _, rfl⟩ := mem_getD hn
      rw [h3, hg]
      rcases Nat.lt_or_ge j e.elem.num.length with hj | hj
      · rw [List.getD_eq_getElem _ _ hj]
        exact content_dvd (List.getElem_mem hj)
      · rw [List.getD_eq_default _ _ hj]; exact dvd_zero _
    · intro g' hg'
      rw [hg]
      refine dvd_content fun n hn => ?_
      obtain ⟨j, _, rfl⟩ := mem_getD hn
      rw [← h3 j]
      set l := normalise e.elem.num ++
        List.replicate ((L.K i).degree - (normalise e.elem.num).length) 0
      rcases Nat.lt_or_ge j l.length with hj | hj
      · rw [List.getD_eq_getElem _ _ hj]
        exact hg' _ (List.getElem_mem hj)
      · rw [List.getD_eq_default _ _ hj]; exact dvd_zero _
  split_ifs with hl hneg hq
  · obtain ⟨n, hn⟩ := List.length_eq_one_iff.1 (he.linear hl)
    refine key _ ?_
    have hr : e.elem.raw0 = n := by simp [NfElem.raw0, hn]
    rw [hr] at hneg ⊢
    rw [hn]
    simp only [NfElem.content, List.foldr, Int.gcd_zero_right, Nat.cast_zero]
    omega
  · obtain ⟨n, hn⟩ := List.length_eq_one_iff.1 (he.linear hl)
    refine key _ ?_
    have hr : e.elem.raw0 = n := by simp [NfElem.raw0, hn]
    rw [hr] at hneg ⊢
    rw [hn]
    simp only [NfElem.content, List.foldr, Int.gcd_zero_right, Nat.cast_zero]
    omega
  · obtain ⟨n, m, hn⟩ := List.length_eq_two.1 (he.quadratic hq)
    refine key _ ?_
    rw [hn]
    simp [NfElem.content, Int.gcd]
  · exact key _ rfl

end EAntic.Cxx
