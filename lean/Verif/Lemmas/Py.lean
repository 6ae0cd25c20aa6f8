import Verif.Spec.Py
import Verif.Lemmas.PyText
import Verif.Lemmas.AddFmpq
import Verif.Lemmas.CxxDerived
import Verif.Lemmas.Make

/-! # Lemmas on the Python layer -/

namespace EAntic.Py
open Polynomial Text

/-! ## Fields -/

lemma toPolyQ_concat (l : List ℤ) (a : ℤ) : toPolyQ (l ++ [a]) = toPolyQ l + C (a : ℚ) * X ^ l.length := by
  induction l with
  | nil => simp [toPolyQ]
  | cons b l ih =>
    rw [List.cons_append, toPolyQ, ih, toPolyQ, List.length_cons, pow_succ]; ring

lemma leadingCoeff_concat {l : List ℤ} {a : ℤ} (ha : a ≠ 0) {den : ℤ} (hd : den ≠ 0) :
    ((⟨l ++ [a], den⟩ : QPoly).toPolyQ).leadingCoeff = (a : ℚ) / den := by
  have ha' : (a : ℚ) ≠ 0 := by exact_mod_cast ha
  rw [QPoly.toPolyQ, leadingCoeff_mul, leadingCoeff_C, toPolyQ_concat, leadingCoeff_add_of_degree_lt,
    leadingCoeff_C_mul_X_pow]
  · ring
  · rw [degree_C_mul_X_pow _ ha']
    exact toPolyQ_natDegree_lt le_rfl

lemma coeff_zero_cons (b : ℤ) (l : List ℤ) (den : ℤ) :
    ((⟨b :: l, den⟩ : QPoly).toPolyQ).coeff 0 = (b : ℚ) / den := by
  rw [QPoly.toPolyQ, toPolyQ]; simp; ring

variable {AA : Type} {S : Sage AA} {B : BallText} {val : AA → ℝ}

lemma findRoot_right (hS : S.Ok B val) (hB : B.Encloses) {b : Ball} {n : ℕ} {α : ℝ} (hα : α ∈ b)
    {as : List AA} (ha : ∃ a ∈ as, val a = α) (ps : List ℤ) (hps : ∀ p ∈ ps, 2 ≤ p) :
    (∃ a, findRoot S B (B.text b n) as ps = .ok a ∧ val a = α) ∨
      (∃ e, findRoot S B (B.text b n) as ps = .throw e) ∧ ∀ p ∈ ps, ∀ e,
        B.read (B.text b n) p = some e → 
          ¬ ∃ a, as.filter (fun a => (S.ball p a).overlaps e) = [a] := by
  induction ps with
  | nil => exact .inr ⟨⟨_, rfl⟩, by simp⟩
  | cons p ps ih =>
    have hp := hps p (by simp)
    obtain ⟨e, he, hmem⟩ := hB b n p hp
    obtain ⟨a, haas, hav⟩ := ha
    have hin : a ∈ as.filter fun a => (S.ball p a).overlaps e :=
      List.mem_filter.2 ⟨haas, Ball.overlaps_of_mem (hav ▸ hS.ball p a hp) (hmem α hα)⟩
    rw [findRoot, he]
    simp only
    cases hf : as.filter fun a => (S.ball p a).overlaps e with
    | nil => rw [hf] at hin; cases hin
    | cons a' l =>
      cases l with
      | nil =>
        left
        rw [hf, List.mem_singleton] at hin
        exact ⟨a', rfl, hin ▸ hav⟩
      | cons c l =>
        simp only
        rcases ih fun q hq => hps q (List.mem_cons_of_mem _ hq) with h | ⟨h1, h2⟩
        · exact .inl h
        · refine .inr ⟨h1, fun q hq e' he' => ?_⟩
          rcases List.mem_cons.1 hq with rfl | hq
          · rw [he] at he'
            obtain rfl := Option.some.inj he'
            rw [hf]; simp
          · exact h2 q hq e' he'

lemma pretty_no_comma {var : List Char} (hv : IsVarname var) (num : List ℤ) (den : ℤ) :
    ∀ c ∈ pretty var num den, c ≠ ',' := by
  have hb : ∀ q i, ∀ c ∈ bodyText var q i, c ≠ ',' := by
    intro q i c hc
    have habs : ∀ c ∈ absStr q, c ≠ ',' := by
      rintro c hc rfl
      obtain ⟨d, l, h1, h2, h3⟩ := absStr_numeral q
      rw [h1] at hc
      rcases List.mem_cons.1 hc with rfl | hc
      · exact absurd h2 (by decide)
      · rcases h3 _ hc with h | h
        · exact absurd h (by decide)
        · exact absurd h (by decide)
    have hvar : ∀ c ∈ var, c ≠ ',' := by
      rintro c hc rfl
      obtain ⟨d, l, rfl, h1, h2⟩ := hv
      rcases List.mem_cons.1 hc with rfl | hc
      · exact absurd h1 (by decide)
      · exact absurd (h2 _ hc) (by decide)
    have hdig : ∀ n, ∀ c ∈ Nat.toDigits 10 n, c ≠ ',' := by
      rintro n c hc rfl
      exact absurd (toDigits_isDigit n _ hc) (by decide)
    rw [bodyText] at hc
    by_cases hi : i = 0
    · rw [if_pos hi] at hc; exact habs c hc
    · rw [if_neg hi] at hc
      rcases List.mem_append.1 hc with hc | hc
      · rcases List.mem_append.1 hc with hc | hc
        · split_ifs at hc
          · cases hc
          · rcases List.mem_append.1 hc with hc | hc
            · exact habs c hc
            · rw [List.mem_singleton.1 hc]; decide
        · exact hvar c hc
      · split_ifs at hc
        · cases hc
        · rcases List.mem_cons.1 hc with rfl | hc
          · decide
          · exact hdig _ c hc
  have hr : ∀ sp f l, ∀ c ∈ render var sp f l, c ≠ ',' := by
    intro sp f l
    induction l generalizing f with
    | nil => intro c hc; cases hc
    | cons a l ih =>
      intro c hc
      rw [render] at hc
      rcases List.mem_append.1 hc with hc | hc
      · rcases List.mem_append.1 hc with hc | hc
        · unfold signText at hc
          split_ifs at hc <;> (rintro rfl; exact absurd hc (by decide))
        · exact hb _ _ c hc
      · exact ih _ c hc
  intro c hc
  unfold pretty at hc
  cases hd : descTerms den 0 num with
  | nil => rw [hd] at hc; rw [List.mem_singleton.1 hc]; decide
  | cons t ts => rw [hd] at hc; exact hr _ _ _ c hc

lemma not_varname_minus (var : List Char) : ¬ IsVarname ('-' :: var) := by
  rintro ⟨c, l, h, h1, -⟩
  obtain rfl : '-' = c := (List.cons.inj h).1
  exact absurd h1 (by decide)

lemma split_pol {l : List ℤ} (hl : 2 ≤ l.length) : ∃ b m a, l = (b :: m) ++ [a] := by
  obtain ⟨r, a, rfl⟩ : ∃ r a, l = r ++ [a] :=
    ⟨l.dropLast, l.getLast (by rintro rfl; simp at hl), (List.dropLast_append_getLast _).symm⟩
  cases r with
  | nil => simp at hl
  | cons b m => exact ⟨b, m, a, rfl⟩

/-- The conversion of a field: the field itself, or an exception; and when which. -/
theorem normalize_spec (hS : S.Ok B val) (hB : B.Encloses) (hP : PlainBalls B) {k : NamedField} {α : ℝ}
    (hc : (⟨k.field.nf.pol, k.den⟩ : QPoly).Canonical) (hl : 2 ≤ k.field.nf.pol.length)
    (hmax : k.field.nf.pol.length ≤ longMax)
    (hv : IsVarname k.name) (hα : aeval α k.poly = 0) (hαe : α ∈ k.field.emb)
    (hX : k.field.nf.pol.length = 2 ∨ k.poly.coeff 0 ≠ 0) :
    (Convertible k.poly ∧ ∃ p, polyOf p = k.poly ∧
      ((∃ a, normalize S B (fieldRepr B k) = .ok ⟨p, k.name, a⟩ ∧ val a = α) ∨
      (∃ e, normalize S B (fieldRepr B k) = .throw e) ∧ ∀ q ∈ [(53 : ℤ), 64, 128, 256], ∀ e,
        B.read (B.text k.field.emb 64) q = some e →
          ¬ ∃ a, (S.roots p).filter (fun a => (S.ball q a).overlaps e) = [a])) ∨
    (¬ Convertible k.poly ∧ ∃ e, normalize S B (fieldRepr B k) = .throw e) := by
  obtain ⟨b, m, a, hpol⟩ := split_pol hl
  have hden : k.den ≠ 0 := hc.den_pos.ne'
  have ha : a ≠ 0 := by
    have := hc.lead (by simp [hpol])
    simpa [hpol] using this
  have hden' : (k.den : ℚ) ≠ 0 := by exact_mod_cast hden
  have hlead : k.poly.leadingCoeff = (a : ℚ) / k.den := by
    unfold NamedField.poly; rw [hpol]; exact leadingCoeff_concat ha hden
  have hc0 : k.poly.coeff 0 = (b : ℚ) / k.den := by
    unfold NamedField.poly; rw [hpol]; exact coeff_zero_cons b _ _
  have hconv : Convertible k.poly ↔
      (0 < (a : ℚ) / k.den ∧ ((a : ℚ) / k.den).den = 1 ∧ b :: m ≠ [0]) := by
    unfold Convertible
    rw [hlead, hc0]
    have : (b : ℚ) / k.den ≠ 0 ↔ b :: m ≠ [0] := by
      rw [hc0] at hX
      simp only [ne_eq, div_eq_zero_iff, hden', or_false, Int.cast_eq_zero] at hX ⊢
      rw [hpol] at hX
      constructor
      · intro h h'; exact h (List.cons.inj h').1
      · intro h h'
        rcases hX with hX | hX
        · have : m = [] := by simpa using hX
          exact h (by rw [h', this])
        · exact hX h'
    rw [this]
  have hfm : reMatch true fieldPattern (fieldRepr B k) =
      some [pretty k.name k.field.nf.pol k.den, B.text k.field.emb 64] :=
    field_match (pretty_ne hv _ _) (hP _ _).1 (pretty_no_comma hv _ _) (hP _ _).2
  obtain ⟨g1, g2⟩ := var_match hv (l := b :: m) (by simp) ha hden
  rw [← hpol] at g1 g2
  unfold normalize
  rw [hfm]
  simp only
  by_cases hcv : Convertible k.poly
  · left
    refine ⟨hcv, ?_⟩
    rw [g1 (hconv.1 hcv)]
    obtain ⟨p, hp1, hp2⟩ := hS.read k.name _ _ hv hc hmax
    have hp2 : polyOf p = k.poly := hp2
    refine ⟨p, hp2, ?_⟩
    simp only
    rw [hp1]
    have hne : polyOf p ≠ 0 := by
      rw [hp2]; intro h0
      have := hcv.1
      rw [h0] at this; simp at this
    have hr := (hS.roots p hne α).1 (by rw [hp2]; exact hα)
    rcases findRoot_right hS hB (n := 64) hαe hr [53, 64, 128, 256]
      (by intro q hq; simp at hq; omega) with ⟨x, hx, hv⟩ | ⟨⟨e, he⟩, hn⟩
    · left
      refine ⟨x, ?_, hv⟩
      simp only [Res.ok_bind]
      rw [hx]; rfl
    · right
      refine ⟨⟨e, ?_⟩, hn⟩
      simp only [Res.ok_bind]
      rw [he]; rfl
  · right
    refine ⟨hcv, ?_⟩
    rcases g2 fun h => hcv (hconv.2 h) with h | h
    · rw [h]; exact ⟨_, rfl⟩
    · rw [h]
      simp only
      obtain ⟨e, he⟩ := hS.badName ('-' :: k.name) (pretty k.name k.field.nf.pol k.den)
        (not_varname_minus _)
      rw [he]
      exact ⟨e, rfl⟩

lemma sageRepr_reads {R : List Char → Option ℚ} (hR : RatReader R) (var : List Char) (l : List ℚ)
    (hl : l.length ≤ longMax) : Reads R var (sageRepr var l) (polyOf l) := by
  have h := reads_of_terms hR var (Text.canonical l).1 (Text.canonical l).2 ?_ true
  · have := (Text.canonical_spec l).2
    rw [QPoly.toPolyQ] at this
    rw [this] at h
    exact h
  · have : (Text.canonical l).1.length ≤ l.length := by
      simp only [Text.canonical, Text.common, List.length_map]
      exact (List.rdropWhile_prefix _ _).length_le
    omega

lemma irreducible_coeff_zero {k : NamedField} (hc : (⟨k.field.nf.pol, k.den⟩ : QPoly).Canonical)
    (hl : 2 ≤ k.field.nf.pol.length) (hi : Irreducible k.poly) :
    k.field.nf.pol.length = 2 ∨ k.poly.coeff 0 ≠ 0 := by
  by_contra hcon
  push Not at hcon
  obtain ⟨h2, h0⟩ := hcon
  have hX : (X : ℚ[X]) ∣ k.poly := X_dvd_iff.2 h0
  have hass := (irreducible_X (R := ℚ)).associated_of_dvd hi hX
  have hdeg : k.poly.natDegree = 1 := by
    rw [← natDegree_eq_of_degree_eq (degree_eq_degree_of_associated hass), natDegree_X]
  obtain ⟨b, m, a, hpol⟩ := split_pol hl
  have hden : (k.den : ℚ) ≠ 0 := by exact_mod_cast hc.den_pos.ne'
  have ha : (a : ℚ) ≠ 0 := by
    have := hc.lead (by simp [hpol])
    have : a ≠ 0 := by simpa [hpol] using this
    exact_mod_cast this
  have hn : k.poly.natDegree = (b :: m).length := by
    unfold NamedField.poly QPoly.toPolyQ
    rw [hpol, natDegree_C_mul (by simpa using hden), toPolyQ_concat, natDegree_add_eq_right_of_degree_lt,
      natDegree_C_mul_X_pow _ _ ha]
    rw [degree_C_mul_X_pow _ ha]
    exact toPolyQ_natDegree_lt le_rfl
  rw [hpol] at h2
  simp only [List.length_append, List.length_cons, List.length_nil] at h2 hn
  omega

/-! ## Elements -/

section
open Cxx

variable {L : Lib} {γ : ℕ → ℝ} {I : ℕ → Field → Prop} {Λ : Set ℕ} {St : Reg → Slot} {w : World}
  {U : Prop} {T : String → World → Prop}

lemma polyOf_map_div (l : List ℤ) (d : ℤ) :
    polyOf (l.map fun z : ℤ => (z : ℚ) / d) = (⟨l, d⟩ : QPoly).toPolyQ := by
  unfold QPoly.toPolyQ
  induction l with
  | nil => simp [polyOf, toPolyQ]
  | cons a l ih =>
    rw [List.map_cons, polyOf, ih, toPolyQ, mul_add, ← C_mul, show (a : ℚ) / d = 1 / d * a by ring]
    ring

lemma polyOf_coeff (l : List ℚ) (i : ℕ) : (polyOf l).coeff i = l.getD i 0 := by
  induction l generalizing i with
  | nil => simp [polyOf]
  | cons c l ih =>
    rw [polyOf, coeff_add]
    cases i with
    | zero => simp
    | succ i => rw [coeff_C_succ, mul_comm, coeff_mul_X, ih]; simp

lemma polyOf_degree (l : List ℚ) : (polyOf l).degree < l.length := by
  rw [degree_lt_iff_coeff_zero]
  intro i hi
  rw [polyOf_coeff, List.getD_eq_default _ _ hi]

lemma polyOf_inj {l l' : List ℚ} (hl : l.length = l'.length) (h : polyOf l = polyOf l') : l = l' := by
  refine List.ext_getElem hl fun i h1 h2 => ?_
  have := congrArg (fun P : ℚ[X] => P.coeff i) h
  simp only [polyOf_coeff] at this
  rwa [List.getD_eq_getElem _ _ h1, List.getD_eq_getElem _ _ h2] at this

lemma polyOf_pad (l : List ℚ) (n : ℕ) : polyOf (l ++ List.replicate n 0) = polyOf l := by
  induction l with
  | nil =>
    induction n with
    | zero => rfl
    | succ n ih =>
      rw [List.nil_append] at ih
      show C 0 + X * polyOf (List.replicate n 0) = polyOf []
      rw [ih]; simp [polyOf]
  | cons a l ih => rw [List.cons_append, polyOf, ih, polyOf]

lemma value_div (α : ℝ) (l : List ℤ) (d : ℤ) :
    value α (l.map fun z : ℤ => (z : ℚ) / d) = realValue α l d := by
  rw [value, polyOf_map_div, realValue_eq]; rfl

theorem fromSage_good (hE : ∀ i, FieldInv (L.E i) (γ i) (I i)) {x : Reg} (k : ℕ) {l : List ℚ}
    (h : Cxx.Rep L γ I Λ St w) (hx : St x = .absent) (hl : l.length ≤ (L.K k).degree) :
    Good U T (fun _ w' => Cxx.Rep L γ I Λ (Function.update St x (.elem k (value (γ k) l))) w')
      (fromSage L x k l w) := by
  have := constructVec_good hE (U := U) (T := T) k h hx (n := (common l).1) (d := (common l).2)
    (by simpa [common] using hl) (common_pos l)
  rw [common_val] at this
  exact this

theorem toSage_good (hE : ∀ i, FieldInv (L.E i) (γ i) (I i)) {x : Reg} {i : ℕ} {a : ℝ}
    (h : Cxx.Rep L γ I Λ St w) (hx : St x = .elem i a) :
    Good U T (fun l w' => (l.length = (L.K i).degree ∧ value (γ i) l = a) ∧ Cxx.Rep L γ I Λ St w')
      (toSage L x (L.K i).degree w) := by
  unfold toSage
  refine Good.bind (numVector_good hE h hx) ?_
  rintro c w₁ ⟨⟨h1, d, h2, h3⟩, h₁, -⟩
  refine Good.bind (den_good hE h₁ hx) ?_
  rintro d' w₂ ⟨h4, h₂, -⟩
  have hd : d' = d := by
    obtain ⟨⟨l, hl, k1⟩, k2⟩ := h3
    obtain ⟨⟨l', hl', k1'⟩, k2'⟩ := h4
    exact (Int.dvd_antisymm k1.1.le k1'.1.le (k2 l' d' hl' k1') (k2' l d hl k1)).symm
  subst hd
  refine Good.pure ⟨⟨by simp [h1], ?_⟩, h₂⟩
  rw [value, polyOf_pad]
  exact (value_div (γ i) c d').trans h2.2.symm

theorem richcmp_good (hE : ∀ i, FieldInv (L.E i) (γ i) (I i)) (hU : U) {x y : Reg} {i : ℕ} {a b : ℝ}
    (h : Cxx.Rep L γ I Λ St w) (hx : St x = .elem i a) (hy : St y = .elem i b) (op : Rel) :
    Good U T (fun r w' => (r = true ↔ op.Holds a b) ∧ Cxx.Rep L γ I Λ St w') (richcmp L x y op w) := by
  unfold richcmp
  refine Good.bind (lt_good hE hU h hx hy fun h => absurd (.inl rfl) h) ?_
  rintro r w₁ ⟨-, h1, h₁⟩
  split_ifs with hr
  · have hlt := h1.1 hr
    refine Good.pure ⟨?_, h₁⟩
    cases op <;> simp [richToBool, Rel.Holds, hlt, hlt.ne, hlt.le, hlt.not_gt, hlt.not_ge]
  · have hnlt : ¬ a < b := fun h => hr (h1.2 h)
    refine Good.bind (eq_good hE h₁ hx hy fun h => absurd (.inl rfl) h) ?_
    rintro r' w₂ ⟨-, h2, h₂⟩
    split_ifs with hr'
    · have heq := h2.1 hr'
      refine Good.pure ⟨?_, h₂⟩
      cases op <;> simp [richToBool, Rel.Holds, heq]
    · have hne : a ≠ b := fun h => hr' (h2.2 h)
      have hgt : b < a := lt_of_le_of_ne (not_lt.1 hnlt) hne.symm
      refine Good.pure ⟨?_, h₂⟩
      cases op <;> simp [richToBool, Rel.Holds, hgt, hne, hgt.le, hgt.not_gt, hgt.not_ge]

theorem rational_good (hE : ∀ i, FieldInv (L.E i) (γ i) (I i)) {x : Reg} {i : ℕ} {a : ℝ}
    (h : Cxx.Rep L γ I Λ St w) (hx : St x = .elem i a) :
    Good U (fun e w' => ¬ IsRat a ∧ e = "not a rational number" ∧ Cxx.Rep L γ I Λ St w')
      (fun q w' => a = (q : ℚ) ∧ Cxx.Rep L γ I Λ St w') (rational L x w) := by
  unfold rational
  refine Good.bind (isRational_good hE h hx) ?_
  rintro r w₁ ⟨h1, h₁, -⟩
  split_ifs with hr
  · exact (toMpq_good hE h₁ hx (h1.1 hr)).mono fun q w' h => ⟨h.1, h.2.1⟩
  · exact ⟨fun h => hr (h1.2 h), rfl, h₁⟩

theorem integer_good (hE : ∀ i, FieldInv (L.E i) (γ i) (I i)) {x : Reg} {i : ℕ} {a : ℝ}
    (h : Cxx.Rep L γ I Λ St w) (hx : St x = .elem i a) :
    Good U (fun e w' => ¬ IsInt a ∧ e = "not an integer" ∧ Cxx.Rep L γ I Λ St w')
      (fun z w' => a = (z : ℤ) ∧ Cxx.Rep L γ I Λ St w') (integer L x w) := by
  unfold integer
  refine Good.bind (isInteger_good hE h hx) ?_
  rintro r w₁ ⟨h1, h₁, -⟩
  split_ifs with hr
  · obtain ⟨z, hz⟩ := h1.1 hr
    refine Good.bind ((rational_good (U := U) hE h₁ hx).weaken id ?_) ?_
    · rintro e w' ⟨h2, -⟩
      exact absurd ⟨(z : ℚ), by rw [hz]; simp⟩ h2
    · rintro q w₂ ⟨h2, h₂⟩
      refine Good.pure ⟨?_, h₂⟩
      have : (q : ℝ) = ((z : ℚ) : ℝ) := by rw [← h2, hz]; simp
      have : q = z := by exact_mod_cast this
      rw [this, hz]; simp
  · exact ⟨fun h => hr (h1.2 h), rfl, h₁⟩

lemma polyOf_polyList (l : List ℚ) : polyOf (polyList l) = polyOf l := by
  unfold polyList
  induction l using List.reverseRecOn with
  | nil => rfl
  | append_singleton l a ih =>
    rw [List.rdropWhile_concat]
    split_ifs with h
    · have ha : a = 0 := by simpa using h
      subst ha
      rw [ih]
      exact (polyOf_pad l 1).symm
    · rfl

theorem reload_good (hE : ∀ i, FieldInv (L.E i) (γ i) (I i)) {x y : Reg} {i : ℕ} {a : ℝ}
    (h : Cxx.Rep L γ I Λ St w) (hx : St x = .elem i a) (hy : St y = .absent) :
    Good U T (fun _ w' => Cxx.Rep L γ I Λ (Function.update St y (.elem i a)) w')
      (reload L x y i (L.K i).degree w) := by
  unfold reload
  refine Good.bind (toSage_good hE h hx) ?_
  rintro l w₁ ⟨⟨h1, h2⟩, h₁⟩
  have := fromSage_good (U := U) (T := T) hE (x := y) i (l := polyList l) h₁ hy
    (((List.rdropWhile_prefix _ _).length_le).trans h1.le)
  rw [value, polyOf_polyList] at this
  rw [← h2]
  exact this

end

end EAntic.Py
