import Verif.Lemmas.Py
import Verif.Lemmas.PyReal
import Verif.Props.Cxx
import Verif.Props.Make
import Verif.Props.RefineTerm
import Verif.Lemmas.PyDemo

/-!
# C65, C66, C67: the Python layer

`Represents` (what the variables of a program stand for) is in `Spec/Cxx.lean`; `value` (the number with
given coefficients), `Sage.Ok` (what is assumed of SageMath), `Same` and `Convertible` are in
`Spec/Py.lean`.
-/

namespace EAntic.Py
open Polynomial Cxx

private theorem py_returns {β : Type} {Q : β → World → Prop} {r : Out β}
    (h : Good False (fun _ _ => False) Q r) : ∃ a w', r = .ok (a, w') ∧ Q a w' := by
  cases r with
  | ok p => exact ⟨p.1, p.2, rfl, h⟩
  | _ => exact h.elim

/-! ## C65: elements -/

section
variable {L : Lib} {α : ℕ → ℝ} {I : ℕ → Field → Prop} {S : ℕ → Slot} {w : World}

/-- C65.  An element becomes the list of its coefficients: as many as the degree of the field, with the
value of the element.  The element is as before. -/
theorem C65_to_sage (hE : ∀ i, FieldInv (L.E i) (α i) (I i)) (h : Represents L α I S w) {x i : ℕ} {a : ℝ}
    (hx : S x = .elem i a) :
    ∃ l w', toSage L (.user x) (L.K i).degree w = .ok (l, w') ∧ l.length = (L.K i).degree ∧
      value (α i) l = a ∧ Represents L α I S w' := by
  obtain ⟨l, w', h1, ⟨h2, h3⟩, h4⟩ := py_returns (toSage_good hE h (x := .user x) hx)
  exact ⟨l, w', h1, h2, h3, h4⟩

/-- C65.  The coefficients that SageMath has for an element become an element with their value. -/
theorem C65_from_sage (hE : ∀ i, FieldInv (L.E i) (α i) (I i)) (h : Represents L α I S w) {x i : ℕ}
    (hx : S x = .absent) {l : List ℚ} (hl : l.length ≤ (L.K i).degree) :
    ∃ w', fromSage L (.user x) i l w = .ok ((), w') ∧
      Represents L α I (Function.update S x (.elem i (value (α i) l))) w' := by
  obtain ⟨_, w', h1, h2⟩ := py_returns (fromSage_good hE i h (x := .user x) hx hl)
  rw [vars_update] at h2
  exact ⟨w', h1, h2⟩

/-- C65.  Coefficients are determined by the number: the conversions are inverse to each other. -/
theorem C65_coefficients_unique (hE : ∀ i, FieldInv (L.E i) (α i) (I i)) {i : ℕ} {l l' : List ℚ}
    (hl : l.length = (L.K i).degree) (hl' : l'.length = (L.K i).degree)
    (h : value (α i) l = value (α i) l') : l = l' := by
  refine polyOf_inj (hl.trans hl'.symm) (polyQ_inj (hE i).ok (hE i).root ?_ ?_ h)
  · exact hl ▸ polyOf_degree l
  · exact hl' ▸ polyOf_degree l'

/-- C65.  From SageMath to e-antic and back. -/
theorem C65_round_trip (hE : ∀ i, FieldInv (L.E i) (α i) (I i)) (h : Represents L α I S w) {x i : ℕ}
    (hx : S x = .absent) {l : List ℚ} (hl : l.length ≤ (L.K i).degree) :
    ∃ w₁ w₂, fromSage L (.user x) i l w = .ok ((), w₁) ∧
      toSage L (.user x) (L.K i).degree w₁ =
        .ok (l ++ List.replicate ((L.K i).degree - l.length) 0, w₂) := by
  obtain ⟨w₁, h1, h2⟩ := C65_from_sage hE h hx hl
  obtain ⟨l', w₂, h3, h4, h5, -⟩ := C65_to_sage hE h2 (x := x) (Function.update_self _ _ _)
  refine ⟨w₁, w₂, h1, ?_⟩
  rw [h3, C65_coefficients_unique hE (i := i) (l' := l ++ List.replicate ((L.K i).degree - l.length) 0)
    h4 (by simp; omega) ?_]
  rw [h5, value, value, polyOf_pad]

/-- C65.  The comparisons of Python: if one returns, then it is right for the real numbers. -/
theorem C65_richcmp (hE : ∀ i, FieldInv (L.E i) (α i) (I i)) (h : Represents L α I S w) {x y i : ℕ}
    {a b : ℝ} (hx : S x = .elem i a) (hy : S y = .elem i b) (op : Rel) :
    (∀ r w', richcmp L (.user x) (.user y) op w = .ok (r, w') →
      (r = true ↔ op.Holds a b) ∧ Represents L α I S w') ∧
    ∀ e w', richcmp L (.user x) (.user y) op w ≠ .throw e w' := by
  have := richcmp_good (U := True) (T := fun _ _ => False) hE trivial h (x := .user x) (y := .user y) hx
    hy op
  constructor
  · intro r w' he
    rw [he] at this
    exact this
  · intro e w' he
    rw [he] at this
    exact this

/-- C65.  `QQ(x)` is the number, or an exception exactly if `x` is not rational. -/
theorem C65_rational (hE : ∀ i, FieldInv (L.E i) (α i) (I i)) (h : Represents L α I S w) {x i : ℕ} {a : ℝ}
    (hx : S x = .elem i a) :
    (∀ q : ℚ, a = q → ∃ w', rational L (.user x) w = .ok (q, w') ∧ Represents L α I S w') ∧
    (¬ IsRat a → ∃ w', rational L (.user x) w = .throw "not a rational number" w' ∧
      Represents L α I S w') := by
  have := rational_good (U := False) hE h (x := .user x) hx
  constructor
  · intro q hq
    cases hr : rational L (.user x) w with
    | ok p =>
      rw [hr] at this
      obtain ⟨h1, h2⟩ := this
      have : p.1 = q := by rw [hq] at h1; exact_mod_cast h1.symm
      exact ⟨p.2, by rw [← this], h2⟩
    | throw e w' => rw [hr] at this; exact absurd ⟨q, hq⟩ this.1
    | _ => rw [hr] at this; exact this.elim
  · intro hn
    cases hr : rational L (.user x) w with
    | ok p => rw [hr] at this; exact absurd ⟨p.1, this.1⟩ hn
    | throw e w' =>
      rw [hr] at this
      obtain ⟨-, h1, h2⟩ := this
      exact ⟨w', by rw [h1], h2⟩
    | _ => rw [hr] at this; exact this.elim

/-- C65.  `ZZ(x)` is the number, or an exception exactly if `x` is not an integer. -/
theorem C65_integer (hE : ∀ i, FieldInv (L.E i) (α i) (I i)) (h : Represents L α I S w) {x i : ℕ} {a : ℝ}
    (hx : S x = .elem i a) :
    (∀ z : ℤ, a = z → ∃ w', integer L (.user x) w = .ok (z, w') ∧ Represents L α I S w') ∧
    (¬ IsInt a → ∃ w', integer L (.user x) w = .throw "not an integer" w' ∧
      Represents L α I S w') := by
  have := integer_good (U := False) hE h (x := .user x) hx
  constructor
  · intro q hq
    cases hr : integer L (.user x) w with
    | ok p =>
      rw [hr] at this
      obtain ⟨h1, h2⟩ := this
      have : p.1 = q := by rw [hq] at h1; exact_mod_cast h1.symm
      exact ⟨p.2, by rw [← this], h2⟩
    | throw e w' => rw [hr] at this; exact absurd ⟨q, hq⟩ this.1
    | _ => rw [hr] at this; exact this.elim
  · intro hn
    cases hr : integer L (.user x) w with
    | ok p => rw [hr] at this; exact absurd ⟨p.1, this.1⟩ hn
    | throw e w' =>
      rw [hr] at this
      obtain ⟨-, h1, h2⟩ := this
      exact ⟨w', by rw [h1], h2⟩
    | _ => rw [hr] at this; exact this.elim

/-- C65.  Pickling an element and loading it again gives an element with the same value. -/
theorem C65_pickle (hE : ∀ i, FieldInv (L.E i) (α i) (I i)) (h : Represents L α I S w) {x y i : ℕ} {a : ℝ}
    (hx : S x = .elem i a) (hy : S y = .absent) :
    ∃ w', reload L (.user x) (.user y) i (L.K i).degree w = .ok ((), w') ∧
      Represents L α I (Function.update S y (.elem i a)) w' := by
  obtain ⟨_, w', h1, h2⟩ := py_returns (reload_good hE h (x := .user x) (y := .user y) hx hy)
  rw [vars_update] at h2
  exact ⟨w', h1, h2⟩

/-- the hypotheses are met: `∛2 / 3 + 1 / 2` in field 1, made from coefficients of SageMath -/
example : ∃ w, Represents lib gens fine
    (Function.update (fun _ => .absent) 0 (.elem 1 (value cbrt2 [1 / 2, 1 / 3]))) w := by
  obtain ⟨w, -, h⟩ := C65_from_sage lib_inv start_rep (x := 0) (i := 1) (l := [1 / 2, 1 / 3]) rfl
    (by decide)
  exact ⟨w, h⟩

/-- The theorems apply: conversions of 3, of `∛2` and of `(3 + 2 ∛2) / 6`, and a comparison. -/
example : ∃ w, Represents lib gens fine demoSlots w ∧
    (∃ w', rational lib (.user 1) w = .ok (3, w')) ∧
    (∃ w', rational lib (.user 0) w = .throw "not a rational number" w') ∧
    (∃ w', integer lib (.user 1) w = .ok (3, w')) ∧
    (∃ w', integer lib (.user 2) w = .throw "not an integer" w') ∧
    (∃ w', toSage lib (.user 2) 3 w = .ok ([1 / 2, 1 / 3, 0], w')) ∧
    (∀ r w', richcmp lib (.user 2) (.user 0) .lt w = .ok (r, w') → r = true) := by
  obtain ⟨w, hw, -⟩ := demo_world
  obtain ⟨b1, b2⟩ := cbrt2_bounds
  have b3 : cbrt2 < 3 / 2 := lt_of_le_of_ne b2 fun e => by
    have := cbrt2_pow
    rw [e] at this
    norm_num at this
  have h0 : demoSlots 0 = .elem 1 cbrt2 := rfl
  have h1 : demoSlots 1 = .elem 0 3 := rfl
  have h2 : demoSlots 2 = .elem 1 ((3 + 2 * cbrt2) / 6) := rfl
  refine ⟨w, hw, ?_, ?_, ?_, ?_, ?_, ?_⟩
  · obtain ⟨w', h, -⟩ := (C65_rational lib_inv hw h1).1 3 (by norm_num)
    exact ⟨w', h⟩
  · obtain ⟨w', h, -⟩ := (C65_rational lib_inv hw h0).2 cbrt2_irr
    exact ⟨w', h⟩
  · obtain ⟨w', h, -⟩ := (C65_integer lib_inv hw h1).1 3 (by norm_num)
    exact ⟨w', h⟩
  · obtain ⟨w', h, -⟩ := (C65_integer lib_inv hw h2).2 (by
      rintro ⟨z, hz⟩
      have z1 : (0 : ℝ) < z := by rw [← hz]; linarith
      have z2 : (z : ℝ) < 1 := by rw [← hz]; linarith
      have z1 : 0 < z := by exact_mod_cast z1
      have z2 : z < 1 := by exact_mod_cast z2
      omega)
    exact ⟨w', h⟩
  · obtain ⟨l, w', h, h3, h4, -⟩ := C65_to_sage lib_inv hw h2
    have : l = [1 / 2, 1 / 3, 0] := C65_coefficients_unique lib_inv (i := 1) h3 rfl (by
      rw [h4]
      simp [value, Text.polyOf, gens]
      ring)
    exact ⟨w', by rw [← this]; exact h⟩
  · intro r w' h
    exact ((C65_richcmp lib_inv hw h2 h0 .lt).1 r w' h).1.2 (show (3 + 2 * cbrt2) / 6 < cbrt2 by linarith)

end

/-! ## C66: fields -/

section
variable {AA : Type} {S : Sage AA} {B : BallText} {val : AA → ℝ} {k : NamedField} {α : ℝ}

/-- C66.  The number field made from an embedded field has the same polynomial and name and is embedded
at the same root; otherwise there is an exception. -/
theorem C66_sound (hS : S.Ok B val) (hB : B.Encloses) (hP : PlainBalls B)
    (hc : (⟨k.field.nf.pol, k.den⟩ : QPoly).Canonical) (hl : 2 ≤ k.field.nf.pol.length)
    (hmax : k.field.nf.pol.length ≤ Text.longMax) (hi : Irreducible k.poly) (hv : Text.IsVarname k.name)
    (hα : aeval α k.poly = 0) (hαe : α ∈ k.field.emb) :
    (∃ K, normalize S B (fieldRepr B k) = .ok K ∧ Same val k α K) ∨
      ∃ e, normalize S B (fieldRepr B k) = .throw e := by
  rcases normalize_spec hS hB hP hc hl hmax hv hα hαe (irreducible_coeff_zero hc hl hi) with
    ⟨-, p, hp, ⟨a, h1, h2⟩ | ⟨h1, -⟩⟩ | ⟨-, h⟩
  · exact .inl ⟨_, h1, hp, rfl, h2⟩
  · exact .inr h1
  · exact .inr h

/-- C66.  There is no exception, if the leading coefficient is a positive integer, the field is not that
of the polynomial `x`, and at one of the precisions 53, 64, 128, 256 the printed enclosure overlaps with
the ball around no other root. -/
theorem C66_found_partial (hS : S.Ok B val) (hB : B.Encloses) (hP : PlainBalls B)
    (hc : (⟨k.field.nf.pol, k.den⟩ : QPoly).Canonical) (hl : 2 ≤ k.field.nf.pol.length)
    (hmax : k.field.nf.pol.length ≤ Text.longMax) (hi : Irreducible k.poly) (hv : Text.IsVarname k.name)
    (hα : aeval α k.poly = 0) (hαe : α ∈ k.field.emb) (hcon : Convertible k.poly)
    {q : ℤ} (hq : q ∈ [(53 : ℤ), 64, 128, 256]) {e : Ball}
    (he : B.read (B.text k.field.emb 64) q = some e)
    (hsep : ∀ a, aeval (val a) k.poly = 0 → val a ≠ α → (S.ball q a).overlaps e = false) :
    ∃ K, normalize S B (fieldRepr B k) = .ok K ∧ Same val k α K := by
  rcases normalize_spec hS hB hP hc hl hmax hv hα hαe (irreducible_coeff_zero hc hl hi) with
    ⟨-, p, hp, ⟨a, h1, h2⟩ | ⟨-, h1⟩⟩ | ⟨h, -⟩
  · exact ⟨_, h1, hp, rfl, h2⟩
  · refine absurd ?_ (h1 q hq e he)
    have hp0 : Text.polyOf p ≠ 0 := by rw [hp]; exact hi.ne_zero
    obtain ⟨a, ha, hav⟩ := (hS.roots p hp0 α).1 (by rw [hp]; exact hα)
    have h2q : 2 ≤ q := by
      simp only [List.mem_cons, List.not_mem_nil, or_false] at hq; omega
    obtain ⟨e', he', hmem⟩ := hB k.field.emb 64 q h2q
    rw [he] at he'
    cases he'
    have hon := hS.once p
    refine ⟨a, ?_⟩
    have hiff : ∀ b ∈ S.roots p, (S.ball q b).overlaps e = true ↔ b = a := by
      intro b hb
      constructor
      · intro ho
        by_contra hne
        have hvb : val b ≠ α := by
          rw [← hav]
          intro hv
          exact hne (List.inj_on_of_nodup_map hon hb ha hv)
        have hr : aeval (val b) k.poly = 0 := by
          rw [← hp]; exact (hS.roots p hp0 (val b)).2 ⟨b, hb, rfl⟩
        rw [hsep b hr hvb] at ho
        cases ho
      · rintro rfl
        exact Ball.overlaps_of_mem (hav ▸ hS.ball q b h2q) (hmem α hαe)
    classical
    rw [List.filter_congr (q := fun b => decide (b = a)) (by
      intro b hb
      rw [Bool.eq_iff_iff, hiff b hb]; simp)]
    have hnd := List.Nodup.of_map _ hon
    rw [show (fun b => decide (b = a)) = (fun b => b == a) from rfl, List.filter_beq,
      List.count_eq_one_of_mem hnd ha]
    rfl
  · exact absurd hcon h

/-- C66, where the conversion is not possible: whenever the leading coefficient is negative or not an
integer, and for the polynomial `x`, there is an exception. -/
theorem C66_lost (hS : S.Ok B val) (hB : B.Encloses) (hP : PlainBalls B)
    (hc : (⟨k.field.nf.pol, k.den⟩ : QPoly).Canonical) (hl : 2 ≤ k.field.nf.pol.length)
    (hmax : k.field.nf.pol.length ≤ Text.longMax) (hi : Irreducible k.poly) (hv : Text.IsVarname k.name)
    (hα : aeval α k.poly = 0) (hαe : α ∈ k.field.emb) (hcon : ¬ Convertible k.poly) :
    ∃ e, normalize S B (fieldRepr B k) = .throw e := by
  rcases normalize_spec hS hB hP hc hl hmax hv hα hαe (irreducible_coeff_zero hc hl hi) with
    ⟨h, -⟩ | ⟨-, h⟩
  · exact absurd h hcon
  · exact h

end

section
variable {AA : Type} {S : Sage AA} {E : MakeEnv} {val : AA → ℝ}

/-- C66.  The field made from a number field of SageMath: it has the polynomial and the name of the
number field, and it is embedded at the same root if the refinement cannot leave a root (`Secure`, see
C15). -/
theorem C66_init_partial (hS : S.Ok E.B val) (hB : E.B.Wf) (hR : Text.RatReader E.R) {n : ℕ}
    {K : NumberField AA} (hmax : K.poly.length ≤ Text.longMax) (hi : Irreducible (Text.polyOf K.poly))
    (hr : aeval (val K.root) (Text.polyOf K.poly) = 0) {k : NamedField}
    (h : initField S E n K = .ok k) :
    k.poly = Text.polyOf K.poly ∧ (⟨k.field.nf.pol, k.den⟩ : QPoly).Canonical ∧ k.name = K.name ∧
      ((∀ (i : ℕ) e, E.B.read (S.text (64 * 2 ^ i) (S.ball (64 * 2 ^ i) K.root)) (64 * 2 ^ i) = some e →
          Secure E.A k.field.nf.pol (val K.root) E.n₂ e) →
        val K.root ∈ k.field.emb) := by
  obtain ⟨hv, P, i, t, e, h1, h2, h3, h4, h5, -⟩ := C52_make_callback_partial hB h
  have hP : P = Text.polyOf K.poly :=
    Text.C31_unambiguous hv h1 (sageRepr_reads hR K.name K.poly hmax)
  subst hP
  refine ⟨h4.poly, h4.canonical, h4.name, fun hs => ?_⟩
  have h2p : (2 : ℤ) ≤ 64 * 2 ^ i := by
    have : (1 : ℤ) ≤ 2 ^ i := one_le_pow₀ (by norm_num)
    linarith
  cases h2
  obtain ⟨e', he', hm⟩ := hS.text (64 * 2 ^ i) (S.ball (64 * 2 ^ i) K.root) h2p
  rw [h3] at he'
  cases he'
  have hin := hm _ (hS.ball _ K.root h2p)
  exact h5 _ hi hr hin (hs i e h3)

/-- C66, round trip: the number field made from `k`, converted back, is `k` again. -/
theorem C66_round_trip_partial (hS : S.Ok E.B val) (hBe : E.B.Encloses) (hP : PlainBalls E.B)
    (hB : E.B.Wf) (hR : Text.RatReader E.R) {k : NamedField} {α : ℝ}
    (hc : (⟨k.field.nf.pol, k.den⟩ : QPoly).Canonical) (hl : 2 ≤ k.field.nf.pol.length)
    (hmax : k.field.nf.pol.length ≤ Text.longMax) (hi : Irreducible k.poly) (hv : Text.IsVarname k.name)
    (hα : aeval α k.poly = 0) (hαe : α ∈ k.field.emb) {K : NumberField AA}
    (hK : normalize S E.B (fieldRepr E.B k) = .ok K) {n : ℕ} {k' : NamedField} (h : initField S E n K = .ok k') :
    k'.field.nf = k.field.nf ∧ k'.den = k.den ∧ k'.name = k.name ∧
      ((∀ (i : ℕ) e, E.B.read (S.text (64 * 2 ^ i) (S.ball (64 * 2 ^ i) K.root)) (64 * 2 ^ i) = some e →
          Secure E.A k.field.nf.pol α E.n₂ e) →
        α ∈ k'.field.emb ∧ renfEqual k.field k.den k'.field k'.den = true) := by
  obtain ⟨K', h1, h2⟩ | ⟨e, h1⟩ := C66_sound hS hBe hP hc hl hmax hi hv hα hαe
  · rw [hK] at h1
    cases h1
    set l := k.field.nf.pol.map fun z : ℤ => (z : ℚ) / k.den with hl'
    have hlp : Text.polyOf l = k.poly := polyOf_map_div _ _
    have hcan : Text.canonical K.poly = Text.canonical l := by
      have := QPoly.canonical_unique (Text.canonical_spec K.poly).1 (Text.canonical_spec l).1
        (by rw [(Text.canonical_spec _).2, (Text.canonical_spec _).2, h2.poly, hlp])
      simp only [QPoly.mk.injEq] at this
      exact Prod.ext this.1 this.2
    have hrepr : sageRepr K.name K.poly = sageRepr K.name l := by simp only [sageRepr, hcan]
    have h' : initField S E n ⟨l, K.name, K.root⟩ = .ok k' := by
      rw [← h]; simp only [initField, hrepr]
    obtain ⟨g1, g2, g3, g4⟩ := C66_init_partial hS hB hR (K := ⟨l, K.name, K.root⟩)
      (by rw [hl', List.length_map]; exact hmax) (by show Irreducible (Text.polyOf l); rw [hlp]; exact hi)
      (by show aeval (val K.root) (Text.polyOf l) = 0; rw [hlp, h2.root]; exact hα) h'
    replace g1 : k'.poly = k.poly := g1.trans hlp
    replace g3 : k'.name = K.name := g3
    replace g4 : (∀ (i : ℕ) e, E.B.read (S.text (64 * 2 ^ i) (S.ball (64 * 2 ^ i) K.root)) (64 * 2 ^ i) = some e →
          Secure E.A k'.field.nf.pol (val K.root) E.n₂ e) → val K.root ∈ k'.field.emb := g4
    have hq := QPoly.canonical_unique g2 hc g1
    simp only [QPoly.mk.injEq] at hq
    have hnf : k'.field.nf = k.field.nf := by
      have := hq.1
      cases hk : k'.field.nf; cases hk' : k.field.nf
      rw [hk, hk'] at this
      exact congrArg Nf.mk this
    refine ⟨hnf, hq.2, g3.trans h2.name, fun hs => ?_⟩
    have hin : α ∈ k'.field.emb := by
      have := g4 (by rw [h2.root, hq.1]; exact hs)
      rwa [h2.root] at this
    exact ⟨hin, C19_same_root hq.1.symm hq.2.symm hαe hin⟩
  · rw [hK] at h1; cases h1

end

/-- the field of `√2` -/
def sqrtField (pol : List ℤ) (den : ℤ) : NamedField :=
  ⟨⟨⟨pol⟩, .fin (3 / 2) (1 / 4), 64, false⟩, den, ['x']⟩

private theorem sqrtField_mem (pol : List ℤ) (den : ℤ) : √2 ∈ (sqrtField pol den).field.emb := by
  show √2 ∈ Ball.fin _ _
  have h1 : (5 / 4 : ℝ) ≤ √2 := by rw [Real.le_sqrt (by norm_num) (by norm_num)]; norm_num
  have h2 : √2 ≤ (7 / 4 : ℝ) := by rw [Real.sqrt_le_left (by norm_num)]; norm_num
  rw [Ball.mem_fin]; push_cast; constructor <;> linarith

private theorem sqrtField_facts {pol : List ℤ} {den : ℤ} {c : ℚ} (hc : c ≠ 0)
    (h : (sqrtField pol den).poly = C c * (X ^ 2 - C 2)) :
    Irreducible (sqrtField pol den).poly ∧ aeval √2 (sqrtField pol den).poly = 0 ∧
      (∀ x : ℝ, aeval x (sqrtField pol den).poly = 0 → x = √2 ∨ x = -√2) := by
  have hq : (√2 : ℝ) ^ 2 = 2 := Real.sq_sqrt (by norm_num)
  rw [h]
  refine ⟨?_, by simp [hq], fun x hx => ?_⟩
  · rw [irreducible_isUnit_mul (isUnit_C.2 hc.isUnit)]
    have := K2_ok.irr
    have e : toPolyQ K2.pol = X ^ 2 - C 2 := by simp [K2, toPolyQ]; ring
    rwa [e] at this
  · simp only [map_mul, aeval_C, map_sub, map_pow, aeval_X, mul_eq_zero] at hx
    rcases hx with hx | hx
    · exact absurd (by simpa using hx) hc
    · have : (x - √2) * (x + √2) = 0 := by
        have h2 : x ^ 2 - 2 = 0 := by simpa using hx
        linear_combination h2 - hq
      rcases mul_eq_zero.1 this with h | h
      · exact .inl (by linarith)
      · exact .inr (by linarith)

/-- the hypotheses of `C66_sound` and `C66_found_partial` are met: the field of `√2` is found -/
theorem C66_demo : ∃ K : NumberField ℝ, normalize realSage plainText
    (fieldRepr plainText (sqrtField [-2, 0, 1] 1)) = .ok K ∧ Same id (sqrtField [-2, 0, 1] 1) √2 K := by
  have hpoly : (sqrtField [-2, 0, 1] 1).poly = C 1 * (X ^ 2 - C 2) := by
    simp [NamedField.poly, sqrtField, QPoly.toPolyQ, toPolyQ]; ring
  obtain ⟨h1, h2, h3⟩ := sqrtField_facts one_ne_zero hpoly
  refine C66_found_partial realSage_ok exists_plain.choose_spec.1 exists_plain.choose_spec.2.1
    ⟨by norm_num [sqrtField], fun g hg _ => isUnit_of_dvd_one hg, by simp [sqrtField]⟩ (by simp [sqrtField])
    (by simp [sqrtField, Text.longMax]) h1 ⟨'x', [], rfl, by decide, by simp⟩ h2 (sqrtField_mem _ _)
    ?_ (q := 53) (by simp) (e := .fin (3 / 2) (1 / 4))
    (exists_plain.choose_spec.2.2.2 _ _ _ _ (by norm_num)) ?_
  · rw [hpoly]
    refine ⟨?_, ?_, by simp⟩ <;> rw [leadingCoeff_mul, leadingCoeff_C, leadingCoeff_X_pow_sub_C (by norm_num)]
      <;> norm_num
  · intro a ha hne
    have ha' : a = -√2 := (h3 a ha).resolve_left hne
    have hneg : ⌊a * 2 ^ (53 : ℤ)⌋ ≤ 0 := by
      have : a * 2 ^ (53 : ℤ) ≤ 0 := by
        rw [ha']
        have := mul_nonneg (Real.sqrt_nonneg 2) (show (0 : ℝ) ≤ 2 ^ (53 : ℤ) by positivity)
        linarith
      exact_mod_cast (Int.floor_le _).trans this
    have hq : ((⌊a * 2 ^ (53 : ℤ)⌋ : ℤ) : ℚ) / 2 ^ (53 : ℤ) ≤ 0 :=
      div_nonpos_of_nonpos_of_nonneg (by exact_mod_cast hneg) (by positivity)
    show Ball.overlaps (.fin _ _) (.fin _ _) = false
    rw [Ball.overlaps, decide_eq_false_iff_not]
    rintro ⟨-, h⟩
    have : (1 : ℚ) / 2 ^ (53 : ℤ) ≤ 1 := by norm_num
    linarith

/-- the environment of the examples -/
noncomputable def pyEnv : MakeEnv := ⟨fpArb, scale2Simple, Text.readQ, plainText, false, 100, 200⟩

/-- the hypotheses of `C66_init_partial` and, with `C66_demo`, `C66_round_trip_partial` are met: SageMath's
field of `√2` becomes a field -/
example : ∃ k, initField realSage pyEnv 1 ⟨[-2, 0, 1], ['x'], √2⟩ = .ok k := by
  have hfl : ⌊√2 * 2 ^ (64 : ℤ)⌋ = 26087635650665564424 := by
    have hq : (√2 * 2 ^ (64 : ℤ)) ^ 2 = 2 * 2 ^ 128 := by
      rw [mul_pow, Real.sq_sqrt (by norm_num)]; norm_num
    have hp : (0 : ℝ) ≤ √2 * 2 ^ (64 : ℤ) := by positivity
    rw [Int.floor_eq_iff]
    constructor
    · refine le_of_sq_le_sq ?_ hp
      rw [hq]; norm_num
    · refine lt_of_pow_lt_pow_left₀ 2 (by norm_num) ?_
      rw [hq]; norm_num
  have hread : plainText.read (realSage.text 64 (realSage.ball 64 √2)) 64 =
      some (.fin (26087635650665564424 / 2 ^ (64 : ℤ)) (1 / 2 ^ (64 : ℤ))) := by
    have := exists_plain.choose_spec.2.2.2 (26087635650665564424 / 2 ^ (64 : ℤ)) (1 / 2 ^ (64 : ℤ)) 0 64
      (by norm_num)
    rw [← this]
    show plainText.read (plainText.text (.fin _ _) 0) 64 = plainText.read _ 64
    rw [hfl]
    push_cast
    rfl
  have hs : makeStep pyEnv (sageRepr ['x'] [-2, 0, 1]) ['x']
      (fun prec => .ok (realSage.text prec (realSage.ball prec √2))) 64 =
      makeStep ⟨fpArb, scale2Simple, Text.readQ,
        ⟨fun _ _ => some (.fin (26087635650665564424 / 2 ^ (64 : ℤ)) (1 / 2 ^ (64 : ℤ))), fun _ _ => []⟩,
        false, 100, 200⟩ (sageRepr ['x'] [-2, 0, 1]) ['x'] (fun _ => .ok []) 64 := by
    simp only [makeStep, pyEnv, Res.bind, hread]
  have hev : (match makeStep ⟨fpArb, scale2Simple, Text.readQ,
        ⟨fun _ _ => some (.fin (26087635650665564424 / 2 ^ (64 : ℤ)) (1 / 2 ^ (64 : ℤ))), fun _ _ => []⟩,
        false, 100, 200⟩ (sageRepr ['x'] [-2, 0, 1]) ['x'] (fun _ => .ok []) 64 with
      | .ok (.inr _) => true | _ => false) = true := by decide +kernel
  unfold initField makeFun
  rw [loop, hs]
  split at hev
  · next k h => exact ⟨k, by rw [h]⟩
  · cases hev

/-- the hypotheses of `C66_lost` are met: `-x² + 2` and `x² / 2 - 1` have the root `√2`, too -/
example : (∃ e, normalize realSage plainText (fieldRepr plainText (sqrtField [2, 0, -1] 1)) = .throw e) ∧
    ∃ e, normalize realSage plainText (fieldRepr plainText (sqrtField [-2, 0, 1] 2)) = .throw e := by
  have e1 : (sqrtField [2, 0, -1] 1).poly = C (-1) * (X ^ 2 - C 2) := by
    simp [NamedField.poly, sqrtField, QPoly.toPolyQ, toPolyQ]; ring
  have e2 : (sqrtField [-2, 0, 1] 2).poly = C (1 / 2) * (X ^ 2 - C 2) := by
    simp [NamedField.poly, sqrtField, QPoly.toPolyQ, toPolyQ]; ring
  constructor
  · obtain ⟨h1, h2, -⟩ := sqrtField_facts (by norm_num) e1
    refine C66_lost realSage_ok exists_plain.choose_spec.1 exists_plain.choose_spec.2.1
      ⟨by norm_num [sqrtField], fun g hg _ => isUnit_of_dvd_one hg, by simp [sqrtField]⟩ (by simp [sqrtField])
      (by simp [sqrtField, Text.longMax]) h1 ⟨'x', [], rfl, by decide, by simp⟩ h2 (sqrtField_mem _ _) ?_
    rintro ⟨h, -⟩
    rw [e1, leadingCoeff_mul, leadingCoeff_C, leadingCoeff_X_pow_sub_C (by norm_num)] at h
    norm_num at h
  · obtain ⟨h1, h2, -⟩ := sqrtField_facts (by norm_num) e2
    refine C66_lost realSage_ok exists_plain.choose_spec.1 exists_plain.choose_spec.2.1
      ⟨by norm_num [sqrtField], fun g hg hn => ?_, by simp [sqrtField]⟩ (by simp [sqrtField])
      (by simp [sqrtField, Text.longMax]) h1 ⟨'x', [], rfl, by decide, by simp⟩ h2 (sqrtField_mem _ _) ?_
    · exact isUnit_of_dvd_one (hn 1 (by simp [sqrtField]))
    · rintro ⟨-, h, -⟩
      rw [e2, leadingCoeff_mul, leadingCoeff_C, leadingCoeff_X_pow_sub_C (by norm_num)] at h
      norm_num at h

/-! ## C67: realalg -/

/-- C67.  `poly_string` makes a text that e-antic reads as the polynomial with these coefficients; for no
coefficients at all there is an exception. -/
theorem C67_poly_string {R : List Char → Option ℚ} (hR : Text.RatReader R) {var : List Char}
    (hv : Text.IsVarname var) {l : List ℚ} (hl : l.length ≤ Text.longMax) :
    (l = [] ∧ ∃ e, polyString pyStr l var = .throw e) ∨
    ∃ s q, polyString pyStr l var = .ok s ∧ Text.setStrPretty R s var = some q ∧
      Text.polyOf q = Text.polyOf l := by
  cases l with
  | nil => exact .inl ⟨rfl, _, rfl⟩
  | cons c l =>
    obtain ⟨q, h1, h2⟩ := (Text.C31_parser R _ var _).2 ⟨hv, polyString_reads hR var hl rfl⟩
    exact .inr ⟨_, q, rfl, h1, h2⟩

example : polyString pyStr [-13, 3, 0, 0, 1] ['a'] = .ok "-13 + 3 * a^1 + 1 * a^4".toList ∧
    polyString pyStr [1 / 2, -3 / 4] ['b'] = .ok "1/2 + -3/4 * b^1".toList := by
  constructor <;> decide +kernel

/-- C67.  The ball that is printed for an interval contains the interval, if its width is not too small
compared to its end points: less than `2 ^ (-54)` of their sum.  The conversions and divisions are those
of doubles, with subnormal numbers and overflow. -/
theorem C67_interval_partial {fl : ℚ → Dbl} {dec : ℚ → ℚ} (hfl : Nearest fl) (hdec : Shows dec)
    {lower upper : ℤ} {prec : ℕ} (hp : 1 ≤ prec) (hlu : lower ≤ upper)
    (hw : |(lower : ℚ) + upper| ≤ 2 ^ 54 * ((upper : ℚ) - lower)) {c r : ℚ}
    (h : intervalToArb fl dec lower upper prec = .ok (c, r)) {x : ℝ}
    (h1 : (lower : ℝ) / 10 ^ prec ≤ x) (h2 : x ≤ (upper : ℝ) / 10 ^ prec) : |x - c| ≤ r :=
  intervalToArb_encloses hfl hdec hp hlu hw h h1 h2

/-- C67.  When a ball is printed: the numbers of the interval and the scale must be below the range of
doubles, otherwise Python throws.  (With at most 308 decimal places, and bounds below `10 ^ 308` in
absolute value, there is always a ball, see `C67_interval_returns`.) -/
theorem C67_interval_total {fl : ℚ → Dbl} (dec : ℚ → ℚ) (hfl : Nearest fl) (lower upper : ℤ) {prec : ℕ}
    (hp : 1 ≤ prec) :
    if |((lower + upper : ℤ) : ℚ)| < dblLim ∧ |((upper - lower : ℤ) : ℚ)| < dblLim ∧ (10 : ℚ) ^ prec < dblLim
    then ∃ c r, intervalToArb fl dec lower upper prec = .ok (c, r)
    else intervalToArb fl dec lower upper prec = .throw "OverflowError" :=
  intervalToArb_total dec hfl lower upper hp

set_option exponentiation.threshold 2000 in
/-- C67.  Up to 308 decimal places. -/
theorem C67_interval_returns {fl : ℚ → Dbl} (dec : ℚ → ℚ) (hfl : Nearest fl) {lower upper : ℤ} {prec : ℕ}
    (hp : 1 ≤ prec) (hp' : prec ≤ 308) (hl : |lower| < 5 * 10 ^ 307) (hu : |upper| < 5 * 10 ^ 307) :
    ∃ c r, intervalToArb fl dec lower upper prec = .ok (c, r) := by
  have h0 : (10 : ℚ) ^ 308 < dblLim := by unfold dblLim; norm_num
  have hl' : |(lower : ℚ)| < 5 * 10 ^ 307 := by exact_mod_cast hl
  have hu' : |(upper : ℚ)| < 5 * 10 ^ 307 := by exact_mod_cast hu
  have e : (5 : ℚ) * 10 ^ 307 + 5 * 10 ^ 307 = 10 ^ 308 := by norm_num
  have := C67_interval_total dec hfl lower upper hp
  rw [if_pos] at this
  · exact this
  · push_cast
    refine ⟨(abs_add_le _ _).trans_lt (lt_trans ?_ h0), (abs_sub _ _).trans_lt (lt_trans ?_ h0),
      (pow_le_pow_right₀ (by norm_num) hp').trans_lt h0⟩ <;> linarith

set_option exponentiation.threshold 2000 in
/-- C67, where Python throws: more than 308 decimal places. -/
theorem C67_interval_overflow {fl : ℚ → Dbl} (dec : ℚ → ℚ) (hfl : Nearest fl) (lower upper : ℤ) {prec : ℕ}
    (hp : 309 ≤ prec) : intervalToArb fl dec lower upper prec = .throw "OverflowError" := by
  have := C67_interval_total dec hfl lower upper (prec := prec) (by omega)
  rw [if_neg] at this
  · exact this
  · rintro ⟨-, -, h⟩
    have h1 : (10 : ℚ) ^ 309 ≤ 10 ^ prec := pow_le_pow_right₀ (by norm_num) hp
    have h2 : dblLim < (10 : ℚ) ^ 309 := by unfold dblLim; norm_num
    linarith

/-- doubles rounded to nearest, and a text that shows a double exactly -/
theorem near_doubles : Nearest (arfGetD .near) ∧ Shows id :=
  ⟨arfGetD_near, rfl, fun q hq => roundsNear_self hq⟩

set_option exponentiation.threshold 2000 in
/-- the rounding is that of doubles, and `√2` to 15 digits such an interval -/
example : Nearest (arfGetD .near) ∧ Shows id ∧ |((1414213562373095 : ℤ) : ℚ) + (1414213562373096 : ℤ)| ≤
    2 ^ 54 * (((1414213562373096 : ℤ) : ℚ) - (1414213562373095 : ℤ)) ∧
    ∃ c r, intervalToArb (arfGetD .near) id 1414213562373095 1414213562373096 15 = .ok (c, r) :=
  ⟨near_doubles.1, near_doubles.2, by rw [abs_of_pos] <;> norm_num,
    C67_interval_returns _ near_doubles.1 (by norm_num) (by norm_num) (by norm_num) (by norm_num)⟩

set_option exponentiation.threshold 2000 in
/-- numbers at the edge of the range: 308 decimal places are read, 309 are not -/
example : (∃ c r, intervalToArb (arfGetD .near) id 1 2 308 = .ok (c, r)) ∧
    intervalToArb (arfGetD .near) id 1 2 309 = .throw "OverflowError" :=
  ⟨C67_interval_returns _ near_doubles.1 (by norm_num) (by norm_num) (by norm_num) (by norm_num),
    C67_interval_overflow _ near_doubles.1 _ _ (by norm_num)⟩

/-- C67, where intervals are lost: with large roots the width is below the precision of doubles.  For the
interval `[1000.000000000000063, 1000.000000000000064]` with 15 decimal places, centre and radius are
1000 and about `10 ^ (-14)`: no number of the interval is in the ball. -/
theorem C67_interval_counterexample : ∃ c r : ℚ,
    intervalToArb (arfGetD .near) id (10 ^ 18 + 63) (10 ^ 18 + 64) 15 = .ok (c, r) ∧
    ∀ x : ℝ, ((10 ^ 18 + 63 : ℤ) : ℝ) / 10 ^ 15 ≤ x → (r : ℝ) < |x - c| := by
  obtain ⟨c, r, h, h2, h3⟩ : ∃ c r, intervalToArb (arfGetD .near) id (10 ^ 18 + 63) (10 ^ 18 + 64) 15 = .ok (c, r) ∧
      c = 1000 ∧ r < 60 / 10 ^ 15 := by
    have h : (match intervalToArb (arfGetD .near) id (10 ^ 18 + 63) (10 ^ 18 + 64) 15 with
      | .ok (c, r) => decide (c = 1000 ∧ r < 60 / 10 ^ 15) | _ => false) = true := by decide +kernel
    split at h
    · exact ⟨_, _, by assumption, of_decide_eq_true h⟩
    · cases h
  refine ⟨c, r, h, fun x h1 => ?_⟩
  have h4 : (r : ℝ) < 60 / 10 ^ 15 := lt_of_lt_of_eq (Rat.cast_lt.2 h3) (by norm_num)
  rw [h2]
  refine h4.trans ?_
  rw [lt_abs]
  left
  push_cast at h1 ⊢
  norm_num at h1 ⊢
  linarith

/-- C67.  The field made from a field of realalg: it has the polynomial with these coefficients and the
name; a root in the interval is the one the field is embedded at, if doubles can represent the interval
(see `C67_interval_partial`), Arb reads the ball as one that contains it, and the refinement cannot leave a
root (`Secure`, see C15). -/
theorem C67_field_partial {E : MakeEnv} (hB : E.B.Wf) (hR : Text.RatReader E.R) {n : ℕ}
    {text : ℚ → ℚ → List Char} {fl : ℚ → Dbl} {dec : ℚ → ℚ} (hfl : Nearest fl) (hdec : Shows dec)
    {coeffs : List ℚ}
    (hmax : coeffs.length ≤ Text.longMax) {name : List Char} {lower upper : ℤ} {prec : ℕ} {k : NamedField}
    (h : realalgField E n text fl dec coeffs name lower upper prec = .ok k) :
    k.poly = Text.polyOf coeffs ∧ (⟨k.field.nf.pol, k.den⟩ : QPoly).Canonical ∧ k.name = name ∧
    ∀ α : ℝ, Irreducible (Text.polyOf coeffs) → aeval α (Text.polyOf coeffs) = 0 →
      1 ≤ prec → (lower : ℝ) / 10 ^ prec ≤ α → α ≤ (upper : ℝ) / 10 ^ prec →
      |(lower : ℚ) + upper| ≤ 2 ^ 54 * ((upper : ℚ) - lower) →
      (∀ c r e, intervalToArb fl dec lower upper prec = .ok (c, r) → E.B.read (text c r) 64 = some e →
        (∀ x : ℝ, |x - (c : ℚ)| ≤ (r : ℚ) → x ∈ e) ∧ Secure E.A k.field.nf.pol α E.n₂ e) →
      α ∈ k.field.emb := by
  unfold realalgField at h
  cases hs : polyString pyStr coeffs name with
  | ok s =>
    rw [hs] at h
    change (intervalToArb fl dec lower upper prec >>= fun b => makeStr E n s name (text b.1 b.2) 64) = .ok k at h
    obtain ⟨⟨c, r⟩, hb, h⟩ := Res.bind_eq_ok.1 h
    obtain ⟨-, hv, P, e, h1, h2, h3, h4⟩ := C52_make_partial hB h
    have hP : P = Text.polyOf coeffs := Text.C31_unambiguous hv h1 (polyString_reads hR name hmax hs)
    subst hP
    refine ⟨h3.poly, h3.canonical, h3.name, fun α hi hα hp hl hu hw hT => ?_⟩
    have hlu : lower ≤ upper := by
      have := hl.trans hu
      rw [div_le_div_iff_of_pos_right (by positivity)] at this
      exact_mod_cast this
    obtain ⟨g1, g2⟩ := hT _ _ e hb h2
    have hin := g1 α (C67_interval_partial hfl hdec hp hlu hw hb hl hu)
    exact h4 α hi hα hin g2
  | _ => rw [hs] at h; cases h

/-- the hypotheses of `C67_field_partial` are met: `√2` with 15 decimal places -/
example : ∃ k, realalgField demoEnv 2 (fun c r => Text.absStr c ++ ' ' :: Text.absStr r) (arfGetD .near)
    id [-2, 0, 1] ['a'] 1414213562373095 1414213562373096 15 = .ok k := by
  have h : (match realalgField demoEnv 2 (fun c r => Text.absStr c ++ ' ' :: Text.absStr r)
      (arfGetD .near) id [-2, 0, 1] ['a'] 1414213562373095 1414213562373096 15 with
      | .ok _ => true | _ => false) = true := by decide +kernel
  split at h
  · exact ⟨_, by assumption⟩
  · cases h

/-- C67.  The element made from an element of realalg has the number with its coefficients as value. -/
theorem C67_element {L : Lib} {T : TextLib} {α : ℕ → ℝ} {I : ℕ → Field → Prop} {S : ℕ → Slot} {w : World}
    (hE : ∀ i, FieldInv (L.E i) (α i) (I i)) (hT : T.Ok) (h : Represents L α I S w) {x k : ℕ}
    (hx : S x = .absent) {l : List ℚ} (hl : l ≠ []) (hmax : l.length ≤ Text.longMax) :
    ∃ w', realalgElem L T (.user x) k l w = .ok ((), w') ∧
      Represents L α I (Function.update S x (.elem k (value (α k) l))) w' := by
  obtain ⟨s, hs⟩ : ∃ s, polyString pyStr l (T.gen k) = .ok s := by
    cases l with
    | nil => exact absurd rfl hl
    | cons c l => exact ⟨_, rfl⟩
  have hr := polyString_reads hT.readRat (T.gen k) hmax hs
  have htw : s.takeWhile (· != '~') = s := List.takeWhile_eq_self_iff.2 fun c hc => by
    simpa using polyString_plain (hT.gen k) hs c hc
  obtain ⟨w', h1, h2⟩ := (C32_constructor hE hT h hx (k := k) s).1 (value (α k) l) (by
    rw [htw]; exact ⟨_, hr, rfl⟩)
  refine ⟨w', ?_, h2⟩
  unfold realalgElem
  rw [hs]
  exact h1

/-- `1 - ∛2 / 2` as an element of realalg -/
example : ∃ w', realalgElem lib textLib (.user 0) 1 [1, -1 / 2] start = .ok ((), w') :=
  (C67_element lib_inv textLib_ok start_rep rfl (by simp) (by decide)).imp fun _ h => h.1

end EAntic.Py
