import Verif.Props.Py
import Verif.Props.Fields

/-!
# C66, C40 with C61: fields that come back from SageMath or from an archive are the same objects

The field `k` of a program is printed, taken apart in SageMath, and `make` is asked for the field that
results.  The program gets back the very object `k`, so elements converted through SageMath can be
combined with those of `k` (elements of different objects cannot).
-/

open Polynomial

namespace EAntic.Fields

/-- what is printed of the object: its field, with the enclosure it has now -/
def Class.named (c : Class) : NamedField := ⟨c.mem.fld, c.den, c.name⟩

end EAntic.Fields

namespace EAntic.Py
open Fields

variable {AA : Type} {S : Sage AA} {E : MakeEnv} {val : AA → ℝ} {bk : Dbl → ℕ} {ops : List Fields.Op}
  {s s' : State}

/-- C66, `RealEmbeddedNumberField(k).renf` in a program that has done `ops` and has a pointer to the field
`c` at the address `o`: the result is this pointer, and the fields of the program are as before.
Partial: enclosures have to be clear of other roots (`C61_counterexample`), refinement must not leave
the root (`Secure`, C15), and the conversion must not fail (`C66_lost`). -/
theorem C66_same_object_partial (hS : S.Ok E.B val) (hBe : E.B.Encloses) (hP : PlainBalls E.B) (hB : E.B.Wf)
    (hR : Text.RatReader E.R)
    (hops : ∀ op ∈ ops, ClearlyLegal op) (hs : run bk State.init ops = .ok s)
    {o : ℕ} {c : Class} (ho : s.objs o = some c)
    (hc : (⟨c.K.pol, c.den⟩ : QPoly).Canonical) (hmax : c.K.pol.length ≤ Text.longMax) (hv : Text.IsVarname c.name)
    {K : NumberField AA} (hK : normalize S E.B (fieldRepr E.B c.named) = .ok K)
    {n : ℕ} {k : NamedField} (h : initField S E n K = .ok k)
    (hsec : ∀ α, c.K.IsRoot α → α ∈ c.mem.fld.emb → ∀ (i : ℕ) e,
      E.B.read (S.text (64 * 2 ^ i) (S.ball (64 * 2 ^ i) K.root)) (64 * 2 ^ i) = some e →
        Secure E.A c.K.pol α E.n₂ e)
    {F : Env k.field.nf} (hF : ClearlyLegal (.make k F)) (hm : step bk s (.make k F) = .ok s') :
    s'.handles = o :: s.handles ∧ ∀ o' ∈ s.handles, s'.objs o' = s.objs o' := by
  obtain ⟨root, hinv⟩ := run_inv hops ⟨_, inv_init⟩ hs
  have hsound := hinv.sound _ _ ho
  have hnf : c.mem.fld.nf = c.K := hsound.nf
  have hok : c.K.Ok := by obtain ⟨I, hE, -⟩ := hsound; exact hE.ok
  have hd : (1 / (c.den : ℚ)) ≠ 0 := one_div_ne_zero (by exact_mod_cast hc.den_pos.ne')
  have hpoly : c.named.poly = C (1 / (c.den : ℚ)) * toPolyQ c.K.pol := by
    show C (1 / (c.den : ℚ)) * toPolyQ c.mem.fld.nf.pol = _
    rw [hnf]
  have hi : Irreducible c.named.poly := by
    rw [hpoly, irreducible_isUnit_mul (isUnit_C.2 hd.isUnit)]
    exact hok.irr
  have hα : aeval (root o) c.named.poly = 0 := by
    rw [hpoly, map_mul, aeval_pol hsound.root, mul_zero]
  obtain ⟨g1, g2, g3, g4⟩ := C66_round_trip_partial hS hBe hP hB hR (k := c.named)
    (by show (⟨c.mem.fld.nf.pol, c.den⟩ : QPoly).Canonical; rw [hnf]; exact hc)
    (by show 2 ≤ c.mem.fld.nf.pol.length; rw [hnf]; exact hok.two_le)
    (by show c.mem.fld.nf.pol.length ≤ _; rw [hnf]; exact hmax) hi hv hα hsound.mem hK h
  have hin : root o ∈ k.field.emb := (g4 (by
    show ∀ (i : ℕ) e, _ → Secure E.A c.mem.fld.nf.pol (root o) E.n₂ e
    rw [hnf]; exact hsec _ hsound.root hsound.mem)).1
  have hkK : k.field.nf = c.K := g1.trans hnf
  exact C61_make_again_partial hops hs ho hsound.root hsound.mem hF hkK g2 g3 hin hm

/-- C66 for fields whose polynomial has one real root, such as `x³ - 2`: `RealEmbeddedNumberField(k).renf`, if it
returns, is `k`, with the modelled refinement over any arithmetic, whatever the enclosures are.
Partial: the conversion must not fail (`C66_lost`). -/
theorem C66_same_object_one_root_partial (hS : S.Ok E.B val) (hBe : E.B.Encloses) (hP : PlainBalls E.B)
    (hB : E.B.Wf) (hR : Text.RatReader E.R)
    (hops : ∀ op ∈ ops, ClearlyLegal op) (hs : run bk State.init ops = .ok s)
    {o : ℕ} {c : Class} (ho : s.objs o = some c) (hu : ∀ α β, c.K.IsRoot α → c.K.IsRoot β → β = α)
    (hc : (⟨c.K.pol, c.den⟩ : QPoly).Canonical) (hmax : c.K.pol.length ≤ Text.longMax)
    (hv : Text.IsVarname c.name)
    {K : NumberField AA} (hK : normalize S E.B (fieldRepr E.B c.named) = .ok K)
    {n : ℕ} {k : NamedField} (h : initField S E n K = .ok k)
    {F : Env k.field.nf} {nd : Bool} {m : ℕ} (hF : F.refine = refineEmbedding F.A nd m)
    (hm : step bk s (.make k F) = .ok s') :
    s'.handles = o :: s.handles ∧ ∀ o' ∈ s.handles, s'.objs o' = s.objs o' := by
  obtain ⟨root, hinv⟩ := run_inv hops ⟨_, inv_init⟩ hs
  have hsound := hinv.sound _ _ ho
  have hnf : c.mem.fld.nf = c.K := hsound.nf
  have hok : c.K.Ok := by obtain ⟨I, hE, -⟩ := hsound; exact hE.ok
  have hd : (1 / (c.den : ℚ)) ≠ 0 := one_div_ne_zero (by exact_mod_cast hc.den_pos.ne')
  have hpoly : c.named.poly = C (1 / (c.den : ℚ)) * toPolyQ c.K.pol := by
    show C (1 / (c.den : ℚ)) * toPolyQ c.mem.fld.nf.pol = _
    rw [hnf]
  have hsec : ∀ α, c.K.IsRoot α → α ∈ c.mem.fld.emb → ∀ (i : ℕ) e,
      E.B.read (S.text (64 * 2 ^ i) (S.ball (64 * 2 ^ i) K.root)) (64 * 2 ^ i) = some e →
        Secure E.A c.K.pol α E.n₂ e := fun α hα _ _ _ _ => .inl fun β hβ => hu α β hα hβ
  obtain ⟨g1, g2, g3, g4⟩ := C66_round_trip_partial hS hBe hP hB hR (k := c.named)
    (by show (⟨c.mem.fld.nf.pol, c.den⟩ : QPoly).Canonical; rw [hnf]; exact hc)
    (by show 2 ≤ c.mem.fld.nf.pol.length; rw [hnf]; exact hok.two_le)
    (by show c.mem.fld.nf.pol.length ≤ _; rw [hnf]; exact hmax)
    (by rw [hpoly, irreducible_isUnit_mul (isUnit_C.2 hd.isUnit)]; exact hok.irr) hv
    (by rw [hpoly, map_mul, aeval_pol hsound.root, mul_zero]) hsound.mem hK h
  have hin : root o ∈ k.field.emb := (g4 (by
    show ∀ (i : ℕ) e, _ → Secure E.A c.mem.fld.nf.pol (root o) E.n₂ e
    rw [hnf]; exact hsec _ hsound.root hsound.mem)).1
  have hkK : k.field.nf = c.K := g1.trans hnf
  have hprec : 2 ≤ k.field.prec := by
    obtain ⟨-, P, i, t, e, -, -, -, h4, -⟩ := C52_make_callback_partial hB h
    rw [h4.prec]
    have : (1 : ℤ) ≤ 2 ^ i := one_le_pow₀ (by norm_num)
    linarith
  refine C66_same_object_partial hS hBe hP hB hR hops hs ho hc hmax hv hK h hsec (F := F) ⟨root o, ?_⟩ hm
  exact C61_one_root (by rw [hkK]; exact hok) (by rw [hkK]; exact hsound.root)
    (by rw [hkK]; exact fun β hβ => hu _ _ hsound.root hβ) hin hprec hF

end EAntic.Py

namespace EAntic.Fields

variable {E : MakeEnv} {bk : Dbl → ℕ} {ops : List Fields.Op} {s s' : State}

/-- C40 with C61: loading a field from an archive, in the program that saved it, returns the object that
was saved, whatever has been computed before and after it was saved: `c₀` is the object at the address
`o` when it was saved, `c` the one when it is loaded.  Partial: as `C40_restore_partial` and
`C61_make_partial`. -/
theorem C40_same_object_partial (hR : Text.RatReader E.R)
    (hops : ∀ op ∈ ops, ClearlyLegal op) (hs : run bk State.init ops = .ok s)
    {o : ℕ} {c₀ c : Class} (ho : s.objs o = some c) {α : ℝ} (hα : c.K.IsRoot α) (hαc : α ∈ c.mem.fld.emb)
    (h₀ : c₀.Is c.named α)
    (hc : (⟨c.K.pol, c.den⟩ : QPoly).Canonical) (hv : Text.IsVarname c.name)
    (hlen : c.K.pol.length ≤ Text.longMax) (hp : 2 ≤ c₀.mem.fld.prec) {e : Ball}
    (he : E.B.read (constructionOf E.B c₀.named).emb c₀.mem.fld.prec = some e)
    (hmem : ∀ x ∈ c₀.mem.fld.emb, x ∈ e)
    (hacc : checkUnique E.A E.F E.n₁ c.K.pol e c₀.mem.fld.prec = .ok true)
    (hsec : Secure E.A c.K.pol α E.n₂ e) {f : Field}
    (hf : renfInit E.A E.F E.nd E.n₁ E.n₂ c.K.pol e c₀.mem.fld.prec = .ok f) {n : ℕ} (hn : 1 ≤ n) :
    ∃ k, makeStr E n (constructionOf E.B c₀.named).minpoly (constructionOf E.B c₀.named).name
        (constructionOf E.B c₀.named).emb (constructionOf E.B c₀.named).prec = .ok k ∧
      ∀ F : Env k.field.nf, ClearlyLegal (.make k F) → ∀ s', step bk s (.make k F) = .ok s' →
        s'.handles = o :: s.handles ∧ ∀ o' ∈ s.handles, s'.objs o' = s.objs o' := by
  obtain ⟨root, hinv⟩ := run_inv hops ⟨_, inv_init⟩ hs
  have hsound := hinv.sound _ _ ho
  obtain ⟨i1, i2, i3, i4, i5, i6⟩ := h₀
  change c₀.name = c.name at i1
  change c₀.den = c.den at i4
  have hnf : c₀.named.field.nf = c.K := i3.trans hsound.nf
  have hden : c₀.named.den = c.den := i4
  have hname : c₀.named.name = c.name := i1
  have hok : c.K.Ok := by obtain ⟨I, hE, -⟩ := hsound; exact hE.ok
  have hd : (1 / (c.den : ℚ)) ≠ 0 := one_div_ne_zero (by exact_mod_cast hc.den_pos.ne')
  have hpoly : c₀.named.poly = C (1 / (c.den : ℚ)) * toPolyQ c.K.pol := by
    show C (1 / (c₀.named.den : ℚ)) * toPolyQ c₀.named.field.nf.pol = _
    rw [hnf, hden]
  obtain ⟨k, h1, h2, h3, h4, -, h5, -⟩ := C40_restore_partial (E := E) hR (k := c₀.named) (α := α)
    (by rw [hnf, hden]; exact hc)
    (by rw [hpoly, irreducible_isUnit_mul (isUnit_C.2 hd.isUnit)]; exact hok.irr)
    (by rw [hpoly, map_mul, aeval_pol hα, mul_zero]) i6 (by rw [hname]; exact hv)
    (by rw [hnf]; exact hlen) hp he hmem (by rw [hnf]; exact hacc) (by rw [hnf]; exact hsec)
    (by rw [hnf]; exact hf) hn
  exact ⟨k, h1, fun F hF s' hm => C61_make_again_partial hops hs ho hα hαc hF (h2.trans hnf)
    (h3.trans hden) (h4.trans hname) h5 hm⟩

end EAntic.Fields

namespace EAntic.Py
open Fields

/-! ### The theorems apply -/

/-- the field of `∛2` as `make` is asked for it by SageMath -/
def k3Back : NamedField := k3 ['a']
  (.fin (27438650687471439843343391391721673933581 / 21778071482940061661655974875633165533184)
    (1618619 / 1427247692705959881058285969449495136382746624))

/-- SageMath's field of `∛2`, with any list of coefficients, becomes the field `k3Back` -/
theorem k3Back_init {l : List ℚ} (hl : Text.canonical l = Text.canonical [-2, 0, 0, 1]) :
    initField realSage pyEnv 1 ⟨l, ['a'], cbrt2⟩ = .ok k3Back := by
  have hfl : ⌊cbrt2 * 2 ^ (64 : ℤ)⌋ = 23241441160490167842 := by
    have hq : (cbrt2 * 2 ^ (64 : ℤ)) ^ 3 = 2 * 2 ^ 192 := by
      rw [mul_pow, cbrt2_pow]; norm_num
    have hp : (0 : ℝ) ≤ cbrt2 * 2 ^ (64 : ℤ) := mul_nonneg cbrt2_pos.le (by positivity)
    rw [Int.floor_eq_iff]
    constructor
    · refine le_of_pow_le_pow_left₀ (n := 3) (by norm_num) hp ?_
      rw [hq]; norm_num
    · refine lt_of_pow_lt_pow_left₀ 3 (by norm_num) ?_
      rw [hq]; norm_num
  have hread : plainText.read (realSage.text 64 (realSage.ball 64 cbrt2)) 64 =
      some (.fin (23241441160490167842 / 2 ^ (64 : ℤ)) (1 / 2 ^ (64 : ℤ))) := by
    have := exists_plain.choose_spec.2.2.2 (23241441160490167842 / 2 ^ (64 : ℤ)) (1 / 2 ^ (64 : ℤ)) 0 64
      (by norm_num)
    rw [← this]
    show plainText.read (plainText.text (.fin _ _) 0) 64 = plainText.read _ 64
    rw [hfl]
    push_cast
    rfl
  have hrepr : sageRepr ['a'] l = sageRepr ['a'] [-2, 0, 0, 1] := by simp only [sageRepr, hl]
  have hs : makeStep pyEnv (sageRepr ['a'] [-2, 0, 0, 1]) ['a']
      (fun prec => .ok (realSage.text prec (realSage.ball prec cbrt2))) 64 =
      makeStep ⟨fpArb, scale2Simple, Text.readQ,
        ⟨fun _ _ => some (.fin (23241441160490167842 / 2 ^ (64 : ℤ)) (1 / 2 ^ (64 : ℤ))), fun _ _ => []⟩,
        false, 100, 200⟩ (sageRepr ['a'] [-2, 0, 0, 1]) ['a'] (fun _ => .ok []) 64 := by
    simp only [makeStep, pyEnv, Res.bind, hread]
  have hev : (match makeStep ⟨fpArb, scale2Simple, Text.readQ,
        ⟨fun _ _ => some (.fin (23241441160490167842 / 2 ^ (64 : ℤ)) (1 / 2 ^ (64 : ℤ))), fun _ _ => []⟩,
        false, 100, 200⟩ (sageRepr ['a'] [-2, 0, 0, 1]) ['a'] (fun _ => .ok []) 64 with
      | .ok (.inr k) => decide (k = k3Back) | _ => false) = true := by decide +kernel
  unfold initField makeFun
  simp only [hrepr]
  rw [loop, hs]
  split at hev
  · next k h => rw [h, of_decide_eq_true hev]
  · cases hev

/-- the program of `C66_same_object_partial` for the demonstration: `make` of the field of `∛2` and work in it -/
def opsBack : List Fields.Op :=
  [.make (k3 ['a'] (.fin (5 / 4) (1 / 4))) env3, .work 0 (.add 3 2 1), .work 0 (.sgn 3)]

/-- the hypotheses of `C66_same_object_partial` and `C66_same_object_one_root_partial` are met: the field of `∛2` comes back from SageMath as the
same object, although work has been done in it -/
example : ∃ s c K s', run (fun _ => 0) State.init opsBack = .ok s ∧ s.objs 0 = some c ∧
    normalize realSage plainText (fieldRepr plainText c.named) = .ok K ∧
    initField realSage pyEnv 1 K = .ok k3Back ∧
    step (fun _ => 0) s (.make k3Back env3) = .ok s' ∧ s'.handles = [0, 0] := by
  have hb := cbrt2_bounds
  have h1 : cbrt2 ∈ Ball.fin (5 / 4) (1 / 4) := by
    rw [Ball.mem_fin]; push_cast; constructor <;> linarith [hb.1, hb.2]
  have hops : ∀ op ∈ opsBack, ClearlyLegal op := by
    intro op hop
    simp only [opsBack, List.mem_cons, List.not_mem_nil, or_false] at hop
    rcases hop with rfl | rfl | rfl
    · exact ⟨_, k3_clear _ h1⟩
    · intro n hn e; have e : n = 3 := e; omega
    · intro n hn e; exact e
  have hev : (match run (fun _ => 0) State.init opsBack with
      | .ok s => (match s.objs 0 with
        | some c => decide (c.K.pol = [-2, 0, 0, 1] ∧ c.den = 1 ∧ c.name = ['a'] ∧ s.handles = [0])
        | none => false) && (match step (fun _ => 0) s (.make k3Back env3) with | .ok _ => true | _ => false)
      | _ => false) = true := by decide +kernel
  split at hev
  swap
  · cases hev
  next s hs =>
  rw [Bool.and_eq_true] at hev
  obtain ⟨hev, hst⟩ := hev
  split at hev
  swap
  · cases hev
  next c ho =>
  split at hst
  swap
  · cases hst
  next s' hm =>
  obtain ⟨e1, e2, e3, e4⟩ := of_decide_eq_true hev
  have eK : c.K = K3 := by cases hc : c.K; rw [hc] at e1; exact congrArg Nf.mk e1
  obtain ⟨root, hinv⟩ := run_inv hops ⟨_, inv_init⟩ hs
  have hsound := hinv.sound _ _ ho
  have hnf : c.mem.fld.nf = K3 := hsound.nf.trans eK
  have hroot : root 0 = cbrt2 := K3_unique _ (by have := hsound.root; rwa [eK] at this)
  have hmem : cbrt2 ∈ c.mem.fld.emb := by have := hsound.mem; rwa [hroot] at this
  have hpoly : c.named.poly = X ^ 3 - C 2 := by
    show (⟨c.mem.fld.nf.pol, c.den⟩ : QPoly).toPolyQ = _
    rw [hnf, e2]
    simp [QPoly.toPolyQ, toPolyQ, K3]; ring
  have hcan : (⟨K3.pol, 1⟩ : QPoly).Canonical :=
    ⟨by norm_num, fun g hg _ => isUnit_of_dvd_one hg, by simp [K3]⟩
  have hirr : Irreducible c.named.poly := by
    have := K3_ok.irr
    have e : toPolyQ K3.pol = X ^ 3 - C 2 := by simp [K3, toPolyQ]; ring
    rwa [e, ← hpoly] at this
  have hα : aeval cbrt2 c.named.poly = 0 := by rw [hpoly]; simp [cbrt2_pow]
  have hv : Text.IsVarname c.name := by rw [e3]; exact ⟨'a', [], rfl, by decide, by simp⟩
  have hcan' : (⟨c.named.field.nf.pol, c.named.den⟩ : QPoly).Canonical := by
    show (⟨c.mem.fld.nf.pol, c.den⟩ : QPoly).Canonical
    rw [hnf, e2]; exact hcan
  have hlen : c.named.field.nf.pol.length = 4 := by
    show c.mem.fld.nf.pol.length = 4
    rw [hnf]; rfl
  obtain ⟨e, he, -⟩ := exists_plain.choose_spec.1 c.named.field.emb 64 53 (by norm_num)
  obtain ⟨K, hK, hsame⟩ := C66_found_partial realSage_ok exists_plain.choose_spec.1
    exists_plain.choose_spec.2.1 hcan' (by omega) (by rw [hlen]; decide) hirr hv hα hmem
    (by
      rw [hpoly]
      refine ⟨?_, ?_, by simp⟩ <;> rw [leadingCoeff_X_pow_sub_C (by norm_num)] <;> norm_num)
    (q := 53) (by simp) he (fun a ha hne => absurd (K3_unique a (by
      have ha : aeval a c.named.poly = 0 := ha
      rw [hpoly] at ha
      show (toPoly K3.pol).eval a = 0
      rw [toPoly_K3]
      simpa using ha)) hne)
  have hKe : K = ⟨K.poly, ['a'], cbrt2⟩ := by
    have h1 : K.name = ['a'] := hsame.name.trans e3
    have h2 : K.root = cbrt2 := hsame.root
    rw [← h1, ← h2]
  have hKcan : Text.canonical K.poly = Text.canonical [-2, 0, 0, 1] := by
    have := QPoly.canonical_unique (Text.canonical_spec K.poly).1 (Text.canonical_spec [-2, 0, 0, 1]).1
      (by rw [(Text.canonical_spec _).2, (Text.canonical_spec _).2, hsame.poly, hpoly]
          simp [Text.polyOf]; ring)
    simp only [QPoly.mk.injEq] at this
    exact Prod.ext this.1 this.2
  have hinit : initField realSage pyEnv 1 K = .ok k3Back := by rw [hKe]; exact k3Back_init hKcan
  have hback : ClearlyLegal (.make k3Back env3) := by
    refine ⟨cbrt2, k3_clear _ ?_⟩
    rw [Ball.mem_fin]
    have h3 := cbrt2_pow
    constructor
    · refine le_of_pow_le_pow_left₀ (n := 3) (by norm_num) cbrt2_pos.le ?_
      rw [h3]; norm_num
    · refine le_of_pow_le_pow_left₀ (n := 3) (by norm_num) (by norm_num) ?_
      rw [h3]; norm_num
  have hres := C66_same_object_partial (E := pyEnv) (bk := fun _ => 0) realSage_ok
    exists_plain.choose_spec.1 exists_plain.choose_spec.2.1 exists_plain.choose_spec.2.2.1 Text.readQ_ok
    hops hs ho (by rw [eK, e2]; exact hcan) (by rw [eK]; decide) hv hK hinit
    (fun α hα _ _ _ _ => .inl fun β hβ => by
      rw [eK] at hα hβ
      exact (K3_unique β hβ).trans (K3_unique α hα).symm)
    hback hm
  have _ := C66_same_object_one_root_partial (E := pyEnv) (bk := fun _ => 0) realSage_ok
    exists_plain.choose_spec.1 exists_plain.choose_spec.2.1 exists_plain.choose_spec.2.2.1 Text.readQ_ok
    hops hs ho
    (fun α β hα hβ => by
      rw [eK] at hα hβ
      exact (K3_unique β hβ).trans (K3_unique α hα).symm)
    (by rw [eK, e2]; exact hcan) (by rw [eK]; decide) hv hK hinit (F := env3) (nd := false) (m := 64) rfl hm
  refine ⟨s, c, K, s', hs, ho, hK, hinit, hm, ?_⟩
  rw [hres.1, e4]

/-- the object `c` with the enclosure `[1, 3/2]` -/
def early (c : Class) : Class := { c with mem := { c.mem with fld := (k3 ['a'] (.fin (5 / 4) (1 / 4))).field } }

/-- the field of `∛2` as `make` is asked for it when it is loaded -/
def k3Load : NamedField := k3 ['a']
  (.fin (23799235748341931870459 / 18889465931478580854784) (291971017 / 79228162514264337593543950336))

/-- the hypotheses of `C40_same_object_partial` are met: the field of `∛2` is saved with the enclosure
`[1, 3/2]`, work is done in it, and it is loaded -/
example : ∃ s c s', run (fun _ => 0) State.init opsBack = .ok s ∧ s.objs 0 = some c ∧
    makeStr pyEnv 1 (constructionOf plainText (early c).named).minpoly ['a']
      (constructionOf plainText (early c).named).emb 64 = .ok k3Load ∧
    step (fun _ => 0) s (.make k3Load env3) = .ok s' ∧ s'.handles = [0, 0] := by
  have hb := cbrt2_bounds
  have h1 : cbrt2 ∈ Ball.fin (5 / 4) (1 / 4) := by
    rw [Ball.mem_fin]; push_cast; constructor <;> linarith [hb.1, hb.2]
  have hops : ∀ op ∈ opsBack, ClearlyLegal op := by
    intro op hop
    simp only [opsBack, List.mem_cons, List.not_mem_nil, or_false] at hop
    rcases hop with rfl | rfl | rfl
    · exact ⟨_, k3_clear _ h1⟩
    · intro n hn e; have e : n = 3 := e; omega
    · intro n hn e; exact e
  have hev : (match run (fun _ => 0) State.init opsBack with
      | .ok s => (match s.objs 0 with
        | some c => decide (c.K.pol = [-2, 0, 0, 1] ∧ c.den = 1 ∧ c.name = ['a'] ∧ s.handles = [0])
        | none => false) && (match step (fun _ => 0) s (.make k3Load env3) with | .ok _ => true | _ => false)
      | _ => false) = true := by decide +kernel
  split at hev
  swap
  · cases hev
  next s hs =>
  rw [Bool.and_eq_true] at hev
  obtain ⟨hev, hst⟩ := hev
  split at hev
  swap
  · cases hev
  next c ho =>
  split at hst
  swap
  · cases hst
  next s' hm =>
  obtain ⟨e1, e2, e3, e4⟩ := of_decide_eq_true hev
  have eK : c.K = K3 := by cases hc : c.K; rw [hc] at e1; exact congrArg Nf.mk e1
  obtain ⟨root, hinv⟩ := run_inv hops ⟨_, inv_init⟩ hs
  have hsound := hinv.sound _ _ ho
  have hroot : root 0 = cbrt2 := K3_unique _ (by have := hsound.root; rwa [eK] at this)
  have hnf : c.mem.fld.nf = K3 := hsound.nf.trans eK
  have hKroot : c.K.IsRoot cbrt2 := by have := hsound.root; rwa [hroot] at this
  have hread : plainText.read (constructionOf plainText (early c).named).emb 64 =
      some (.fin (5 / 4) (1 / 4)) := exists_plain.choose_spec.2.2.2 _ _ _ _ (by norm_num)
  have hf : renfInit fpArb scale2Simple false 100 200 K3.pol (.fin (5 / 4) (1 / 4)) 64 =
      .ok k3Load.field := by
    have h : (match renfInit fpArb scale2Simple false 100 200 K3.pol (.fin (5 / 4) (1 / 4)) 64 with
      | .ok f => decide (f = k3Load.field) | _ => false) = true := by decide +kernel
    split at h
    · next f h' => rw [h', of_decide_eq_true h]
    · cases h
  have hacc : checkUnique fpArb scale2Simple 100 K3.pol (.fin (5 / 4) (1 / 4)) 64 = .ok true := by
    have h : (match checkUnique fpArb scale2Simple 100 K3.pol (.fin (5 / 4) (1 / 4)) 64 with
      | .ok b => b | _ => false) = true := by decide +kernel
    split at h
    · next b h' => rw [h', h]
    · cases h
  obtain ⟨k, hk, H⟩ := C40_same_object_partial (E := pyEnv) (bk := fun _ => 0) (c₀ := early c)
    Text.readQ_ok hops hs ho hKroot
    (by have := hsound.mem; rwa [hroot] at this)
    ⟨rfl, hnf.symm ▸ eK, hnf.symm, rfl, hKroot, h1⟩
    (by rw [eK, e2]; exact ⟨by norm_num, fun g hg _ => isUnit_of_dvd_one hg, by simp [K3]⟩)
    (by rw [e3]; exact ⟨'a', [], rfl, by decide, by simp⟩) (by rw [eK]; decide)
    (show (2 : ℤ) ≤ 64 by norm_num) hread (fun x hx => hx) (by rw [eK]; exact hacc)
    (.inl fun β hβ => K3_unique β (by rwa [eK] at hβ)) (by rw [eK]; exact hf) (n := 1) le_rfl
  have hkk : k = k3Load := by
    have hev : (match makeStep ⟨fpArb, scale2Simple, Text.readQ,
          ⟨fun _ _ => some (.fin (5 / 4) (1 / 4)), fun _ _ => []⟩, false, 100, 200⟩
          (Text.pretty ['a'] K3.pol 1) ['a'] (fun _ => .ok []) 64 with
        | .ok (.inr k) => decide (k = k3Load) | _ => false) = true := by decide +kernel
    have hmin : (constructionOf plainText (early c).named).minpoly = Text.pretty ['a'] K3.pol 1 := by
      show Text.pretty c.name K3.pol c.den = _
      rw [e3, e2]
    have hst : makeStep pyEnv (Text.pretty ['a'] K3.pol 1) ['a']
        (fixedEmb (constructionOf plainText (early c).named).emb 64) 64 =
        makeStep ⟨fpArb, scale2Simple, Text.readQ,
          ⟨fun _ _ => some (.fin (5 / 4) (1 / 4)), fun _ _ => []⟩, false, 100, 200⟩
          (Text.pretty ['a'] K3.pol 1) ['a'] (fun _ => .ok []) 64 := by
      simp only [makeStep, pyEnv, fixedEmb, Res.bind, hread, ne_eq, not_true_eq_false, if_false]
    have hk' : makeStr pyEnv 1 (constructionOf plainText (early c).named).minpoly c.name
        (constructionOf plainText (early c).named).emb 64 = .ok k := hk
    rw [hmin, e3] at hk'
    unfold makeStr makeFun at hk'
    rw [loop, hst] at hk'
    split at hev
    · next k' h =>
      rw [h] at hk'
      have : k' = k := by simpa using hk'
      rw [← this]
      exact of_decide_eq_true hev
    · cases hev
  subst hkk
  have hload : ClearlyLegal (.make k3Load env3) := by
    refine ⟨cbrt2, k3_clear _ ?_⟩
    rw [Ball.mem_fin]
    have h3 := cbrt2_pow
    constructor
    · refine le_of_pow_le_pow_left₀ (n := 3) (by norm_num) cbrt2_pos.le ?_
      rw [h3]; norm_num
    · refine le_of_pow_le_pow_left₀ (n := 3) (by norm_num) (by norm_num) ?_
      rw [h3]; norm_num
  have hres := H env3 hload s' hm
  refine ⟨s, c, s', hs, ho, ?_, hm, by rw [hres.1, e4]⟩
  rw [← hk]
  show _ = makeStr pyEnv 1 _ c.name _ _
  rw [e3]
  rfl

end EAntic.Py
