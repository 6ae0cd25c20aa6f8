import Verif.Spec.FieldText
import Verif.Props.Accept
import Verif.Props.TextProg

/-!
# C68: from the texts of fields to the answers of a program

A C++ program makes its fields from texts and then computes, compares, prints, hashes and reads.
-/

namespace EAntic.Cxx

/-- C68 from the beginning, for small balls, high precision and numbers of moderate size.  For every family
of irreducible polynomials of degree at least two and real roots there are radii, constants and precisions
such that for all texts of these polynomials and of balls with these roots inside: `make` returns fields
for all of them, and the trivial field for `make()`; and every program that starts with these fields and
without elements, and computes, compares, prints, hashes and reads, comes to an end as on exact real
numbers, or with an exception that must be thrown; or else the working precision of a refinement overflows,
or, if a number is rounded, `abort` is called as an exponent does not fit into a machine word.

Missing from the full statement: balls that are wider or hardly contain the root (`C52_isolating_counterexample`,
`C55_counterexample`), and numbers that are not `Sizeable` (`C44_precision_counterexample`). -/
theorem C68_from_text_partial {K : ℕ → Nf} {d : ℕ → ℤ} {α : ℕ → ℝ} (h0 : K 0 = ⟨[-1, 1]⟩) (hα0 : α 0 = 1)
    (hc : ∀ i, i ≠ 0 → (⟨(K i).pol, d i⟩ : QPoly).Canonical)
    (hi : ∀ i, i ≠ 0 → Irreducible (⟨(K i).pol, d i⟩ : QPoly).toPolyQ)
    (h3 : ∀ i, i ≠ 0 → 3 ≤ (K i).pol.length) (hα : ∀ i, i ≠ 0 → (K i).IsRoot (α i))
    (hs : ∀ i, i ≠ 0 → (K i).Sane (α i)) {A : ArbOps} (hA : A.Tight) (hC : A.Convergent) :
    ∃ (δ c : ℕ → ℝ) (p₀ : ℕ → ℤ), (∀ i, 0 < δ i ∧ 0 < c i) ∧
      ∀ (E : MakeEnv), E.A = A → Text.RatReader E.R →
      ∀ (t : ℕ → FieldText) (e₀ : Ball), (∀ i, i ≠ 0 → (t i).For E (K i) (d i) (α i) (δ i) (c i) (p₀ i)) →
        E.B.read "1 +/- 1".toList 64 = some e₀ → (1 : ℝ) ∈ e₀ →
        (∃ i n, i ≠ 0 ∧ (∀ k, n ≤ k →
            makeStr { E with n₂ := k } 1 (t i).minpoly (t i).gen (t i).emb (t i).prec = .ub) ∧
          ∃ e, E.B.read (t i).emb (t i).prec = some e ∧ Overflows A ⟨K i, e, (t i).prec, false⟩ (t i).prec) ∨
        ∃ f : ℕ → Field,
          (∀ k, makeStr { E with n₂ := k } 1 "a - 1".toList "a".toList "1 +/- 1".toList 64 =
            .ok ⟨f 0, 1, "a".toList⟩) ∧
          (∀ i, i ≠ 0 → ∃ n, ∀ k, n ≤ k →
            makeStr { E with n₂ := k } 1 (t i).minpoly (t i).gen (t i).emb (t i).prec =
              .ok ⟨f i, d i, (t i).gen⟩) ∧
          ∀ (N : ∀ i, NfOps (K i)) (strict : Bool) (bits : Widths) (T : TextLib) (γ : Type) (hf : Dbl → γ)
            (p : ℕ → ℤ), bits.Ok → T.Ok → (∀ i, 2 ≤ p i ∧ p i ≤ 2 ^ 63 ∧ p i ≤ if i = 0 then 64 else (t i).prec) →
            let code := libs K (fun _ => A) N (fun _ k => refineEmbedding A E.nd k) strict E.nd bits
            let code' := libs K (fun _ => A) N (fun _ k => refineAt A E.nd k) strict E.nd bits
            let start : World := ⟨fun i => renfInitSet (f i), fun _ => none, 0, fun _ => none⟩
            ∀ (io : Streams) (cs : List TCmd),
              AllowedSizedT (code' 0) T hf α p (fun _ => .absent) io cs →
              EndsW (∃ c ∈ cs, c.rounds) (fun e _ => ThrowsInT (code' 0) T hf α (fun _ => .absent) io cs e)
                (fun k => execAllT (code k) T hf cs io) (fun k => execAllT (code' k) T hf cs io) start
                fun r _ => ∃ S', StepsT (code' 0) T hf α (fun _ => .absent) io cs r.1 S' r.2 := by
  have hK : ∀ i, (K i).Ok := by
    intro i
    by_cases e : i = 0
    · subst e; rw [h0]; exact K1_ok
    · exact ok_of_irreducible (hc i e) (hi i e)
  have hα' : ∀ i, (K i).IsRoot (α i) := by
    intro i
    by_cases e : i = 0
    · subst e; rw [h0, hα0]; exact K1_root
    · exact hα i e
  have hs' : ∀ i, 3 ≤ (K i).pol.length → (K i).Sane (α i) := by
    intro i h
    by_cases e : i = 0
    · subst e; rw [h0] at h; exact absurd h (by decide)
    · exact hs i e
  obtain ⟨δ₂, hδ₂, H₂⟩ := C68_programs_end_partial hK hα' hs' (A := fun _ => A) (fun _ => hA) fun _ => hC
  have key : ∀ i, ∃ (δ c : ℝ) (p₀ : ℤ), 0 < δ ∧ 0 < c ∧ δ ≤ δ₂ i ∧ (i ≠ 0 → 2 ≤ p₀ ∧
      ∀ (E : MakeEnv), E.A = A → ∀ (t : FieldText) (e : Ball), p₀ ≤ t.prec → Text.IsVarname t.gen →
        Text.Reads E.R t.gen t.minpoly (⟨(K i).pol, d i⟩ : QPoly).toPolyQ → E.B.read t.emb t.prec = some e →
        e.Inside (α i) δ (c * 2 ^ (-(2 * t.prec))) → ∃ n,
          (∃ f, (∀ n₂ j, n ≤ n₂ → 1 ≤ j →
              makeStr { E with n₂ := n₂ } j t.minpoly t.gen t.emb t.prec = .ok ⟨f, d i, t.gen⟩) ∧
            f.Near (K i) (α i) δ ∧ f.prec = t.prec ∧ f.immutable = false ∧ t.prec ≤ f.emb.relAccuracyBits) ∨
          (∀ n₂ j, n ≤ n₂ → 1 ≤ j → makeStr { E with n₂ := n₂ } j t.minpoly t.gen t.emb t.prec = .ub) ∧
            Overflows A ⟨K i, e, t.prec, false⟩ t.prec) := by
    intro i
    by_cases e : i = 0
    · exact ⟨δ₂ i, 1, 0, hδ₂ i, one_pos, le_rfl, fun h => absurd e h⟩
    · obtain ⟨δ₁, hδ₁, c, P, hc0, H₁⟩ := C52_make_succeeds_partial (hc i e) (hi i e) (h3 i e) (hα i e) (hs i e) hA
      refine ⟨min δ₁ (δ₂ i), c, max P 2, lt_min hδ₁ (hδ₂ i), hc0, min_le_right _ _, fun _ => ⟨le_max_right _ _, ?_⟩⟩
      intro E hE t e hp hv hr he hin
      exact H₁ E hE _ (min_le_left _ _) t.minpoly t.gen t.emb t.prec e ((le_max_left _ _).trans hp) hv hr he hin
  choose δ c p₀ k1 k2 k3 k4 using key
  refine ⟨δ, c, p₀, fun i => ⟨k1 i, k2 i⟩, ?_⟩
  intro E hE hR t e₀ ht he₀ h1
  by_cases hov : ∃ i n, i ≠ 0 ∧ (∀ k, n ≤ k →
      makeStr { E with n₂ := k } 1 (t i).minpoly (t i).gen (t i).emb (t i).prec = .ub) ∧
    ∃ e, E.B.read (t i).emb (t i).prec = some e ∧ Overflows A ⟨K i, e, (t i).prec, false⟩ (t i).prec
  · exact .inl hov
  right
  have hf : ∀ i, ∃ f : Field, (i = 0 → f = ⟨⟨[-1, 1]⟩, e₀, 64, false⟩) ∧ (i ≠ 0 → (∃ n, ∀ k, n ≤ k →
      makeStr { E with n₂ := k } 1 (t i).minpoly (t i).gen (t i).emb (t i).prec = .ok ⟨f, d i, (t i).gen⟩) ∧
      f.Near (K i) (α i) (δ i) ∧ f.prec = (t i).prec) := by
    intro i
    by_cases e : i = 0
    · exact ⟨_, fun _ => rfl, fun h => absurd e h⟩
    · obtain ⟨g1, g2, g3, b, g4, g5⟩ := ht i e
      obtain ⟨q1, q2⟩ := k4 i e
      obtain ⟨n, ⟨f, a1, a2, a3, a4, a5⟩ | ⟨a1, a2⟩⟩ := q2 E hE (t i) b g1 g2 g3 g4 g5
      · exact ⟨f, fun h => absurd h e, fun _ => ⟨⟨n, fun k hk => a1 k 1 hk le_rfl⟩, a2, a3⟩⟩
      · exact absurd ⟨i, n, e, fun k hk => a1 k 1 hk le_rfl, b, g4, a2⟩ hov
  choose f f0 f1 using hf
  refine ⟨f, ?_, fun i e => (f1 i e).1, ?_⟩
  · intro k
    rw [f0 0 rfl]
    exact C52_trivial (E := { E with n₂ := k }) hR he₀ h1 le_rfl
  intro N strict bits T γ hf p hb hT hp code code' start io cs hal
  have hfld : ∀ i, FieldStart (K i) (α i) (δ₂ i) (p i) E.nd (start.fld i) := by
    intro i
    by_cases e : i = 0
    · subst e
      show FieldStart (K 0) (α 0) (δ₂ 0) (p 0) E.nd (renfInitSet (f 0))
      rw [f0 0 rfl, h0, hα0]
      exact ⟨rfl, h1, by have := (hp 0).2.2; simpa [renfInitSet] using this, fun h => absurd h (by decide)⟩
    · obtain ⟨-, ⟨g1, m, r, g2, g3, g4⟩, g5⟩ := f1 i e
      have hm : α i ∈ (renfInitSet (f i)).emb := by
        show α i ∈ (f i).emb
        rw [g2]; exact g3
      have hpi : p i ≤ (renfInitSet (f i)).prec := by
        have := (hp i).2.2
        rwa [if_neg e, ← g5] at this
      exact ⟨g1, hm, hpi, fun _ => ⟨⟨g1, m, r, g2, g3, g4.trans (k3 i)⟩, hpi, by simp [start, renfInitSet]⟩⟩
  obtain ⟨n, h⟩ := H₂ N strict E.nd bits T γ hf p hb hT (fun i => ⟨(hp i).1, (hp i).2.1⟩) (fun _ => .absent) io start cs
    ⟨hfld, fun x h => rfl, fun x h => by cases x <;> simp [vars] at h,
      fun x i a h => by cases x <;> simp [vars] at h, fun _ _ _ _ _ h => by simp [start] at h,
      fun _ h => by simp [start] at h, fun _ h => by simp [start] at h⟩ hal
  refine ⟨n, ?_⟩
  rcases h with ⟨z, w', ⟨S', a1, -⟩, a2⟩ | h
  · exact .inl ⟨z, w', ⟨S', a1⟩, a2⟩
  · exact .inr h

/-! ### The theorem applies -/

/-- the program: construct `∛2`, print it, and hash it -/
def printCbrt2 : List TCmd := [.call (.constructVec 0 1 [0, 1] 1), .print 0, .hash 0]

/-- the rational numbers and copies of the field of `∛2` are made from texts; `∛2` is constructed, printed
and hashed -/
example : ∃ (E : MakeEnv) (t : ℕ → FieldText), E.A = fpArb ∧
    ((∃ i e, i ≠ 0 ∧ E.B.read (t i).emb (t i).prec = some e ∧
      Overflows fpArb ⟨K3, e, (t i).prec, false⟩ (t i).prec) ∨
    ∃ f : ℕ → Field, (∀ i, i ≠ 0 → ∃ n, ∀ k, n ≤ k →
        makeStr { E with n₂ := k } 1 (t i).minpoly (t i).gen (t i).emb (t i).prec = .ok ⟨f i, 1, ['x']⟩) ∧
      EndsW (∃ c ∈ printCbrt2, c.rounds) (fun e _ => ThrowsInT (libs lib.K (fun _ => fpArb) demoOps
            (fun _ k => refineAt fpArb false k) false false lp64 0) textLib (γ := Dbl) id gens (fun _ => .absent)
            ⟨⟨[], false⟩, none, []⟩ printCbrt2 e)
        (fun k => execAllT (libs lib.K (fun _ => fpArb) demoOps (fun _ k => refineEmbedding fpArb false k) false
          false lp64 k) textLib id printCbrt2 ⟨⟨[], false⟩, none, []⟩)
        (fun k => execAllT (libs lib.K (fun _ => fpArb) demoOps (fun _ k => refineAt fpArb false k) false
          false lp64 k) textLib id printCbrt2 ⟨⟨[], false⟩, none, []⟩)
        ⟨fun i => renfInitSet (f i), fun _ => none, 0, fun _ => none⟩
        fun r _ => ∃ s, IsPrinted textLib gens 1 cbrt2 s ∧ r.2.out = s) := by
  have hK : ∀ i, i ≠ 0 → lib.K i = K3 ∧ gens i = cbrt2 := by
    intro i h
    cases i with
    | zero => exact absurd rfl h
    | succ i => exact ⟨rfl, rfl⟩
  obtain ⟨δ, c, p₀, hδ, H⟩ := C68_from_text_partial (K := lib.K) (d := fun _ => 1) (α := gens) rfl rfl
    (fun i h => by rw [(hK i h).1]; exact K3_canonical) (fun i h => by rw [(hK i h).1]; exact K3_irreducible)
    (fun i h => by rw [(hK i h).1]; decide) (fun i h => by rw [(hK i h).1, (hK i h).2]; exact K3_root)
    (fun i h => by rw [(hK i h).1, (hK i h).2]; exact K3_sane) fpArb_tight fpArb_convergent
  choose P hP0 hP using fun i => exists_inside (gens i) (δ i) (c i) (hδ i).1
  choose b hb using fun i => hP i (max (P i) (p₀ i)) (le_max_left _ _)
  let B : BallText := ⟨fun s _ => if s.head? = some '1' then some (.fin 1 1) else some (b s.length), fun _ _ => []⟩
  let E : MakeEnv := ⟨fpArb, scale2Simple, Text.readQ, B, false, 100, 200⟩
  let t : ℕ → FieldText := fun i =>
    ⟨Text.pretty ['x'] K3.pol 1, ['x'], List.replicate i 'x', max (P i) (p₀ i)⟩
  have ht : ∀ i, i ≠ 0 → (t i).For E (lib.K i) 1 (gens i) (δ i) (c i) (p₀ i) := by
    intro i h
    refine ⟨le_max_right _ _, ⟨'x', [], rfl, by decide, by simp⟩, ?_, b i, ?_, hb i⟩
    · rw [(hK i h).1]
      exact Text.pretty_reads Text.readQ_ok ['x'] K3.pol 1 (by decide)
    · cases i with
      | zero => exact absurd rfl h
      | succ i =>
        show (if (List.replicate (i + 1) 'x').head? = some '1' then some (.fin 1 1) else
          some (b (List.replicate (i + 1) 'x').length)) = some (b (i + 1))
        rw [if_neg (by simp [List.replicate_succ]), List.length_replicate]
  refine ⟨E, t, rfl, ?_⟩
  rcases H E rfl Text.readQ_ok t (.fin 1 1) ht rfl ⟨by norm_num, by norm_num⟩ with
    ⟨i, n, h, -, e, h1, h2⟩ | ⟨f, -, h2, h3⟩
  · exact .inl ⟨i, e, h, h1, by rw [(hK i h).1] at h2; exact h2⟩
  refine .inr ⟨f, h2, ?_⟩
  have hg : realValue (gens 1) [0, 1] 1 = cbrt2 := by simp [realValue, toPoly, gens]
  have h0 : Function.update (fun _ : ℕ => Slot.absent) 0 (.elem 1 cbrt2) 0 = .elem 1 cbrt2 := by simp
  obtain ⟨n, h⟩ := h3 demoOps false lp64 textLib Dbl id (fun _ => 2) lp64_ok textLib_ok (fun i => by
      refine ⟨le_rfl, by norm_num, ?_⟩
      split
      · norm_num
      · exact (hP0 i).trans (le_max_left _ _)) ⟨⟨[], false⟩, none, []⟩ printCbrt2 (by
    refine ⟨⟨rfl, by show 2 ≤ K3.degree; decide, by decide⟩, trivial, ?_⟩
    rintro _ _ _ ⟨rfl, _, rfl, -, rfl⟩
    rw [hg]
    refine ⟨⟨1, cbrt2, h0, by show K3.degree < _; decide⟩, fun _ => cbrt2_printable _ h0 le_rfl, ?_⟩
    rintro _ _ _ ⟨rfl, rfl, -⟩
    exact ⟨⟨1, cbrt2, h0⟩, cbrt2_printable _ h0 le_rfl, fun _ _ _ _ => trivial⟩)
  refine ⟨n, ?_⟩
  rcases h with ⟨r, w', ⟨S', a1⟩, a2⟩ | h
  · refine .inl ⟨r, w', ?_, a2⟩
    obtain ⟨as, io⟩ := r
    rcases as with _ | ⟨_, _ | ⟨_, _ | ⟨_, _ | _⟩⟩⟩
    · exact a1.elim
    · obtain ⟨_, _, _, a1⟩ := a1
      exact a1.elim
    · obtain ⟨_, _, _, _, _, _, a1⟩ := a1
      exact a1.elim
    · obtain ⟨_, _, ⟨rfl, _, -, -, rfl⟩, _, _, ⟨rfl, -, i, a, s, q1, q2, rfl⟩, _, _, ⟨rfl, rfl, -⟩, -, rfl⟩ := a1
      rw [hg, h0] at q1
      cases q1
      exact ⟨s, q2, by simp⟩
    · obtain ⟨_, _, _, _, _, _, _, _, _, a1⟩ := a1
      exact a1.elim
  · exact .inr h

end EAntic.Cxx
