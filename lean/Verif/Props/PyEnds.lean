import Verif.Lemmas.CxxSetting
import Verif.Props.Py
import Verif.Props.CxxEnds

/-!
# C65: the comparisons of Python come to an end
-/

namespace EAntic.Py
open Cxx

section
variable {K : ℕ → Nf} {A : ℕ → ArbOps} {N : ∀ i, NfOps (K i)}
  {R R' : ℕ → ℕ → Field → ℤ → Res Field} {strict nd : Bool} {bits : Widths}
  {α : ℕ → ℝ} {p : ℕ → ℤ} {I : ℕ → Field → Prop} {S : ℕ → Slot} {w : World} {V : Prop}
  {T : String → World → Prop}

/-- comparisons in a setting in which queries end -/
theorem richcmpW_ends (X : Setting K A N R R' α p I) (op : Rel) {x y i : ℕ} {a b : ℝ}
    (h : Represents (libs K A N R' strict nd bits 0) α I S w) (hx : S x = .elem i a) (hy : S y = .elem i b)
    (hs : CmpSize (K i) (α i) (p i) a b) :
    EndsW V T (fun k => richcmp (libs K A N R strict nd bits k) (.user x) (.user y) op)
      (fun k => richcmp (libs K A N R' strict nd bits k) (.user x) (.user y) op) w
      fun r w' => (r = true ↔ op.Holds a b) ∧ Represents (libs K A N R' strict nd bits 0) α I S w' := by
  let code := libs K A N R strict nd bits
  let code' := libs K A N R' strict nd bits
  have good : ∀ k, Good True (fun _ _ => False)
      (fun r w' => (r = true ↔ op.Holds a b) ∧ Represents (code' 0) α I S w')
      (richcmp (code' k) (.user x) (.user y) op w) := fun k =>
    (richcmp_good (L := code' k) (X.inv k) trivial (h.lib (L' := code' k) rfl) (x := .user x)
      (y := .user y) hx hy op).mono fun _ _ h => ⟨h.1, h.2.lib (L' := code' 0) rfl⟩
  refine (((?_ : EndsW False (fun _ _ => True) (fun k => richcmp (code k) (.user x) (.user y) op)
    (fun k => richcmp (code' k) (.user x) (.user y) op) w fun _ _ => True).and_good good).mono
      fun _ _ h => h.2).weaken False.elim fun _ _ h => h.elim
  have e : EndsW False (fun _ _ => True) (fun k => lt (code k) (.user x) (.user y))
      (fun k => lt (code' k) (.user x) (.user y)) w fun _ w' => Represents (code' 0) α I S w' :=
    ((ltW_ends X h (x := .user x) (y := .user y) hx hy ⟨hs, fun h => absurd rfl h⟩).and_good (U := True)
      (T' := fun _ _ => True) (Post' := fun _ w' => Represents (code' 0) α I S w') fun k =>
        (lt_good (L := code' k) (X.inv k) trivial
        (h.lib (L' := code' k) rfl) (x := .user x) (y := .user y) hx hy fun _ _ _ _ => trivial).mono
          fun _ _ h => h.2.2.lib (L' := code' 0) rfl).mono fun _ _ h => h.2
  unfold richcmp
  refine e.bind fun r w₁ h₁ => EndsW.ite (fun _ => EndsW.pure trivial) fun _ => ?_
  have e₂ : EndsW False (fun _ _ => True) (fun k => eq (code k) (.user x) (.user y))
      (fun k => eq (code' k) (.user x) (.user y)) w₁ fun _ _ => True :=
    EndsW.det (fun _ => rfl) (fun _ => rfl) ((eq_good (L := code' 0) (X.inv 0) h₁ (x := .user x)
      (y := .user y) hx hy fun _ _ _ _ => trivial).mono fun _ _ _ => trivial)
  exact e₂.bind fun r' w₂ _ => EndsW.ite (fun _ => EndsW.pure trivial) fun _ => EndsW.pure trivial

end

/-- C65, for enclosures that are narrow enough and numbers of moderate size: the comparisons of elements of
`RealEmbeddedNumberField` come to an end.  For every family of fields there are radii such that every
comparison that starts with enclosures that are not wider returns the answer for the real numbers, however
many rounds its loops are given, and leaves all elements as they were; or the working precision of a refinement
overflows.

Missing from the full statement: enclosures that are wider (see `C55_counterexample`), and numbers that
are not `Sizeable` (see `C44_precision_counterexample`). -/
theorem C65_richcmp_ends_partial {K : ℕ → Nf} {α : ℕ → ℝ} (hK : ∀ i, (K i).Ok)
    (hα : ∀ i, (K i).IsRoot (α i)) (hs : ∀ i, 3 ≤ (K i).pol.length → (K i).Sane (α i))
    {A : ℕ → ArbOps} (hT : ∀ i, (A i).Tight) (hC : ∀ i, (A i).Convergent) :
    ∃ δ : ℕ → ℝ, (∀ i, 0 < δ i) ∧ ∀ (N : ∀ i, NfOps (K i)) (strict ndebug : Bool) (bits : Widths)
      (p : ℕ → ℤ), (∀ i, 2 ≤ p i ∧ p i ≤ 2 ^ 63) →
      let code := libs K A N (fun i k => refineEmbedding (A i) ndebug k) strict ndebug bits
      let code' := libs K A N (fun i k => refineAt (A i) ndebug k) strict ndebug bits
      let I := fun i => FieldStart (K i) (α i) (δ i) (p i) ndebug
      ∀ (S : ℕ → Slot) (w : World) (x y i : ℕ) (a b : ℝ) (op : Rel), Represents (code' 0) α I S w →
        S x = .elem i a → S y = .elem i b → CmpSize (K i) (α i) (p i) a b →
        EndsW False (fun _ _ => False) (fun k => richcmp (code k) (.user x) (.user y) op)
          (fun k => richcmp (code' k) (.user x) (.user y) op) w
          fun r w' => (r = true ↔ op.Holds a b) ∧ Represents (code' 0) α I S w' := by
  obtain ⟨δ, hδ, H⟩ := exists_setting hK hα hs hT hC
  refine ⟨δ, hδ, ?_⟩
  intro N strict ndebug bits p hp code code' I S w x y i a b op h hx hy hs
  exact richcmpW_ends (H N ndebug p hp) op h hx hy hs

end EAntic.Py

namespace EAntic.Cxx
open Py

/-- two elements of field 1: `∛2` and 2, with coarse enclosures -/
def demoPair (f : ℕ → Field) : World where
  fld := f
  cell c := match c with
    | 0 => some (1, ⟨⟨[0, 1], 1, 0⟩, .fin 1 1⟩)
    | 1 => some (1, ⟨⟨[2], 1, 2⟩, .fin 1 1⟩)
    | _ => none
  next := 2
  obj x := match x with
    | .user 0 => some ⟨some 1, 0⟩
    | .user 1 => some ⟨some 1, 1⟩
    | _ => none

/-- the numbers in `demoPair` -/
noncomputable def demoPairSlots : ℕ → Slot
  | 0 => .elem 1 cbrt2
  | 1 => .elem 1 2
  | _ => .absent

theorem demoPair_wf {l : List ℤ} (hl : l = [0, 1] ∨ l = [2] ∨ l = [-2, 1]) {r : ℤ} : (⟨l, 1, r⟩ : NfElem).Wf K3 := by
  have hl' : K3.isLinear = false := rfl
  have hq : K3.isQuadratic = false := rfl
  refine ⟨show (0 : ℤ) < 1 by norm_num, ?_, by rw [hl']; simp, by rw [hq]; simp, fun _ _ => ?_⟩
  · show Nat.gcd 1 _ = 1
    simp
  · rcases hl with rfl | rfl | rfl <;> exact ⟨by show _ ≤ 3; simp, by simp⟩

theorem demoPair_rep {L : Lib} (hL : L.K = lib.K) {I : ℕ → Field → Prop} {f : ℕ → Field} (hf : ∀ i, I i (f i)) :
    Represents L gens I demoPairSlots (demoPair f) := by
  obtain ⟨b1, b2⟩ := cbrt2_bounds
  refine ⟨hf, ?_, ?_, ?_, ?_, ?_, ?_⟩
  · rintro ((_ | _ | x) | x) h <;> simp [vars, demoPairSlots] at h <;> rfl
  · rintro ((_ | _ | x) | x) h <;> simp [vars, demoPairSlots] at h
  · rintro ((_ | _ | x) | x) i a h <;> simp [vars, demoPairSlots] at h
    · obtain ⟨rfl, rfl⟩ := h
      refine ⟨0, _, rfl, rfl, ?_, ?_, ?_⟩
      · rw [hL]; exact demoPair_wf (by simp)
      · simp [NfElem.val, realValue, toPoly, gens]
      · show cbrt2 ∈ Ball.fin 1 1
        rw [Ball.mem_fin]; push_cast; constructor <;> linarith
    · obtain ⟨rfl, rfl⟩ := h
      refine ⟨1, _, rfl, rfl, ?_, ?_, ?_⟩
      · rw [hL]; exact demoPair_wf (by simp)
      · simp [NfElem.val, realValue, toPoly]
      · show (2 : ℝ) ∈ Ball.fin 1 1
        rw [Ball.mem_fin]; push_cast; constructor <;> linarith
  · rintro ((_ | _ | x) | x) ((_ | _ | y) | y) i j c h h' <;> simp [demoPair] at h h' ⊢ <;> omega
  · rintro (_ | _ | c) h - <;> simp [demoPair] at h
    · exact ⟨.user 0, 1, rfl⟩
    · exact ⟨.user 1, 1, rfl⟩
  · rintro (_ | _ | c) h <;> simp [demoPair] at h ⊢

/-- The theorem applies: with floating point balls there are enclosures of `∛2` from which `∛2 < 2` is
answered with yes. -/
example : ∃ f : ℕ → Field, (∀ i, cbrt2 ∈ (f (i + 1)).emb) ∧
    let code : ℕ → Lib := libs lib.K (fun _ => fpArb) demoOps
      (fun _ k => refineEmbedding fpArb false k) false false lp64
    ∃ n : ℕ, (∃ w', ∀ k, n ≤ k →
        richcmp (code k) (.user 0) (.user 1) .lt (demoPair f) = .ok (true, w')) ∨
      ∀ k, n ≤ k → richcmp (code k) (.user 0) (.user 1) .lt (demoPair f) = .ub := by
  obtain ⟨δ, hδ, H⟩ := C65_richcmp_ends_partial (K := lib.K) (α := gens) (A := fun _ => fpArb)
    (fun i => match i with | 0 => K1_ok | _ + 1 => K3_ok)
    (fun i => match i with | 0 => K1_root | _ + 1 => K3_root)
    (fun i h => match i, h with | 0, h => absurd h (by decide) | _ + 1, _ => K3_sane)
    (fun _ => fpArb_tight) fun _ => fpArb_convergent
  have key : ∀ i, ∃ f : Field, cbrt2 ∈ f.emb ∧ FieldStart K3 cbrt2 (δ i) 64 false f := by
    intro i
    obtain ⟨r, r0, r1⟩ := exists_rat_btwn (hδ i)
    obtain ⟨m, m0, m1⟩ := exists_rat_btwn (show cbrt2 - r < cbrt2 by linarith)
    have hm : cbrt2 ∈ Ball.fin m r := by
      rw [Ball.mem_fin]; constructor <;> linarith
    exact ⟨⟨K3, .fin m r, 64, false⟩, hm, rfl, hm, by norm_num, fun _ =>
      ⟨⟨rfl, m, r, rfl, hm, r1.le⟩, by norm_num, by simp⟩⟩
  choose f hf hs using key
  refine ⟨fun i => match i with
    | 0 => { nf := K1, emb := .fin 1 1, prec := 64 }
    | i + 1 => f (i + 1), fun i => hf _, ?_⟩
  intro code
  have hfld : ∀ i, FieldStart (lib.K i) (gens i) (δ i) 64 false (match i with
      | 0 => { nf := K1, emb := .fin 1 1, prec := 64 }
      | i + 1 => f (i + 1)) := by
    intro i
    cases i with
    | zero => exact ⟨rfl, by show (1 : ℝ) ∈ Ball.fin 1 1; rw [Ball.mem_fin]; norm_num, by norm_num,
        fun h => absurd h (by decide)⟩
    | succ i => exact hs (i + 1)
  obtain ⟨b1, b2⟩ := cbrt2_bounds
  obtain ⟨n, h⟩ := H demoOps false false lp64 (fun _ => 64) (fun _ => by norm_num) demoPairSlots _ 0 1 1 cbrt2 2
    .lt (demoPair_rep (L := libs _ _ _ _ _ _ _ _) rfl hfld) rfl rfl
    ⟨sizeable3 (demoPair_wf (r := 0) (l := [0, 1]) (by simp)) (by decide) (by simp [NfElem.val, realValue, toPoly])
        (by norm_num),
      sizeable3 (demoPair_wf (r := 0) (l := [2]) (by simp)) (by decide) (by simp [NfElem.val, realValue, toPoly])
        (by norm_num),
      sizeable3 (demoPair_wf (r := 0) (l := [-2, 1]) (by simp)) (by decide)
        (by simp [NfElem.val, realValue, toPoly]; ring) (by norm_num)⟩
  refine ⟨n, ?_⟩
  rcases h with ⟨r, w', ⟨h1, -⟩, h2⟩ | ⟨s, w', h1, -⟩ | h | ⟨h, -⟩
  · obtain rfl : r = true := h1.2 (show cbrt2 < 2 by linarith)
    exact .inl ⟨w', fun k hk => (h2 k hk).1⟩
  · exact h1.elim
  · exact .inr fun k hk => (h k hk).1
  · exact h.elim

/-- from six digits of `∛2`, all six comparisons of `∛2` with 2 -/
example : ([Rel.eq, .ne, .lt, .gt, .le, .ge].map fun op =>
    match (do
      fromSage (libs (fun _ => K3) (fun _ => fpArb) (fun _ => cubOps)
        (fun _ k => refineEmbedding fpArb false k) false false lp64 64) (.user 0) 1 [0, 1]
      fromSage (libs (fun _ => K3) (fun _ => fpArb) (fun _ => cubOps)
        (fun _ k => refineEmbedding fpArb false k) false false lp64 64) (.user 1) 1 [2]
      richcmp (libs (fun _ => K3) (fun _ => fpArb) (fun _ => cubOps)
        (fun _ k => refineEmbedding fpArb false k) false false lp64 64) (.user 0) (.user 1) op : W Bool)
      ⟨fun _ => ⟨K3, .fin (82570 / 65536) (1 / 65536), 64, false⟩, fun _ => none, 0, fun _ => none⟩ with
    | .ok (r, _) => some r | _ => none) = [some false, some true, some true, some false, some true, some false] := by
  decide +kernel

end EAntic.Cxx
