import Verif.Lemmas.CxxSetting
import Verif.Props.Modelled
import Verif.Props.Ends

/-!
# C++ programs come to an end
-/

open Polynomial

namespace EAntic

namespace Cxx

/-- C62, for enclosures that are narrow enough and numbers of moderate size.  For every family of
fields there are radii such that every program of calls of the C++ layer that starts with enclosures
that are not wider comes to an end, with an outcome that does not depend on how many rounds its loops
are given: it returns the answers of exact arithmetic with the memory in order; or it throws, and only
where the documentation says so; or the working precision of a refinement overflows; or, if it rounds a
number, it calls `abort` as the exponent of an enclosure does not fit into a machine word.

Missing from the full statement: enclosures that are wider (see `C55_counterexample`), and numbers that
are not `Sizeable` (see `C44_precision_counterexample`). -/
theorem C62_programs_end_partial {K : ℕ → Nf} {α : ℕ → ℝ} (hK : ∀ i, (K i).Ok)
    (hα : ∀ i, (K i).IsRoot (α i)) (hs : ∀ i, 3 ≤ (K i).pol.length → (K i).Sane (α i))
    {A : ℕ → ArbOps} (hT : ∀ i, (A i).Tight) (hC : ∀ i, (A i).Convergent) :
    ∃ δ : ℕ → ℝ, (∀ i, 0 < δ i) ∧ ∀ (N : ∀ i, NfOps (K i)) (strict ndebug : Bool) (bits : Widths)
      (p : ℕ → ℤ), bits.Ok → (∀ i, 2 ≤ p i ∧ p i ≤ 2 ^ 63) →
      let code := libs K A N (fun i k => refineEmbedding (A i) ndebug k) strict ndebug bits
      let code' := libs K A N (fun i k => refineAt (A i) ndebug k) strict ndebug bits
      let I := fun i => FieldStart (K i) (α i) (δ i) (p i) ndebug
      ∀ (S : ℕ → Slot) (w : World) (cs : List Cmd),
        Represents (code' 0) α I S w → AllowedSized (code' 0) α p S cs →
        EndsW (∃ c ∈ cs, c.rounds) (fun s _ => ThrowsIn (code' 0) α S cs s)
          (fun k => execAll (code k) cs) (fun k => execAll (code' k) cs) w
          fun as w' => ∃ S', Steps (code' 0) α S cs as S' ∧ Represents (code' 0) α I S' w' := by
  obtain ⟨δ, hδ, H⟩ := exists_setting hK hα hs hT hC
  refine ⟨δ, hδ, ?_⟩
  intro N strict ndebug bits p hb hp code code' I S w cs h hv
  exact execAllW_ends (H N ndebug p hp) hb h hv

/-- exact arithmetic of the fields of the example -/
noncomputable def demoOps : ∀ i, NfOps (lib.K i)
  | 0 => nfOps K1_ok
  | _ + 1 => cubOps

/-- Make `∛2`, subtract one, ask for the sign and the floor, and compare with the number 2 of the
trivial field. -/
def demoEnds : List Cmd :=
  [.constructVec 0 1 [0, 1] 1, .binopZ .sub 0 1, .sgn 0, .floor 0, .constructZ 1 0 2, .lt 0 1]

theorem demoEnds_allowed (R : ℕ → ℕ → Field → ℤ → Res Field) (strict ndebug : Bool) :
    AllowedSized (libs lib.K (fun _ => fpArb) demoOps R strict ndebug lp64 0) gens (fun _ => 64)
      (fun _ => .absent) demoEnds := by
  have wf : ∀ l ∈ ([[-1, 1], [2], [-3, 1]] : List (List ℤ)), (⟨l, 1, 0⟩ : NfElem).Wf K3 := by
    intro l hl
    have hl' : K3.isLinear = false := rfl
    have hq : K3.isQuadratic = false := rfl
    refine ⟨show (0 : ℤ) < 1 by norm_num, ?_, by rw [hl']; simp, by rw [hq]; simp, fun _ _ => ?_⟩
    · show Nat.gcd 1 _ = 1
      simp
    · simp only [List.mem_cons, List.not_mem_nil, or_false] at hl
      rcases hl with rfl | rfl | rfl <;> decide
  have s1 : Sizeable K3 cbrt2 64 (cbrt2 - 1) :=
    sizeable3 (wf [-1, 1] (by simp)) (by decide) (by simp [NfElem.val, realValue, toPoly]; ring) (by norm_num)
  have s2 : Sizeable K3 cbrt2 64 2 :=
    sizeable3 (wf [2] (by simp)) (by decide) (by simp [NfElem.val, realValue, toPoly]) (by norm_num)
  have s3 : Sizeable K3 cbrt2 64 (cbrt2 - 1 - 2) := by
    obtain ⟨h1, h2⟩ := cbrt2_bounds
    have := sizeable_of_one_le K3_ok K3_root (by rw [abs_of_nonneg (by linarith)]; exact h1)
      (wf [-3, 1] (by simp)) (p := 64) (by norm_num) (k := 4) (by
        rw [abs_of_nonneg (by linarith)]
        simp only [List.map_cons, List.map_nil, toPoly, eval_add, eval_C, eval_mul, eval_X]
        norm_num
        linarith) (by norm_num)
    rwa [show (⟨[-3, 1], 1, 0⟩ : NfElem).val cbrt2 = cbrt2 - 1 - 2 by
      simp [NfElem.val, realValue, toPoly]; ring] at this
  have lin : ∀ x, Sizeable K1 1 64 x := fun x e _ _ => .inl (rational_of_linear rfl)
  have hg : realValue (gens 1) [0, 1] 1 = cbrt2 := by simp [realValue, toPoly, gens]
  refine ⟨⟨rfl, by show 2 ≤ K3.degree; decide, by decide⟩, trivial, ?_⟩
  rintro _ _ ⟨rfl, rfl⟩
  refine ⟨⟨⟨1, _, by simp; rfl⟩, by simp⟩, trivial, ?_⟩
  rintro _ _ ⟨i, a, h, rfl, rfl⟩
  simp only [Function.update_self, Slot.elem.injEq] at h
  obtain ⟨rfl, rfl⟩ := h
  have hv : BinK.sub.real (realValue (gens 1) [0, 1] 1) ((1 : ℤ) : ℝ) = cbrt2 - 1 := by
    rw [hg]; simp [BinK.real]
  refine ⟨⟨1, _, by simp; rfl⟩, ?_, ?_⟩
  · intro i a h
    simp only [Function.update_self, Slot.elem.injEq] at h
    obtain ⟨rfl, rfl⟩ := h
    rw [hv]; exact s1
  rintro _ _ ⟨rfl, -⟩
  refine ⟨⟨1, _, by simp; rfl⟩, ?_, ?_⟩
  · intro i a h
    simp only [Function.update_self, Slot.elem.injEq] at h
    obtain ⟨rfl, rfl⟩ := h
    rw [hv]; exact s1
  rintro _ _ ⟨rfl, -⟩
  refine ⟨by simp [Valid], trivial, ?_⟩
  rintro _ _ ⟨rfl, rfl⟩
  refine ⟨⟨⟨1, _, by simp; rfl⟩, 0, _, by simp; rfl⟩, ?_, fun _ _ _ => trivial⟩
  intro i a j b h1 h2
  simp at h1 h2
  obtain ⟨rfl, rfl⟩ := h1
  obtain ⟨rfl, rfl⟩ := h2
  refine ⟨?_, fun _ => ⟨lin _, lin _, lin _⟩⟩
  rw [Int.cast_one] at hv
  rw [hv]
  exact ⟨s1, s2, s3⟩

theorem demoEnds_nothrow (R : ℕ → ℕ → Field → ℤ → Res Field) (strict ndebug : Bool) (s : String) :
    ¬ ThrowsIn (libs lib.K (fun _ => fpArb) demoOps R strict ndebug lp64 0) gens
      (fun _ => .absent) demoEnds s := by
  rintro (h | ⟨_, _, ⟨rfl, rfl⟩, h | ⟨_, _, ⟨i, a, -, rfl, rfl⟩, h | ⟨_, _, ⟨rfl, -⟩,
    h | ⟨_, _, ⟨rfl, -⟩, h | ⟨_, _, ⟨rfl, rfl⟩, ⟨i, a, j, b, -, h, h'⟩ | ⟨_, _, _, h⟩⟩⟩⟩⟩⟩)
  · exact h
  · exact h
  · exact h
  · exact h
  · exact h
  · simp at h
    obtain ⟨rfl, rfl⟩ := h
    exact h' (.inr (.inr ⟨2, by norm_num⟩))
  · exact h

/-- C62 is not vacuous: with floating point balls there are enclosures of `∛2` from which the program
above, which has no way to throw, comes to an end. -/
example : ∃ f : ℕ → Field, (∀ i, cbrt2 ∈ (f i).emb) ∧
    let w : World := ⟨fun i => match i with
      | 0 => { nf := K1, emb := .fin 1 1, prec := 64 }
      | i + 1 => f (i + 1), fun _ => none, 0, fun _ => none⟩
    let code := libs lib.K (fun _ => fpArb) demoOps (fun _ k => refineEmbedding fpArb false k) false
      false lp64
    ∃ n : ℕ, (∃ as : List Val,
        ∀ k, n ≤ k → ∃ w', execAll (code k) demoEnds w = .ok (as, w')) ∨
      (∀ k, n ≤ k → execAll (code k) demoEnds w = .ub) ∨
      ∀ k, n ≤ k → execAll (code k) demoEnds w = .abort := by
  obtain ⟨δ, hδ, H⟩ := C62_programs_end_partial (K := lib.K) (α := gens) (A := fun _ => fpArb)
    (fun i => match i with | 0 => K1_ok | _ + 1 => K3_ok)
    (fun i => match i with | 0 => K1_root | _ + 1 => K3_root)
    (fun i h => match i, h with | 0, h => absurd h (by decide) | _ + 1, _ => K3_sane)
    (fun _ => fpArb_tight) fun _ => fpArb_convergent
  have key : ∀ i, ∃ f : Field, cbrt2 ∈ f.emb ∧ FieldStart K3 cbrt2 (δ i) 64 false f := by
    intro i
    obtain ⟨r, r0, r1⟩ := exists_rat_btwn (hδ i)
    obtain ⟨m, m0, m1⟩ := exists_rat_btwn (show cbrt2 - r < cbrt2 by linarith)
    have hm : cbrt2 ∈ Ball.fin m r := by
      rw [Ball.mem_fin]; constructor <;> linarith
    exact ⟨⟨K3, .fin m r, 64, false⟩, hm, rfl, hm, by norm_num, fun _ =>
      ⟨⟨rfl, m, r, rfl, hm, r1.le⟩, by norm_num, by simp⟩⟩
  choose f hf hs using key
  refine ⟨f, hf, ?_⟩
  intro w code
  have hfld : ∀ i, FieldStart (lib.K i) (gens i) (δ i) 64 false (w.fld i) := by
    intro i
    cases i with
    | zero => exact ⟨rfl, by show (1 : ℝ) ∈ Ball.fin 1 1; rw [Ball.mem_fin]; norm_num, by norm_num [w],
        fun h => absurd h (by decide)⟩
    | succ i => exact hs (i + 1)
  obtain ⟨n, h⟩ := H demoOps false false lp64 (fun _ => 64) lp64_ok (fun _ => by norm_num) (fun _ => .absent) w demoEnds
    ⟨hfld, fun x h => rfl, fun x h => by cases x <;> simp [vars] at h,
      fun x i a h => by cases x <;> simp [vars] at h, fun _ _ _ _ _ h => by simp [w] at h,
      fun _ h => by simp [w] at h, fun _ h => by simp [w] at h⟩ (demoEnds_allowed _ _ _)
  refine ⟨n, ?_⟩
  rcases h with ⟨as, w', ⟨S', h1, -⟩, h2⟩ | ⟨s, w', h1, -⟩ | h | ⟨-, h⟩
  · exact .inl ⟨as, fun k hk => ⟨w', (h2 k hk).1⟩⟩
  · exact absurd h1 (demoEnds_nothrow _ _ _ s)
  · exact .inr (.inl fun k hk => (h k hk).1)
  · exact .inr (.inr fun k hk => (h k hk).1)

/-- and it does end well from six digits of `∛2`: there are answers `1` for the sign of `∛2 - 1`, `0` for
its floor, and it is less than 2 -/
example : (match execAll (libs (fun _ => K3) (fun _ => fpArb) (fun _ => cubOps)
      (fun _ k => refineEmbedding fpArb false k) false false lp64 64)
    [.constructVec 0 1 [0, 1] 1, .binopZ .sub 0 1, .sgn 0, .floor 0, .constructZ 1 0 2, .lt 0 1]
    ⟨fun _ => ⟨K3, .fin (82570 / 65536) (1 / 65536), 64, false⟩, fun _ => none, 0, fun _ => none⟩ with
    | .ok (as, _) => as | _ => []) = [.unit, .unit, .int 1, .int 0, .unit, .bool true] := by
  decide +kernel

end Cxx
end EAntic
