import Verif.Lemmas.Py
import Verif.Lemmas.FpArb
import Verif.Props.Make

/-! # A concrete setting for the Python layer: real numbers as algebraic numbers -/

namespace EAntic.Py
open Polynomial

/-- balls of negative radius, which are empty, become a point -/
def proper : Ball → Ball
  | .fin m r => if r < 0 then .fin 0 0 else .fin m r
  | .whole => .whole

lemma proper_mem {b : Ball} {x : ℝ} (h : x ∈ b) : x ∈ proper b := by
  cases b with
  | whole => exact h
  | fin m r =>
    rw [proper]
    split_ifs with hr
    · exfalso
      rw [Ball.mem_fin] at h
      have : (r : ℝ) < 0 := by exact_mod_cast hr
      linarith [h.1, h.2]
    · exact h

/-- there is a text of balls as required -/
theorem exists_plain : ∃ B : BallText, B.Encloses ∧ PlainBalls B ∧ B.Wf ∧
    ∀ m r n p, 0 ≤ r → B.read (B.text (.fin m r) n) p = some (.fin m r) := by
  have hinj : Function.Injective (fun b : Ball => match b with
      | .whole => (none : Option (ℚ × ℚ)) | .fin m r => some (m, r)) := by
    intro a b h
    cases a <;> cases b <;> simp_all
  obtain ⟨f, hf⟩ := hinj.countable.exists_injective_nat
  classical
  let B : BallText := ⟨fun s _ => if h : ∃ b, '1' :: List.replicate (f (proper b)) '1' = s then
      some (proper h.choose) else none,
    fun b _ => '1' :: List.replicate (f (proper b)) '1'⟩
  have key : ∀ b n p, B.read (B.text b n) p = some (proper b) := by
    intro b n p
    have h : ∃ b', '1' :: List.replicate (f (proper b')) '1' = '1' :: List.replicate (f (proper b)) '1' :=
      ⟨b, rfl⟩
    show (if h : ∃ b', _ = '1' :: List.replicate (f (proper b)) '1' then some (proper h.choose)
      else none) = _
    rw [dif_pos h]
    have := congrArg List.length h.choose_spec
    simp only [List.length_cons, List.length_replicate, Nat.add_right_cancel_iff] at this
    rw [hf this]
  refine ⟨B, fun b n p _ => ⟨proper b, key b n p, fun x => proper_mem⟩, fun b n => ⟨by simp [B], ?_⟩, ?_, ?_⟩
  · intro c hc
    have : c = '1' := by
      rcases List.mem_cons.1 hc with h | h
      · exact h
      · exact List.eq_of_mem_replicate h
    rw [this]; decide
  · intro s p m r h
    simp only [B] at h
    split_ifs at h with h0
    · rw [Option.some.injEq] at h
      cases hb : h0.choose with
      | whole => rw [hb] at h; cases h
      | fin m' r' =>
        rw [hb, proper] at h
        split_ifs at h with h1
        · cases h; norm_num
        · cases h; exact not_lt.1 h1
  · intro m r n p hr
    rw [key, proper, if_neg (not_lt.2 hr)]

/-- text of balls -/
noncomputable def plainText : BallText := exists_plain.choose

/-- SageMath, with real numbers as algebraic numbers -/
noncomputable def realSage : Sage ℝ where
  read var s := match Text.setStrPretty Text.readQ s var with
    | some l => .ok l
    | none => .throw "could not convert string to polynomial"
  roots p := ((Text.polyOf p).aroots ℝ).toFinset.toList
  ball prec a := .fin (⌊a * 2 ^ prec⌋ / 2 ^ prec) (1 / 2 ^ prec)
  text _ b := plainText.text b 0

lemma mem_approx (a : ℝ) (prec : ℤ) : a ∈ realSage.ball prec a := by
  have hp : (0 : ℝ) < 2 ^ prec := by positivity
  have h1 := Int.floor_le (a * 2 ^ prec)
  have h2 := Int.lt_floor_add_one (a * 2 ^ prec)
  show a ∈ Ball.fin _ _
  rw [Ball.mem_fin]
  push_cast
  rw [← sub_div, ← add_div, div_le_iff₀ hp, le_div_iff₀ hp]
  constructor <;> linarith

theorem realSage_ok : realSage.Ok plainText id where
  read var num den hv hc hl := by
    obtain ⟨l, h1, h2⟩ := Text.canonical_pretty (R := Text.readQ) Text.readQ_ok hv hl hc
    refine ⟨l, ?_, ?_⟩
    · show (match Text.setStrPretty Text.readQ (Text.pretty var num den) var with
        | some l => Res.ok l
        | none => .throw _) = _
      rw [h1]
    · rw [← (Text.canonical_spec l).2, h2]
  badName var s h := by
    have : Text.setStrPretty Text.readQ s var = none := by
      rw [Text.C31_rejects]
      exact fun hc => h hc.1
    refine ⟨"could not convert string to polynomial", ?_⟩
    · show (match Text.setStrPretty Text.readQ s var with
        | some l => Res.ok l
        | none => .throw _) = _
      rw [this]
  roots p hp x := by
    simp [realSage, hp]
  once p := by
    rw [List.map_id]
    exact Finset.nodup_toList _
  ball prec a _ := mem_approx a prec
  text prec b hp := by
    obtain ⟨e, h1, h2⟩ := exists_plain.choose_spec.1 b 0 prec hp
    exact ⟨e, h1, h2⟩

end EAntic.Py
