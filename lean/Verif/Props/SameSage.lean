import Verif.Props.SageProg
import Verif.Props.SameText

/-!
# C75, C76: programs of SageMath do not depend on the precision of the fields; hashes of equal elements
-/

namespace EAntic.Py
open Cxx

variable {L L' : Lib} {α : ℕ → ℝ} {I I' : ℕ → Field → Prop} {S : ℕ → Slot} {w w' v v' : World} {P P' : PyEnv}
  {T : TextLib} {γ : Type} {hf : Dbl → γ}

private theorem one {S : ℕ → Slot} {x i i' : ℕ} {a a' : ℝ} (h : S x = .elem i a) (h' : S x = .elem i' a') :
    i = i' ∧ a = a' := by
  rw [h] at h'
  exact ⟨(Slot.elem.inj h').1, (Slot.elem.inj h').2⟩

/-- An operation has one result. -/
private theorem sageStep_det (hE : ∀ i, FieldInv (L.E i) (α i) (I i)) {c : SageCmd} {r r' : Except String (SageVal γ)}
    {S₁ S₂ : ℕ → Slot} (h : c.Step L T hf α S r S₁) (h' : c.Step L T hf α S r' S₂) : r = r' ∧ S₁ = S₂ := by
  cases c with
  | make s k l =>
    obtain ⟨rfl, rfl⟩ := h
    obtain ⟨rfl, rfl⟩ := h'
    exact ⟨rfl, rfl⟩
  | arith f s x y =>
    obtain ⟨i, a, b, h1, h2, rfl, rfl⟩ := h
    obtain ⟨i', a', b', h1', h2', rfl, rfl⟩ := h'
    obtain ⟨rfl, rfl⟩ := one h1 h1'
    obtain ⟨-, rfl⟩ := one h2 h2'
    exact ⟨rfl, rfl⟩
  | neg s x =>
    obtain ⟨i, a, h1, rfl, rfl⟩ := h
    obtain ⟨i', a', h1', rfl, rfl⟩ := h'
    obtain ⟨rfl, rfl⟩ := one h1 h1'
    exact ⟨rfl, rfl⟩
  | cmp op x y =>
    obtain ⟨rfl, i, a, b, t, h1, h2, rfl, h3⟩ := h
    obtain ⟨rfl, i', a', b', t', h1', h2', rfl, h3'⟩ := h'
    obtain ⟨-, rfl⟩ := one h1 h1'
    obtain ⟨-, rfl⟩ := one h2 h2'
    rw [Bool.eq_iff_iff.2 (h3.trans h3'.symm)]
    exact ⟨rfl, rfl⟩
  | rational x =>
    obtain ⟨rfl, i, a, h1, h2⟩ := h
    obtain ⟨rfl, i', a', h1', h2'⟩ := h'
    obtain ⟨-, rfl⟩ := one h1 h1'
    rcases h2 with ⟨q, e, rfl⟩ | ⟨hn, rfl⟩ <;> rcases h2' with ⟨q', e', rfl⟩ | ⟨hn', rfl⟩
    · rw [e] at e'
      rw [Rat.cast_injective e']
      exact ⟨rfl, rfl⟩
    · exact absurd ⟨q, e⟩ hn'
    · exact absurd ⟨q', e'⟩ hn
    · exact ⟨rfl, rfl⟩
  | integer x =>
    obtain ⟨rfl, i, a, h1, h2⟩ := h
    obtain ⟨rfl, i', a', h1', h2'⟩ := h'
    obtain ⟨-, rfl⟩ := one h1 h1'
    rcases h2 with ⟨q, e, rfl⟩ | ⟨hn, rfl⟩ <;> rcases h2' with ⟨q', e', rfl⟩ | ⟨hn', rfl⟩
    · rw [e] at e'
      rw [Int.cast_injective e']
      exact ⟨rfl, rfl⟩
    · exact absurd ⟨q, e⟩ hn'
    · exact absurd ⟨q', e'⟩ hn
    · exact ⟨rfl, rfl⟩
  | vector x k =>
    obtain ⟨rfl, a, l, h1, rfl, h2, h3⟩ := h
    obtain ⟨rfl, a', l', h1', rfl, h2', h3'⟩ := h'
    obtain ⟨-, rfl⟩ := one h1 h1'
    rw [C65_coefficients_unique hE h2 h2' (h3.trans h3'.symm)]
    exact ⟨rfl, rfl⟩
  | pickle x s k =>
    obtain ⟨a, h1, rfl, rfl⟩ := h
    obtain ⟨a', h1', rfl, rfl⟩ := h'
    obtain ⟨-, rfl⟩ := one h1 h1'
    exact ⟨rfl, rfl⟩
  | repr x =>
    obtain ⟨rfl, i, a, s, h1, h2, rfl⟩ := h
    obtain ⟨rfl, i', a', s', h1', h2', rfl⟩ := h'
    obtain ⟨rfl, rfl⟩ := one h1 h1'
    rw [h2.unique hE h2']
    exact ⟨rfl, rfl⟩
  | hash x =>
    obtain ⟨rfl, i, a, d, h1, h2, rfl⟩ := h
    obtain ⟨rfl, i', a', d', h1', h2', rfl⟩ := h'
    obtain ⟨rfl, rfl⟩ := one h1 h1'
    rw [castsTo_det h2 h2']
    exact ⟨rfl, rfl⟩
  | del x =>
    obtain ⟨rfl, rfl⟩ := h
    obtain ⟨rfl, rfl⟩ := h'
    exact ⟨rfl, rfl⟩

private theorem sageSteps_det (hE : ∀ i, FieldInv (L.E i) (α i) (I i)) :
    ∀ {cs : List SageCmd} {S S₁ S₂ : ℕ → Slot} {rs rs' : List (Except String (SageVal γ))},
    SageSteps L T hf α S cs rs S₁ → SageSteps L T hf α S cs rs' S₂ → rs = rs' ∧ S₁ = S₂
  | [], _, _, _, _, _, h, h' => by
    obtain ⟨rfl, rfl⟩ := h.nil
    obtain ⟨rfl, rfl⟩ := h'.nil
    exact ⟨rfl, rfl⟩
  | c :: cs, _, _, _, _, _, h, h' => by
    obtain ⟨r, rs, S₁, rfl, h1, h2⟩ := h.cons
    obtain ⟨r', rs', S₂, rfl, h1', h2'⟩ := h'.cons
    obtain ⟨rfl, rfl⟩ := sageStep_det hE h1 h1'
    obtain ⟨rfl, rfl⟩ := sageSteps_det hE h2 h2'
    exact ⟨rfl, rfl⟩

private theorem sageStep_same (hs : SameFields L L') {c : SageCmd} {r : Except String (SageVal γ)} {S₁ : ℕ → Slot} :
    c.Step L T hf α S r S₁ ↔ c.Step L' T hf α S r S₁ := by
  cases c <;> simp only [SageCmd.Step, hs.fields]

private theorem sageSteps_same (hs : SameFields L L') : ∀ {cs : List SageCmd} {S S₁ : ℕ → Slot}
    {rs : List (Except String (SageVal γ))}, SageSteps L T hf α S cs rs S₁ ↔ SageSteps L' T hf α S cs rs S₁
  | [], _, _, [] => Iff.rfl
  | [], _, _, _ :: _ => Iff.rfl
  | _ :: _, _, _, [] => Iff.rfl
  | c :: cs, _, _, r :: rs => exists_congr fun _ => and_congr (sageStep_same hs) (sageSteps_same hs)

theorem sageAllowed_lib (hs : SameFields L L') : ∀ {cs : List SageCmd} {S : ℕ → Slot},
    SageAllowed L T hf α S cs → SageAllowed L' T hf α S cs
  | [], _, _ => trivial
  | c :: cs, S, h => by
    refine ⟨?_, fun r S' h' => sageAllowed_lib hs (h.2 r S' ((sageStep_same hs).2 h'))⟩
    have h1 := h.1
    cases c <;> simp only [SageCmd.Valid, hs.fields] at h1 ⊢ <;> exact h1

/-- C75 for programs of SageMath.  The same program on elements with the same values, with two versions of the
library for the same fields: precisions, enclosures, refinement, arithmetic, build options and the history of the
elements may all differ.  If both runs return then all answers, texts, hashes and exceptions are the same, and the
elements have the same values afterwards. -/
theorem C75_sage (hs : SameFields L L') (hE : ∀ i, FieldInv (L.E i) (α i) (I i))
    (hE' : ∀ i, FieldInv (L'.E i) (α i) (I' i)) (hT : T.Ok) (hb : L.bits.Ok) {cs : List SageCmd}
    (h : Represents L α I S w) (h' : Represents L' α I' S w') (hv : SageAllowed L T hf α S cs)
    {rs rs' : List (Except String (SageVal γ))} (hr : runSage P L T hf cs w = .ok (rs, v))
    (hr' : runSage P' L' T hf cs w' = .ok (rs', v')) :
    rs = rs' ∧ ∃ S', Represents L α I S' v ∧ Represents L' α I' S' v' := by
  obtain ⟨S₁, h1, h2⟩ := (C76_program hE hT hb P hf h hv).1 _ _ hr
  obtain ⟨S₂, h1', h2'⟩ := (C76_program hE' hT (hs.bits ▸ hb) P' hf h' (sageAllowed_lib hs hv)).1 _ _ hr'
  obtain ⟨rfl, rfl⟩ := sageSteps_det hE h1 ((sageSteps_same hs).2 h1')
  exact ⟨rfl, S₁, h2, h2'⟩

/-- C76, hashes.  Elements with the same value have the same hash, whatever their parents and histories are and
whatever happens between the two calls, so that they can be used as keys of dictionaries. -/
theorem C76_hash (hE : ∀ i, FieldInv (L.E i) (α i) (I i)) (hT : T.Ok) (hb : L.bits.Ok)
    (h : Represents L α I S w) {x y i j : ℕ} {a : ℝ} (hx : S x = .elem i a) {cs : List SageCmd}
    (hy : ∀ rs S', SageSteps L T hf α S (.hash x :: cs) rs S' → S' y = .elem j a)
    (hv : SageAllowed L T hf α S (.hash x :: cs))
    {rs rs' : List (Except String (SageVal γ))} (hr : runSage P L T hf (.hash x :: cs) w = .ok (rs, v))
    (hr' : runSage P L T hf [.hash y] v = .ok (rs', v')) :
    ∃ g, rs.head? = some (.ok (.hash g)) ∧ rs' = [.ok (.hash g)] := by
  obtain ⟨S₁, h1, h2⟩ := (C76_program hE hT hb P hf h hv).1 _ _ hr
  have hy := hy _ _ h1
  obtain ⟨S₂, h1', -⟩ := (C76_program hE hT hb P hf h2 (cs := [.hash y]) ⟨⟨j, a, hy⟩, fun _ _ _ => trivial⟩).1 _ _ hr'
  obtain ⟨r, rs, S₃, rfl, e1, -⟩ := h1.cons
  obtain ⟨r', rs', S₄, rfl, e1', e2'⟩ := h1'.cons
  obtain ⟨rfl, -⟩ := e2'.nil
  obtain ⟨-, i', a', d, d1, d2, rfl⟩ := e1
  obtain ⟨-, i'', a'', d', d1', d2', rfl⟩ := e1'
  obtain ⟨-, rfl⟩ := one hx d1
  obtain ⟨-, rfl⟩ := one hy d1'
  rw [castsTo_det d2 d2']
  exact ⟨_, rfl, rfl⟩

end EAntic.Py

namespace EAntic.Cxx
open Py

/-- The theorem applies: with two precisions the answers are the same. -/
example : ∃ rs v v', runSage demoPy lib textLib (fun d : Dbl => d) demoCube start = .ok (rs, v) ∧
    runSage demoPy libB textLib (fun d : Dbl => d) demoCube startB = .ok (rs, v') ∧
    rs = [.ok .unit, .ok .unit, .ok .unit, .ok (.int 2), .error "not an integer", .ok .unit] := by
  have hn : ∀ c ∈ demoCube, ¬ c.evaluates := by
    intro c hc
    simp only [demoCube, List.mem_cons, List.not_mem_nil, or_false] at hc
    rcases hc with rfl | rfl | rfl | rfl | rfl | rfl <;> exact id
  obtain ⟨h1, -, h2⟩ := C76_program lib_inv textLib_ok lp64_ok demoPy (fun d : Dbl => d) start_rep demoCube_ok
  obtain ⟨rs, v, e⟩ := h2 hn
  obtain ⟨S', e1, e2⟩ := h1 _ _ e
  obtain ⟨rs', v', e'⟩ := (C76_program libB_inv textLib_ok lp64_ok demoPy (fun d : Dbl => d) startB_rep
    (sageAllowed_lib (L := lib) (L' := libB) ⟨rfl, rfl, rfl⟩ demoCube_ok)).2.2 hn
  obtain ⟨rfl, -⟩ := C75_sage (L := lib) (L' := libB) ⟨rfl, rfl, rfl⟩ lib_inv libB_inv textLib_ok lp64_ok start_rep
    startB_rep demoCube_ok e e'
  exact ⟨rs, v, v', e, e', (demoCube_steps e1).1⟩

/-- The theorem on hashes applies: `∛2` has the same hash after it was pickled and loaded. -/
example : ∃ v v' g r, runSage demoPy lib textLib (fun d : Dbl => d) [.hash 0, .pickle 0 5 1] (demoPair start.fld) =
      .ok ([.ok (.hash g), r], v) ∧
    runSage demoPy lib textLib (fun d : Dbl => d) [.hash 5] v = .ok ([.ok (.hash g)], v') := by
  have key : (match runSage demoPy lib textLib (fun d : Dbl => d) [.hash 0, .pickle 0 5 1] (demoPair start.fld) with
      | .ok (_, v) => (runSage demoPy lib textLib (fun d : Dbl => d) [.hash 5] v).answer.isSome
      | _ => false) = true := by decide +kernel
  cases hr : runSage demoPy lib textLib (fun d : Dbl => d) [.hash 0, .pickle 0 5 1] (demoPair start.fld) with
  | ok p =>
    obtain ⟨rs, v⟩ := p
    rw [hr] at key
    obtain ⟨rs', hr'⟩ := Option.isSome_iff_exists.1 key
    obtain ⟨v', hr'⟩ := answer_eq_some hr'
    have rep : Represents lib gens fine demoPairSlots (demoPair start.fld) := demoPair_rep rfl start_rep.fld
    have hy : ∀ rs S', SageSteps lib textLib (fun d : Dbl => d) gens demoPairSlots [.hash 0, .pickle 0 5 1] rs S' →
        S' 5 = .elem 1 cbrt2 := by
      intro rs S' h
      obtain ⟨r, rs, S₁, rfl, ⟨rfl, -⟩, h⟩ := h.cons
      obtain ⟨r, rs, S₁, rfl, ⟨a, h1, -, rfl⟩, h⟩ := h.cons
      obtain ⟨-, rfl⟩ := h.nil
      simp only [demoPairSlots, Slot.elem.injEq] at h1
      rw [Function.update_self, h1.2]
    have hv : SageAllowed lib textLib (fun d : Dbl => d) gens demoPairSlots [.hash 0, .pickle 0 5 1] := by
      refine ⟨⟨1, cbrt2, rfl⟩, ?_⟩
      rintro r S' ⟨rfl, -⟩
      exact ⟨⟨rfl, cbrt2, rfl⟩, fun _ _ _ => trivial⟩
    obtain ⟨g, h1, rfl⟩ := C76_hash lib_inv textLib_ok lp64_ok rep (x := 0) (y := 5) rfl hy hv hr hr'
    obtain ⟨S', h2, -⟩ := (C76_program lib_inv textLib_ok lp64_ok demoPy (fun d : Dbl => d) rep hv).1 _ _ hr
    obtain ⟨r, rs, S₁, rfl, -, h⟩ := h2.cons
    obtain ⟨r', rs, S₁, rfl, -, h⟩ := h.cons
    obtain ⟨rfl, -⟩ := h.nil
    simp only [List.head?_cons, Option.some.injEq] at h1
    subst h1
    exact ⟨v, v', g, r', rfl, hr'⟩
  | _ => rw [hr] at key; exact absurd key (by simp)

end EAntic.Cxx
