import Verif.Spec.SageProg
import Verif.Lemmas.CatchEnds
import Verif.Props.PyEnds
import Verif.Props.PyProg
import Verif.Props.TextProg

/-!
# C76: programs of SageMath with elements of `RealEmbeddedNumberField`
-/

namespace EAntic.Py
open Cxx

section
variable {L : Lib} {α : ℕ → ℝ} {I : ℕ → Field → Prop} {S : ℕ → Slot} {w : World} {P : PyEnv}
  {T : TextLib} {γ : Type} {hf : Dbl → γ}

private theorem good_ret {β : Type} {U : Prop} {X : String → World → Prop} {m : W β} {Q : β → World → Prop}
    {f : β → SageVal γ} {R : SageVal γ → World → Prop} (h : Good U X Q (m w)) (hr : ∀ a w', Q a w' → R (f a) w') :
    Good U X R ((do let a ← m; pure (f a) : W (SageVal γ)) w) :=
  Good.bind h fun a w' ha => Good.pure (hr a w' ha)

private theorem sage_good (hE : ∀ i, FieldInv (L.E i) (α i) (I i)) (hT : T.Ok) (hb : L.bits.Ok)
    (h : Represents L α I S w) {c : SageCmd} (hv : c.Valid L S) :
    Good c.evaluates (fun s w' => ∃ S', c.Step L T hf α S (.error s) S' ∧ Represents L α I S' w')
      (fun ans w' => ∃ S', c.Step L T hf α S (.ok ans) S' ∧ Represents L α I S' w') (c.run P L T hf w) := by
  cases c with
  | make r k l =>
    refine good_ret (fromSage_good hE (x := .user r) k h hv.1 hv.2) fun _ w' h' => ?_
    rw [vars_update] at h'
    exact ⟨_, ⟨rfl, rfl⟩, h'⟩
  | arith f r x y =>
    obtain ⟨hr, i, a, b, hx, hy, h0⟩ := hv
    have hs : Supported L.strict i a i b := by unfold Supported; simp
    refine good_ret (m := exec L (.binary f r x y)) ((exec_good hE hb h (c := .binary f r x y) ?_).weaken (U' := _)
      (fun hu => hu.elim) ?_) ?_
    · exact ⟨hr, ⟨i, a, hx⟩, i, b, hy, h0⟩
    · rintro s w' ⟨⟨i', a', j, b', hx', hy', hn⟩, -⟩
      rw [hx] at hx'; rw [hy] at hy'
      cases hx'; cases hy'
      exact absurd hs hn
    · rintro ans w' ⟨S', ⟨i', a', j, b', k, hx', hy', -, hk, rfl, rfl⟩, h'⟩
      rw [hx] at hx'; rw [hy] at hy'
      cases hx'; cases hy'
      obtain rfl : k = i := by
        rcases hk with h | h | h
        · exact h.2
        · exact absurd rfl h.1
        · exact absurd rfl h.1
      exact ⟨_, ⟨k, a, b, hx, hy, rfl, rfl⟩, h'⟩
  | neg r x =>
    obtain ⟨hr, i, a, hx⟩ := hv
    refine good_ret (m := exec L (.neg r x)) ((exec_good hE hb h (c := .neg r x) ⟨hr, i, a, hx⟩).weaken (U' := _)
      (fun hu => hu.elim) ?_) ?_
    · rintro s w' ⟨h, -⟩
      exact h.elim
    · rintro ans w' ⟨S', ⟨i', a', hx', rfl, rfl⟩, h'⟩
      exact ⟨_, ⟨i', a', hx', rfl, rfl⟩, h'⟩
  | cmp op x y =>
    obtain ⟨i, a, b, hx, hy⟩ := hv
    exact good_ret (richcmp_good hE trivial h (x := .user x) (y := .user y) hx hy op) fun r w' h' =>
      ⟨S, ⟨rfl, i, a, b, r, hx, hy, rfl, h'.1⟩, h'.2⟩
  | rational x =>
    obtain ⟨i, a, hx⟩ := hv
    exact good_ret ((rational_good hE h (x := .user x) hx).weaken id fun s w' h' =>
      ⟨S, ⟨rfl, i, a, hx, .inr ⟨h'.1, by rw [h'.2.1]⟩⟩, h'.2.2⟩) fun q w' h' =>
      ⟨S, ⟨rfl, i, a, hx, .inl ⟨q, h'.1, rfl⟩⟩, h'.2⟩
  | integer x =>
    obtain ⟨i, a, hx⟩ := hv
    exact good_ret ((integer_good hE h (x := .user x) hx).weaken id fun s w' h' =>
      ⟨S, ⟨rfl, i, a, hx, .inr ⟨h'.1, by rw [h'.2.1]⟩⟩, h'.2.2⟩) fun z w' h' =>
      ⟨S, ⟨rfl, i, a, hx, .inl ⟨z, h'.1, rfl⟩⟩, h'.2⟩
  | vector x k =>
    obtain ⟨a, hx⟩ := hv
    exact good_ret (toSage_good hE h (x := .user x) hx) fun l w' h' =>
      ⟨S, ⟨rfl, a, l, hx, rfl, h'.1.1, h'.1.2⟩, h'.2⟩
  | pickle x r k =>
    obtain ⟨hr, a, hx⟩ := hv
    refine good_ret (reload_good hE h (x := .user x) (y := .user r) hx hr) fun _ w' h' => ?_
    rw [vars_update] at h'
    exact ⟨_, ⟨a, hx, rfl, rfl⟩, h'⟩
  | repr x =>
    obtain ⟨i, a, hx, hd⟩ := hv
    exact good_ret (print_good' (x := .user x) hE hT trivial hd h hx) fun s w' h' =>
      ⟨S, ⟨rfl, i, a, s, hx, h'.1, rfl⟩, h'.2⟩
  | hash x =>
    obtain ⟨i, a, hx⟩ := hv
    refine good_ret (Q := fun b w' => ∃ d, b = hf d ∧ CastsTo a d ∧ Represents L α I S w')
      (Good.bind (toDouble_good (x := .user x) hE trivial h hx) fun d w' hd =>
        Good.pure ⟨d, rfl, NearDouble.castsTo hd.1, hd.2.1⟩) ?_
    rintro b w' ⟨d, rfl, hd, h'⟩
    exact ⟨S, ⟨rfl, i, a, d, hx, hd, rfl⟩, h'⟩
  | del x =>
    obtain ⟨i, a, hx⟩ := hv
    refine good_ret (m := exec L (.destroy x)) ((exec_good hE hb h (c := .destroy x)
      (by show S x ≠ .absent; rw [hx]; simp)).weaken (U' := _) (fun hu => hu.elim) ?_) ?_
    · rintro s w' ⟨h, -⟩
      exact h.elim
    · rintro ans w' ⟨S', ⟨rfl, rfl⟩, h'⟩
      exact ⟨_, ⟨rfl, rfl⟩, h'⟩

/-- Programs, in the form for the induction. -/
private theorem runSage_good (hE : ∀ i, FieldInv (L.E i) (α i) (I i)) (hT : T.Ok) (hb : L.bits.Ok) :
    ∀ {cs : List SageCmd} {S : ℕ → Slot} {w : World}, Represents L α I S w → SageAllowed L T hf α S cs →
    Good (∃ c ∈ cs, c.evaluates) (fun _ _ => False)
      (fun rs w' => ∃ S', SageSteps L T hf α S cs rs S' ∧ Represents L α I S' w') (runSage P L T hf cs w)
  | [], S, w, h, _ => ⟨S, rfl, h⟩
  | c :: cs, S, w, h, hv => by
    unfold runSage
    refine Good.bind ((attempt_good (sage_good hE hT hb h hv.1)
      (R := fun r w' => ∃ S', c.Step L T hf α S r S' ∧ Represents L α I S' w') (fun _ _ h => h) fun _ _ h => h).weaken
      (fun hu => ⟨c, by simp, hu⟩) fun _ _ h => h) ?_
    rintro r w₁ ⟨S₁, hs, h₁⟩
    refine Good.bind ((runSage_good hE hT hb h₁ (hv.2 r S₁ hs)).weaken
      (fun ⟨c', hc, hu⟩ => ⟨c', by simp [hc], hu⟩) fun _ _ h => h) ?_
    rintro rs w₂ ⟨S₂, hs₂, h₂⟩
    exact Good.pure ⟨S₂, ⟨S₁, hs, hs₂⟩, h₂⟩

/-- C76.  Programs of SageMath of any length: when such a program comes to an end, every operation had the
result of exact real arithmetic or, for conversions of numbers that are not rational or not integers, an exception;
no other element has changed, and no storage is left behind.  Without comparisons it does come to an end. -/
theorem C76_program (hE : ∀ i, FieldInv (L.E i) (α i) (I i)) (hT : T.Ok) (hb : L.bits.Ok) (P : PyEnv) (hf : Dbl → γ)
    (h : Represents L α I S w) {cs : List SageCmd} (hv : SageAllowed L T hf α S cs) :
    (∀ rs w', runSage P L T hf cs w = .ok (rs, w') →
      ∃ S', SageSteps L T hf α S cs rs S' ∧ Represents L α I S' w') ∧
    (∀ s w', runSage P L T hf cs w ≠ .throw s w') ∧
    ((∀ c ∈ cs, ¬ c.evaluates) → ∃ rs w', runSage P L T hf cs w = .ok (rs, w')) := by
  have key := runSage_good (P := P) (hf := hf) hE hT hb h hv
  refine ⟨?_, ?_, ?_⟩
  · intro rs w' e
    rw [e] at key
    exact key
  · intro s w' e
    rw [e] at key
    exact key
  · intro hc
    cases hr : runSage P L T hf cs w with
    | ok p => exact ⟨p.1, p.2, rfl⟩
    | throw s w' => rw [hr] at key; exact key.elim
    | running => rw [hr] at key; obtain ⟨c, h1, h2⟩ := key; exact absurd h2 (hc c h1)
    | abort => rw [hr] at key; obtain ⟨c, h1, h2⟩ := key; exact absurd h2 (hc c h1)
    | ub => rw [hr] at key; obtain ⟨c, h1, h2⟩ := key; exact absurd h2 (hc c h1)

end

section
variable {K : ℕ → Nf} {A : ℕ → ArbOps} {N : ∀ i, NfOps (K i)}
  {R R' : ℕ → ℕ → Field → ℤ → Res Field} {strict nd : Bool} {bits : Widths}
  {α : ℕ → ℝ} {p : ℕ → ℤ} {I : ℕ → Field → Prop} {P : PyEnv}
  {T : TextLib} {γ : Type} {hf : Dbl → γ} (X : Setting K A N R R' α p I)

@[inherit_doc libs] local notation "Lb" => libs K A N R strict nd bits
@[inherit_doc libs] local notation "Lr" => libs K A N R' strict nd bits

theorem SageCmd.run_indep {c : SageCmd} (hc : ¬ c.evaluates) (k j : ℕ) : c.run P (Lb k) T hf = c.run P (Lr j) T hf := by
  cases c with
  | arith f r x y => cases f <;> rfl
  | cmp op x y => exact absurd trivial hc
  | repr x => exact absurd trivial hc
  | hash x => exact absurd trivial hc
  | _ => rfl

include X in
private theorem runSageW_ends (hT : T.Ok) (hb : bits.Ok) : ∀ {cs : List SageCmd} {S : ℕ → Slot} {w : World},
    Represents (Lr 0) α I S w → SageAllowedSized (Lr 0) T hf α p S cs →
    EndsW False (fun _ _ => False) (fun k => runSage P (Lb k) T hf cs) (fun k => runSage P (Lr k) T hf cs) w
      fun rs w' => ∃ S', SageSteps (Lr 0) T hf α S cs rs S' ∧ Represents (Lr 0) α I S' w'
  | [], S, w, h, _ => EndsW.pure ⟨S, rfl, h⟩
  | c :: cs, S, w, h, hv => by
    unfold runSage
    refine EndsW.bind (Q := fun r w' => ∃ S', c.Step (Lr 0) T hf α S r S' ∧ Represents (Lr 0) α I S' w') ?_ ?_
    · refine EndsW.attempt (T := fun s w' => ∃ S', c.Step (Lr 0) T hf α S (.error s) S' ∧ Represents (Lr 0) α I S' w')
        (Post := fun ans w' => ∃ S', c.Step (Lr 0) T hf α S (.ok ans) S' ∧ Represents (Lr 0) α I S' w')
        ?_ (fun _ _ h => h) fun _ _ h => h
      by_cases hc : c.evaluates
      · cases c with
        | cmp op x y =>
          obtain ⟨i, a, b, hx, hy⟩ := hv.1
          exact (richcmpW_ends X op h hx hy (hv.2.1 i a b hx hy)).bind fun r w' h' =>
            EndsW.pure ⟨S, ⟨rfl, i, a, b, r, hx, hy, rfl, h'.1⟩, h'.2⟩
        | repr x =>
          obtain ⟨i, a, hx, hd⟩ := hv.1
          refine (printW_ends (x := .user x) X hT hd h hx fun hi => hv.2.1 (fun j b hj => ?_) i a hx).bind
            fun s w' h' => EndsW.pure ⟨S, ⟨rfl, i, a, s, hx, h'.1, rfl⟩, h'.2⟩
          rw [hx] at hj
          cases hj
          exact hi
        | hash x =>
          obtain ⟨i, a, hx⟩ := hv.1
          refine (((?_ : EndsW False (fun _ _ => True) (fun k => (SageCmd.hash x).run P (Lb k) T hf)
            (fun k => (SageCmd.hash x).run P (Lr k) T hf) w fun _ _ => True).and_good (U := True) fun k => ?_).mono
              fun _ _ h => h.2)
          · refine EndsW.bind (Q := fun _ _ => True) (EndsW.bind (toDoubleW_ends (x := .user x) X h hx
              (hv.2.1 i a hx)) fun _ _ _ => EndsW.pure trivial) fun _ _ _ => EndsW.pure trivial
          · refine ((sage_good (L := Lr k) (X.inv k) hT hb (c := .hash x) (h.lib (L' := Lr k) rfl)
              ⟨i, a, hx⟩).weaken (fun _ => trivial) ?_).mono ?_
            · rintro s w' ⟨S', h1, h2⟩
              exact ⟨S', h1, h2.lib (L' := Lr 0) rfl⟩
            · rintro r w' ⟨S', h1, h2⟩
              exact ⟨S', h1, h2.lib (L' := Lr 0) rfl⟩
        | _ => exact hc.elim
      · exact EndsW.det (fun k => congrFun (SageCmd.run_indep hc k 0) w)
          (fun k => congrFun (SageCmd.run_indep (R := R') hc k 0) w)
          ((sage_good (L := Lr 0) (X.inv 0) hT hb h hv.1).weaken hc fun _ _ h => h)
    · rintro r w₁ ⟨S₁, hs, h₁⟩
      refine EndsW.bind (runSageW_ends hT hb h₁ (hv.2.2 r S₁ hs)) ?_
      rintro rs w₂ ⟨S₂, hs₂, h₂⟩
      exact EndsW.pure ⟨S₂, ⟨S₁, hs, hs₂⟩, h₂⟩

end

/-- C76, for enclosures that are narrow enough and numbers of moderate size: programs with comparisons come to an
end, too, with the results of `C76_program`, however many rounds the loops are given; or the working precision
of a refinement overflows.

Missing from the full statement: enclosures that are wider (see `C55_counterexample`), and numbers that
are not `Sizeable` (see `C44_precision_counterexample`). -/
theorem C76_programs_end_partial {K : ℕ → Nf} {α : ℕ → ℝ} (hK : ∀ i, (K i).Ok)
    (hα : ∀ i, (K i).IsRoot (α i)) (hs : ∀ i, 3 ≤ (K i).pol.length → (K i).Sane (α i))
    {A : ℕ → ArbOps} (hT : ∀ i, (A i).Tight) (hC : ∀ i, (A i).Convergent) :
    ∃ δ : ℕ → ℝ, (∀ i, 0 < δ i) ∧ ∀ (N : ∀ i, NfOps (K i)) (strict ndebug : Bool) (bits : Widths)
      (p : ℕ → ℤ) (P : PyEnv) {T : TextLib} {γ : Type} (hf : Dbl → γ), T.Ok → bits.Ok → (∀ i, 2 ≤ p i ∧ p i ≤ 2 ^ 63) →
      let code := libs K A N (fun i k => refineEmbedding (A i) ndebug k) strict ndebug bits
      let code' := libs K A N (fun i k => refineAt (A i) ndebug k) strict ndebug bits
      let I := fun i => FieldStart (K i) (α i) (δ i) (p i) ndebug
      ∀ (S : ℕ → Slot) (w : World) (cs : List SageCmd),
        Represents (code' 0) α I S w → SageAllowedSized (code' 0) T hf α p S cs →
        EndsW False (fun _ _ => False) (fun k => runSage P (code k) T hf cs) (fun k => runSage P (code' k) T hf cs) w
          fun rs w' => ∃ S', SageSteps (code' 0) T hf α S cs rs S' ∧ Represents (code' 0) α I S' w' := by
  obtain ⟨δ, hδ, H⟩ := exists_setting hK hα hs hT hC
  refine ⟨δ, hδ, ?_⟩
  intro N strict ndebug bits p P T γ hf hT hb hp code code' I S w cs h hv
  exact runSageW_ends (H N ndebug p hp) hT hb h hv

end EAntic.Py

namespace EAntic.Cxx
open Py

/-! ### Concrete cases -/

theorem _root_.EAntic.Py.SageSteps.cons {L : Lib} {T : TextLib} {γ : Type} {hf : Dbl → γ} {α : ℕ → ℝ} {S S' : ℕ → Slot} {c : SageCmd} {cs : List SageCmd}
    {rs : List (Except String (SageVal γ))} (h : SageSteps L T hf α S (c :: cs) rs S') :
    ∃ r rs' S₁, rs = r :: rs' ∧ c.Step L T hf α S r S₁ ∧ SageSteps L T hf α S₁ cs rs' S' := by
  cases rs with
  | nil => exact h.elim
  | cons r rs => obtain ⟨T, h1, h2⟩ := h; exact ⟨r, rs, T, rfl, h1, h2⟩

theorem _root_.EAntic.Py.SageSteps.nil {L : Lib} {T : TextLib} {γ : Type} {hf : Dbl → γ} {α : ℕ → ℝ} {S S' : ℕ → Slot} {rs : List (Except String (SageVal γ))}
    (h : SageSteps L T hf α S [] rs S') : rs = [] ∧ S' = S := by
  cases rs with
  | nil => exact ⟨rfl, h⟩
  | cons r rs => exact h.elim

/-- `x = K.gen()`, `y = x * x`, `z = y * x`, `ZZ(z)`, `ZZ(x)`, `del x` -/
def demoCube : List SageCmd :=
  [.make 0 1 [0, 1], .arith .mul 1 0 0, .arith .mul 2 1 0, .integer 2, .integer 0, .del 0]

/-- the elements after the first three operations -/
noncomputable def cubeSlots : ℕ → Slot :=
  Function.update (Function.update (Function.update (fun _ => .absent) 0 (.elem 1 cbrt2)) 1 (.elem 1 (cbrt2 * cbrt2))) 2
    (.elem 1 2)

theorem cbrt2_cube : cbrt2 * cbrt2 * cbrt2 = 2 := by
  rw [← cbrt2_pow]; ring

section
variable {T : TextLib} {γ : Type} {hf : Dbl → γ} {S' : ℕ → Slot} {r : Except String (SageVal γ)}

private theorem cube1 (h : (SageCmd.make 0 1 [0, 1]).Step lib T hf gens (fun _ => .absent) r S') :
    r = .ok .unit ∧ S' = Function.update (fun _ => .absent) 0 (.elem 1 cbrt2) := by
  obtain ⟨rfl, rfl⟩ := h
  refine ⟨rfl, ?_⟩
  congr 2
  simp [value, gens, Text.polyOf]

private theorem cube2 (h : (SageCmd.arith .mul 1 0 0).Step lib T hf gens
    (Function.update (fun _ => .absent) 0 (.elem 1 cbrt2)) r S') : r = .ok .unit ∧
    S' = Function.update (Function.update (fun _ => .absent) 0 (.elem 1 cbrt2)) 1 (.elem 1 (cbrt2 * cbrt2)) := by
  obtain ⟨i, a, b, h1, h2, rfl, rfl⟩ := h
  simp only [Function.update_self, Slot.elem.injEq] at h1 h2
  obtain ⟨rfl, rfl⟩ := h1
  obtain ⟨-, rfl⟩ := h2
  exact ⟨rfl, rfl⟩

private theorem cube3 (h : (SageCmd.arith .mul 2 1 0).Step lib T hf gens
    (Function.update (Function.update (fun _ => .absent) 0 (.elem 1 cbrt2)) 1 (.elem 1 (cbrt2 * cbrt2))) r S') :
    r = .ok .unit ∧ S' = cubeSlots := by
  obtain ⟨i, a, b, h1, h2, rfl, rfl⟩ := h
  simp [Function.update] at h1 h2
  obtain ⟨rfl, rfl⟩ := h1
  obtain ⟨-, rfl⟩ := h2
  exact ⟨rfl, by unfold cubeSlots; rw [← cbrt2_cube]; rfl⟩

private theorem cube4 (h : (SageCmd.integer 2).Step lib T hf gens cubeSlots r S') : r = .ok (.int 2) ∧ S' = cubeSlots := by
  obtain ⟨rfl, i, a, h1, h2⟩ := h
  simp [cubeSlots] at h1
  obtain ⟨-, rfl⟩ := h1
  rcases h2 with ⟨z, h, rfl⟩ | ⟨h, -⟩
  · obtain rfl : z = 2 := by exact_mod_cast h.symm
    exact ⟨rfl, rfl⟩
  · exact absurd ⟨2, by norm_num⟩ h

private theorem cube5 (h : (SageCmd.integer 0).Step lib T hf gens cubeSlots r S') :
    r = .error "not an integer" ∧ S' = cubeSlots := by
  obtain ⟨rfl, i, a, h1, h2⟩ := h
  simp [cubeSlots, Function.update] at h1
  obtain ⟨-, rfl⟩ := h1
  rcases h2 with ⟨z, h, rfl⟩ | ⟨-, h⟩
  · exact absurd ⟨z, by rw [h]; norm_num⟩ cbrt2_irr
  · exact ⟨h, rfl⟩

theorem demoCube_ok : SageAllowed lib T hf gens (fun _ => .absent) demoCube := by
  refine ⟨⟨rfl, by decide⟩, fun r S₁ h => ?_⟩
  obtain ⟨-, rfl⟩ := cube1 h
  refine ⟨⟨rfl, 1, cbrt2, cbrt2, rfl, rfl, by simp⟩, fun r S₁ h => ?_⟩
  obtain ⟨-, rfl⟩ := cube2 h
  refine ⟨⟨rfl, 1, cbrt2 * cbrt2, cbrt2, rfl, rfl, by simp⟩, fun r S₁ h => ?_⟩
  obtain ⟨-, rfl⟩ := cube3 h
  refine ⟨⟨1, 2, rfl⟩, fun r S₁ h => ?_⟩
  obtain ⟨-, rfl⟩ := cube4 h
  refine ⟨⟨1, cbrt2, rfl⟩, fun r S₁ h => ?_⟩
  obtain ⟨-, rfl⟩ := cube5 h
  exact ⟨⟨1, cbrt2, rfl⟩, fun _ _ _ => trivial⟩

theorem demoCube_steps {rs : List (Except String (SageVal γ))} (h : SageSteps lib T hf gens (fun _ => .absent) demoCube rs S') :
    rs = [.ok .unit, .ok .unit, .ok .unit, .ok (.int 2), .error "not an integer", .ok .unit] ∧
      S' = Function.update cubeSlots 0 .absent := by
  obtain ⟨r, rs, T, rfl, h1, h⟩ := h.cons
  obtain ⟨rfl, rfl⟩ := cube1 h1
  obtain ⟨r, rs, T, rfl, h1, h⟩ := h.cons
  obtain ⟨rfl, rfl⟩ := cube2 h1
  obtain ⟨r, rs, T, rfl, h1, h⟩ := h.cons
  obtain ⟨rfl, rfl⟩ := cube3 h1
  obtain ⟨r, rs, T, rfl, h1, h⟩ := h.cons
  obtain ⟨rfl, rfl⟩ := cube4 h1
  obtain ⟨r, rs, T, rfl, h1, h⟩ := h.cons
  obtain ⟨rfl, rfl⟩ := cube5 h1
  obtain ⟨r, rs, T, rfl, h1, h⟩ := h.cons
  obtain ⟨rfl, rfl⟩ := h1
  obtain ⟨rfl, rfl⟩ := h.nil
  exact ⟨rfl, rfl⟩

end

/-- The theorem applies: the cube of `∛2` is the integer 2, and `∛2` is not an integer. -/
example : ∃ w', runSage demoPy lib textLib (fun d : Dbl => d) demoCube start =
      .ok ([.ok .unit, .ok .unit, .ok .unit, .ok (.int 2), .error "not an integer", .ok .unit], w') ∧
    Represents lib gens fine (Function.update cubeSlots 0 .absent) w' := by
  obtain ⟨h1, -, h2⟩ := C76_program lib_inv textLib_ok lp64_ok demoPy (fun d : Dbl => d) start_rep demoCube_ok
  obtain ⟨rs, w', e⟩ := h2 (by
    intro c hc
    simp only [demoCube, List.mem_cons, List.not_mem_nil, or_false] at hc
    rcases hc with rfl | rfl | rfl | rfl | rfl | rfl <;> exact id)
  obtain ⟨S', e1, e2⟩ := h1 _ _ e
  obtain ⟨rfl, rfl⟩ := demoCube_steps e1
  exact ⟨w', e, e2⟩

/-- `∛2 < 2`, `QQ(∛2)` and `∛2 >= 2` -/
def demoSage : List SageCmd := [.cmp .lt 0 1, .rational 0, .cmp .ge 0 1]

section
variable {T : TextLib} {γ : Type} {hf : Dbl → γ} {R : ℕ → ℕ → Field → ℤ → Res Field} {strict ndebug : Bool} {r : Except String (SageVal γ)} {S' : ℕ → Slot}

@[inherit_doc libs] local notation "Ld" => libs lib.K (fun _ => fpArb) demoOps R strict ndebug lp64 0

private theorem demoSage_cmp {op : Rel} {t : Bool} (ht : t = true ↔ op.Holds cbrt2 2)
    (h : (SageCmd.cmp op 0 1).Step Ld T hf gens demoPairSlots r S') : r = .ok (.bool t) ∧ S' = demoPairSlots := by
  obtain ⟨rfl, i, a, b, ans, h1, h2, rfl, h3⟩ := h
  simp only [demoPairSlots, Slot.elem.injEq] at h1 h2
  obtain ⟨rfl, rfl⟩ := h1
  obtain ⟨-, rfl⟩ := h2
  refine ⟨?_, rfl⟩
  rw [Bool.eq_iff_iff.2 (h3.trans ht.symm)]

private theorem demoSage_rat (h : (SageCmd.rational 0).Step Ld T hf gens demoPairSlots r S') :
    r = .error "not a rational number" ∧ S' = demoPairSlots := by
  obtain ⟨rfl, i, a, h1, h2⟩ := h
  simp only [demoPairSlots, Slot.elem.injEq] at h1
  obtain ⟨rfl, rfl⟩ := h1
  rcases h2 with ⟨q, h, rfl⟩ | ⟨-, h⟩
  · exact absurd ⟨q, h⟩ cbrt2_irr
  · exact ⟨h, rfl⟩

private theorem demoSage_lt : true = true ↔ Rel.Holds .lt cbrt2 2 := by
  obtain ⟨b1, b2⟩ := cbrt2_bounds
  exact ⟨fun _ => show cbrt2 < 2 by linarith, fun _ => rfl⟩

private theorem demoSage_ge : false = true ↔ Rel.Holds .ge cbrt2 2 := by
  obtain ⟨b1, b2⟩ := cbrt2_bounds
  exact ⟨fun h => absurd h (by decide), fun h => absurd (show cbrt2 ≥ 2 from h) (by simp; linarith)⟩

theorem demoSage_allowed : SageAllowedSized Ld T hf gens (fun _ => 64) demoPairSlots demoSage := by
  have size : ∀ op, (SageCmd.cmp op 0 1).SizeOk gens lib.K (fun _ => 64) demoPairSlots := by
    intro op i a b ha hb
    simp only [demoPairSlots, Slot.elem.injEq] at ha hb
    obtain ⟨rfl, rfl⟩ := ha
    obtain ⟨-, rfl⟩ := hb
    exact ⟨sizeable3 (demoPair_wf (r := 0) (l := [0, 1]) (by simp)) (by decide)
        (by simp [NfElem.val, realValue, toPoly]) (by norm_num),
      sizeable3 (demoPair_wf (r := 0) (l := [2]) (by simp)) (by decide) (by simp [NfElem.val, realValue, toPoly])
        (by norm_num),
      sizeable3 (demoPair_wf (r := 0) (l := [-2, 1]) (by simp)) (by decide)
        (by simp [NfElem.val, realValue, toPoly]; ring) (by norm_num)⟩
  refine ⟨⟨1, cbrt2, 2, rfl, rfl⟩, size .lt, fun r S₁ h => ?_⟩
  obtain ⟨-, rfl⟩ := demoSage_cmp demoSage_lt h
  refine ⟨⟨1, cbrt2, rfl⟩, trivial, fun r S₁ h => ?_⟩
  obtain ⟨-, rfl⟩ := demoSage_rat h
  exact ⟨⟨1, cbrt2, 2, rfl, rfl⟩, size .ge, fun _ _ _ => trivial⟩

theorem demoSage_steps {rs : List (Except String (SageVal γ))} (h : SageSteps Ld T hf gens demoPairSlots demoSage rs S') :
    rs = [.ok (.bool true), .error "not a rational number", .ok (.bool false)] := by
  obtain ⟨r, rs, T, rfl, h1, h⟩ := h.cons
  obtain ⟨rfl, rfl⟩ := demoSage_cmp demoSage_lt h1
  obtain ⟨r, rs, T, rfl, h1, h⟩ := h.cons
  obtain ⟨rfl, rfl⟩ := demoSage_rat h1
  obtain ⟨r, rs, T, rfl, h1, h⟩ := h.cons
  obtain ⟨rfl, rfl⟩ := demoSage_cmp demoSage_ge h1
  obtain ⟨rfl, rfl⟩ := h.nil
  rfl

end

/-- The theorem on the end of programs applies: with floating point balls there are enclosures of `∛2` from which
`∛2` is compared, its conversion to a rational throws, and it is compared again. -/
example : ∃ f : ℕ → Field, (∀ i, cbrt2 ∈ (f (i + 1)).emb) ∧
    let code : ℕ → Lib := libs lib.K (fun _ => fpArb) demoOps
      (fun _ k => refineEmbedding fpArb false k) false false lp64
    ∃ n : ℕ, (∃ w', ∀ k, n ≤ k → runSage demoPy (code k) textLib (fun d : Dbl => d) demoSage (demoPair f) =
        .ok ([.ok (.bool true), .error "not a rational number", .ok (.bool false)], w')) ∨
      ∀ k, n ≤ k → runSage demoPy (code k) textLib (fun d : Dbl => d) demoSage (demoPair f) = .ub := by
  obtain ⟨δ, hδ, H⟩ := C76_programs_end_partial (K := lib.K) (α := gens) (A := fun _ => fpArb)
    (fun i => match i with | 0 => K1_ok | _ + 1 => K3_ok)
    (fun i => match i with | 0 => K1_root | _ + 1 => K3_root)
    (fun i h => match i, h with | 0, h => absurd h (by decide) | _ + 1, _ => K3_sane)
    (fun _ => fpArb_tight) fun _ => fpArb_convergent
  have key : ∀ i, ∃ f : Field, cbrt2 ∈ f.emb ∧ FieldStart K3 cbrt2 (δ i) 64 false f := by
    intro i
    obtain ⟨r, r0, r1⟩ := exists_rat_btwn (hδ i)
    obtain ⟨m, m0, m1⟩ := exists_rat_btwn (show cbrt2 - r < cbrt2 by linarith)
    have hm : cbrt2 ∈ Ball.fin m r := by
      rw [Ball.mem_fin]; constructor <;> linarith
    exact ⟨⟨K3, .fin m r, 64, false⟩, hm, rfl, hm, by norm_num, fun _ =>
      ⟨⟨rfl, m, r, rfl, hm, r1.le⟩, by norm_num, by simp⟩⟩
  choose f hf hs using key
  refine ⟨fun i => match i with
    | 0 => { nf := K1, emb := .fin 1 1, prec := 64 }
    | i + 1 => f (i + 1), fun i => hf _, ?_⟩
  intro code
  have hfld : ∀ i, FieldStart (lib.K i) (gens i) (δ i) 64 false (match i with
      | 0 => { nf := K1, emb := .fin 1 1, prec := 64 }
      | i + 1 => f (i + 1)) := by
    intro i
    cases i with
    | zero => exact ⟨rfl, by show (1 : ℝ) ∈ Ball.fin 1 1; rw [Ball.mem_fin]; norm_num, by norm_num,
        fun h => absurd h (by decide)⟩
    | succ i => exact hs (i + 1)
  obtain ⟨b1, b2⟩ := cbrt2_bounds
  obtain ⟨n, h⟩ := H demoOps false false lp64 (fun _ => 64) demoPy (fun d : Dbl => d) textLib_ok lp64_ok (fun _ => by norm_num)
    demoPairSlots _ demoSage (demoPair_rep (L := libs _ _ _ _ _ _ _ _) rfl hfld) demoSage_allowed
  refine ⟨n, ?_⟩
  rcases h with ⟨rs, w', ⟨S', h1, -⟩, h2⟩ | ⟨s, w', h1, -⟩ | h | ⟨h, -⟩
  · obtain rfl := demoSage_steps h1
    exact .inl ⟨w', fun k hk => (h2 k hk).1⟩
  · exact h1.elim
  · exact .inr fun k hk => (h k hk).1
  · exact h.elim

end EAntic.Cxx
