import Verif.Lemmas.CatchEnds
import Verif.Lemmas.CxxSetting
import Verif.Props.PyProg
import Verif.Props.PyEnds

/-!
# C56, C74: programs that catch exceptions come to an end
-/

namespace EAntic

namespace Cxx

/-- C56, for enclosures that are narrow enough and numbers of moderate size: a program that catches every
exception and goes on comes to an end, with the answers of exact arithmetic in which a call that throws
has no effect, and with the memory in order but for one cell for every failed conversion; or the working
precision of a refinement overflows; or, if it rounds a number, it calls `abort` as the exponent of an
enclosure does not fit into a machine word.  It lets no exception out.

Missing from the full statement: enclosures that are wider (see `C55_counterexample`), numbers that are not
`Sizeable` (see `C44_precision_counterexample`), and the leak (see `C56_leak_counterexample`). -/
theorem C56_programs_end_partial {K : ℕ → Nf} {α : ℕ → ℝ} (hK : ∀ i, (K i).Ok)
    (hα : ∀ i, (K i).IsRoot (α i)) (hs : ∀ i, 3 ≤ (K i).pol.length → (K i).Sane (α i))
    {A : ℕ → ArbOps} (hT : ∀ i, (A i).Tight) (hC : ∀ i, (A i).Convergent) :
    ∃ δ : ℕ → ℝ, (∀ i, 0 < δ i) ∧ ∀ (N : ∀ i, NfOps (K i)) (strict ndebug : Bool) (bits : Widths)
      (p : ℕ → ℤ), bits.Ok → (∀ i, 2 ≤ p i ∧ p i ≤ 2 ^ 63) →
      let code := libs K A N (fun i k => refineEmbedding (A i) ndebug k) strict ndebug bits
      let code' := libs K A N (fun i k => refineAt (A i) ndebug k) strict ndebug bits
      let I := fun i => FieldStart (K i) (α i) (δ i) (p i) ndebug
      ∀ (S : ℕ → Slot) (w : World) (cs : List Cmd),
        Represents (code' 0) α I S w → TryAllowedSized (code' 0) α p S cs →
        EndsW (∃ c ∈ cs, c.rounds) (fun _ _ => False)
          (fun k => execCatching (code k) cs) (fun k => execCatching (code' k) cs) w
          fun rs w' => ∃ S' Λ, TrySteps (code' 0) α S cs rs S' ∧ RepresentsUpTo (code' 0) α I Λ S' w' ∧
            Λ.Finite ∧ Λ.ncard ≤ failedConversions cs rs := by
  obtain ⟨δ, hδ, H⟩ := exists_setting hK hα hs hT hC
  refine ⟨δ, hδ, ?_⟩
  intro N strict ndebug bits p hb hp code code' I S w cs h hv
  refine (execCatchingW_ends (H N ndebug p hp) hb h Set.finite_empty hv).mono fun rs w' h => ?_
  simpa using h

end Cxx

namespace Py
open Cxx

/-- the calls of C++ that statements of Python are translated to do not evaluate numbers -/
theorem PyCmd.cmd_exact {P : PyEnv} {L : Lib} {c : PyCmd} {d : Cmd} (h : c.cmd P L = .ok d) :
    ¬ d.approximates := by
  have op : ∀ f r (x y : Converted), operatorCall L f r x y = .ok d → ¬ d.approximates := by
    intro f r x y h
    unfold operatorCall at h
    split at h
    · cases h; exact id
    · rename_i x a _
      cases e : templateArg L.bits a <;> rw [e] at h <;> cases h
      exact id
    · rename_i a y _
      cases e : templateArg L.bits a <;> rw [e] at h <;> cases h
      exact id
    · cases h
  cases c with
  | operator f r lhs rhs =>
    unfold PyCmd.cmd operatorOf at h
    cases e : forEantic P lhs <;> simp only [e] at h
    · cases h
    · cases e' : forEantic P rhs <;> simp only [e'] at h
      · cases h
      · exact op f r _ _ h
  | neg r x => cases h; exact id
  | pow r x n =>
    change (if InS 32 n then pure (Cmd.pow r x n) else throw "TypeError" : Except String Cmd) = _ at h
    split_ifs at h
    cases h; exact id
  | make r K v =>
    unfold PyCmd.cmd at h
    cases e : forEantic P v <;> simp only [e] at h
    · cases h
    · change constructorCall P r K _ = _ at h
      unfold constructorCall at h
      split at h
      · split at h <;> cases h
        exact id
      all_goals first | (cases h; exact id) | cases h
  | zero r K => cases h; exact id

section
variable {K : ℕ → Nf} {A : ℕ → ArbOps} {N : ∀ i, NfOps (K i)}
  {R R' : ℕ → ℕ → Field → ℤ → Res Field} {strict nd : Bool} {bits : Widths}
  {α : ℕ → ℝ} {p : ℕ → ℤ} {I : ℕ → Field → Prop} {P : PyEnv} (X : Setting K A N R R' α p I)

@[inherit_doc libs] local notation "Lb" => libs K A N R strict nd bits
@[inherit_doc libs] local notation "Lr" => libs K A N R' strict nd bits

theorem PyCmd.run_indep (c : PyCmd) (k j : ℕ) : c.run P (Lb k) = c.run P (Lr j) := by
  have e : c.cmd P (Lb k) = c.cmd P (Lr j) := by cases c <;> rfl
  unfold PyCmd.run
  rw [e]
  cases h : c.cmd P (Lr j) with
  | ok d => exact exec_indep (PyCmd.cmd_exact h) k j
  | error s => rfl

include X in
private theorem runCatchingW_ends (hb : bits.Ok) (hg : P.gmpy = true) (hP : P.Ok bits) :
    ∀ {cs : List PyStmt} {Λ : Set ℕ} {S : ℕ → Slot} {w : World},
    RepresentsUpTo (Lr 0) α I Λ S w → Λ.Finite → PyAllowedSized P (Lr 0) α p S cs →
    EndsW (∃ c ∈ cs, c.rounds) (fun _ _ => False)
      (fun k => runCatching P (Lb k) cs) (fun k => runCatching P (Lr k) cs) w
      fun rs w' => ∃ S' Λ', PySteps P (Lr 0) α S cs rs S' ∧ RepresentsUpTo (Lr 0) α I Λ' S' w' ∧
        Λ'.Finite ∧ Λ'.ncard ≤ Λ.ncard + failed cs rs
  | [], Λ, S, w, h, hf, _ => EndsW.pure ⟨S, Λ, rfl, h, hf, by simp [failed]⟩
  | c :: cs, Λ, S, w, h, hf, hv => by
    classical
    unfold runCatching
    refine EndsW.bind (Q := fun r w' => ∃ S' Λ', c.Step P (Lr 0) α S r S' ∧
      RepresentsUpTo (Lr 0) α I Λ' S' w' ∧
      (Λ' = Λ ∨ c.converts ∧ (∃ s, r = .error s) ∧ ∃ d, Λ' = insert d Λ)) ?_ ?_
    · cases c with
      | py c =>
        obtain ⟨res, w', S', Λ', e1, e2, e3, e4⟩ := C74_statement_partial (L := Lr 0) (X.inv 0) hb hg hP h hv.1
        refine ⟨0, .inl ⟨res, w', ⟨S', Λ', e2, e3, e4⟩, fun k _ => ?_⟩⟩
        exact ⟨(congrArg (fun m => attempt m w) (PyCmd.run_indep c k 0)).trans e1,
          (congrArg (fun m => attempt m w) (PyCmd.run_indep (R := R') c k 0)).trans e1⟩
      | cxx c =>
        exact attempt_exec_ends X hb (fun h => ⟨.cxx c, by simp, h⟩) h hv.1 hv.2.1
    · rintro r w₁ ⟨S₁, Λ₁, hs, h₁, hl₁⟩
      have hf₁ : Λ₁.Finite ∧ Λ₁.ncard ≤ Λ.ncard + failed [c] [r] := by
        rcases hl₁ with rfl | ⟨hc, ⟨s, rfl⟩, d, rfl⟩
        · exact ⟨hf, by simp⟩
        · refine ⟨hf.insert d, ?_⟩
          simp only [failed, if_pos hc]
          exact Set.ncard_insert_le d Λ
      refine EndsW.bind ((runCatchingW_ends hb hg hP h₁ hf₁.1 (hv.2.2 r S₁ hs)).weaken
        (fun ⟨c', hc, hu⟩ => ⟨c', by simp [hc], hu⟩) fun _ _ h => h) ?_
      rintro rs w₂ ⟨S₂, Λ₂, hs₂, h₂, hf₂, hl₂⟩
      refine EndsW.pure ⟨S₂, Λ₂, ⟨S₁, hs, hs₂⟩, h₂, hf₂, ?_⟩
      have := hf₁.2
      cases r <;> simp only [failed] at this ⊢ <;> omega

end

/-- C74, for enclosures that are narrow enough and numbers of moderate size: programs of Python with caught
exceptions come to an end.  Every statement has the exact result or the exception of the specification,
and at most one cell leaks for every failed conversion; or the working precision of a refinement
overflows; or, if it rounds a number, the program is aborted as the exponent of an enclosure does not fit into
a machine word.

Missing from the full statement: enclosures that are wider (see `C55_counterexample`), numbers that are not
`Sizeable` (see `C44_precision_counterexample`), and the smallest `int` as exponent
(`C74_pow_counterexample`). -/
theorem C74_programs_end_partial {K : ℕ → Nf} {α : ℕ → ℝ} (hK : ∀ i, (K i).Ok)
    (hα : ∀ i, (K i).IsRoot (α i)) (hs : ∀ i, 3 ≤ (K i).pol.length → (K i).Sane (α i))
    {A : ℕ → ArbOps} (hT : ∀ i, (A i).Tight) (hC : ∀ i, (A i).Convergent) :
    ∃ δ : ℕ → ℝ, (∀ i, 0 < δ i) ∧ ∀ (N : ∀ i, NfOps (K i)) (strict ndebug : Bool) (bits : Widths)
      (p : ℕ → ℤ) (P : PyEnv), bits.Ok → P.gmpy = true → P.Ok bits → (∀ i, 2 ≤ p i ∧ p i ≤ 2 ^ 63) →
      let code := libs K A N (fun i k => refineEmbedding (A i) ndebug k) strict ndebug bits
      let code' := libs K A N (fun i k => refineAt (A i) ndebug k) strict ndebug bits
      let I := fun i => FieldStart (K i) (α i) (δ i) (p i) ndebug
      ∀ (S : ℕ → Slot) (w : World) (cs : List PyStmt),
        Represents (code' 0) α I S w → PyAllowedSized P (code' 0) α p S cs →
        EndsW (∃ c ∈ cs, c.rounds) (fun _ _ => False)
          (fun k => runCatching P (code k) cs) (fun k => runCatching P (code' k) cs) w
          fun rs w' => ∃ S' Λ, PySteps P (code' 0) α S cs rs S' ∧ RepresentsUpTo (code' 0) α I Λ S' w' ∧
            Λ.Finite ∧ Λ.ncard ≤ failed cs rs := by
  obtain ⟨δ, hδ, H⟩ := exists_setting hK hα hs hT hC
  refine ⟨δ, hδ, ?_⟩
  intro N strict ndebug bits p P hb hg hP hp code code' I S w cs h hv
  refine (runCatchingW_ends (H N ndebug p hp) hb hg hP h Set.finite_empty hv).mono fun rs w' h => ?_
  simpa using h

end Py

namespace Cxx
open Py

/-- `r = x - 2` in Python, its sign, `renf_elem(K, x)` for another field, which is an exception, and its sign once
more -/
def demoCatch : List PyStmt :=
  [.py (.operator .sub 2 (.atom (.elem 0)) (.atom (.int 2))), .cxx (.sgn 2), .py (.make 3 (some 2) (.atom (.elem 0))),
    .cxx (.sgn 2)]

/-- the variables after the first statement -/
noncomputable def demoCatchSlots : ℕ → Slot := Function.update demoPairSlots 2 (.elem 1 (cbrt2 - 2))

section
variable {R : ℕ → ℕ → Field → ℤ → Res Field} {strict ndebug : Bool} {r : Except String Val} {S' : ℕ → Slot}

@[inherit_doc libs] local notation "Ld" => libs lib.K (fun _ => fpArb) demoOps R strict ndebug lp64 0

theorem demoCatch_sub (h : (PyStmt.py (.operator .sub 2 (.atom (.elem 0)) (.atom (.int 2)))).Step demoPy Ld gens
    demoPairSlots r S') : r = .ok .unit ∧ S' = demoCatchSlots := by
  rcases h with ⟨l, m, a, b, e1, e2, h1, h2, -, h⟩ | ⟨(h | ⟨l, h⟩) | (h | ⟨l, h⟩), -⟩
  rotate_left
  · cases h
  · cases h
  · cases h
  · cases h
  cases e1
  cases e2
  obtain rfl : b = ((2 : ℤ) : ℝ) := h2
  rw [if_neg (by
    rintro (h | h | h)
    · exact h
    · exact h (show InS 32 2 by decide)
    · exact h)] at h
  obtain ⟨k, ⟨h4, rfl⟩, a', h3⟩ := h
  obtain ⟨k', h1⟩ := h1
  simp only [demoPairSlots, Slot.elem.injEq] at h1 h3
  obtain ⟨-, rfl⟩ := h1
  obtain ⟨rfl, -⟩ := h3
  refine ⟨h4, ?_⟩
  unfold demoCatchSlots
  simp [BinK.real]

theorem demoCatch_sgn (h : (PyStmt.cxx (.sgn 2)).Step demoPy Ld gens demoCatchSlots r S') :
    r = .ok (.int (-1)) ∧ S' = demoCatchSlots := by
  cases r with
  | error s => exact h.1.elim
  | ok v =>
    obtain ⟨h1, i, a, h2, rfl⟩ := h
    simp only [demoCatchSlots, Function.update_self, Slot.elem.injEq] at h2
    obtain ⟨-, rfl⟩ := h2
    obtain ⟨b1, b2⟩ := cbrt2_bounds
    have : cbrt2 - 2 < 0 := by linarith
    exact ⟨by unfold sgnR; rw [if_pos this, if_neg (by linarith)], h1⟩

theorem demoCatch_make (h : (PyStmt.py (.make 3 (some 2) (.atom (.elem 0)))).Step demoPy Ld gens
    demoCatchSlots r S') : (∃ s, r = .error s) ∧ S' = demoCatchSlots := by
  rcases h with ⟨m, _, h, -, h', -⟩ | ⟨y, j, b, h1, h2, h⟩ | ⟨_, _, _, -, h, -⟩
  · cases h
    exact absurd trivial h'
  · cases h1
    have e : demoCatchSlots 0 = .elem 1 cbrt2 := by simp [demoCatchSlots, demoPairSlots]
    rw [e] at h2
    cases h2
    rw [if_neg (by
      rintro (h | h)
      · exact absurd h (by decide)
      · exact cbrt2_irr h)] at h
    exact h
  · cases h

theorem demoCatch_allowed : PyAllowedSized demoPy Ld gens (fun _ => 64) demoPairSlots demoCatch := by
  have sgn : Cxx.SizeOk lib.K gens (fun _ => 64) demoCatchSlots (.sgn 2) := by
    intro i b hb
    simp only [demoCatchSlots, Function.update_self, Slot.elem.injEq] at hb
    obtain ⟨rfl, rfl⟩ := hb
    exact sizeable3 (demoPair_wf (r := 0) (l := [-2, 1]) (by simp)) (by decide)
        (by simp [NfElem.val, realValue, toPoly]; ring) (by norm_num)
  have val : Cxx.Valid Ld gens demoCatchSlots (.sgn 2) := ⟨1, cbrt2 - 2, by simp [demoCatchSlots]⟩
  refine ⟨⟨rfl, .inl ⟨_, _, cbrt2, ((2 : ℤ) : ℝ), rfl, rfl, ⟨1, rfl⟩, rfl, .inl trivial, by simp⟩⟩, trivial, fun r S₁ h => ?_⟩
  obtain ⟨-, rfl⟩ := demoCatch_sub h
  refine ⟨val, sgn, fun r S₁ h => ?_⟩
  obtain ⟨-, rfl⟩ := demoCatch_sgn h
  refine ⟨⟨by simp [demoCatchSlots, demoPairSlots], .inl ⟨_, cbrt2, rfl, 1, by simp [demoCatchSlots, demoPairSlots]⟩⟩,
    trivial, fun r S₁ h => ?_⟩
  obtain ⟨-, rfl⟩ := demoCatch_make h
  exact ⟨val, sgn, fun _ _ _ => trivial⟩

theorem demoCatch_steps {rs : List (Except String Val)} (h : PySteps demoPy Ld gens demoPairSlots demoCatch rs S') :
    ∃ s, rs = [.ok .unit, .ok (.int (-1)), .error s, .ok (.int (-1))] := by
  rcases rs with _ | ⟨r1, _ | ⟨r2, _ | ⟨r3, _ | ⟨r4, _ | ⟨r5, rs⟩⟩⟩⟩⟩
  · exact h.elim
  · exact h.choose_spec.2.elim
  · exact h.choose_spec.2.choose_spec.2.elim
  · exact h.choose_spec.2.choose_spec.2.choose_spec.2.elim
  · obtain ⟨S1, h1, S2, h2, S3, h3, S4, h4, -⟩ := h
    obtain ⟨rfl, rfl⟩ := demoCatch_sub h1
    obtain ⟨rfl, rfl⟩ := demoCatch_sgn h2
    obtain ⟨⟨s, rfl⟩, rfl⟩ := demoCatch_make h3
    obtain ⟨rfl, rfl⟩ := demoCatch_sgn h4
    exact ⟨s, rfl⟩
  · exact h.choose_spec.2.choose_spec.2.choose_spec.2.choose_spec.2.elim

end

/-- The theorem applies: with floating point balls there are enclosures of `∛2` from which the program above runs
to its end: the sign is -1 twice, with a caught exception in between. -/
example : ∃ f : ℕ → Field, (∀ i, cbrt2 ∈ (f (i + 1)).emb) ∧
    let code : ℕ → Lib := libs lib.K (fun _ => fpArb) demoOps
      (fun _ k => refineEmbedding fpArb false k) false false lp64
    ∃ n : ℕ, (∃ s w', ∀ k, n ≤ k → runCatching demoPy (code k) demoCatch (demoPair f) =
        .ok ([.ok .unit, .ok (.int (-1)), .error s, .ok (.int (-1))], w')) ∨
      ∀ k, n ≤ k → runCatching demoPy (code k) demoCatch (demoPair f) = .ub := by
  obtain ⟨δ, hδ, H⟩ := C74_programs_end_partial (K := lib.K) (α := gens) (A := fun _ => fpArb)
    (fun i => match i with | 0 => K1_ok | _ + 1 => K3_ok)
    (fun i => match i with | 0 => K1_root | _ + 1 => K3_root)
    (fun i h => match i, h with | 0, h => absurd h (by decide) | _ + 1, _ => K3_sane)
    (fun _ => fpArb_tight) fun _ => fpArb_convergent
  have key : ∀ i, ∃ f : Field, cbrt2 ∈ f.emb ∧ FieldStart K3 cbrt2 (δ i) 64 false f := by
    intro i
    obtain ⟨r, r0, r1⟩ := exists_rat_btwn (hδ i)
    obtain ⟨m, m0, m1⟩ := exists_rat_btwn (show cbrt2 - r < cbrt2 by linarith)
    have hm : cbrt2 ∈ Ball.fin m r := by
      rw [Ball.mem_fin]; constructor <;> linarith
    exact ⟨⟨K3, .fin m r, 64, false⟩, hm, rfl, hm, by norm_num, fun _ =>
      ⟨⟨rfl, m, r, rfl, hm, r1.le⟩, by norm_num, by simp⟩⟩
  choose f hf hs using key
  refine ⟨fun i => match i with
    | 0 => { nf := K1, emb := .fin 1 1, prec := 64 }
    | i + 1 => f (i + 1), fun i => hf _, ?_⟩
  intro code
  have hfld : ∀ i, FieldStart (lib.K i) (gens i) (δ i) 64 false (match i with
      | 0 => { nf := K1, emb := .fin 1 1, prec := 64 }
      | i + 1 => f (i + 1)) := by
    intro i
    cases i with
    | zero => exact ⟨rfl, by show (1 : ℝ) ∈ Ball.fin 1 1; rw [Ball.mem_fin]; norm_num, by norm_num,
        fun h => absurd h (by decide)⟩
    | succ i => exact hs (i + 1)
  obtain ⟨b1, b2⟩ := cbrt2_bounds
  obtain ⟨n, h⟩ := H demoOps false false lp64 (fun _ => 64) demoPy lp64_ok rfl demoPy_ok (fun _ => by norm_num)
    demoPairSlots _ demoCatch (demoPair_rep (L := libs _ _ _ _ _ _ _ _) rfl hfld) demoCatch_allowed
  refine ⟨n, ?_⟩
  rcases h with ⟨rs, w', ⟨S', Λ, h1, -⟩, h2⟩ | ⟨s, w', h1, -⟩ | h | ⟨⟨c, hc, h⟩, -⟩
  · obtain ⟨s, rfl⟩ := demoCatch_steps h1
    exact .inl ⟨s, w', fun k hk => (h2 k hk).1⟩
  · exact h1.elim
  · exact .inr fun k hk => (h k hk).1
  · simp only [demoCatch, List.mem_cons, List.not_mem_nil, or_false] at hc
    rcases hc with rfl | rfl | rfl | rfl <;> exact h.elim

/-- the sign of `∛2`, a conversion to another field, which throws, and the sign once more -/
def demoTry : List Cmd := [.sgn 0, .constructFrom 3 2 0, .sgn 0]

section
variable {R : ℕ → ℕ → Field → ℤ → Res Field} {strict ndebug : Bool} {r : Except String Val} {S' : ℕ → Slot}

@[inherit_doc libs] local notation "Ld" => libs lib.K (fun _ => fpArb) demoOps R strict ndebug lp64 0

theorem demoTry_sgn (h : TryStep Ld gens demoPairSlots (.sgn 0) r S') : r = .ok (.int 1) ∧ S' = demoPairSlots := by
  cases r with
  | error s => exact h.1.elim
  | ok v =>
    obtain ⟨h1, i, a, h2, rfl⟩ := h
    simp only [demoPairSlots, Slot.elem.injEq] at h2
    obtain ⟨-, rfl⟩ := h2
    obtain ⟨b1, b2⟩ := cbrt2_bounds
    exact ⟨by unfold sgnR; rw [if_pos (by linarith)], h1⟩

theorem demoTry_make (h : TryStep Ld gens demoPairSlots (.constructFrom 3 2 0) r S') :
    (∃ s, r = .error s) ∧ S' = demoPairSlots := by
  cases r with
  | error s => exact ⟨⟨s, rfl⟩, h.2⟩
  | ok v =>
    obtain ⟨j, b, h1, h2, -⟩ := h
    simp only [demoPairSlots, Slot.elem.injEq] at h1
    obtain ⟨rfl, rfl⟩ := h1
    rcases h2 with h | h
    · exact absurd h (by decide)
    · exact absurd h cbrt2_irr

theorem demoTry_allowed : TryAllowedSized Ld gens (fun _ => 64) demoPairSlots demoTry := by
  have sgn : Cxx.SizeOk lib.K gens (fun _ => 64) demoPairSlots (.sgn 0) := by
    intro i b hb
    simp only [demoPairSlots, Slot.elem.injEq] at hb
    obtain ⟨rfl, rfl⟩ := hb
    exact sizeable3 (demoPair_wf (r := 0) (l := [0, 1]) (by simp)) (by decide)
        (by simp [NfElem.val, realValue, toPoly]) (by norm_num)
  have val : Cxx.Valid Ld gens demoPairSlots (.sgn 0) := ⟨1, cbrt2, rfl⟩
  refine ⟨val, sgn, fun r S₁ h => ?_⟩
  obtain ⟨-, rfl⟩ := demoTry_sgn h
  refine ⟨⟨rfl, 1, cbrt2, rfl⟩, trivial, fun r S₁ h => ?_⟩
  obtain ⟨-, rfl⟩ := demoTry_make h
  exact ⟨val, sgn, fun _ _ _ => trivial⟩

theorem demoTry_steps {rs : List (Except String Val)} (h : TrySteps Ld gens demoPairSlots demoTry rs S') :
    ∃ s, rs = [.ok (.int 1), .error s, .ok (.int 1)] := by
  rcases rs with _ | ⟨r1, _ | ⟨r2, _ | ⟨r3, _ | ⟨r4, rs⟩⟩⟩⟩
  · exact h.elim
  · exact h.choose_spec.2.elim
  · exact h.choose_spec.2.choose_spec.2.elim
  · obtain ⟨S1, h1, S2, h2, S3, h3, -⟩ := h
    obtain ⟨rfl, rfl⟩ := demoTry_sgn h1
    obtain ⟨⟨s, rfl⟩, rfl⟩ := demoTry_make h2
    obtain ⟨rfl, rfl⟩ := demoTry_sgn h3
    exact ⟨s, rfl⟩
  · exact h.choose_spec.2.choose_spec.2.choose_spec.2.elim

end

/-- The theorem for C++ applies: with floating point balls there are enclosures of `∛2` from which the sign of
`∛2` is asked for, a conversion to another field throws, and the sign is asked for again. -/
example : ∃ f : ℕ → Field, (∀ i, cbrt2 ∈ (f (i + 1)).emb) ∧
    let code : ℕ → Lib := libs lib.K (fun _ => fpArb) demoOps
      (fun _ k => refineEmbedding fpArb false k) false false lp64
    ∃ n : ℕ, (∃ s w', ∀ k, n ≤ k → execCatching (code k) demoTry (demoPair f) =
        .ok ([.ok (.int 1), .error s, .ok (.int 1)], w')) ∨
      ∀ k, n ≤ k → execCatching (code k) demoTry (demoPair f) = .ub := by
  obtain ⟨δ, hδ, H⟩ := C56_programs_end_partial (K := lib.K) (α := gens) (A := fun _ => fpArb)
    (fun i => match i with | 0 => K1_ok | _ + 1 => K3_ok)
    (fun i => match i with | 0 => K1_root | _ + 1 => K3_root)
    (fun i h => match i, h with | 0, h => absurd h (by decide) | _ + 1, _ => K3_sane)
    (fun _ => fpArb_tight) fun _ => fpArb_convergent
  have key : ∀ i, ∃ f : Field, cbrt2 ∈ f.emb ∧ FieldStart K3 cbrt2 (δ i) 64 false f := by
    intro i
    obtain ⟨r, r0, r1⟩ := exists_rat_btwn (hδ i)
    obtain ⟨m, m0, m1⟩ := exists_rat_btwn (show cbrt2 - r < cbrt2 by linarith)
    have hm : cbrt2 ∈ Ball.fin m r := by
      rw [Ball.mem_fin]; constructor <;> linarith
    exact ⟨⟨K3, .fin m r, 64, false⟩, hm, rfl, hm, by norm_num, fun _ =>
      ⟨⟨rfl, m, r, rfl, hm, r1.le⟩, by norm_num, by simp⟩⟩
  choose f hf hs using key
  refine ⟨fun i => match i with
    | 0 => { nf := K1, emb := .fin 1 1, prec := 64 }
    | i + 1 => f (i + 1), fun i => hf _, ?_⟩
  intro code
  have hfld : ∀ i, FieldStart (lib.K i) (gens i) (δ i) 64 false (match i with
      | 0 => { nf := K1, emb := .fin 1 1, prec := 64 }
      | i + 1 => f (i + 1)) := by
    intro i
    cases i with
    | zero => exact ⟨rfl, by show (1 : ℝ) ∈ Ball.fin 1 1; rw [Ball.mem_fin]; norm_num, by norm_num,
        fun h => absurd h (by decide)⟩
    | succ i => exact hs (i + 1)
  obtain ⟨b1, b2⟩ := cbrt2_bounds
  obtain ⟨n, h⟩ := H demoOps false false lp64 (fun _ => 64) lp64_ok (fun _ => by norm_num)
    demoPairSlots _ demoTry (demoPair_rep (L := libs _ _ _ _ _ _ _ _) rfl hfld) demoTry_allowed
  refine ⟨n, ?_⟩
  rcases h with ⟨rs, w', ⟨S', Λ, h1, -⟩, h2⟩ | ⟨s, w', h1, -⟩ | h | ⟨⟨c, hc, h⟩, -⟩
  · obtain ⟨s, rfl⟩ := demoTry_steps h1
    exact .inl ⟨s, w', fun k hk => (h2 k hk).1⟩
  · exact h1.elim
  · exact .inr fun k hk => (h k hk).1
  · simp only [demoTry, List.mem_cons, List.not_mem_nil, or_false] at hc
    rcases hc with rfl | rfl | rfl <;> exact h.elim

end Cxx

end EAntic
