import Verif.Lemmas.Rationals
import Verif.Props.Threads
import Verif.Lemmas.CxxDemo
import Verif.Props.Elements

/-!
# C72: threads that compute with rational numbers

All elements made from integers and fractions belong to one field of degree one, which is made once and
shared by the whole process (`renf_class.cpp:81-92`).
-/

namespace EAntic

variable {K : Nf} {E : Threaded K} {α : ℝ} {s : Mem} {progs : ℕ → List Op}

section
variable (hK : K.isLinear = true) (hops : ∀ t, ∀ op ∈ progs t, op.Plain)
  (hd : ∀ t u, t ≠ u → ∀ a, Assigns (progs t) a → ¬ Uses (progs u) a)
include hK hops hd

/-- C72: in a field of degree one, in every schedule of threads that do not assign to elements which
others use, there is no data race, the field is not written, a thread that has returned got the answers
and left the elements it would have alone, and a thread that was stopped would have been stopped alone in
the same way.  The field need not be immutable, and threads may ask for sign, comparison, floor, quotient
and `double` of the same element. -/
theorem C72_rationals (schedule : List ℕ) :
    let σ := (Threads.start s fun t => E.run (progs t)).exec schedule
    ¬ σ.Race ∧ σ.fld = s.fld ∧
    (∀ t as, σ.code t = .ret as → ∃ s', E.toEnv.run (progs t) s = .ok (as, s') ∧
      ∀ a, Uses (progs t) a → σ.usr a = s'.heap (.user a)) ∧
    ∀ t o, σ.code t = .stop o → E.toEnv.run (progs t) s = o.toRes := by
  intro σ
  have h := Threads.same_exec (I := fun _ => True) trivial hd schedule
    (Threads.same_start (s := s) fun t => Threaded.plain_run (E := E) hK (progs t) (hops t))
  refine ⟨h.no_race hd fun t => Threaded.assigns_uses _, h.fld, fun t as ht => ?_, fun t o ht => ?_⟩
  · have hrun := Code.run_alones (schedule.count t) (E.run (progs t), s)
    have hc := h.code t
    have hu := h.usr t
    simp only [zero_add] at hc hu
    rw [← hc, show Threads.code _ t = _ from ht, Threaded.run_run] at hrun
    exact ⟨_, hrun.symm, hu⟩
  · have hrun := Code.run_alones (schedule.count t) (E.run (progs t), s)
    have hc := h.code t
    simp only [zero_add] at hc
    rw [← hc, show Threads.code _ t = _ from ht, Threaded.run_run] at hrun
    exact hrun.symm

/-- C72: the answers are those of exact arithmetic on rational numbers, whatever the schedule. -/
theorem C72_exact {I : Field → Prop} (hI : FieldInv E.toEnv α I) {v : Reg → ℝ}
    (hr : Rep K α I v s) (schedule : List ℕ) (t : ℕ) (as : List Ans)
    (h : ((Threads.start s fun t => E.run (progs t)).exec schedule).code t = .ret as) :
    ∃ v', Steps K α (usr v) (progs t) as (usr v') ∧ ∀ a, Uses (progs t) a →
      (((Threads.start s fun t => E.run (progs t)).exec schedule).usr a).elem.val α =
        v' (.user a) ∧
      v' (.user a) ∈ (((Threads.start s fun t => E.run (progs t)).exec schedule).usr a).emb := by
  obtain ⟨-, -, h1, -⟩ := C72_rationals hK hops hd schedule
  obtain ⟨s', e, hu⟩ := h1 t as h
  obtain ⟨v', hv, hst⟩ := run_spec hI (progs t) v s as s' hr e
  exact ⟨v', hst, fun a ha => by rw [hu a ha]; exact ⟨hv.val _, hv.enc _⟩⟩

end

/-! ## The hypotheses are met -/

/-- the field of rationals, which is not immutable, with `2/3` in the element 0 -/
def memQ : Mem where
  fld := ⟨Cxx.K1, .fin 1 1, 64, false⟩
  heap
    | .user 0 => ⟨⟨[2], 3, 0⟩, .fin 0 1⟩
    | _ => ⟨NfElem.init Cxx.K1, Ball.exact 0⟩

/-- two threads that both use `2/3`: one compares it with zero and asks for its sign, the other asks for
its floor and compares it with `1/2`; both have an element of their own, too -/
def sharing : ℕ → List Op
  | 0 => [.zero 1, .cmp 1 0, .sgn 0]
  | 1 => [.gen 2, .floor 0, .cmpQ 0 (1 / 2)]
  | _ => []

theorem sharing_plain : ∀ t, ∀ op ∈ sharing t, op.Plain := by
  rintro (_ | _ | t) op h <;> simp [sharing] at h <;> rcases h with rfl | rfl | rfl <;> trivial

theorem sharing_apart : ∀ t u, t ≠ u → ∀ a, Assigns (sharing t) a → ¬ Uses (sharing u) a := by
  rintro (_ | _ | t) (_ | _ | u) h a ⟨op, h1, h2⟩ ⟨op', h3, h4⟩ <;>
    simp_all [sharing] <;> rcases h1 with rfl | rfl | rfl <;> rcases h3 with rfl | rfl | rfl <;>
    simp_all [Op.assignsTo, Op.changes, Op.uses]

/-- `C72_rationals` applies, though both threads ask for properties of the same element, and in some
schedule both have returned -/
example : Cxx.K1.isLinear = true ∧ (∀ t, ∀ op ∈ sharing t, op.Plain) ∧
    (∀ t u, t ≠ u → ∀ a, Assigns (sharing t) a → ¬ Uses (sharing u) a) ∧
    ∃ l, (((Threads.start memQ fun t => (⟨Cxx.env1⟩ : Threaded Cxx.K1).run (sharing t)).exec l).code 0) =
        .ret [.unit, .int (-1), .int 1] ∧
      (((Threads.start memQ fun t => (⟨Cxx.env1⟩ : Threaded Cxx.K1).run (sharing t)).exec l).code 1) =
        .ret [.unit, .int 0, .int 1] :=
  ⟨rfl, sharing_plain, sharing_apart, (List.replicate 30 [0, 1]).flatten,
    Code.answer_eq (by decide +kernel), Code.answer_eq (by decide +kernel)⟩

/-- the hypotheses of `C72_exact` are met by this memory -/
example : FieldInv Cxx.env1 1 (GoodField Cxx.K1 1) ∧
    Rep Cxx.K1 1 (GoodField Cxx.K1 1) (fun r => match r with | .user 0 => 2 / 3 | _ => 0) memQ := by
  have h1 : NfElem.Wf Cxx.K1 ⟨[2], 3, 0⟩ :=
    ⟨by decide, by decide, fun _ => rfl, by simp [Cxx.K1, Nf.isQuadratic],
      by simp [Cxx.K1, Nf.isLinear]⟩
  refine ⟨Cxx.lib_inv 0, ?_⟩
  have hf := freshMem_rep (Cxx.lib_inv 0) (f := ⟨Cxx.K1, .fin 1 1, 64, false⟩) (Cxx.start_rep.fld 0)
  have hh : ∀ r, r ≠ .user 0 → memQ.heap r = (freshMem ⟨Cxx.K1, .fin 1 1, 64, false⟩).heap r := by
    intro r hr
    unfold memQ freshMem
    simp only
  have hv : ∀ r : Reg, r ≠ .user 0 → (match r with | .user 0 => (2 / 3 : ℝ) | _ => 0) = 0 := by
    intro r hr
    split <;> simp_all
  refine ⟨hf.inv, fun r => ?_, fun r => ?_, fun r => ?_⟩ <;> by_cases hr : r = .user 0
  · subst hr; exact h1
  · rw [hh r hr]; exact hf.wf r
  · subst hr; simp [memQ, NfElem.val, realValue, toPoly]
  · rw [hh r hr]; exact (hf.val r).trans (hv r hr).symm
  · subst hr; show (2 / 3 : ℝ) ∈ Ball.fin 0 1; rw [Ball.mem_fin]; norm_num
  · rw [hh r hr]; have := hf.enc r; rw [← hv r hr] at this; exact this

end EAntic
