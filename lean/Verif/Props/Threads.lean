import Verif.Lemmas.Threads
import Verif.Lemmas.Demo
import Verif.Lemmas.Ops
import Verif.Props.Refinement

/-!
# Threads and fields flagged immutable (C57)

Each thread `t` runs a program `progs t`; the threads share the field and the elements.  A schedule
is the order in which the threads access memory.  `Checks` says that the build has assertions, so
that refinement of an immutable field is stopped (C42).
-/

namespace EAntic

variable {K : Nf} {E : Threaded K} {α : ℝ} {s : Mem} {progs : ℕ → List Op}

section
variable (hE : E.Checks) (hs : s.fld.immutable = true)
  (hd : ∀ t u, t ≠ u → ∀ a, Changes (progs t) a → ¬ Uses (progs u) a)
include hE hs hd

/-- C57: in a field flagged immutable, if no thread writes an element that another thread uses
(queries count as writes), then in every schedule there is no data race, the field is not changed, a
thread that has returned got the answers and left the elements it would have alone, and a thread that
was stopped would have been stopped alone in the same way. -/
theorem C57_threads_partial (schedule : List ℕ) :
    let σ := (Threads.start s fun t => E.run (progs t)).exec schedule
    ¬ σ.Race ∧ σ.fld = s.fld ∧
    (∀ t as, σ.code t = .ret as → ∃ s', E.toEnv.run (progs t) s = .ok (as, s') ∧
      ∀ a, Uses (progs t) a → σ.usr a = s'.heap (.user a)) ∧
    ∀ t o, σ.code t = .stop o → E.toEnv.run (progs t) s = o.toRes := by
  intro σ
  have h := Threads.same_exec hs hd schedule
    (Threads.same_start (s := s) fun t => Threaded.confined_run hE (progs t))
  refine ⟨h.no_race hd fun t => changes_uses _, h.fld, fun t as ht => ?_, fun t o ht => ?_⟩
  · have hrun := Code.run_alones (schedule.count t) (E.run (progs t), s)
    have hc := h.code t
    have hu := h.usr t
    simp only [zero_add] at hc hu
    rw [← hc, show Threads.code _ t = _ from ht, Threaded.run_run] at hrun
    exact ⟨_, hrun.symm, hu⟩
  · have hrun := Code.run_alones (schedule.count t) (E.run (progs t), s)
    have hc := h.code t
    simp only [zero_add] at hc
    rw [← hc, show Threads.code _ t = _ from ht, Threaded.run_run] at hrun
    exact hrun.symm

/-- C57: no thread waits for another.  A thread returns, or is stopped, after a number of its own
accesses that does not depend on the schedule. -/
theorem C57_progress (t : ℕ) : ∃ n, ∀ schedule : List ℕ, n ≤ schedule.count t →
    (((Threads.start s fun t => E.run (progs t)).exec schedule).code t).Done := by
  obtain ⟨n, hn⟩ := Code.alones_done (E.run (progs t)) s
  refine ⟨n, fun l hl => ?_⟩
  have h := Threads.same_exec hs hd l
    (Threads.same_start (s := s) fun t => Threaded.confined_run hE (progs t))
  have hc := h.code t
  simp only [zero_add] at hc
  rw [show Threads.code _ t = _ from hc]
  exact hn _ hl

/-- C57: the answers that the threads get are those of exact arithmetic on real numbers, whatever
the schedule.  No assumption on refinement is needed, as there is none. -/
theorem C57_exact (hK : K.Ok) (hα : K.IsRoot α) {v : Reg → ℝ}
    (hr : Rep K α (fun f => f = s.fld) v s) (hnf : s.fld.nf = K) (henc : α ∈ s.fld.emb)
    (hp : 2 ≤ s.fld.prec) (schedule : List ℕ) (t : ℕ) (as : List Ans)
    (h : ((Threads.start s fun t => E.run (progs t)).exec schedule).code t = .ret as) :
    ∃ v', Steps K α (usr v) (progs t) as (usr v') ∧ ∀ a, Uses (progs t) a →
      (((Threads.start s fun t => E.run (progs t)).exec schedule).usr a).elem.val α =
        v' (.user a) ∧
      v' (.user a) ∈ (((Threads.start s fun t => E.run (progs t)).exec schedule).usr a).emb := by
  obtain ⟨-, -, h1, -⟩ := C57_threads_partial hE hs hd schedule
  obtain ⟨s', e, hu⟩ := h1 t as h
  have hI : FieldInv E.toEnv α (fun f => f = s.fld) := by
    refine ⟨hK, hα, ?_, ?_, ?_, ?_⟩
    · rintro f rfl; exact hnf
    · rintro f rfl; exact henc
    · rintro f rfl; exact hp
    · rintro f p f' rfl h; rw [hE _ _ hs] at h; cases h
  obtain ⟨v', hv, hst⟩ := run_spec hI (progs t) v s as s' hr e
  exact ⟨v', hst, fun a ha => by rw [hu a ha]; exact ⟨hv.val _, hv.enc _⟩⟩

end

/-! ## Examples and limits -/

/-- the environment of `ℚ(∛2)`, with or without assertions -/
def thr3 (nodebug : Bool) : Threaded K3 :=
  { env3 with refine := refineEmbedding exactArb nodebug 64 }

/-- `mem3` with the field flagged immutable, and `-∛2` in the element 4 -/
def memT : Mem where
  fld := { fld3 with immutable := true }
  heap
    | .user 4 => ⟨⟨[0, -1], 1, 0⟩, .fin (-5 / 4) (1 / 4)⟩
    | r => mem3.heap r

/-- the numbers stored in `memT` -/
noncomputable def valT : Reg → ℝ
  | .user 4 => -cbrt2
  | r => val3 r

theorem thr3_checks : (thr3 false).Checks := fun _ _ h => C42_refine_immutable h

theorem memT_rep : Rep K3 cbrt2 (fun f => f = memT.fld) valT memT where
  inv := rfl
  wf r := by
    by_cases h : r = .user 4
    · subst h
      exact ⟨by decide, by decide, by simp [K3, Nf.isLinear], by simp [K3, Nf.isQuadratic],
        fun _ _ => by decide⟩
    · rw [show memT.heap r = mem3.heap r by unfold memT; simp only]
      exact mem3_rep.wf r
  val r := by
    by_cases h : r = .user 4
    · subst h; simp [memT, valT, NfElem.val, realValue, toPoly]
    · rw [show memT.heap r = mem3.heap r by unfold memT; simp only,
        show valT r = val3 r by unfold valT; split <;> simp_all]
      exact mem3_rep.val r
  enc r := by
    by_cases h : r = .user 4
    · subst h
      have h := cbrt2_bounds
      show -cbrt2 ∈ Ball.fin (-5 / 4) (1 / 4)
      rw [Ball.mem_fin]; push_cast; constructor <;> linarith [h.1, h.2]
    · rw [show memT.heap r = mem3.heap r by unfold memT; simp only,
        show valT r = val3 r by unfold valT; split <;> simp_all]
      exact mem3_rep.enc r

/-- the answers of a thread that has returned -/
def Code.answer {β : Type} : Code β → Option β
  | .ret b => some b
  | _ => none

theorem Code.answer_eq {β : Type} {c : Code β} {b : β} (h : c.answer = some b) : c = .ret b := by
  cases c <;> simp_all [Code.answer]

/-- two threads that both read `∛2`: one adds it to `2/3` and compares with `1`, the other computes
its square and the sign of `-∛2` -/
def twoThreads : ℕ → List Op
  | 0 => [.add 5 0 3, .cmpQ 5 1]
  | 1 => [.mul 6 0 0, .sgn 4]
  | _ => []

theorem twoThreads_apart : ∀ t u, t ≠ u → ∀ a, Changes (twoThreads t) a → ¬ Uses (twoThreads u) a := by
  rintro (_ | _ | t) (_ | _ | u) h a ⟨op, h1, h2⟩ ⟨op', h3, h4⟩ <;>
    simp_all [twoThreads] <;> rcases h1 with rfl | rfl <;> rcases h3 with rfl | rfl <;>
    simp_all [Op.changes, Op.uses]

/-- the hypotheses of the theorems above are met, and in some schedule both threads have returned -/
example : (thr3 false).Checks ∧ memT.fld.immutable = true ∧
    (∀ t u, t ≠ u → ∀ a, Changes (twoThreads t) a → ¬ Uses (twoThreads u) a) ∧
    Rep K3 cbrt2 (fun f => f = memT.fld) valT memT ∧
    ∃ l, (((Threads.start memT fun t => (thr3 false).run (twoThreads t)).exec l).code 0) =
        .ret [.unit, .int 1] ∧
      (((Threads.start memT fun t => (thr3 false).run (twoThreads t)).exec l).code 1) =
        .ret [.unit, .int (-1)] :=
  ⟨thr3_checks, rfl, twoThreads_apart, memT_rep, (List.replicate 40 [0, 1]).flatten,
    Code.answer_eq (by decide +kernel), Code.answer_eq (by decide +kernel)⟩

/-- the theorems apply: in every schedule, what thread 1 gets for the sign of `-∛2` when it has returned is -1,
it does return or is stopped after finitely many of its own accesses, and there is no race -/
example (schedule : List ℕ) :
    let σ := (Threads.start memT fun t => (thr3 false).run (twoThreads t)).exec schedule
    ¬ σ.Race ∧ (∀ as, σ.code 1 = .ret as → as = [.unit, .int (-1)]) ∧
    ∃ n, ∀ l : List ℕ, n ≤ l.count 1 →
      (((Threads.start memT fun t => (thr3 false).run (twoThreads t)).exec l).code 1).Done := by
  intro σ
  refine ⟨(C57_threads_partial thr3_checks rfl twoThreads_apart schedule).1, fun as h => ?_,
    C57_progress thr3_checks rfl twoThreads_apart 1⟩
  have hf : cbrt2 ∈ memT.fld.emb := fld3_good.enc
  obtain ⟨v', h1, -⟩ := C57_exact thr3_checks rfl twoThreads_apart K3_ok K3_root memT_rep rfl hf
    (by show (2 : ℤ) ≤ fld3.prec; decide) schedule 1 as h
  rcases as with _ | ⟨a1, _ | ⟨a2, _ | ⟨a3, as⟩⟩⟩
  · exact h1.elim
  · exact h1.choose_spec.2.elim
  · obtain ⟨v1, h1, v2, h2, -⟩ := h1
    obtain ⟨rfl, hv⟩ : a1 = .unit ∧ v1 = Function.update (usr valT) 6 (usr valT 0 * usr valT 0) := h1
    obtain ⟨-, rfl⟩ : v2 = v1 ∧ a2 = .int (sgnR (v1 4)) := h2
    have h4 : v1 4 < 0 := by
      rw [hv]
      show -cbrt2 < 0
      linarith [cbrt2_bounds.1]
    unfold sgnR
    rw [if_neg (by linarith), if_pos h4]
  · exact h1.choose_spec.2.choose_spec.2.elim

/-- thread 0 converts the element 4 to a `double`, thread 1 asks for its sign -/
def readers : ℕ → List Op
  | 0 => [.getD 4 .near]
  | 1 => [.sgn 4]
  | _ => []

/-- C57 fails for threads that share an element which none of them assigns to: conversion to `double`
(`renf_elem_overflows_d`) negates a negative element in place for a while.  The number is negative,
the field is immutable and assertions are on; yet another thread is told that it is positive. -/
theorem C57_get_d_counterexample :
    Rep K3 cbrt2 (fun f => f = memT.fld) valT memT ∧ valT (.user 4) < 0 ∧
    (thr3 false).Checks ∧ memT.fld.immutable = true ∧
    ∃ schedule, ((Threads.start memT fun t => (thr3 false).run (readers t)).exec schedule).code 1 =
      .ret [.int 1] := by
  refine ⟨memT_rep, ?_, thr3_checks, rfl, [0, 0, 0, 0, 0, 0, 1, 1, 1, 1, 1, 1],
    Code.answer_eq (by decide +kernel)⟩
  show -cbrt2 < 0
  linarith [cbrt2_bounds.1]

/-- both threads ask for the sign of the element 1 -/
def signs : ℕ → List Op
  | 0 => [.sgn 1]
  | 1 => [.sgn 1]
  | _ => []

/-- C57 fails for threads that share an element which none of them assigns to: the sign is a data
race, as a better enclosure is stored in the element. -/
theorem C57_query_race_counterexample :
    (thr3 false).Checks ∧ memT.fld.immutable = true ∧
    ∃ schedule, ((Threads.start memT fun t => (thr3 false).run (signs t)).exec schedule).Race :=
  ⟨thr3_checks, rfl, [0, 0, 0, 0, 0, 0], 0, 1, by decide, .elem 1, false, by decide +kernel,
    by decide +kernel⟩

/-- the threads ask for the signs of different elements -/
def ownSigns : ℕ → List Op
  | 0 => [.sgn 1]
  | 1 => [.sgn 0, .sgn 2]
  | _ => []

/-- C57 fails in builds without assertions: the immutable flag is not looked at, and two threads
that have no element in common race on the field. -/
theorem C57_ndebug_counterexample :
    memT.fld.immutable = true ∧
    (∀ t u, t ≠ u → ∀ a, Uses (ownSigns t) a → ¬ Uses (ownSigns u) a) ∧
    ∃ schedule, ((Threads.start memT fun t => (thr3 true).run (ownSigns t)).exec schedule).Race := by
  refine ⟨rfl, ?_, [0, 0, 0, 0, 0, 0, 0, 0, 0, 1, 1, 1], 0, 1, by decide, .field, false, by decide +kernel,
    by decide +kernel⟩
  rintro (_ | _ | t) (_ | _ | u) h a ⟨op, h1, h2⟩ ⟨op', h3, h4⟩ <;>
    simp_all only [ownSigns, List.mem_cons, List.not_mem_nil, or_false, ne_eq, not_true_eq_false]
  · rcases h3 with rfl | rfl <;> simp_all [Op.uses]
  · rcases h1 with rfl | rfl <;> simp_all [Op.uses]

end EAntic
