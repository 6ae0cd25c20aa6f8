import Verif.Lemmas.Sequential
import Verif.Props.Concurrent

/-!
# C71: what a thread gets is what a program without threads gets

`Spec/Sequential.lean`: the calls of a thread executed one after the other by the model with one thread
and whole calls (`Model/Fields.lean`), about which C61 speaks.
-/

namespace EAntic.Concurrent

open Fields (k3 k6 env6)

variable {bk : Dbl → ℕ} {as : List (ℕ × Act)} {s : State}

/-- C71.  A thread that is alone and whose calls have returned: the same calls, executed as a whole one
after the other, return too, give the same answers, and leave the same objects, pointers and set of fields. -/
theorem C71_one_thread {t : ℕ} (ht : ∀ a ∈ as, a.1 = t) (hE : ∀ k E, (t, Act.make k E) ∈ as → E.KeepsNf)
    (h : run bk .init as = some s) (hi : s.pc t = .idle) :
    ∃ σ, Fields.runOut bk (.init, []) (calls as t) = .ok (σ, s.out t) ∧
      (∀ n, s.objs (t, n) = σ.objs n) ∧ s.handles = σ.handles.map (fun n => (t, (t, n))) ∧
      s.reg = σ.reg.map fun e => ((t, e.1), e.2) := by
  obtain ⟨σ, h1, h2⟩ := run_alone_seq ht hE h hi
  exact ⟨σ, h1, h2.objs, h2.handles, h2.reg⟩

/-- C71, partial.  If fields made by different threads have different defining polynomials, then for each
thread that is not in a call, whatever the others do: the calls of this thread alone, executed as a whole one
after the other, return too and give the same answers; the thread has the same pointers; and it finds the
same contents in its fields and the elements in them.  Missing: fields with the same polynomial, and
executions in which the set of all fields still contains one that was deleted (see C60). -/
theorem C71_sequential_partial (hd : DifferentPolynomials as) (hE : ∀ t k E, (t, Act.make k E) ∈ as → E.KeepsNf)
    (h : run bk .init as = some s) (hreg : ¬ s.Dangling) (t : ℕ) (hi : s.pc t = .idle) :
    ∃ σ, Fields.runOut bk (.init, []) (calls as t) = .ok (σ, s.out t) ∧
      (∀ o, (t, o) ∈ s.handles ↔ o.1 = t ∧ o.2 ∈ σ.handles) ∧
      ∀ o, (t, o) ∈ s.handles → s.objs o = σ.objs o.2 := by
  obtain ⟨bs, s', h1, h2, h3, h4, h5, h6, h7, -⟩ := C71_as_alone_partial hd h hreg t
  have ht : ∀ a ∈ bs, a.1 = t := fun a ha => by simpa using (List.mem_filter.1 (h1.subset ha)).2
  have hE' : ∀ k E, (t, Act.make k E) ∈ bs → E.KeepsNf := fun k E hm =>
    hE t k E (List.mem_filter.1 (h1.subset hm)).1
  obtain ⟨σ, e1, e2⟩ := run_alone_seq ht hE' h3 (h7.2 hi)
  have hc : calls bs t = calls as t := by
    have hf : ∀ l : List (ℕ × Act), l.filterMap (fun a => a.2.call) =
        (l.filter fun a => a.2.isCall).filterMap fun a => a.2.call := by
      intro l
      rw [List.filterMap_filter]
      congr 1
      funext a
      obtain ⟨u, a⟩ := a
      cases a <;> rfl
    have hb : (bs.filter fun a => a.1 = t) = bs := List.filter_eq_self.2 fun a ha => by simpa using ht a ha
    simp only [calls]
    rw [hb, hf bs, h2, ← hf]
  refine ⟨σ, by rw [← hc, ← h4]; exact e1, fun o => ?_, fun o ho => ?_⟩
  · rw [← h5 o]
    constructor
    · intro ho
      obtain ⟨e, hm⟩ := e2.mem ho
      exact ⟨by rw [e], hm⟩
    · rintro ⟨rfl, hm⟩
      exact e2.mem'.2 hm
  · obtain ⟨e, -⟩ := e2.mem ((h5 o).2 ho)
    rw [← h6 o ho, e, e2.objs]

/-- the steps in which a thread with the field of `∛2` refines it, and one with a field of another
polynomial writes an element, interleaved until both have returned -/
noncomputable def apartDone : List (ℕ × Act) :=
  apart ++ [(1, .next), (0, .next), (1, .next), (1, .next), (1, .next)] ++ List.replicate 11 (0, .next)

/-- has the thread returned -/
def Pc.isIdle : Pc → Bool
  | .idle => true
  | _ => false

/-- `C71_sequential_partial` applies to it: both threads have returned, with answers -/
example : DifferentPolynomials apartDone ∧ (∀ t k E, (t, Act.make k E) ∈ apartDone → E.KeepsNf) ∧
    ((run (fun _ => 0) .init apartDone).map fun s => ((s.out 0).length, s.out 1, (s.pc 0).isIdle, (s.pc 1).isIdle, s.reg.length,
      s.reg.all fun e => (s.objs e.1).isSome)) = some (2, [.unit], true, true, 2, true) := by
  refine ⟨?_, ?_, by decide +kernel⟩
  · rintro t u k k' hne ⟨E, hm⟩ ⟨E', hm'⟩
    simp only [apartDone, apart, refines, List.replicate, List.mem_cons, Prod.mk.injEq, List.not_mem_nil, or_false,
      reduceCtorEq, and_false, List.cons_append, List.nil_append] at hm hm'
    left
    rcases hm with ⟨rfl, e⟩ | ⟨rfl, e⟩ <;> injection e with e <;> subst e <;>
      rcases hm' with ⟨rfl, e'⟩ | ⟨rfl, e'⟩ <;> injection e' with e' <;> subst e' <;>
      first | exact absurd rfl hne | (intro h; exact absurd h (by decide))
  · intro t k E hm
    simp only [apartDone, apart, refines, List.replicate, List.mem_cons, Prod.mk.injEq, List.not_mem_nil, or_false,
      reduceCtorEq, and_false, List.cons_append, List.nil_append] at hm
    rcases hm with ⟨rfl, e⟩ | ⟨rfl, e⟩ <;> injection e with e e' <;> subst e <;> cases e'
    · exact refineEmbedding_keepsNf
    · exact refineEmbedding_keepsNf

end EAntic.Concurrent
