import Verif.Lemmas.ConcurrentAlone
import Verif.Props.Fields

/-!
# C71: threads with fields of their own

Threads make fields, compute in them, copy and drop pointers to them, in any interleaving.  No thread
hands anything to another.
-/

namespace EAntic.Concurrent

open Fields (k3 k6 env6)

variable {bk : Dbl → ℕ} {as : List (ℕ × Act)} {s : State}

/-- C71, partial.  If fields made by different threads have different defining polynomials, there is no
data race in any interleaving, no two threads have a pointer to the same field, and the field behind a
pointer exists and has a polynomial that the thread with the pointer asked for.  Missing: fields with the
same polynomial, see the counterexamples. -/
theorem C71_different_polynomials_partial (hd : DifferentPolynomials as) (h : run bk .init as = some s) :
    ¬ s.Race ∧ (∀ t u o, (t, o) ∈ s.handles → (u, o) ∈ s.handles → t = u) ∧
    ∀ t o, (t, o) ∈ s.handles → ∃ c k, s.objs o = some c ∧ Makes as t k ∧
      c.K.pol = k.field.nf.pol ∧ c.den = k.den := by
  have hP : ∀ t u (q : List ℤ × ℤ), (∃ k, Makes as t k ∧ (k.field.nf.pol, k.den) = q) →
      (∃ k, Makes as u k ∧ (k.field.nf.pol, k.den) = q) → t = u := by
    rintro t u q ⟨k, hk, rfl⟩ ⟨k', hk', e⟩
    injection e with e1 e2
    by_contra hne
    rcases hd t u k k' hne hk hk' with h | h
    · exact h e1.symm
    · exact h e2.symm
  have hI := run_inv hP inv_init (fun t k E hm => ⟨k, ⟨E, hm⟩, rfl⟩) h
  refine ⟨hI.no_race hP, fun t u o ht hu => (hI.own t o ht).unique hP (hI.own u o hu), fun t o ht => ?_⟩
  obtain ⟨q, e, k, hk, rfl⟩ := hI.own t o ht
  obtain ⟨c, hc, e⟩ := Option.map_eq_some_iff.1 e
  injection e with e1 e2
  exact ⟨c, k, hc, hk, e1, e2⟩

/-- C71, partial.  If fields made by different threads have different defining polynomials, then a thread
behaves as if it were alone, whatever the others do: there is a run of this thread alone, with the same
calls in the same order and with at most as many steps, after which it was given the same answers, has the
same pointers, sees the same contents of its fields and of the elements in them, and is at the same point
(has returned, or was stopped).  Missing: fields with the same polynomial, and executions in which the set
of all fields still contains one that was deleted (see C60). -/
theorem C71_as_alone_partial (hd : DifferentPolynomials as) (h : run bk .init as = some s)
    (hreg : ¬ s.Dangling) (t : ℕ) :
    ∃ (bs : List (ℕ × Act)) (s' : State), bs.Sublist (as.filter fun a => a.1 = t) ∧
      (bs.filter fun a => a.2.isCall) = (as.filter fun a => a.1 = t).filter (fun a => a.2.isCall) ∧
      run bk .init bs = some s' ∧
      s'.out t = s.out t ∧ (∀ o, (t, o) ∈ s'.handles ↔ (t, o) ∈ s.handles) ∧
      (∀ o, (t, o) ∈ s.handles → s'.objs o = s.objs o) ∧
      (s'.pc t = .idle ↔ s.pc t = .idle) ∧ (s'.pc t = .dead ↔ s.pc t = .dead) := by
  have hP : ∀ t u (q : List ℤ × ℤ), (∃ k, Makes as t k ∧ (k.field.nf.pol, k.den) = q) →
      (∃ k, Makes as u k ∧ (k.field.nf.pol, k.den) = q) → t = u := by
    rintro t u q ⟨k, hk, rfl⟩ ⟨k', hk', e⟩
    injection e with e1 e2
    by_contra hne
    rcases hd t u k k' hne hk hk' with h | h
    · exact h e1.symm
    · exact h e2.symm
  have ha : ∀ t k E, (t, Act.make k E) ∈ as →
      ∃ k', Makes as t k' ∧ (k'.field.nf.pol, k'.den) = (k.field.nf.pol, k.den) :=
    fun t k E hm => ⟨k, ⟨E, hm⟩, rfl⟩
  have hI := run_inv hP inv_init ha h
  obtain ⟨bs, h1, h2, h3⟩ := run_alone hP t inv_init regInv_init ha h hreg
  rw [only_init] at h3
  refine ⟨bs, s.only t, h1, h2, h3, by simp [State.only], fun o => only_handles rfl,
    fun o ho => only_objs s (Owner.thread hP hI (hI.own t o ho)), ?_, ?_⟩ <;> rw [only_pc] <;>
    cases s.pc t <;> simp [Pc.only]

/-- C71.  In every interleaving, at most one thread at a time accesses the set of all fields: there is no
race on it. -/
theorem C71_registry (h : run bk .init as = some s) {t u : ℕ} {w w' : Bool}
    (ht : (Loc.registry, w) ∈ (s.pc t).accesses) (hu : (Loc.registry, w') ∈ (s.pc u).accesses) : t = u := by
  have hI : LockInv s := lockInv_run (s := .init) (fun _ h => h.elim) h
  have e := (hI t (registry_locked ht)).symm.trans (hI u (registry_locked hu))
  injection e

/-- C71.  No deadlock: in every interleaving, a thread that has called a function and was not stopped can
go on, or another thread has the mutex, and then it can go on and releases the mutex after finitely many
steps of its own, whatever fields are registered. -/
theorem C71_no_deadlock (h : run bk .init as = some s) (t : ℕ) (hi : s.pc t ≠ .idle) (hd : s.pc t ≠ .dead) :
    (∃ s', step bk s t .next = some s') ∨
    ∃ u m s', u ≠ t ∧ s.lock = some u ∧ run bk s (List.replicate m (u, .next)) = some s' ∧ s'.lock = none := by
  have hH : HolderInv s := holder_run (s := .init) (fun _ h => by cases h) h
  have hL : LockInv s := lockInv_run (s := .init) (fun _ h => h.elim) h
  by_cases hl : (s.pc t).locked
  · obtain ⟨s', h', -⟩ := locked_step (bk := bk) hl (hL t hl)
    exact .inl ⟨s', h'⟩
  · cases hk : s.lock with
    | none =>
      left
      simp only [step]
      cases hq : s.pc t with
      | idle => exact absurd hq hi
      | dead => exact absurd hq hd
      | waiting j =>
        cases j with
        | make c => simp only [proceed, hk, if_true]; cases c.hash <;> exact ⟨_, rfl⟩
        | drop o =>
          simp only [proceed, hk, if_true]
          cases s.objs o with
          | none => exact ⟨_, rfl⟩
          | some c => cases hc : c.hash <;> simp only [hc] <;> exact ⟨_, rfl⟩
      | working o m c => simp only [proceed]; cases s.objs o <;> exact ⟨_, rfl⟩
      | _ => rw [hq] at hl; exact absurd trivial hl
    | some u =>
      have hu := hH u hk
      obtain ⟨m, s', h1, h2⟩ := locked_released (bk := bk) _ le_rfl hu hk
      exact .inr ⟨u, m, s', fun e => hl (e ▸ hu), rfl, h1, h2⟩

/-- the steps of a thread up to the point where it is about to refine its field `o` -/
def refines (t : ℕ) (o : Addr) (n : ℕ) : List (ℕ × Act) :=
  [(t, .work o (.gen n)), (t, .next), (t, .next), (t, .next), (t, .next), (t, .next),
   (t, .work o (.getArb n 300)), (t, .next), (t, .next), (t, .next), (t, .next), (t, .next), (t, .next),
   (t, .next), (t, .next), (t, .next)]

/-- what is seen of a state in the counterexamples: pointers, what the threads 0 and 1 are about to access,
and whether one of them waits -/
structure Seen where
  handles : List (ℕ × Addr)
  zero : List (Loc × Bool)
  one : List (Loc × Bool)
  waits : Bool
  deriving DecidableEq

@[inherit_doc Seen]
def look (r : Option State) : Option Seen :=
  r.map fun s => ⟨s.handles, (s.pc 0).accesses, (s.pc 1).accesses, (s.pc 0).waits || (s.pc 1).waits⟩

/-- C71 fails.  Thread 1 has made a field of `∛2` with the name `b`, and computes in it with an element
of its own.  Thread 0 makes a field of `∛2` with the name `a`, which is another field, and has no pointer
yet.  Thread 0 reads the enclosure that thread 1 writes: fields are compared before their names. -/
theorem C71_names_counterexample : ∃ (as : List (ℕ × Act)) (s : State),
    run (fun _ => 0) .init as = some s ∧
    (∀ t k, Makes as t k → k.name = if t = 0 then ['a'] else ['b']) ∧
    s.handles = [(1, 1, 0)] ∧ s.Race := by
  let as : List (ℕ × Act) :=
    [(1, .make (k3 ['b'] (.fin (5 / 4) (1 / 4))) env3), (1, .next), (1, .next)] ++ refines 1 (1, 0) 4 ++
    [(0, .make (k3 ['a'] (.fin (5 / 4) (1 / 4))) env3), (0, .next), (0, .next)]
  have h : look (run (fun _ => 0) .init as) = some ⟨[(1, 1, 0)],
      [(.registry, false), (.field (1, 0), false)], [(.field (1, 0), true)], false⟩ := by decide +kernel
  cases hr : run (fun _ => 0) .init as with
  | none => rw [hr] at h; cases h
  | some s =>
    rw [hr] at h
    simp only [look, Option.map_some, Option.some.injEq, Seen.mk.injEq, Bool.or_eq_false_iff] at h
    obtain ⟨h1, h2, h3, h4, h5⟩ := h
    refine ⟨as, s, hr, ?_, h1, 1, 0, by decide, by simp [State.CanGo, h5],
      by simp [State.CanGo, h4], .field (1, 0), false, by rw [h3]; simp, by rw [h2]; simp⟩
    rintro t k ⟨E, hm⟩
    simp only [as, refines, List.mem_cons, Prod.mk.injEq, List.not_mem_nil, or_false,
      reduceCtorEq, and_false, false_or, List.cons_append, List.nil_append] at hm
    rcases hm with ⟨rfl, e⟩ | ⟨rfl, e⟩ <;> injection e with e <;> subst e <;> rfl

/-- C71 fails.  Both threads make the same field, are given the same object, and compute with different
elements: both are about to write the enclosure in the field. -/
theorem C71_same_field_counterexample : ∃ (as : List (ℕ × Act)) (s : State),
    run (fun _ => 0) .init as = some s ∧ s.handles = [(0, 1, 0), (1, 1, 0)] ∧ s.Race := by
  let as : List (ℕ × Act) :=
    [(1, .make (k3 ['a'] (.fin (5 / 4) (1 / 4))) env3), (1, .next), (1, .next),
     (0, .make (k3 ['a'] (.fin (5 / 4) (1 / 4))) env3), (0, .next), (0, .next), (0, .next)] ++
    refines 0 (1, 0) 3 ++ refines 1 (1, 0) 4
  have h : look (run (fun _ => 0) .init as) = some ⟨[(0, 1, 0), (1, 1, 0)],
      [(.field (1, 0), true)], [(.field (1, 0), true)], false⟩ := by decide +kernel
  cases hr : run (fun _ => 0) .init as with
  | none => rw [hr] at h; cases h
  | some s =>
    rw [hr] at h
    simp only [look, Option.map_some, Option.some.injEq, Seen.mk.injEq, Bool.or_eq_false_iff] at h
    obtain ⟨h1, h2, h3, h4, h5⟩ := h
    exact ⟨as, s, hr, h1, 1, 0, by decide, by simp [State.CanGo, h5],
      by simp [State.CanGo, h4], .field (1, 0), true, by rw [h3]; simp, by rw [h2]; simp⟩

/-- an interleaving of a thread with the field of `∛2` and one with a field of another polynomial: both
have made their fields and compute; then the first makes another one and drops one pointer -/
noncomputable def apart : List (ℕ × Act) :=
  [(1, .make (k6 (.fin (1 + 1 / 2 ^ 65) (1 / 2 ^ 65))) env6), (0, .make (k3 ['a'] (.fin (5 / 4) (1 / 4))) env3),
   (1, .next), (1, .next), (0, .next), (0, .next), (0, .next), (1, .work (1, 0) (.gen 3)), (1, .next)] ++
  refines 0 (0, 0) 4

/-- `C71_different_polynomials_partial` applies to it -/
example : DifferentPolynomials apart ∧
    look (run (fun _ => 0) .init apart) = some ⟨[(0, 0, 0), (1, 1, 0)], [(.field (0, 0), true)], [(.elem (1, 0) 3, false)],
      false⟩ := by
  refine ⟨?_, by decide +kernel⟩
  rintro t u k k' hne ⟨E, hm⟩ ⟨E', hm'⟩
  simp only [apart, refines, List.mem_cons, Prod.mk.injEq, List.not_mem_nil, or_false,
    reduceCtorEq, and_false, false_or, List.cons_append, List.nil_append] at hm hm'
  left
  rcases hm with ⟨rfl, e⟩ | ⟨rfl, e⟩ <;> injection e with e <;> subst e <;>
    rcases hm' with ⟨rfl, e'⟩ | ⟨rfl, e'⟩ <;> injection e' with e' <;> subst e' <;>
    first | exact absurd rfl hne | (intro h; exact absurd h (by decide))

/-- `C71_as_alone_partial` applies to it, and thread 0 was given an answer -/
example : ((run (fun _ => 0) .init apart).map fun s =>
    (s.out 0, s.reg.length, s.reg.all fun e => (s.objs e.1).isSome)) = some ([.unit], 2, true) := by
  decide +kernel

/-- `C71_no_deadlock` applies to a thread that waits for the mutex which another one has -/
example : ((run (fun _ => 0) .init [(1, .make (k3 ['b'] (.fin (5 / 4) (1 / 4))) env3), (1, .next),
    (0, .make (k3 ['a'] (.fin (5 / 4) (1 / 4))) env3)]).map fun s => (s.lock, (s.pc 0).waits)) =
    some (some 1, true) := by
  decide +kernel

end EAntic.Concurrent
