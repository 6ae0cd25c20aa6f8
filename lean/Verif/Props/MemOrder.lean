import Verif.Lemmas.MemOrder

/-!
# C60: the last pointer to a field, under the C++ memory model

An execution (`Exec`) is a sequence of events of any number of threads that use, copy, hand over and
release pointers to one field.  `Hb acq ev i j`: the event at time `i` happens before that at time `j`
in the sense of the C++ standard.  Deleting an object is a data race, and so undefined, unless every
access to the object happens before it.
-/

namespace EAntic.MemOrder

variable {ev : ℕ → Ev} {st : ℕ → St} {n : ℕ}

/-- C60 fails.  The decrement in `intrusive_ptr_release` is a release operation only, which
synchronises with nothing when the next thread decrements the count.  Thread 0 hands a copy of its
pointer to thread 1, which uses the field and drops the pointer; then thread 0 drops its own and
deletes the field.  Neither the use nor the decrement of thread 1 happens before the deletion. -/
theorem C60_counterexample : ∃ (ev : ℕ → Ev) (st : ℕ → St) (n i j d : ℕ), Exec ev st n ∧
    ev d = .delete 0 ∧ ev i = .use 1 ∧ ev j = .release 1 ∧ i < d ∧ j < d ∧ d < n ∧
    ¬ Hb false ev i d ∧ ¬ Hb false ev j d := by
  let ev : ℕ → Ev := fun k =>
    [.copy 0, .send 0 1, .use 1, .release 1, .release 0].getD k (.delete 0)
  let st : ℕ → St := fun k =>
    [.init, ⟨5, [0, 0], none⟩, ⟨5, [1, 0], none⟩, ⟨5, [1, 0], none⟩, ⟨4, [0], none⟩,
      ⟨3, [], some 0⟩].getD k ⟨3, [], none⟩
  refine ⟨ev, st, 6, 2, 3, 5, ⟨rfl, ?_⟩, rfl, rfl, rfl, by norm_num, by norm_num, by norm_num, ?_⟩
  · intro k hk
    interval_cases k <;> rfl
  · have key : ∀ i j, Hb false ev i j → (i = 2 ∨ i = 3) → j = 3 := by
      intro i j h
      have tid3 : ∀ k, 3 < k → (ev k).tid = 0 := by
        intro k hk
        obtain rfl | hk := (show k = 4 ∨ 5 ≤ k by omega)
        · rfl
        · have : ev k = .delete 0 := by
            simp only [ev, List.getD_eq_getElem?_getD]
            rw [List.getElem?_eq_none (by simpa using hk)]
            rfl
          rw [this]; rfl
      induction h with
      | @po i j h1 h2 =>
        rintro (rfl | rfl)
        · by_contra hj
          rw [tid3 j (by omega)] at h2
          simp [ev, Ev.tid] at h2
        · rw [tid3 j (by omega)] at h2
          simp [ev, Ev.tid] at h2
      | send h1 h2 h3 => rintro (rfl | rfl) <;> simp [ev] at h2
      | sync h1 h2 h3 => rintro (rfl | rfl) <;> simp [ev] at h2
      | mutex h1 h2 h3 => rintro (rfl | rfl) <;> simp [ev, Ev.locks] at h2
      | count h1 => cases h1
      | trans _ _ ih1 ih2 => exact fun h => ih2 (.inr (ih1 h))
    exact ⟨fun h => by simpa using key _ _ h (.inl rfl), fun h => by simpa using key _ _ h (.inr rfl)⟩

/-- what the deletion waits for -/
theorem delete_after {acq : Bool} (hx : Exec ev st n) {d t : ℕ} (hd : d < n) (he : ev d = .delete t)
    (hr : ∀ r r', r < r' → r' < d → (ev r).releases → ev r' = .release t → Hb acq ev r r') :
    (∀ i < d, (ev i).accesses → Hb acq ev i d) ∧ ∀ i, d < i → i < n → ¬ (ev i).accesses := by
  have hx' := exec_mono (by omega : d ≤ n) hx
  have hs := hx.2 d hd
  rw [he] at hs
  simp only [step] at hs
  split_ifs at hs with ht
  obtain ⟨h0, r0, hr0, e0, hlast⟩ := (inv_exec hx').dying t ht
  refine ⟨fun i hi ha => ?_, fun i hi hin ha => ?_⟩
  · have h0d : Hb acq ev r0 d := .po hr0 (by rw [e0, he]; rfl)
    rcases tracked (acq := acq) hx' hi ha with ⟨u, hu, -⟩ | ⟨r, hrd, hrel, hi'⟩
    · rw [h0] at hu; simp at hu
    · have hrr : r = r0 ∨ Hb acq ev r r0 := by
        rcases lt_trichotomy r r0 with h | h | h
        · exact .inr (hr r r0 h hr0 hrel e0)
        · exact .inl h
        · exact absurd hrel (hlast r h hrd).2
      have hrd' : Hb acq ev r d := by
        rcases hrr with rfl | h
        · exact h0d
        · exact h.trans h0d
      rcases hi' with rfl | h
      · exact hrd'
      · exact h.trans hrd'
  · exact access_needs_holder hx hin ha (empty_stays hx h0 i (by omega) (by omega))

/-- C60, partial.  If all pointers that are released are released by one thread (the others hand
theirs over), every access to the field happens before its deletion, and there is none afterwards,
with the memory orders of the code.  Missing: executions in which several threads release pointers, see
`C60_counterexample`. -/
theorem C60_one_thread_releases_partial (hx : Exec ev st n) {d t : ℕ} (hd : d < n)
    (he : ev d = .delete t) (hone : ∀ r < d, (ev r).releases → (ev r).tid = t) :
    (∀ i < d, (ev i).accesses → Hb false ev i d) ∧ ∀ i, d < i → i < n → ¬ (ev i).accesses :=
  delete_after hx hd he fun r r' h1 h2 h3 h4 => .po h1 (by
    rw [hone r (h1.trans h2) h3, h4]; rfl)

/-- C60, partial.  The same if every thread that has released a pointer is joined with (or otherwise
synchronises with) the deleting thread before that thread drops its last pointer. -/
theorem C60_joined_threads_partial (hx : Exec ev st n) {d t : ℕ} (hd : d < n)
    (he : ev d = .delete t)
    (hjoin : ∀ r r', r < r' → r' < d → (ev r).releases → ev r' = .release t → (ev r).tid ≠ t →
      ∃ k, r < k ∧ k < r' ∧ ev k = .sync (ev r).tid t) :
    (∀ i < d, (ev i).accesses → Hb false ev i d) ∧ ∀ i, d < i → i < n → ¬ (ev i).accesses :=
  delete_after hx hd he fun r r' h1 h2 h3 h4 => by
    by_cases e : (ev r).tid = t
    · exact .po h1 (by rw [e, h4]; rfl)
    · obtain ⟨k, hk, hk', ek⟩ := hjoin r r' h1 h2 h3 h4 e
      exact .trans (.po hk (by rw [ek]; rfl)) (.sync hk' ek (by rw [h4]; rfl))

/-- What C60 needs: with `memory_order_acq_rel` in the decrement the property holds for all
executions. -/
theorem C60_acquire_would_suffice (hx : Exec ev st n) {d t : ℕ} (hd : d < n)
    (he : ev d = .delete t) :
    (∀ i < d, (ev i).accesses → Hb true ev i d) ∧ ∀ i, d < i → i < n → ¬ (ev i).accesses :=
  delete_after hx hd he fun _ _ h1 _ h3 h4 => .count rfl h1 h3 (by rw [h4]; trivial)

/-- C60.  Under sequential consistency (order of time) the field is not touched after its deletion,
and is deleted only when nobody holds a pointer; it is deleted at most once. -/
theorem C60_order (hx : Exec ev st n) {d t : ℕ} (hd : d < n) (he : ev d = .delete t) :
    (st d).holders = [] ∧ (∀ i, d < i → i < n → ¬ (ev i).accesses) ∧
      ∀ d' u, d < d' → d' < n → ev d' ≠ .delete u := by
  have hx' := exec_mono (by omega : d ≤ n) hx
  have hs := hx.2 d hd
  rw [he] at hs
  simp only [step] at hs
  split_ifs at hs with ht
  have h0 := ((inv_exec hx').dying t ht).1
  refine ⟨h0, fun i hi hin ha =>
    access_needs_holder hx hin ha (empty_stays hx h0 i (by omega) (by omega)), ?_⟩
  have hnone : ∀ k, d + 1 ≤ k → k ≤ n → (st k).dying = none := by
    intro k hk
    induction k, hk using Nat.le_induction with
    | base => intro _; simp only [Option.some.injEq] at hs; rw [← hs]
    | succ k hk ih =>
      intro hn
      have h1 := ih (by omega)
      have h2 := empty_stays hx h0 k (by omega) (by omega)
      have hs := hx.2 k (by omega)
      cases he : ev k <;> rw [he] at hs <;> simp [step, h2, h1] at hs <;> (rw [← hs]; exact h1)
  intro d' u h1 h2 he'
  have hs' := hx.2 d' h2
  rw [he'] at hs'
  simp [step, hnone d' (by omega) (by omega)] at hs'

/-- C60.  No field is leaked: when nobody holds a pointer, the field has been deleted or some thread is
about to delete it. -/
theorem C60_not_leaked (hx : Exec ev st n) (h : (st n).holders = []) :
    (∃ d < n, ∃ t, ev d = .delete t) ∨ ∃ t s', step (st n) (.delete t) = some s' := by
  have key : ∀ n, Exec ev st n → (st n).count = 3 + (st n).holders.length ∧
      ((st n).holders = [] → (∃ d < n, ∃ t, ev d = .delete t) ∨ ∃ t, (st n).dying = some t) := by
    intro n
    induction n with
    | zero => intro hx; rw [hx.1]; simp [St.init]
    | succ n ih =>
      intro hx
      obtain ⟨h1, h2⟩ := ih (exec_mono (by omega) hx)
      have hs := hx.2 n (by omega)
      have old : (∃ d < n, ∃ t, ev d = .delete t) → ∃ d < n + 1, ∃ t, ev d = .delete t :=
        fun ⟨d, hd, h⟩ => ⟨d, by omega, h⟩
      cases he : ev n with
      | delete t =>
        rw [he] at hs
        simp only [step] at hs
        split_ifs at hs with ht
        simp only [Option.some.injEq] at hs
        rw [← hs]
        exact ⟨h1, fun _ => .inl ⟨n, by omega, t, he⟩⟩
      | release t =>
        rw [he] at hs
        simp only [step] at hs
        split_ifs at hs with ht h4
        · simp only [Option.some.injEq] at hs
          rw [← hs]
          have := List.length_erase_of_mem ht
          have := List.length_pos_of_mem ht
          refine ⟨?_, fun _ => .inr ⟨t, rfl⟩⟩
          simp only
          omega
        · simp only [Option.some.injEq] at hs
          rw [← hs]
          have k1 := List.length_erase_of_mem ht
          have k2 := List.length_pos_of_mem ht
          refine ⟨by simp only; omega, fun h0 => ?_⟩
          simp only at h0
          rw [h0, List.length_nil] at k1
          omega
      | use t =>
        rw [he] at hs
        simp only [step] at hs
        split_ifs at hs with ht
        simp only [Option.some.injEq] at hs
        rw [← hs]
        exact ⟨h1, fun h0 => (h2 h0).imp_left old⟩
      | copy t =>
        rw [he] at hs
        simp only [step] at hs
        split_ifs at hs with ht
        simp only [Option.some.injEq] at hs
        rw [← hs]
        exact ⟨by simp only [List.length_cons]; push_cast; omega, fun h0 => by simp at h0⟩
      | send t u =>
        rw [he] at hs
        simp only [step] at hs
        split_ifs at hs with ht
        simp only [Option.some.injEq] at hs
        rw [← hs]
        have := List.length_erase_of_mem ht
        have := List.length_pos_of_mem ht
        exact ⟨by simp only [List.length_cons]; push_cast; omega, fun h0 => by simp at h0⟩
      | sync t u =>
        rw [he] at hs
        simp only [step, Option.some.injEq] at hs
        rw [← hs]
        exact ⟨h1, fun h0 => (h2 h0).imp_left old⟩
      | locked t =>
        rw [he] at hs
        simp only [step, Option.some.injEq] at hs
        rw [← hs]
        exact ⟨h1, fun h0 => (h2 h0).imp_left old⟩
  rcases (key n hx).2 h with h | ⟨t, ht⟩
  · exact .inl h
  · exact .inr ⟨t, _, by simp only [step]; rw [if_pos ht]⟩

/-- an execution of two threads that meets the hypotheses of `C60_joined_threads_partial`: thread 1
uses and releases its pointer and is joined, then thread 0 deletes the field -/
example : ∃ (ev : ℕ → Ev) (st : ℕ → St), Exec ev st 7 ∧ ev 6 = .delete 0 ∧ ev 3 = .release 1 ∧
    Hb false ev 3 6 := by
  let ev : ℕ → Ev := fun k =>
    [.copy 0, .send 0 1, .use 1, .release 1, .sync 1 0, .release 0].getD k (.delete 0)
  let st : ℕ → St := fun k =>
    [.init, ⟨5, [0, 0], none⟩, ⟨5, [1, 0], none⟩, ⟨5, [1, 0], none⟩, ⟨4, [0], none⟩, ⟨4, [0], none⟩,
      ⟨3, [], some 0⟩].getD k ⟨3, [], none⟩
  have hx : Exec ev st 7 := ⟨rfl, fun k hk => by interval_cases k <;> rfl⟩
  refine ⟨ev, st, hx, rfl, rfl, (C60_joined_threads_partial hx (d := 6) (t := 0) (by norm_num) rfl
    fun r r' h1 h2 h3 h4 h5 => ?_).1 3 (by norm_num) trivial⟩
  interval_cases r' <;> interval_cases r <;> simp_all [ev, Ev.releases, Ev.tid]
  exact ⟨4, by norm_num, by norm_num, rfl⟩

/-- the other theorems apply as well: of an execution in which thread 1 only uses a pointer that it hands back,
thread 0 does all releases; with acquire semantics the use happens before the deletion in every case -/
example : ∃ (ev : ℕ → Ev) (st : ℕ → St), Exec ev st 7 ∧ ev 6 = .delete 0 ∧ ev 2 = .use 1 ∧
    Hb false ev 2 6 ∧ Hb true ev 2 6 ∧ (st 6).holders = [] := by
  let ev : ℕ → Ev := fun k =>
    [.copy 0, .send 0 1, .use 1, .send 1 0, .release 0, .release 0].getD k (.delete 0)
  let st : ℕ → St := fun k =>
    [.init, ⟨5, [0, 0], none⟩, ⟨5, [1, 0], none⟩, ⟨5, [1, 0], none⟩, ⟨5, [0, 0], none⟩, ⟨4, [0], none⟩,
      ⟨3, [], some 0⟩].getD k ⟨3, [], none⟩
  have hx : Exec ev st 7 := ⟨rfl, fun k hk => by interval_cases k <;> rfl⟩
  refine ⟨ev, st, hx, rfl, rfl, (C60_one_thread_releases_partial hx (d := 6) (t := 0) (by norm_num) rfl
    fun r h1 h2 => ?_).1 2 (by norm_num) trivial,
    (C60_acquire_would_suffice hx (d := 6) (t := 0) (by norm_num) rfl).1 2 (by norm_num) trivial,
    (C60_order hx (d := 6) (t := 0) (by norm_num) rfl).1⟩
  interval_cases r <;> simp_all [ev, Ev.releases, Ev.tid]

end EAntic.MemOrder
