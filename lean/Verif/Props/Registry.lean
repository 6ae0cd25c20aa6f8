import Verif.Lemmas.Registry

/-!
# C38, C39: the registry of fields

A state records the field objects (identity, key, deleted or not), the intrusive pointers held by
each thread (`handles`, pairs of thread and object) and `bad`: whether a deleted object was ever
accessed or deleted again.  `seqRun` runs complete operations of one thread, `run` an arbitrary
interleaving of the memory accesses of any number of threads.
-/

namespace EAntic.Registry

variable {κ : Type} [DecidableEq κ]

/-- C38.  After every sequence of `make`, copy and release, a field object exists exactly if the
program holds a pointer to it; no deleted object was ever accessed or deleted again. -/
theorem C38_valid_exactly_while_held {ops : List (Op κ)} {s : State κ}
    (h : seqRun init ops = some s) :
    s.bad = false ∧ ∀ o, s.isAlive o = true ↔ (0, o) ∈ s.handles :=
  have q := quiet_run quiet_init h
  ⟨q.inv.notbad, q.alive_iff⟩

/-- C38.  `make` always succeeds; it returns a pointer to an object with the requested key, which
is the existing object if there is one, and neither destroys nor alters any other object. -/
theorem C38_make {ops : List (Op κ)} {s : State κ} (h : seqRun init ops = some s) (k : κ) :
    ∃ s' o, seqStep s (.make k) = some s' ∧ s'.handles = (0, o) :: s.handles ∧
      s'.isAlive o = true ∧ s'.keyOf o = some k ∧
      (∀ o', s.isAlive o' = true → s.keyOf o' = some k → o' = o) ∧
      (∀ o', s.isAlive o' = true → s'.isAlive o' = true ∧ s'.keyOf o' = s.keyOf o') := by
  have q := quiet_run quiet_init h
  obtain ⟨s', o, h1, h2, h3, h4, h5, h6⟩ := make_quiet q k
  have hlt : ∀ o', s.isAlive o' = true → o' < s.next := by
    intro o' ha
    by_contra hc
    have := q.inv.fresh o' (by omega)
    simp [State.isAlive, this] at ha
  have hoa : s'.isAlive o = true := (h2.alive_iff o).2 (by rw [h3]; simp)
  refine ⟨s', o, h1, h3, hoa, h4, ?_, ?_⟩
  · intro o' ha hk
    refine h2.inv.reg_key o' ((h2.reg_iff o').2 ?_) o ((h2.reg_iff o).2 hoa) ?_
    · rw [(h5 o' (hlt o' ha)).1]; exact ha
    · rw [(h5 o' (hlt o' ha)).2, hk, h4]
  · intro o' ha
    exact ⟨by rw [(h5 o' (hlt o' ha)).1]; exact ha, (h5 o' (hlt o' ha)).2⟩

/-- C38.  Two live field objects never have the same key. -/
theorem C38_unique {ops : List (Op κ)} {s : State κ} (h : seqRun init ops = some s) {o o' : ℕ}
    (ho : s.isAlive o = true) (ho' : s.isAlive o' = true) (hk : s.keyOf o = s.keyOf o') :
    o = o' := by
  have q := quiet_run quiet_init h
  exact q.inv.reg_key o ((q.reg_iff o).2 ho) o' ((q.reg_iff o').2 ho') hk

/-- C38.  A field object that was destroyed is never in use again. -/
theorem C38_destroyed_once {ops ops' : List (Op κ)} {s s' : State κ}
    (h : seqRun init ops = some s) (h' : seqRun s ops' = some s') {o : ℕ}
    (ho : (s.objs o).isSome) (hd : s.isAlive o = false) :
    s'.isAlive o = false ∧ (0, o) ∉ s'.handles := by
  have q := quiet_run quiet_init h
  have hlt : o < s.next := by
    by_contra hc
    rw [q.inv.fresh o (by omega)] at ho; simp at ho
  have := dead_run q h' hlt hd
  refine ⟨this, fun hm => ?_⟩
  rw [((quiet_run q h').alive_iff o).2 hm] at this; cases this

/-- C38.  Copying and releasing act on the handles as they should, whenever the program holds the
handle concerned. -/
theorem C38_copy_release {ops : List (Op κ)} {s : State κ} (h : seqRun init ops = some s) {o : ℕ}
    (ho : (0, o) ∈ s.handles) :
    (∃ s', seqStep s (.copy o) = some s' ∧ s'.handles = (0, o) :: s.handles) ∧
    (∃ s', seqStep s (.release o) = some s' ∧ s'.handles = s.handles.erase (0, o)) := by
  have q := quiet_run quiet_init h
  constructor
  · have : ∃ s', seqStep s (.copy o) = some s' := by
      simp only [seqStep, step]; rw [if_pos ⟨q.idle 0, ho⟩]; exact ⟨_, rfl⟩
    obtain ⟨s', hs'⟩ := this
    exact ⟨s', hs', (copy_quiet q hs').2.2.1⟩
  · have : ∃ s', seqStep s (.release o) = some s' := by
      simp only [seqStep, step]; rw [if_pos ⟨q.idle 0, ho⟩]
      split_ifs with h4
      · rw [Option.bind_some, if_neg (by rw [setPc_pc, if_pos rfl]; simp)]
        simp only [run, step, setPc_pc, if_true]
        rw [if_pos (by exact q.lock)]
        simp [setPc_pc]
      · rw [Option.bind_some, if_pos (by exact q.idle 0)]; exact ⟨_, rfl⟩
    obtain ⟨s', hs'⟩ := this
    exact ⟨s', hs', (release_quiet q hs').2.2.1⟩

/-- two equal fields, one copy, and a different field; then the first field is dropped and made
again -/
example : (seqRun init [.make 7, .make 8, .make 7, .copy 0, .release 0, .release 0, .release 0,
    .make 7]).map (fun s => (s.handles, s.isAlive 0, s.isAlive 1, s.isAlive 3)) =
    some ([(0, 3), (0, 1)], false, true, true) := by decide +kernel

/-- applied: a field whose pointers were all dropped is gone for good, and making it again gives another
object; the other field is kept -/
example : ∃ s : State ℕ, seqRun init [.make 7, .make 8, .make 7, .copy 0, .release 0, .release 0, .release 0] = some s ∧
    s.isAlive 1 = true ∧ (∀ ops' s', seqRun s ops' = some s' → (0, 0) ∉ s'.handles) ∧
    ∃ s' o, seqStep s (.make 7) = some s' ∧ o ≠ 0 ∧ s'.isAlive o = true ∧ s'.isAlive 1 = true := by
  have h : ((seqRun (init : State ℕ) [.make 7, .make 8, .make 7, .copy 0, .release 0, .release 0, .release 0]).map
      fun s => ((s.objs 0).isSome, s.isAlive 0, s.isAlive 1)) = some (true, false, true) := by decide +kernel
  obtain ⟨s, e, h⟩ := Option.map_eq_some_iff.1 h
  simp only [Prod.mk.injEq] at h
  obtain ⟨h0, h1, h2⟩ := h
  have gone : ∀ ops' s', seqRun s ops' = some s' → (0, 0) ∉ s'.handles :=
    fun ops' s' h => (C38_destroyed_once e h h0 h1).2
  obtain ⟨s', o, h3, h4, h5, -, -, h6⟩ := C38_make e 7
  refine ⟨s, e, h2, gone, s', o, h3, ?_, h5, (h6 1 h2).1⟩
  rintro rfl
  exact gone [.make 7] s' (by simp [seqRun, h3]) (by simp [h4])

/-- C39 fails.  Thread 0 holds the only pointer to a field and releases it: the count drops to 3.
Before it takes the mutex, thread 1 makes an equal field and is given the same object; thread 0
then deletes it under the hands of thread 1. -/
theorem C39_counterexample : ∃ (sched : List (Act ℕ)) (s : State ℕ), run init sched = some s ∧
    (∀ t, s.pc t = .idle) ∧ ∃ t o, (t, o) ∈ s.handles ∧ s.isAlive o = false := by
  let sched : List (Act ℕ) := [.new 0 7, .lock 0, .lookup 0, .finish 0, .new 1 7, .release 0 0,
    .lock 1, .lookup 1, .finish 1, .lock 0, .delete 0]
  have h : ((run init sched).map fun s => (s.handles, s.isAlive 0)) =
      some ([(1, 0)], false) := by decide +kernel
  cases hr : run (init : State ℕ) sched with
  | none => rw [hr] at h; cases h
  | some s =>
    rw [hr] at h
    simp only [Option.map_some, Option.some.injEq, Prod.mk.injEq] at h
    refine ⟨sched, s, hr, ?_, 1, 0, by rw [h.1]; simp, h.2⟩
    intro t
    by_cases h0 : t = 0
    · have : (run (init : State ℕ) sched).map (fun s => s.pc 0) = some .idle := by decide +kernel
      rw [hr] at this; rw [h0]; simpa using this
    by_cases h1 : t = 1
    · have : (run (init : State ℕ) sched).map (fun s => s.pc 1) = some .idle := by decide +kernel
      rw [hr] at this; rw [h1]; simpa using this
    have e : ∀ (as : List (Act ℕ)) (s1 : State ℕ), (∀ a ∈ as, a.tid ≠ t) → run s1 as = some s →
        s.pc t = s1.pc t := by
      intro as
      induction as with
      | nil => intro s1 _ h; cases h; rfl
      | cons a as ih =>
        intro s1 ha h
        simp only [run, Option.bind_eq_some_iff] at h
        obtain ⟨s2, h1, h2⟩ := h
        rw [ih s2 (fun a h => ha a (by simp [h])) h2,
          step_pc_other h1 (fun hh => ha a (by simp) hh.symm)]
    refine e sched init ?_ hr
    simp only [sched, List.mem_cons, List.not_mem_nil, or_false]
    rintro a (rfl | rfl | rfl | rfl | rfl | rfl | rfl | rfl | rfl | rfl | rfl) <;>
      simp only [Act.tid] <;> omega

/-- C39 fails.  In the same window thread 1 may release its pointer again, and both threads delete
the object. -/
theorem C39_double_delete : ∃ (sched : List (Act ℕ)) (s : State ℕ), run init sched = some s ∧
    s.handles = [] ∧ s.bad = true := by
  let sched : List (Act ℕ) := [.new 0 7, .lock 0, .lookup 0, .finish 0, .new 1 7, .release 0 0,
    .lock 1, .lookup 1, .finish 1, .release 1 0, .lock 0, .delete 0, .lock 1, .delete 1]
  have h : ((run init sched).map fun s => (s.handles, s.bad)) = some ([], true) := by
    decide +kernel
  cases hr : run (init : State ℕ) sched with
  | none => rw [hr] at h; cases h
  | some s =>
    rw [hr] at h
    simp only [Option.map_some, Option.some.injEq, Prod.mk.injEq] at h
    exact ⟨sched, s, hr, h.1, h.2⟩

/-- C39, partial.  In every interleaving of any number of threads in which no thread returns from
`make` with an object whose last pointer has just been dropped by a thread that has not yet taken
the mutex (`Careful`), every pointer held by a thread refers to an existing object, and no deleted
object is accessed or deleted again.  Missing: the interleavings of `C39_counterexample`. -/
theorem C39_threads_partial {sched : List (Act κ)} {s : State κ} (h : run init sched = some s)
    (hc : Careful init sched) :
    s.bad = false ∧ ∀ t o, (t, o) ∈ s.handles → s.isAlive o = true :=
  have q := inv_run inv_init h hc
  ⟨q.notbad, fun _ o hm => q.reg_alive o (q.held _ hm)⟩

/-- C39, partial.  Fields of which some thread always keeps a pointer are safe to use from any
number of threads, in every interleaving of `make`, copies, moves and releases. -/
theorem C39_kept_fields_partial {sched : List (Act κ)} {s : State κ}
    (h : run init sched = some s) (hk : Keeps init sched) :
    s.bad = false ∧ (∀ t o, (t, o) ∈ s.handles → s.isAlive o = true) ∧
      ∀ t t' o o', (t, o) ∈ s.handles → (t', o') ∈ s.handles → s.keyOf o = s.keyOf o' → o = o' :=
  have q := inv_run inv_init h (keeps_careful inv_init (by simp [init, Pc.dy]) hk)
  ⟨q.notbad, fun _ o hm => q.reg_alive o (q.held _ hm),
    fun _ _ o o' ho ho' hk => q.reg_key o (q.held _ ho) o' (q.held _ ho') hk⟩

/-- C39, partial.  When no thread is inside an operation, after an interleaving as above, the
existing objects are exactly those to which some thread holds a pointer: nothing leaks. -/
theorem C39_no_leak_partial {sched : List (Act κ)} {s : State κ} (h : run init sched = some s)
    (hc : Careful init sched) (hq : ∀ t, s.pc t = .idle) (o : ℕ) :
    s.isAlive o = true ↔ ∃ t, (t, o) ∈ s.handles := by
  have q := inv_run inv_init h hc
  constructor
  · intro ha
    rcases q.alive o ha with hr | ⟨t, ht⟩
    · by_contra hn
      have hc0 : s.cnt o = 0 := by
        by_contra hc
        exact hn ((cnt_pos_iff s o).1 (Nat.pos_of_ne_zero hc))
      obtain ⟨t, ht⟩ := q.zero o hr hc0
      rw [hq] at ht; simp [Pc.dy] at ht
    · rw [hq] at ht; simp [Pc.mk] at ht
  · rintro ⟨t, ht⟩; exact q.reg_alive o (q.held _ ht)

/-- a schedule of two threads, interleaved -/
def keepsDemo : List (Act ℕ) := [.new 0 7, .new 1 7, .lock 1, .lookup 1, .finish 1, .lock 0,
    .lookup 0, .finish 0, .release 1 1, .copy 0 1, .give 0 1 1]

/-- it meets the hypothesis -/
theorem keepsDemo_keeps : Keeps init keepsDemo := by
  refine ⟨by simp, fun s1 h1 => ⟨by simp, fun s2 h2 => ⟨by simp, fun s3 h3 => ⟨by simp,
    fun s4 h4 => ⟨by simp, fun s5 h5 => ⟨by simp, fun s6 h6 => ⟨by simp, fun s7 h7 => ⟨by simp,
    fun s8 h8 => ⟨?_, fun s9 h9 => ⟨by simp, fun s10 h10 => ⟨by simp, fun s11 h11 =>
      trivial⟩⟩⟩⟩⟩⟩⟩⟩⟩⟩⟩
  cases h1; cases h2; cases h3; cases h4; cases h5; cases h6; cases h7; cases h8
  rintro t o ⟨⟩
  exact ⟨(0, 1), by decide, rfl⟩

/-- applied: both threads hold the same field, which exists -/
example : ∃ s : State ℕ, run init keepsDemo = some s ∧ s.handles = [(1, 1), (0, 1)] ∧ s.bad = false ∧
    s.isAlive 1 = true := by
  have h : ((run (init : State ℕ) keepsDemo).map fun s => s.handles) = some [(1, 1), (0, 1)] := by decide +kernel
  obtain ⟨s, e, h⟩ := Option.map_eq_some_iff.1 h
  have h' := C39_kept_fields_partial e keepsDemo_keeps
  exact ⟨s, e, h, h'.1, h'.2.1 0 1 (by simp [h])⟩

end EAntic.Registry
