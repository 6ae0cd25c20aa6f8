import Verif.Lemmas.StreamField

/-!
# C69: the field that is attached to a stream

A state records the field objects, the pointers and elements of the program (`reg.handles`, pairs of the
thread, here 0, and the object) and for every stream the field that was attached last (`pword`).
-/

namespace EAntic.Registry

variable {κ : Type} [DecidableEq κ] {ops ops' : List (SOp κ)} {s s' s'' : SState κ} {σ o : ℕ}

/-- C69.  After every program: if the program still has a pointer to the field that is attached to the
stream, or an element of it, then `>>` creates one more element of this field if the text is good, and
nothing if it throws; nothing else changes. -/
theorem C69_read (hs : srun SState.init ops = .ok s) (hp : s.pword σ = some o)
    (ho : (0, o) ∈ s.reg.handles) (good : Bool) :
    ∃ s', sstep s (.read σ good) = .ok s' ∧
      s'.reg.handles = (if good then (0, o) :: s.reg.handles else s.reg.handles) ∧
      s'.pword = s.pword ∧
      ∀ i, s'.reg.isAlive i = s.reg.isAlive i ∧ s'.reg.keyOf i = s.reg.keyOf i := by
  obtain ⟨s', h1, -, h3, h4, -, h6⟩ := read_ok (sinv_run sinv_init hs).quiet hp ho good
  exact ⟨s', h1, h4, h3, h6⟩

/-- C69.  Otherwise it is undefined: a null pointer or a field that was deleted. -/
theorem C69_read_undefined (hs : srun SState.init ops = .ok s)
    (hno : ∀ o, s.pword σ = some o → (0, o) ∉ s.reg.handles) (good : Bool) :
    sstep s (.read σ good) = .ub :=
  read_ub (sinv_run sinv_init hs).quiet hno

/-- C69.  What is attached stays attached, whatever happens, until something else is attached; and it
is the same field: same name, polynomial and embedding. -/
theorem C69_stays (hs : srun SState.init ops = .ok s) (ha : sstep s (.attach σ o) = .ok s')
    (hs' : srun s' ops' = .ok s'') (hno : ∀ o, SOp.attach σ o ∉ ops') :
    s''.pword σ = some o ∧ s''.reg.keyOf o = s.reg.keyOf o := by
  have hi := sinv_run sinv_init hs
  obtain ⟨hi', -, h2, -⟩ := sinv_step hi ha
  have hp : s'.pword σ = some o := by
    simp only [sstep] at ha
    split_ifs at ha with hm
    cases ha
    simp
  obtain ⟨h3, h4, h5⟩ := srun_keeps hi' hs'
  have hlt := hi'.old σ o hp
  have hn : s'.reg = s.reg := by
    simp only [sstep] at ha
    split_ifs at ha with hm
    cases ha
    rfl
  exact ⟨(h5 σ hno).trans hp, (h4 o hlt).trans (by rw [hn])⟩

/-- C69.  Attaching works whenever the program has a pointer, and leaves fields and pointers alone. -/
theorem C69_attach (ho : (0, o) ∈ s.reg.handles) :
    ∃ s', sstep s (.attach σ o) = .ok s' ∧ s'.reg = s.reg ∧ s'.pword σ = some o ∧
      ∀ τ, τ ≠ σ → s'.pword τ = s.pword τ := by
  refine ⟨{ s with pword := Function.update s.pword σ (some o) }, ?_, rfl, by simp, fun τ hτ => by simp [hτ]⟩
  simp only [sstep]
  rw [if_pos ho]

/-- C69 is FALSE without the condition: the stream does not keep the field alive.
`renf_class::make(…)->set_pword(is)` with a pointer that is then dropped, and a read: use of a deleted
object, even if the field has been made again in between. -/
theorem C69_counterexample :
    srun (SState.init : SState ℕ) [.op (.make 7), .attach 0 0, .op (.release 0), .read 0 true] = .ub ∧
    srun (SState.init : SState ℕ) [.op (.make 7), .attach 0 0, .op (.release 0), .op (.make 7),
      .read 0 true] = .ub := by
  have h : ∀ r : Res (SState ℕ), (match r with | .ub => true | _ => false) = true → r = .ub := by
    intro r hr
    cases r <;> first | rfl | cases hr
  exact ⟨h _ (by decide +kernel), h _ (by decide +kernel)⟩

/-- non-vacuity: two streams with two fields; a field is attached to the first stream while an element of
it exists, the pointer is dropped, numbers are read, one with a wrong text -/
example : (match srun (SState.init : SState ℕ) [.op (.make 7), .op (.make 8), .op (.copy 0), .attach 0 0,
      .attach 1 1, .op (.release 0), .read 0 true, .read 1 false, .read 0 true] with
    | .ok s => some (s.reg.handles, s.reg.isAlive 0, s.pword 0, s.pword 1)
    | _ => none) = some ([(0, 0), (0, 0), (0, 1), (0, 0)], true, some 0, some 1) := by
  decide +kernel

/-- the theorems apply: with a field attached to stream 0 of which the program has an element, every read that is
good makes one more element; when the program has given up all of them, reading is undefined -/
example : (∃ s s' : SState ℕ, srun SState.init [.op (.make 7), .attach 0 0] = .ok s ∧
      sstep s (.read 0 true) = .ok s' ∧ s'.reg.handles = [(0, 0), (0, 0)]) ∧
    ∃ s : SState ℕ, srun SState.init [.op (.make 7), .attach 0 0, .op (.release 0)] = .ok s ∧
      ∀ good, sstep s (.read 0 good) = .ub := by
  constructor
  · refine ⟨_, _, rfl, (C69_read (σ := 0) (o := 0) (ops := [.op (.make 7), .attach 0 0]) rfl rfl (by decide) true).choose_spec.1, ?_⟩
    exact (C69_read (σ := 0) (o := 0) (ops := [.op (.make 7), .attach 0 0]) rfl rfl (by decide) true).choose_spec.2.1
  · refine ⟨_, rfl, C69_read_undefined (ops := [.op (.make 7), .attach 0 0, .op (.release 0)]) rfl fun o h => ?_⟩
    decide +revert

/-- and the address stays: whatever programs do afterwards with fields and other streams -/
example {ops : List (SOp ℕ)} {s : SState ℕ} (h : srun SState.init (.op (.make 7) :: .attach 0 0 :: ops) = .ok s)
    (hno : ∀ o, SOp.attach 0 o ∉ ops) : s.pword 0 = some 0 ∧ s.reg.keyOf 0 = some 7 := by
  exact C69_stays (ops := [.op (.make 7)]) (s := _) (s' := _) rfl rfl h hno

end EAntic.Registry
