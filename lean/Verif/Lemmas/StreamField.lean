import Verif.Model.StreamField
import Verif.Lemmas.Registry

/-! # Lemmas on the field that is attached to a stream -/

namespace EAntic.Registry

variable {κ : Type} [DecidableEq κ]

lemma copy_eq {s : State κ} (h : Quiet s) {o : ℕ} (ho : (0, o) ∈ s.handles) :
    seqStep s (.copy o) = some { s.addRc o 1 with handles := (0, o) :: s.handles } := by
  simp only [seqStep, step]
  rw [if_pos ⟨h.idle 0, ho⟩]

lemma release_ok {s : State κ} (q : Quiet s) {o : ℕ} (ho : (0, o) ∈ s.handles) :
    ∃ s', seqStep s (.release o) = some s' := by
  simp only [seqStep, step]; rw [if_pos ⟨q.idle 0, ho⟩]
  split_ifs with h4
  · rw [Option.bind_some, if_neg (by rw [setPc_pc, if_pos rfl]; simp)]
    simp only [run, step, setPc_pc, if_true]
    rw [if_pos (by exact q.lock)]
    simp [setPc_pc]
  · rw [Option.bind_some, if_pos (by exact q.idle 0)]; exact ⟨_, rfl⟩

/-- keys do not change -/
lemma seqStep_key {s s' : State κ} (h : Quiet s) {a : Op κ} (hs : seqStep s a = some s') :
    s.next ≤ s'.next ∧ ∀ o, o < s.next → s'.keyOf o = s.keyOf o := by
  cases a with
  | make k =>
    obtain ⟨s1, o1, h1, h2, h3, h4, h5, h6⟩ := make_quiet h k
    rw [h1] at hs; cases hs
    exact ⟨h6, fun o ho => (h5 o ho).2⟩
  | copy o =>
    obtain ⟨-, -, -, h4, h5⟩ := copy_quiet h hs
    exact ⟨h5.ge, fun o' _ => (h4 o').2⟩
  | release o =>
    obtain ⟨-, -, -, h4, h5⟩ := release_quiet h hs
    exact ⟨h5.ge, fun o' _ => (h4 o').2⟩

/-- reading, if there is a pointer to the attached field -/
lemma read_ok {s : SState κ} (h : Quiet s.reg) {σ o : ℕ} (hp : s.pword σ = some o)
    (ho : (0, o) ∈ s.reg.handles) (b : Bool) :
    ∃ s', sstep s (.read σ b) = .ok s' ∧ Quiet s'.reg ∧ s'.pword = s.pword ∧
      s'.reg.handles = (if b then (0, o) :: s.reg.handles else s.reg.handles) ∧
      s'.reg.next = s.reg.next ∧
      ∀ i, s'.reg.isAlive i = s.reg.isAlive i ∧ s'.reg.keyOf i = s.reg.keyOf i := by
  have hal : s.reg.isAlive o = true := (h.alive_iff o).2 ho
  have hc := copy_eq h ho
  obtain ⟨q1, -, e1, k1, n1⟩ := copy_quiet h hc
  have hget : getPword s σ = .ok (some o,
      { s with reg := { s.reg.addRc o 1 with handles := (0, o) :: s.reg.handles } }) := by
    unfold getPword
    simp only [hp]
    rw [if_pos hal]
  simp only [sstep, hget, Res.bind]
  generalize ({ s.reg.addRc o 1 with handles := (0, o) :: s.reg.handles } : State κ) = r1 at hc q1 e1 k1 n1
  have hfin : ∀ {r2 : State κ} (pw : ℕ → Option ℕ), Quiet r2 → (0, o) ∈ r2.handles →
      (0, o) ∈ r2.handles.erase (0, o) →
      ∃ r3, (⟨r2, pw⟩ : SState κ).doOp (.release o) = .ok ⟨r3, pw⟩ ∧ Quiet r3 ∧
        r3.handles = r2.handles.erase (0, o) ∧ r3.next = r2.next ∧
        ∀ i, r3.isAlive i = r2.isAlive i ∧ r3.keyOf i = r2.keyOf i := by
    intro r2 pw q2 h2 h2'
    obtain ⟨r3, h3⟩ := release_ok q2 h2
    obtain ⟨q3, -, e3, k3, n3⟩ := release_quiet q2 h3
    refine ⟨r3, by unfold SState.doOp; rw [h3], q3, e3, n3, fun i => ⟨?_, (k3 i).2⟩⟩
    by_cases hi : i = o
    · subst hi
      rw [(q2.alive_iff i).2 h2, (q3.alive_iff i).2 (by rw [e3]; exact h2')]
    · exact (k3 i).1 hi
  cases b with
  | false =>
    simp only [Bool.false_eq_true, if_false, Res.bind]
    obtain ⟨r3, h3, q3, e3, n3, k3⟩ := hfin s.pword q1 (by rw [e1]; simp) (by rw [e1]; simpa using ho)
    refine ⟨_, h3, q3, rfl, ?_, n3.trans n1, fun i => ⟨(k3 i).1.trans (k1 i).1, (k3 i).2.trans (k1 i).2⟩⟩
    show r3.handles = _
    rw [e3, e1]; simp
  | true =>
    simp only [if_true]
    have hm : (0, o) ∈ r1.handles := by rw [e1]; simp
    have hc2 := copy_eq q1 hm
    obtain ⟨q2, -, e2, k2, n2⟩ := copy_quiet q1 hc2
    generalize ({ r1.addRc o 1 with handles := (0, o) :: r1.handles } : State κ) = r2 at hc2 q2 e2 k2 n2
    have hd : (⟨r1, s.pword⟩ : SState κ).doOp (.copy o) = .ok ⟨r2, s.pword⟩ := by
      unfold SState.doOp; rw [hc2]
    rw [hd]
    simp only [Res.bind]
    obtain ⟨r3, h3, q3, e3, n3, k3⟩ := hfin s.pword q2 (by rw [e2]; simp) (by rw [e2]; simpa using hm)
    refine ⟨_, h3, q3, rfl, ?_, n3.trans (n2.trans n1),
      fun i => ⟨(k3 i).1.trans ((k2 i).1.trans (k1 i).1), (k3 i).2.trans ((k2 i).2.trans (k1 i).2)⟩⟩
    show r3.handles = _
    rw [e3, e2, e1]; simp

lemma read_ub {s : SState κ} (h : Quiet s.reg) {σ : ℕ} {b : Bool}
    (hno : ∀ o, s.pword σ = some o → (0, o) ∉ s.reg.handles) : sstep s (.read σ b) = .ub := by
  cases hp : s.pword σ with
  | none => simp only [sstep, getPword, hp, Res.bind]
  | some o =>
    have : ¬ s.reg.isAlive o = true := fun ha => hno o hp ((h.alive_iff o).1 ha)
    simp only [sstep, getPword, hp, if_neg this, Res.bind]

/-- the invariant: addresses in streams are those of objects that existed -/
structure SInv (s : SState κ) : Prop where
  quiet : Quiet s.reg
  old : ∀ σ o, s.pword σ = some o → o < s.reg.next

lemma sinv_init : SInv (SState.init : SState κ) := ⟨quiet_init, by simp [SState.init]⟩

lemma sinv_step {s s' : SState κ} (h : SInv s) {a : SOp κ} (hs : sstep s a = .ok s') :
    SInv s' ∧ s.reg.next ≤ s'.reg.next ∧ (∀ o, o < s.reg.next → s'.reg.keyOf o = s.reg.keyOf o) ∧
      ∀ σ, (∀ o, a ≠ .attach σ o) → s'.pword σ = s.pword σ := by
  cases a with
  | op a =>
    have hs : s.doOp a = .ok s' := hs
    unfold SState.doOp at hs
    cases hr : seqStep s.reg a with
    | none => rw [hr] at hs; cases hs
    | some r =>
      rw [hr] at hs
      cases hs
      obtain ⟨h1, h2⟩ := seqStep_key h.quiet hr
      exact ⟨⟨quiet_step h.quiet hr, fun σ o ho => lt_of_lt_of_le (h.old σ o ho) h1⟩, h1, h2, fun _ _ => rfl⟩
  | attach σ o =>
    simp only [sstep] at hs
    split_ifs at hs with hm
    cases hs
    refine ⟨⟨h.quiet, fun τ o' ho' => ?_⟩, le_rfl, fun _ _ => rfl, fun τ hτ => ?_⟩
    · by_cases hτ : τ = σ
      · subst hτ
        simp at ho'
        subst ho'
        by_contra hc
        have := h.quiet.inv.fresh o (by simpa using hc)
        have ha := (h.quiet.alive_iff o).2 hm
        simp [State.isAlive, this] at ha
      · simp [hτ] at ho'
        exact h.old τ o' ho'
    · have : τ ≠ σ := fun e => hτ o (by rw [e])
      simp [this]
  | read σ b =>
    by_cases hr : ∃ o, s.pword σ = some o ∧ (0, o) ∈ s.reg.handles
    · obtain ⟨o, hp, ho⟩ := hr
      obtain ⟨s'', h1, h2, h3, h4, h5, h6⟩ := read_ok h.quiet hp ho b
      rw [h1] at hs
      cases hs
      refine ⟨⟨h2, fun σ o ho => ?_⟩, h5.ge, fun o _ => (h6 o).2, fun _ _ => by rw [h3]⟩
      rw [h5]; rw [h3] at ho; exact h.old σ o ho
    · push Not at hr
      rw [read_ub h.quiet hr] at hs
      cases hs

lemma sinv_run {s s' : SState κ} (h : SInv s) {as : List (SOp κ)} (hs : srun s as = .ok s') : SInv s' := by
  induction as generalizing s with
  | nil => cases hs; exact h
  | cons a as ih =>
    unfold srun at hs
    cases hr : sstep s a with
    | ok s1 => rw [hr] at hs; exact ih (sinv_step h hr).1 hs
    | _ => rw [hr] at hs; cases hs

lemma srun_keeps {s s' : SState κ} (h : SInv s) {as : List (SOp κ)} (hs : srun s as = .ok s') :
    s.reg.next ≤ s'.reg.next ∧ (∀ o, o < s.reg.next → s'.reg.keyOf o = s.reg.keyOf o) ∧
      ∀ σ, (∀ o, SOp.attach σ o ∉ as) → s'.pword σ = s.pword σ := by
  induction as generalizing s with
  | nil => cases hs; exact ⟨le_rfl, fun _ _ => rfl, fun _ _ => rfl⟩
  | cons a as ih =>
    unfold srun at hs
    cases hr : sstep s a with
    | ok s1 =>
      rw [hr] at hs
      obtain ⟨h1, h2, h3, h4⟩ := sinv_step h hr
      obtain ⟨i1, i2, i3⟩ := ih h1 hs
      exact ⟨h2.trans i1, fun o ho => (i2 o (ho.trans_le h2)).trans (h3 o ho), fun σ hσ =>
        (i3 σ fun o ho => hσ o (by simp [ho])).trans (h4 σ fun o e => hσ o (by simp [e]))⟩
    | _ => rw [hr] at hs; cases hs

end EAntic.Registry
