import Verif.Model.Registry
import Verif.Spec.Registry
import Mathlib.Data.List.Count
import Mathlib.Tactic.Ring
import Mathlib.Tactic.Linarith
import Mathlib.Tactic.SplitIfs

/-!
# Invariant of the field registry
-/

namespace EAntic.Registry

set_option linter.unusedSectionVars false

variable {κ : Type} [DecidableEq κ]

/-- number of handles of an object -/
def State.cnt (s : State κ) (o : ℕ) : ℕ := s.handles.countP (fun h => h.2 = o)

/-- in `make` with the object allocated -/
def Pc.mk (p : Pc) (o : ℕ) : Prop := p = .making o ∨ p = .making1 o
/-- in `release` with the object to be deleted -/
def Pc.dy (p : Pc) (o : ℕ) : Prop := p = .dying o ∨ p = .dying1 o
/-- holding the mutex -/
def Pc.locked (p : Pc) : Prop := ∃ o, p = .making1 o ∨ p = .returning o ∨ p = .dying1 o

/-- The invariant. -/
structure Inv (s : State κ) : Prop where
  notbad : s.bad = false
  rc : ∀ o x, s.objs o = some x → x.alive = true → x.rc = 3 + s.cnt o
  held : ∀ h ∈ s.handles, h.2 ∈ s.reg
  fresh : ∀ o, s.next ≤ o → s.objs o = none
  reg_alive : ∀ o ∈ s.reg, s.isAlive o = true
  reg_nodup : s.reg.Nodup
  reg_key : ∀ o ∈ s.reg, ∀ o' ∈ s.reg, s.keyOf o = s.keyOf o' → o = o'
  alive : ∀ o, s.isAlive o = true → o ∈ s.reg ∨ ∃ t, (s.pc t).mk o
  mkA : ∀ t o, (s.pc t).mk o → s.isAlive o = true ∧ o ∉ s.reg
  mk_inj : ∀ t t' o, (s.pc t).mk o → (s.pc t').mk o → t = t'
  dy : ∀ t o, (s.pc t).dy o → o ∈ s.reg ∧ s.cnt o = 0
  dy_inj : ∀ t t' o, (s.pc t).dy o → (s.pc t').dy o → t = t'
  ret : ∀ t o, s.pc t = .returning o → o ∈ s.reg
  zero : ∀ o ∈ s.reg, s.cnt o = 0 → ∃ t, (s.pc t).dy o ∨ s.pc t = .returning o
  lock : ∀ t, s.lock = some t ↔ (s.pc t).locked

theorem isAlive_iff (s : State κ) (o : ℕ) :
    s.isAlive o = true ↔ ∃ x, s.objs o = some x ∧ x.alive = true := by
  unfold State.isAlive; cases s.objs o <;> simp

theorem cnt_pos_iff (s : State κ) (o : ℕ) : 0 < s.cnt o ↔ ∃ t, (t, o) ∈ s.handles := by
  unfold State.cnt; rw [List.countP_pos_iff]; simp

theorem inv_init : Inv (init : State κ) := by
  constructor <;> simp [init, Pc.mk, Pc.dy, Pc.locked, State.isAlive, State.cnt]

@[simp] theorem setPc_objs (s : State κ) (t p) : (s.setPc t p).objs = s.objs := rfl
@[simp] theorem setPc_next (s : State κ) (t p) : (s.setPc t p).next = s.next := rfl
@[simp] theorem setPc_reg (s : State κ) (t p) : (s.setPc t p).reg = s.reg := rfl
@[simp] theorem setPc_lock (s : State κ) (t p) : (s.setPc t p).lock = s.lock := rfl
@[simp] theorem setPc_handles (s : State κ) (t p) : (s.setPc t p).handles = s.handles := rfl
@[simp] theorem setPc_bad (s : State κ) (t p) : (s.setPc t p).bad = s.bad := rfl
@[simp] theorem setPc_alive (s : State κ) (t p o) : (s.setPc t p).isAlive o = s.isAlive o := rfl
@[simp] theorem setPc_key (s : State κ) (t p o) : (s.setPc t p).keyOf o = s.keyOf o := rfl
@[simp] theorem setPc_cnt (s : State κ) (t p o) : (s.setPc t p).cnt o = s.cnt o := rfl
theorem setPc_pc (s : State κ) (t p i) : (s.setPc t p).pc i = if i = t then p else s.pc i := rfl

theorem inv_new {s s' : State κ} (h : Inv s) {t : ℕ} {k : κ} (hs : step s (.new t k) = some s') :
    Inv s' := by
  simp only [step] at hs
  split_ifs at hs with hi
  cases hs
  have hf := h.fresh s.next le_rfl
  have hnr : s.next ∉ s.reg := fun hm => by
    have := h.reg_alive _ hm; simp [State.isAlive, hf] at this
  have hreg : ∀ o ∈ s.reg, o ≠ s.next := fun o ho he => hnr (he ▸ ho)
  have hc0 : s.cnt s.next = 0 := by
    by_contra hc
    obtain ⟨t', ht'⟩ := (cnt_pos_iff s s.next).1 (Nat.pos_of_ne_zero hc)
    exact hnr (h.held _ ht')
  have hmn : ∀ t, ¬ (s.pc t).mk s.next := fun t' hm => by
    have := (h.mkA _ _ hm).1; simp [State.isAlive, hf] at this
  constructor
  · exact h.notbad
  · intro o x hx hal
    simp only [setPc_objs] at hx
    split_ifs at hx with ho
    · cases hx; subst ho
      show (3 : ℤ) = 3 + ((s.cnt s.next : ℕ) : ℤ); rw [hc0]; rfl
    · exact h.rc o x hx hal
  · exact h.held
  · intro o ho
    have ho' : s.next + 1 ≤ o := ho
    simp only [setPc_objs]
    rw [if_neg (by omega)]; exact h.fresh o (by omega)
  · intro o ho
    have := h.reg_alive o ho
    have h2 := hreg o ho
    simpa [State.isAlive, h2] using this
  · exact h.reg_nodup
  · intro o ho o' ho' hk
    have h2 := hreg o ho
    have h3 := hreg o' ho'
    refine h.reg_key o ho o' ho' ?_
    simpa [State.keyOf, h2, h3] using hk
  · intro o ho
    by_cases hon : o = s.next
    · right; refine ⟨t, ?_⟩; rw [setPc_pc, if_pos rfl, hon]; exact Or.inl rfl
    · have : s.isAlive o = true := by simpa [State.isAlive, hon] using ho
      rcases h.alive o this with hr | ⟨t', ht'⟩
      · exact Or.inl hr
      · right; refine ⟨t', ?_⟩
        rw [setPc_pc, if_neg]; exact ht'
        rintro rfl; rw [hi] at ht'; simp [Pc.mk] at ht'
  · intro t' o hm
    rw [setPc_pc] at hm
    split_ifs at hm with he
    · have : o = s.next := by simpa [Pc.mk, eq_comm] using hm
      subst this
      exact ⟨by simp [State.isAlive], hnr⟩
    · have := h.mkA t' o hm
      have hon : o ≠ s.next := fun he => hmn t' (he ▸ hm)
      exact ⟨by simpa [State.isAlive, hon] using this.1, this.2⟩
  · intro t1 t2 o h1 h2
    simp only [setPc_pc] at h1 h2
    split_ifs at h1 h2 with e1 e2 e2
    · rw [e1, e2]
    · have : o = s.next := by simpa [Pc.mk, eq_comm] using h1
      exact absurd (this ▸ h2) (hmn _)
    · have : o = s.next := by simpa [Pc.mk, eq_comm] using h2
      exact absurd (this ▸ h1) (hmn _)
    · exact h.mk_inj _ _ _ h1 h2
  · intro t' o hd
    rw [setPc_pc] at hd
    split_ifs at hd with he
    · simp [Pc.dy] at hd
    · exact h.dy t' o hd
  · intro t1 t2 o h1 h2
    simp only [setPc_pc] at h1 h2
    split_ifs at h1 h2 with e1 e2 e2
    · rw [e1, e2]
    · simp [Pc.dy] at h1
    · simp [Pc.dy] at h2
    · exact h.dy_inj _ _ _ h1 h2
  · intro t' o hr
    rw [setPc_pc] at hr
    split_ifs at hr
    exact h.ret t' o hr
  · intro o ho hc
    obtain ⟨t', ht'⟩ := h.zero o ho hc
    refine ⟨t', ?_⟩
    rw [setPc_pc, if_neg]; exact ht'
    rintro rfl; rw [hi] at ht'; simp [Pc.dy] at ht'
  · intro t'
    rw [setPc_pc]
    have := h.lock t'
    split_ifs with he
    · subst he; rw [hi] at this; simp [Pc.locked] at this ⊢; exact this
    · exact this

theorem inv_lock {s s' : State κ} (h : Inv s) {t : ℕ} (hs : step s (.lock t) = some s') :
    Inv s' := by
  simp only [step] at hs
  split_ifs at hs with hl
  have hnl : ∀ t, ¬ (s.pc t).locked := fun t' => by rw [← h.lock]; simp [hl]
  -- the new program counter has the same `mk` and `dy`, and is not `returning`
  have key : ∃ q, (∃ o, s.pc t = .making o ∧ q = .making1 o ∨ s.pc t = .dying o ∧ q = .dying1 o) ∧
      s' = ({ s with lock := some t } : State κ).setPc t q := by
    split at hs
    · rename_i o ho; cases hs; exact ⟨_, ⟨o, Or.inl ⟨ho, rfl⟩⟩, rfl⟩
    · rename_i o ho; cases hs; exact ⟨_, ⟨o, Or.inr ⟨ho, rfl⟩⟩, rfl⟩
    · cases hs
  obtain ⟨q, ⟨o0, hq⟩, rfl⟩ := key
  have e1 : ∀ o, q.mk o ↔ (s.pc t).mk o := by
    intro o; rcases hq with ⟨h1, rfl⟩ | ⟨h1, rfl⟩ <;> simp [h1, Pc.mk]
  have e2 : ∀ o, q.dy o ↔ (s.pc t).dy o := by
    intro o; rcases hq with ⟨h1, rfl⟩ | ⟨h1, rfl⟩ <;> simp [h1, Pc.dy]
  have e3 : ∀ o, q = .returning o ↔ s.pc t = .returning o := by
    intro o; rcases hq with ⟨h1, rfl⟩ | ⟨h1, rfl⟩ <;> simp [h1]
  have e4 : q.locked := by
    rcases hq with ⟨h1, rfl⟩ | ⟨h1, rfl⟩ <;> exact ⟨o0, by simp⟩
  set s1 := ({ s with lock := some t } : State κ).setPc t q with hs1
  have f1 : ∀ i o, (s1.pc i).mk o ↔ (s.pc i).mk o := by
    intro i o; rw [hs1, setPc_pc]; split_ifs with he
    · rw [he]; exact e1 o
    · rfl
  have f2 : ∀ i o, (s1.pc i).dy o ↔ (s.pc i).dy o := by
    intro i o; rw [hs1, setPc_pc]; split_ifs with he
    · rw [he]; exact e2 o
    · rfl
  have f3 : ∀ i o, s1.pc i = .returning o ↔ s.pc i = .returning o := by
    intro i o; rw [hs1, setPc_pc]; split_ifs with he
    · rw [he]; exact e3 o
    · rfl
  constructor
  · exact h.notbad
  · exact h.rc
  · exact h.held
  · exact h.fresh
  · exact h.reg_alive
  · exact h.reg_nodup
  · exact h.reg_key
  · intro o ho; simp only [f1]; exact h.alive o ho
  · intro t o; rw [f1]; exact h.mkA t o
  · intro t t' o; rw [f1, f1]; exact h.mk_inj t t' o
  · intro t o; rw [f2]; exact h.dy t o
  · intro t t' o; rw [f2, f2]; exact h.dy_inj t t' o
  · intro t o; rw [f3]; exact h.ret t o
  · intro o ho hc; simp only [f2, f3]; exact h.zero o ho hc
  · intro i
    rw [hs1, setPc_pc]
    show (some t = some i) ↔ _
    split_ifs with he
    · simp [he, e4]
    · constructor
      · intro h1; cases h1; exact absurd rfl he
      · intro h1; exact absurd h1 (hnl i)

theorem kill_alive (s : State κ) (o i : ℕ) :
    (s.kill o).isAlive i = if i = o then false else s.isAlive i := by
  simp only [State.isAlive, State.kill]
  split_ifs with he
  · cases s.objs i <;> simp
  · rfl

theorem kill_key (s : State κ) (o i : ℕ) : (s.kill o).keyOf i = s.keyOf i := by
  simp only [State.keyOf, State.kill]
  split_ifs <;> cases s.objs i <;> simp

theorem kill_none (s : State κ) (o i : ℕ) : (s.kill o).objs i = none ↔ s.objs i = none := by
  simp only [State.kill]
  split_ifs <;> cases s.objs i <;> simp

theorem kill_some {s : State κ} {o i : ℕ} {x : Obj κ} (h : (s.kill o).objs i = some x)
    (ha : x.alive = true) : i ≠ o ∧ s.objs i = some x := by
  simp only [State.kill] at h
  split_ifs at h with he
  · cases hx : s.objs i with
    | none => simp [hx] at h
    | some y => simp only [hx, Option.map_some, Option.some.injEq] at h; subst h; simp at ha
  · exact ⟨he, h⟩

theorem inv_lookup {s s' : State κ} (h : Inv s) {t : ℕ} (hs : step s (.lookup t) = some s') :
    Inv s' := by
  simp only [step] at hs
  split at hs
  case h_2 => cases hs
  rename_i o hpc
  have hmk : (s.pc t).mk o := Or.inr hpc
  obtain ⟨hoa, hor⟩ := h.mkA t o hmk
  have hlt : s.lock = some t := (h.lock t).2 ⟨o, Or.inl hpc⟩
  have hnl : ∀ i, i ≠ t → ¬ (s.pc i).locked := fun i hi hc => by
    have := (h.lock i).2 hc; rw [hlt] at this; cases this; exact hi rfl
  have hco : s.cnt o = 0 := by
    by_contra hc
    obtain ⟨t', ht'⟩ := (cnt_pos_iff s o).1 (Nat.pos_of_ne_zero hc)
    exact hor (h.held _ ht')
  have hnr : ∀ i o', i ≠ t → s.pc i ≠ .returning o' := fun i o' hi hc =>
    hnl i hi ⟨o', Or.inr (Or.inl hc)⟩
  split at hs
  · rename_i hfind
    cases hs
    have hkey : ∀ o' ∈ s.reg, s.keyOf o' ≠ s.keyOf o := by
      intro o' ho'
      have := List.find?_eq_none.1 hfind o' ho'
      simpa using this
    constructor
    · exact h.notbad
    · exact h.rc
    · intro x hx; exact List.mem_cons_of_mem _ (h.held x hx)
    · exact h.fresh
    · intro o' ho'
      rcases List.mem_cons.1 ho' with rfl | ho'
      · exact hoa
      · exact h.reg_alive o' ho'
    · exact List.nodup_cons.2 ⟨hor, h.reg_nodup⟩
    · intro a ha b hb hk
      rcases List.mem_cons.1 ha with h1 | ha1 <;> rcases List.mem_cons.1 hb with h2 | hb1
      · rw [h1, h2]
      · subst h1; exact absurd hk.symm (hkey b hb1)
      · subst h2; exact absurd hk (hkey a ha1)
      · exact h.reg_key a ha1 b hb1 hk
    · intro o' ho'
      rcases h.alive o' ho' with hr | ⟨t', ht'⟩
      · exact Or.inl (List.mem_cons_of_mem _ hr)
      · by_cases he : t' = t
        · subst he
          left
          have : o' = o := by rw [hpc] at ht'; simpa [Pc.mk, eq_comm] using ht'
          subst this; exact List.mem_cons_self
        · right; refine ⟨t', ?_⟩; rw [setPc_pc, if_neg he]; exact ht'
    · intro t' o' hm
      rw [setPc_pc] at hm
      split_ifs at hm with he
      · simp [Pc.mk] at hm
      · have := h.mkA t' o' hm
        refine ⟨this.1, ?_⟩
        intro hc
        rcases List.mem_cons.1 hc with rfl | hc
        · exact he (h.mk_inj _ _ _ hm hmk)
        · exact this.2 hc
    · intro t1 t2 o' h1 h2
      simp only [setPc_pc] at h1 h2
      split_ifs at h1 h2 with e1 e2 e2
      · rw [e1, e2]
      · simp [Pc.mk] at h1
      · simp [Pc.mk] at h2
      · exact h.mk_inj _ _ _ h1 h2
    · intro t' o' hd
      rw [setPc_pc] at hd
      split_ifs at hd with he
      · simp [Pc.dy] at hd
      · exact ⟨List.mem_cons_of_mem _ (h.dy t' o' hd).1, (h.dy t' o' hd).2⟩
    · intro t1 t2 o' h1 h2
      simp only [setPc_pc] at h1 h2
      split_ifs at h1 h2 with e1 e2 e2
      · rw [e1, e2]
      · simp [Pc.dy] at h1
      · simp [Pc.dy] at h2
      · exact h.dy_inj _ _ _ h1 h2
    · intro t' o' hr
      rw [setPc_pc] at hr
      split_ifs at hr with he
      · cases hr; exact List.mem_cons_self
      · exact absurd hr (hnr t' o' he)
    · intro o' ho' hc
      rcases List.mem_cons.1 ho' with rfl | ho'
      · exact ⟨t, Or.inr (by rw [setPc_pc, if_pos rfl])⟩
      · obtain ⟨t', ht'⟩ := h.zero o' ho' hc
        refine ⟨t', ?_⟩
        rw [setPc_pc, if_neg]; exact ht'
        rintro rfl; rw [hpc] at ht'; simp [Pc.dy] at ht'
    · intro i
      rw [setPc_pc]
      split_ifs with he
      · subst he
        exact ⟨fun _ => ⟨o, by simp⟩, fun _ => hlt⟩
      · exact h.lock i
  · rename_i o1 hfind
    cases hs
    have ho1 : o1 ∈ s.reg := List.mem_of_find?_eq_some hfind
    have hne : o1 ≠ o := fun he => hor (he ▸ ho1)
    have hregne : ∀ i ∈ s.reg, i ≠ o := fun i hi he => hor (he ▸ hi)
    constructor
    · simp [State.kill, h.notbad, hoa, h.reg_alive o1 ho1]
    · intro i x hx ha
      exact h.rc i x (kill_some hx ha).2 ha
    · exact h.held
    · intro i hi; exact (kill_none s o i).2 (h.fresh i hi)
    · intro i hi
      have h1 : (s.kill o).isAlive i = true := by
        rw [kill_alive, if_neg (hregne i hi)]; exact h.reg_alive i hi
      exact h1
    · exact h.reg_nodup
    · intro a ha b hb hk
      refine h.reg_key a ha b hb ?_
      have h1 : (s.kill o).keyOf a = (s.kill o).keyOf b := hk
      rwa [kill_key, kill_key] at h1
    · intro i hi
      have h1 : (s.kill o).isAlive i = true := hi
      rw [kill_alive] at h1
      split_ifs at h1 with hio
      rcases h.alive i h1 with hr | ⟨t', ht'⟩
      · exact Or.inl hr
      · right; refine ⟨t', ?_⟩
        rw [setPc_pc, if_neg]; exact ht'
        rintro rfl; rw [hpc] at ht'; simp [Pc.mk] at ht'; exact hio ht'.symm
    · intro t' i hm
      rw [setPc_pc] at hm
      split_ifs at hm with he
      · simp [Pc.mk] at hm
      · have := h.mkA t' i hm
        refine ⟨?_, this.2⟩
        have hio : i ≠ o := fun hh => he (h.mk_inj _ _ _ hm (hh ▸ hmk))
        show (s.kill o).isAlive i = true
        rw [kill_alive, if_neg hio]; exact this.1
    · intro t1 t2 o' h1 h2
      simp only [setPc_pc] at h1 h2
      split_ifs at h1 h2 with e1 e2 e2
      · rw [e1, e2]
      · simp [Pc.mk] at h1
      · simp [Pc.mk] at h2
      · exact h.mk_inj _ _ _ h1 h2
    · intro t' o' hd
      rw [setPc_pc] at hd
      split_ifs at hd with he
      · simp [Pc.dy] at hd
      · exact h.dy t' o' hd
    · intro t1 t2 o' h1 h2
      simp only [setPc_pc] at h1 h2
      split_ifs at h1 h2 with e1 e2 e2
      · rw [e1, e2]
      · simp [Pc.dy] at h1
      · simp [Pc.dy] at h2
      · exact h.dy_inj _ _ _ h1 h2
    · intro t' o' hr
      rw [setPc_pc] at hr
      split_ifs at hr with he
      · cases hr; exact ho1
      · exact absurd hr (hnr t' o' he)
    · intro o' ho' hc
      obtain ⟨t', ht'⟩ := h.zero o' ho' hc
      refine ⟨t', ?_⟩
      rw [setPc_pc, if_neg]; exact ht'
      rintro rfl; rw [hpc] at ht'; simp [Pc.dy] at ht'
    · intro i
      rw [setPc_pc]
      split_ifs with he
      · subst he
        exact ⟨fun _ => ⟨o1, by simp⟩, fun _ => hlt⟩
      · exact h.lock i

theorem addRc_alive (s : State κ) (o d i) : (s.addRc o d).isAlive i = s.isAlive i := by
  simp only [State.isAlive, State.addRc]
  split_ifs <;> cases s.objs i <;> simp

theorem addRc_key (s : State κ) (o d i) : (s.addRc o d).keyOf i = s.keyOf i := by
  simp only [State.keyOf, State.addRc]
  split_ifs <;> cases s.objs i <;> simp

theorem addRc_none (s : State κ) (o d i) : (s.addRc o d).objs i = none ↔ s.objs i = none := by
  simp only [State.addRc]
  split_ifs <;> cases s.objs i <;> simp

theorem addRc_some {s : State κ} {o i : ℕ} {d : ℤ} {x : Obj κ}
    (h : (s.addRc o d).objs i = some x) : ∃ y, s.objs i = some y ∧ x.alive = y.alive ∧
      x.rc = y.rc + if i = o then d else 0 := by
  simp only [State.addRc] at h
  split_ifs at h with he
  · cases hx : s.objs i with
    | none => simp [hx] at h
    | some y =>
      simp only [hx, Option.map_some, Option.some.injEq] at h; subst h
      exact ⟨y, rfl, rfl, by simp [he]⟩
  · exact ⟨x, h, rfl, by simp [he]⟩

/-- An update of a count together with the handles. -/
theorem inv_addRc {s s' : State κ} (h : Inv s) {o : ℕ} (ho : o ∈ s.reg) {d : ℤ}
    (hobjs : s'.objs = (s.addRc o d).objs) (hnext : s'.next = s.next) (hreg : s'.reg = s.reg)
    (hbad : s'.bad = (s.addRc o d).bad)
    (hcnt : ∀ i, (s'.cnt i : ℤ) = s.cnt i + if i = o then d else 0)
    (hheld : ∀ x ∈ s'.handles, x.2 ∈ s.reg)
    (hmk : ∀ i j, (s'.pc i).mk j ↔ (s.pc i).mk j)
    (hdy : ∀ t i, (s'.pc t).dy i → i ∈ s.reg ∧ s'.cnt i = 0)
    (hdyi : ∀ t t' i, (s'.pc t).dy i → (s'.pc t').dy i → t = t')
    (hret : ∀ t i, s'.pc t = .returning i → s.pc t = .returning i)
    (hzero : ∀ i ∈ s.reg, s'.cnt i = 0 → ∃ t, (s'.pc t).dy i ∨ s'.pc t = .returning i)
    (hlock : ∀ t, s'.lock = some t ↔ (s'.pc t).locked) : Inv s' := by
  have hal : ∀ i, s'.isAlive i = s.isAlive i := fun i => by
    rw [← addRc_alive s o d i]; unfold State.isAlive; rw [hobjs]
  have hkey : ∀ i, s'.keyOf i = s.keyOf i := fun i => by
    rw [← addRc_key s o d i]; unfold State.keyOf; rw [hobjs]
  constructor
  · rw [hbad]; simp [State.addRc, h.notbad, h.reg_alive o ho]
  · intro i x hx ha
    rw [hobjs] at hx
    obtain ⟨y, hy, hya, hrc⟩ := addRc_some hx
    rw [hrc, h.rc i y hy (hya ▸ ha), hcnt]; ring
  · rw [hreg]; exact hheld
  · intro i hi; rw [hnext] at hi; rw [hobjs]; exact (addRc_none s o d i).2 (h.fresh i hi)
  · intro i hi; rw [hal]; rw [hreg] at hi; exact h.reg_alive i hi
  · rw [hreg]; exact h.reg_nodup
  · rw [hreg]; intro a ha b hb; rw [hkey, hkey]; exact h.reg_key a ha b hb
  · intro i hi; rw [hal] at hi; rw [hreg]; simp only [hmk]; exact h.alive i hi
  · intro t i hi; rw [hmk] at hi; rw [hal, hreg]; exact h.mkA t i hi
  · intro t t' i; rw [hmk, hmk]; exact h.mk_inj t t' i
  · rw [hreg]; exact hdy
  · exact hdyi
  · rw [hreg]; intro t i hi; exact h.ret t i (hret t i hi)
  · rw [hreg]; exact hzero
  · exact hlock

theorem cnt_cons (s : State κ) (s' : State κ) (t o : ℕ) (h : s'.handles = (t, o) :: s.handles)
    (i : ℕ) : (s'.cnt i : ℤ) = s.cnt i + if i = o then 1 else 0 := by
  unfold State.cnt; rw [h, List.countP_cons]
  by_cases hi : i = o
  · simp [hi]
  · simp [hi, Ne.symm hi]

theorem cnt_erase (s : State κ) (s' : State κ) (t o : ℕ) (hm : (t, o) ∈ s.handles)
    (h : s'.handles = s.handles.erase (t, o)) (i : ℕ) :
    (s'.cnt i : ℤ) = s.cnt i + if i = o then -1 else 0 := by
  unfold State.cnt
  have := (List.perm_cons_erase hm).countP_eq (fun h => decide (h.2 = i))
  rw [h, this, List.countP_cons]
  by_cases hi : i = o
  · simp [hi]
  · simp [hi, Ne.symm hi]

theorem inv_finish {s s' : State κ} (h : Inv s) {t : ℕ} (hs : step s (.finish t) = some s')
    (hc : ∀ o, s.pc t = .returning o → ∀ t', ¬ (s.pc t').dy o) : Inv s' := by
  simp only [step] at hs
  split at hs
  case h_2 => cases hs
  rename_i o hpc
  cases hs
  have ho := h.ret t o hpc
  have hcn := cnt_cons s (State.setPc { s.addRc o 1 with
      handles := (t, o) :: s.handles
      lock := none } t .idle) t o rfl
  have hlt : s.lock = some t := (h.lock t).2 ⟨o, Or.inr (Or.inl hpc)⟩
  refine inv_addRc h ho rfl rfl rfl rfl hcn ?_ ?_ ?_ ?_ ?_ ?_ ?_
  · intro x hx
    rcases List.mem_cons.1 hx with rfl | hx
    · exact ho
    · exact h.held x hx
  · intro i j
    rw [setPc_pc]; split_ifs with he
    · subst he; rw [hpc]; simp [Pc.mk]
    · rfl
  · intro t' i hd
    rw [setPc_pc] at hd
    split_ifs at hd with he
    · simp [Pc.dy] at hd
    · have h1 : (s.pc t').dy i := hd
      refine ⟨(h.dy t' i h1).1, ?_⟩
      have h2 := hcn i
      rw [(h.dy t' i h1).2, if_neg (by rintro rfl; exact hc _ hpc _ h1)] at h2
      exact_mod_cast h2
  · intro t1 t2 o' h1 h2
    simp only [setPc_pc] at h1 h2
    split_ifs at h1 h2 with e1 e2 e2
    · rw [e1, e2]
    · simp [Pc.dy] at h1
    · simp [Pc.dy] at h2
    · exact h.dy_inj _ _ _ h1 h2
  · intro t' i hr
    rw [setPc_pc] at hr
    split_ifs at hr with he
    exact hr
  · intro i hi hz
    have h2 := hcn i
    rw [hz] at h2
    have hio : i ≠ o := by
      rintro rfl; rw [if_pos rfl] at h2
      have : (0 : ℤ) ≤ s.cnt i := Int.natCast_nonneg _
      push_cast at h2; omega
    rw [if_neg hio] at h2
    obtain ⟨t', ht'⟩ := h.zero i hi (by push_cast at h2; omega)
    refine ⟨t', ?_⟩
    rw [setPc_pc, if_neg]; exact ht'
    rintro rfl; rw [hpc] at ht'; simp [Pc.dy] at ht'; exact hio ht'.symm
  · intro i
    rw [setPc_pc]
    show (none = some i) ↔ _
    split_ifs with he
    · simp [Pc.locked]
    · have : ¬ (s.pc i).locked := fun hc => by
        have := (h.lock i).2 hc; rw [hlt] at this; cases this; exact he rfl
      simp only [reduceCtorEq, false_iff]; exact this

theorem inv_copy {s s' : State κ} (h : Inv s) {t o : ℕ} (hs : step s (.copy t o) = some s') :
    Inv s' := by
  simp only [step] at hs
  split_ifs at hs with hi
  cases hs
  obtain ⟨hpc, hm⟩ := hi
  have ho := h.held _ hm
  have hcn := cnt_cons s ({ s.addRc o 1 with handles := (t, o) :: s.handles } : State κ) t o rfl
  have hpos := (cnt_pos_iff s o).2 ⟨t, hm⟩
  refine inv_addRc h ho rfl rfl rfl rfl hcn ?_ (fun _ _ => Iff.rfl) ?_ h.dy_inj (fun _ _ h => h)
    ?_ h.lock
  · intro x hx
    rcases List.mem_cons.1 hx with rfl | hx
    · exact ho
    · exact h.held x hx
  · intro t' i hd
    have h1 := h.dy t' i hd
    refine ⟨h1.1, ?_⟩
    have h2 := hcn i
    rw [h1.2, if_neg (by rintro rfl; omega)] at h2
    exact_mod_cast h2
  · intro i hir hz
    have h2 := hcn i
    rw [hz] at h2
    refine h.zero i hir ?_
    split_ifs at h2 <;> push_cast at h2 <;> omega

theorem inv_give {s s' : State κ} (h : Inv s) {t t' o : ℕ}
    (hs : step s (.give t t' o) = some s') : Inv s' := by
  simp only [step] at hs
  split_ifs at hs with hi
  cases hs
  obtain ⟨hpc, hm⟩ := hi
  have hc : ∀ i, ({ s with handles := (t', o) :: s.handles.erase (t, o) } : State κ).cnt i
      = s.cnt i := by
    intro i
    unfold State.cnt
    rw [(List.perm_cons_erase hm).countP_eq (fun h => decide (h.2 = i)), List.countP_cons,
      List.countP_cons]
  constructor
  · exact h.notbad
  · intro i x; rw [hc]; exact h.rc i x
  · intro x hx
    rcases List.mem_cons.1 hx with rfl | hx
    · exact h.held (t, o) hm
    · exact h.held x (List.mem_of_mem_erase hx)
  · exact h.fresh
  · exact h.reg_alive
  · exact h.reg_nodup
  · exact h.reg_key
  · exact h.alive
  · exact h.mkA
  · exact h.mk_inj
  · intro t i; rw [hc]; exact h.dy t i
  · exact h.dy_inj
  · exact h.ret
  · intro i; rw [hc]; exact h.zero i
  · exact h.lock

theorem inv_release {s s' : State κ} (h : Inv s) {t o : ℕ}
    (hs : step s (.release t o) = some s') : Inv s' := by
  simp only [step] at hs
  split_ifs at hs with hi h4
  all_goals
    cases hs
    obtain ⟨hpc, hm⟩ := hi
    have ho := h.held _ hm
    have hpos := (cnt_pos_iff s o).2 ⟨t, hm⟩
    obtain ⟨x, hx, hxa⟩ := (isAlive_iff s o).1 (h.reg_alive o ho)
    have hrc := h.rc o x hx hxa
    have hnd : ∀ i, ¬ (s.pc i).dy o := fun i hd => by have := (h.dy i o hd).2; omega
  · have hcn := cnt_erase s (({ s.addRc o (-1) with handles := s.handles.erase (t, o) } :
      State κ).setPc t (.dying o)) t o hm rfl
    have hx4 : x.rc = 4 := by simpa [State.rcOf, hx] using h4
    refine inv_addRc h ho rfl rfl rfl rfl hcn ?_ ?_ ?_ ?_ ?_ ?_ ?_
    · intro x hx; exact h.held x (List.mem_of_mem_erase hx)
    · intro i j
      rw [setPc_pc]; split_ifs with he
      · subst he; rw [hpc]; simp [Pc.mk]
      · rfl
    · intro t' i hd
      rw [setPc_pc] at hd
      split_ifs at hd with he
      · have : i = o := by simpa [Pc.dy, eq_comm] using hd
        subst this
        refine ⟨ho, ?_⟩
        have h2 := hcn i
        rw [if_pos rfl] at h2; rw [hx4] at hrc; 
        exact (fun (n : ℕ) (hn : (n : ℤ) = s.cnt i + -1) => (by omega : n = 0)) _ h2
      · have h1 : (s.pc t').dy i := hd
        refine ⟨(h.dy t' i h1).1, ?_⟩
        have h2 := hcn i
        rw [(h.dy t' i h1).2, if_neg (by rintro rfl; exact hnd _ h1)] at h2
        exact_mod_cast h2
    · intro t1 t2 o' h1 h2
      simp only [setPc_pc] at h1 h2
      split_ifs at h1 h2 with e1 e2 e2
      · rw [e1, e2]
      · have : o' = o := by simpa [Pc.dy, eq_comm] using h1
        exact absurd (this ▸ h2) (hnd _)
      · have : o' = o := by simpa [Pc.dy, eq_comm] using h2
        exact absurd (this ▸ h1) (hnd _)
      · exact h.dy_inj _ _ _ h1 h2
    · intro t' i hr
      rw [setPc_pc] at hr
      split_ifs at hr with he
      exact hr
    · intro i hir hz
      by_cases hio : i = o
      · refine ⟨t, Or.inl ?_⟩; rw [setPc_pc, if_pos rfl, hio]; exact Or.inl rfl
      · have h2 := hcn i
        rw [hz, if_neg hio] at h2
        obtain ⟨t', ht'⟩ := h.zero i hir (by push_cast at h2; omega)
        refine ⟨t', ?_⟩
        rw [setPc_pc, if_neg]; exact ht'
        rintro rfl; rw [hpc] at ht'; simp [Pc.dy] at ht'
    · intro i
      rw [setPc_pc]
      have : (s.addRc o (-1)).lock = some i ↔ _ := h.lock i
      split_ifs with he
      · subst he; rw [hpc] at this
        simp only [Pc.locked] at this ⊢
        simpa using this
      · exact this
  · have hcn := cnt_erase s ({ s.addRc o (-1) with handles := s.handles.erase (t, o) } :
      State κ) t o hm rfl
    have hx4 : x.rc ≠ 4 := by simpa [State.rcOf, hx] using h4
    refine inv_addRc h ho rfl rfl rfl rfl hcn ?_ (fun _ _ => Iff.rfl) ?_ h.dy_inj (fun _ _ h => h)
      ?_ h.lock
    · intro x hx; exact h.held x (List.mem_of_mem_erase hx)
    · intro t' i hd
      have h1 := h.dy t' i hd
      refine ⟨h1.1, ?_⟩
      have h2 := hcn i
      rw [h1.2, if_neg (by rintro rfl; omega)] at h2
      exact_mod_cast h2
    · intro i hir hz
      have h2 := hcn i
      rw [hz] at h2
      refine h.zero i hir ?_
      split_ifs at h2 with hio
      · subst hio; push_cast at h2; omega
      · push_cast at h2; omega

theorem inv_delete {s s' : State κ} (h : Inv s) {t : ℕ} (hs : step s (.delete t) = some s') :
    Inv s' := by
  simp only [step] at hs
  split at hs
  case h_2 => cases hs
  rename_i o hpc
  cases hs
  have hdy : (s.pc t).dy o := Or.inr hpc
  obtain ⟨hor, hco⟩ := h.dy t o hdy
  have hlt : s.lock = some t := (h.lock t).2 ⟨o, Or.inr (Or.inr hpc)⟩
  have hnl : ∀ i, i ≠ t → ¬ (s.pc i).locked := fun i hi hc => by
    have := (h.lock i).2 hc; rw [hlt] at this; cases this; exact hi rfl
  have hnr : ∀ i o', s.pc i ≠ .returning o' := fun i o' hc => by
    by_cases hi : i = t
    · subst hi; rw [hpc] at hc; cases hc
    · exact hnl i hi ⟨o', Or.inr (Or.inl hc)⟩
  have hne : ∀ i, i ∈ s.reg.erase o ↔ i ≠ o ∧ i ∈ s.reg := fun i => h.reg_nodup.mem_erase_iff
  constructor
  · simp [State.kill, h.notbad, h.reg_alive o hor, hor]
  · intro i x hx ha
    exact h.rc i x (kill_some hx ha).2 ha
  · intro x hx
    refine (hne _).2 ⟨?_, h.held x hx⟩
    intro he
    have : 0 < s.cnt o := (cnt_pos_iff s o).2 ⟨x.1, by rw [← he]; exact hx⟩
    omega
  · intro i hi; exact (kill_none s o i).2 (h.fresh i hi)
  · intro i hi
    obtain ⟨h1, h2⟩ := (hne i).1 hi
    show (s.kill o).isAlive i = true
    rw [kill_alive, if_neg h1]; exact h.reg_alive i h2
  · exact h.reg_nodup.erase o
  · intro a ha b hb hk
    refine h.reg_key a ((hne a).1 ha).2 b ((hne b).1 hb).2 ?_
    have h1 : (s.kill o).keyOf a = (s.kill o).keyOf b := hk
    rwa [kill_key, kill_key] at h1
  · intro i hi
    have h1 : (s.kill o).isAlive i = true := hi
    rw [kill_alive] at h1
    split_ifs at h1 with hio
    rcases h.alive i h1 with hr | ⟨t', ht'⟩
    · exact Or.inl ((hne i).2 ⟨hio, hr⟩)
    · right; refine ⟨t', ?_⟩
      rw [setPc_pc, if_neg]; exact ht'
      rintro rfl; rw [hpc] at ht'; simp [Pc.mk] at ht'
  · intro t' i hm
    rw [setPc_pc] at hm
    split_ifs at hm with he
    · simp [Pc.mk] at hm
    · have := h.mkA t' i hm
      have hio : i ≠ o := fun hh => this.2 (hh ▸ hor)
      refine ⟨?_, fun hc => this.2 ((hne i).1 hc).2⟩
      show (s.kill o).isAlive i = true
      rw [kill_alive, if_neg hio]; exact this.1
  · intro t1 t2 o' h1 h2
    simp only [setPc_pc] at h1 h2
    split_ifs at h1 h2 with e1 e2 e2
    · rw [e1, e2]
    · simp [Pc.mk] at h1
    · simp [Pc.mk] at h2
    · exact h.mk_inj _ _ _ h1 h2
  · intro t' i hd
    rw [setPc_pc] at hd
    split_ifs at hd with he
    · simp [Pc.dy] at hd
    · have h1 := h.dy t' i hd
      exact ⟨(hne i).2 ⟨fun hh => he (h.dy_inj _ _ _ hd (hh ▸ hdy)), h1.1⟩, h1.2⟩
  · intro t1 t2 o' h1 h2
    simp only [setPc_pc] at h1 h2
    split_ifs at h1 h2 with e1 e2 e2
    · rw [e1, e2]
    · simp [Pc.dy] at h1
    · simp [Pc.dy] at h2
    · exact h.dy_inj _ _ _ h1 h2
  · intro t' i hr
    rw [setPc_pc] at hr
    split_ifs at hr with he
    exact absurd hr (hnr _ _)
  · intro i hi hc
    obtain ⟨h1, h2⟩ := (hne i).1 hi
    obtain ⟨t', ht'⟩ := h.zero i h2 hc
    refine ⟨t', ?_⟩
    rw [setPc_pc, if_neg]; exact ht'
    rintro rfl; rw [hpc] at ht'; simp [Pc.dy] at ht'; exact h1 ht'.symm
  · intro i
    rw [setPc_pc]
    show (none = some i) ↔ _
    split_ifs with he
    · simp [Pc.locked]
    · simp only [reduceCtorEq, false_iff]; exact hnl i he

theorem inv_step {s s' : State κ} (h : Inv s) {a : Act κ} (hs : step s a = some s')
    (hc : ∀ t, a = .finish t → ∀ o, s.pc t = .returning o → ∀ t', s.pc t' ≠ .dying o) :
    Inv s' := by
  cases a with
  | new t k => exact inv_new h hs
  | lock t => exact inv_lock h hs
  | lookup t => exact inv_lookup h hs
  | finish t =>
    refine inv_finish h hs fun o ho t' hd => ?_
    rcases hd with hd | hd
    · exact hc t rfl o ho t' hd
    · have h1 := (h.lock t').2 ⟨o, Or.inr (Or.inr hd)⟩
      have h2 := (h.lock t).2 ⟨o, Or.inr (Or.inl ho)⟩
      rw [h1] at h2; cases h2
      rw [ho] at hd; cases hd
  | copy t o => exact inv_copy h hs
  | give t t' o => exact inv_give h hs
  | release t o => exact inv_release h hs
  | delete t => exact inv_delete h hs

theorem inv_run {s s' : State κ} (h : Inv s) {as : List (Act κ)} (hs : run s as = some s')
    (hc : Careful s as) : Inv s' := by
  induction as generalizing s with
  | nil => cases hs; exact h
  | cons a as ih =>
    simp only [run, Option.bind_eq_some_iff] at hs
    obtain ⟨s1, h1, h2⟩ := hs
    exact ih (inv_step h h1 hc.1) h2 (hc.2 s1 h1)

end EAntic.Registry

namespace EAntic.Registry

variable {κ : Type} [DecidableEq κ]

/-- the thread of a step -/
def Act.tid : Act κ → ℕ
  | .new t _ | .lock t | .lookup t | .finish t | .copy t _ | .give t _ _ | .release t _
  | .delete t => t

theorem step_pc_other {s s' : State κ} {a : Act κ} (hs : step s a = some s') {t : ℕ}
    (ht : t ≠ a.tid) : s'.pc t = s.pc t := by
  cases a <;> simp only [step] at hs <;> simp only [Act.tid] at ht
  case new => split_ifs at hs; cases hs; rw [setPc_pc, if_neg ht]
  case lock =>
    split_ifs at hs
    split at hs
    · cases hs; rw [setPc_pc, if_neg ht]
    · cases hs; rw [setPc_pc, if_neg ht]
    · cases hs
  case lookup =>
    split at hs
    · split at hs
      · cases hs; rw [setPc_pc, if_neg ht]
      · cases hs; rw [setPc_pc, if_neg ht]; rfl
    · cases hs
  case finish =>
    split at hs
    · cases hs; rw [setPc_pc, if_neg ht]; rfl
    · cases hs
  case copy => split_ifs at hs; cases hs; rfl
  case give => split_ifs at hs; cases hs; rfl
  case release =>
    split_ifs at hs
    · cases hs; rw [setPc_pc, if_neg ht]; rfl
    · cases hs; rfl
  case delete =>
    split at hs
    · cases hs; rw [setPc_pc, if_neg ht]; rfl
    · cases hs

/-- No thread but thread 0 is inside an operation. -/
def Only0 (s : State κ) : Prop := ∀ t, t ≠ 0 → s.pc t = .idle

theorem careful_only0 {s : State κ} (h : Only0 s) {as : List (Act κ)}
    (ha : ∀ a ∈ as, a.tid = 0) : Careful s as := by
  induction as generalizing s with
  | nil => trivial
  | cons a as ih =>
    refine ⟨?_, ?_⟩
    · intro t hat o ho t' hd
      have ht : t = 0 := by have := ha a (by simp); rw [hat] at this; exact this
      by_cases h0 : t' = 0
      · rw [h0, ← ht, ho] at hd; cases hd
      · rw [h t' h0] at hd; cases hd
    · intro s' hs
      refine ih (fun t ht => ?_) (fun a ha' => ha a (by simp [ha']))
      rw [step_pc_other hs (by rw [ha a (by simp)]; exact ht)]; exact h t ht

theorem only0_run {s s' : State κ} (h : Only0 s) {as : List (Act κ)}
    (ha : ∀ a ∈ as, a.tid = 0) (hs : run s as = some s') : Only0 s' := by
  induction as generalizing s with
  | nil => cases hs; exact h
  | cons a as ih =>
    simp only [run, Option.bind_eq_some_iff] at hs
    obtain ⟨s1, h1, h2⟩ := hs
    refine ih (fun t ht => ?_) (fun a ha' => ha a (by simp [ha'])) h2
    rw [step_pc_other h1 (by rw [ha a (by simp)]; exact ht)]; exact h t ht

/-- Between operations of a single thread. -/
structure Quiet (s : State κ) : Prop where
  inv : Inv s
  idle : ∀ t, s.pc t = .idle
  own : ∀ x ∈ s.handles, x.1 = 0

theorem quiet_init : Quiet (init : State κ) := ⟨inv_init, fun _ => rfl, by simp [init]⟩

theorem Quiet.lock {s : State κ} (h : Quiet s) : s.lock = none := by
  cases hl : s.lock with
  | none => rfl
  | some t =>
    have := (h.inv.lock t).1 hl
    rw [h.idle] at this; simp [Pc.locked] at this

theorem Quiet.alive_iff {s : State κ} (h : Quiet s) (o : ℕ) :
    s.isAlive o = true ↔ (0, o) ∈ s.handles := by
  constructor
  · intro ha
    rcases h.inv.alive o ha with hr | ⟨t, ht⟩
    · by_contra hn
      have hc : s.cnt o = 0 := by
        by_contra hc
        obtain ⟨t, ht⟩ := (cnt_pos_iff s o).1 (Nat.pos_of_ne_zero hc)
        have := h.own _ ht
        simp only at this; subst this; exact hn ht
      obtain ⟨t, ht⟩ := h.inv.zero o hr hc
      rw [h.idle] at ht; simp [Pc.dy] at ht
    · rw [h.idle] at ht; simp [Pc.mk] at ht
  · intro hm; exact h.inv.reg_alive o (h.inv.held _ hm)

theorem Quiet.reg_iff {s : State κ} (h : Quiet s) (o : ℕ) :
    o ∈ s.reg ↔ s.isAlive o = true := by
  refine ⟨h.inv.reg_alive o, fun ha => ?_⟩
  rcases h.inv.alive o ha with hr | ⟨t, ht⟩
  · exact hr
  · rw [h.idle] at ht; simp [Pc.mk] at ht

/-- what `make` does in a quiet state -/
theorem make_quiet {s : State κ} (h : Quiet s) (k : κ) : ∃ s' o, seqStep s (.make k) = some s' ∧
    Quiet s' ∧ s'.handles = (0, o) :: s.handles ∧ s'.keyOf o = some k ∧
    (∀ i, i < s.next → s'.isAlive i = s.isAlive i ∧ s'.keyOf i = s.keyOf i) ∧
    s.next ≤ s'.next := by
  have hal : ∀ a ∈ [Act.new 0 k, .lock 0, .lookup 0, .finish 0], a.tid = 0 := by
    simp [Act.tid]
  have hpc : s.pc 0 = .idle := h.idle 0
  have hlk := h.lock
  have hf := h.inv.fresh s.next le_rfl
  have hlt : ∀ i ∈ s.reg, i ≠ s.next := fun i hi he => by
    have := h.inv.reg_alive i hi
    rw [he] at this; simp [State.isAlive, hf] at this
  -- the state in which the lookup takes place
  let s1 : State κ := { s with
      objs := fun i => if i = s.next then some ⟨k, 3, true⟩ else s.objs i
      next := s.next + 1
      lock := some 0
      pc := fun i => if i = 0 then .making1 s.next else if i = 0 then .making s.next else s.pc i }
  have hk1 : s1.keyOf s.next = some k := by simp [s1, State.keyOf]
  have hk2 : ∀ i, i ≠ s.next → s1.keyOf i = s.keyOf i := fun i hi => by
    simp [s1, State.keyOf, hi]
  have ha1 : s1.isAlive s.next = true := by simp [s1, State.isAlive]
  have ha2 : ∀ i, i ≠ s.next → s1.isAlive i = s.isAlive i := fun i hi => by
    simp [s1, State.isAlive, hi]
  have hp1 : s1.pc 0 = .making1 s.next := rfl
  have hstep : seqStep s (.make k) = (step s1 (.lookup 0)).bind fun s2 =>
      (step s2 (.finish 0)).bind fun s3 => some s3 := by
    show run s [.new 0 k, .lock 0, .lookup 0, .finish 0] = _
    have e1 : step s (.new 0 k) = some ({ s with
        objs := fun i => if i = s.next then some ⟨k, 3, true⟩ else s.objs i
        next := s.next + 1 } |>.setPc 0 (.making s.next)) := by
      simp only [step]; rw [if_pos hpc]
    simp only [run]
    rw [e1, Option.bind_some]
    have e2 : step (({ s with
        objs := fun i => if i = s.next then some ⟨k, 3, true⟩ else s.objs i
        next := s.next + 1 } : State κ).setPc 0 (.making s.next)) (.lock 0) = some s1 := by
      simp only [step]; rw [if_pos (by exact hlk)]
      simp only [setPc_pc, if_true]; rfl
    rw [e2, Option.bind_some]
  cases hfind : s1.reg.find? (fun o' => s1.keyOf o' = s1.keyOf s.next) with
  | none =>
    have e3 : step s1 (.lookup 0) = some (State.setPc { s1 with reg := s.next :: s1.reg } 0
        (.returning s.next)) := by
      simp only [step, hp1, hfind]
    have e4 : seqStep s (.make k) = some (State.setPc { (State.setPc { s1 with
        reg := s.next :: s1.reg } 0 (.returning s.next)).addRc s.next 1 with
          handles := (0, s.next) :: s.handles
          lock := none } 0 .idle) := by
      rw [hstep, e3, Option.bind_some]
      rfl
    refine ⟨_, s.next, e4, ⟨inv_run h.inv e4 (careful_only0 (fun t _ => h.idle t) hal), ?_, ?_⟩,
      rfl, ?_, ?_, Nat.le_succ _⟩
    · intro t
      simp only [setPc_pc, State.addRc, s1]
      split_ifs
      · rfl
      · exact h.idle t
    · intro x hx
      rcases List.mem_cons.1 hx with rfl | hx
      · rfl
      · exact h.own x hx
    · show ((State.setPc { s1 with reg := s.next :: s1.reg } 0
        (.returning s.next)).addRc s.next 1).keyOf s.next = _
      rw [addRc_key]; exact hk1
    · intro i hi
      constructor
      · show ((State.setPc { s1 with reg := s.next :: s1.reg } 0
          (.returning s.next)).addRc s.next 1).isAlive i = _
        rw [addRc_alive]; exact ha2 i (by omega)
      · show ((State.setPc { s1 with reg := s.next :: s1.reg } 0
          (.returning s.next)).addRc s.next 1).keyOf i = _
        rw [addRc_key]; exact hk2 i (by omega)
  | some o1 =>
    have ho1 : o1 ∈ s.reg := List.mem_of_find?_eq_some hfind
    have hko : s1.keyOf o1 = some k := by
      have := List.find?_some hfind
      rw [hk1] at this; simpa using this
    have e3 : step s1 (.lookup 0) = some (State.setPc { s1.kill s.next with
        bad := (s1.kill s.next).bad || !s1.isAlive o1 } 0 (.returning o1)) := by
      simp only [step, hp1, hfind]
    have e4 : seqStep s (.make k) = some (State.setPc { (State.setPc { s1.kill s.next with
        bad := (s1.kill s.next).bad || !s1.isAlive o1 } 0 (.returning o1)).addRc o1 1 with
          handles := (0, o1) :: s.handles
          lock := none } 0 .idle) := by
      rw [hstep, e3, Option.bind_some]
      rfl
    refine ⟨_, o1, e4, ⟨inv_run h.inv e4 (careful_only0 (fun t _ => h.idle t) hal), ?_, ?_⟩,
      rfl, ?_, ?_, Nat.le_succ _⟩
    · intro t
      simp only [setPc_pc, State.addRc, State.kill, s1]
      split_ifs
      · rfl
      · exact h.idle t
    · intro x hx
      rcases List.mem_cons.1 hx with rfl | hx
      · rfl
      · exact h.own x hx
    · show ((State.setPc { s1.kill s.next with
        bad := (s1.kill s.next).bad || !s1.isAlive o1 } 0 (.returning o1)).addRc o1 1).keyOf o1 = _
      rw [addRc_key]
      show (s1.kill s.next).keyOf o1 = _
      rw [kill_key]; exact hko
    · intro i hi
      constructor
      · show ((State.setPc { s1.kill s.next with
          bad := (s1.kill s.next).bad || !s1.isAlive o1 } 0 (.returning o1)).addRc o1 1).isAlive i
            = _
        rw [addRc_alive]
        show (s1.kill s.next).isAlive i = _
        rw [kill_alive, if_neg (by omega)]; exact ha2 i (by omega)
      · show ((State.setPc { s1.kill s.next with
          bad := (s1.kill s.next).bad || !s1.isAlive o1 } 0 (.returning o1)).addRc o1 1).keyOf i
            = _
        rw [addRc_key]
        show (s1.kill s.next).keyOf i = _
        rw [kill_key]; exact hk2 i (by omega)

/-- what copying a handle does in a quiet state -/
theorem copy_quiet {s s' : State κ} (h : Quiet s) {o : ℕ}
    (hs : seqStep s (.copy o) = some s') : Quiet s' ∧ (0, o) ∈ s.handles ∧
      s'.handles = (0, o) :: s.handles ∧
      (∀ i, s'.isAlive i = s.isAlive i ∧ s'.keyOf i = s.keyOf i) ∧ s'.next = s.next := by
  have hs' : step s (.copy 0 o) = some s' := hs
  have hi := inv_copy h.inv hs'
  simp only [step] at hs'
  split_ifs at hs' with hc
  cases hs'
  refine ⟨⟨hi, h.idle, ?_⟩, hc.2, rfl, ?_, rfl⟩
  · intro x hx
    rcases List.mem_cons.1 hx with rfl | hx
    · rfl
    · exact h.own x hx
  · intro i; exact ⟨addRc_alive s o 1 i, addRc_key s o 1 i⟩

/-- what releasing a handle does in a quiet state -/
theorem release_quiet {s s' : State κ} (h : Quiet s) {o : ℕ}
    (hs : seqStep s (.release o) = some s') : Quiet s' ∧ (0, o) ∈ s.handles ∧
      s'.handles = s.handles.erase (0, o) ∧
      (∀ i, (i ≠ o → s'.isAlive i = s.isAlive i) ∧ s'.keyOf i = s.keyOf i) ∧
      s'.next = s.next := by
  simp only [seqStep, Option.bind_eq_some_iff] at hs
  obtain ⟨s1, h1, h2⟩ := hs
  have hi1 := inv_release h.inv h1
  simp only [step] at h1
  split_ifs at h1 with hc h4
  · cases h1
    rw [if_neg (by rw [setPc_pc, if_pos rfl]; simp)] at h2
    have hi2 := inv_run hi1 h2 (careful_only0 (fun t ht => by
      rw [setPc_pc, if_neg ht]; exact h.idle t) (by simp [Act.tid]))
    simp only [run, Option.bind_eq_some_iff] at h2
    obtain ⟨s2, h2, s3, h3, h4'⟩ := h2
    have e2 : some s2 = some (State.setPc { (State.setPc { s.addRc o (-1) with
        handles := s.handles.erase (0, o) } 0 (.dying o)) with lock := some 0 } 0 (.dying1 o)) := by
      rw [← h2]; simp only [step]
      rw [if_pos (by exact h.lock)]
      simp only [setPc_pc, if_true]
    cases e2
    have e3 : some s3 = step _ _ := h3.symm
    simp only [step, setPc_pc, if_true, Option.some.injEq] at e3
    cases h4'
    subst e3
    refine ⟨⟨hi2, ?_, ?_⟩, hc.2, rfl, ?_, rfl⟩
    · intro t
      simp only [setPc_pc, State.kill, State.addRc]
      split_ifs
      · rfl
      · exact h.idle t
    · intro x hx; exact h.own x (List.mem_of_mem_erase hx)
    · intro i
      constructor
      · intro hio
        refine (kill_alive _ o i).trans ?_
        rw [if_neg hio]
        exact addRc_alive s o (-1) i
      · refine (kill_key _ o i).trans ?_
        exact addRc_key s o (-1) i
  · cases h1
    rw [if_pos (by exact h.idle 0)] at h2
    cases h2
    refine ⟨⟨hi1, h.idle, ?_⟩, hc.2, rfl, ?_, rfl⟩
    · intro x hx; exact h.own x (List.mem_of_mem_erase hx)
    · intro i
      exact ⟨fun _ => addRc_alive s o (-1) i, addRc_key s o (-1) i⟩

theorem quiet_step {s s' : State κ} (h : Quiet s) {a : Op κ} (hs : seqStep s a = some s') :
    Quiet s' := by
  cases a with
  | make k =>
    obtain ⟨s1, o, h1, h2, _⟩ := make_quiet h k
    rw [h1] at hs; cases hs; exact h2
  | copy o => exact (copy_quiet h hs).1
  | release o => exact (release_quiet h hs).1

theorem quiet_run {s s' : State κ} (h : Quiet s) {as : List (Op κ)} (hs : seqRun s as = some s') :
    Quiet s' := by
  induction as generalizing s with
  | nil => cases hs; exact h
  | cons a as ih =>
    simp only [seqRun, Option.bind_eq_some_iff] at hs
    obtain ⟨s1, h1, h2⟩ := hs
    exact ih (quiet_step h h1) h2

theorem dead_step {s s' : State κ} (h : Quiet s) {a : Op κ} (hs : seqStep s a = some s') {o : ℕ}
    (ho : o < s.next) (hd : s.isAlive o = false) : o < s'.next ∧ s'.isAlive o = false := by
  cases a with
  | make k =>
    obtain ⟨s1, o1, h1, h2, h3, h4, h5, h6⟩ := make_quiet h k
    rw [h1] at hs; cases hs
    exact ⟨by omega, by rw [(h5 o ho).1]; exact hd⟩
  | copy o1 =>
    obtain ⟨_, _, _, h1, h2⟩ := copy_quiet h hs
    exact ⟨by omega, by rw [(h1 o).1]; exact hd⟩
  | release o1 =>
    obtain ⟨_, hm, _, h1, h2⟩ := release_quiet h hs
    refine ⟨by omega, ?_⟩
    rw [(h1 o).1]; · exact hd
    rintro rfl
    rw [(h.alive_iff _).2 hm] at hd; cases hd

theorem dead_run {s s' : State κ} (h : Quiet s) {as : List (Op κ)} (hs : seqRun s as = some s')
    {o : ℕ} (ho : o < s.next) (hd : s.isAlive o = false) : s'.isAlive o = false := by
  induction as generalizing s with
  | nil => cases hs; exact hd
  | cons a as ih =>
    simp only [seqRun, Option.bind_eq_some_iff] at hs
    obtain ⟨s1, h1, h2⟩ := hs
    have := dead_step h h1 ho hd
    exact ih (quiet_step h h1) h2 this.1 this.2

theorem keeps_careful {s : State κ} (h : Inv s) (hd : ∀ t o, ¬ (s.pc t).dy o)
    {as : List (Act κ)} (hk : Keeps s as) : Careful s as := by
  induction as generalizing s with
  | nil => trivial
  | cons a as ih =>
    have hc : ∀ t, a = .finish t → ∀ o, s.pc t = .returning o → ∀ t', s.pc t' ≠ .dying o :=
      fun _ _ o _ t' hh => hd t' o (Or.inl hh)
    refine ⟨hc, fun s' hs => ?_⟩
    have hi := inv_step h hs hc
    refine ih hi (fun t o hdy => ?_) (hk.2 s' hs)
    by_cases ht : t = a.tid
    · subst ht
      cases a <;> simp only [step] at hs <;> simp only [Act.tid] at hdy
      case new => split_ifs at hs; cases hs; rw [setPc_pc, if_pos rfl] at hdy; simp [Pc.dy] at hdy
      case lock t =>
        split_ifs at hs
        split at hs
        · cases hs; rw [setPc_pc, if_pos rfl] at hdy; simp [Pc.dy] at hdy
        · rename_i o' ho'; exact hd t o' (Or.inl ho')
        · cases hs
      case lookup =>
        split at hs
        · split at hs <;> cases hs <;> rw [setPc_pc, if_pos rfl] at hdy <;> simp [Pc.dy] at hdy
        · cases hs
      case finish =>
        split at hs
        · cases hs; rw [setPc_pc, if_pos rfl] at hdy; simp [Pc.dy] at hdy
        · cases hs
      case copy => split_ifs at hs; cases hs; exact hd _ _ hdy
      case give => split_ifs at hs; cases hs; exact hd _ _ hdy
      case release t o1 =>
        obtain ⟨x, hx, hxo⟩ := hk.1 t o1 rfl
        split_ifs at hs with hm h4
        · cases hs
          rw [setPc_pc, if_pos rfl] at hdy
          have hoo : o = o1 := by simpa [Pc.dy, eq_comm] using hdy
          subst hoo
          have := (hi.dy t o (by rw [setPc_pc, if_pos rfl]; exact Or.inl rfl)).2
          have hx' : (x.1, o) ∈ s.handles.erase (t, o) := by
            have e : x = (x.1, o) := by rw [← hxo]
            rw [← e]; exact hx
          have h0 := (cnt_pos_iff (State.setPc { s.addRc o (-1) with
              handles := s.handles.erase (t, o) } t (.dying o)) o).2 ⟨x.1, hx'⟩
          exact absurd this (Nat.pos_iff_ne_zero.1 h0)
        · cases hs; exact hd _ _ hdy
      case delete =>
        split at hs
        · cases hs; rw [setPc_pc, if_pos rfl] at hdy; simp [Pc.dy] at hdy
        · cases hs
    · rw [step_pc_other hs ht] at hdy; exact hd _ _ hdy

end EAntic.Registry
