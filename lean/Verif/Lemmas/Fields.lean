import Verif.Lemmas.NearDouble
import Verif.Lemmas.Ops
import Verif.Spec.Fields

/-! # The registry of fields with its concrete keys -/

namespace EAntic

/-- a call leaves the elements alone that it does not assign to -/
theorem Step.keeps {K : Nf} {α : ℝ} {v v' : ℕ → ℝ} {op : Op} {ans : Ans} (h : Step K α v op ans v')
    {n : ℕ} (hn : ¬ op.assigns n) : v' n = v n := by
  cases op <;> simp only [Step, Op.assigns, not_or] at h hn
  case getCfrac => rw [h.1, Function.update_of_ne hn]
  case swap => rw [h.2, Function.update_of_ne hn.2, Function.update_of_ne hn.1]
  all_goals first
    | rw [h.2, Function.update_of_ne hn]
    | rw [h.2.2, Function.update_of_ne hn]
    | rw [h.1]
    | rw [h.2]

namespace Fields

open Cxx (NearDouble nearDouble_unique)

/-- The object is a field at `α` and its cached elements are what they should be; the enclosures
satisfy `P`. -/
def SoundP (P : Nf → ℝ → Field → Prop) (c : Class) (α : ℝ) : Prop :=
  ∃ I, FieldInv c.E α I ∧ (∀ f, I f → P c.K α f) ∧ ∃ v, Rep c.K α I v c.mem ∧
    v (.user 0) = 0 ∧ v (.user 1) = 1 ∧ v (.user 2) = genValue c.K α

variable {P : Nf → ℝ → Field → Prop}

/-- with clear enclosures -/
abbrev Sound : Class → ℝ → Prop := SoundP Clear

theorem SoundP.nf {c : Class} {α : ℝ} (h : SoundP P c α) : c.mem.fld.nf = c.K := by
  obtain ⟨I, hE, -, v, hv, -⟩ := h
  exact hE.nf hv.inv

theorem SoundP.mem {c : Class} {α : ℝ} (h : SoundP P c α) : α ∈ c.mem.fld.emb := by
  obtain ⟨I, hE, -, v, hv, -⟩ := h
  exact hE.enc hv.inv

theorem SoundP.root {c : Class} {α : ℝ} (h : SoundP P c α) : c.K.IsRoot α := by
  obtain ⟨I, hE, -, v, hv, -⟩ := h
  exact hE.root

theorem SoundP.clear {c : Class} {α : ℝ} (h : Sound c α) : Clear c.K α c.mem.fld := by
  obtain ⟨I, hE, hI, v, hv, -⟩ := h
  exact hI _ hv.inv

theorem exec_keeps {c : Class} {α : ℝ} (h : SoundP P c α) {op : EAntic.Op} (hop : ∀ n < 3, ¬ op.assigns n)
    {p : Ans × Mem} (e : c.E.exec op c.mem = .ok p) : SoundP P { c with mem := p.2 } α := by
  obtain ⟨I, hE, hI, v, hv, h0, h1, h2⟩ := h
  obtain ⟨v', hv', hs⟩ := exec_spec hE op v c.mem p.1 p.2 hv e
  exact ⟨I, hE, hI, v', hv', (hs.keeps (hop 0 (by norm_num))).trans h0,
    (hs.keeps (hop 1 (by norm_num))).trans h1, (hs.keeps (hop 2 (by norm_num))).trans h2⟩

theorem hash_keeps {c c' : Class} {α : ℝ} {d : Dbl} (h : SoundP P c α) (e : c.hash = .ok (d, c')) :
    NearDouble (genValue c.K α) d ∧ ∃ m, c' = { c with mem := m } ∧ SoundP P c' α := by
  obtain ⟨I, hE, hI, v, hv, h0, h1, h2⟩ := h
  obtain ⟨p, e1, e2⟩ := Res.bind_eq_ok.1 e
  have k1 := getD_spec hE (a := .user 2) (by simp) .near c.mem p.1 p.2 hv e1
  have k2 := getD_rounds hE (a := .user 2) (by simp) .near c.mem p.1 p.2 hv e1
  rw [h2] at k1 k2
  injection e2 with e2
  injection e2 with e2 e3
  subst e2 e3
  exact ⟨⟨k1.2.1, k1.2.2.1, k1.2.2.2.1, k1.2.2.2.2, k2.2⟩, p.2, rfl, I, hE, hI, v, k1.1, h0, h1, h2⟩

theorem create_sound {k : NamedField} {E : Env k.field.nf} {α : ℝ}
    (h : ∃ I, FieldInv E α I ∧ I (renfInitSet k.field) ∧ ∀ f, I f → P k.field.nf α f) {c : Class} (e : create k E = .ok c) :
    ∃ m, c = ⟨k.field.nf, E, k.den, k.name, m⟩ ∧ SoundP P c α := by
  obtain ⟨I, hE, hf, hI⟩ := h
  obtain ⟨p, e1, e2⟩ := Res.bind_eq_ok.1 e
  injection e2 with e2
  subst e2
  refine ⟨p.2, rfl, I, hE, hI, ?_⟩
  obtain ⟨_, s1, a1, e1⟩ := M.bind_ok.1 e1
  obtain ⟨_, s2, a2, e1⟩ := M.bind_ok.1 e1
  obtain ⟨_, s3, a3, e1⟩ := M.bind_ok.1 e1
  have h0 : Rep k.field.nf α I (fun _ => 0)
      ⟨renfInitSet k.field, fun _ => ⟨NfElem.init k.field.nf, Ball.exact 0⟩⟩ :=
    ⟨hf, fun _ => init_wf hE.ok, fun _ => init_val, fun _ => Ball.mem_exact.2 (by simp)⟩
  have h1 := zero_spec hE (.user 0) _ _ _ h0 a1
  have h2 := setZ_spec hE (.user 1) 1 _ _ _ h1 a2
  have h3 := zero_spec hE (.user 2) _ _ _ h2 a3
  obtain ⟨v, h4, -, hv⟩ := exec_spec hE (.gen 2) _ s3 .unit p.2 h3 (M.bind_ok.2 ⟨_, _, e1, rfl⟩)
  refine ⟨v, h4, ?_, ?_, ?_⟩
  · simpa [usr, upd] using congrFun hv 0
  · simpa [usr, upd] using congrFun hv 1
  · simpa [usr, upd] using congrFun hv 2

/-- overlapping clear enclosures are of the same root -/
theorem clear_overlap {K : Nf} {α β : ℝ} {f f' : Field} (hα : K.IsRoot α) (hβ : K.IsRoot β)
    (h1 : α ∈ f.emb) (h2 : β ∈ f'.emb) (c1 : Clear K α f) (c2 : Clear K β f')
    (ho : f.emb.overlaps f'.emb = true) : α = β := by
  rcases c1 with c1 | ⟨m, r, e1, c1⟩
  · exact (c1 β hβ).symm
  rcases c2 with c2 | ⟨m', r', e2, c2⟩
  · exact c2 α hα
  by_contra hne
  have k1 := c1 β hβ (Ne.symm hne)
  have k2 := c2 α hα hne
  rw [abs_sub_comm] at k1
  rw [e1, e2] at ho
  rw [e1] at h1
  rw [e2] at h2
  simp only [Ball.overlaps, decide_eq_true_eq] at ho
  have g1 : (m : ℝ) - r ≤ m' + r' := by exact_mod_cast ho.1
  have g2 : (m' : ℝ) - r' ≤ m + r := by exact_mod_cast ho.2
  rw [Ball.mem_fin] at h1 h2
  rcases abs_cases (α - β) with ⟨e, _⟩ | ⟨e, _⟩ <;> rw [e] at k1 k2 <;>
    linarith [h1.1, h1.2, h2.1, h2.2]

/-- what `fields_equality` decides, for clear enclosures -/
theorem same_iff {c c' : Class} {α β : ℝ} (h : Sound c α) (h' : Sound c' β) :
    c.same c' = true ↔ c.K = c'.K ∧ c.den = c'.den ∧ c.name = c'.name ∧ α = β := by
  simp only [Class.same, renfEqual, Bool.and_eq_true, decide_eq_true_eq, h.nf, h'.nf]
  constructor
  · rintro ⟨⟨⟨h1, h2⟩, h3⟩, h4⟩
    have hK : c.K = c'.K := by
      cases hc : c.K; cases hc' : c'.K; rw [hc, hc'] at h1; exact congrArg _ h1
    have r' := h'.root
    have c' := h'.clear
    rw [← hK] at r' c'
    exact ⟨hK, h2, h4, clear_overlap h.root r' h.mem h'.mem h.clear c' h3⟩
  · rintro ⟨h1, h2, h3, rfl⟩
    exact ⟨⟨⟨by rw [h1], h2⟩, Ball.overlaps_of_mem h.mem h'.mem⟩, h3⟩

/-- a clear enclosure contains one root -/
theorem SoundP.unique {c : Class} {α β : ℝ} (h : Sound c α) (hβ : c.K.IsRoot β)
    (hm : β ∈ c.mem.fld.emb) : β = α := by
  have h1 := h.mem
  rcases h.clear with hc | ⟨m, r, e, hc⟩
  · exact hc β hβ
  · by_contra hne
    have k := hc β hβ hne
    rw [e] at hm h1
    rw [Ball.mem_fin] at hm h1
    rcases abs_cases (β - α) with ⟨e, _⟩ | ⟨e, _⟩ <;> rw [e] at k <;>
      linarith [h1.1, h1.2, hm.1, hm.2]

/-- What holds between operations. -/
structure Inv (root : ℕ → ℝ) (s : State) : Prop where
  sound : ∀ o c, s.objs o = some c → Sound c (root o)
  alive : ∀ o, (∃ c, s.objs o = some c) ↔ o ∈ s.handles
  listed : ∀ o, o ∈ s.handles ↔ ∃ d, (o, d) ∈ s.reg
  nodup : (s.reg.map (·.1)).Nodup
  key : ∀ o d c, (o, d) ∈ s.reg → s.objs o = some c → NearDouble (genValue c.K (root o)) d
  fresh : ∀ o ∈ s.handles, o < s.next
  unique : ∀ o o' c c', s.objs o = some c → s.objs o' = some c' → c.K = c'.K → c.den = c'.den →
    c.name = c'.name → root o = root o' → o = o'

theorem inv_init : Inv (fun _ => 0) State.init where
  sound := by simp [State.init]
  alive := by simp [State.init]
  listed := by simp [State.init]
  nodup := by simp [State.init]
  key := by simp [State.init]
  fresh := by simp [State.init]
  unique := by simp [State.init]

variable {bk : Dbl → ℕ} {root : ℕ → ℝ} {s s' : State}

/-- a search finds the field with the same name, polynomial and root -/
theorem find_some (hs : Inv root s) {c : Class} {α : ℝ} (hc : Sound c α) {d : Dbl} {e : ℕ × Dbl}
    (h : s.find bk d c = some e) : ∃ c', s.objs e.1 = some c' ∧ c'.K = c.K ∧ c'.den = c.den ∧
      c'.name = c.name ∧ root e.1 = α ∧ e ∈ s.reg := by
  have h1 := List.find?_some h
  have h2 := List.mem_of_find?_eq_some h
  simp only [Bool.and_eq_true] at h1
  cases ho : s.objs e.1 with
  | none => rw [ho] at h1; simp at h1
  | some c' =>
    rw [ho] at h1
    obtain ⟨a1, a2, a3, a4⟩ := (same_iff (hs.sound _ _ ho) hc).1 h1.2
    exact ⟨c', rfl, a1, a2, a3, a4, h2⟩

theorem find_none (hs : Inv root s) {c : Class} {α : ℝ} (hc : Sound c α) {d : Dbl}
    (hd : NearDouble (genValue c.K α) d) (h : s.find bk d c = none) {o : ℕ} {c' : Class}
    (ho : s.objs o = some c') : ¬ (c'.K = c.K ∧ c'.den = c.den ∧ c'.name = c.name ∧ root o = α) := by
  intro hh
  obtain ⟨d', hd'⟩ := (hs.listed o).1 ((hs.alive o).1 ⟨c', ho⟩)
  have h1 := List.find?_eq_none.1 h _ hd'
  have h2 := hs.key o d' c' hd' ho
  rw [hh.1, hh.2.2.2] at h2
  rw [nearDouble_unique hd h2] at h1
  rw [ho] at h1
  apply h1
  simp only [decide_true, Bool.true_and]
  exact (same_iff (hs.sound _ _ ho) hc).2 hh

theorem inv_put (hs : Inv root s) {o : ℕ} {c : Class} {m : Mem} (ho : s.objs o = some c)
    (hc : Sound { c with mem := m } (root o)) : Inv root (s.put o (some { c with mem := m })) where
  sound o' c' h := by
    simp only [State.put] at h
    split_ifs at h with e
    · subst e; injection h with h; subst h; exact hc
    · exact hs.sound _ _ h
  alive o' := by
    rw [show (s.put o (some { c with mem := m })).handles = s.handles from rfl, ← hs.alive o']
    simp only [State.put]
    split_ifs with e
    · subst e; simp [ho]
    · rfl
  listed := hs.listed
  nodup := hs.nodup
  key o' d c' h1 h := by
    simp only [State.put] at h
    split_ifs at h with e
    · subst e; injection h with h; subst h; exact hs.key _ _ c h1 ho
    · exact hs.key _ _ _ h1 h
  fresh := hs.fresh
  unique o1 o2 c1 c2 h1 h2 := by
    simp only [State.put] at h1 h2
    split_ifs at h1 h2 with e1 e2 e2
    · intros; rw [e1, e2]
    · subst e1; injection h1 with h1; subst h1; exact hs.unique _ _ c _ ho h2
    · subst e2; injection h2 with h2; subst h2; exact hs.unique _ _ _ c h1 ho
    · exact hs.unique _ _ _ _ h1 h2

/-- `make`: the result, and what happened to the other objects -/
theorem step_make (hs : Inv root s) {k : NamedField} {E : Env k.field.nf} {α : ℝ}
    (hk : ClearlyAt k E α) (h : step bk s (.make k E) = .ok s') :
    ∃ root', Inv root' s' ∧ (∀ o ∈ s.handles, root' o = root o) ∧
      ∃ o c, s'.handles = o :: s.handles ∧ s'.objs o = some c ∧ c.K = k.field.nf ∧ c.den = k.den ∧
        c.name = k.name ∧ root' o = α ∧ (∀ o' ≠ o, s'.objs o' = s.objs o') ∧
        (o ∈ s.handles → s'.objs o = s.objs o) := by
  obtain ⟨c, e1, h'⟩ := Res.bind_eq_ok.1 h
  clear h
  obtain ⟨m0, rfl, hc⟩ := create_sound hk e1
  obtain ⟨p, e2, h⟩ := Res.bind_eq_ok.1 h'
  clear h'
  obtain ⟨hd, m, e3, hp⟩ := hash_keeps hc e2
  rw [e3] at h hp
  cases hf : s.find bk p.1 ⟨k.field.nf, E, k.den, k.name, m⟩ with
  | some e =>
    simp only [hf, Res.ok.injEq] at h
    subst h
    obtain ⟨c', a1, a2, a3, a4, a5, a6⟩ := find_some hs hp hf
    have hin := (hs.alive e.1).1 ⟨c', a1⟩
    refine ⟨root, ⟨hs.sound, fun o => ?_, fun o => ?_, hs.nodup, hs.key, fun o ho => ?_, hs.unique⟩,
      fun _ _ => rfl, e.1, c', rfl, a1, a2, a3, a4, a5, fun _ _ => rfl, fun _ => rfl⟩
    · rw [hs.alive o, List.mem_cons]
      exact ⟨.inr, fun h => h.elim (fun h => h ▸ hin) id⟩
    · rw [← hs.listed o, List.mem_cons]
      exact ⟨fun h => h.elim (fun h => h ▸ hin) id, .inr⟩
    · rcases List.mem_cons.1 ho with rfl | ho
      · exact hs.fresh _ hin
      · exact hs.fresh _ ho
  | none =>
    simp only [hf, Res.ok.injEq] at h
    subst h
    have hn : s.next ∉ s.handles := fun h => absurd (hs.fresh _ h) (lt_irrefl _)
    have hr : ∀ o ∈ s.handles, (if o = s.next then α else root o) = root o := by
      intro o ho
      rw [if_neg (by rintro rfl; exact hn ho)]
    have hh : ∀ o c, s.objs o = some c → o ∈ s.handles := fun o c h => (hs.alive o).1 ⟨c, h⟩
    refine ⟨fun i => if i = s.next then α else root i, ⟨?_, ?_, ?_, ?_, ?_, ?_, ?_⟩, hr, s.next,
      ⟨k.field.nf, E, k.den, k.name, m⟩, rfl, by simp [State.put], rfl, rfl, rfl, by simp, ?_, ?_⟩
    · intro o c' ho
      simp only [State.put] at ho
      split_ifs at ho with e
      · subst e; injection ho with ho; subst ho; simpa using hp
      · rw [hr o (hh _ _ ho)]; exact hs.sound _ _ ho
    · intro o
      simp only [State.put, List.mem_cons]
      rw [← hs.alive o]
      split_ifs with e
      · simp [e]
      · simp [e]
    · intro o
      simp only [List.mem_cons]
      rw [hs.listed o]
      constructor
      · rintro (rfl | ⟨d, hd⟩)
        · exact ⟨_, .inl rfl⟩
        · exact ⟨d, .inr hd⟩
      · rintro ⟨d, h | h⟩
        · injection h with h _; exact .inl h
        · exact .inr ⟨d, h⟩
    · simp only [List.map_cons, List.nodup_cons]
      refine ⟨fun h => ?_, hs.nodup⟩
      obtain ⟨x, hx, e⟩ := List.mem_map.1 h
      exact hn ((hs.listed _).2 ⟨x.2, by rw [← e]; exact hx⟩)
    · intro o d c' h1 ho
      simp only [State.put] at ho
      rcases List.mem_cons.1 h1 with h1 | h1
      · injection h1 with h1 h2
        subst h1 h2
        simp only [if_true, Option.some.injEq] at ho
        subst ho
        simpa using hd
      · have ho' : o ∈ s.handles := (hs.listed o).2 ⟨d, h1⟩
        have hne : o ≠ s.next := by rintro rfl; exact hn ho'
        rw [if_neg hne] at ho
        rw [hr o ho']
        exact hs.key _ _ _ h1 ho
    · intro o ho
      rcases List.mem_cons.1 ho with rfl | ho
      · exact Nat.lt_succ_self _
      · exact Nat.lt_succ_of_lt (hs.fresh _ ho)
    · intro o1 o2 c1 c2 h1 h2 k1 k2 k3 k4
      simp only [State.put] at h1 h2
      split_ifs at h1 h2 with e1 e2 e2
      · rw [e1, e2]
      · injection h1 with h1
        subst h1 e1
        simp only [if_true, if_neg e2] at k4
        exact absurd ⟨k1.symm, k2.symm, k3.symm, k4.symm⟩ (find_none hs hp hd hf h2)
      · injection h2 with h2
        subst h2 e2
        simp only [if_true, if_neg e1] at k4
        exact absurd ⟨k1, k2, k3, k4⟩ (find_none hs hp hd hf h1)
      · simp only [if_neg e1, if_neg e2] at k4
        exact hs.unique _ _ _ _ h1 h2 k1 k2 k3 k4
    · intro o' hne
      simp [State.put, hne]
    · intro h; exact absurd h hn

/-- a field that is dropped for the last time finds itself -/
theorem release_find (hs : Inv root s) {o : ℕ} {c : Class} (ho : s.objs o = some c) {d : Dbl}
    {c' : Class} (hh : c.hash = .ok (d, c')) :
    (s.put o (some c')).find bk d c' = some (o, d) ∧ (o, d) ∈ s.reg := by
  have hc := hs.sound _ _ ho
  obtain ⟨hd, m, rfl, hp⟩ := hash_keeps hc hh
  have hs' := inv_put hs ho hp
  have ho' : (s.put o (some { c with mem := m })).objs o = some { c with mem := m } := by
    simp [State.put]
  obtain ⟨d', hd'⟩ := (hs.listed o).1 ((hs.alive o).1 ⟨c, ho⟩)
  have hk := hs.key o d' c hd' ho
  have := nearDouble_unique hk hd
  subst this
  refine ⟨?_, hd'⟩
  cases hf : (s.put o (some { c with mem := m })).find bk d' { c with mem := m } with
  | none => exact absurd ⟨rfl, rfl, rfl, rfl⟩ (find_none hs' hp hd hf ho')
  | some e =>
    obtain ⟨c2, a1, a2, a3, a4, a5, a6⟩ := find_some hs' hp hf
    have he : e.1 = o := hs'.unique _ _ _ _ a1 ho' a2 a3 a4 a5
    have := List.inj_on_of_nodup_map hs.nodup (show e ∈ s.reg from a6) hd' he
    rw [this]

theorem step_release (hs : Inv root s) {o : ℕ} (h : step bk s (.release o) = .ok s') :
    Inv root s' ∧ s'.handles = s.handles.erase o ∧ (∀ o' ≠ o, s'.objs o' = s.objs o') ∧
      (o ∈ s'.handles → s'.objs o = s.objs o) := by
  simp only [step] at h
  by_cases h1 : o ∈ s.handles
  swap
  · rw [if_neg h1] at h; cases h
  rw [if_pos h1] at h
  by_cases h2 : o ∈ s.handles.erase o
  · rw [if_pos h2] at h
    injection h with h
    subst h
    have hm : ∀ x, x ∈ s.handles.erase o ↔ x ∈ s.handles := fun x => by
      by_cases hx : x = o
      · subst hx; exact ⟨fun _ => h1, fun _ => h2⟩
      · exact List.mem_erase_of_ne hx
    refine ⟨⟨hs.sound, fun x => ?_, fun x => ?_, hs.nodup, hs.key, fun x hx => ?_, hs.unique⟩, rfl,
      fun _ _ => rfl, fun _ => rfl⟩
    · rw [hm x]; exact hs.alive x
    · rw [hm x]; exact hs.listed x
    · exact hs.fresh _ ((hm x).1 hx)
  · rw [if_neg h2] at h
    cases ho : s.objs o with
    | none => rw [ho] at h; cases h
    | some c =>
      simp only [ho] at h
      obtain ⟨⟨d, c'⟩, e1, h⟩ := Res.bind_eq_ok.1 h
      obtain ⟨e2, hreg⟩ := release_find (bk := bk) hs ho e1
      simp only [e2, Res.ok.injEq] at h
      subst h
      have hm : ∀ x, x ∈ s.handles.erase o ↔ x ≠ o ∧ x ∈ s.handles := fun x => by
        by_cases hx : x = o
        · subst hx; exact ⟨fun h => absurd h h2, fun h => absurd rfl h.1⟩
        · rw [List.mem_erase_of_ne hx]; exact ⟨fun h => ⟨hx, h⟩, fun h => h.2⟩
      have hr : ∀ x y, (x, y) ∈ s.reg.erase (o, d) ↔ x ≠ o ∧ (x, y) ∈ s.reg := fun x y => by
        rw [List.Nodup.mem_erase_iff (List.Nodup.of_map _ hs.nodup)]
        constructor
        · rintro ⟨k1, k2⟩
          refine ⟨?_, k2⟩
          rintro rfl
          exact k1 (List.inj_on_of_nodup_map hs.nodup k2 hreg rfl)
        · rintro ⟨k1, k2⟩
          exact ⟨fun e => k1 (congrArg Prod.fst e), k2⟩
      have hput : ∀ x c, (s.put o none).objs x = some c ↔ x ≠ o ∧ s.objs x = some c := fun x c => by
        simp only [State.put]
        split_ifs with e <;> simp [e]
      refine ⟨⟨fun x c hx => hs.sound _ _ ((hput x c).1 hx).2, fun x => ?_, fun x => ?_, ?_, ?_, ?_, ?_⟩,
        rfl, fun x hx => by simp [State.put, hx], fun hx => absurd hx h2⟩
      · show (∃ c, (s.put o none).objs x = some c) ↔ x ∈ s.handles.erase o
        rw [hm x, ← hs.alive x]
        constructor
        · rintro ⟨c, hc⟩; exact ⟨((hput x c).1 hc).1, c, ((hput x c).1 hc).2⟩
        · rintro ⟨hx, c, hc⟩; exact ⟨c, (hput x c).2 ⟨hx, hc⟩⟩
      · show x ∈ s.handles.erase o ↔ ∃ y, (x, y) ∈ s.reg.erase (o, d)
        rw [hm x, hs.listed x]
        constructor
        · rintro ⟨hx, y, hy⟩; exact ⟨y, (hr x y).2 ⟨hx, hy⟩⟩
        · rintro ⟨y, hy⟩; exact ⟨((hr x y).1 hy).1, y, ((hr x y).1 hy).2⟩
      · exact hs.nodup.sublist ((List.erase_sublist).map _)
      · intro x y c hy hx
        exact hs.key _ _ _ ((hr x y).1 hy).2 ((hput x c).1 hx).2
      · intro x hx
        exact hs.fresh _ ((hm x).1 hx).2
      · intro o1 o2 c1 c2 k1 k2
        exact hs.unique _ _ _ _ ((hput _ _).1 k1).2 ((hput _ _).1 k2).2

theorem step_copy (hs : Inv root s) {o : ℕ} (h : step bk s (.copy o) = .ok s') : Inv root s' := by
  simp only [step] at h
  by_cases h1 : o ∈ s.handles
  swap
  · rw [if_neg h1] at h; cases h
  rw [if_pos h1] at h
  injection h with h
  subst h
  have hm : ∀ x, x ∈ o :: s.handles ↔ x ∈ s.handles := fun x => by
    rw [List.mem_cons]; exact ⟨fun h => h.elim (fun h => h ▸ h1) id, .inr⟩
  refine ⟨hs.sound, fun x => ?_, fun x => ?_, hs.nodup, hs.key, fun x hx => ?_, hs.unique⟩
  · rw [hm x]; exact hs.alive x
  · rw [hm x]; exact hs.listed x
  · exact hs.fresh _ ((hm x).1 hx)

theorem step_work (hs : Inv root s) {o : ℕ} {op : EAntic.Op} (hop : ∀ n < 3, ¬ op.assigns n)
    (h : step bk s (.work o op) = .ok s') : Inv root s' := by
  simp only [step] at h
  by_cases h1 : o ∈ s.handles
  swap
  · rw [if_neg h1] at h; cases h
  rw [if_pos h1] at h
  cases ho : s.objs o with
  | none => rw [ho] at h; cases h
  | some c =>
    simp only [ho] at h
    obtain ⟨p, e1, h⟩ := Res.bind_eq_ok.1 h
    injection h with h
    subst h
    exact inv_put hs ho (exec_keeps (hs.sound _ _ ho) hop e1)

theorem step_inv (hs : Inv root s) {op : Op} (hop : ClearlyLegal op) (h : step bk s op = .ok s') :
    ∃ root', Inv root' s' := by
  cases op with
  | make k E =>
    obtain ⟨α, hα⟩ := hop
    obtain ⟨root', h1, -⟩ := step_make hs hα h
    exact ⟨root', h1⟩
  | copy o => exact ⟨root, step_copy hs h⟩
  | release o => exact ⟨root, (step_release hs h).1⟩
  | work o op => exact ⟨root, step_work hs hop h⟩

theorem run_inv {ops : List Op} (hops : ∀ op ∈ ops, ClearlyLegal op) (hs : ∃ root, Inv root s)
    (h : run bk s ops = .ok s') : ∃ root, Inv root s' := by
  induction ops generalizing s with
  | nil => injection h with h; subst h; exact hs
  | cons op ops ih =>
    obtain ⟨s1, e1, h⟩ := Res.bind_eq_ok.1 h
    obtain ⟨root, hs⟩ := hs
    exact ih (fun op ho => hops op (List.mem_cons_of_mem _ ho))
      (step_inv hs (hops op List.mem_cons_self) e1) h

/-- every live object is the field at its root, and at no other -/
theorem Inv.is_iff (hs : Inv root s) {o : ℕ} {c : Class} (ho : s.objs o = some c) {k : NamedField}
    {α : ℝ} : c.Is k α ↔ c.name = k.name ∧ c.K = k.field.nf ∧ c.den = k.den ∧ root o = α := by
  have hc := hs.sound _ _ ho
  constructor
  · rintro ⟨h1, h2, -, h4, h5, h6⟩
    exact ⟨h1, h2, h4, (hc.unique h5 h6).symm⟩
  · rintro ⟨h1, h2, h4, rfl⟩
    exact ⟨h1, h2, hc.nf.trans h2, h4, hc.root, hc.mem⟩

/-! ### Without an assumption on the enclosures -/

/-- every live object is a field at some root, with the right constants -/
def AllSound (s : State) : Prop := ∀ o c, s.objs o = some c → ∃ α, SoundP (fun _ _ _ => True) c α

theorem put_allSound (hs : AllSound s) {o : ℕ} {c : Class} {α : ℝ}
    (hc : SoundP (fun _ _ _ => True) c α) : AllSound (s.put o (some c)) := by
  intro o' c' h
  simp only [State.put] at h
  split_ifs at h with e
  · injection h with h; subst h; exact ⟨α, hc⟩
  · exact hs _ _ h

/-- what a search finds has the right name, polynomial and denominator, and overlaps -/
theorem find_same (hs : AllSound s) {c : Class} {α : ℝ} (hc : SoundP (fun _ _ _ => True) c α) {d : Dbl}
    {e : ℕ × Dbl} (h : s.find bk d c = some e) : ∃ c', s.objs e.1 = some c' ∧ c'.K = c.K ∧
      c'.den = c.den ∧ c'.name = c.name ∧ c'.mem.fld.emb.overlaps c.mem.fld.emb = true := by
  have h1 := List.find?_some h
  simp only [Bool.and_eq_true] at h1
  cases ho : s.objs e.1 with
  | none => rw [ho] at h1; simp at h1
  | some c' =>
    rw [ho] at h1
    obtain ⟨β, hβ⟩ := hs _ _ ho
    have h2 := h1.2
    simp only [Class.same, renfEqual, Bool.and_eq_true, decide_eq_true_eq, hc.nf, hβ.nf] at h2
    obtain ⟨⟨⟨a1, a2⟩, a3⟩, a4⟩ := h2
    refine ⟨c', rfl, ?_, a2, a4, a3⟩
    cases hc : c'.K; cases hc' : c.K; rw [hc, hc'] at a1; exact congrArg _ a1

theorem make_allSound (hs : AllSound s) {k : NamedField} {E : Env k.field.nf} {α : ℝ}
    (hk : EmbeddedAt k E α) (h : step bk s (.make k E) = .ok s') :
    AllSound s' ∧ ∃ o c, s'.handles = o :: s.handles ∧ s'.objs o = some c ∧ c.K = k.field.nf ∧
      c.den = k.den ∧ c.name = k.name := by
  obtain ⟨c, e1, h'⟩ := Res.bind_eq_ok.1 h
  clear h
  obtain ⟨I, hE, hI⟩ := hk
  obtain ⟨m0, rfl, hc⟩ := create_sound (P := fun _ _ _ => True) ⟨I, hE, hI, fun _ _ => trivial⟩ e1
  obtain ⟨p, e2, h⟩ := Res.bind_eq_ok.1 h'
  clear h'
  obtain ⟨hd, m, e3, hp⟩ := hash_keeps hc e2
  rw [e3] at h hp
  cases hf : s.find bk p.1 ⟨k.field.nf, E, k.den, k.name, m⟩ with
  | some e =>
    simp only [hf, Res.ok.injEq] at h
    subst h
    obtain ⟨c', a1, a2, a3, a4, -⟩ := find_same hs hp hf
    exact ⟨hs, e.1, c', rfl, a1, a2, a3, a4⟩
  | none =>
    simp only [hf, Res.ok.injEq] at h
    subst h
    exact ⟨put_allSound hs hp, s.next, ⟨k.field.nf, E, k.den, k.name, m⟩, rfl, by simp [State.put],
      rfl, rfl, rfl⟩

theorem step_allSound (hs : AllSound s) {op : Op} (hop : Legal op) (h : step bk s op = .ok s') :
    AllSound s' := by
  cases op with
  | make k E =>
    obtain ⟨α, hα⟩ := hop
    exact (make_allSound hs hα h).1
  | copy o =>
    simp only [step] at h
    split_ifs at h
    injection h with h
    subst h
    exact hs
  | release o =>
    simp only [step] at h
    split_ifs at h with h1 h2
    · injection h with h; subst h; exact hs
    · cases ho : s.objs o with
      | none => rw [ho] at h; cases h
      | some c =>
        simp only [ho] at h
        obtain ⟨p, e1, h⟩ := Res.bind_eq_ok.1 h
        cases hf : (s.put o (some p.2)).find bk p.1 p.2 with
        | none => simp [hf] at h
        | some e =>
          simp only [hf, Res.ok.injEq] at h
          subst h
          intro o' c' h'
          simp only [State.put] at h'
          split_ifs at h'
          exact hs _ _ h'
  | work o op =>
    simp only [step] at h
    split_ifs at h with h1
    cases ho : s.objs o with
    | none => rw [ho] at h; cases h
    | some c =>
      simp only [ho] at h
      obtain ⟨p, e1, h⟩ := Res.bind_eq_ok.1 h
      injection h with h
      subst h
      obtain ⟨α, hα⟩ := hs _ _ ho
      exact put_allSound hs (exec_keeps hα hop e1)

theorem run_allSound {ops : List Op} (hops : ∀ op ∈ ops, Legal op) (hs : AllSound s)
    (h : run bk s ops = .ok s') : AllSound s' := by
  induction ops generalizing s with
  | nil => injection h with h; subst h; exact hs
  | cons op ops ih =>
    obtain ⟨s1, e1, h⟩ := Res.bind_eq_ok.1 h
    exact ih (fun op ho => hops op (List.mem_cons_of_mem _ ho))
      (step_allSound hs (hops op List.mem_cons_self) e1) h

theorem init_allSound : AllSound State.init := by intro o c h; simp [State.init] at h

end Fields

end EAntic
