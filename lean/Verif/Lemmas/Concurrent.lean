import Verif.Spec.Concurrent

/-!
# Lemmas about threads that make fields
-/

namespace EAntic.Concurrent

open Fields (Class create)

/-- polynomial and denominator of the object at an address -/
def State.key (s : State) (o : Addr) : Option (List ℤ × ℤ) := (s.objs o).map fun c => (c.K.pol, c.den)

variable {P : ℕ → List ℤ × ℤ → Prop} {bk : Dbl → ℕ} {s s' : State} {t u : ℕ} {o : Addr}

/-- the polynomial of the object is one of thread `t` -/
def Owner (P : ℕ → List ℤ × ℤ → Prop) (s : State) (o : Addr) (t : ℕ) : Prop := ∃ q, s.key o = some q ∧ P t q

/-- nobody has a pointer to the object -/
def State.Free (s : State) (o : Addr) : Prop := ∀ v, (v, o) ∉ s.handles

/-- what is known of a thread that searches the registry -/
def JobOk (P : ℕ → List ℤ × ℤ → Prop) (s : State) (t : ℕ) : Job → Prop
  | .make c => P t (c.K.pol, c.den)
  | .drop o => Owner P s o t ∧ s.Free o

/-- what is known of a thread -/
def PcOk (P : ℕ → List ℤ × ℤ → Prop) (s : State) (t : ℕ) : Pc → Prop
  | .idle | .dead => True
  | .waiting j => JobOk P s t j
  | .scan j _ _ => JobOk P s t j
  | .compare j _ e _ => JobOk P s t j ∧ Owner P s e.1 t
  | .deleting o _ => Owner P s o t ∧ s.Free o
  | .working o _ _ => Owner P s o t

/-- the thread has the mutex -/
def Pc.locked : Pc → Prop
  | .scan _ _ _ | .compare _ _ _ _ | .deleting _ _ => True
  | _ => False

/-- where objects are -/
structure Placed (P : ℕ → List ℤ × ℤ → Prop) (s : State) : Prop where
  fresh : ∀ o : Addr, s.next o.1 ≤ o.2 → s.key o = none
  alloc : ∀ o q, s.key o = some q → P o.1 q

structure Inv (P : ℕ → List ℤ × ℤ → Prop) (s : State) : Prop where
  placed : Placed P s
  own : ∀ t o, (t, o) ∈ s.handles → Owner P s o t
  pc : ∀ t, PcOk P s t (s.pc t)
  lock : ∀ t, (s.pc t).locked → s.lock = some t

theorem inv_init : Inv P .init :=
  ⟨⟨fun _ _ => rfl, fun _ _ h => by cases h⟩, fun _ _ h => by simp [State.init] at h, fun _ => trivial, fun _ h => h.elim⟩

theorem Owner.unique (hP : ∀ t u q, P t q → P u q → t = u) (h : Owner P s o t) (h' : Owner P s o u) :
    t = u := by
  obtain ⟨q, e, hq⟩ := h
  obtain ⟨q', e', hq'⟩ := h'
  rw [e] at e'
  injection e' with e'
  subst e'
  exact hP _ _ _ hq hq'

theorem inv_of (hP : ∀ t u q, P t q → P u q → t = u) (hI : Inv P s) (p : Pc)
    (hpc : s'.pc = Function.update s.pc t p) (hnext : Placed P s')
    (hkey : ∀ u, u ≠ t → ∀ o, Owner P s o u → Owner P s' o u)
    (hh : ∀ h ∈ s'.handles, h ∈ s.handles ∨ h.1 = t)
    (hown : ∀ o, (t, o) ∈ s'.handles → Owner P s' o t) (hp : PcOk P s' t p)
    (hl : s'.lock = s.lock ∨ s.lock = none ∨ s.lock = some t) (hl' : p.locked → s'.lock = some t) :
    Inv P s' := by
  have hfree : ∀ u, u ≠ t → ∀ o, Owner P s o u → s.Free o → s'.Free o := by
    intro u hu o ho hf v hv
    rcases hh _ hv with h | h
    · exact hf v h
    · have h : v = t := h
      subst h
      exact hu ((hkey u hu o ho).unique hP (hown o hv))
  have hjob : ∀ u, u ≠ t → ∀ j, JobOk P s u j → JobOk P s' u j := by
    intro u hu j hj
    cases j with
    | make c => exact hj
    | drop o => exact ⟨hkey u hu o hj.1, hfree u hu o hj.1 hj.2⟩
  refine ⟨hnext, ?_, ?_, ?_⟩
  · intro v o hv
    by_cases e : v = t
    · subst e; exact hown o hv
    · rcases hh _ hv with h | h
      · exact hkey v e o (hI.own v o h)
      · exact absurd h e
  · intro u
    rw [hpc]
    by_cases e : u = t
    · subst e; rw [Function.update_self]; exact hp
    · rw [Function.update_of_ne e]
      have h := hI.pc u
      cases hq : s.pc u with
      | idle => trivial
      | dead => trivial
      | waiting j => rw [hq] at h; exact hjob u e j h
      | scan j d r => rw [hq] at h; exact hjob u e j h
      | compare j d x r => rw [hq] at h; exact ⟨hjob u e j h.1, hkey u e _ h.2⟩
      | deleting o x => rw [hq] at h; exact ⟨hkey u e _ h.1, hfree u e _ h.1 h.2⟩
      | working o m c => rw [hq] at h; exact hkey u e _ h
  · intro u hu
    rw [hpc] at hu
    by_cases e : u = t
    · subst e; rw [Function.update_self] at hu; exact hl' hu
    · rw [Function.update_of_ne e] at hu
      have h := hI.lock u hu
      rcases hl with h1 | h1 | h1
      · rw [h1]; exact h
      · rw [h1] at h; cases h
      · rw [h1] at h; injection h with h; exact absurd h.symm e

/-- the keys are unchanged -/
theorem inv_same (hP : ∀ t u q, P t q → P u q → t = u) (hI : Inv P s) (p : Pc)
    (hpc : s'.pc = Function.update s.pc t p) (hn : s'.next = s.next) (hk : s'.key = s.key)
    (hh : s'.handles = s.handles) (hp : PcOk P s t p)
    (hl : s'.lock = s.lock ∨ s.lock = none ∨ s.lock = some t) (hl' : p.locked → s'.lock = some t) :
    Inv P s' := by
  have ho : ∀ o v, Owner P s o v ↔ Owner P s' o v := fun o v => by unfold Owner; rw [hk]
  refine inv_of hP hI p hpc ⟨by rw [hn, hk]; exact hI.placed.fresh, by rw [hk]; exact hI.placed.alloc⟩ (fun u _ o h => (ho o u).1 h)
    (fun h hm => .inl (hh ▸ hm)) (fun o h => (ho o t).1 (hI.own t o (hh ▸ h))) ?_ hl hl'
  have hf : ∀ o, s.Free o → s'.Free o := fun o h v hv => h v (hh ▸ hv)
  have hjob : ∀ j, JobOk P s t j → JobOk P s' t j := by
    rintro (c | o) hj
    · exact hj
    · exact ⟨(ho _ _).1 hj.1, hf _ hj.2⟩
  cases p with
  | idle => trivial
  | dead => trivial
  | waiting j => exact hjob j hp
  | scan j d r => exact hjob j hp
  | compare j d x r => exact ⟨hjob j hp.1, (ho _ _).1 hp.2⟩
  | deleting o x => exact ⟨(ho _ _).1 hp.1, hf _ hp.2⟩
  | working o m c => exact (ho _ _).1 hp

theorem key_put (s : State) (o : Addr) (c : Option Class) :
    (s.put o c).key = Function.update s.key o (c.map fun c => (c.K.pol, c.den)) := by
  funext i
  simp only [State.key, State.put]
  by_cases e : i = o
  · subst e; simp
  · simp [State.key, Function.update_of_ne e]

theorem key_put_same {c c' : Class} (h : s.objs o = some c) (hK : c'.K = c.K) (hd : c'.den = c.den) :
    (s.put o (some c')).key = s.key := by
  rw [key_put]
  funext i
  by_cases e : i = o
  · subst e; simp [State.key, h, hK, hd]
  · rw [Function.update_of_ne e]

theorem hash_same {c : Class} {h : Dbl × Class} (e : c.hash = .ok h) :
    h.2.K = c.K ∧ h.2.den = c.den := by
  unfold Class.hash at e
  cases hg : c.E.getD (.user 2) .near false c.mem with
  | ok p =>
    rw [hg] at e
    have e : (p.1, { c with mem := p.2 }) = h := by injection e
    subst e
    exact ⟨rfl, rfl⟩
  | _ => rw [hg] at e; simp [Res.bind] at e

theorem create_same {k : NamedField} {E : Env k.field.nf} {c : Class} (e : create k E = .ok c) :
    c.K = k.field.nf ∧ c.den = k.den := by
  unfold create at e
  cases hg : Fields.fillCache E ⟨renfInitSet k.field, fun _ => ⟨NfElem.init k.field.nf, Ball.exact 0⟩⟩ with
  | ok p =>
    rw [hg] at e
    have e : (⟨k.field.nf, E, k.den, k.name, p.2⟩ : Class) = c := by injection e
    subst e
    exact ⟨rfl, rfl⟩
  | _ => rw [hg] at e; simp [Res.bind] at e

theorem goto_key (s : State) (p : Pc) : (s.goto t p).key = s.key := rfl

theorem access_inv (hP : ∀ t u q, P t q → P u q → t = u) (hI : Inv P s) (ho : Owner P s o t)
    {c : Class} (hc : s.objs o = some c) (m : ℕ → Elem) (code : Code Ans) :
    Inv P (access s t o m c code) := by
  cases code with
  | ret b => exact inv_same hP hI .idle rfl rfl rfl rfl trivial (.inl rfl) (fun h => h.elim)
  | stop b => exact inv_same hP hI .dead rfl rfl rfl rfl trivial (.inl rfl) (fun h => h.elim)
  | get r k =>
    cases r <;> exact inv_same hP hI (.working _ _ _) rfl rfl rfl rfl ho (.inl rfl) (fun h => h.elim)
  | put r e k =>
    cases r with
    | user n =>
      refine inv_same hP hI (.working _ _ _) rfl rfl ?_ rfl ho (.inl rfl) (fun h => h.elim)
      exact key_put_same hc rfl rfl
    | tmp n => exact inv_same hP hI (.working _ _ _) rfl rfl rfl rfl ho (.inl rfl) (fun h => h.elim)
  | getField k => exact inv_same hP hI (.working _ _ _) rfl rfl rfl rfl ho (.inl rfl) (fun h => h.elim)
  | putField f k =>
    refine inv_same hP hI (.working _ _ _) rfl rfl ?_ rfl ho (.inl rfl) (fun h => h.elim)
    exact key_put_same hc rfl rfl

theorem wanted_key {j : Job} {c : Class} (hj : JobOk P s t j) (h : s.wanted j = some c) :
    P t (c.K.pol, c.den) := by
  cases j with
  | make c' => injection h with h; subst h; exact hj
  | drop o =>
    obtain ⟨⟨q, e, hq⟩, -⟩ := hj
    have h : s.objs o = some c := h
    simp only [State.key, h, Option.map_some, Option.some.injEq] at e
    rw [e]; exact hq

theorem proceed_inv (hP : ∀ t u q, P t q → P u q → t = u) (hI : Inv P s)
    (h : proceed bk s t (s.pc t) = some s') : Inv P s' := by
  have hp := hI.pc t
  have hlk := hI.lock t
  cases hq : s.pc t with
  | idle => rw [hq] at h; simp [proceed] at h
  | dead => rw [hq] at h; simp [proceed] at h
  | waiting j =>
    rw [hq] at h hp
    cases j with
    | make c =>
      simp only [proceed] at h
      by_cases hl : s.lock = none
      · rw [if_pos hl] at h
        cases hh : c.hash with
        | ok x =>
          rw [hh] at h
          injection h with h; subst h
          obtain ⟨e1, e2⟩ := hash_same hh
          refine inv_same hP hI (.scan (.make x.2) x.1 s.reg) rfl rfl rfl rfl ?_ (.inr (.inl hl)) fun _ => rfl
          show P t _
          rw [e1, e2]; exact hp
        | _ =>
          rw [hh] at h
          injection h with h; subst h
          exact inv_same hP hI .dead rfl rfl rfl rfl trivial (.inl rfl) (fun h => h.elim)
      · rw [if_neg hl] at h; cases h
    | drop o =>
      simp only [proceed] at h
      by_cases hl : s.lock = none
      · rw [if_pos hl] at h
        cases ho : s.objs o with
        | none =>
          rw [ho] at h
          injection h with h; subst h
          exact inv_same hP hI .dead rfl rfl rfl rfl trivial (.inl rfl) (fun h => h.elim)
        | some c =>
          rw [ho] at h
          simp only at h
          cases hh : c.hash with
          | ok x =>
            rw [hh] at h
            injection h with h; subst h
            obtain ⟨e1, e2⟩ := hash_same hh
            refine inv_same hP hI (.scan (.drop o) x.1 s.reg) rfl rfl ?_ rfl hp (.inr (.inl hl)) fun _ => rfl
            rw [goto_key]
            exact key_put_same (s := { s with lock := some t }) ho e1 e2
          | _ =>
            rw [hh] at h
            injection h with h; subst h
            exact inv_same hP hI .dead rfl rfl rfl rfl trivial (.inl rfl) (fun h => h.elim)
      · rw [if_neg hl] at h; cases h
  | scan j d rest =>
    rw [hq] at h hp hlk
    have hl : s.lock = some t := hlk trivial
    cases rest with
    | nil =>
      cases j with
      | make c =>
        simp only [proceed] at h
        injection h with h; subst h
        have hk : State.key ((State.put { s with
            reg := ((t, s.next t), d) :: s.reg, next := Function.update s.next t (s.next t + 1), lock := none
            handles := (t, (t, s.next t)) :: s.handles } (t, s.next t) (some c)).goto t .idle) =
            Function.update s.key (t, s.next t) (some (c.K.pol, c.den)) := by
          rw [goto_key, key_put]; rfl
        have hown : ∀ u o, Owner P s o u → Owner P ((State.put { s with
            reg := ((t, s.next t), d) :: s.reg, next := Function.update s.next t (s.next t + 1), lock := none
            handles := (t, (t, s.next t)) :: s.handles } (t, s.next t) (some c)).goto t .idle) o u := by
          rintro u o ⟨q, e, hq⟩
          refine ⟨q, ?_, hq⟩
          rw [hk, Function.update_of_ne, e]
          rintro rfl
          rw [hI.placed.fresh _ le_rfl] at e; cases e
        refine inv_of hP hI .idle rfl ?_ (fun u _ o => hown u o) ?_ ?_ trivial (.inr (.inr hl)) fun h => h.elim
        · constructor
          · intro o ho
            have ho : Function.update s.next t (s.next t + 1) o.1 ≤ o.2 := ho
            have hle : s.next o.1 ≤ o.2 ∧ o ≠ (t, s.next t) := by
              by_cases e : o.1 = t
              · rw [e, Function.update_self] at ho
                exact ⟨by rw [e]; omega, by rintro rfl; simp at ho⟩
              · rw [Function.update_of_ne e] at ho
                exact ⟨ho, by rintro rfl; exact e rfl⟩
            rw [hk, Function.update_of_ne hle.2]
            exact hI.placed.fresh o hle.1
          · intro o q e
            rw [hk] at e
            by_cases ho : o = (t, s.next t)
            · subst ho
              rw [Function.update_self] at e
              injection e with e
              subst e
              exact hp
            · rw [Function.update_of_ne ho] at e
              exact hI.placed.alloc o q e
        · intro x hx
          rcases List.mem_cons.1 hx with rfl | hx
          · exact .inr rfl
          · exact .inl hx
        · intro o ho
          rcases List.mem_cons.1 ho with e | ho
          · injection e with _ e
            subst e
            exact ⟨_, by rw [hk, Function.update_self], hp⟩
          · exact hown t o (hI.own t o ho)
      | drop o =>
        simp only [proceed] at h
        injection h with h; subst h
        exact inv_same hP hI .dead rfl rfl rfl rfl trivial (.inr (.inr hl)) (fun h => h.elim)
    | cons e rest =>
      simp only [proceed] at h
      by_cases hb : bk e.2 = bk d
      · rw [if_pos hb] at h
        cases ho : s.objs e.1 with
        | none =>
          rw [ho] at h
          injection h with h; subst h
          exact inv_same hP hI .dead rfl rfl rfl rfl trivial (.inr (.inr hl)) (fun h => h.elim)
        | some c' =>
          cases hw : s.wanted j with
          | none =>
            rw [ho, hw] at h
            injection h with h; subst h
            exact inv_same hP hI .dead rfl rfl rfl rfl trivial (.inr (.inr hl)) (fun h => h.elim)
          | some c =>
            rw [ho, hw] at h
            simp only at h
            by_cases hs : samePol c' c
            · rw [if_pos hs] at h
              injection h with h; subst h
              refine inv_same hP hI (.compare j d e rest) rfl rfl rfl rfl ⟨hp, ?_⟩ (.inl rfl) fun _ => hl
              refine ⟨(c'.K.pol, c'.den), by simp [State.key, ho], ?_⟩
              simp only [samePol, Bool.and_eq_true, decide_eq_true_eq] at hs
              rw [hs.1, hs.2]
              exact wanted_key hp hw
            · rw [if_neg hs] at h
              injection h with h; subst h
              exact inv_same hP hI (.scan j d rest) rfl rfl rfl rfl hp (.inl rfl) fun _ => hl
      · rw [if_neg hb] at h
        injection h with h; subst h
        exact inv_same hP hI (.scan j d rest) rfl rfl rfl rfl hp (.inl rfl) fun _ => hl
  | compare j d e rest =>
    rw [hq] at h hp hlk
    have hl : s.lock = some t := hlk trivial
    simp only [proceed] at h
    cases ho : s.objs e.1 with
    | none =>
      rw [ho] at h
      injection h with h; subst h
      exact inv_same hP hI .dead rfl rfl rfl rfl trivial (.inr (.inr hl)) (fun h => h.elim)
    | some c' =>
      cases hw : s.wanted j with
      | none =>
        rw [ho, hw] at h
        injection h with h; subst h
        exact inv_same hP hI .dead rfl rfl rfl rfl trivial (.inr (.inr hl)) (fun h => h.elim)
      | some c =>
        rw [ho, hw] at h
        simp only at h
        by_cases hs : sameRest c' c
        · rw [if_pos hs] at h
          cases j with
          | make c0 =>
            injection h with h; subst h
            refine inv_of hP hI .idle rfl ⟨hI.placed.fresh, hI.placed.alloc⟩ (fun u _ o h => h) ?_ ?_ trivial (.inr (.inr hl)) fun h => h.elim
            · intro x hx
              rcases List.mem_cons.1 hx with rfl | hx
              · exact .inr rfl
              · exact .inl hx
            · intro o ho
              rcases List.mem_cons.1 ho with e | ho
              · injection e with _ e
                subst e
                exact hp.2
              · exact hI.own t o ho
          | drop o =>
            injection h with h; subst h
            exact inv_same hP hI (.deleting o e) rfl rfl rfl rfl hp.1 (.inl rfl) fun _ => hl
        · rw [if_neg hs] at h
          injection h with h; subst h
          exact inv_same hP hI (.scan j d rest) rfl rfl rfl rfl hp.1 (.inl rfl) fun _ => hl
  | deleting o e =>
    rw [hq] at h hp hlk
    have hl : s.lock = some t := hlk trivial
    simp only [proceed] at h
    injection h with h; subst h
    have hk : State.key ((State.put { s with reg := s.reg.erase e, lock := none } o none).goto t .idle) =
        Function.update s.key o none := by
      rw [goto_key, key_put]; rfl
    have hown : ∀ u o', o' ≠ o → Owner P s o' u →
        Owner P ((State.put { s with reg := s.reg.erase e, lock := none } o none).goto t .idle) o' u := by
      rintro u o' ho ⟨q, e, hq⟩
      exact ⟨q, by rw [hk, Function.update_of_ne ho, e], hq⟩
    refine inv_of hP hI .idle rfl ?_ ?_ (fun x hx => .inl hx) ?_ trivial (.inr (.inr hl)) fun h => h.elim
    · constructor
      · intro o' ho'
        rw [hk]
        by_cases e : o' = o
        · subst e; rw [Function.update_self]
        · rw [Function.update_of_ne e]; exact hI.placed.fresh o' ho'
      · intro o' q e'
        rw [hk] at e'
        by_cases e : o' = o
        · subst e; rw [Function.update_self] at e'; cases e'
        · rw [Function.update_of_ne e] at e'; exact hI.placed.alloc o' q e'
    · intro u hu o' h'
      refine hown u o' ?_ h'
      rintro rfl
      exact hu (h'.unique hP hp.1)
    · intro o' ho'
      refine hown t o' ?_ (hI.own t o' ho')
      rintro rfl
      exact hp.2 t ho'
  | working o m code =>
    rw [hq] at h hp
    simp only [proceed] at h
    cases ho : s.objs o with
    | none =>
      rw [ho] at h
      injection h with h; subst h
      exact inv_same hP hI .dead rfl rfl rfl rfl trivial (.inl rfl) (fun h => h.elim)
    | some c =>
      rw [ho] at h
      injection h with h; subst h
      exact access_inv hP hI hp ho m code

theorem step_inv (hP : ∀ t u q, P t q → P u q → t = u) (hI : Inv P s) {a : Act}
    (ha : ∀ k E, a = .make k E → P t (k.field.nf.pol, k.den))
    (h : step bk s t a = some s') : Inv P s' := by
  cases a with
  | next => exact proceed_inv hP hI h
  | make k E =>
    simp only [step] at h
    cases hq : s.pc t <;> rw [hq] at h <;> try (cases h)
    cases hc : create k E with
    | ok c =>
      rw [hc] at h
      injection h with h; subst h
      obtain ⟨e1, e2⟩ := create_same hc
      refine inv_same hP hI (.waiting (.make c)) rfl rfl rfl rfl ?_ (.inl rfl) fun h => h.elim
      show P t _
      rw [e1, e2]; exact ha k E rfl
    | _ =>
      rw [hc] at h
      injection h with h; subst h
      exact inv_same hP hI .dead rfl rfl rfl rfl trivial (.inl rfl) (fun h => h.elim)
  | copy o =>
    simp only [step] at h
    cases hq : s.pc t <;> rw [hq] at h <;> try (cases h)
    simp only at h
    by_cases hm : (t, o) ∈ s.handles
    · rw [if_pos hm] at h
      injection h with h; subst h
      refine inv_of (t := t) hP hI .idle (by rw [← hq]; simp) ⟨hI.placed.fresh, hI.placed.alloc⟩ (fun u _ o h => h) ?_ ?_ trivial (.inl rfl) fun h => h.elim
      · intro x hx
        rcases List.mem_cons.1 hx with rfl | hx
        · exact .inr rfl
        · exact .inl hx
      · intro o' ho
        rcases List.mem_cons.1 ho with e | ho
        · injection e with _ e
          subst e
          exact hI.own t _ hm
        · exact hI.own t o' ho
    · rw [if_neg hm] at h; cases h
  | release o =>
    simp only [step] at h
    cases hq : s.pc t <;> rw [hq] at h <;> try (cases h)
    simp only at h
    by_cases hm : (t, o) ∈ s.handles
    · rw [if_pos hm] at h
      by_cases hr : o ∈ (s.handles.erase (t, o)).map (·.2)
      · rw [if_pos hr] at h
        injection h with h; subst h
        exact inv_of (t := t) hP hI .idle (by rw [← hq]; simp) ⟨hI.placed.fresh, hI.placed.alloc⟩ (fun u _ o h => h)
          (fun x hx => .inl (List.mem_of_mem_erase hx))
          (fun o' ho => hI.own t o' (List.mem_of_mem_erase ho)) trivial (.inl rfl) fun h => h.elim
      · rw [if_neg hr] at h
        injection h with h; subst h
        refine inv_of hP hI (.waiting (.drop o)) rfl ⟨hI.placed.fresh, hI.placed.alloc⟩ (fun u _ o h => h)
          (fun x hx => .inl (List.mem_of_mem_erase hx))
          (fun o' ho => hI.own t o' (List.mem_of_mem_erase ho)) ⟨hI.own t o hm, ?_⟩ (.inl rfl) fun h => h.elim
        intro v hv
        exact hr (List.mem_map.2 ⟨_, hv, rfl⟩)
    · rw [if_neg hm] at h; cases h
  | work o op =>
    simp only [step] at h
    cases hq : s.pc t <;> rw [hq] at h <;> try (cases h)
    cases ho : s.objs o with
    | none => rw [ho] at h; cases h
    | some c =>
      rw [ho] at h
      simp only at h
      by_cases hm : (t, o) ∈ s.handles
      · rw [if_pos hm] at h
        injection h with h; subst h
        exact inv_same hP hI (.working o _ _) rfl rfl rfl rfl (hI.own t o hm) (.inl rfl) fun h => h.elim
      · rw [if_neg hm] at h; cases h

theorem run_inv (hP : ∀ t u q, P t q → P u q → t = u) : ∀ {as : List (ℕ × Act)} {s s' : State},
    Inv P s → (∀ t k E, (t, Act.make k E) ∈ as → P t (k.field.nf.pol, k.den)) →
    run bk s as = some s' → Inv P s'
  | [], _, _, hI, _, h => by cases h; exact hI
  | (t, a) :: as, s, s', hI, ha, h => by
    simp only [run, Option.bind_eq_some_iff] at h
    obtain ⟨s1, h1, h2⟩ := h
    exact run_inv hP (step_inv hP hI (fun k E e => ha t k E (by simp [e])) h1)
      (fun u k E hm => ha u k E (by simp [hm])) h2

theorem registry_locked {p : Pc} {w : Bool} (h : (Loc.registry, w) ∈ p.accesses) : p.locked := by
  cases p with
  | idle => simp [Pc.accesses] at h
  | dead => simp [Pc.accesses] at h
  | waiting j => cases j <;> simp [Pc.accesses] at h
  | working o m c =>
    simp only [Pc.accesses, Option.mem_toList, Option.map_eq_some_iff] at h
    obtain ⟨⟨p, w'⟩, -, e⟩ := h
    cases p <;> simp [locOf] at e
  | _ => trivial

theorem Inv.no_race (hP : ∀ t u q, P t q → P u q → t = u) (hI : Inv P s) : ¬ s.Race := by
  rintro ⟨t, u, hne, ht, hu, l, w, h1, h2⟩
  have hreg : ∀ t w, (Loc.registry, w) ∈ (s.pc t).accesses → s.lock = some t := by
    exact fun t w h => hI.lock t (registry_locked h)
  have hobj : ∀ t o p w, (locOf o p, w) ∈ (s.pc t).accesses → Owner P s o t := by
    intro t o p w h
    have hp := hI.pc t
    have inj : ∀ o', locOf o p = .field o' → o' = o := by
      intro o' e; cases p <;> simp [locOf] at e; exact e.symm
    have nreg : locOf o p ≠ .registry := by cases p <;> simp [locOf]
    cases hq : s.pc t with
    | idle => rw [hq] at h; simp [Pc.accesses] at h
    | dead => rw [hq] at h; simp [Pc.accesses] at h
    | waiting j =>
      rw [hq] at h hp
      cases j with
      | make c => simp [Pc.accesses] at h
      | drop o' =>
        simp only [Pc.accesses, List.mem_singleton, Prod.mk.injEq] at h
        rw [← inj _ h.1]; exact hp.1
    | scan j d r =>
      rw [hq] at h
      simp only [Pc.accesses, List.mem_singleton, Prod.mk.injEq] at h
      exact absurd h.1 nreg
    | compare j d e r =>
      rw [hq] at h hp
      cases j with
      | make c =>
        simp only [Pc.accesses, List.mem_cons, Prod.mk.injEq, List.not_mem_nil, or_false] at h
        rcases h with h | h
        · exact absurd h.1 nreg
        · rw [← inj _ h.1]; exact hp.2
      | drop o' =>
        simp only [Pc.accesses, List.mem_cons, Prod.mk.injEq, List.not_mem_nil, or_false] at h
        rcases h with h | h | h
        · exact absurd h.1 nreg
        · rw [← inj _ h.1]; exact hp.2
        · rw [← inj _ h.1]; exact hp.1.1
    | deleting o' e =>
      rw [hq] at h hp
      simp only [Pc.accesses, List.mem_cons, Prod.mk.injEq, List.not_mem_nil, or_false] at h
      rcases h with h | h
      · exact absurd h.1 nreg
      · rw [← inj _ h.1]; exact hp.1
    | working o' m c =>
      rw [hq] at h hp
      simp only [Pc.accesses, Option.mem_toList, Option.map_eq_some_iff] at h
      obtain ⟨⟨p', w'⟩, -, e⟩ := h
      injection e with e
      have : o' = o := by cases p <;> cases p' <;> simp_all [locOf]
      rw [← this]; exact hp
  cases l with
  | registry =>
    have e := (hreg t _ h1).symm.trans (hreg u _ h2)
    injection e with e
    exact hne e
  | field o => exact hne ((hobj t o .field _ h1).unique hP (hobj u o .field _ h2))
  | elem o n => exact hne ((hobj t o (.elem n) _ h1).unique hP (hobj u o (.elem n) _ h2))

/-! ## The mutex -/

/-- only the holder of the mutex is at a place where it is held -/
def LockInv (s : State) : Prop := ∀ t, (s.pc t).locked → s.lock = some t

theorem lockInv_of (hI : LockInv s) (p : Pc) (hpc : s'.pc = Function.update s.pc t p)
    (hl : s'.lock = s.lock ∨ s.lock = none ∨ s.lock = some t) (hl' : p.locked → s'.lock = some t) :
    LockInv s' := by
  intro u hu
  rw [hpc] at hu
  by_cases e : u = t
  · subst e; rw [Function.update_self] at hu; exact hl' hu
  · rw [Function.update_of_ne e] at hu
    have h := hI u hu
    rcases hl with h1 | h1 | h1
    · rw [h1]; exact h
    · rw [h1] at h; cases h
    · rw [h1] at h; injection h with h; exact absurd h.symm e

theorem lockInv_step (hI : LockInv s) {a : Act} (h : step bk s t a = some s') : LockInv s' := by
  have hlk := hI t
  cases a with
  | next =>
    simp only [step] at h
    cases hq : s.pc t with
    | idle => rw [hq] at h; simp [proceed] at h
    | dead => rw [hq] at h; simp [proceed] at h
    | waiting j =>
      rw [hq] at h
      cases j <;> simp only [proceed] at h <;> by_cases hl : s.lock = none
      · rw [if_pos hl] at h
        split at h <;> injection h with h <;> subst h
        · exact lockInv_of hI _ rfl (.inr (.inl hl)) fun _ => rfl
        · exact lockInv_of hI _ rfl (.inl rfl) fun h => h.elim
      · rw [if_neg hl] at h; cases h
      · rw [if_pos hl] at h
        split at h
        · injection h with h; subst h
          exact lockInv_of hI _ rfl (.inl rfl) fun h => h.elim
        · split at h <;> injection h with h <;> subst h
          · exact lockInv_of hI _ rfl (.inr (.inl hl)) fun _ => rfl
          · exact lockInv_of hI _ rfl (.inl rfl) fun h => h.elim
      · rw [if_neg hl] at h; cases h
    | scan j d rest =>
      rw [hq] at h hlk
      have hl : s.lock = some t := hlk trivial
      cases rest with
      | nil =>
        cases j <;> simp only [proceed] at h <;> injection h with h <;> subst h <;>
          exact lockInv_of hI _ rfl (.inr (.inr hl)) fun h => h.elim
      | cons e rest =>
        simp only [proceed] at h
        split at h
        · split at h
          · split at h <;> injection h with h <;> subst h <;>
              exact lockInv_of hI _ rfl (.inl rfl) fun _ => hl
          · injection h with h; subst h
            exact lockInv_of hI _ rfl (.inr (.inr hl)) fun h => h.elim
        · injection h with h; subst h
          exact lockInv_of hI _ rfl (.inl rfl) fun _ => hl
    | compare j d e rest =>
      rw [hq] at h hlk
      have hl : s.lock = some t := hlk trivial
      simp only [proceed] at h
      split at h
      · split at h
        · cases j <;> simp only at h <;> injection h with h <;> subst h
          · exact lockInv_of hI _ rfl (.inr (.inr hl)) fun h => h.elim
          · exact lockInv_of hI _ rfl (.inl rfl) fun _ => hl
        · injection h with h; subst h
          exact lockInv_of hI _ rfl (.inl rfl) fun _ => hl
      · injection h with h; subst h
        exact lockInv_of hI _ rfl (.inr (.inr hl)) fun h => h.elim
    | deleting o e =>
      rw [hq] at h hlk
      have hl : s.lock = some t := hlk trivial
      simp only [proceed] at h
      injection h with h; subst h
      exact lockInv_of hI _ rfl (.inr (.inr hl)) fun h => h.elim
    | working o m code =>
      rw [hq] at h
      simp only [proceed] at h
      split at h <;> injection h with h <;> subst h
      · exact lockInv_of hI _ rfl (.inl rfl) fun h => h.elim
      · cases code with
        | get r k => cases r <;> exact lockInv_of hI (.working _ _ _) rfl (.inl rfl) fun h => h.elim
        | put r e k => cases r <;> exact lockInv_of hI (.working _ _ _) rfl (.inl rfl) fun h => h.elim
        | ret b => exact lockInv_of hI .idle rfl (.inl rfl) fun h => h.elim
        | stop b => exact lockInv_of hI .dead rfl (.inl rfl) fun h => h.elim
        | getField k => exact lockInv_of hI (.working _ _ _) rfl (.inl rfl) fun h => h.elim
        | putField f k => exact lockInv_of hI (.working _ _ _) rfl (.inl rfl) fun h => h.elim
  | make k E =>
    simp only [step] at h
    split at h <;> try (cases h)
    all_goals exact lockInv_of hI _ rfl (.inl rfl) fun h => h.elim
  | copy o =>
    simp only [step] at h
    split at h <;> try (cases h)
    split at h <;> cases h
    exact hI
  | release o =>
    simp only [step] at h
    split at h <;> try (cases h)
    split at h <;> try (cases h)
    split at h <;> cases h
    · exact hI
    · exact lockInv_of hI _ rfl (.inl rfl) fun h => h.elim
  | work o op =>
    simp only [step] at h
    split at h <;> try (cases h)
    split at h <;> cases h
    exact lockInv_of hI _ rfl (.inl rfl) fun h => h.elim

theorem lockInv_run : ∀ {as : List (ℕ × Act)} {s s' : State}, LockInv s → run bk s as = some s' →
    LockInv s'
  | [], _, _, hI, h => by cases h; exact hI
  | (t, a) :: as, s, s', hI, h => by
    simp only [run, Option.bind_eq_some_iff] at h
    obtain ⟨s1, h1, h2⟩ := h
    exact lockInv_run (lockInv_step hI h1) h2


/-- the holder of the mutex is at a place where it is held -/
def HolderInv (s : State) : Prop := ∀ t, s.lock = some t → (s.pc t).locked

theorem holder_keep (hI : HolderInv s) (p : Pc) (hpc : s'.pc = Function.update s.pc t p)
    (hl : s'.lock = s.lock) (hp : (s.pc t).locked → p.locked) : HolderInv s' := by
  intro u hu
  rw [hl] at hu
  rw [hpc]
  by_cases e : u = t
  · subst e; rw [Function.update_self]; exact hp (hI u hu)
  · rw [Function.update_of_ne e]; exact hI u hu

theorem holder_take (p : Pc) (hpc : s'.pc = Function.update s.pc t p)
    (hl : s'.lock = some t) (hp : p.locked) : HolderInv s' := by
  intro u hu
  rw [hl] at hu
  injection hu with hu
  subst hu
  rw [hpc, Function.update_self]; exact hp

theorem holder_free (hl : s'.lock = none) : HolderInv s' := by
  intro u hu
  rw [hl] at hu; cases hu

theorem access_free {c : Class} (m : ℕ → Elem) (code : Code Ans) :
    (access s t o m c code).lock = s.lock ∧ ∃ p, (access s t o m c code).pc = Function.update s.pc t p := by
  cases code with
  | get r k => cases r <;> exact ⟨rfl, _, rfl⟩
  | put r e k => cases r <;> exact ⟨rfl, _, rfl⟩
  | _ => exact ⟨rfl, _, rfl⟩

theorem holder_step (hI : HolderInv s) {a : Act} (h : step bk s t a = some s') : HolderInv s' := by
  cases a with
  | next =>
    simp only [step] at h
    cases hq : s.pc t with
    | idle => rw [hq] at h; simp [proceed] at h
    | dead => rw [hq] at h; simp [proceed] at h
    | waiting j =>
      rw [hq] at h
      have hn : ¬ (s.pc t).locked := by rw [hq]; exact fun h => h
      cases j <;> simp only [proceed] at h <;> split at h
      · split at h <;> injection h with h <;> subst h
        · exact holder_take (t := t) (s := s) _ rfl rfl trivial
        · exact holder_keep hI _ rfl rfl fun h => absurd h hn
      · cases h
      · split at h
        · injection h with h; subst h
          exact holder_keep hI _ rfl rfl fun h => absurd h hn
        · split at h <;> injection h with h <;> subst h
          · exact holder_take (t := t) (s := s) _ rfl rfl trivial
          · exact holder_keep hI _ rfl rfl fun h => absurd h hn
      · cases h
    | scan j d rest =>
      rw [hq] at h
      cases rest with
      | nil =>
        cases j <;> simp only [proceed] at h <;> injection h with h <;> subst h <;> exact holder_free rfl
      | cons e rest =>
        simp only [proceed] at h
        split at h
        · split at h
          · split at h <;> injection h with h <;> subst h <;>
              exact holder_keep hI _ rfl rfl fun _ => trivial
          · injection h with h; subst h
            exact holder_free rfl
        · injection h with h; subst h
          exact holder_keep hI _ rfl rfl fun _ => trivial
    | compare j d e rest =>
      rw [hq] at h
      simp only [proceed] at h
      split at h
      · split at h
        · split at h <;> injection h with h <;> subst h
          · exact holder_free rfl
          · exact holder_keep hI _ rfl rfl fun _ => trivial
        · injection h with h; subst h
          exact holder_keep hI _ rfl rfl fun _ => trivial
      · injection h with h; subst h
        exact holder_free rfl
    | deleting o e =>
      rw [hq] at h
      simp only [proceed] at h
      injection h with h; subst h
      exact holder_free rfl
    | working o m code =>
      rw [hq] at h
      have hn : ¬ (s.pc t).locked := by rw [hq]; exact fun h => h
      simp only [proceed] at h
      split at h
      · injection h with h; subst h
        exact holder_keep hI _ rfl rfl fun h => absurd h hn
      · injection h with h; subst h
        obtain ⟨e1, p, e2⟩ := access_free (s := s) (t := t) (o := o) m code
        exact holder_keep hI p e2 e1 fun h => absurd h hn
  | make k E =>
    simp only [step] at h
    split at h
    · next hq _ =>
      injection h with h; subst h
      exact holder_keep hI _ rfl rfl fun h => by rw [hq] at h; exact h
    · next hq _ =>
      injection h with h; subst h
      exact holder_keep hI _ rfl rfl fun h => by rw [hq] at h; exact h
    · cases h
  | copy o =>
    simp only [step] at h
    split at h
    · split at h
      · injection h with h; subst h
        exact hI
      · cases h
    · cases h
  | release o =>
    simp only [step] at h
    split at h
    · next hq =>
      split at h
      · split at h <;> injection h with h <;> subst h
        · exact hI
        · exact holder_keep (t := t) hI _ rfl rfl fun h => by rw [hq] at h; exact h
      · cases h
    · cases h
  | work o op =>
    simp only [step] at h
    split at h
    · next hq _ =>
      split at h
      · injection h with h; subst h
        exact holder_keep hI _ rfl rfl fun h => by rw [hq] at h; exact h
      · cases h
    · cases h

theorem holder_run : ∀ {as : List (ℕ × Act)} {s s' : State}, HolderInv s → run bk s as = some s' → HolderInv s'
  | [], _, _, hI, h => by cases h; exact hI
  | (t, a) :: as, s, s', hI, h => by
    simp only [run, Option.bind_eq_some_iff] at h
    obtain ⟨s1, h1, h2⟩ := h
    exact holder_run (holder_step hI h1) h2

/-- steps until the mutex is released -/
def Pc.left : Pc → ℕ
  | .scan _ _ rest => 2 * rest.length + 2
  | .compare _ _ _ rest => 2 * rest.length + 3
  | .deleting _ _ => 1
  | _ => 0

theorem locked_step (hl : (s.pc t).locked) (hlk : s.lock = some t) : ∃ s', step bk s t .next = some s' ∧
    (s'.lock = none ∨ ((s'.pc t).locked ∧ s'.lock = some t ∧ (s'.pc t).left < (s.pc t).left)) := by
  have hg : ∀ (s : State) p, (s.goto t p).pc t = p := fun s p => by simp [State.goto]
  simp only [step]
  cases hq : s.pc t with
  | idle => rw [hq] at hl; exact hl.elim
  | dead => rw [hq] at hl; exact hl.elim
  | waiting j => rw [hq] at hl; exact hl.elim
  | working o m c => rw [hq] at hl; exact hl.elim
  | scan j d rest =>
    cases rest with
    | nil => cases j <;> exact ⟨_, rfl, .inl rfl⟩
    | cons e rest =>
      simp only [proceed]
      split
      · split
        · split
          · exact ⟨_, rfl, .inr (by rw [hg]; exact ⟨trivial, hlk, by simp [Pc.left]; omega⟩)⟩
          · exact ⟨_, rfl, .inr (by rw [hg]; exact ⟨trivial, hlk, by simp [Pc.left]⟩)⟩
        · exact ⟨_, rfl, .inl rfl⟩
      · exact ⟨_, rfl, .inr (by rw [hg]; exact ⟨trivial, hlk, by simp [Pc.left]⟩)⟩
  | compare j d e rest =>
    simp only [proceed]
    split
    · split
      · split
        · exact ⟨_, rfl, .inl rfl⟩
        · exact ⟨_, rfl, .inr (by rw [hg]; exact ⟨trivial, hlk, by simp [Pc.left]⟩)⟩
      · exact ⟨_, rfl, .inr (by rw [hg]; exact ⟨trivial, hlk, by simp [Pc.left]⟩)⟩
    · exact ⟨_, rfl, .inl rfl⟩
  | deleting o e => exact ⟨_, rfl, .inl rfl⟩

theorem locked_released : ∀ (n : ℕ) {s : State}, (s.pc t).left ≤ n → (s.pc t).locked → s.lock = some t →
    ∃ m s', run bk s (List.replicate m (t, .next)) = some s' ∧ s'.lock = none
  | 0, s, h, hl, _ => by
    cases hq : s.pc t <;> rw [hq] at h hl <;> simp_all [Pc.left, Pc.locked]
  | n + 1, s, h, hl, hlk => by
    obtain ⟨s1, h1, h2⟩ := locked_step (bk := bk) hl hlk
    rcases h2 with h2 | ⟨h2, h3, h4⟩
    · exact ⟨1, s1, by simp [run, h1], h2⟩
    · obtain ⟨m, s2, h5, h6⟩ := locked_released n (s := s1) (by omega) h2 h3
      exact ⟨m + 1, s2, by rw [List.replicate_succ]; simp only [run, h1, Option.bind_some]; exact h5, h6⟩

end EAntic.Concurrent
