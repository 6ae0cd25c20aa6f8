import Verif.Lemmas.Concurrent

/-!
# What one of the threads sees

If the fields of different threads have different polynomials, then what a thread sees of the state
changes by its own steps only, and as if it were alone.
-/

namespace EAntic.Concurrent

open Fields (Class create)

variable {P : ℕ → List ℤ × ℤ → Prop} {bk : Dbl → ℕ} {s s' : State} {t u : ℕ} {o : Addr}

/-- entries of thread `t` -/
def own (t : ℕ) (l : List (Addr × Dbl)) : List (Addr × Dbl) := l.filter fun e => e.1.1 = t

/-- where the thread `t` would be alone -/
def Pc.only (t : ℕ) : Pc → Pc
  | .scan j d rest => .scan j d (own t rest)
  | .compare j d e rest => .compare j d e (own t rest)
  | p => p

/-- the state of thread `t` alone -/
def State.only (t : ℕ) (s : State) : State where
  objs o := if o.1 = t then s.objs o else none
  reg := own t s.reg
  next u := if u = t then s.next t else 0
  lock := if s.lock = some t then some t else none
  handles := s.handles.filter fun h => h.1 = t
  pc u := if u = t then (s.pc t).only t else .idle
  out u := if u = t then s.out t else []

theorem only_init : State.init.only t = .init := by
  simp only [State.only, State.init, own, List.filter_nil, Pc.only, ite_self, reduceCtorEq, if_false]

theorem State.ext' {a b : State} (h1 : a.objs = b.objs) (h2 : a.reg = b.reg) (h3 : a.next = b.next)
    (h4 : a.lock = b.lock) (h5 : a.handles = b.handles) (h6 : a.pc = b.pc) (h7 : a.out = b.out) : a = b := by
  cases a; cases b; simp_all

theorem only_goto (s : State) (p : Pc) : (s.goto t p).only t = (s.only t).goto t (p.only t) := by
  refine State.ext' rfl rfl rfl rfl rfl ?_ rfl
  funext u
  by_cases e : u = t
  · subst e; simp [State.only, State.goto]
  · simp [State.only, State.goto, e]

theorem only_put (s : State) (h : o.1 = t) (c : Option Class) :
    (s.put o c).only t = (s.only t).put o c := by
  refine State.ext' ?_ rfl rfl rfl rfl rfl rfl
  funext i
  by_cases e : i = o
  · subst e; simp [State.only, State.put, h]
  · simp [State.only, State.put, Function.update_of_ne e]

theorem only_objs (s : State) (h : o.1 = t) : (s.only t).objs o = s.objs o := by
  simp [State.only, h]

theorem only_pc (s : State) : (s.only t).pc t = (s.pc t).only t := by simp [State.only]

theorem Owner.thread (hP : ∀ t u q, P t q → P u q → t = u) (hI : Inv P s) (h : Owner P s o t) : o.1 = t := by
  obtain ⟨q, e, hq⟩ := h
  exact hP _ _ _ (hI.placed.alloc o q e) hq

theorem only_eq (ho : ∀ o : Addr, o.1 = t → s'.objs o = s.objs o) (hr : own t s'.reg = own t s.reg)
    (hn : s'.next t = s.next t) (hl : s'.lock = some t ↔ s.lock = some t)
    (hh : (s'.handles.filter fun h => h.1 = t) = s.handles.filter fun h => h.1 = t)
    (hp : s'.pc t = s.pc t) (hout : s'.out t = s.out t) : s'.only t = s.only t := by
  refine State.ext' ?_ hr ?_ ?_ hh ?_ ?_
  · funext o
    by_cases e : o.1 = t
    · simp [State.only, e, ho]
    · simp [State.only, e]
  · simp [State.only, hn]
  · simp [State.only, hl]
  · simp [State.only, hp]
  · simp [State.only, hout]

theorem own_erase_other {l : List (Addr × Dbl)} {e : Addr × Dbl} (h : e.1.1 ≠ t) :
    own t (l.erase e) = own t l := by
  unfold own
  induction l with
  | nil => rfl
  | cons a l ih =>
    by_cases ea : a = e
    · subst ea; simp [h]
    · rw [List.erase_cons_tail (by simpa using ea)]
      simp only [List.filter_cons, ih]

theorem own_erase {l : List (Addr × Dbl)} {e : Addr × Dbl} (h : e.1.1 = t) :
    own t (l.erase e) = (own t l).erase e := by
  unfold own
  induction l with
  | nil => rfl
  | cons a l ih =>
    by_cases ea : a = e
    · subst ea; simp [h]
    · rw [List.erase_cons_tail (by simpa using ea)]
      by_cases ha : a.1.1 = t
      · simp only [List.filter_cons, ha, decide_true, if_true, ih]
        rw [List.erase_cons_tail (by simpa using ea)]
      · simp only [List.filter_cons, ha, decide_false, Bool.false_eq_true, if_false, ih]

theorem handles_erase_other {l : List (ℕ × Addr)} {h : ℕ × Addr} (hh : h.1 ≠ t) :
    ((l.erase h).filter fun h => h.1 = t) = l.filter fun h => h.1 = t := by
  induction l with
  | nil => rfl
  | cons a l ih =>
    by_cases ea : a = h
    · subst ea; simp [hh]
    · rw [List.erase_cons_tail (by simpa using ea)]
      simp only [List.filter_cons, ih]

theorem handles_erase {l : List (ℕ × Addr)} {h : ℕ × Addr} (hh : h.1 = t) :
    ((l.erase h).filter fun h => h.1 = t) = (l.filter fun h => h.1 = t).erase h := by
  induction l with
  | nil => rfl
  | cons a l ih =>
    by_cases ea : a = h
    · subst ea; simp [hh]
    · rw [List.erase_cons_tail (by simpa using ea)]
      by_cases ha : a.1 = t
      · simp only [List.filter_cons, ha, decide_true, if_true, ih]
        rw [List.erase_cons_tail (by simpa using ea)]
      · simp only [List.filter_cons, ha, decide_false, Bool.false_eq_true, if_false, ih]

/-! ## Steps of others -/

theorem access_other (hut : u ≠ t) (ho : o.1 = u) {c : Class} (m : ℕ → Elem) (code : Code Ans) :
    (access s u o m c code).only t = s.only t := by
  have hot : ∀ i : Addr, i.1 = t → i ≠ o := by rintro i h rfl; exact hut (ho.symm.trans h)
  have hg : ∀ p : Pc, Function.update s.pc u p t = s.pc t := fun p => Function.update_of_ne hut.symm _ _
  cases code with
  | ret b =>
    exact only_eq (fun _ _ => rfl) rfl rfl Iff.rfl rfl (hg _) (Function.update_of_ne hut.symm _ _)
  | stop b => exact only_eq (fun _ _ => rfl) rfl rfl Iff.rfl rfl (hg _) rfl
  | get r k => cases r <;> exact only_eq (fun _ _ => rfl) rfl rfl Iff.rfl rfl (hg _) rfl
  | put r e k =>
    cases r with
    | user n => exact only_eq (fun i h => Function.update_of_ne (hot i h) _ _) rfl rfl Iff.rfl rfl (hg _) rfl
    | tmp n => exact only_eq (fun _ _ => rfl) rfl rfl Iff.rfl rfl (hg _) rfl
  | getField k => exact only_eq (fun _ _ => rfl) rfl rfl Iff.rfl rfl (hg _) rfl
  | putField f k => exact only_eq (fun i h => Function.update_of_ne (hot i h) _ _) rfl rfl Iff.rfl rfl (hg _) rfl

theorem proceed_other (hP : ∀ t u q, P t q → P u q → t = u) (hI : Inv P s) (hut : u ≠ t)
    (he : ∀ o e, s.pc u = .deleting o e → Owner P s e.1 u)
    (h : proceed bk s u (s.pc u) = some s') : s'.only t = s.only t := by
  have hg : ∀ p : Pc, Function.update s.pc u p t = s.pc t := fun p => Function.update_of_ne hut.symm _ _
  have hp := hI.pc u
  have hlk := hI.lock u
  have hlt : some u ≠ some t := fun e => hut (by injection e)
  have hl0 : (none : Option ℕ) = some t ↔ some u = some t := by
    constructor
    · intro e; cases e
    · intro e; exact absurd e hlt
  have hl1 : some u = some t ↔ (none : Option ℕ) = some t := hl0.symm
  cases hq : s.pc u with
  | idle => rw [hq] at h; simp [proceed] at h
  | dead => rw [hq] at h; simp [proceed] at h
  | waiting j =>
    rw [hq] at h hp
    cases j with
    | make c =>
      simp only [proceed] at h
      by_cases hl : s.lock = none
      · rw [if_pos hl] at h
        split at h <;> injection h with h <;> subst h
        · exact only_eq (fun _ _ => rfl) rfl rfl (by rw [hl]; exact hl1) rfl (hg _) rfl
        · exact only_eq (fun _ _ => rfl) rfl rfl Iff.rfl rfl (hg _) rfl
      · rw [if_neg hl] at h; cases h
    | drop o =>
      have ho := Owner.thread hP hI hp.1
      simp only [proceed] at h
      by_cases hl : s.lock = none
      · rw [if_pos hl] at h
        split at h
        · injection h with h; subst h
          exact only_eq (fun _ _ => rfl) rfl rfl Iff.rfl rfl (hg _) rfl
        · split at h <;> injection h with h <;> subst h
          · refine only_eq (fun i h => Function.update_of_ne ?_ _ _) rfl rfl (by rw [hl]; exact hl1) rfl (hg _) rfl
            rintro rfl; exact hut (ho.symm.trans h)
          · exact only_eq (fun _ _ => rfl) rfl rfl Iff.rfl rfl (hg _) rfl
      · rw [if_neg hl] at h; cases h
  | scan j d rest =>
    rw [hq] at h hp hlk
    have hl : s.lock = some u := hlk trivial
    cases rest with
    | nil =>
      cases j with
      | make c =>
        simp only [proceed] at h
        injection h with h; subst h
        refine only_eq (fun i h => Function.update_of_ne ?_ _ _) ?_ (Function.update_of_ne hut.symm _ _)
          (by rw [hl]; exact hl0) ?_ (hg _) rfl
        · rintro rfl; exact hut h
        · simp [own, State.goto, State.put, hut]
        · simp [State.goto, State.put, hut]
      | drop o =>
        simp only [proceed] at h
        injection h with h; subst h
        exact only_eq (fun _ _ => rfl) rfl rfl (by rw [hl]; exact hl0) rfl (hg _) rfl
    | cons e rest =>
      simp only [proceed] at h
      split at h
      · split at h
        · split at h <;> injection h with h <;> subst h <;>
            exact only_eq (fun _ _ => rfl) rfl rfl Iff.rfl rfl (hg _) rfl
        · injection h with h; subst h
          exact only_eq (fun _ _ => rfl) rfl rfl (by rw [hl]; exact hl0) rfl (hg _) rfl
      · injection h with h; subst h
        exact only_eq (fun _ _ => rfl) rfl rfl Iff.rfl rfl (hg _) rfl
  | compare j d e rest =>
    rw [hq] at h hp hlk
    have hl : s.lock = some u := hlk trivial
    simp only [proceed] at h
    split at h
    · split at h
      · split at h <;> injection h with h <;> subst h
        · refine only_eq (fun _ _ => rfl) rfl rfl (by rw [hl]; exact hl0) ?_ (hg _) rfl
          simp [State.goto, hut]
        · exact only_eq (fun _ _ => rfl) rfl rfl Iff.rfl rfl (hg _) rfl
      · injection h with h; subst h
        exact only_eq (fun _ _ => rfl) rfl rfl Iff.rfl rfl (hg _) rfl
    · injection h with h; subst h
      exact only_eq (fun _ _ => rfl) rfl rfl (by rw [hl]; exact hl0) rfl (hg _) rfl
  | deleting o e =>
    have he := he o e hq
    rw [hq] at h hp hlk
    have hl : s.lock = some u := hlk trivial
    simp only [proceed] at h
    injection h with h; subst h
    refine only_eq (fun i h => Function.update_of_ne ?_ _ _) (own_erase_other ?_) rfl
      (by rw [hl]; exact hl0) rfl (hg _) rfl
    · rintro rfl; exact hut ((Owner.thread hP hI hp.1).symm.trans h)
    · intro e'; exact hut ((Owner.thread hP hI he).symm.trans e')
  | working o m code =>
    rw [hq] at h hp
    simp only [proceed] at h
    split at h
    · injection h with h; subst h
      exact only_eq (fun _ _ => rfl) rfl rfl Iff.rfl rfl (hg _) rfl
    · injection h with h; subst h
      exact access_other hut (Owner.thread hP hI hp) m code

theorem step_other (hP : ∀ t u q, P t q → P u q → t = u) (hI : Inv P s) (hut : u ≠ t)
    (he : ∀ o e, s.pc u = .deleting o e → Owner P s e.1 u) {a : Act}
    (h : step bk s u a = some s') : s'.only t = s.only t := by
  have hg : ∀ p : Pc, Function.update s.pc u p t = s.pc t := fun p => Function.update_of_ne hut.symm _ _
  cases a with
  | next => exact proceed_other hP hI hut he h
  | make k E =>
    simp only [step] at h
    split at h
    · injection h with h; subst h
      exact only_eq (fun _ _ => rfl) rfl rfl Iff.rfl rfl (hg _) rfl
    · injection h with h; subst h
      exact only_eq (fun _ _ => rfl) rfl rfl Iff.rfl rfl (hg _) rfl
    · cases h
  | copy o =>
    simp only [step] at h
    split at h
    · split at h
      · injection h with h; subst h
        exact only_eq (fun _ _ => rfl) rfl rfl Iff.rfl (by simp [hut]) rfl rfl
      · cases h
    · cases h
  | release o =>
    simp only [step] at h
    split at h
    · split at h
      · split at h <;> injection h with h <;> subst h
        · exact only_eq (fun _ _ => rfl) rfl rfl Iff.rfl (handles_erase_other hut) rfl rfl
        · exact only_eq (fun _ _ => rfl) rfl rfl Iff.rfl (handles_erase_other hut) (hg _) rfl
      · cases h
    · cases h
  | work o op =>
    simp only [step] at h
    split at h
    · split at h
      · injection h with h; subst h
        exact only_eq (fun _ _ => rfl) rfl rfl Iff.rfl rfl (hg _) rfl
      · cases h
    · cases h

/-! ## Steps of the thread -/

theorem access_self (ho : o.1 = t) {c : Class} (m : ℕ → Elem) (code : Code Ans) :
    (access s t o m c code).only t = access (s.only t) t o m c code := by
  cases code with
  | ret b =>
    simp only [access, only_goto, Pc.only]
    congr 1
    refine State.ext' rfl rfl rfl rfl rfl rfl ?_
    funext i
    by_cases e : i = t
    · subst e; simp [State.only]
    · simp [State.only, e]
  | stop b => simp only [access, only_goto, Pc.only]
  | get r k => cases r <;> simp only [access, only_goto, Pc.only]
  | put r e k => cases r <;> simp only [access, only_goto, only_put _ ho, Pc.only]
  | getField k => simp only [access, only_goto, Pc.only]
  | putField f k => simp only [access, only_goto, only_put _ ho, Pc.only]

/-- the entries that a thread looks at are registered -/
def PcReg (P : ℕ → List ℤ × ℤ → Prop) (s : State) (t : ℕ) : Pc → Prop
  | .scan _ _ rest => ∀ e ∈ rest, e ∈ s.reg
  | .compare _ _ e rest => e ∈ s.reg ∧ ∀ e ∈ rest, e ∈ s.reg
  | .deleting _ e => e ∈ s.reg ∧ Owner P s e.1 t
  | _ => True

theorem only_wanted (hP : ∀ t u q, P t q → P u q → t = u) (hI : Inv P s) {j : Job} (hj : JobOk P s t j) :
    (s.only t).wanted j = s.wanted j := by
  cases j with
  | make c => rfl
  | drop o => exact only_objs s (Owner.thread hP hI hj.1)

theorem only_unlock (s : State) : ({ s with lock := none } : State).only t = { s.only t with lock := none } := by
  refine State.ext' rfl rfl rfl ?_ rfl rfl rfl
  simp [State.only]

theorem only_lock (s : State) : ({ s with lock := some t } : State).only t =
    { s.only t with lock := some t } := by
  refine State.ext' rfl rfl rfl ?_ rfl rfl rfl
  simp [State.only]

theorem proceed_self (hP : ∀ t u q, P t q → P u q → t = u) (hI : Inv P s) (hR : PcReg P s t (s.pc t))
    (hd : ¬ s.Dangling) (h : proceed bk s t (s.pc t) = some s') :
    s'.only t = s.only t ∨ proceed bk (s.only t) t ((s.only t).pc t) = some (s'.only t) := by
  have hp := hI.pc t
  have hlk := hI.lock t
  rw [only_pc]
  cases hq : s.pc t with
  | idle => rw [hq] at h; simp [proceed] at h
  | dead => rw [hq] at h; simp [proceed] at h
  | waiting j =>
    rw [hq] at h hp
    right
    cases j with
    | make c =>
      simp only [proceed, Pc.only] at h ⊢
      by_cases hl : s.lock = none
      · rw [if_pos hl] at h
        rw [if_pos (by simp [State.only, hl])]
        split at h <;> injection h with h <;> subst h
        · next x hx => rw [only_goto, only_lock s]; rfl
        · next hx =>
          rw [only_goto]
          cases hc : c.hash with
          | ok x => exact absurd hc (hx x)
          | _ => rfl
      · rw [if_neg hl] at h; cases h
    | drop o =>
      have ho := Owner.thread hP hI hp.1
      simp only [proceed, Pc.only] at h ⊢
      rw [only_objs s ho]
      by_cases hl : s.lock = none
      · rw [if_pos hl] at h
        rw [if_pos (by simp [State.only, hl])]
        cases hob : s.objs o with
        | none =>
          rw [hob] at h
          injection h with h; subst h
          rw [only_goto]; rfl
        | some c =>
          rw [hob] at h
          simp only at h ⊢
          split at h <;> injection h with h <;> subst h
          · next x hx => rw [only_goto, only_put _ ho, only_lock s]; rfl
          · next hx =>
            rw [only_goto]
            cases hc : c.hash with
            | ok x => exact absurd hc (hx x)
            | _ => rfl
      · rw [if_neg hl] at h; cases h
  | scan j d rest =>
    rw [hq] at h hp hlk hR
    have hl : s.lock = some t := hlk trivial
    cases rest with
    | nil =>
      right
      cases j with
      | make c =>
        simp only [proceed, Pc.only, own, List.filter_nil] at h ⊢
        injection h with h; subst h
        rw [only_goto, only_put (o := (t, s.next t)) _ rfl]
        have e1 : (s.only t).next t = s.next t := by simp [State.only]
        rw [e1]
        congr 3
        refine State.ext' rfl ?_ ?_ ?_ ?_ rfl rfl
        · simp [State.only, own]
        · funext i
          by_cases e : i = t
          · subst e; simp [State.only]
          · simp [State.only, e]
        · simp [State.only]
        · simp [State.only]
      | drop o =>
        simp only [proceed, Pc.only, own, List.filter_nil] at h ⊢
        injection h with h; subst h
        rw [only_goto, only_unlock s]; rfl
    | cons e rest =>
      by_cases het : e.1.1 = t
      · right
        have hc : own t (e :: rest) = e :: own t rest := by simp [own, het]
        simp only [proceed, Pc.only, hc, only_objs s het, only_wanted hP hI hp] at h ⊢
        by_cases hb : bk e.2 = bk d
        · rw [if_pos hb] at h ⊢
          split at h
          · split at h <;> injection h with h <;> subst h
            · next hs => rw [if_pos hs, only_goto]; rfl
            · next hs => rw [if_neg hs, only_goto]; rfl
          · next hx =>
            injection h with h; subst h
            cases h1 : s.objs e.1 with
            | none => rw [only_goto, only_unlock s]; rfl
            | some c' =>
              cases h2 : s.wanted j with
              | none => rw [only_goto, only_unlock s]; rfl
              | some c => exact absurd h2 (hx c' c h1)
        · rw [if_neg hb] at h ⊢
          injection h with h; subst h
          rw [only_goto]; rfl
      · left
        have hc : own t (e :: rest) = own t rest := by simp [own, het]
        have hsk : (s.goto t (.scan j d rest)).only t = s.only t := by
          rw [only_goto]
          refine State.ext' rfl rfl rfl rfl rfl ?_ rfl
          funext i
          by_cases hi : i = t
          · subst hi; simp [State.goto, State.only, hq, Pc.only, hc]
          · simp [State.goto, State.only, hi]
        simp only [proceed] at h
        by_cases hb : bk e.2 = bk d
        · rw [if_pos hb] at h
          split at h
          · next c' c h1 h2 =>
            split at h <;> injection h with h <;> subst h
            · next hs =>
              exfalso
              simp only [samePol, Bool.and_eq_true, decide_eq_true_eq] at hs
              have h3 := wanted_key hp h2
              have h4 := hI.placed.alloc e.1 (c'.K.pol, c'.den) (by simp [State.key, h1])
              rw [hs.1, hs.2] at h4
              exact het (hP _ _ _ h4 h3)
            · exact hsk
          · next hx =>
            exfalso
            cases h1 : s.objs e.1 with
            | none => exact hd ⟨e, hR e (by simp), h1⟩
            | some c' =>
              cases h2 : s.wanted j with
              | none =>
                cases j with
                | make c => cases h2
                | drop o =>
                  obtain ⟨⟨q, e, -⟩, -⟩ := hp
                  have h2 : s.objs o = none := h2
                  simp [State.key, h2] at e
              | some c => exact hx c' c h1 h2
        · rw [if_neg hb] at h
          injection h with h; subst h
          exact hsk
  | compare j d e rest =>
    rw [hq] at h hp hlk
    right
    have hl : s.lock = some t := hlk trivial
    have het := Owner.thread hP hI hp.2
    simp only [proceed, Pc.only, only_objs s het, only_wanted hP hI hp.1] at h ⊢
    split at h
    · split at h
      · next hs =>
        rw [if_pos hs]
        split at h <;> injection h with h <;> subst h
        · simp only [only_goto, Pc.only]
          congr 2
          refine State.ext' rfl rfl rfl ?_ ?_ rfl rfl
          · simp [State.only]
          · simp [State.only]
        · simp only [only_goto, Pc.only]
      · next hs =>
        injection h with h; subst h
        rw [if_neg hs, only_goto]; rfl
    · next hx =>
      injection h with h; subst h
      cases h1 : s.objs e.1 with
      | none => rw [only_goto, only_unlock s]; rfl
      | some c' =>
        cases h2 : s.wanted j with
        | none => rw [only_goto, only_unlock s]; rfl
        | some c => exact absurd h2 (hx c' c h1)
  | deleting o e =>
    rw [hq] at h hp hR
    right
    have ho := Owner.thread hP hI hp.1
    have het := Owner.thread hP hI hR.2
    simp only [proceed, Pc.only] at h ⊢
    injection h with h; subst h
    rw [only_goto, only_put _ ho]
    congr 3
    refine State.ext' rfl ?_ rfl ?_ rfl rfl rfl
    · simp [State.only, own_erase het]
    · simp [State.only]
  | working o m code =>
    rw [hq] at h hp
    right
    have ho := Owner.thread hP hI hp
    simp only [proceed, Pc.only, only_objs s ho] at h ⊢
    cases h1 : s.objs o with
    | none =>
      rw [h1] at h
      injection h with h; subst h
      rw [only_goto]; rfl
    | some c =>
      rw [h1] at h
      injection h with h; subst h
      rw [access_self ho]

theorem only_handles {h : ℕ × Addr} (hh : h.1 = t) : h ∈ (s.only t).handles ↔ h ∈ s.handles := by
  simp [State.only, hh]

theorem step_self (hP : ∀ t u q, P t q → P u q → t = u) (hI : Inv P s) (hR : PcReg P s t (s.pc t))
    (hd : ¬ s.Dangling) {a : Act} (h : step bk s t a = some s') :
    (a = .next ∧ s'.only t = s.only t) ∨ step bk (s.only t) t a = some (s'.only t) := by
  cases a with
  | next =>
    rcases proceed_self hP hI hR hd h with h | h
    · exact .inl ⟨rfl, h⟩
    · exact .inr h
  | make k E =>
    right
    simp only [step, only_pc] at h ⊢
    cases hq : s.pc t <;> rw [hq] at h <;> try (cases h)
    cases hc : create k E <;> rw [hc] at h <;> injection h with h <;> subst h <;>
      simp only [Pc.only, only_goto]
  | copy o =>
    right
    simp only [step, only_pc] at h ⊢
    cases hq : s.pc t <;> rw [hq] at h <;> try (cases h)
    simp only [Pc.only] at h ⊢
    by_cases hm : (t, o) ∈ s.handles
    · rw [if_pos hm] at h
      rw [if_pos ((only_handles rfl).2 hm)]
      injection h with h; subst h
      congr 1
      exact State.ext' rfl rfl rfl rfl (by simp [State.only]) rfl rfl
    · rw [if_neg hm] at h; cases h
  | release o =>
    right
    simp only [step, only_pc] at h ⊢
    cases hq : s.pc t <;> rw [hq] at h <;> try (cases h)
    simp only [Pc.only] at h ⊢
    by_cases hm : (t, o) ∈ s.handles
    · rw [if_pos hm] at h
      rw [if_pos ((only_handles rfl).2 hm)]
      have e1 : (s.only t).handles.erase (t, o) = (s.handles.erase (t, o)).filter fun h => h.1 = t :=
        (handles_erase (h := (t, o)) (t := t) rfl).symm
      have hiff : o ∈ ((s.only t).handles.erase (t, o)).map (·.2) ↔ o ∈ (s.handles.erase (t, o)).map (·.2) := by
        rw [e1]
        simp only [List.mem_map, List.mem_filter, decide_eq_true_eq]
        constructor
        · rintro ⟨x, ⟨hx, -⟩, e⟩; exact ⟨x, hx, e⟩
        · rintro ⟨⟨v, o'⟩, hx, e⟩
          have e : o' = o := e
          subst e
          exact ⟨(v, o'), ⟨hx, (hI.own v o' (List.mem_of_mem_erase hx)).unique hP (hI.own t o' hm)⟩, rfl⟩
      by_cases hr : o ∈ (s.handles.erase (t, o)).map (·.2)
      · rw [if_pos hr] at h
        rw [if_pos (hiff.2 hr)]
        injection h with h; subst h
        congr 1
        exact State.ext' rfl rfl rfl rfl e1 rfl rfl
      · rw [if_neg hr] at h
        rw [if_neg (fun h => hr (hiff.1 h))]
        injection h with h; subst h
        rw [only_goto]
        congr 2
        exact State.ext' rfl rfl rfl rfl e1 rfl rfl
    · rw [if_neg hm] at h; cases h
  | work o op =>
    right
    simp only [step, only_pc] at h ⊢
    cases hq : s.pc t <;> rw [hq] at h <;> try (cases h)
    cases ho : s.objs o with
    | none => rw [ho] at h; cases h
    | some c =>
      rw [ho] at h
      simp only [Pc.only] at h ⊢
      by_cases hm : (t, o) ∈ s.handles
      · rw [if_pos hm] at h
        have hot := Owner.thread hP hI (hI.own t o hm)
        rw [only_objs s hot, ho]
        simp only
        rw [if_pos ((only_handles rfl).2 hm)]
        injection h with h; subst h
        rw [only_goto]; rfl
      · rw [if_neg hm] at h; cases h

/-! ## The registry -/

/-- what is known of registered addresses and of threads that look at entries -/
structure RegInv (P : ℕ → List ℤ × ℤ → Prop) (s : State) : Prop where
  used : ∀ e ∈ s.reg, e.1.2 < s.next e.1.1
  pc : ∀ t, PcReg P s t (s.pc t)

theorem pcReg_unlocked {p : Pc} (h : ¬ p.locked) : PcReg P s t p := by
  cases p <;> first | trivial | exact absurd trivial h

theorem access_facts {c : Class} (hc : s.objs o = some c) (m : ℕ → Elem) (code : Code Ans) :
    (access s t o m c code).reg = s.reg ∧ (access s t o m c code).key = s.key ∧
    (access s t o m c code).next = s.next ∧
    ∃ p, ¬ p.locked ∧ (access s t o m c code).pc = Function.update s.pc t p := by
  cases code with
  | ret b => exact ⟨rfl, rfl, rfl, .idle, fun h => h, rfl⟩
  | stop b => exact ⟨rfl, rfl, rfl, .dead, fun h => h, rfl⟩
  | get r k => cases r <;> exact ⟨rfl, rfl, rfl, .working _ _ _, fun h => h, rfl⟩
  | put r e k =>
    cases r with
    | user n => exact ⟨rfl, key_put_same hc rfl rfl, rfl, .working _ _ _, fun h => h, rfl⟩
    | tmp n => exact ⟨rfl, rfl, rfl, .working _ _ _, fun h => h, rfl⟩
  | getField k => exact ⟨rfl, rfl, rfl, .working _ _ _, fun h => h, rfl⟩
  | putField f k => exact ⟨rfl, key_put_same hc rfl rfl, rfl, .working _ _ _, fun h => h, rfl⟩

/-- without the mutex the registry and the set of objects are not changed -/
theorem step_unlocked (hl : ¬ (s.pc t).locked) {a : Act} (h : step bk s t a = some s') :
    s'.reg = s.reg ∧ s'.key = s.key ∧ s'.next = s.next ∧
    ∃ p, s'.pc = Function.update s.pc t p ∧ PcReg P s' t p := by
  cases a with
  | next =>
    simp only [step] at h
    cases hq : s.pc t with
    | idle => rw [hq] at h; simp [proceed] at h
    | dead => rw [hq] at h; simp [proceed] at h
    | scan j d r => rw [hq] at hl; exact absurd trivial hl
    | compare j d e r => rw [hq] at hl; exact absurd trivial hl
    | deleting o e => rw [hq] at hl; exact absurd trivial hl
    | waiting j =>
      rw [hq] at h
      cases j with
      | make c =>
        simp only [proceed] at h
        split at h
        · split at h <;> injection h with h <;> subst h
          · exact ⟨rfl, rfl, rfl, .scan _ _ _, rfl, fun e he => he⟩
          · exact ⟨rfl, rfl, rfl, .dead, rfl, trivial⟩
        · cases h
      | drop o =>
        simp only [proceed] at h
        split at h
        · split at h
          · injection h with h; subst h
            exact ⟨rfl, rfl, rfl, .dead, rfl, trivial⟩
          · next c hc =>
            split at h <;> injection h with h <;> subst h
            · next x hx =>
              obtain ⟨e1, e2⟩ := hash_same hx
              refine ⟨rfl, ?_, rfl, .scan _ _ _, rfl, fun e he => he⟩
              rw [goto_key]
              exact key_put_same (s := { s with lock := some t }) hc e1 e2
            · exact ⟨rfl, rfl, rfl, .dead, rfl, trivial⟩
        · cases h
    | working o m code =>
      rw [hq] at h
      simp only [proceed] at h
      split at h
      · injection h with h; subst h
        exact ⟨rfl, rfl, rfl, .dead, rfl, trivial⟩
      · next c hc =>
        injection h with h; subst h
        obtain ⟨h1, h2, h3, p, h4, h5⟩ := access_facts (t := t) hc m code
        exact ⟨h1, h2, h3, p, h5, pcReg_unlocked h4⟩
  | make k E =>
    simp only [step] at h
    split at h
    · injection h with h; subst h
      exact ⟨rfl, rfl, rfl, .waiting _, rfl, trivial⟩
    · injection h with h; subst h
      exact ⟨rfl, rfl, rfl, .dead, rfl, trivial⟩
    · cases h
  | copy o =>
    simp only [step] at h
    split at h
    · next hq =>
      split at h
      · injection h with h; subst h
        exact ⟨rfl, rfl, rfl, .idle, by rw [← hq]; simp, trivial⟩
      · cases h
    · cases h
  | release o =>
    simp only [step] at h
    split at h
    · next hq =>
      split at h
      · split at h <;> injection h with h <;> subst h
        · exact ⟨rfl, rfl, rfl, .idle, by rw [← hq]; simp, trivial⟩
        · exact ⟨rfl, rfl, rfl, .waiting _, rfl, trivial⟩
      · cases h
    · cases h
  | work o op =>
    simp only [step] at h
    split at h
    · split at h
      · injection h with h; subst h
        exact ⟨rfl, rfl, rfl, .working _ _ _, rfl, trivial⟩
      · cases h
    · cases h

theorem key_none : s.key o = none ↔ s.objs o = none := by simp [State.key]

/-- a step of the thread with the mutex -/
theorem step_locked (hI : Inv P s) (hR : RegInv P s) (hl : (s.pc t).locked) {a : Act}
    (h : step bk s t a = some s') :
    (∀ e ∈ s'.reg, e.1.2 < s'.next e.1.1) ∧ (s.Dangling → s'.Dangling) ∧
    ∃ p, s'.pc = Function.update s.pc t p ∧ PcReg P s' t p := by
  have hp := hI.pc t
  have hr := hR.pc t
  cases a with
  | next =>
    simp only [step] at h
    cases hq : s.pc t with
    | idle => rw [hq] at hl; exact hl.elim
    | dead => rw [hq] at hl; exact hl.elim
    | waiting j => rw [hq] at hl; exact hl.elim
    | working o m c => rw [hq] at hl; exact hl.elim
    | scan j d rest =>
      rw [hq] at h hp hr
      cases rest with
      | nil =>
        cases j with
        | make c =>
          simp only [proceed] at h
          injection h with h; subst h
          refine ⟨?_, ?_, .idle, rfl, trivial⟩
          · intro e he
            rcases List.mem_cons.1 he with rfl | he
            · simp [State.goto, State.put]
            · have := hR.used e he
              simp only [State.goto, State.put]
              by_cases h : e.1.1 = t
              · rw [h, Function.update_self]; rw [h] at this; omega
              · rw [Function.update_of_ne h]; exact this
          · rintro ⟨e, he, ho⟩
            refine ⟨e, List.mem_cons_of_mem _ he, ?_⟩
            have := hR.used e he
            simp only [State.goto, State.put]
            rw [Function.update_of_ne, ho]
            intro h
            rw [h] at this
            simp at this
        | drop o =>
          simp only [proceed] at h
          injection h with h; subst h
          exact ⟨hR.used, fun h => h, .dead, rfl, trivial⟩
      | cons e rest =>
        have hrest : ∀ x ∈ rest, x ∈ s.reg := fun x hx => hr x (List.mem_cons_of_mem _ hx)
        simp only [proceed] at h
        split at h
        · split at h
          · split at h <;> injection h with h <;> subst h
            · exact ⟨hR.used, fun h => h, .compare _ _ _ _, rfl, hr e (by simp), hrest⟩
            · exact ⟨hR.used, fun h => h, .scan _ _ _, rfl, hrest⟩
          · injection h with h; subst h
            exact ⟨hR.used, fun h => h, .dead, rfl, trivial⟩
        · injection h with h; subst h
          exact ⟨hR.used, fun h => h, .scan _ _ _, rfl, hrest⟩
    | compare j d e rest =>
      rw [hq] at h hp hr
      simp only [proceed] at h
      split at h
      · split at h
        · split at h <;> injection h with h <;> subst h
          · exact ⟨hR.used, fun h => h, .idle, rfl, trivial⟩
          · exact ⟨hR.used, fun h => h, .deleting _ _, rfl, hr.1, hp.2⟩
        · injection h with h; subst h
          exact ⟨hR.used, fun h => h, .scan _ _ _, rfl, hr.2⟩
      · injection h with h; subst h
        exact ⟨hR.used, fun h => h, .dead, rfl, trivial⟩
    | deleting o e =>
      rw [hq] at h hp hr
      simp only [proceed] at h
      injection h with h; subst h
      refine ⟨fun x hx => hR.used x (List.mem_of_mem_erase hx), ?_, .idle, rfl, trivial⟩
      rintro ⟨x, hx, ho⟩
      have hne : x ≠ e := by
        rintro rfl
        obtain ⟨q, hk, -⟩ := hr.2
        rw [key_none.2 ho] at hk; cases hk
      refine ⟨x, (List.mem_erase_of_ne hne).2 hx, ?_⟩
      simp only [State.goto, State.put]
      by_cases h : x.1 = o
      · rw [h, Function.update_self]
      · rw [Function.update_of_ne h, ho]
  | make k E =>
    simp only [step] at h
    split at h
    · next hq _ => rw [hq] at hl; exact hl.elim
    · next hq _ => rw [hq] at hl; exact hl.elim
    · cases h
  | copy o =>
    simp only [step] at h
    split at h
    · next hq => rw [hq] at hl; exact hl.elim
    · cases h
  | release o =>
    simp only [step] at h
    split at h
    · next hq => rw [hq] at hl; exact hl.elim
    · cases h
  | work o op =>
    simp only [step] at h
    split at h
    · next hq _ => rw [hq] at hl; exact hl.elim
    · cases h

theorem step_regInv (hI : Inv P s) (hR : RegInv P s) {a : Act} (h : step bk s t a = some s') :
    RegInv P s' ∧ (s.Dangling → s'.Dangling) := by
  by_cases hl : (s.pc t).locked
  · obtain ⟨h1, h2, p, h3, h4⟩ := step_locked hI hR hl h
    refine ⟨⟨h1, fun u => ?_⟩, h2⟩
    rw [h3]
    by_cases e : u = t
    · subst e; rw [Function.update_self]; exact h4
    · rw [Function.update_of_ne e]
      refine pcReg_unlocked fun hu => e ?_
      have := (hI.lock u hu).symm.trans (hI.lock t hl)
      injection this
  · obtain ⟨h1, h2, h3, p, h4, h5⟩ := step_unlocked (P := P) hl h
    refine ⟨⟨by rw [h1, h3]; exact hR.used, fun u => ?_⟩, ?_⟩
    · rw [h4]
      by_cases e : u = t
      · subst e; rw [Function.update_self]; exact h5
      · rw [Function.update_of_ne e]
        have := hR.pc u
        cases hq : s.pc u with
        | scan j d r => rw [hq] at this; exact fun x hx => h1 ▸ this x hx
        | compare j d x r => rw [hq] at this; exact ⟨h1 ▸ this.1, fun x hx => h1 ▸ this.2 x hx⟩
        | deleting o x =>
          rw [hq] at this
          refine ⟨h1 ▸ this.1, ?_⟩
          unfold Owner
          rw [h2]
          exact this.2
        | _ => trivial
    · rintro ⟨e, he, ho⟩
      exact ⟨e, h1 ▸ he, key_none.1 (by rw [h2]; exact key_none.2 ho)⟩

theorem regInv_init : RegInv P .init := ⟨fun _ h => by simp [State.init] at h, fun _ => trivial⟩

theorem run_dangling (hP : ∀ t u q, P t q → P u q → t = u) : ∀ {as : List (ℕ × Act)} {s s' : State},
    Inv P s → RegInv P s → (∀ t k E, (t, Act.make k E) ∈ as → P t (k.field.nf.pol, k.den)) →
    run bk s as = some s' → s.Dangling → s'.Dangling
  | [], _, _, _, _, _, h, hd => by cases h; exact hd
  | (t, a) :: as, s, s', hI, hR, ha, h, hd => by
    simp only [run, Option.bind_eq_some_iff] at h
    obtain ⟨s1, h1, h2⟩ := h
    have h3 := step_regInv hI hR h1
    exact run_dangling hP (step_inv hP hI (fun k E e => ha t k E (by simp [e])) h1) h3.1
      (fun u k E hm => ha u k E (by simp [hm])) h2 (h3.2 hd)

theorem run_alone (hP : ∀ t u q, P t q → P u q → t = u) (t : ℕ) : ∀ {as : List (ℕ × Act)} {s s' : State},
    Inv P s → RegInv P s → (∀ t k E, (t, Act.make k E) ∈ as → P t (k.field.nf.pol, k.den)) →
    run bk s as = some s' → ¬ s'.Dangling →
    ∃ bs, bs.Sublist (as.filter fun a => a.1 = t) ∧
      (bs.filter fun a => a.2.isCall) = (as.filter fun a => a.1 = t).filter (fun a => a.2.isCall) ∧
      run bk (s.only t) bs = some (s'.only t)
  | [], _, _, _, _, _, h, _ => by cases h; exact ⟨[], .slnil, rfl, rfl⟩
  | (u, a) :: as, s, s', hI, hR, ha, h, hd => by
    simp only [run, Option.bind_eq_some_iff] at h
    obtain ⟨s1, h1, h2⟩ := h
    have hI1 := step_inv hP hI (fun k E e => ha u k E (by simp [e])) h1
    have hR1 := step_regInv hI hR h1
    have ha1 : ∀ u k E, (u, Act.make k E) ∈ as → P u (k.field.nf.pol, k.den) :=
      fun u k E hm => ha u k E (by simp [hm])
    obtain ⟨bs, hb1, hb2, hb3⟩ := run_alone hP t hI1 hR1.1 ha1 h2 hd
    by_cases hut : u = t
    · subst hut
      have hnd : ¬ s.Dangling := fun h => hd (run_dangling hP hI1 hR1.1 ha1 h2 (hR1.2 h))
      have hf : ((u, a) :: as).filter (fun a => a.1 = u) = (u, a) :: as.filter (fun a => a.1 = u) := by simp
      rcases step_self hP hI (hR.pc u) hnd h1 with ⟨rfl, e⟩ | e
      · refine ⟨bs, hf ▸ hb1.trans (List.sublist_cons_self _ _), ?_, by rw [← e]; exact hb3⟩
        rw [hf, hb2]; simp [Act.isCall]
      · refine ⟨(u, a) :: bs, hf ▸ hb1.cons_cons _, ?_, ?_⟩
        · rw [hf, List.filter_cons, List.filter_cons, hb2]
        · simp only [run, e, Option.bind_some]; exact hb3
    · have hf : ((u, a) :: as).filter (fun a => a.1 = t) = as.filter (fun a => a.1 = t) := by simp [hut]
      rw [hf]
      refine ⟨bs, hb1, hb2, ?_⟩
      rw [← step_other hP hI hut (fun o e hq => ?_) h1]
      · exact hb3
      · have := hR.pc u
        rw [hq] at this
        exact this.2

end EAntic.Concurrent
