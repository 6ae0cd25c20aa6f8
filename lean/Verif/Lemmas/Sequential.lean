import Verif.Lemmas.Access
import Verif.Lemmas.Keep

/-!
# One thread and the program without threads

The steps of a thread that is alone, from the call of a function to its return, are one step of
`Model/Fields.lean`.
-/

namespace EAntic.Concurrent

open Fields (Class create)

variable {bk : Dbl → ℕ} {t : ℕ} {σ : Fields.State} {s s' : State}

/-- an entry of the registry of thread `t` -/
def eE (t : ℕ) (e : ℕ × Dbl) : Addr × Dbl := ((t, e.1), e.2)

theorem eE_inj : Function.Injective (eE t) := by
  rintro ⟨a, b⟩ ⟨c, d⟩ h
  simpa [eE] using h

/-- the memory of the thread is the state of the program without threads -/
structure Emb (t : ℕ) (σ : Fields.State) (s : State) : Prop where
  objs : ∀ n, s.objs (t, n) = σ.objs n
  reg : s.reg = σ.reg.map (eE t)
  next : s.next t = σ.next
  handles : s.handles = σ.handles.map fun n => (t, (t, n))

theorem Emb.put (h : Emb t σ s) (n : ℕ) (c : Option Class) : Emb t (σ.put n c) (s.put (t, n) c) where
  objs m := by
    simp only [State.put, Fields.State.put]
    by_cases e : m = n
    · subst e; simp
    · rw [if_neg e, Function.update_of_ne (by simp [e]), h.objs]
  reg := h.reg
  next := h.next
  handles := h.handles

theorem Emb.goto (h : Emb t σ s) (p : Pc) : Emb t σ (s.goto t p) := ⟨h.objs, h.reg, h.next, h.handles⟩

theorem Emb.mem (h : Emb t σ s) {o : Addr} (ho : (t, o) ∈ s.handles) : o = (t, o.2) ∧ o.2 ∈ σ.handles := by
  rw [h.handles, List.mem_map] at ho
  obtain ⟨n, hn, e⟩ := ho
  injection e with _ e
  subst e
  exact ⟨rfl, hn⟩

theorem Emb.mem' (h : Emb t σ s) {n : ℕ} : (t, (t, n)) ∈ s.handles ↔ n ∈ σ.handles := by
  rw [h.handles, List.mem_map]
  constructor
  · rintro ⟨m, hm, e⟩
    injection e with _ e
    injection e with _ e
    exact e ▸ hm
  · exact fun h => ⟨n, h, rfl⟩

/-- the number field of the object was not changed -/
def Ok (c : Class) : Prop := c.mem.fld.nf = c.K ∧ c.E.KeepsNf

/-- all objects are as they should be -/
def Goods (σ : Fields.State) : Prop := ∀ n c, σ.objs n = some c → Ok c

theorem Goods.put (h : Goods σ) {n : ℕ} {c : Class} (hc : Ok c) : Goods (σ.put n (some c)) := by
  intro m c' e
  simp only [Fields.State.put] at e
  by_cases hm : m = n
  · rw [if_pos hm] at e
    injection e with e
    exact e ▸ hc
  · rw [if_neg hm] at e
    exact h m c' e

theorem Goods.clear (h : Goods σ) (n : ℕ) : Goods (σ.put n none) := by
  intro m c' e
  simp only [Fields.State.put] at e
  by_cases hm : m = n
  · rw [if_pos hm] at e; cases e
  · rw [if_neg hm] at e
    exact h m c' e

theorem put_put (σ : Fields.State) (n : ℕ) (c c' : Option Class) : (σ.put n c).put n c' = σ.put n c' := by
  simp only [Fields.State.put]
  congr 1
  funext i
  by_cases e : i = n <;> simp [e]

theorem Ok.hash {c : Class} (h : Ok c) {p : Dbl × Class} (e : c.hash = .ok p) : Ok p.2 := by
  unfold Class.hash at e
  rcases e' : c.E.getD (.user 2) .near false c.mem with ⟨d, m⟩ | _ | _ | _ | _ <;> rw [e'] at e <;> cases e
  exact ⟨(getD_keep h.2 (P := fun _ => True) trivial _ _ _ _ e').2.trans h.1, h.2⟩

theorem create_ok {k : NamedField} {E : Env k.field.nf} (hE : E.KeepsNf) {c : Class} (e : create k E = .ok c) :
    Ok c := by
  have hK : Keep (fun _ => True) (Fields.fillCache E) := by
    unfold Fields.fillCache Env.zero Env.setZ Env.gen Env.setPoly
    keep
    all_goals trivial
  unfold create at e
  rcases e' : Fields.fillCache E ⟨renfInitSet k.field, fun _ => ⟨NfElem.init k.field.nf, Ball.exact 0⟩⟩
    with p | _ | _ | _ | _ <;> rw [e'] at e <;> cases e
  exact ⟨(hK _ _ _ e').2, hE⟩

theorem same_eq {c c' : Class} (h : Ok c) (h' : Ok c') : c.same c' = (samePol c c' && sameRest c c') := by
  unfold Class.same renfEqual samePol sameRest
  rw [h.1, h'.1, Bool.and_assoc]

/-- is this the entry that `fields.find` looks for -/
def hit (bk : Dbl → ℕ) (σ : Fields.State) (d : Dbl) (c : Class) (e : ℕ × Dbl) : Bool :=
  decide (bk e.2 = bk d) && match σ.objs e.1 with
    | some c' => c'.same c
    | none => false

/-- the end of `make` -/
def finishMake (σ : Fields.State) (out : List Ans) (h : Dbl × Class) : Option (ℕ × Dbl) → Res (Fields.State × List Ans)
  | none => .ok ({ σ.put σ.next (some h.2) with
      reg := (σ.next, h.1) :: σ.reg, next := σ.next + 1, handles := σ.next :: σ.handles }, out)
  | some e => .ok ({ σ with handles := e.1 :: σ.handles }, out)

/-- the end of the release of the last pointer -/
def finishDrop (σ : Fields.State) (n : ℕ) (out : List Ans) : Option (ℕ × Dbl) → Res (Fields.State × List Ans)
  | none => .abort
  | some e => .ok ({ σ.put n none with reg := σ.reg.erase e }, out)

/-- memory with the local variables of the thread -/
def _root_.EAntic.Mem.withLocals (m : Mem) (tmp : ℕ → Elem) : Mem where
  fld := m.fld
  heap r := match r with
    | .user n => m.heap (.user n)
    | .tmp n => tmp n

/-- Where the thread is, and the state `σ` say what will be the result of the call that it is in. -/
def AtPc (bk : Dbl → ℕ) (t : ℕ) (σ : Fields.State) (out : List Ans) (r : Res (Fields.State × List Ans)) : Pc → Prop
  | .idle => Goods σ ∧ r = .ok (σ, out)
  | .dead => True
  | .waiting (.make c) => Goods σ ∧ Ok c ∧ r = c.hash.bind fun h => finishMake σ out h (σ.find bk h.1 h.2)
  | .waiting (.drop o) => Goods σ ∧ o.1 = t ∧ r = match σ.objs o.2 with
      | none => .ub
      | some c => c.hash.bind fun h =>
        finishDrop (σ.put o.2 (some h.2)) o.2 out ((σ.put o.2 (some h.2)).find bk h.1 h.2)
  | .scan (.make c) d rest => Goods σ ∧ Ok c ∧ ∃ l : List (ℕ × Dbl), rest = l.map (eE t) ∧
      r = finishMake σ out (d, c) (l.find? (hit bk σ d c))
  | .scan (.drop o) d rest => Goods σ ∧ o.1 = t ∧ ∃ c, σ.objs o.2 = some c ∧ ∃ l : List (ℕ × Dbl), rest = l.map (eE t) ∧
      r = finishDrop σ o.2 out (l.find? (hit bk σ d c))
  | .compare (.make c) d e rest => Goods σ ∧ Ok c ∧ ∃ (e' : ℕ × Dbl) (l : List (ℕ × Dbl)), e = eE t e' ∧ rest = l.map (eE t) ∧
      bk e'.2 = bk d ∧ (∀ c', σ.objs e'.1 = some c' → samePol c' c = true) ∧
      r = finishMake σ out (d, c) ((e' :: l).find? (hit bk σ d c))
  | .compare (.drop o) d e rest => Goods σ ∧ o.1 = t ∧ ∃ c, σ.objs o.2 = some c ∧
      ∃ (e' : ℕ × Dbl) (l : List (ℕ × Dbl)), e = eE t e' ∧ rest = l.map (eE t) ∧
      bk e'.2 = bk d ∧ (∀ c', σ.objs e'.1 = some c' → samePol c' c = true) ∧
      r = finishDrop σ o.2 out ((e' :: l).find? (hit bk σ d c))
  | .deleting o e => Goods σ ∧ o.1 = t ∧ ∃ e', e = eE t e' ∧ r = finishDrop σ o.2 out (some e')
  | .working o tmp code => o.1 = t ∧ ∃ c, σ.objs o.2 = some c ∧ c.E.KeepsNf ∧
      (∀ n c', n ≠ o.2 → σ.objs n = some c' → Ok c') ∧
      (∀ p, code.run (c.mem.withLocals tmp) = .ok p →
        (∀ k, p.2.heap (.tmp k) = c.mem.heap (.tmp k)) ∧ p.2.fld.nf = c.K) ∧
      r = (code.run (c.mem.withLocals tmp)).bind fun p =>
        .ok (σ.put o.2 (some { c with mem := p.2 }), p.1 :: out)

/-- the state of the thread says what will be the result of the call that it is in -/
def At (bk : Dbl → ℕ) (t : ℕ) (s : State) (r : Res (Fields.State × List Ans)) : Prop :=
  ∃ σ, Emb t σ s ∧ AtPc bk t σ (s.out t) r (s.pc t)

theorem At.mk {r : Res (Fields.State × List Ans)} {p : Pc} (h : Emb t σ s) (ha : AtPc bk t σ (s.out t) r p) :
    At bk t (s.goto t p) r :=
  ⟨σ, h.goto p, by simpa [State.goto] using ha⟩

theorem At.dead {r : Res (Fields.State × List Ans)} (h : Emb t σ s) : At bk t (s.goto t .dead) r :=
  At.mk h trivial

theorem withLocals_user (m : Mem) (tmp : ℕ → Elem) (n : ℕ) (e : Elem) :
    (m.withLocals tmp).write (.user n) e = (m.write (.user n) e).withLocals tmp := by
  simp only [Mem.write, Mem.withLocals, Mem.mk.injEq, true_and]
  funext r
  cases r <;> simp

theorem withLocals_tmp (m : Mem) (tmp : ℕ → Elem) (n : ℕ) (e : Elem) :
    (m.withLocals tmp).write (.tmp n) e = m.withLocals (Function.update tmp n e) := by
  simp only [Mem.write, Mem.withLocals, Mem.mk.injEq, true_and]
  funext r
  cases r <;> simp [Function.update_apply]

theorem withLocals_self {m : Mem} {tmp : ℕ → Elem} (h : ∀ k, tmp k = m.heap (.tmp k)) : m.withLocals tmp = m := by
  cases m
  simp only [Mem.withLocals, Mem.mk.injEq, true_and]
  funext r
  cases r
  · rfl
  · exact h _

/-- one access to memory -/
theorem access_at {o : Addr} {tmp : ℕ → Elem} {code : Code Ans} {r : Res (Fields.State × List Ans)} {c : Class}
    (h : Emb t σ s) (ho : s.objs o = some c) (ha : AtPc bk t σ (s.out t) r (.working o tmp code)) :
    At bk t (access s t o tmp c code) r := by
  obtain ⟨u, n⟩ := o
  obtain ⟨rfl, c₁, h1, h2, h3, h4, h5⟩ := ha
  have e := h.objs n
  rw [ho] at e
  obtain rfl : c = c₁ := by simpa [h1] using e
  cases code with
  | ret a =>
    obtain ⟨h6, h7⟩ := h4 _ rfl
    have hm : c.mem.withLocals tmp = c.mem := withLocals_self h6
    refine At.mk (s := { s with out := Function.update s.out (u, n).1 (a :: s.out (u, n).1) })
      ⟨h.objs, h.reg, h.next, h.handles⟩ ⟨fun m c' e₁ => ?_, ?_⟩
    · by_cases hm : m = n
      · subst hm
        obtain rfl : c = c' := Option.some.inj (h1.symm.trans e₁)
        exact ⟨h7, h2⟩
      · exact h3 m c' hm e₁
    · rw [h5]
      simp only [Code.run, Res.bind, hm, Res.ok.injEq, Prod.mk.injEq, Function.update_self, and_true]
      cases σ
      simp only [Fields.State.put, Fields.State.mk.injEq, and_true]
      funext i
      by_cases e : i = n
      · subst e; simpa using h1.symm
      · simp [e]
  | stop o => exact At.dead h
  | get r k =>
    cases r with
    | user m => exact At.mk h ⟨rfl, c, h1, h2, h3, h4, h5⟩
    | tmp m => exact At.mk h ⟨rfl, c, h1, h2, h3, h4, h5⟩
  | getField k => exact At.mk h ⟨rfl, c, h1, h2, h3, h4, h5⟩
  | put r e k =>
    cases r with
    | user m =>
      refine At.mk (h.put n _) ⟨rfl, { c with mem := c.mem.write (.user m) e }, by simp [Fields.State.put], h2, ?_, ?_, ?_⟩
      · intro i c' hi hc'
        simp only [Fields.State.put, if_neg hi] at hc'
        exact h3 i c' hi hc'
      · intro p hp
        rw [← withLocals_user] at hp
        exact h4 p hp
      · rw [h5, ← withLocals_user]
        simp only [put_put]
        rfl
    | tmp m =>
      refine At.mk h ⟨rfl, c, h1, h2, h3, ?_, ?_⟩
      · intro p hp
        rw [← withLocals_tmp] at hp
        exact h4 p hp
      · rw [h5, ← withLocals_tmp]
        rfl
  | putField f k =>
    refine At.mk (h.put n _) ⟨rfl, { c with mem := { c.mem with fld := f } }, by simp [Fields.State.put], h2, ?_, h4, ?_⟩
    · intro i c' hi hc'
      simp only [Fields.State.put, if_neg hi] at hc'
      exact h3 i c' hi hc'
    · rw [h5]
      simp only [put_put]
      rfl

theorem hit_true {d : Dbl} {c c' : Class} {e : ℕ × Dbl} (hb : bk e.2 = bk d) (ho : σ.objs e.1 = some c')
    (h' : Ok c') (h : Ok c) (hp : samePol c' c = true) : hit bk σ d c e = sameRest c' c := by
  simp [hit, hb, ho, same_eq h' h, hp]

theorem hit_other {d : Dbl} {c : Class} {e : ℕ × Dbl} (hb : bk e.2 ≠ bk d) : hit bk σ d c e = false := by
  simp [hit, hb]

theorem hit_pol {d : Dbl} {c c' : Class} {e : ℕ × Dbl} (ho : σ.objs e.1 = some c')
    (h' : Ok c') (h : Ok c) (hp : ¬ samePol c' c = true) : hit bk σ d c e = false := by
  simp [hit, ho, same_eq h' h, hp]

/-- one step in a function -/
theorem proceed_at {r : Res (Fields.State × List Ans)} {p : Pc}
    (h : Emb t σ s) (ha : AtPc bk t σ (s.out t) r p) (hs : proceed bk s t p = some s') : At bk t s' r := by
  match p, ha, hs with
  | .idle, _, hs => cases hs
  | .dead, _, hs => cases hs
  | .waiting (.make c), ⟨h1, h2, h3⟩, hs =>
    simp only [proceed] at hs
    by_cases hl : s.lock = none
    · rw [if_pos hl] at hs
      cases hc : c.hash with
      | ok p =>
        rw [hc] at hs h3
        injection hs with hs
        subst hs
        exact At.mk (s := { s with lock := some t }) ⟨h.objs, h.reg, h.next, h.handles⟩
          ⟨h1, h2.hash hc, σ.reg, h.reg, h3⟩
      | _ => rw [hc] at hs; injection hs with hs; subst hs; exact At.dead h
    · rw [if_neg hl] at hs; cases hs
  | .waiting (.drop (u, n)), ⟨h1, e, h3⟩, hs =>
    obtain rfl : u = t := e
    simp only [proceed] at hs
    by_cases hl : s.lock = none
    · rw [if_pos hl, h.objs n] at hs
      simp only at h3
      cases ho : σ.objs n with
      | none => rw [ho] at hs; injection hs with hs; subst hs; exact At.dead h
      | some c =>
        rw [ho] at hs h3
        simp only at hs h3
        cases hc : c.hash with
        | ok p =>
          rw [hc] at hs h3
          injection hs with hs
          subst hs
          have hE : Emb u σ { s with lock := some u } := ⟨h.objs, h.reg, h.next, h.handles⟩
          exact At.mk (hE.put n _)
            ⟨h1.put ((h1 n c ho).hash hc), rfl, p.2, by simp [Fields.State.put], σ.reg, h.reg, h3⟩
        | _ => rw [hc] at hs; injection hs with hs; subst hs; exact At.dead h
    · rw [if_neg hl] at hs; cases hs
  | .scan (.make c) d [], ⟨h1, h2, l, hl, h3⟩, hs =>
    obtain rfl : l = [] := List.map_eq_nil_iff.1 hl.symm
    simp only [proceed, Option.some.injEq] at hs
    subst hs
    refine At.mk (σ := { σ.put σ.next (some c) with
      reg := (σ.next, d) :: σ.reg, next := σ.next + 1, handles := σ.next :: σ.handles }) ?_ ⟨?_, h3⟩
    · have hE := h.put σ.next (some c)
      refine ⟨fun n => ?_, ?_, ?_, ?_⟩
      · show Function.update s.objs (t, s.next t) (some c) (t, n) = (σ.put σ.next (some c)).objs n
        rw [h.next]
        exact hE.objs n
      · simp [State.put, eE, h.next, h.reg]
      · simp [State.put, h.next]
      · simp [State.put, h.next, h.handles]
    · exact h1.put (n := σ.next) h2
  | .scan (.drop o) d [], _, hs =>
    simp only [proceed, Option.some.injEq] at hs
    subst hs
    exact At.dead (s := { s with lock := none }) ⟨h.objs, h.reg, h.next, h.handles⟩
  | .scan (.make c) d (e :: rest), ⟨h1, h2, l, hl, h3⟩, hs =>
    obtain _ | ⟨e', l⟩ := l
    · cases hl
    injection hl with he hl
    subst he
    simp only [proceed, State.wanted] at hs
    rw [List.find?_cons] at h3
    by_cases hb : bk (eE t e').2 = bk d
    · rw [if_pos hb, show (eE t e').1 = (t, e'.1) from rfl, h.objs] at hs
      cases ho : σ.objs e'.1 with
      | none =>
        rw [ho] at hs; injection hs with hs; subst hs
        exact At.dead (s := { s with lock := none }) ⟨h.objs, h.reg, h.next, h.handles⟩
      | some c' =>
        rw [ho] at hs
        simp only at hs
        by_cases hp : samePol c' c = true
        · rw [if_pos hp] at hs
          injection hs with hs
          subst hs
          refine At.mk h ⟨h1, h2, e', l, rfl, hl, hb, ?_, ?_⟩
          · intro c₁ e₁
            obtain rfl : c' = c₁ := by simpa [ho] using e₁
            exact hp
          · rw [List.find?_cons]; exact h3
        · rw [if_neg hp] at hs
          injection hs with hs
          subst hs
          rw [hit_pol ho (h1 _ _ ho) h2 hp] at h3
          exact At.mk h ⟨h1, h2, l, hl, h3⟩
    · rw [if_neg hb] at hs
      injection hs with hs
      subst hs
      rw [hit_other hb] at h3
      exact At.mk h ⟨h1, h2, l, hl, h3⟩
  | .scan (.drop (u, n)) d (e :: rest), ⟨h1, eu, c, hc, l, hl, h3⟩, hs =>
    obtain rfl : u = t := eu
    obtain _ | ⟨e', l⟩ := l
    · cases hl
    injection hl with he hl
    subst he
    simp only [proceed, State.wanted] at hs
    rw [h.objs n, hc] at hs
    rw [List.find?_cons] at h3
    by_cases hb : bk (eE u e').2 = bk d
    · rw [if_pos hb, show (eE u e').1 = (u, e'.1) from rfl, h.objs] at hs
      cases ho : σ.objs e'.1 with
      | none =>
        rw [ho] at hs; injection hs with hs; subst hs
        exact At.dead (s := { s with lock := none }) ⟨h.objs, h.reg, h.next, h.handles⟩
      | some c' =>
        rw [ho] at hs
        simp only at hs
        by_cases hp : samePol c' c = true
        · rw [if_pos hp] at hs
          injection hs with hs
          subst hs
          refine At.mk h ⟨h1, rfl, c, hc, e', l, rfl, hl, hb, ?_, ?_⟩
          · intro c₁ e₁
            obtain rfl : c' = c₁ := by simpa [ho] using e₁
            exact hp
          · rw [List.find?_cons]; exact h3
        · rw [if_neg hp] at hs
          injection hs with hs
          subst hs
          rw [hit_pol ho (h1 _ _ ho) (h1 _ _ hc) hp] at h3
          exact At.mk h ⟨h1, rfl, c, hc, l, hl, h3⟩
    · rw [if_neg hb] at hs
      injection hs with hs
      subst hs
      rw [hit_other hb] at h3
      exact At.mk h ⟨h1, rfl, c, hc, l, hl, h3⟩
  | .compare (.make c) d e rest, ⟨h1, h2, e', l, he, hl, hb, hp, h3⟩, hs =>
    subst he
    simp only [proceed, State.wanted] at hs
    rw [show (eE t e').1 = (t, e'.1) from rfl, h.objs] at hs
    rw [List.find?_cons] at h3
    cases ho : σ.objs e'.1 with
    | none =>
      rw [ho] at hs; injection hs with hs; subst hs
      exact At.dead (s := { s with lock := none }) ⟨h.objs, h.reg, h.next, h.handles⟩
    | some c' =>
      rw [ho] at hs
      simp only at hs
      rw [hit_true hb ho (h1 _ _ ho) h2 (hp _ ho)] at h3
      by_cases hr : sameRest c' c = true
      · rw [if_pos hr] at hs
        injection hs with hs
        subst hs
        rw [hr] at h3
        refine At.mk (σ := { σ with handles := e'.1 :: σ.handles }) (s := { s with lock := none, handles := _ }) ?_ ⟨h1, h3⟩
        exact ⟨h.objs, h.reg, h.next, by simp [h.handles]⟩
      · rw [if_neg hr] at hs
        injection hs with hs
        subst hs
        rw [Bool.not_eq_true] at hr
        rw [hr] at h3
        exact At.mk h ⟨h1, h2, l, hl, h3⟩
  | .compare (.drop (u, n)) d e rest, ⟨h1, eu, c, hc, e', l, he, hl, hb, hp, h3⟩, hs =>
    obtain rfl : u = t := eu
    subst he
    simp only [proceed, State.wanted] at hs
    rw [show (eE u e').1 = (u, e'.1) from rfl, h.objs, h.objs, hc] at hs
    rw [List.find?_cons] at h3
    cases ho : σ.objs e'.1 with
    | none =>
      rw [ho] at hs; injection hs with hs; subst hs
      exact At.dead (s := { s with lock := none }) ⟨h.objs, h.reg, h.next, h.handles⟩
    | some c' =>
      rw [ho] at hs
      simp only at hs
      rw [hit_true hb ho (h1 _ _ ho) (h1 _ _ hc) (hp _ ho)] at h3
      by_cases hr : sameRest c' c = true
      · rw [if_pos hr] at hs
        injection hs with hs
        subst hs
        rw [hr] at h3
        exact At.mk h ⟨h1, rfl, e', rfl, h3⟩
      · rw [if_neg hr] at hs
        injection hs with hs
        subst hs
        rw [Bool.not_eq_true] at hr
        rw [hr] at h3
        exact At.mk h ⟨h1, rfl, c, hc, l, hl, h3⟩
  | .deleting (u, n) e, ⟨h1, eu, e', he, h3⟩, hs =>
    obtain rfl : u = t := eu
    subst he
    simp only [proceed, Option.some.injEq] at hs
    subst hs
    refine At.mk (σ := { σ.put n none with reg := σ.reg.erase e' }) ?_ ⟨h1.clear n, h3⟩
    have hE := h.put n none
    refine ⟨hE.objs, ?_, h.next, h.handles⟩
    show s.reg.erase (eE u e') = _
    rw [h.reg, List.map_erase eE_inj]
  | .working o tmp code, ha, hs =>
    simp only [proceed] at hs
    cases ho : s.objs o with
    | none => rw [ho] at hs; injection hs with hs; subst hs; exact At.dead h
    | some c =>
      rw [ho] at hs; injection hs with hs; subst hs
      exact access_at h ho ha

/-- a step that is not the call of a function -/
theorem next_at {r : Res (Fields.State × List Ans)} (ha : At bk t s r) (hs : step bk s t .next = some s') :
    At bk t s' r := by
  obtain ⟨σ, h, ha⟩ := ha
  exact proceed_at h ha hs

/-- the call of a function -/
theorem call_at {r : Res (Fields.State × List Ans)} {a : Act} {op : Fields.Op} (ha : At bk t s r) (hop : a.call = some op)
    (hE : ∀ k E, a = .make k E → E.KeepsNf) (hs : step bk s t a = some s') :
    At bk t s' (r.bind fun q => (Fields.step bk q.1 op).bind fun σ' => .ok (σ', Fields.answers q.1 op ++ q.2)) := by
  obtain ⟨σ, h, ha⟩ := ha
  have hi : s.pc t = .idle := by
    cases a <;> simp only [step] at hs
    · split at hs <;> first | assumption | cases hs
    · split at hs <;> first | assumption | cases hs
    · split at hs <;> first | assumption | cases hs
    · split at hs <;> first | assumption | cases hs
    · cases hop
  rw [hi] at ha
  obtain ⟨h1, rfl⟩ := ha
  simp only [Res.bind]
  cases a with
  | next => cases hop
  | make k E =>
    injection hop with hop
    subst hop
    simp only [step, hi] at hs
    cases hc : create k E with
    | ok c =>
      rw [hc] at hs
      injection hs with hs
      subst hs
      refine At.mk h ⟨h1, create_ok (hE k E rfl) hc, ?_⟩
      cases hh : c.hash with
      | ok p =>
        simp only [Fields.step, hc, hh, Fields.answers, List.nil_append, Res.bind]
        cases hf : σ.find bk p.1 p.2 <;> rfl
      | _ => simp only [Fields.step, hc, hh, Res.bind]
    | _ => rw [hc] at hs; injection hs with hs; subst hs; exact At.dead h
  | copy o =>
    injection hop with hop
    subst hop
    simp only [step, hi] at hs
    by_cases ho : (t, o) ∈ s.handles
    · rw [if_pos ho] at hs
      injection hs with hs
      subst hs
      obtain ⟨e, hm⟩ := h.mem ho
      refine ⟨{ σ with handles := o.2 :: σ.handles }, ⟨h.objs, h.reg, h.next, ?_⟩, ?_⟩
      · rw [e]; simp [h.handles]
      · simp only [hi]
        refine ⟨h1, ?_⟩
        simp only [Fields.step, if_pos hm, Fields.answers, List.nil_append]
    · rw [if_neg ho] at hs; cases hs
  | release o =>
    injection hop with hop
    subst hop
    simp only [step, hi] at hs
    by_cases ho : (t, o) ∈ s.handles
    · rw [if_pos ho] at hs
      obtain ⟨e, hm⟩ := h.mem ho
      obtain ⟨u, n⟩ := o
      injection e with e _
      subst e
      simp only at hm
      have hinj : Function.Injective fun n : ℕ => (u, (u, n)) := fun a b h => by simpa using h
      have hh : s.handles.erase (u, (u, n)) = (σ.handles.erase n).map fun n => (u, (u, n)) := by
        rw [h.handles]
        exact (List.map_erase hinj _).symm
      have hiff : (u, n) ∈ (s.handles.erase (u, (u, n))).map (·.2) ↔ n ∈ σ.handles.erase n := by
        rw [hh, List.map_map, List.mem_map]
        constructor
        · rintro ⟨m, hm, e⟩
          injection e with _ e
          exact e ▸ hm
        · exact fun h => ⟨n, h, rfl⟩
      have hE : Emb u { σ with handles := σ.handles.erase n } { s with handles := s.handles.erase (u, (u, n)) } :=
        ⟨h.objs, h.reg, h.next, hh⟩
      simp only [Fields.step, if_pos hm, Fields.answers, List.nil_append]
      by_cases hl : n ∈ σ.handles.erase n
      · rw [if_pos (hiff.2 hl)] at hs
        injection hs with hs
        subst hs
        refine ⟨_, hE, ?_⟩
        simp only [hi]
        exact ⟨h1, by rw [if_pos hl]⟩
      · rw [if_neg fun h => hl (hiff.1 h)] at hs
        injection hs with hs
        subst hs
        refine At.mk hE ⟨h1, rfl, ?_⟩
        rw [if_neg hl]
        simp only
        cases hob : σ.objs n with
        | none => rfl
        | some c =>
          simp only
          cases hc : c.hash with
          | ok p =>
            simp only [Res.bind]
            have hf : (Fields.State.put { σ with handles := σ.handles.erase n } n (some p.2)).find bk p.1 p.2 =
              (σ.put n (some p.2)).find bk p.1 p.2 := rfl
            rw [hf]
            cases hf : (σ.put n (some p.2)).find bk p.1 p.2 with
            | none => rfl
            | some e =>
              simp only [finishDrop, put_put]
              rfl
          | _ => rfl
    · rw [if_neg ho] at hs; cases hs
  | work o op =>
    injection hop with hop
    subst hop
    simp only [step, hi] at hs
    cases hob : s.objs o with
    | none => rw [hob] at hs; cases hs
    | some c =>
      rw [hob] at hs
      simp only at hs
      by_cases ho : (t, o) ∈ s.handles
      · rw [if_pos ho] at hs
        injection hs with hs
        subst hs
        obtain ⟨e, hm⟩ := h.mem ho
        obtain ⟨u, n⟩ := o
        injection e with e _
        subst e
        simp only at hm
        rw [h.objs] at hob
        have hself : c.mem.withLocals (fun n => c.mem.heap (.tmp n)) = c.mem := withLocals_self fun _ => rfl
        have hok := h1 n c hob
        refine At.mk h ⟨rfl, c, hob, hok.2, fun m c' _ hc' => h1 m c' hc', ?_, ?_⟩
        · intro p hp
          rw [hself, Threaded.run_exec] at hp
          obtain ⟨a1, a2⟩ := exec_keep hok.2 op _ _ _ hp
          exact ⟨fun k => a1 _ (by rintro ⟨n, hn⟩; cases hn), a2.trans hok.1⟩
        · rw [hself, Threaded.run_exec]
          simp only [Fields.step, if_pos hm, Fields.answers, hob]
          cases c.E.exec op c.mem <;> rfl
      · rw [if_neg ho] at hs; cases hs

theorem calls_cons_next {as : List (ℕ × Act)} : calls ((t, .next) :: as) t = calls as t := by
  simp [calls, Act.call]

theorem calls_cons {a : Act} {op : Fields.Op} {as : List (ℕ × Act)} (h : a.call = some op) :
    calls ((t, a) :: as) t = op :: calls as t := by
  simp [calls, h]

theorem call_none {a : Act} (h : a.call = none) : a = .next := by
  cases a <;> first | rfl | cases h

/-- the steps of a thread alone -/
theorem run_at {as : List (ℕ × Act)} (ht : ∀ a ∈ as, a.1 = t) (hE : ∀ k E, (t, Act.make k E) ∈ as → E.KeepsNf)
    {r : Res (Fields.State × List Ans)} (ha : At bk t s r) (h : run bk s as = some s') :
    At bk t s' (r.bind fun q => Fields.runOut bk q (calls as t)) := by
  induction as generalizing s r with
  | nil =>
    injection h with h
    subst h
    have e : (r.bind fun q => Fields.runOut bk q (calls [] t)) = r := by cases r <;> rfl
    rw [e]
    exact ha
  | cons a as ih =>
    obtain ⟨u, a⟩ := a
    obtain rfl : u = t := ht _ (List.mem_cons_self ..)
    simp only [run] at h
    obtain ⟨s₁, h1, h2⟩ := Option.bind_eq_some_iff.1 h
    have ht' : ∀ a ∈ as, a.1 = u := fun a ha => ht a (List.mem_cons_of_mem _ ha)
    have hE' : ∀ k E, (u, Act.make k E) ∈ as → E.KeepsNf := fun k E h => hE k E (List.mem_cons_of_mem _ h)
    cases hc : a.call with
    | none =>
      obtain rfl := call_none hc
      rw [calls_cons_next]
      exact ih ht' hE' (next_at ha h1) h2
    | some op =>
      rw [calls_cons hc]
      have := ih ht' hE' (call_at ha hc (fun k E e => hE k E (by rw [← e]; exact List.mem_cons_self ..)) h1) h2
      convert this using 1
      cases r with
      | ok q =>
        simp only [Res.bind, Fields.runOut]
        cases Fields.step bk q.1 op <;> rfl
      | _ => rfl

theorem emb_init : Emb t .init .init := ⟨fun _ => rfl, rfl, rfl, rfl⟩

/-- a thread alone that is not in a function -/
theorem run_alone_seq {as : List (ℕ × Act)} (ht : ∀ a ∈ as, a.1 = t) (hE : ∀ k E, (t, Act.make k E) ∈ as → E.KeepsNf)
    (h : run bk .init as = some s) (hi : s.pc t = .idle) :
    ∃ σ, Fields.runOut bk (.init, []) (calls as t) = .ok (σ, s.out t) ∧ Emb t σ s := by
  have h0 : At bk t .init (.ok (.init, [])) := ⟨.init, emb_init, by
    show Goods .init ∧ _
    exact ⟨fun _ _ h => (by cases h), rfl⟩⟩
  obtain ⟨σ, h1, h2⟩ := run_at ht hE h0 h
  rw [hi] at h2
  exact ⟨σ, h2.2, h1⟩

end EAntic.Concurrent
