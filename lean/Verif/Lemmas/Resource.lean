import Verif.Spec.Resource
import Mathlib.Tactic.Tauto

/-!
# Checking the objects of a function

An abstract interpreter for the language of `Spec/Resource.lean`, and its soundness: a function that
it accepts is safe, whatever branches are taken and however often the loops run.
-/

namespace EAntic.Rsc

/-- Abstract states: the lengths of vectors and the integer variables are numbered classes of equal
values. -/
structure ASt where
  obj : List (Option (Option ℕ))
  tok : List ℕ
  deriving DecidableEq, Repr

inductive Exit
  | norm | brk | cont | ret (v : Option ℕ) | throw
  deriving DecidableEq, Repr

abbrev Rs := List (Exit × ASt)

/-- The union of two sets of ends. -/
def join (x y : Rs) : Rs := x.filter (fun e => decide (e ∉ y)) ++ y

theorem mem_join_left {x : Rs} {z : Exit × ASt} (h : z ∈ x) (y : Rs) : z ∈ join x y := by
  by_cases hz : z ∈ y
  · exact List.mem_append_right _ hz
  · exact List.mem_append_left _ (List.mem_filter.2 ⟨h, by simpa using hz⟩)

theorem mem_join_right (x : Rs) {y : Rs} {z : Exit × ASt} (h : z ∈ y) : z ∈ join x y :=
  List.mem_append_right _ h

/-- The classes in use. -/
def ASt.used (a : ASt) : List ℕ :=
  a.tok ++ a.obj.filterMap fun x => x.bind id

/-- A class that is not in use. -/
def ASt.fresh (a : ASt) : Option ℕ :=
  (List.range (a.used.length + 1)).find? fun t => !a.used.contains t

def Act.abs : Act → ASt → Option ASt
  | .init v, a => if a.obj[v]? = some none then some { a with obj := a.obj.set v (some none) } else none
  | .initLen v ℓ, a =>
      match a.tok[ℓ]? with
      | none => none
      | some t =>
          if a.obj[v]? = some none then some { a with obj := a.obj.set v (some (some t)) } else none
  | .clear v, a => if a.obj[v]? = some (some none) then some { a with obj := a.obj.set v none } else none
  | .clearLen v ℓ, a =>
      match a.tok[ℓ]? with
      | none => none
      | some t =>
          if a.obj[v]? = some (some (some t)) then some { a with obj := a.obj.set v none } else none
  | .use v, a => if (a.obj[v]?.getD none).isSome then some a else none
  | .lose v, a => if a.obj[v]? = some none then some a else none
  | .setInt ℓ, a => a.fresh.map fun t => { a with tok := a.tok.set ℓ t }
  | .copyInt ℓ m, a =>
      match a.tok[m]? with
      | none => none
      | some t => some { a with tok := a.tok.set ℓ t }

/-- The second statement from the normal ends of the first. -/
def andThen (f : ASt → Option Rs) : Rs → Option Rs
  | [] => some []
  | (e, a) :: r =>
      match (if e = .norm then f a else some [(e, a)]), andThen f r with
      | some x, some y => some (join x y)
      | _, _ => none

def nexts (r : Rs) : List ASt :=
  r.filterMap fun x => match x.1 with | .norm => some x.2 | .cont => some x.2 | _ => none

def exits (r : Rs) : Rs :=
  r.filterMap fun x =>
    match x.1 with
    | .brk => some (.norm, x.2)
    | .ret v => some (.ret v, x.2)
    | .throw => some (.throw, x.2)
    | _ => none

/-- All the states in which the loop can begin a turn. -/
def close (f : ASt → Option Rs) : ℕ → List ASt → List ASt → Rs → Option Rs
  | 0, _, _, _ => none
  | _ + 1, [], _, E => some E
  | n + 1, a :: todo, seen, E =>
      if a ∈ seen then close f n todo seen E
      else match f a with
        | none => none
        | some r => close f n (nexts r ++ todo) (a :: seen) (join E (exits r))

def run : Stm → ASt → Option Rs
  | .skip, a => some [(.norm, a)]
  | .act c, a => (c.abs a).map fun a' => [(.norm, a')]
  | .seq p q, a => (run p a).bind (andThen (run q))
  | .choice p q, a =>
      match run p a, run q a with
      | some x, some y => some (join x y)
      | _, _ => none
  | .forever p, a => close (run p) 300 [a] [] []
  | .catchCont p, a => (run p a).map fun r => r.map fun x => if x.1 = .cont then (.norm, x.2) else x
  | .catchBrk p, a => (run p a).map fun r => r.map fun x => if x.1 = .brk then (.norm, x.2) else x
  | .brk, a => some [(.brk, a)]
  | .cont, a => some [(.cont, a)]
  | .ret v, a => some [(.ret v, a)]
  | .throw, a => some [(.throw, a)]
  | .abort, _ => some []

/-- The state in which a function starts. -/
def Fn.start (f : Fn) : ASt where
  obj := (List.range f.objs).map fun v => if v ∈ f.pre then some none else none
  tok := List.range f.ints

/-- Are exactly the objects `l` initialised? -/
def ASt.only (a : ASt) (n : ℕ) (l : List ℕ) : Bool :=
  decide (a.obj.length ≤ n) && l.all (fun v => decide (v < n)) &&
    (List.range n).all fun v => a.obj[v]? == some (if v ∈ l then some none else none)

/-- Is this the way a function ought to end? -/
def Fn.fine (f : Fn) : Exit × ASt → Bool
  | (.norm, a) => a.only f.objs f.post
  | (.ret r, a) => a.only f.objs (r.toList ++ f.post)
  | (.throw, a) => a.only f.objs f.pre
  | _ => false

def Fn.check (f : Fn) : Bool :=
  f.pre.all (fun v => decide (v < f.objs)) && match run f.body f.start with
  | none => false
  | some r => r.all f.fine

/-! ## Soundness -/

/-- The concrete state is described by the abstract one. -/
structure Rep (σ : ℕ → ℤ) (a : ASt) (s : St) : Prop where
  obj : ∀ v, s.obj v = (a.obj[v]?.getD none).map (·.map σ)
  int : ∀ ℓ t, a.tok[ℓ]? = some t → s.int ℓ = σ t

def Covers (R : Rs) : Out → Prop
  | .norm s => ∃ a σ, (Exit.norm, a) ∈ R ∧ Rep σ a s
  | .brk s => ∃ a σ, (Exit.brk, a) ∈ R ∧ Rep σ a s
  | .cont s => ∃ a σ, (Exit.cont, a) ∈ R ∧ Rep σ a s
  | .ret v s => ∃ a σ, (Exit.ret v, a) ∈ R ∧ Rep σ a s
  | .throw s => ∃ a σ, (Exit.throw, a) ∈ R ∧ Rep σ a s
  | .abort => True
  | .err => False

theorem Covers.mono {R R' : Rs} {o : Out} (h : Covers R o) (hs : ∀ x ∈ R, x ∈ R') : Covers R' o := by
  cases o <;> simp only [Covers] at h ⊢
  all_goals (obtain ⟨a, σ, hm, hr⟩ := h; exact ⟨a, σ, hs _ hm, hr⟩)

theorem getD_set {α : Type} (l : List (Option α)) {v : ℕ} (x : Option α) (hv : v < l.length) (u : ℕ) :
    ((l.set v x)[u]?.getD none) = if u = v then x else l[u]?.getD none := by
  by_cases h : u = v
  · subst h; simp [hv]
  · rw [if_neg h, List.getElem?_set_ne (fun h' => h h'.symm)]

theorem lt_of_getElem? {α : Type} {l : List α} {v : ℕ} {x : α} (h : l[v]? = some x) : v < l.length := by
  by_contra hn
  rw [List.getElem?_eq_none (by omega)] at h
  cases h

theorem Rep.setObj {σ : ℕ → ℤ} {a : ASt} {s : St} (h : Rep σ a s) {v : ℕ} (hv : v < a.obj.length)
    (x : Option (Option ℕ)) :
    Rep σ { a with obj := a.obj.set v x } { s with obj := Function.update s.obj v (x.map (·.map σ)) } where
  obj u := by
    simp only [getD_set _ _ hv]
    by_cases hu : u = v
    · subst hu; simp
    · rw [Function.update_of_ne hu, if_neg hu, h.obj]
  int := h.int

theorem fresh_spec {a : ASt} {t : ℕ} (h : a.fresh = some t) : t ∉ a.used := by
  have := List.find?_some h
  simpa using this

theorem abs_sound {c : Act} {a a' : ASt} (h : c.abs a = some a') {σ : ℕ → ℤ} {s : St} (hr : Rep σ a s)
    {o : Option St} (ho : c.Step s o) : ∃ s' σ', o = some s' ∧ Rep σ' a' s' := by
  cases c with
  | init v =>
    simp only [Act.abs] at h
    split_ifs at h with hv
    cases h
    have hs : s.obj v = none := by rw [hr.obj, hv]; rfl
    rcases ho with ⟨-, rfl⟩ | ⟨h', -⟩
    · exact ⟨_, σ, rfl, hr.setObj (lt_of_getElem? hv) (some none)⟩
    · exact absurd hs h'
  | initLen v ℓ =>
    simp only [Act.abs] at h
    cases ht : a.tok[ℓ]? with
    | none => rw [ht] at h; cases h
    | some t =>
      rw [ht] at h
      simp only at h
      split_ifs at h with hv
      cases h
      have hs : s.obj v = none := by rw [hr.obj, hv]; rfl
      rcases ho with ⟨-, rfl⟩ | ⟨h', -⟩
      · refine ⟨_, σ, rfl, ?_⟩
        rw [hr.int _ _ ht]
        exact hr.setObj (lt_of_getElem? hv) (some (some t))
      · exact absurd hs h'
  | clear v =>
    simp only [Act.abs] at h
    split_ifs at h with hv
    cases h
    have hs : s.obj v = some none := by rw [hr.obj, hv]; rfl
    rcases ho with ⟨-, rfl⟩ | ⟨h', -⟩
    · exact ⟨_, σ, rfl, hr.setObj (lt_of_getElem? hv) none⟩
    · exact absurd hs h'
  | clearLen v ℓ =>
    simp only [Act.abs] at h
    cases ht : a.tok[ℓ]? with
    | none => rw [ht] at h; cases h
    | some t =>
      rw [ht] at h
      simp only at h
      split_ifs at h with hv
      cases h
      have hs : s.obj v = some (some (s.int ℓ)) := by rw [hr.obj, hv, hr.int _ _ ht]; rfl
      rcases ho with ⟨-, rfl⟩ | ⟨h', -⟩
      · exact ⟨_, σ, rfl, hr.setObj (lt_of_getElem? hv) none⟩
      · exact absurd hs h'
  | use v =>
    simp only [Act.abs] at h
    split_ifs at h with hv
    cases h
    have hs : s.obj v ≠ none := by
      rw [hr.obj]
      intro h0
      rw [Option.map_eq_none_iff] at h0
      rw [h0] at hv
      cases hv
    rcases ho with ⟨-, rfl⟩ | ⟨h', -⟩
    · exact ⟨_, σ, rfl, hr⟩
    · exact absurd h' hs
  | lose v =>
    simp only [Act.abs] at h
    split_ifs at h with hv
    cases h
    have hs : s.obj v = none := by rw [hr.obj, hv]; rfl
    rcases ho with ⟨-, rfl⟩ | ⟨h', -⟩
    · exact ⟨_, σ, rfl, hr⟩
    · exact absurd hs h'
  | setInt ℓ =>
    obtain ⟨z, rfl⟩ := ho
    simp only [Act.abs, Option.map_eq_some_iff] at h
    obtain ⟨t, ht, rfl⟩ := h
    have hf := fresh_spec ht
    refine ⟨_, Function.update σ t z, rfl, ?_, ?_⟩
    · intro v
      simp only
      rw [hr.obj]
      cases hx : a.obj[v]?.getD none with
      | none => rfl
      | some x =>
        cases x with
        | none => rfl
        | some u =>
          have hu : u ≠ t := by
            rintro rfl
            apply hf
            refine List.mem_append_right _ (List.mem_filterMap.2 ⟨some (some u), ?_, rfl⟩)
            cases hy : a.obj[v]? with
            | none => rw [hy] at hx; cases hx
            | some y =>
              rw [hy] at hx
              simp only [Option.getD_some] at hx
              rw [← hx]
              exact List.mem_of_getElem? hy
          simp [Function.update_of_ne hu]
    · intro m u hm
      simp only at hm ⊢
      by_cases hml : m = ℓ
      · subst hml
        have hl : m < a.tok.length := by
          have := lt_of_getElem? hm
          rwa [List.length_set] at this
        rw [List.getElem?_set_self hl] at hm
        cases hm
        simp
      · rw [List.getElem?_set_ne (fun h' => hml h'.symm)] at hm
        have hu : u ≠ t := by
          rintro rfl
          exact hf (List.mem_append_left _ (List.mem_of_getElem? hm))
        rw [Function.update_of_ne hml, Function.update_of_ne hu]
        exact hr.int _ _ hm
  | copyInt ℓ m =>
    simp only [Act.Step] at ho
    subst ho
    simp only [Act.abs] at h
    cases ht : a.tok[m]? with
    | none => rw [ht] at h; cases h
    | some t =>
      rw [ht] at h
      cases h
      refine ⟨_, σ, rfl, hr.obj, ?_⟩
      intro k u hk
      simp only at hk ⊢
      by_cases hkl : k = ℓ
      · subst hkl
        have hl : k < a.tok.length := by
          have := lt_of_getElem? hk
          rwa [List.length_set] at this
        rw [List.getElem?_set_self hl] at hk
        cases hk
        simpa using hr.int _ _ ht
      · rw [List.getElem?_set_ne (fun h' => hkl h'.symm)] at hk
        rw [Function.update_of_ne hkl]
        exact hr.int _ _ hk

theorem andThen_spec {f : ASt → Option Rs} : ∀ {r R : Rs}, andThen f r = some R →
    ∀ e a, (e, a) ∈ r →
      (e ≠ .norm → (e, a) ∈ R) ∧ (e = .norm → ∃ x, f a = some x ∧ ∀ y ∈ x, y ∈ R)
  | [], _, _, _, _, h => by cases h
  | (e₀, a₀) :: r, R, h, e, a, hm => by
    simp only [andThen] at h
    cases hx : (if e₀ = .norm then f a₀ else some [(e₀, a₀)]) with
    | none => rw [hx] at h; cases h
    | some x =>
      cases hy : andThen f r with
      | none => rw [hx, hy] at h; cases h
      | some y =>
        rw [hx, hy] at h
        cases h
        rcases List.mem_cons.1 hm with heq | hm'
        · cases heq
          constructor
          · intro hne
            rw [if_neg hne] at hx
            cases hx
            exact mem_join_left (List.mem_singleton.2 rfl) _
          · intro heq
            rw [if_pos heq] at hx
            exact ⟨x, hx, fun z hz => mem_join_left hz _⟩
        · obtain ⟨h1, h2⟩ := andThen_spec hy e a hm'
          refine ⟨fun hne => mem_join_right _ (h1 hne), fun heq => ?_⟩
          obtain ⟨x', hx', hs⟩ := h2 heq
          exact ⟨x', hx', fun z hz => mem_join_right _ (hs z hz)⟩

/-- From the state `a` the body of the loop leads to states of `S` or to exits in `E`. -/
def Closed (f : ASt → Option Rs) (S : List ASt) (E : Rs) (a : ASt) : Prop :=
  ∃ r, f a = some r ∧ (∀ x ∈ nexts r, x ∈ S) ∧ ∀ x ∈ exits r, x ∈ E

theorem Closed.mono {f : ASt → Option Rs} {S S' : List ASt} {E E' : Rs} {a : ASt}
    (h : Closed f S E a) (hS : ∀ x ∈ S, x ∈ S') (hE : ∀ x ∈ E, x ∈ E') : Closed f S' E' a := by
  obtain ⟨r, h1, h2, h3⟩ := h
  exact ⟨r, h1, fun x hx => hS _ (h2 x hx), fun x hx => hE _ (h3 x hx)⟩

theorem close_spec {f : ASt → Option Rs} : ∀ {n : ℕ} {todo seen : List ASt} {E E' : Rs},
    close f n todo seen E = some E' → (∀ a ∈ seen, Closed f (seen ++ todo) E a) →
    ∃ S, (∀ a ∈ seen ++ todo, a ∈ S) ∧ ∀ a ∈ S, Closed f S E' a
  | 0, _, _, _, _, h, _ => by cases h
  | n + 1, [], seen, E, E', h, hc => by
    simp only [close, Option.some.injEq] at h
    subst h
    exact ⟨seen ++ [], fun a ha => ha, fun a ha => hc a (by simpa using ha)⟩
  | n + 1, a :: todo, seen, E, E', h, hc => by
    simp only [close] at h
    by_cases ha : a ∈ seen
    · rw [if_pos ha] at h
      obtain ⟨S, hS, hcl⟩ := close_spec h (by
        intro b hb
        refine (hc b hb).mono ?_ fun _ h => h
        intro x hx
        simp only [List.mem_append, List.mem_cons] at hx ⊢
        rcases hx with hx | rfl | hx
        · exact .inl hx
        · exact .inl ha
        · exact .inr hx)
      refine ⟨S, ?_, hcl⟩
      intro b hb
      simp only [List.mem_append, List.mem_cons] at hb
      rcases hb with hb | rfl | hb
      · exact hS _ (List.mem_append_left _ hb)
      · exact hS _ (List.mem_append_left _ ha)
      · exact hS _ (List.mem_append_right _ hb)
    · rw [if_neg ha] at h
      cases hf : f a with
      | none => rw [hf] at h; cases h
      | some r =>
        rw [hf] at h
        obtain ⟨S, hS, hcl⟩ := close_spec h (by
          intro b hb
          rcases List.mem_cons.1 hb with rfl | hb
          · refine ⟨r, hf, fun x hx => ?_, fun x hx => mem_join_right _ hx⟩
            exact List.mem_append_right _ (List.mem_append_left _ hx)
          · refine (hc b hb).mono ?_ fun _ h => mem_join_left h _
            intro x hx
            simp only [List.mem_append, List.mem_cons] at hx ⊢
            tauto)
        refine ⟨S, ?_, hcl⟩
        intro b hb
        apply hS
        simp only [List.mem_append, List.mem_cons] at hb ⊢
        tauto

theorem mem_nexts {r : Rs} {a : ASt} : a ∈ nexts r ↔ (Exit.norm, a) ∈ r ∨ (Exit.cont, a) ∈ r := by
  simp only [nexts, List.mem_filterMap]
  constructor
  · rintro ⟨⟨e, b⟩, hm, h⟩
    cases e <;> simp only [Option.some.injEq, reduceCtorEq] at h
    · subst h; exact .inl hm
    · subst h; exact .inr hm
  · rintro (h | h)
    · exact ⟨_, h, rfl⟩
    · exact ⟨_, h, rfl⟩

theorem mem_exits_norm {r : Rs} {a : ASt} (h : (Exit.brk, a) ∈ r) : (Exit.norm, a) ∈ exits r :=
  List.mem_filterMap.2 ⟨_, h, rfl⟩

theorem mem_exits_ret {r : Rs} {a : ASt} {v : Option ℕ} (h : (Exit.ret v, a) ∈ r) :
    (Exit.ret v, a) ∈ exits r :=
  List.mem_filterMap.2 ⟨_, h, rfl⟩

theorem mem_exits_throw {r : Rs} {a : ASt} (h : (Exit.throw, a) ∈ r) : (Exit.throw, a) ∈ exits r :=
  List.mem_filterMap.2 ⟨_, h, rfl⟩

theorem forever_sound {p : Stm} {S : List ASt} {E : Rs} (hcl : ∀ a ∈ S, Closed (run p) S E a)
    (hp : ∀ {a R}, run p a = some R → ∀ {σ s o}, Rep σ a s → Exec p s o → Covers R o) :
    ∀ {q s o}, Exec q s o → q = .forever p → ∀ {a σ}, a ∈ S → Rep σ a s → Covers E o := by
  intro q s o h
  induction h with
  | next h1 _ _ ih2 =>
    intro hq a σ ha hr
    cases hq
    obtain ⟨R, hR, hn, -⟩ := hcl a ha
    obtain ⟨a', σ', hm, hr'⟩ := hp hR hr h1
    exact ih2 rfl (hn _ (mem_nexts.2 (.inl hm))) hr'
  | nextCont h1 _ _ ih2 =>
    intro hq a σ ha hr
    cases hq
    obtain ⟨R, hR, hn, -⟩ := hcl a ha
    obtain ⟨a', σ', hm, hr'⟩ := hp hR hr h1
    exact ih2 rfl (hn _ (mem_nexts.2 (.inr hm))) hr'
  | leave h1 _ =>
    intro hq a σ ha hr
    cases hq
    obtain ⟨R, hR, -, he⟩ := hcl a ha
    obtain ⟨a', σ', hm, hr'⟩ := hp hR hr h1
    exact ⟨a', σ', he _ (mem_exits_norm hm), hr'⟩
  | loopRet h1 _ =>
    intro hq a σ ha hr
    cases hq
    obtain ⟨R, hR, -, he⟩ := hcl a ha
    obtain ⟨a', σ', hm, hr'⟩ := hp hR hr h1
    exact ⟨a', σ', he _ (mem_exits_ret hm), hr'⟩
  | loopThrow h1 _ =>
    intro hq a σ ha hr
    cases hq
    obtain ⟨R, hR, -, he⟩ := hcl a ha
    obtain ⟨a', σ', hm, hr'⟩ := hp hR hr h1
    exact ⟨a', σ', he _ (mem_exits_throw hm), hr'⟩
  | loopAbort _ _ => exact fun _ _ _ _ _ => trivial
  | loopErr h1 _ =>
    intro hq a σ ha hr
    cases hq
    obtain ⟨R, hR, -, -⟩ := hcl a ha
    exact hp hR hr h1
  | _ => intro hq; cases hq

theorem run_sound : ∀ (p : Stm) {a : ASt} {R : Rs}, run p a = some R →
    ∀ {σ s o}, Rep σ a s → Exec p s o → Covers R o
  | .skip, a, R, h, σ, s, o, hr, hx => by
    cases h; cases hx; exact ⟨a, σ, by simp, hr⟩
  | .act c, a, R, h, σ, s, o, hr, hx => by
    simp only [run, Option.map_eq_some_iff] at h
    obtain ⟨a', ha', rfl⟩ := h
    cases hx with
    | act h1 =>
      obtain ⟨s', σ', h2, h3⟩ := abs_sound ha' hr h1
      cases h2
      exact ⟨a', σ', by simp, h3⟩
    | actErr h1 =>
      obtain ⟨s', σ', h2, h3⟩ := abs_sound ha' hr h1
      cases h2
  | .seq p q, a, R, h, σ, s, o, hr, hx => by
    simp only [run, Option.bind_eq_some_iff] at h
    obtain ⟨R1, h1, h2⟩ := h
    cases hx with
    | seq hp hq =>
      obtain ⟨a', σ', hm, hr'⟩ := run_sound p h1 hr hp
      obtain ⟨x, hx, hs⟩ := (andThen_spec h2 _ _ hm).2 rfl
      exact (run_sound q hx hr' hq).mono hs
    | seqExit hp hne =>
      have hc := run_sound p h1 hr hp
      cases o with
      | norm s' => exact absurd rfl (hne s')
      | brk s' =>
        obtain ⟨a', σ', hm, hr'⟩ := hc
        exact ⟨a', σ', (andThen_spec h2 _ _ hm).1 (by simp), hr'⟩
      | cont s' =>
        obtain ⟨a', σ', hm, hr'⟩ := hc
        exact ⟨a', σ', (andThen_spec h2 _ _ hm).1 (by simp), hr'⟩
      | ret v s' =>
        obtain ⟨a', σ', hm, hr'⟩ := hc
        exact ⟨a', σ', (andThen_spec h2 _ _ hm).1 (by simp), hr'⟩
      | throw s' =>
        obtain ⟨a', σ', hm, hr'⟩ := hc
        exact ⟨a', σ', (andThen_spec h2 _ _ hm).1 (by simp), hr'⟩
      | abort => trivial
      | err => exact hc
  | .choice p q, a, R, h, σ, s, o, hr, hx => by
    simp only [run] at h
    cases h1 : run p a with
    | none => rw [h1] at h; cases h
    | some x =>
      cases h2 : run q a with
      | none => rw [h1, h2] at h; cases h
      | some y =>
        rw [h1, h2] at h
        cases h
        cases hx with
        | left hx => exact (run_sound p h1 hr hx).mono fun z hz => mem_join_left hz _
        | right hx => exact (run_sound q h2 hr hx).mono fun z hz => mem_join_right _ hz
  | .forever p, a, R, h, σ, s, o, hr, hx => by
    simp only [run] at h
    obtain ⟨S, hS, hcl⟩ := close_spec h (by simp)
    exact forever_sound hcl (fun {a R} => run_sound p) hx rfl (hS a (by simp)) hr
  | .catchCont p, a, R, h, σ, s, o, hr, hx => by
    simp only [run, Option.map_eq_some_iff] at h
    obtain ⟨R1, h1, rfl⟩ := h
    cases hx with
    | catchCont hp =>
      obtain ⟨a', σ', hm, hr'⟩ := run_sound p h1 hr hp
      exact ⟨a', σ', List.mem_map.2 ⟨_, hm, rfl⟩, hr'⟩
    | passCont hp hne =>
      have hc := run_sound p h1 hr hp
      cases o with
      | norm s' => obtain ⟨a', σ', hm, hr'⟩ := hc; exact ⟨a', σ', List.mem_map.2 ⟨_, hm, rfl⟩, hr'⟩
      | brk s' => obtain ⟨a', σ', hm, hr'⟩ := hc; exact ⟨a', σ', List.mem_map.2 ⟨_, hm, rfl⟩, hr'⟩
      | cont s' => exact absurd rfl (hne s')
      | ret v s' => obtain ⟨a', σ', hm, hr'⟩ := hc; exact ⟨a', σ', List.mem_map.2 ⟨_, hm, rfl⟩, hr'⟩
      | throw s' => obtain ⟨a', σ', hm, hr'⟩ := hc; exact ⟨a', σ', List.mem_map.2 ⟨_, hm, rfl⟩, hr'⟩
      | abort => trivial
      | err => exact hc
  | .catchBrk p, a, R, h, σ, s, o, hr, hx => by
    simp only [run, Option.map_eq_some_iff] at h
    obtain ⟨R1, h1, rfl⟩ := h
    cases hx with
    | catchBrk hp =>
      obtain ⟨a', σ', hm, hr'⟩ := run_sound p h1 hr hp
      exact ⟨a', σ', List.mem_map.2 ⟨_, hm, rfl⟩, hr'⟩
    | passBrk hp hne =>
      have hc := run_sound p h1 hr hp
      cases o with
      | norm s' => obtain ⟨a', σ', hm, hr'⟩ := hc; exact ⟨a', σ', List.mem_map.2 ⟨_, hm, rfl⟩, hr'⟩
      | cont s' => obtain ⟨a', σ', hm, hr'⟩ := hc; exact ⟨a', σ', List.mem_map.2 ⟨_, hm, rfl⟩, hr'⟩
      | brk s' => exact absurd rfl (hne s')
      | ret v s' => obtain ⟨a', σ', hm, hr'⟩ := hc; exact ⟨a', σ', List.mem_map.2 ⟨_, hm, rfl⟩, hr'⟩
      | throw s' => obtain ⟨a', σ', hm, hr'⟩ := hc; exact ⟨a', σ', List.mem_map.2 ⟨_, hm, rfl⟩, hr'⟩
      | abort => trivial
      | err => exact hc
  | .brk, a, R, h, σ, s, o, hr, hx => by cases h; cases hx; exact ⟨a, σ, by simp, hr⟩
  | .cont, a, R, h, σ, s, o, hr, hx => by cases h; cases hx; exact ⟨a, σ, by simp, hr⟩
  | .ret v, a, R, h, σ, s, o, hr, hx => by cases h; cases hx; exact ⟨a, σ, by simp, hr⟩
  | .throw, a, R, h, σ, s, o, hr, hx => by cases h; cases hx; exact ⟨a, σ, by simp, hr⟩
  | .abort, a, R, h, σ, s, o, hr, hx => by cases hx; trivial

theorem Fn.start_rep {f : Fn} (hp : ∀ v ∈ f.pre, v < f.objs) {s : St} (h : f.Starts s) :
    Rep s.int f.start s where
  obj v := by
    rw [h v]
    simp only [Fn.start, List.getElem?_map]
    by_cases hv : v < f.objs
    · rw [List.getElem?_range hv]
      simp only [Option.map_some, Option.getD_some]
      split_ifs <;> rfl
    · rw [List.getElem?_eq_none (by simpa using hv), if_neg (fun h' => hv (hp v h'))]
      rfl
  int ℓ t ht := by
    simp only [Fn.start] at ht
    have hl := lt_of_getElem? ht
    rw [List.length_range] at hl
    rw [List.getElem?_range hl] at ht
    cases ht; rfl

theorem ASt.only_spec {a : ASt} {n : ℕ} {l : List ℕ} (h : a.only n l = true) {σ : ℕ → ℤ} {s : St}
    (hr : Rep σ a s) (v : ℕ) : s.obj v = if v ∈ l then some none else none := by
  unfold ASt.only at h
  simp only [Bool.and_eq_true, decide_eq_true_eq, List.all_eq_true, beq_iff_eq, List.mem_range] at h
  obtain ⟨⟨h1, h2⟩, h3⟩ := h
  rw [hr.obj]
  by_cases hv : v < n
  · rw [h3 v hv]
    split_ifs <;> rfl
  · rw [List.getElem?_eq_none (by omega), if_neg fun h' => hv (h2 v h')]
    rfl

/-- A function accepted by the checker is safe. -/
theorem Fn.check_sound {f : Fn} (h : f.check = true) : f.Safe := by
  unfold Fn.check at h
  rw [Bool.and_eq_true, List.all_eq_true] at h
  obtain ⟨hs, h⟩ := h
  cases hr : run f.body f.start with
  | none => rw [hr] at h; cases h
  | some R =>
    rw [hr] at h
    simp only [List.all_eq_true] at h
    intro s o hst hx
    have hc := run_sound _ hr (Fn.start_rep (fun v hv => by simpa using hs v hv) hst) hx
    cases o with
    | norm s' =>
      obtain ⟨a, σ, hm, hrp⟩ := hc
      intro v
      rw [ASt.only_spec (h _ hm) hrp v]
      simp
    | brk s' => obtain ⟨a, σ, hm, hrp⟩ := hc; cases h _ hm
    | cont s' => obtain ⟨a, σ, hm, hrp⟩ := hc; cases h _ hm
    | ret r s' =>
      obtain ⟨a, σ, hm, hrp⟩ := hc
      intro v
      rw [ASt.only_spec (h _ hm) hrp v]
      have : v ∈ r.toList ++ f.post ↔ v ∈ f.post ∨ r = some v := by
        cases r <;> simp [or_comm, eq_comm]
      by_cases hv : v ∈ f.post ∨ r = some v
      · rw [if_pos hv, if_pos (this.2 hv)]
      · rw [if_neg hv, if_neg fun h' => hv (this.1 h')]
    | throw s' =>
      obtain ⟨a, σ, hm, hrp⟩ := hc
      intro v
      rw [ASt.only_spec (h _ hm) hrp v]
    | abort => trivial
    | err => exact hc

/-- Is what a function leaves one of the lists `ls`? -/
def Fn.leaves (f : Fn) (ls : List (List ℕ)) : Bool :=
  f.pre.all (fun v => decide (v < f.objs)) && match run f.body f.start with
  | none => false
  | some r => r.all fun x => match x.1 with
    | .norm | .ret _ | .throw => ls.any fun l => x.2.only f.objs (f.post ++ l)
    | _ => false

theorem Fn.leaves_sound {f : Fn} {ls : List (List ℕ)} (h : f.leaves ls = true) : f.Leaves ls := by
  unfold Fn.leaves at h
  rw [Bool.and_eq_true, List.all_eq_true] at h
  obtain ⟨hs, h⟩ := h
  cases hr : run f.body f.start with
  | none => rw [hr] at h; cases h
  | some R =>
    rw [hr] at h
    simp only [List.all_eq_true] at h
    intro s o hst hx
    have hc := run_sound _ hr (Fn.start_rep (fun v hv => by simpa using hs v hv) hst) hx
    have hl : ∀ {a : ASt} {σ : ℕ → ℤ} {s' : St},
        (ls.any fun l => a.only f.objs (f.post ++ l)) = true → Rep σ a s' →
        ∃ l ∈ ls, ∀ v, s'.obj v = if v ∈ f.post ∨ v ∈ l then some none else none := by
      intro a σ s' h hrp
      rw [List.any_eq_true] at h
      obtain ⟨l, hl, h⟩ := h
      refine ⟨l, hl, fun v => ?_⟩
      rw [ASt.only_spec h hrp v]
      by_cases hv : v ∈ f.post ∨ v ∈ l
      · rw [if_pos hv, if_pos (List.mem_append.2 hv)]
      · rw [if_neg hv, if_neg fun h' => hv (List.mem_append.1 h')]
    cases o with
    | norm s' =>
      obtain ⟨a, σ, hm, hrp⟩ := hc
      exact hl (h _ hm) hrp
    | brk s' => obtain ⟨a, σ, hm, hrp⟩ := hc; cases h _ hm
    | cont s' => obtain ⟨a, σ, hm, hrp⟩ := hc; cases h _ hm
    | ret r s' =>
      obtain ⟨a, σ, hm, hrp⟩ := hc
      exact hl (h _ hm) hrp
    | throw s' =>
      obtain ⟨a, σ, hm, hrp⟩ := hc
      exact hl (h _ hm) hrp
    | abort => trivial
    | err => exact hc

/-! ## The checker is exact: what it finds does happen -/

/-- The end of a statement in a state. -/
def Exit.out : Exit → St → Out
  | .norm, s => .norm s
  | .brk, s => .brk s
  | .cont, s => .cont s
  | .ret v, s => .ret v s
  | .throw, s => .throw s

theorem Act.step_total (c : Act) (s : St) : ∃ o, c.Step s o := by
  cases c with
  | init v =>
    by_cases h : s.obj v = none
    · exact ⟨_, .inl ⟨h, rfl⟩⟩
    · exact ⟨_, .inr ⟨h, rfl⟩⟩
  | initLen v ℓ =>
    by_cases h : s.obj v = none
    · exact ⟨_, .inl ⟨h, rfl⟩⟩
    · exact ⟨_, .inr ⟨h, rfl⟩⟩
  | clear v =>
    by_cases h : s.obj v = some none
    · exact ⟨_, .inl ⟨h, rfl⟩⟩
    · exact ⟨_, .inr ⟨h, rfl⟩⟩
  | clearLen v ℓ =>
    by_cases h : s.obj v = some (some (s.int ℓ))
    · exact ⟨_, .inl ⟨h, rfl⟩⟩
    · exact ⟨_, .inr ⟨h, rfl⟩⟩
  | use v =>
    by_cases h : s.obj v = none
    · exact ⟨_, .inr ⟨h, rfl⟩⟩
    · exact ⟨_, .inl ⟨h, rfl⟩⟩
  | lose v =>
    by_cases h : s.obj v = none
    · exact ⟨_, .inl ⟨h, rfl⟩⟩
    · exact ⟨_, .inr ⟨h, rfl⟩⟩
  | setInt ℓ => exact ⟨_, 0, rfl⟩
  | copyInt ℓ m => exact ⟨_, rfl⟩

theorem mem_join {x y : Rs} {z : Exit × ASt} (h : z ∈ join x y) : z ∈ x ∨ z ∈ y := by
  rcases List.mem_append.1 h with h | h
  · exact .inl (List.mem_filter.1 h).1
  · exact .inr h

theorem andThen_mem {f : ASt → Option Rs} : ∀ {r R : Rs}, andThen f r = some R → ∀ y ∈ R,
    (y ∈ r ∧ y.1 ≠ .norm) ∨ ∃ a x, (Exit.norm, a) ∈ r ∧ f a = some x ∧ y ∈ x
  | [], R, h, y, hy => by
    simp only [andThen, Option.some.injEq] at h
    subst h; cases hy
  | (e₀, a₀) :: r, R, h, z, hz => by
    simp only [andThen] at h
    cases hx : (if e₀ = .norm then f a₀ else some [(e₀, a₀)]) with
    | none => rw [hx] at h; cases h
    | some x =>
      cases hy : andThen f r with
      | none => rw [hx, hy] at h; cases h
      | some y =>
        rw [hx, hy] at h
        cases h
        rcases mem_join hz with hz | hz
        · by_cases he : e₀ = .norm
          · subst he
            rw [if_pos rfl] at hx
            exact .inr ⟨a₀, x, List.mem_cons_self, hx, hz⟩
          · rw [if_neg he] at hx
            cases hx
            rw [List.mem_singleton] at hz
            subst hz
            exact .inl ⟨List.mem_cons_self, he⟩
        · rcases andThen_mem hy z hz with ⟨h1, h2⟩ | ⟨a, x', h1, h2, h3⟩
          · exact .inl ⟨List.mem_cons_of_mem _ h1, h2⟩
          · exact .inr ⟨a, x', List.mem_cons_of_mem _ h1, h2, h3⟩

/-- The abstract end `x` of the statement `p` from `s` happens. -/
def Happens (p : Stm) (s : St) (x : Exit × ASt) : Prop :=
  ∃ s' σ', Exec p s (x.1.out s') ∧ Rep σ' x.2 s'

/-- The loop gets to begin a turn in the abstract state `a`. -/
def Begins (p : Stm) (s₀ : St) (a : ASt) : Prop :=
  ∃ s σ, Rep σ a s ∧ ∀ o, Exec (.forever p) s o → Exec (.forever p) s₀ o

theorem close_happens {p : Stm} {s₀ : St}
    (hp : ∀ {a R}, run p a = some R → ∀ {σ s}, Rep σ a s → ∀ x ∈ R, Happens p s x) :
    ∀ {n : ℕ} {todo seen : List ASt} {E E' : Rs}, close (run p) n todo seen E = some E' →
      (∀ a ∈ todo, Begins p s₀ a) → (∀ x ∈ E, Happens (.forever p) s₀ x) →
      ∀ x ∈ E', Happens (.forever p) s₀ x
  | 0, _, _, _, _, h, _, _ => by cases h
  | n + 1, [], seen, E, E', h, _, hE => by
    simp only [close, Option.some.injEq] at h
    subst h
    exact hE
  | n + 1, a :: todo, seen, E, E', h, ht, hE => by
    simp only [close] at h
    by_cases ha : a ∈ seen
    · rw [if_pos ha] at h
      exact close_happens hp h (fun b hb => ht b (List.mem_cons_of_mem _ hb)) hE
    · rw [if_neg ha] at h
      cases hf : run p a with
      | none => rw [hf] at h; cases h
      | some r =>
        rw [hf] at h
        obtain ⟨s, σ, hr, hs⟩ := ht a List.mem_cons_self
        refine close_happens hp h ?_ ?_
        · intro b hb
          rcases List.mem_append.1 hb with hb | hb
          · rcases mem_nexts.1 hb with hb | hb
            · obtain ⟨s', σ', h1, h2⟩ := hp hf hr _ hb
              exact ⟨s', σ', h2, fun o ho => hs o (.next h1 ho)⟩
            · obtain ⟨s', σ', h1, h2⟩ := hp hf hr _ hb
              exact ⟨s', σ', h2, fun o ho => hs o (.nextCont h1 ho)⟩
          · exact ht b (List.mem_cons_of_mem _ hb)
        · intro x hx
          rcases mem_join hx with hx | hx
          · exact hE x hx
          · obtain ⟨⟨e, b⟩, hm, hy⟩ := List.mem_filterMap.1 hx
            obtain ⟨s', σ', h1, h2⟩ := hp hf hr _ hm
            cases e <;> simp only [Option.some.injEq, reduceCtorEq] at hy
            · subst hy
              exact ⟨s', σ', hs _ (.leave h1), h2⟩
            · subst hy
              exact ⟨s', σ', hs _ (.loopRet h1), h2⟩
            · subst hy
              exact ⟨s', σ', hs _ (.loopThrow h1), h2⟩

theorem run_happens : ∀ (p : Stm) {a : ASt} {R : Rs}, run p a = some R → ∀ {σ s}, Rep σ a s →
    ∀ x ∈ R, Happens p s x
  | .skip, a, R, h, σ, s, hr, x, hx => by
    cases h; rw [List.mem_singleton] at hx; subst hx; exact ⟨s, σ, .skip, hr⟩
  | .act c, a, R, h, σ, s, hr, x, hx => by
    simp only [run, Option.map_eq_some_iff] at h
    obtain ⟨a', ha', rfl⟩ := h
    rw [List.mem_singleton] at hx
    subst hx
    obtain ⟨o, ho⟩ := c.step_total s
    obtain ⟨s', σ', h2, h3⟩ := abs_sound ha' hr ho
    subst h2
    exact ⟨s', σ', .act ho, h3⟩
  | .seq p q, a, R, h, σ, s, hr, x, hx => by
    simp only [run, Option.bind_eq_some_iff] at h
    obtain ⟨R1, h1, h2⟩ := h
    rcases andThen_mem h2 x hx with ⟨hm, hne⟩ | ⟨b, y, hm, hy, hxy⟩
    · obtain ⟨s', σ', h3, h4⟩ := run_happens p h1 hr x hm
      refine ⟨s', σ', .seqExit h3 ?_, h4⟩
      intro s'' h5
      obtain ⟨e, b⟩ := x
      cases e <;> simp [Exit.out] at h5 hne
    · obtain ⟨s', σ', h3, h4⟩ := run_happens p h1 hr _ hm
      obtain ⟨s'', σ'', h5, h6⟩ := run_happens q hy h4 x hxy
      exact ⟨s'', σ'', .seq h3 h5, h6⟩
  | .choice p q, a, R, h, σ, s, hr, z, hz => by
    simp only [run] at h
    cases h1 : run p a with
    | none => rw [h1] at h; cases h
    | some x =>
      cases h2 : run q a with
      | none => rw [h1, h2] at h; cases h
      | some y =>
        rw [h1, h2] at h
        cases h
        rcases mem_join hz with hz | hz
        · obtain ⟨s', σ', h3, h4⟩ := run_happens p h1 hr _ hz
          exact ⟨s', σ', .left h3, h4⟩
        · obtain ⟨s', σ', h3, h4⟩ := run_happens q h2 hr _ hz
          exact ⟨s', σ', .right h3, h4⟩
  | .forever p, a, R, h, σ, s, hr, x, hx => by
    simp only [run] at h
    refine close_happens (fun {a R} => run_happens p) h ?_ (by simp) x hx
    intro b hb
    rw [List.mem_singleton] at hb
    subst hb
    exact ⟨s, σ, hr, fun _ h => h⟩
  | .catchCont p, a, R, h, σ, s, hr, x, hx => by
    simp only [run, Option.map_eq_some_iff] at h
    obtain ⟨R1, h1, rfl⟩ := h
    obtain ⟨⟨e, b⟩, hm, rfl⟩ := List.mem_map.1 hx
    obtain ⟨s', σ', h3, h4⟩ := run_happens p h1 hr _ hm
    cases e
    · exact ⟨s', σ', .passCont h3 (by simp [Exit.out]), h4⟩
    · exact ⟨s', σ', .passCont h3 (by simp [Exit.out]), h4⟩
    · exact ⟨s', σ', .catchCont h3, h4⟩
    · exact ⟨s', σ', .passCont h3 (by simp [Exit.out]), h4⟩
    · exact ⟨s', σ', .passCont h3 (by simp [Exit.out]), h4⟩
  | .catchBrk p, a, R, h, σ, s, hr, x, hx => by
    simp only [run, Option.map_eq_some_iff] at h
    obtain ⟨R1, h1, rfl⟩ := h
    obtain ⟨⟨e, b⟩, hm, rfl⟩ := List.mem_map.1 hx
    obtain ⟨s', σ', h3, h4⟩ := run_happens p h1 hr _ hm
    cases e
    · exact ⟨s', σ', .passBrk h3 (by simp [Exit.out]), h4⟩
    · exact ⟨s', σ', .catchBrk h3, h4⟩
    · exact ⟨s', σ', .passBrk h3 (by simp [Exit.out]), h4⟩
    · exact ⟨s', σ', .passBrk h3 (by simp [Exit.out]), h4⟩
    · exact ⟨s', σ', .passBrk h3 (by simp [Exit.out]), h4⟩
  | .brk, a, R, h, σ, s, hr, x, hx => by
    cases h; rw [List.mem_singleton] at hx; subst hx; exact ⟨s, σ, .brk, hr⟩
  | .cont, a, R, h, σ, s, hr, x, hx => by
    cases h; rw [List.mem_singleton] at hx; subst hx; exact ⟨s, σ, .cont, hr⟩
  | .ret v, a, R, h, σ, s, hr, x, hx => by
    cases h; rw [List.mem_singleton] at hx; subst hx; exact ⟨s, σ, .ret, hr⟩
  | .throw, a, R, h, σ, s, hr, x, hx => by
    cases h; rw [List.mem_singleton] at hx; subst hx; exact ⟨s, σ, .throw, hr⟩
  | .abort, a, R, h, σ, s, hr, x, hx => by cases h; cases hx

/-- A state in which the function is called. -/
def Fn.call (f : Fn) : St where
  obj v := if v ∈ f.pre then some none else none
  int _ := 0

theorem Fn.call_starts (f : Fn) : f.Starts f.call := fun _ => rfl

/-- Does the checker find an end of the function in which exactly the objects `l` are left? -/
def Fn.leaks (f : Fn) (l : List ℕ) : Bool :=
  f.pre.all (fun v => decide (v < f.objs)) && match run f.body f.start with
  | none => false
  | some r => r.any fun x => match x.1 with
    | .ret none => x.2.only f.objs (f.post ++ l)
    | _ => false

theorem Fn.leaks_sound {f : Fn} {l : List ℕ} (h : f.leaks l = true) : f.Leaks l := by
  unfold Fn.leaks at h
  rw [Bool.and_eq_true, List.all_eq_true] at h
  obtain ⟨hs, h⟩ := h
  cases hr : run f.body f.start with
  | none => rw [hr] at h; cases h
  | some R =>
    rw [hr] at h
    simp only [List.any_eq_true] at h
    obtain ⟨⟨e, a⟩, hm, ha⟩ := h
    obtain ⟨s', σ', h1, h2⟩ := run_happens _ hr
      (Fn.start_rep (fun v hv => by simpa using hs v hv) f.call_starts) _ hm
    cases e with
    | norm => cases ha
    | brk => cases ha
    | cont => cases ha
    | throw => cases ha
    | ret r =>
      cases r with
      | some r => cases ha
      | none =>
      refine ⟨f.call, s', f.call_starts, h1, fun v => ?_⟩
      rw [ASt.only_spec ha h2 v]
      by_cases hv : v ∈ f.post ∨ v ∈ l
      · rw [if_pos hv, if_pos (List.mem_append.2 hv)]
      · rw [if_neg hv, if_neg fun h' => hv (List.mem_append.1 h')]

/-- Does the checker find an exception after which exactly the objects `l` are left? -/
def Fn.leaksOnThrow (f : Fn) (l : List ℕ) : Bool :=
  f.pre.all (fun v => decide (v < f.objs)) && match run f.body f.start with
  | none => false
  | some r => r.any fun x => match x.1 with
    | .throw => x.2.only f.objs (f.pre ++ l)
    | _ => false

theorem Fn.leaksOnThrow_sound {f : Fn} {l : List ℕ} (h : f.leaksOnThrow l = true) :
    f.LeaksOnThrow l := by
  unfold Fn.leaksOnThrow at h
  rw [Bool.and_eq_true, List.all_eq_true] at h
  obtain ⟨hs, h⟩ := h
  cases hr : run f.body f.start with
  | none => rw [hr] at h; cases h
  | some R =>
    rw [hr] at h
    simp only [List.any_eq_true] at h
    obtain ⟨⟨e, a⟩, hm, ha⟩ := h
    obtain ⟨s', σ', h1, h2⟩ := run_happens _ hr
      (Fn.start_rep (fun v hv => by simpa using hs v hv) f.call_starts) _ hm
    cases e with
    | norm => cases ha
    | brk => cases ha
    | cont => cases ha
    | ret r => cases ha
    | throw =>
      refine ⟨f.call, s', f.call_starts, h1, fun v => ?_⟩
      rw [ASt.only_spec ha h2 v]
      by_cases hv : v ∈ f.pre ∨ v ∈ l
      · rw [if_pos hv, if_pos (List.mem_append.2 hv)]
      · rw [if_neg hv, if_neg fun h' => hv (List.mem_append.1 h')]

/-- `Fn.check`, where exceptions may leave one of the lists `ls`. -/
def Fn.checkBut (f : Fn) (ls : List (List ℕ)) : Bool :=
  f.pre.all (fun v => decide (v < f.objs)) && match run f.body f.start with
  | none => false
  | some r => r.all fun x => match x.1 with
    | .throw => ls.any fun l => x.2.only f.objs (f.pre ++ l)
    | _ => f.fine x

theorem Fn.checkBut_sound {f : Fn} {ls : List (List ℕ)} (h : f.checkBut ls = true) : f.SafeBut ls := by
  unfold Fn.checkBut at h
  rw [Bool.and_eq_true, List.all_eq_true] at h
  obtain ⟨hs, h⟩ := h
  cases hr : run f.body f.start with
  | none => rw [hr] at h; cases h
  | some R =>
    rw [hr] at h
    simp only [List.all_eq_true] at h
    intro s o hst hx
    have hc := run_sound _ hr (Fn.start_rep (fun v hv => by simpa using hs v hv) hst) hx
    cases o with
    | norm s' =>
      obtain ⟨a, σ, hm, hrp⟩ := hc
      intro v
      rw [ASt.only_spec (h _ hm) hrp v]
      simp
    | brk s' => obtain ⟨a, σ, hm, hrp⟩ := hc; cases h _ hm
    | cont s' => obtain ⟨a, σ, hm, hrp⟩ := hc; cases h _ hm
    | ret r s' =>
      obtain ⟨a, σ, hm, hrp⟩ := hc
      intro v
      rw [ASt.only_spec (h _ hm) hrp v]
      have : v ∈ r.toList ++ f.post ↔ v ∈ f.post ∨ r = some v := by
        cases r <;> simp [or_comm, eq_comm]
      by_cases hv : v ∈ f.post ∨ r = some v
      · rw [if_pos hv, if_pos (this.2 hv)]
      · rw [if_neg hv, if_neg fun h' => hv (this.1 h')]
    | throw s' =>
      obtain ⟨a, σ, hm, hrp⟩ := hc
      have ha : (ls.any fun l => a.only f.objs (f.pre ++ l)) = true := h _ hm
      rw [List.any_eq_true] at ha
      obtain ⟨l, hl, ha⟩ := ha
      refine ⟨l, hl, fun v => ?_⟩
      rw [ASt.only_spec ha hrp v]
      by_cases hv : v ∈ f.pre ∨ v ∈ l
      · rw [if_pos hv, if_pos (List.mem_append.2 hv)]
      · rw [if_neg hv, if_neg fun h' => hv (List.mem_append.1 h')]
    | abort => trivial
    | err => exact hc

end EAntic.Rsc
