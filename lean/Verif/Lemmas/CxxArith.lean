import Verif.Lemmas.CxxOps

/-! # The C++ elements: construction, assignment, arithmetic, comparison -/

namespace EAntic.Cxx

variable {β γ : Type} {U : Prop} {T : String → World → Prop}
variable {L : Lib} {α : ℕ → ℝ} {I : ℕ → Field → Prop} {Λ : Set ℕ} {S : Reg → Slot} {w : World}
variable (hE : ∀ i, FieldInv (L.E i) (α i) (I i))
include hE

/-! ## C functions that store one number -/

omit hE in
/-- a C function that stores `g v` in `r` -/
theorem stores {K : Nf} {x : ℝ} {J : Field → Prop} {v : Reg → ℝ} {m : M Unit} {r : Reg} {y y' : ℝ}
    (h : Hoare (EAntic.Rep K x J v) m fun _ => EAntic.Rep K x J (upd v r y)) {s : Mem}
    (hs : EAntic.Rep K x J v s) (hr : ∃ p, m s = .ok p) (hy : y = y') :
    GoodM U (fun _ s' => ∃ a', EAntic.Rep K x J (upd v r a') s' ∧ a' = y') (m s) :=
  GoodM.of_hoare (h.conseq (fun _ h => h) fun _ _ h => ⟨y, h, hy⟩) hs (.inr hr)

/-- the value stored does not depend on the previous one -/
theorem store1_good {x : Reg} {i : ℕ} {a y : ℝ} (h : Rep L α I Λ S w) (hx : S x = .elem i a)
    {c : ℕ} (hc : w.obj x = some ⟨some i, c⟩) {m : M Unit}
    (hm : ∀ v, v (.user c) = a → ∀ s, EAntic.Rep (L.K i) (α i) (I i) v s → GoodM U
      (fun _ s' => ∃ a', EAntic.Rep (L.K i) (α i) (I i) (upd v (.user c) a') s' ∧ a' = y) (m s)) :
    Good U T (fun _ w' => Rep L α I Λ (Function.update S x (.elem i y)) w' ∧ w'.obj = w.obj)
      (call L i [c] m w) := by
  refine (call2_good hE h hx hx hc hc (Q := fun _ a' => a' = y) (fun v hv _ => hm v hv)
    (.inr ⟨rfl, rfl⟩)).mono ?_
  rintro _ w' ⟨a', rfl, hr, ho⟩
  exact ⟨hr, ho⟩

/-- `x` is changed by a C function that also sees `y` -/
theorem store2_good {x y : Reg} {i cx cy : ℕ} {a b z : ℝ} (h : Rep L α I Λ S w) (hx : S x = .elem i a)
    (hy : S y = .elem i b) (hox : w.obj x = some ⟨some i, cx⟩) (hoy : w.obj y = some ⟨some i, cy⟩)
    {m : M Unit}
    (hm : ∀ v, v (.user cx) = a → v (.user cy) = b → ∀ s, EAntic.Rep (L.K i) (α i) (I i) v s →
      GoodM U (fun _ s' => ∃ a', EAntic.Rep (L.K i) (α i) (I i) (upd v (.user cx) a') s' ∧ a' = z)
        (m s)) :
    Good U T (fun _ w' => Rep L α I Λ (Function.update S x (.elem i z)) w' ∧ w'.obj = w.obj)
      (call L i [cx, cy] m w) := by
  refine (call2_good hE h hx hy hox hoy (Q := fun _ a' => a' = z) hm (.inl rfl)).mono ?_
  rintro _ w' ⟨a', rfl, hr, ho⟩
  exact ⟨hr, ho⟩

/-! ## Construction -/

theorem constructWith_good {x : Reg} (k : ℕ) {y : ℝ} (h : Rep L α I Λ S w) (hx : S x = .absent)
    {f : Reg → M Unit}
    (hm : ∀ c v, v (.user c) = 0 → ∀ s, EAntic.Rep (L.K k) (α k) (I k) v s → GoodM U
      (fun _ s' => ∃ a', EAntic.Rep (L.K k) (α k) (I k) (upd v (.user c) a') s' ∧ a' = y)
        (f (.user c) s)) :
    Good U T (fun _ w' => Rep L α I Λ (Function.update S x (.elem k y)) w')
      (constructWith L x k f w) := by
  unfold constructWith
  rw [h.absent x hx]
  refine Good.alloc (Good.setObj ?_)
  have h' := h.create hE k (x := x) (fun i a e => by rw [hx] at e; cases e)
  refine (store1_good hE h' (x := x) (Function.update_self ..) (c := w.next) (y := y) (by simp)
    (hm _)).mono ?_
  rintro _ w' ⟨hr, -⟩
  rwa [Function.update_idem] at hr

theorem construct_good {x : Reg} (k : ℕ) (h : Rep L α I Λ S w) (hx : S x = .absent) :
    Good U T (fun _ w' => Rep L α I Λ (Function.update S x (.elem k 0)) w') (construct L x k w) :=
  constructWith_good hE k h hx fun _ _ _ _ hs => stores (zero_spec (hE k) _) hs ⟨_, rfl⟩ rfl

theorem constructZ_good {x : Reg} (k : ℕ) (z : ℤ) (h : Rep L α I Λ S w) (hx : S x = .absent) :
    Good U T (fun _ w' => Rep L α I Λ (Function.update S x (.elem k z)) w') (constructZ L x k z w) :=
  constructWith_good hE k h hx fun _ _ _ _ hs => stores (setZ_spec (hE k) _ z) hs ⟨_, rfl⟩ rfl

theorem constructQ_good {x : Reg} (k : ℕ) (q : ℚ) (h : Rep L α I Λ S w) (hx : S x = .absent) :
    Good U T (fun _ w' => Rep L α I Λ (Function.update S x (.elem k q)) w') (constructQ L x k q w) :=
  constructWith_good hE k h hx fun _ _ _ _ hs => stores (setQ_spec (hE k) _ q) hs ⟨_, rfl⟩ rfl

theorem constructVec_good {x : Reg} (k : ℕ) {n : List ℤ} {d : ℤ} (h : Rep L α I Λ S w)
    (hx : S x = .absent) (hn : n.length ≤ (L.K k).degree) (hd : 0 < d) :
    Good U T (fun _ w' => Rep L α I Λ (Function.update S x (.elem k (realValue (α k) n d))) w')
      (constructVec L x k n d w) := by
  unfold constructVec
  refine Good.assert (by simpa using hn) ?_
  rw [if_neg (by omega)]
  refine Good.bind (construct_good hE k h hx) ?_
  intro _ w₁ h₁
  obtain ⟨c, hc, _⟩ := h₁.find (x := x) (Function.update_self ..)
  refine Good.obj hc ?_
  refine (store1_good hE h₁ (x := x) (Function.update_self ..) hc
    (y := realValue (α k) n d) fun v hv s hs =>
      stores (setPoly_spec (hE k) _ n hd.ne') hs ⟨_, rfl⟩ rfl).mono ?_
  rintro _ w' ⟨hr, -⟩
  rwa [Function.update_idem] at hr

omit hE in
/-- an object ceases to exist but its storage is not released -/
theorem Rep.forget (h : Rep L α I Λ S w) {x : Reg} {i c : ℕ} (hx : w.obj x = some ⟨some i, c⟩) :
    Rep L α I (insert c Λ) (Function.update S x .absent)
      { w with obj := fun y => if y = x then none else w.obj y } where
  fld := h.fld
  absent z hz := by
    by_cases hzx : z = x
    · simp [hzx]
    · rw [Function.update_of_ne hzx] at hz
      simp only [if_neg hzx]
      exact h.absent z hz
  moved z hz := by
    by_cases hzx : z = x
    · subst hzx; simp at hz
    · rw [Function.update_of_ne hzx] at hz
      simp only [if_neg hzx]
      exact h.moved z hz
  elem z j a hz := by
    by_cases hzx : z = x
    · subst hzx; simp at hz
    · rw [Function.update_of_ne hzx] at hz
      obtain ⟨d, e, h1, h2⟩ := h.elem z j a hz
      exact ⟨d, e, by simp [hzx, h1], h2⟩
  inj y z i' j d hy hz := by
    have key : ∀ {y j d}, (if y = x then none else w.obj y) = some (⟨some j, d⟩ : Obj) →
        w.obj y = some ⟨some j, d⟩ := by
      intro y j d hy
      by_cases hyx : y = x
      · rw [if_pos hyx] at hy; simp at hy
      · rwa [if_neg hyx] at hy
    exact h.inj y z i' j d (key hy) (key hz)
  owned d hd hl := by
    rw [Set.mem_insert_iff, not_or] at hl
    obtain ⟨z, j, hz⟩ := h.owned d hd hl.2
    refine ⟨z, j, ?_⟩
    have : z ≠ x := by
      rintro rfl
      rw [hx] at hz
      simp only [Option.some.injEq, Obj.mk.injEq] at hz
      exact hl.1 hz.2.symm
    simp [this, hz]
  bound := h.bound

theorem constructFrom_good {x y : Reg} (k : ℕ) {j : ℕ} {b : ℝ} (h : Rep L α I Λ S w)
    (hx : S x = .absent) (hy : S y = .elem j b)
    (hT : j ≠ k → ¬ IsRat b → ∀ s w' c, Rep L α I (insert c Λ) S w' →
      (w'.cell c ≠ none ∧ ∀ z i, w'.obj z ≠ some ⟨some i, c⟩) → T s w') :
    Good U T (fun _ w' => (j = k ∨ IsRat b) ∧ Rep L α I Λ (Function.update S x (.elem k b)) w')
      (constructFrom L x k y w) := by
  have hne : y ≠ x := by rintro rfl; rw [hx] at hy; cases hy
  unfold constructFrom
  rw [h.absent x hx]
  obtain ⟨cy, hcy, _⟩ := h.find hy
  refine Good.obj hcy (Good.deref (Good.alloc (Good.setObj ?_)))
  have h' := h.create hE k (x := x) (fun i a e => by rw [hx] at e; cases e)
  have hy' : Function.update S x (.elem k 0) y = .elem j b := by rwa [Function.update_of_ne hne]
  have hcx' : (if x = x then some (⟨some k, w.next⟩ : Obj) else w.obj x) = some ⟨some k, w.next⟩ :=
    by simp
  have hcy' : (if y = x then some (⟨some k, w.next⟩ : Obj) else w.obj y) = some ⟨some j, cy⟩ := by
    rw [if_neg hne]; exact hcy
  by_cases hjk : j = k
  · rw [if_pos hjk]
    subst hjk
    refine (store2_good hE h' (x := x) (y := y) (Function.update_self ..) hy' hcx' hcy' (z := b)
      fun v hv hv' s hs => stores (set_spec (hE j) _ _) hs ⟨_, rfl⟩ hv').mono ?_
    rintro _ w' ⟨hr, -⟩
    rw [Function.update_idem] at hr
    exact ⟨.inl rfl, hr⟩
  · rw [if_neg hjk]
    refine Good.bind (isRational_good hE h' hy') ?_
    rintro r w₁ ⟨hr, h₁, ho⟩
    split_ifs with hr'
    · refine Good.bind (toMpq_good hE h₁ hy' (hr.1 hr')) ?_
      rintro q w₂ ⟨hq, h₂, ho₂⟩
      refine (store1_good hE h₂ (x := x) (Function.update_self ..) (c := w.next) (y := b) ?_
        fun v hv s hs => stores (setQ_spec (hE k) _ q) hs ⟨_, rfl⟩ hq.symm).mono ?_
      · rw [ho₂, ho]; simp
      · rintro _ w' ⟨hr'', -⟩
        rw [Function.update_idem] at hr''
        exact ⟨.inr (hr.1 hr'), hr''⟩
    · refine (and_imp.2 (hT hjk (fun hb => hr' (hr.2 hb)) _ _ w.next)) ?_
      have h₂ := h₁.forget (x := x) (i := k) (c := w.next) (by rw [ho]; simp)
      have hox : w₁.obj x = some ⟨some k, w.next⟩ := by rw [ho]; simp
      refine ⟨by rwa [Function.update_idem, ← hx, Function.update_eq_self] at h₂, ?_, ?_⟩
      · obtain ⟨_, -, e, he, -⟩ := h₁.live hox
        show w₁.cell w.next ≠ none
        rw [he]; simp
      · intro z i hz
        by_cases hzx : z = x
        · simp [hzx] at hz
        · simp only [if_neg hzx] at hz
          exact hzx (h₁.inj z x i k _ hz hox)

theorem copyCtor_good {x y : Reg} {j : ℕ} {b : ℝ} (h : Rep L α I Λ S w) (hx : S x = .absent)
    (hy : S y = .elem j b) :
    Good U T (fun _ w' => Rep L α I Λ (Function.update S x (.elem j b)) w') (copyCtor L x y w) := by
  unfold copyCtor parent
  obtain ⟨cy, hcy, _⟩ := h.find hy
  refine Good.bind (P := fun k w' => k = j ∧ w' = w) (Good.obj hcy ⟨rfl, rfl⟩) ?_
  rintro _ _ ⟨rfl, rfl⟩
  exact (constructFrom_good hE _ h hx hy fun h => absurd rfl h).mono fun _ _ h => h.2

/-! ## Moving, swapping, destruction -/

omit hE in
/-- exchanging the objects of names -/
theorem Rep.rename (h : Rep L α I Λ S w) (σ : Reg → Reg) (hσ : Function.Involutive σ) :
    Rep L α I Λ (fun x => S (σ x)) { w with obj := fun x => w.obj (σ x) } where
  fld := h.fld
  absent x hx := h.absent _ hx
  moved x hx := h.moved _ hx
  elem x i a hx := h.elem _ i a hx
  inj x y i j c hx hy := hσ.injective (h.inj _ _ i j c hx hy)
  owned c hc hl := by
    obtain ⟨x, i, hx⟩ := h.owned c hc hl
    exact ⟨σ x, i, by simpa [hσ x] using hx⟩
  bound := h.bound

omit hE in
/-- an object that owns nothing can be changed to another such object -/
theorem Rep.idle (h : Rep L α I Λ S w) {x : Reg} (hx : ∀ i a, S x ≠ .elem i a) {sl : Slot}
    {o : Option Obj} (ho : sl = .absent ∧ o = none ∨ sl = .moved ∧ ∃ c, o = some ⟨none, c⟩) :
    Rep L α I Λ (Function.update S x sl) { w with obj := fun y => if y = x then o else w.obj y } where
  fld := h.fld
  absent z hz := by
    by_cases hzx : z = x
    · subst hzx
      rw [Function.update_self] at hz
      rcases ho with ⟨_, h2⟩ | ⟨h1, _⟩
      · simp [h2]
      · rw [h1] at hz; simp at hz
    · rw [Function.update_of_ne hzx] at hz
      simp only [if_neg hzx]
      exact h.absent z hz
  moved z hz := by
    by_cases hzx : z = x
    · subst hzx
      rw [Function.update_self] at hz
      rcases ho with ⟨h1, _⟩ | ⟨_, c, h2⟩
      · rw [h1] at hz; simp at hz
      · exact ⟨c, by simp [h2]⟩
    · rw [Function.update_of_ne hzx] at hz
      simp only [if_neg hzx]
      exact h.moved z hz
  elem z j a hz := by
    by_cases hzx : z = x
    · subst hzx
      rw [Function.update_self] at hz
      rcases ho with ⟨h1, _⟩ | ⟨h1, _⟩ <;> · rw [h1] at hz; simp at hz
    · rw [Function.update_of_ne hzx] at hz
      obtain ⟨d, e, h1, h2⟩ := h.elem z j a hz
      exact ⟨d, e, by simp [hzx, h1], h2⟩
  inj y z i' j d hy hz := by
    have key : ∀ {y j d}, (if y = x then o else w.obj y) = some ⟨some j, d⟩ → y ≠ x ∧
        w.obj y = some ⟨some j, d⟩ := by
      intro y j d hy
      by_cases hyx : y = x
      · rw [if_pos hyx] at hy
        rcases ho with ⟨_, h2⟩ | ⟨_, c, h2⟩ <;> · rw [h2] at hy; simp at hy
      · rw [if_neg hyx] at hy; exact ⟨hyx, hy⟩
    exact h.inj y z i' j d (key hy).2 (key hz).2
  owned d hd hl := by
    obtain ⟨z, j, hz⟩ := h.owned d hd hl
    refine ⟨z, j, ?_⟩
    have : z ≠ x := by
      rintro rfl
      obtain ⟨a, ha, _⟩ := h.live hz
      exact hx _ _ ha
    simp [this, hz]
  bound := h.bound

omit hE in
theorem Rep.exists_obj (h : Rep L α I Λ S w) {x : Reg} (hx : S x ≠ .absent) :
    ∃ o, w.obj x = some o := by
  cases hs : S x with
  | absent => exact absurd hs hx
  | moved => obtain ⟨c, hc⟩ := h.moved x hs; exact ⟨_, hc⟩
  | elem i a => obtain ⟨c, hc, _⟩ := h.find hs; exact ⟨_, hc⟩

omit hE in
theorem World.ext {w w' : World} (h1 : w.fld = w'.fld) (h2 : w.cell = w'.cell)
    (h3 : w.next = w'.next) (h4 : w.obj = w'.obj) : w = w' := by
  cases w; cases w'; simp_all

omit hE in
theorem swap_good {x y : Reg} (h : Rep L α I Λ S w) (hx : S x ≠ .absent) (hy : S y ≠ .absent) :
    Good U T (fun _ w' => Rep L α I Λ (Function.update (Function.update S x (S y)) y (S x)) w')
      (swap x y w) := by
  obtain ⟨ox, hox⟩ := h.exists_obj hx
  obtain ⟨oy, hoy⟩ := h.exists_obj hy
  unfold swap
  refine Good.obj hox (Good.obj hoy (Good.setObj ?_))
  have := h.rename (Equiv.swap x y) (fun z => Equiv.swap_apply_self x y z)
  show Rep L α I Λ _ _
  convert this using 1
  · funext z
    by_cases hzy : z = y
    · subst hzy; simp
    · by_cases hzx : z = x
      · subst hzx; simp [Function.update_of_ne hzy]
      · rw [Function.update_of_ne hzy, Function.update_of_ne hzx, Equiv.swap_apply_of_ne_of_ne hzx hzy]
  · refine World.ext rfl rfl rfl ?_
    funext z
    by_cases hzy : z = y
    · subst hzy; simp [hox]
    · by_cases hzx : z = x
      · subst hzx; simp [hzy, hoy]
      · simp only [if_neg hzy, if_neg hzx]; rw [Equiv.swap_apply_of_ne_of_ne hzx hzy]

omit hE in
/-- taking over the contents of `y` by an object that owns nothing -/
theorem take_rep {x y : Reg} {o : Obj} (h : Rep L α I Λ S w) (hx : ∀ i a, S x ≠ .elem i a)
    (hy : w.obj y = some o) (hxy : x ≠ y) :
    Rep L α I Λ (Function.update (Function.update S y .moved) x (S y)) { w with
      obj := fun z => if z = x then some o else if z = y then some ⟨none, o.cell⟩ else w.obj z } := by
  have h1 := h.rename (Equiv.swap x y) (fun z => Equiv.swap_apply_self x y z)
  have h2 := h1.idle (x := y) (by simpa using hx) (sl := .moved) (o := some ⟨none, o.cell⟩)
    (.inr ⟨rfl, _, rfl⟩)
  convert h2 using 1
  · funext z
    by_cases hzx : z = x
    · subst hzx; simp [Function.update_of_ne hxy]
    · by_cases hzy : z = y
      · subst hzy; simp [Function.update_of_ne hzx]
      · rw [Function.update_of_ne hzx, Function.update_of_ne hzy, Function.update_of_ne hzy,
          Equiv.swap_apply_of_ne_of_ne hzx hzy]
  · refine World.ext rfl rfl rfl ?_
    funext z
    by_cases hzx : z = x
    · subst hzx; simp [hxy, hy]
    · by_cases hzy : z = y
      · subst hzy; simp [hzx]
      · simp only [if_neg hzy, if_neg hzx]; rw [Equiv.swap_apply_of_ne_of_ne hzx hzy]

omit hE in
theorem moveCtor_good {x y : Reg} (h : Rep L α I Λ S w) (hx : S x = .absent) (hy : S y ≠ .absent) :
    Good U T (fun _ w' => Rep L α I Λ (Function.update (Function.update S y .moved) x (S y)) w')
      (moveCtor x y w) := by
  have hxy : x ≠ y := by rintro rfl; exact hy hx
  obtain ⟨oy, hoy⟩ := h.exists_obj hy
  unfold moveCtor
  rw [h.absent x hx]
  refine Good.obj hoy (Good.setObj ?_)
  exact take_rep h (fun i a e => by rw [hx] at e; cases e) hoy hxy

omit hE in
theorem moveAssign_good {x y : Reg} (h : Rep L α I Λ S w) (hx : S x ≠ .absent) (hy : S y ≠ .absent) :
    Good U T (fun _ w' =>
      ((∃ i a, S x = .elem i a) ∧
        Rep L α I Λ (Function.update (Function.update S x (S y)) y (S x)) w') ∨
      (S x = .moved ∧ Rep L α I Λ (Function.update (Function.update S y .moved) x (S y)) w'))
      (moveAssign x y w) := by
  unfold moveAssign
  cases hs : S x with
  | absent => exact absurd hs hx
  | elem i a =>
    obtain ⟨c, hc, _⟩ := h.find hs
    refine Good.obj hc ?_
    refine (swap_good h hx hy).mono fun _ w' hr => .inl ⟨⟨i, a, rfl⟩, ?_⟩
    rwa [hs] at hr
  | moved =>
    obtain ⟨c, hc⟩ := h.moved x hs
    refine Good.obj hc ?_
    obtain ⟨oy, hoy⟩ := h.exists_obj hy
    refine Good.obj hoy (Good.setObj ?_)
    refine .inr ⟨rfl, ?_⟩
    by_cases hxy : x = y
    · subst hxy
      rw [hoy] at hc
      injection hc with hc
      subst hc
      have e : Function.update (Function.update S x .moved) x (S x) = S := by
        rw [hs, Function.update_idem, ← hs, Function.update_eq_self]
      rw [e]
      convert h using 1
      refine World.ext rfl rfl rfl ?_
      funext z
      by_cases hz : z = x
      · subst hz; simp [hoy]
      · simp [hz]
    · exact take_rep h (fun i a e => by rw [hs] at e; cases e) hoy hxy

omit hE in
theorem destroy_good {x : Reg} (h : Rep L α I Λ S w) (hx : S x ≠ .absent) :
    Good U T (fun _ w' => Rep L α I Λ (Function.update S x .absent) w') (destroy x w) := by
  unfold destroy
  cases hs : S x with
  | absent => exact absurd hs hx
  | moved =>
    obtain ⟨c, hc⟩ := h.moved x hs
    refine Good.obj hc ?_
    exact h.idle (fun i a e => by rw [hs] at e; cases e) (.inl ⟨rfl, rfl⟩)
  | elem i a =>
    obtain ⟨c, hc, e, he, _⟩ := h.find hs
    refine Good.obj hc ?_
    refine Good.bind (P := fun _ w' => w' = { w with cell := fun d => if d = c then none else w.cell d })
      ?_ ?_
    · show Good U T _ (free i c w)
      simp [free, he, Good]
    · rintro _ _ rfl
      exact h.release hc (.inl ⟨rfl, rfl⟩)

theorem reparent_good {x : Reg} (k : ℕ) (h : Rep L α I Λ S w) (hx : S x ≠ .absent) :
    Good U T (fun _ w' => Rep L α I Λ (Function.update S x (.elem k 0)) w' ∧
      ∀ y, y ≠ x → w'.obj y = w.obj y) (reparent L x k w) := by
  unfold reparent
  cases hs : S x with
  | absent => exact absurd hs hx
  | moved =>
    obtain ⟨c, hc⟩ := h.moved x hs
    refine Good.obj hc ?_
    show Good U T _ ((Cxx.alloc L k >>= fun c => W.setObj x ⟨some k, c⟩) w)
    refine Good.alloc ?_
    refine ⟨h.create hE k (fun i a e => by rw [hs] at e; cases e), fun y hy => ?_⟩
    simp [hy]
  | elem i a =>
    obtain ⟨c, hc, e, he, _⟩ := h.find hs
    refine Good.obj hc ?_
    refine Good.bind (P := fun _ w' => w' = { w with cell := fun d => if d = c then none else w.cell d })
      ?_ ?_
    · show Good U T _ (free i c w)
      simp [free, he, Good]
    · rintro _ _ rfl
      refine Good.alloc ?_
      have h1 := h.release hc (sl := .moved) (o := some ⟨none, c⟩) (.inr ⟨rfl, rfl⟩)
      have h2 := h1.create hE k (x := x) (fun i a e => by rw [Function.update_self] at e; cases e)
      rw [Function.update_idem] at h2
      refine ⟨?_, fun y hy => by simp [hy]⟩
      convert h2 using 1
      refine World.ext rfl rfl rfl ?_
      funext z
      by_cases hz : z = x
      · subst hz; simp
      · simp [hz]

theorem assignWith_good {x : Reg} {y : ℝ} (h : Rep L α I Λ S w) (hx : S x ≠ .absent)
    {f : Reg → M Unit}
    (hm : ∀ c v, ∀ s, EAntic.Rep (L.K 0) (α 0) (I 0) v s → GoodM U
      (fun _ s' => ∃ a', EAntic.Rep (L.K 0) (α 0) (I 0) (upd v (.user c) a') s' ∧ a' = y)
        (f (.user c) s)) :
    Good U T (fun _ w' => Rep L α I Λ (Function.update S x (.elem 0 y)) w') (assignWith L x f w) := by
  unfold assignWith
  obtain ⟨o, ho⟩ := h.exists_obj hx
  refine Good.obj ho ?_
  refine Good.bind (P := fun _ w' => ∃ a, Rep L α I Λ (Function.update S x (.elem 0 a)) w') ?_ ?_
  · split_ifs with h0
    · exact (reparent_good hE 0 h hx).mono fun _ w' h => ⟨0, h.1⟩
    · push Not at h0
      obtain ⟨nf, c⟩ := o
      simp only at h0
      subst h0
      obtain ⟨a, ha, _⟩ := h.live ho
      refine Good.pure ⟨a, ?_⟩
      rwa [← ha, Function.update_eq_self]
  · rintro _ w₁ ⟨a, h₁⟩
    obtain ⟨c, hc, _⟩ := h₁.find (x := x) (Function.update_self ..)
    refine Good.obj hc ?_
    refine (store1_good hE h₁ (x := x) (Function.update_self ..) hc (y := y)
      fun v _ s hs => hm c v s hs).mono ?_
    rintro _ w' ⟨hr, -⟩
    rwa [Function.update_idem] at hr

theorem assignZ_good {x : Reg} (z : ℤ) (h : Rep L α I Λ S w) (hx : S x ≠ .absent) :
    Good U T (fun _ w' => Rep L α I Λ (Function.update S x (.elem 0 z)) w') (assignZ L x z w) :=
  assignWith_good hE h hx fun _ _ _ hs => stores (setZ_spec (hE 0) _ z) hs ⟨_, rfl⟩ rfl

theorem assignQ_good {x : Reg} (q : ℚ) (h : Rep L α I Λ S w) (hx : S x ≠ .absent) :
    Good U T (fun _ w' => Rep L α I Λ (Function.update S x (.elem 0 q)) w') (assignQ L x q w) :=
  assignWith_good hE h hx fun _ _ _ hs => stores (setQ_spec (hE 0) _ q) hs ⟨_, rfl⟩ rfl

theorem copyAssign_good {x y : Reg} {j : ℕ} {b : ℝ} (h : Rep L α I Λ S w) (hx : S x ≠ .absent)
    (hy : S y = .elem j b) :
    Good U T (fun _ w' => Rep L α I Λ (Function.update S x (.elem j b)) w') (copyAssign L x y w) := by
  unfold copyAssign
  obtain ⟨ox, hox⟩ := h.exists_obj hx
  obtain ⟨cy, hcy, _⟩ := h.find hy
  refine Good.obj hox (Good.obj hcy ?_)
  refine Good.bind (P := fun _ w' => ∃ a, Rep L α I Λ (Function.update S x (.elem j a)) w' ∧
    (x = y → a = b)) ?_ ?_
  · split_ifs with hn
    · refine Good.deref ?_
      refine (reparent_good hE j h hx).mono fun _ w' h' => ⟨0, h'.1, ?_⟩
      rintro rfl
      rw [hox] at hcy
      injection hcy with hcy
      rw [hcy] at hn
      exact absurd rfl hn
    · push Not at hn
      obtain ⟨nf, c⟩ := ox
      simp only at hn
      subst hn
      obtain ⟨a, ha, _⟩ := h.live hox
      refine Good.pure ⟨a, ?_, ?_⟩
      · rwa [← ha, Function.update_eq_self]
      · rintro rfl
        rw [hy] at ha; injection ha with _ ha; exact ha.symm
  · rintro _ w₁ ⟨a, h₁, hab⟩
    have hy₁ : Function.update S x (.elem j a) y = .elem j b := by
      by_cases hxy : x = y
      · subst hxy; rw [Function.update_self, hab rfl]
      · rwa [Function.update_of_ne (Ne.symm hxy)]
    obtain ⟨cx', hcx', _⟩ := h₁.find (x := x) (Function.update_self ..)
    obtain ⟨cy', hcy', _⟩ := h₁.find hy₁
    refine Good.obj hcx' (Good.obj hcy' (Good.deref ?_))
    refine (store2_good hE h₁ (x := x) (y := y) (Function.update_self ..) hy₁ hcx' hcy' (z := b)
      fun v hv hv' s hs => stores (set_spec (hE j) _ _) hs ⟨_, rfl⟩ hv').mono ?_
    rintro _ w' ⟨hr, -⟩
    rwa [Function.update_idem] at hr

end EAntic.Cxx
