import Verif.Spec.Cxx
import Verif.Lemmas.Ops

/-! # The C++ elements: rules for calls, construction and assignment -/

namespace EAntic.Cxx

variable {β γ : Type} {U : Prop} {T : String → World → Prop}

/-- A run ended well: the result satisfies `Q`, exceptions are described by `T`, and everything
else happens only if `U`. -/
def Good (U : Prop) (T : String → World → Prop) (Q : β → World → Prop) : Out β → Prop
  | .ok p => Q p.1 p.2
  | .throw s w => T s w
  | _ => U

theorem W.bind_def (m : W β) (f : β → W γ) (w : World) : (m >>= f) w = W.bind m f w := rfl
theorem W.pure_def (a : β) (w : World) : (pure a : W β) w = .ok (a, w) := rfl

theorem Good.bind {m : W β} {f : β → W γ} {P : β → World → Prop} {Q : γ → World → Prop} {w : World}
    (h : Good U T P (m w)) (hf : ∀ a w', P a w' → Good U T Q (f a w')) :
    Good U T Q ((m >>= f) w) := by
  rw [W.bind_def]
  unfold W.bind
  cases hm : m w with
  | ok p => rw [hm] at h; exact hf p.1 p.2 h
  | throw s w' => rw [hm] at h; exact h
  | running => rw [hm] at h; exact h
  | abort => rw [hm] at h; exact h
  | ub => rw [hm] at h; exact h

theorem Good.pure {Q : β → World → Prop} {a : β} {w : World} (h : Q a w) :
    Good U T Q ((Pure.pure a : W β) w) := h

theorem Good.mono {P Q : β → World → Prop} {r : Out β} (h : Good U T P r)
    (hf : ∀ a w', P a w' → Q a w') : Good U T Q r := by
  cases r <;> first | exact h | exact hf _ _ h

theorem Good.weaken {P : β → World → Prop} {r : Out β} {U' : Prop} {T' : String → World → Prop}
    (h : Good U T P r) (hU : U → U') (hT : ∀ s w, T s w → T' s w) : Good U' T' P r := by
  cases r <;> first | exact h | exact hT _ _ h | exact hU h

theorem Good.obj {x : Reg} {f : Obj → W γ} {Q : γ → World → Prop} {w : World} {o : Obj}
    (h : w.obj x = some o) (hf : Good U T Q (f o w)) : Good U T Q ((W.obj x >>= f) w) := by
  rw [W.bind_def]
  simpa [W.bind, W.obj, h] using hf

theorem Good.deref {i : ℕ} {f : ℕ → W γ} {Q : γ → World → Prop} {w : World}
    (hf : Good U T Q (f i w)) : Good U T Q ((W.deref (some i) >>= f) w) := hf

theorem Good.setObj {x : Reg} {o : Obj} {f : Unit → W γ} {Q : γ → World → Prop} {w : World}
    (hf : Good U T Q (f () { w with obj := fun y => if y = x then some o else w.obj y })) :
    Good U T Q ((W.setObj x o >>= f) w) := hf

theorem Good.alloc {L : Lib} {i : ℕ} {f : ℕ → W γ} {Q : γ → World → Prop} {w : World}
    (hf : Good U T Q (f w.next { w with
      cell := fun c => if c = w.next then some (i, fresh L i) else w.cell c
      next := w.next + 1 })) :
    Good U T Q ((Cxx.alloc L i >>= f) w) := hf

/-! ## C functions -/

/-- A C function ended well. -/
def GoodM (U : Prop) (Q : β → Mem → Prop) : Res (β × Mem) → Prop
  | .ok p => Q p.1 p.2
  | _ => U

theorem GoodM.of_hoare {P : Mem → Prop} {m : M β} {Q : β → Mem → Prop} {s : Mem} (h : Hoare P m Q)
    (hs : P s) (hr : U ∨ ∃ r, m s = .ok r) : GoodM U Q (m s) := by
  cases hm : m s with
  | ok p => exact h s p.1 p.2 hs hm
  | _ =>
    rcases hr with hU | ⟨r, hr⟩
    · exact hU
    · rw [hm] at hr; simp at hr

section

variable {L : Lib} {α : ℕ → ℝ} {I : ℕ → Field → Prop} {Λ : Set ℕ} {S : Reg → Slot} {w : World}

/-- the numbers that a C function sees -/
noncomputable def seen (L : Lib) (α : ℕ → ℝ) (w : World) (i : ℕ) (cs : List ℕ) : Reg → ℝ :=
  fun r => ((view L w i cs).heap r).elem.val (α i)

/-- a cell holds the number `a` of the field `i` -/
def Holds (L : Lib) (α : ℕ → ℝ) (w : World) (i c : ℕ) (a : ℝ) : Prop :=
  ∃ e, w.cell c = some (i, e) ∧ e.elem.Wf (L.K i) ∧ e.elem.val (α i) = a ∧ a ∈ e.emb

theorem seen_of_holds {i c : ℕ} {a : ℝ} {cs : List ℕ} (h : Holds L α w i c a) (hc : c ∈ cs) :
    seen L α w i cs (.user c) = a := by
  obtain ⟨e, h1, _, h2, _⟩ := h
  simp [seen, view, hc, h1, h2]

theorem view_rep (hE : ∀ i, FieldInv (L.E i) (α i) (I i)) (hf : I i (w.fld i)) {cs : List ℕ}
    (h : ∀ c ∈ cs, ∃ a, Holds L α w i c a) :
    EAntic.Rep (L.K i) (α i) (I i) (seen L α w i cs) (view L w i cs) := by
  have hfr : (fresh L i).elem.Wf (L.K i) ∧ (fresh L i).elem.val (α i) ∈ (fresh L i).emb :=
    ⟨init_wf (hE i).ok, by
      rw [show (fresh L i).elem.val (α i) = 0 from init_val]
      exact Ball.mem_exact.2 (by simp)⟩
  have key : ∀ r, ((view L w i cs).heap r).elem.Wf (L.K i) ∧
      ((view L w i cs).heap r).elem.val (α i) ∈ ((view L w i cs).heap r).emb := by
    rintro (c | n)
    · by_cases hc : c ∈ cs
      · obtain ⟨a, e, h1, h2, h3, h4⟩ := h c hc
        have : (view L w i cs).heap (.user c) = e := by simp [view, hc, h1]
        rw [this]
        exact ⟨h2, by rw [h3]; exact h4⟩
      · have : (view L w i cs).heap (.user c) = fresh L i := by simp [view, hc]
        rw [this]; exact hfr
    · exact hfr
  exact ⟨hf, fun r => (key r).1, fun r => rfl, fun r => (key r).2⟩

/-- the rule for calls of C functions -/
theorem call_good (hE : ∀ i, FieldInv (L.E i) (α i) (I i)) {i : ℕ} (hf : ∀ j, I j (w.fld j))
    {cs : List ℕ} (h : ∀ c ∈ cs, ∃ a, Holds L α w i c a) {m : M β} {Q : β → (Reg → ℝ) → Prop}
    (hm : ∀ s, EAntic.Rep (L.K i) (α i) (I i) (seen L α w i cs) s → GoodM U
      (fun b s' => ∃ v', EAntic.Rep (L.K i) (α i) (I i) v' s' ∧ Q b v') (m s)) :
    Good U T (fun b w' => ∃ v', Q b v' ∧ (∀ j, I j (w'.fld j)) ∧ w'.obj = w.obj ∧ w'.next = w.next ∧
      (∀ c, c ∉ cs → w'.cell c = w.cell c) ∧ ∀ c ∈ cs, Holds L α w' i c (v' (.user c)))
      (call L i cs m w) := by
  have hall : cs.all (owns w i) = true := by
    rw [List.all_eq_true]
    intro c hc
    obtain ⟨a, e, h1, _⟩ := h c hc
    simp [owns, h1]
  unfold call
  rw [if_pos hall]
  have := hm _ (view_rep hE (hf i) h)
  cases hr : m (view L w i cs) with
  | ok p =>
    rw [hr] at this
    obtain ⟨v', hv, hq⟩ := this
    refine ⟨v', hq, fun j => ?_, rfl, rfl, fun c hc => ?_, fun c hc => ?_⟩
    · show I j (if j = i then p.2.fld else w.fld j)
      split_ifs with hj
      · subst hj; exact hv.inv
      · exact hf j
    · simp [hc]
    · refine ⟨p.2.heap (.user c), ?_, hv.wf _, hv.val _, hv.enc _⟩
      simp [hc]
  | _ => rw [hr] at this; exact this

/-! ## Objects -/

theorem Rep.find (h : Rep L α I Λ S w) {x : Reg} {i : ℕ} {a : ℝ} (hx : S x = .elem i a) :
    ∃ c, w.obj x = some ⟨some i, c⟩ ∧ Holds L α w i c a := by
  obtain ⟨c, e, h1, h2, h3, h4, h5⟩ := h.elem x i a hx
  exact ⟨c, h1, e, h2, h3, h4, h5⟩

theorem Rep.live (h : Rep L α I Λ S w) {x : Reg} {i c : ℕ} (hx : w.obj x = some ⟨some i, c⟩) :
    ∃ a, S x = .elem i a ∧ Holds L α w i c a := by
  cases hs : S x with
  | absent => rw [h.absent x hs] at hx; simp at hx
  | moved =>
    obtain ⟨d, hd⟩ := h.moved x hs
    rw [hd] at hx; simp at hx
  | elem j a =>
    obtain ⟨d, hd, hh⟩ := h.find hs
    rw [hd] at hx
    simp only [Option.some.injEq, Obj.mk.injEq] at hx
    obtain ⟨rfl, rfl⟩ := hx
    exact ⟨a, rfl, hh⟩

/-- a step that changes neither objects nor allocation -/
theorem Rep.change (h : Rep L α I Λ S w) {S' : Reg → Slot} {w' : World} (hf : ∀ j, I j (w'.fld j))
    (ho : w'.obj = w.obj) (hn : w'.next = w.next) (hc : ∀ c, w'.cell c ≠ none → w.cell c ≠ none)
    (hs : ∀ x, (S' x = .absent → S x = .absent) ∧ (S' x = .moved → S x = .moved))
    (he : ∀ x i a, S' x = .elem i a → ∃ c, w.obj x = some ⟨some i, c⟩ ∧ Holds L α w' i c a) :
    Rep L α I Λ S' w' where
  fld := hf
  absent x hx := by rw [ho]; exact h.absent x ((hs x).1 hx)
  moved x hx := by rw [ho]; exact h.moved x ((hs x).2 hx)
  elem x i a hx := by
    obtain ⟨c, h1, e, h2, h3, h4, h5⟩ := he x i a hx
    exact ⟨c, e, by rw [ho]; exact h1, h2, h3, h4, h5⟩
  inj := by rw [ho]; exact h.inj
  owned c hc' hl := by rw [ho]; exact h.owned c (hc c hc') hl
  bound c hc' := by rw [hn]; exact h.bound c (hc c hc')

variable (hE : ∀ i, FieldInv (L.E i) (α i) (I i))
include hE

/-- a C function that may change `x` and sees `y` -/
theorem call2_good {x y : Reg} {i cx cy : ℕ} {a b : ℝ} (h : Rep L α I Λ S w) (hx : S x = .elem i a)
    (hy : S y = .elem i b) (hox : w.obj x = some ⟨some i, cx⟩) (hoy : w.obj y = some ⟨some i, cy⟩)
    {m : M β} {Q : β → ℝ → Prop}
    (hm : ∀ v, v (.user cx) = a → v (.user cy) = b → ∀ s, EAntic.Rep (L.K i) (α i) (I i) v s →
      GoodM U (fun r s' => ∃ a', EAntic.Rep (L.K i) (α i) (I i) (upd v (.user cx) a') s' ∧ Q r a')
        (m s)) {cs : List ℕ} (hcs : cs = [cx, cy] ∨ (cs = [cx] ∧ x = y)) :
    Good U T (fun r w' => ∃ a', Q r a' ∧ Rep L α I Λ (Function.update S x (.elem i a')) w' ∧
      w'.obj = w.obj) (call L i cs m w) := by
  obtain ⟨a₀, hxa, hhx⟩ := h.live hox
  rw [hx] at hxa; injection hxa with _ hxa; subst hxa
  obtain ⟨b₀, hyb, hhy⟩ := h.live hoy
  rw [hy] at hyb; injection hyb with _ hyb; subst hyb
  have hxc : cx ∈ cs := by rcases hcs with rfl | ⟨rfl, _⟩ <;> simp
  have hyc : cy ∈ cs := by
    rcases hcs with rfl | ⟨rfl, rfl⟩
    · simp
    · rw [hox] at hoy; simp only [Option.some.injEq, Obj.mk.injEq] at hoy; simp [hoy.2]
  have hmem : ∀ c ∈ cs, c = cx ∨ c = cy := by
    rcases hcs with rfl | ⟨rfl, _⟩ <;> simp
  have := call_good (T := T) hE h.fld (i := i) (cs := cs) (m := m) (U := U)
    (Q := fun r v' => ∃ a', v' = upd (seen L α w i cs) (.user cx) a' ∧ Q r a')
    (by
      intro c hc
      rcases hmem c hc with rfl | rfl
      · exact ⟨_, hhx⟩
      · exact ⟨_, hhy⟩)
    (by
      intro s hs
      have := hm _ (seen_of_holds hhx hxc) (seen_of_holds hhy hyc) s hs
      cases hr : m s with
      | ok p =>
        rw [hr] at this
        obtain ⟨a', h1, h2⟩ := this
        exact ⟨_, h1, a', rfl, h2⟩
      | _ => rw [hr] at this; exact this)
  refine this.mono ?_
  rintro r w' ⟨v', ⟨a', rfl, hq⟩, hf, ho, hn, hcell, hhold⟩
  refine ⟨a', hq, ?_, ho⟩
  refine h.change hf ho hn ?_ ?_ ?_
  · intro c hc
    by_cases hm : c ∈ cs
    · rcases hmem c hm with rfl | rfl
      · obtain ⟨e, he, _⟩ := hhx; rw [he]; simp
      · obtain ⟨e, he, _⟩ := hhy; rw [he]; simp
    · rwa [hcell c hm] at hc
  · intro z
    by_cases hz : z = x
    · subst hz; simp
    · simp [Function.update_of_ne hz]
  · intro z j b' hz
    by_cases hzx : z = x
    · subst hzx
      rw [Function.update_self] at hz
      injection hz with h1 h2
      subst h1 h2
      have := hhold cx hxc
      rw [upd_same] at this
      exact ⟨cx, hox, this⟩
    · rw [Function.update_of_ne hzx] at hz
      obtain ⟨c, hc, hh⟩ := h.find hz
      refine ⟨c, hc, ?_⟩
      by_cases hm : c ∈ cs
      · rcases hmem c hm with rfl | rfl
        · exact absurd (h.inj _ _ _ _ _ hc hox) hzx
        · have hzy := h.inj _ _ _ _ _ hc hoy
          subst hzy
          rw [hy] at hz; injection hz with h1 h2; subst h1 h2
          have := hhold c hyc
          rwa [upd_ne, seen_of_holds hhy hyc] at this
          intro e
          injection e with e
          subst e
          exact hzx (h.inj _ _ _ _ _ hc hox)
      · obtain ⟨e, he, hr⟩ := hh
        exact ⟨e, by rw [hcell c hm]; exact he, hr⟩

/-- a C function of one element -/
theorem call1_good {x : Reg} {i : ℕ} {a : ℝ} (h : Rep L α I Λ S w) (hx : S x = .elem i a)
    {m : ∀ i : ℕ, Reg → M β} {Q : β → ℝ → Prop}
    (hm : ∀ v c, v (.user c) = a → ∀ s, EAntic.Rep (L.K i) (α i) (I i) v s →
      GoodM U (fun r s' => ∃ a', EAntic.Rep (L.K i) (α i) (I i) (upd v (.user c) a') s' ∧ Q r a')
        (m i (.user c) s)) :
    Good U T (fun r w' => ∃ a', Q r a' ∧ Rep L α I Λ (Function.update S x (.elem i a')) w' ∧
      w'.obj = w.obj) (call1 L x m w) := by
  obtain ⟨c, hc, hh⟩ := h.find hx
  unfold call1
  refine Good.obj hc (Good.deref ?_)
  exact call2_good hE h hx hx hc hc (fun v hv _ => hm v c hv) (.inr ⟨rfl, rfl⟩)

/-- a C function of one element that only reads it -/
theorem query_good {x : Reg} {i : ℕ} {a : ℝ} (h : Rep L α I Λ S w) (hx : S x = .elem i a)
    {m : ∀ i : ℕ, Reg → M β} {Q : β → Prop}
    (hm : ∀ v c, v (.user c) = a → ∀ s, EAntic.Rep (L.K i) (α i) (I i) v s →
      GoodM U (fun r s' => EAntic.Rep (L.K i) (α i) (I i) v s' ∧ Q r) (m i (.user c) s)) :
    Good U T (fun r w' => Q r ∧ Rep L α I Λ S w' ∧ w'.obj = w.obj) (call1 L x m w) := by
  refine (call1_good hE h hx (Q := fun r a' => Q r ∧ a' = a) ?_).mono ?_
  · intro v c hv s hs
    have := hm v c hv s hs
    cases hr : m i (.user c) s with
    | ok p =>
      rw [hr] at this
      refine ⟨v (.user c), ?_, this.2, hv⟩
      rw [upd_self]; exact this.1
    | _ => rw [hr] at this; exact this
  · rintro r w' ⟨a', ⟨hq, rfl⟩, hr, ho⟩
    rw [← hx, Function.update_eq_self] at hr
    exact ⟨hq, hr, ho⟩

/-- a C function of two elements that only reads them -/
theorem query2_good {x y : Reg} {i cx cy : ℕ} {a b : ℝ} (h : Rep L α I Λ S w) (hx : S x = .elem i a)
    (hy : S y = .elem i b) (hox : w.obj x = some ⟨some i, cx⟩) (hoy : w.obj y = some ⟨some i, cy⟩)
    {m : M β} {Q : β → Prop}
    (hm : ∀ v, v (.user cx) = a → v (.user cy) = b → ∀ s, EAntic.Rep (L.K i) (α i) (I i) v s →
      GoodM U (fun r s' => EAntic.Rep (L.K i) (α i) (I i) v s' ∧ Q r) (m s)) :
    Good U T (fun r w' => Q r ∧ Rep L α I Λ S w' ∧ w'.obj = w.obj) (call L i [cx, cy] m w) := by
  refine (call2_good hE h hx hy hox hoy (Q := fun r a' => Q r ∧ a' = a) ?_ (.inl rfl)).mono ?_
  · intro v hv hv' s hs
    have := hm v hv hv' s hs
    cases hr : m s with
    | ok p =>
      rw [hr] at this
      refine ⟨v (.user cx), ?_, this.2, hv⟩
      rw [upd_self]; exact this.1
    | _ => rw [hr] at this; exact this
  · rintro r w' ⟨a', ⟨hq, rfl⟩, hr, ho⟩
    rw [← hx, Function.update_eq_self] at hr
    exact ⟨hq, hr, ho⟩

omit hE in
/-- more cells may count as leaked -/
theorem Rep.leak (h : Rep L α I Λ S w) {Λ' : Set ℕ} (hl : Λ ⊆ Λ') : Rep L α I Λ' S w :=
  { h with owned := fun c hc hn => h.owned c hc fun h' => hn (hl h') }

omit hE in
theorem Rep.next_free (h : Rep L α I Λ S w) : w.cell w.next = none := by
  by_contra hc
  exact absurd (h.bound _ hc) (lt_irrefl _)

/-- an object that owned nothing gets fresh storage -/
theorem Rep.create (h : Rep L α I Λ S w) {x : Reg} (k : ℕ)
    (hx : ∀ i a, S x ≠ .elem i a) :
    Rep L α I Λ (Function.update S x (.elem k 0)) { w with
      obj := fun y => if y = x then some ⟨some k, w.next⟩ else w.obj y
      cell := fun c => if c = w.next then some (k, fresh L k) else w.cell c
      next := w.next + 1 } where
  fld := h.fld
  absent z hz := by
    by_cases hzx : z = x
    · subst hzx; simp at hz
    · rw [Function.update_of_ne hzx] at hz
      simp only [if_neg hzx]
      exact h.absent z hz
  moved z hz := by
    by_cases hzx : z = x
    · subst hzx; simp at hz
    · rw [Function.update_of_ne hzx] at hz
      simp only [if_neg hzx]
      exact h.moved z hz
  elem z i a hz := by
    by_cases hzx : z = x
    · subst hzx
      rw [Function.update_self] at hz
      injection hz with h1 h2
      subst h1 h2
      exact ⟨w.next, fresh L k, by simp, by simp, init_wf (hE k).ok, init_val,
        Ball.mem_exact.2 (by simp)⟩
    · rw [Function.update_of_ne hzx] at hz
      obtain ⟨c, e, h1, h2, h3⟩ := h.elem z i a hz
      refine ⟨c, e, by simp [hzx, h1], ?_, h3⟩
      have : c ≠ w.next := by
        rintro rfl; rw [h.next_free] at h2; simp at h2
      simp [this, h2]
  inj y z i j c hy hz := by
    have key : ∀ {y i}, y ≠ x → w.obj y = some ⟨some i, w.next⟩ → False := by
      intro y i _ hy
      obtain ⟨a, _, e, he, _⟩ := h.live hy
      rw [h.next_free] at he; simp at he
    by_cases hyx : y = x <;> by_cases hzx : z = x
    · rw [hyx, hzx]
    · subst hyx
      simp only [if_true, Option.some.injEq, Obj.mk.injEq] at hy
      simp only [if_neg hzx] at hz
      rw [← hy.2] at hz
      exact (key hzx hz).elim
    · subst hzx
      simp only [if_true, Option.some.injEq, Obj.mk.injEq] at hz
      simp only [if_neg hyx] at hy
      rw [← hz.2] at hy
      exact (key hyx hy).elim
    · simp only [if_neg hyx] at hy
      simp only [if_neg hzx] at hz
      exact h.inj y z i j c hy hz
  owned c hc hl := by
    by_cases hcn : c = w.next
    · exact ⟨x, k, by simp [hcn]⟩
    · simp only [if_neg hcn] at hc
      obtain ⟨z, i, hz⟩ := h.owned c hc hl
      refine ⟨z, i, ?_⟩
      have : z ≠ x := by
        rintro rfl
        obtain ⟨a, ha, _⟩ := h.live hz
        exact hx _ _ ha
      simp [this, hz]
  bound c hc := by
    show c < w.next + 1
    by_cases hcn : c = w.next
    · omega
    · simp only [if_neg hcn] at hc
      have := h.bound c hc
      omega

omit hE in
/-- the storage of an element is released and the object changed to one that owns nothing -/
theorem Rep.release (h : Rep L α I Λ S w) {x : Reg} {i c : ℕ}
    (hx : w.obj x = some ⟨some i, c⟩) {sl : Slot} {o : Option Obj}
    (ho : sl = .absent ∧ o = none ∨ sl = .moved ∧ o = some ⟨none, c⟩) :
    Rep L α I Λ (Function.update S x sl) { w with
      obj := fun y => if y = x then o else w.obj y
      cell := fun d => if d = c then none else w.cell d } where
  fld := h.fld
  absent z hz := by
    by_cases hzx : z = x
    · subst hzx
      rw [Function.update_self] at hz
      rcases ho with ⟨_, h2⟩ | ⟨h1, _⟩
      · simp [h2]
      · rw [h1] at hz; simp at hz
    · rw [Function.update_of_ne hzx] at hz
      simp only [if_neg hzx]
      exact h.absent z hz
  moved z hz := by
    by_cases hzx : z = x
    · subst hzx
      rw [Function.update_self] at hz
      rcases ho with ⟨h1, _⟩ | ⟨_, h2⟩
      · rw [h1] at hz; simp at hz
      · exact ⟨c, by simp [h2]⟩
    · rw [Function.update_of_ne hzx] at hz
      simp only [if_neg hzx]
      exact h.moved z hz
  elem z j a hz := by
    by_cases hzx : z = x
    · subst hzx
      rw [Function.update_self] at hz
      rcases ho with ⟨h1, _⟩ | ⟨h1, _⟩ <;> · rw [h1] at hz; simp at hz
    · rw [Function.update_of_ne hzx] at hz
      obtain ⟨d, e, h1, h2, h3⟩ := h.elem z j a hz
      refine ⟨d, e, by simp [hzx, h1], ?_, h3⟩
      have : d ≠ c := by
        rintro rfl; exact hzx (h.inj _ _ _ _ _ h1 hx)
      simp [this, h2]
  inj y z i' j d hy hz := by
    have key : ∀ {y j d}, (if y = x then o else w.obj y) = some ⟨some j, d⟩ → y ≠ x ∧
        w.obj y = some ⟨some j, d⟩ := by
      intro y j d hy
      by_cases hyx : y = x
      · rw [if_pos hyx] at hy
        rcases ho with ⟨_, h2⟩ | ⟨_, h2⟩ <;> · rw [h2] at hy; simp at hy
      · rw [if_neg hyx] at hy; exact ⟨hyx, hy⟩
    exact h.inj y z i' j d (key hy).2 (key hz).2
  owned d hd hl := by
    by_cases hdc : d = c
    · simp [hdc] at hd
    · simp only [if_neg hdc] at hd
      obtain ⟨z, j, hz⟩ := h.owned d hd hl
      refine ⟨z, j, ?_⟩
      have : z ≠ x := by
        rintro rfl
        rw [hx] at hz
        simp only [Option.some.injEq, Obj.mk.injEq] at hz
        exact hdc hz.2.symm
      simp [this, hz]
  bound d hd := by
    by_cases hdc : d = c
    · simp [hdc] at hd
    · simp only [if_neg hdc] at hd
      exact h.bound d hd

end

end EAntic.Cxx
