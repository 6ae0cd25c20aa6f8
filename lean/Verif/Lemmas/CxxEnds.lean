import Verif.Spec.CxxEnds
import Verif.Lemmas.EndsOps
import Verif.Lemmas.NoThrow
import Verif.Lemmas.CxxRun

/-! # C++ calls that end -/

namespace EAntic

/-! ## Fields of degree one: nothing is evaluated -/

/-- The queries of one field end from every memory in order. -/
structure CEnds {K : Nf} (α : ℝ) (p : ℤ) (I : Field → Prop) (A : ArbOps) (N : NfOps K)
    (R : ℕ → Field → ℤ → Res Field) : Prop where
  sgn : ∀ {V : Prop} {v s} (a : ℕ), Sizeable K α p (v (.user a)) → Rep K α I v s →
    Ends V (fun k => (envs A N R k).sgn (.user a)) s fun _ _ => True
  cmp : ∀ {V : Prop} {v s} (a b : ℕ), Sizeable K α p (v (.user a)) → Sizeable K α p (v (.user b)) →
    Sizeable K α p (v (.user a) - v (.user b)) → Rep K α I v s →
    Ends V (fun k => (envs A N R k).cmp (.user a) (.user b)) s fun _ _ => True
  cmpQ : ∀ {V : Prop} {v s} (a : ℕ) (c : ℚ) (d : Bool), Sizeable K α p (v (.user a)) →
    Sizeable K α p (v (.user a) - c) → Rep K α I v s →
    Ends V (fun k => (envs A N R k).cmpQ (.user a) c d) s fun _ _ => True
  round : ∀ {V : Prop} {v s} (kd : Env.Kind) (a : ℕ), V → Sizeable K α p (v (.user a)) →
    Rep K α I v s → Ends V (fun k => (envs A N R k).round kd (.user a)) s fun _ _ => True
  fdiv : ∀ {V : Prop} {v s} (b c : ℕ), V → v (.user c) ≠ 0 →
    Cxx.FdivSize K α p (v (.user b)) (v (.user c)) → Rep K α I v s →
    Ends V (fun k => (envs A N R k).fdiv (.user b) (.user c)) s fun _ _ => True
  getD : ∀ {V : Prop} {v s} {nd : Bool} (a : ℕ) (rnd : Rnd),
    (∀ r : ℝ, |r| = |v (.user a)| → Sizeable K α p r ∧ Sizeable K α p (r - (uintMax : ℚ)) ∧
      Sizeable K α p (r - (dblMax : ℚ))) → Rep K α I v s →
    Ends V (fun k => (envs A N R k).getD (.user a) rnd nd) s fun _ _ => True

section linear

variable {K : Nf} {α : ℝ} {I : Field → Prop} {v : Reg → ℝ} {A : ArbOps} {N : NfOps K}
  {R : ℕ → Field → ℤ → Res Field} {s : Mem} {V : Prop}

theorem sgn_linear (hl : K.isLinear = true) (a : Reg) :
    Ends V (fun k => (envs A N R k).sgn a) s fun _ _ => True := by
  unfold Env.sgn
  refine Ends.read (Ends.ite (fun _ => Ends.ite (fun _ => Ends.pure' trivial) fun h => absurd hl h)
    fun h => absurd (rational_of_linear hl) h)

theorem round_linear (hl : K.isLinear = true) (kd : Env.Kind) (a : Reg) :
    Ends V (fun k => (envs A N R k).round kd a) s fun _ _ => True := by
  unfold Env.round
  exact Ends.read (Ends.ite (fun _ => Ends.pure' trivial) fun h => absurd (rational_of_linear hl) h)

theorem linear_ends {p : ℤ} (hl : K.isLinear = true) (hE : ∀ k, FieldInv (envs A N R k) α I) :
    CEnds α p I A N R where
  sgn a _ _ := sgn_linear hl _
  round kd a _ _ _ := round_linear hl kd _
  cmp a b _ _ _ _ := by
    unfold Env.cmp
    refine Ends.read (Ends.read (Ends.ite (fun _ => Ends.pure' trivial) fun _ =>
      Ends.ite (fun _ => Ends.pure' trivial) fun _ => Ends.ite (fun _ => Ends.pure' trivial) fun _ =>
      Ends.ite (fun _ => Ends.ite (fun _ => (sgn_linear hl _).bind fun _ _ _ => Ends.pure' trivial)
        fun _ => Ends.ite (fun _ => sgn_linear hl _) fun _ => Ends.pure' trivial) fun h => ?_))
    rw [rational_of_linear hl, rational_of_linear hl] at h
    exact absurd rfl h
  cmpQ a c d _ _ _ := by
    unfold Env.cmpQ
    exact Ends.read (Ends.ite (fun _ => sgn_linear hl _) fun _ =>
      Ends.ite (fun _ => Ends.pure' trivial) fun _ => Ends.ite (fun _ => Ends.pure' trivial) fun h =>
      absurd (rational_of_linear hl) h)
  getD a rnd _ _ := by
    unfold Env.getD
    exact Ends.field (Ends.read (Ends.ite (fun _ => Ends.pure' trivial) fun _ =>
      Ends.ite (fun _ => Ends.pure' trivial) fun h => absurd (rational_of_linear hl) h))
  fdiv {V v s} b c _ hv _ hs := by
    unfold Env.fdiv
    refine Ends.read (Ends.ite (fun h => ?_) fun _ => Ends.withTmp ?_)
    · rw [rational_of_linear hl] at h
      simp at h
    have r0 := tmp_rep (hE 0) hs (r := .tmp 3)
    have hz : ((s.write (.tmp 3) ⟨NfElem.init s.fld.nf, Ball.exact 0⟩).heap (.user c)).elem.isZero K
        = false := by
      rw [← Bool.not_eq_true, isZero_iff (hE 0).ok (hE 0).root (r0.wf _), r0.val, upd_ne _ _ (by simp)]
      exact hv
    refine (Ends.op (fun _ => rfl) (div_run hz)
      (div_spec (hE 0) (.tmp 3) (.user b) (.user c)) r0).bind ?_
    rintro - s₁ -
    exact round_linear hl .floor _

/-- fields of degree at least two near a root -/
theorem near_cends (hE : ∀ k, FieldInv (envs A N R k) α I) (hT : A.Tight) (hC : A.Convergent)
    (hR : RefinesOr R I) {p : ℤ} (hS : ∀ x, Sizeable K α p x → LegalAt K α I x) : CEnds α p I A N R where
  sgn a h hs := (sgn_ends hC hE hR (hS _ h) hs).mono fun _ _ _ => trivial
  cmp a b h1 h2 h3 hs := (cmp_ends hC hE hR (by simp) (by simp) (hS _ h1) (hS _ h2) (hS _ h3) hs).mono
    fun _ _ _ => trivial
  cmpQ a c d h1 h2 hs := (cmpQ_ends hC hE hR (by simp) (hS _ h1) (hS _ h2) hs).mono
    fun _ _ _ => trivial
  round kd a hV h hs := (round_ends hC hE hR hV kd (hS _ h) hs).mono fun _ _ _ => trivial
  fdiv b c hV h0 h hs := (fdiv_ends hC hT.divConvergent hE hR hV (by simp) (by simp) h0 (hS _ h.1)
    (hS _ h.2.1) (hS _ h.2.2.1) (fun z hz => ⟨hS _ (h.2.2.2 z hz).1, hS _ (h.2.2.2 z hz).2⟩) hs).mono
    fun _ _ _ => trivial
  getD a rnd h hs := getD_ends hC hE hR (by simp)
    (fun x hx => ⟨hS _ (h x hx).1, hS _ (h x hx).2.1, hS _ (h x hx).2.2⟩) rnd hs

end linear

namespace Cxx

variable {β γ : Type} {U V : Prop} {T : String → World → Prop} {w : World}

/-! ## Rules -/

theorem EndsW.congr {m m' n n' : ℕ → W β} {Post : β → World → Prop} (h : EndsW V T n n' w Post)
    (he : ∀ k, m k w = n k w) (he' : ∀ k, m' k w = n' k w) : EndsW V T m m' w Post := by
  obtain ⟨l, h⟩ := h
  refine ⟨l, ?_⟩
  rcases h with ⟨z, w', hp, h⟩ | ⟨s, w', hp, h⟩ | h | ⟨hv, h⟩
  · exact .inl ⟨z, w', hp, fun k hk => by rw [he, he']; exact h k hk⟩
  · exact .inr (.inl ⟨s, w', hp, fun k hk => by rw [he, he']; exact h k hk⟩)
  · exact .inr (.inr (.inl fun k hk => by rw [he, he']; exact h k hk))
  · exact .inr (.inr (.inr ⟨hv, fun k hk => by rw [he, he']; exact h k hk⟩))

theorem EndsW.mono {m m' : ℕ → W β} {Post Post' : β → World → Prop} (h : EndsW V T m m' w Post)
    (hp : ∀ z w', Post z w' → Post' z w') : EndsW V T m m' w Post' := by
  obtain ⟨n, h⟩ := h
  exact ⟨n, h.imp (fun ⟨z, w', h1, h2⟩ => ⟨z, w', hp z w' h1, h2⟩) id⟩

theorem EndsW.pure {Post : β → World → Prop} {z : β} (hp : Post z w) :
    EndsW V T (fun _ => (Pure.pure z : W β)) (fun _ => Pure.pure z) w Post :=
  ⟨0, .inl ⟨z, w, hp, fun _ _ => ⟨rfl, rfl⟩⟩⟩

theorem W.bind_res {m : W β} {f : β → W γ} {r : Out β} : m w = r →
    (m >>= f) w = (match r with
      | .ok (a, w') => f a w'
      | .running => .running
      | .abort => .abort
      | .throw s w' => .throw s w'
      | .ub => .ub) := by
  intro h
  rw [W.bind_def]
  unfold W.bind
  rw [h]
  cases r <;> rfl

theorem EndsW.bind {m m' : ℕ → W β} {f f' : ℕ → β → W γ} {Q : β → World → Prop}
    {Post : γ → World → Prop} (h1 : EndsW V T m m' w Q)
    (h2 : ∀ z w', Q z w' → EndsW V T (fun k => f k z) (fun k => f' k z) w' Post) :
    EndsW V T (fun k => m k >>= f k) (fun k => m' k >>= f' k) w Post := by
  obtain ⟨n, h1⟩ := h1
  rcases h1 with ⟨z, w', hq, h⟩ | ⟨s, w', hp, h⟩ | h | ⟨hv, h⟩
  · obtain ⟨n', h'⟩ := h2 z w' hq
    refine ⟨max n n', ?_⟩
    have e : ∀ k, max n n' ≤ k → (m k >>= f k) w = f k z w' ∧ (m' k >>= f' k) w = f' k z w' :=
      fun k hk => ⟨W.bind_res (h k ((le_max_left _ _).trans hk)).1,
        W.bind_res (h k ((le_max_left _ _).trans hk)).2⟩
    have g' : ∀ {r r'}, (∀ k, n' ≤ k → f k z w' = r ∧ f' k z w' = r') → ∀ k, max n n' ≤ k →
        (m k >>= f k) w = r ∧ (m' k >>= f' k) w = r' := fun g k hk =>
      ⟨(e k hk).1.trans (g k ((le_max_right _ _).trans hk)).1,
        (e k hk).2.trans (g k ((le_max_right _ _).trans hk)).2⟩
    rcases h' with ⟨y, t, hp, g⟩ | ⟨s, t, hp, g⟩ | g | ⟨hv, g⟩
    · exact .inl ⟨y, t, hp, g' g⟩
    · exact .inr (.inl ⟨s, t, hp, g' g⟩)
    · exact .inr (.inr (.inl (g' g)))
    · exact .inr (.inr (.inr ⟨hv, g' g⟩))
  · exact ⟨n, .inr (.inl ⟨s, w', hp, fun k hk => ⟨W.bind_res (h k hk).1, W.bind_res (h k hk).2⟩⟩)⟩
  · exact ⟨n, .inr (.inr (.inl fun k hk => ⟨W.bind_res (h k hk).1, W.bind_res (h k hk).2⟩))⟩
  · exact ⟨n, .inr (.inr (.inr ⟨hv, fun k hk => ⟨W.bind_res (h k hk).1, W.bind_res (h k hk).2⟩⟩))⟩

theorem EndsW.obj {x : Reg} {f f' : ℕ → Obj → W γ} {Post : γ → World → Prop} {o : Obj}
    (h : w.obj x = some o) (hf : EndsW V T (fun k => f k o) (fun k => f' k o) w Post) :
    EndsW V T (fun k => W.obj x >>= f k) (fun k => W.obj x >>= f' k) w Post := by
  refine hf.congr (fun k => ?_) fun k => ?_ <;>
  · rw [W.bind_def]
    simp [W.bind, W.obj, h]

theorem EndsW.deref {i : ℕ} {f f' : ℕ → ℕ → W γ} {Post : γ → World → Prop}
    (hf : EndsW V T (fun k => f k i) (fun k => f' k i) w Post) :
    EndsW V T (fun k => W.deref (some i) >>= f k) (fun k => W.deref (some i) >>= f' k) w Post :=
  hf.congr (fun _ => rfl) fun _ => rfl

theorem EndsW.ite {c : Prop} [Decidable c] {m m' n n' : ℕ → W β} {Post : β → World → Prop}
    (h1 : c → EndsW V T m m' w Post) (h2 : ¬ c → EndsW V T n n' w Post) :
    EndsW V T (fun k => if c then m k else n k) (fun k => if c then m' k else n' k) w Post := by
  by_cases h : c
  · exact (h1 h).congr (fun k => by rw [if_pos h]) fun k => by rw [if_pos h]
  · exact (h2 h).congr (fun k => by rw [if_neg h]) fun k => by rw [if_neg h]

/-- what partial correctness says of the result -/
theorem EndsW.and_good {m m' : ℕ → W β} {Post Post' : β → World → Prop}
    {T' : String → World → Prop} (h : EndsW V T m m' w Post) (h' : ∀ k, Good U T' Post' (m' k w)) :
    EndsW V T' m m' w fun z w' => Post z w' ∧ Post' z w' := by
  obtain ⟨n, h⟩ := h
  refine ⟨n, ?_⟩
  rcases h with ⟨z, w', hp, h⟩ | ⟨s, w', hp, h⟩ | h | ⟨hv, h⟩
  · have := h' n
    rw [(h n le_rfl).2] at this
    exact .inl ⟨z, w', ⟨hp, this⟩, h⟩
  · have := h' n
    rw [(h n le_rfl).2] at this
    exact .inr (.inl ⟨s, w', this, h⟩)
  · exact .inr (.inr (.inl h))
  · exact .inr (.inr (.inr ⟨hv, h⟩))

/-- code without loops -/
theorem EndsW.weaken {V' : Prop} {T' : String → World → Prop} {m m' : ℕ → W β}
    {Post : β → World → Prop} (h : EndsW V T m m' w Post) (hV : V → V')
    (hT : ∀ s w', T s w' → T' s w') : EndsW V' T' m m' w Post := by
  obtain ⟨n, h⟩ := h
  refine ⟨n, ?_⟩
  rcases h with h | ⟨s, w', hp, h⟩ | h | ⟨hv, h⟩
  · exact .inl h
  · exact .inr (.inl ⟨s, w', hT _ _ hp, h⟩)
  · exact .inr (.inr (.inl h))
  · exact .inr (.inr (.inr ⟨hV hv, h⟩))

theorem EndsW.det {m m' : ℕ → W β} {Post : β → World → Prop} (h : ∀ k, m k w = m' 0 w)
    (h' : ∀ k, m' k w = m' 0 w) (hg : Good False T Post (m' 0 w)) : EndsW V T m m' w Post := by
  refine ⟨0, ?_⟩
  cases hr : m' 0 w with
  | ok p =>
    rw [hr] at hg
    exact .inl ⟨p.1, p.2, hg, fun k _ => ⟨(h k).trans hr, (h' k).trans hr⟩⟩
  | throw s w' =>
    rw [hr] at hg
    exact .inr (.inl ⟨s, w', hg, fun k _ => ⟨(h k).trans hr, (h' k).trans hr⟩⟩)
  | running => rw [hr] at hg; exact hg.elim
  | abort => rw [hr] at hg; exact hg.elim
  | ub => rw [hr] at hg; exact hg.elim

section calls

variable {K : ℕ → Nf} {A : ℕ → ArbOps} {N : ∀ i, NfOps (K i)}
  {R R' : ℕ → ℕ → Field → ℤ → Res Field} {strict nd : Bool} {bits : Widths}
  {α : ℕ → ℝ} {p : ℕ → ℤ} {I : ℕ → Field → Prop} {Λ : Set ℕ} {S : Reg → Slot}

/-- the code with overflow of refinements being undefined behaviour, and reported -/
local notation "Lb" => libs K A N R strict nd bits
@[inherit_doc] local notation "Lr" => libs K A N R' strict nd bits

/-- what is known about the fields -/
structure Setting (K : ℕ → Nf) (A : ℕ → ArbOps) (N : ∀ i, NfOps (K i))
    (R R' : ℕ → ℕ → Field → ℤ → Res Field) (α : ℕ → ℝ) (p : ℕ → ℤ) (I : ℕ → Field → Prop) : Prop where
  inv : ∀ k i, FieldInv (envs (A i) (N i) (R' i) k) (α i) (I i)
  ends : ∀ i, CEnds (α i) (p i) (I i) (A i) (N i) (R' i)
  report : ∀ i k f p, (R i k f p).reportOverflow = (R' i k f p).reportOverflow
  nothrow : ∀ i k f p w, R i k f p ≠ .throw w

theorem Rep.lib {L L' : Lib} {S : Reg → Slot} (h : Rep L α I Λ S w) (hK : L.K = L'.K) :
    Rep L' α I Λ S w :=
  ⟨h.fld, h.absent, h.moved, fun x i a hx => hK ▸ h.elem x i a hx, h.inj, h.owned, h.bound⟩

theorem call_ok {L : Lib} {i : ℕ} {cs : List ℕ} {m : M β} {w : World} {z : β} {s' : Mem}
    (hall : cs.all (owns w i) = true) (h : m (view L w i cs) = .ok (z, s')) :
    call L i cs m w = .ok (z, { w with
        fld := fun j => if j = i then s'.fld else w.fld j
        cell := fun c => if c ∈ cs then some (i, s'.heap (.user c)) else w.cell c }) := by
  simp only [call, hall, h, if_true]

theorem call_ub {L : Lib} {i : ℕ} {cs : List ℕ} {m : M β} {w : World}
    (hall : cs.all (owns w i) = true) (h : m (view L w i cs) = .ub) :
    call L i cs m w = .ub := by
  simp only [call, hall, h, if_true]

theorem call_throw {L : Lib} {i : ℕ} {cs : List ℕ} {m : M β} {w : World} {s : String}
    (hall : cs.all (owns w i) = true) (h : m (view L w i cs) = .throw s) :
    call L i cs m w = .abort := by
  simp only [call, hall, h, if_true]

theorem call_abort {L : Lib} {i : ℕ} {cs : List ℕ} {m : M β} {w : World}
    (hall : cs.all (owns w i) = true) (h : m (view L w i cs) = .abort) :
    call L i cs m w = .abort := by
  simp only [call, hall, h, if_true]

theorem call_ends {i : ℕ} {cs : List ℕ}
    (h : ∀ c ∈ cs, ∃ a, Holds (Lr 0) α w i c a) {m m' : ℕ → M β}
    (hm : Ends V m' (view (Lr 0) w i cs) fun _ _ => True) (ha : ∀ k, Agree (m k) (m' k))
    (hnt : ∀ k, NT (m k)) :
    EndsW V T (fun k => call (Lb k) i cs (m k)) (fun k => call (Lr k) i cs (m' k)) w
      fun _ _ => True := by
  have hall : cs.all (owns w i) = true := by
    rw [List.all_eq_true]
    intro c hc
    obtain ⟨a, e, h1, _⟩ := h c hc
    simp [owns, h1]
  have ev : ∀ k, view (Lb k) w i cs = view (Lr 0) w i cs := fun _ => rfl
  have ev' : ∀ k, view (Lr k) w i cs = view (Lr 0) w i cs := fun _ => rfl
  have same : ∀ {k r}, m' k (view (Lr 0) w i cs) = r → r.reportOverflow = r → (∀ w, r ≠ .throw w) →
      m k (view (Lr 0) w i cs) = r := by
    intro k r h h1 h2
    have := ha k (view (Lr 0) w i cs)
    rw [h, h1] at this
    rcases hm : m k (view (Lr 0) w i cs) with _ | _ | _ | _ | _ <;>
      rw [hm] at this <;> try exact this
    exact absurd this.symm (h2 _)
  obtain ⟨n, hm⟩ := hm
  refine ⟨n, ?_⟩
  rcases hm with ⟨z, s', -, hm⟩ | hm | ⟨hv, hm⟩
  · refine .inl ⟨z, { w with
        fld := fun j => if j = i then s'.fld else w.fld j
        cell := fun c => if c ∈ cs then some (i, s'.heap (.user c)) else w.cell c },
      trivial, fun k hk => ⟨call_ok hall ?_, call_ok hall ?_⟩⟩
    · rw [ev, same (hm k hk) rfl (by simp)]
    · rw [ev', hm k hk]
  · refine .inr (.inr (.inl fun k hk => ⟨call_ub hall ?_, call_throw hall (s := "overflow") ?_⟩))
    · have := ha k (view (Lr 0) w i cs)
      rw [hm k hk] at this
      rw [ev]
      rcases hr : m k (view (Lr 0) w i cs) with _ | _ | _ | _ | _ <;>
        rw [hr] at this <;> simp [Res.reportOverflow] at this ⊢
      exact absurd hr (hnt k _ _)
    · rw [ev', hm k hk]
  · refine .inr (.inr (.inr ⟨hv, fun k hk => ⟨call_abort hall ?_, call_abort hall ?_⟩⟩))
    · rw [ev, same (hm k hk) rfl (by simp)]
    · rw [ev', hm k hk]

variable (X : Setting K A N R R' α p I)
include X

theorem call1_ends {x : Reg} {i : ℕ} {a : ℝ} (h : Rep (Lr 0) α I Λ S w) (hx : S x = .elem i a)
    {m m' : ℕ → (i : ℕ) → Reg → M β}
    (hm : ∀ v c s, v (.user c) = a → EAntic.Rep (K i) (α i) (I i) v s →
      Ends V (fun k => m' k i (.user c)) s fun _ _ => True)
    (ha : ∀ k c, Agree (m k i (.user c)) (m' k i (.user c))) (hnt : ∀ k c, NT (m k i (.user c))) :
    EndsW V T (fun k => call1 (Lb k) x (m k)) (fun k => call1 (Lr k) x (m' k)) w fun _ _ => True := by
  obtain ⟨c, hc, hh⟩ := h.find hx
  refine EndsW.obj hc (EndsW.deref ?_)
  have hcs : ∀ d ∈ [c], ∃ a, Holds (Lr 0) α w i d a := by
    simp only [List.mem_singleton]
    rintro d rfl
    exact ⟨a, hh⟩
  refine call_ends hcs (hm (seen (Lr 0) α w i [c]) c _ (seen_of_holds hh (by simp)) ?_)
    (fun k => ha k c) fun k => hnt k c
  exact view_rep (L := Lr 0) (X.inv 0) (h.fld i) hcs

theorem call2_ends {x y : Reg} {i cx cy : ℕ} {a b : ℝ} (h : Rep (Lr 0) α I Λ S w)
    (hx : S x = .elem i a) (hy : S y = .elem i b) (hox : w.obj x = some ⟨some i, cx⟩)
    (hoy : w.obj y = some ⟨some i, cy⟩) {m m' : ℕ → M β}
    (hm : ∀ v s, v (.user cx) = a → v (.user cy) = b → EAntic.Rep (K i) (α i) (I i) v s →
      Ends V m' s fun _ _ => True)
    (ha : ∀ k, Agree (m k) (m' k)) (hnt : ∀ k, NT (m k)) :
    EndsW V T (fun k => call (Lb k) i [cx, cy] (m k)) (fun k => call (Lr k) i [cx, cy] (m' k)) w
      fun _ _ => True := by
  obtain ⟨c, hc, hh⟩ := h.find hx
  obtain ⟨d, hd, hh'⟩ := h.find hy
  have e1 : c = cx := by rw [hox] at hc; simp at hc; exact hc.symm
  have e2 : d = cy := by rw [hoy] at hd; simp at hd; exact hd.symm
  subst e1 e2
  have hcs : ∀ e ∈ [c, d], ∃ a, Holds (Lr 0) α w i e a := by
    simp only [List.mem_cons, List.not_mem_nil, or_false]
    rintro e (rfl | rfl)
    · exact ⟨a, hh⟩
    · exact ⟨b, hh'⟩
  refine call_ends hcs (hm (seen (Lr 0) α w i [c, d]) _ (seen_of_holds hh (by simp))
    (seen_of_holds hh' (by simp)) ?_) ha hnt
  exact view_rep (L := Lr 0) (X.inv 0) (h.fld i) hcs

/-! ## Queries -/

theorem sgnW_ends {x : Reg} {i : ℕ} {a : ℝ} (h : Rep (Lr 0) α I Λ S w) (hx : S x = .elem i a)
    (hs : Sizeable (K i) (α i) (p i) a) :
    EndsW V T (fun k => sgn (Lb k) x) (fun k => sgn (Lr k) x) w fun _ _ => True :=
  call1_ends X h hx (fun v c s hv hr => (X.ends i).sgn c (by rw [hv]; exact hs) hr)
    (fun k c => sgn_agree (X.report i k) _) fun k c => sgn_nt (X.nothrow i k) _

theorem roundW_ends (hV : V) (kd : Env.Kind) {x : Reg} {i : ℕ} {a : ℝ} (h : Rep (Lr 0) α I Λ S w)
    (hx : S x = .elem i a) (hs : Sizeable (K i) (α i) (p i) a) :
    EndsW V T (fun k => call1 (Lb k) x fun i r => ((Lb k).E i).round kd r)
      (fun k => call1 (Lr k) x fun i r => ((Lr k).E i).round kd r) w fun _ _ => True :=
  call1_ends X h hx (fun v c s hv hr => (X.ends i).round kd c hV (by rw [hv]; exact hs) hr)
    (fun k c => round_agree (X.report i k) _ _) fun k c => round_nt (X.nothrow i k) _ _

theorem toDoubleW_ends {x : Reg} {i : ℕ} {a : ℝ} (h : Rep (Lr 0) α I Λ S w) (hx : S x = .elem i a)
    (hs : ∀ r : ℝ, |r| = |a| → Sizeable (K i) (α i) (p i) r ∧
      Sizeable (K i) (α i) (p i) (r - (uintMax : ℚ)) ∧ Sizeable (K i) (α i) (p i) (r - (dblMax : ℚ))) :
    EndsW V T (fun k => toDouble (Lb k) x) (fun k => toDouble (Lr k) x) w fun _ _ => True :=
  call1_ends X h hx (fun v c s hv hr => (X.ends i).getD c _ (by rw [hv]; exact hs) hr)
    (fun k c => getD_agree (X.report i k) _ _) fun k c => getD_nt (X.nothrow i k) _ _

theorem cmpQW_ends {x : Reg} {i : ℕ} {a : ℝ} (h : Rep (Lr 0) α I Λ S w) (hx : S x = .elem i a)
    (q : ℚ) (hs : CmpSize (K i) (α i) (p i) a q) :
    EndsW V T (fun k => cmpQ (Lb k) x q) (fun k => cmpQ (Lr k) x q) w fun _ _ => True :=
  call1_ends X h hx (fun v c s hv hr => (X.ends i).cmpQ c q _ (by rw [hv]; exact hs.1)
      (by rw [hv]; exact hs.2.2) hr)
    (fun k c => cmpQ_agree (X.report i k) _ _ _) fun k c => cmpQ_nt (X.nothrow i k) _ _ _

theorem fdivRawW_ends (hV : V) {x y : Reg} {i : ℕ} {a b : ℝ} (h : Rep (Lr 0) α I Λ S w)
    (hx : S x = .elem i a) (hy : S y = .elem i b) (hb : b ≠ 0) (hs : FdivSize (K i) (α i) (p i) a b) :
    EndsW V T (fun k => fdivRaw (Lb k) x y) (fun k => fdivRaw (Lr k) x y) w fun _ _ => True := by
  obtain ⟨cx, hcx, _⟩ := h.find hx
  obtain ⟨cy, hcy, _⟩ := h.find hy
  unfold fdivRaw
  refine EndsW.obj hcx (EndsW.obj hcy (EndsW.deref ?_))
  exact call2_ends X h hx hy hcx hcy
    (fun v s hv hv' hr => (X.ends i).fdiv cx cy hV (by rw [hv']; exact hb) (by rw [hv, hv']; exact hs) hr)
    (fun k => fdiv_agree (X.report i k) _ _) fun k => fdiv_nt (X.nothrow i k) _ _

omit X in
theorem isRationalW_ends (hE : ∀ k i, FieldInv (envs (A i) (N i) (R' i) k) (α i) (I i)) {x : Reg} {i : ℕ}
    {a : ℝ} (h : Rep (Lr 0) α I Λ S w) (hx : S x = .elem i a) :
    EndsW V T (fun k => isRational (Lb k) x) (fun k => isRational (Lr k) x) w
      fun b w' => (b = true ↔ IsRat a) ∧ Rep (Lr 0) α I Λ S w' :=
  EndsW.det (fun _ => rfl) (fun _ => rfl) ((isRational_good (L := Lr 0) (hE 0) h hx).mono
    fun _ _ h => ⟨h.1, h.2.1⟩)

omit X in
theorem toMpqW_ends (hE : ∀ k i, FieldInv (envs (A i) (N i) (R' i) k) (α i) (I i)) {x : Reg} {i : ℕ}
    {a : ℝ} (h : Rep (Lr 0) α I Λ S w) (hx : S x = .elem i a) (ha : IsRat a) :
    EndsW V T (fun k => toMpq (Lb k) x) (fun k => toMpq (Lr k) x) w
      fun (q : ℚ) w' => a = q ∧ Rep (Lr 0) α I Λ S w' :=
  EndsW.det (fun _ => rfl) (fun _ => rfl) ((toMpq_good (L := Lr 0) (hE 0) h hx ha).mono
    fun _ _ h => ⟨h.1, h.2.1⟩)

theorem ltW_ends {x y : Reg} {i j : ℕ} {a b : ℝ} (h : Rep (Lr 0) α I Λ S w) (hx : S x = .elem i a)
    (hy : S y = .elem j b) (hs : LtSize K α p i a j b) :
    EndsW V (fun _ _ => True) (fun k => lt (Lb k) x y) (fun k => lt (Lr k) x y) w fun _ _ => True := by
  obtain ⟨cx, hcx, _⟩ := h.find hx
  obtain ⟨cy, hcy, _⟩ := h.find hy
  unfold lt
  refine EndsW.obj hcx (EndsW.obj hcy (EndsW.deref (EndsW.deref (EndsW.ite (fun hij => ?_) fun hij => ?_))))
  · subst hij
    refine (call2_ends X h hx hy hcx hcy
      (fun v s hv hv' hr => (X.ends i).cmp cx cy (by rw [hv]; exact hs.1.1) (by rw [hv']; exact hs.1.2.1)
        (by rw [hv, hv']; exact hs.1.2.2) hr)
      (fun k => cmp_agree (X.report i k) _ _) fun k => cmp_nt (X.nothrow i k) _ _).bind fun _ _ _ =>
        EndsW.pure trivial
  · refine (isRationalW_ends X.inv h hx).bind ?_
    rintro r w₁ ⟨hr, h₁⟩
    refine EndsW.ite (fun hr' => ?_) fun hr' => ?_
    · refine (toMpqW_ends X.inv h₁ hx (hr.1 hr')).bind ?_
      rintro q w₂ ⟨hq, h₂⟩
      refine (cmpQW_ends X h₂ hy q ?_).bind fun _ _ _ => EndsW.pure trivial
      rw [← hq]
      exact hs.2 hij
    · refine (isRationalW_ends X.inv h₁ hy).bind ?_
      rintro r₂ w₂ ⟨hr₂, h₂⟩
      refine EndsW.ite (fun hr₂' => ?_) fun hr₂' => ?_
      · refine (toMpqW_ends X.inv h₂ hy (hr₂.1 hr₂')).bind ?_
        rintro q w₃ ⟨hq, h₃⟩
        refine (cmpQW_ends X h₃ hx q ?_).bind fun _ _ _ => EndsW.pure trivial
        rw [← hq]
        exact hs.1
      · exact EndsW.det (fun _ => rfl) (fun _ => rfl) trivial

theorem floordivW_ends (hV : V) {x y : Reg} {i j : ℕ} {a b : ℝ} (h : Rep (Lr 0) α I Λ S w)
    (hx : S x = .elem i a) (hy : S y = .elem j b) (hb : b ≠ 0) (hij : i = j ∨ IsRat a ∨ IsRat b)
    (ht : S (.tmp 10) = .absent) (ht' : S (.tmp 11) = .absent)
    (hs1 : i = j → FdivSize (K i) (α i) (p i) a b)
    (hs2 : i ≠ j → IsRat b → Sizeable (K i) (α i) (p i) (a / b))
    (hs3 : i ≠ j → IsRat a → FdivSize (K j) (α j) (p j) a b) :
    EndsW V (fun _ _ => True) (fun k => floordiv (Lb k) x y) (fun k => floordiv (Lr k) x y) w
      fun _ _ => True := by
  have pa : ∀ {z : Reg} {i : ℕ} {a : ℝ} {w : World} {m m' : ℕ → ℕ → W ℤ} {Post : ℤ → World → Prop},
      Rep (Lr 0) α I Λ S w → S z = .elem i a →
      EndsW V (fun _ _ => True) (fun k => m k i) (fun k => m' k i) w Post →
      EndsW V (fun _ _ => True) (fun k => parent z >>= m k) (fun k => parent z >>= m' k) w Post := by
    intro z i a w m m' Post h hz he
    obtain ⟨c, hc, _⟩ := h.find hz
    have e : parent z w = .ok (i, w) := by
      unfold parent
      rw [W.bind_def]
      simp [W.bind, W.obj, hc]
      rfl
    exact he.congr (fun k => W.bind_res e) fun k => W.bind_res e
  unfold floordiv
  refine pa h hx (pa h hy (EndsW.ite (fun hne => ?_) fun hne => ?_))
  · refine (isRationalW_ends X.inv h hy).bind ?_
    rintro r w₁ ⟨hr, h₁⟩
    refine EndsW.ite (fun hr' => ?_) fun hr' => ?_
    · refine (EndsW.det (m := fun k => binary (Lb k) .div (.tmp 11) x y)
        (m' := fun k => binary (Lr k) .div (.tmp 11) x y) (fun _ => rfl) (fun _ => rfl) (binary_good (L := Lr 0) (X.inv 0) .div h₁ ht'
        (by simp) hx hy (fun _ => hb) ht (fun _ _ _ _ => trivial))).bind ?_
      rintro - w₂ ⟨_, k, hk, h₂⟩
      have hki : k = i := by
        rcases hk with ⟨h, -⟩ | ⟨-, -, h⟩ | ⟨-, h, -⟩
        · exact absurd h hne
        · exact h
        · exact absurd (hr.1 hr') h
      subst k
      have fl := (roundW_ends (N := N) (R := R) (T := fun _ _ => True) (strict := strict) (nd := nd)
        (bits := bits) X hV .floor h₂ (x := .tmp 11) (Function.update_self ..)
        (hs2 hne (hr.1 hr'))).and_good
        fun k => Good.mono (Q := fun _ w' => Rep (Lr 0) α I Λ
            (Function.update S (.tmp 11) (.elem i (BinK.div.real a b))) w')
          (floor_good (L := Lr k) (X.inv k) (U := True) (T := fun _ _ => True) trivial
          (h₂.lib (L' := Lr k) rfl) (x := .tmp 11) (Function.update_self ..))
          fun _ _ h => h.2.1.lib (L' := Lr 0) rfl
      refine EndsW.bind fl ?_
      rintro z w₃ ⟨-, h₃⟩
      refine EndsW.bind (EndsW.det (fun _ => rfl) (fun _ => rfl) (destroy_good h₃ (x := .tmp 11)
        (by rw [Function.update_self]; simp))) ?_
      exact fun _ _ _ => EndsW.pure trivial
    · refine (isRationalW_ends X.inv h₁ hx).bind ?_
      rintro r₂ w₂ ⟨hr₂, h₂⟩
      refine EndsW.ite (fun hr₂' => ?_) fun hr₂' => ?_
      · refine (toMpqW_ends X.inv h₂ hx (hr₂.1 hr₂')).bind ?_
        rintro q w₃ ⟨hq, h₃⟩
        refine (EndsW.det (m := fun k => constructQ (Lb k) (.tmp 11) j q)
          (m' := fun k => constructQ (Lr k) (.tmp 11) j q) (fun _ => rfl) (fun _ => rfl)
          (constructQ_good (L := Lr 0) (X.inv 0) j q h₃ ht')).bind ?_
        intro _ w₄ h₄
        have hyt : y ≠ .tmp 11 := by rintro rfl; rw [ht'] at hy; cases hy
        have fd := (fdivRawW_ends (N := N) (R := R) (T := fun _ _ => True) (strict := strict) (nd := nd)
          (bits := bits) X hV h₄ (x := .tmp 11) (y := y) (Function.update_self ..)
          (by rw [Function.update_of_ne hyt, hy]) hb
          (by rw [← hq]; exact hs3 hne (hr₂.1 hr₂'))).and_good
          fun k => Good.mono (Q := fun _ w' => Rep (Lr 0) α I Λ
              (Function.update S (.tmp 11) (.elem j q)) w')
            (fdivRaw_good (L := Lr k) (X.inv k) (U := True) (T := fun _ _ => True) trivial
            (h₄.lib (L' := Lr k) rfl) (x := .tmp 11) (y := y) (Function.update_self ..)
            (by rw [Function.update_of_ne hyt, hy])) fun _ _ h => h.2.lib (L' := Lr 0) rfl
        refine EndsW.bind fd ?_
        rintro z w₅ ⟨-, h₅⟩
        refine EndsW.bind (EndsW.det (fun _ => rfl) (fun _ => rfl) (destroy_good h₅ (x := .tmp 11)
          (by rw [Function.update_self]; simp))) ?_
        exact fun _ _ _ => EndsW.pure trivial
      · exact absurd hij (by
          rintro (h | h | h)
          · exact hne h
          · exact hr₂' (hr₂.2 h)
          · exact hr' (hr.2 h))
  · push Not at hne
    subst hne
    exact fdivRawW_ends X hV h hx hy hb (hs1 rfl)

omit X in
theorem EndsW.ret {m m' : ℕ → W β} {f : β → Val} {Q : β → World → Prop} (h : EndsW V T m m' w Q) :
    EndsW V T (fun k => Cxx.ret f (m k)) (fun k => Cxx.ret f (m' k)) w fun _ _ => True :=
  h.bind fun _ _ _ => EndsW.pure trivial

omit X in
theorem EndsW.map {m m' : ℕ → W β} {f : β → γ} {Q : β → World → Prop} (h : EndsW V T m m' w Q) :
    EndsW V T (fun k => m k >>= fun b => Pure.pure (f b)) (fun k => m' k >>= fun b => Pure.pure (f b)) w
      fun _ _ => True :=
  h.bind fun _ _ _ => EndsW.pure trivial

omit X in
/-- a call that evaluates nothing does not depend on where loops are cut off -/
theorem exec_indep {c : Cmd} (hc : ¬ c.approximates) (k j : ℕ) : exec (Lb k) c = exec (Lr j) c := by
  cases c with
  | binop f x y => cases f <;> rfl
  | binary f r x y => cases f <;> rfl
  | binopZ f x y => cases f <;> rfl
  | binopQ f x y => cases f <;> rfl
  | binopInt f x y => cases f <;> rfl
  | binaryNum f r x n => cases f <;> cases n <;> rfl
  | numBinary f r n x => cases f <;> cases n <;> rfl
  | lt => exact absurd trivial hc
  | ltQ => exact absurd trivial hc
  | gtQ => exact absurd trivial hc
  | ltInt => exact absurd trivial hc
  | gtInt => exact absurd trivial hc
  | sgn => exact absurd trivial hc
  | floor => exact absurd trivial hc
  | ceil => exact absurd trivial hc
  | floordiv => exact absurd trivial hc
  | toDouble => exact absurd trivial hc
  | rel o x y => cases o <;> first | (simp [Cmd.approximates] at hc; done) | rfl
  | relNum o x y => cases o <;> first | (simp [Cmd.approximates] at hc; done) | (cases y <;> rfl)
  | numRel o y x => cases o <;> first | (simp [Cmd.approximates] at hc; done) | (cases y <;> rfl)
  | _ => rfl

theorem ltNumW_ends {x : Reg} {i : ℕ} {a : ℝ} (h : Rep (Lr 0) α I Λ S w) (hx : S x = .elem i a)
    (hb : bits.Ok) {n : Num} (hn : n.Has bits) (hs : CmpSize (K i) (α i) (p i) a n.val) :
    EndsW V T (fun k => ltNum (Lb k) x n) (fun k => ltNum (Lr k) x n) w fun _ _ => True := by
  cases n with
  | int t z =>
    refine (cmpQW_ends X h hx (native bits t z) ?_).map
    rw [native_eq hb hn]
    exact_mod_cast hs
  | mpz z => exact (cmpQW_ends X h hx z (by exact_mod_cast hs)).map
  | mpq q => exact (cmpQW_ends X h hx q hs).map

theorem gtNumW_ends {x : Reg} {i : ℕ} {a : ℝ} (h : Rep (Lr 0) α I Λ S w) (hx : S x = .elem i a)
    (hb : bits.Ok) {n : Num} (hn : n.Has bits) (hs : CmpSize (K i) (α i) (p i) a n.val) :
    EndsW V T (fun k => gtNum (Lb k) x n) (fun k => gtNum (Lr k) x n) w fun _ _ => True := by
  cases n with
  | int t z =>
    refine (cmpQW_ends X h hx (native bits t z) ?_).map
    rw [native_eq hb hn]
    exact_mod_cast hs
  | mpz z => exact (cmpQW_ends X h hx z (by exact_mod_cast hs)).map
  | mpq q => exact (cmpQW_ends X h hx q hs).map

end calls

section programs

variable {K : ℕ → Nf} {A : ℕ → ArbOps} {N : ∀ i, NfOps (K i)}
  {R R' : ℕ → ℕ → Field → ℤ → Res Field} {strict nd : Bool} {bits : Widths}
  {α : ℕ → ℝ} {p : ℕ → ℤ} {I : ℕ → Field → Prop} {Λ : Set ℕ} {S : ℕ → Slot} (X : Setting K A N R R' α p I)

@[inherit_doc libs] local notation "Lb" => libs K A N R strict nd bits
@[inherit_doc libs] local notation "Lr" => libs K A N R' strict nd bits

include X

theorem execW_ends (hb : bits.Ok) {c : Cmd} (hV : c.rounds → V) (h : RepresentsUpTo (Lr 0) α I Λ S w)
    (hv : Valid (Lr 0) α S c) (hs : SizeOk K α p S c) :
    EndsW V (fun s w' => Throws (Lr 0) S c s ∧ ∃ Λ', LeaksTo c Λ Λ' ∧ RepresentsUpTo (Lr 0) α I Λ' S w')
      (fun k => exec (Lb k) c) (fun k => exec (Lr k) c) w
      fun ans w' => ∃ S', Step (Lr 0) α S c ans S' ∧ RepresentsUpTo (Lr 0) α I Λ S' w' := by
  have good : ∀ k, Good c.approximates
      (fun s w' => Throws (Lr 0) S c s ∧ ∃ Λ', LeaksTo c Λ Λ' ∧ RepresentsUpTo (Lr 0) α I Λ' S w')
      (fun ans w' => ∃ S', Step (Lr 0) α S c ans S' ∧ RepresentsUpTo (Lr 0) α I Λ S' w')
      (exec (Lr k) c w) := by
    intro k
    have hv' : Valid (Lr k) α S c := by cases c <;> exact hv
    refine (Good.mono (exec_good (L := Lr k) (X.inv k) hb (h.lib (L' := Lr k) rfl) hv') ?_).weaken id ?_
    rotate_left
    · rintro s w' ⟨ht, Λ', hl, hr⟩
      exact ⟨by cases c <;> exact ht, Λ', hl, hr.lib (L' := Lr 0) rfl⟩
    · rintro ans w' ⟨S', ht, hr⟩
      exact ⟨S', by cases c <;> exact ht, hr.lib (L' := Lr 0) rfl⟩
  by_cases hc : c.approximates
  · refine ((?_ : EndsW V (fun _ _ => True) (fun k => exec (Lb k) c) (fun k => exec (Lr k) c) w
      fun _ _ => True).and_good good).mono fun _ _ h => h.2
    cases c with
    | lt x y =>
      obtain ⟨⟨i, a, hx⟩, j, b, hy⟩ := hv
      exact (ltW_ends X h (x := .user x) (y := .user y) hx hy (hs i a j b hx hy)).ret
    | ltQ x q =>
      obtain ⟨i, a, hx⟩ := hv
      exact (ltNumW_ends X h (x := .user x) (n := .mpq q) hx hb trivial (hs i a hx)).ret
    | gtQ x q =>
      obtain ⟨i, a, hx⟩ := hv
      exact (gtNumW_ends X h (x := .user x) (n := .mpq q) hx hb trivial (hs i a hx)).ret
    | ltInt x t z =>
      obtain ⟨⟨i, a, hx⟩, hn⟩ := hv
      exact (ltNumW_ends X h (x := .user x) (n := .int t z) hx hb hn (by exact_mod_cast hs i a hx)).ret
    | gtInt x t z =>
      obtain ⟨⟨i, a, hx⟩, hn⟩ := hv
      exact (gtNumW_ends X h (x := .user x) (n := .int t z) hx hb hn (by exact_mod_cast hs i a hx)).ret
    | sgn x =>
      obtain ⟨i, a, hx⟩ := hv
      exact (sgnW_ends X h (x := .user x) hx (hs i a hx)).ret
    | floor x =>
      obtain ⟨i, a, hx⟩ := hv
      exact (roundW_ends X (hV trivial) .floor h (x := .user x) hx (hs i a hx)).ret
    | ceil x =>
      obtain ⟨i, a, hx⟩ := hv
      exact (roundW_ends X (hV trivial) .ceil h (x := .user x) hx (hs i a hx)).ret
    | floordiv x y =>
      obtain ⟨i, a, j, b, hx, hy, h0, hij⟩ := hv
      obtain ⟨h1, h2, h3⟩ := hs i a j b hx hy
      exact (floordivW_ends X (hV trivial) h (x := .user x) (y := .user y) hx hy h0 hij rfl rfl h1 h2 h3).ret
    | toDouble x =>
      obtain ⟨i, a, hx⟩ := hv
      exact (toDoubleW_ends X h (x := .user x) hx (hs i a hx)).ret
    | rel o x y =>
      obtain ⟨⟨i, a, hx⟩, j, b, hy⟩ := hv
      obtain ⟨h1, h2⟩ := hs i a j b hx hy
      have l1 := ltW_ends (V := V) (N := N) (R := R) (strict := strict) (nd := nd) (bits := bits) X h
        (x := .user x) (y := .user y) hx hy h1
      have l2 := ltW_ends (V := V) (N := N) (R := R) (strict := strict) (nd := nd) (bits := bits) X h
        (x := .user y) (y := .user x) hy hx h2
      cases o with
      | eq => exact absurd rfl hc.1
      | ne => exact absurd rfl hc.2
      | lt => exact l1.ret
      | gt => exact l2.ret
      | le => exact l2.map.ret
      | ge => exact l1.map.ret
    | relNum o x n =>
      obtain ⟨⟨i, a, hx⟩, hn⟩ := hv
      have l1 := ltNumW_ends (V := V) (T := fun _ _ => True) (N := N) (R := R) (strict := strict) (nd := nd)
        X h (x := .user x) hx hb hn (hs i a hx)
      have l2 := gtNumW_ends (V := V) (T := fun _ _ => True) (N := N) (R := R) (strict := strict) (nd := nd)
        X h (x := .user x) hx hb hn (hs i a hx)
      cases o with
      | eq => exact absurd rfl hc.1
      | ne => exact absurd rfl hc.2
      | lt => exact l1.ret
      | gt => exact l2.ret
      | le => exact l2.map.ret
      | ge => exact l1.map.ret
    | numRel o n x =>
      obtain ⟨⟨i, a, hx⟩, hn⟩ := hv
      have l1 := ltNumW_ends (V := V) (T := fun _ _ => True) (N := N) (R := R) (strict := strict) (nd := nd)
        X h (x := .user x) hx hb hn (hs i a hx)
      have l2 := gtNumW_ends (V := V) (T := fun _ _ => True) (N := N) (R := R) (strict := strict) (nd := nd)
        X h (x := .user x) hx hb hn (hs i a hx)
      cases o with
      | eq => exact absurd rfl hc.1
      | ne => exact absurd rfl hc.2
      | lt => exact l2.ret
      | gt => exact l1.ret
      | le => exact l1.map.ret
      | ge => exact l2.map.ret
    | _ => exact hc.elim
  · refine EndsW.det (fun k => ?_) (fun k => ?_) ((good 0).weaken hc fun _ _ h => h)
    · exact congrFun (exec_indep hc k 0) w
    · exact congrFun (exec_indep hc k 0) w

theorem execAllW_ends (hb : bits.Ok) : ∀ {cs : List Cmd} {S : ℕ → Slot} {w : World},
    RepresentsUpTo (Lr 0) α I Λ S w → AllowedSized (Lr 0) α p S cs →
    EndsW (∃ c ∈ cs, c.rounds) (fun s _ => ThrowsIn (Lr 0) α S cs s)
      (fun k => execAll (Lb k) cs) (fun k => execAll (Lr k) cs) w
      fun as w' => ∃ S', Steps (Lr 0) α S cs as S' ∧ RepresentsUpTo (Lr 0) α I Λ S' w'
  | [], S, w, h, _ => EndsW.pure ⟨S, rfl, h⟩
  | c :: cs, S, w, h, hv => by
    unfold execAll
    refine EndsW.bind ((execW_ends X hb (V := ∃ c' ∈ c :: cs, c'.rounds) (fun h => ⟨c, by simp, h⟩) h
      hv.1 hv.2.1).weaken id fun s _ hs => .inl hs.1) ?_
    rintro a w₁ ⟨S₁, hs, h₁⟩
    refine EndsW.bind ((execAllW_ends hb h₁ (hv.2.2 a S₁ hs)).weaken
      (fun ⟨c', hc, hu⟩ => ⟨c', by simp [hc], hu⟩) fun s _ ht => .inr ⟨a, S₁, hs, ht⟩) ?_
    rintro as w₂ ⟨S₂, hs₂, h₂⟩
    exact EndsW.pure ⟨S₂, ⟨S₁, hs, hs₂⟩, h₂⟩

end programs

end Cxx

end EAntic
