import Verif.Lemmas.Fields
import Verif.Lemmas.Demo
import Verif.Lemmas.DemoSqrt
import Verif.Props.RefineTerm
import Verif.Props.Refinement

/-!
# C61: making a field twice gives the same field

`run bk State.init ops = .ok s`: the program has done the operations `ops`; `s.handles` are its
pointers, `s.objs o` is the field at the address `o`.  `bk` is how the hash table picks buckets.
`c.Is k α`: the object `c` has the name, polynomial and denominator of `k` and is embedded at `α`.
-/

open Polynomial

namespace EAntic.Fields

open Cxx (NearDouble)

variable {bk : Dbl → ℕ} {ops : List Op} {s s' : State}

/-- C61, `renf_class::make`.  The result is a field with the name, polynomial and root asked for.  If
the program has a pointer to such a field, the result is this field; all fields the program has are
left as they are.  Partial: enclosures have to be clear of other roots, see `C61_counterexample`. -/
theorem C61_make_partial (hops : ∀ op ∈ ops, ClearlyLegal op) (hs : run bk State.init ops = .ok s)
    {k : NamedField} {E : Env k.field.nf} {α : ℝ} (hk : ClearlyAt k E α)
    (h : step bk s (.make k E) = .ok s') :
    ∃ o c, s'.handles = o :: s.handles ∧ s'.objs o = some c ∧ c.Is k α ∧
      (∀ o' c', s.objs o' = some c' → c'.Is k α → o' = o) ∧
      (o ∈ s.handles ∨ s.objs o = none) ∧
      ∀ o' ∈ s.handles, s'.objs o' = s.objs o' := by
  obtain ⟨root, hi⟩ := run_inv hops ⟨_, inv_init⟩ hs
  obtain ⟨root', hi', hr, o, c, e1, e2, e3, e4, e5, e6, e7, e8⟩ := step_make hi hk h
  have hkeep : ∀ o' ∈ s.handles, s'.objs o' = s.objs o' := fun o' ho' => by
    by_cases hne : o' = o
    · subst hne; exact e8 ho'
    · exact e7 o' hne
  refine ⟨o, c, e1, e2, (hi'.is_iff e2).2 ⟨e5, e3, e4, e6⟩, fun o' c' ho' hc' => ?_, ?_, hkeep⟩
  · obtain ⟨g1, g2, g3, g4⟩ := (hi.is_iff ho').1 hc'
    have hin := (hi.alive o').1 ⟨c', ho'⟩
    exact hi'.unique _ _ _ _ ((hkeep o' hin).trans ho') e2 (g2.trans e3.symm) (g3.trans e4.symm)
      (g1.trans e5.symm) ((hr o' hin).trans (g4.trans e6.symm))
  · by_cases ho : o ∈ s.handles
    · exact .inl ho
    · refine .inr ?_
      cases hc : s.objs o with
      | none => rfl
      | some c' => exact absurd ((hi.alive o).1 ⟨c', hc⟩) ho

/-- C61, `make` for a field the program has: any enclosure of its root will do, whatever the
enclosure of the object has become meanwhile.  Partial: see `C61_make_partial`. -/
theorem C61_make_again_partial (hops : ∀ op ∈ ops, ClearlyLegal op) (hs : run bk State.init ops = .ok s)
    {o : ℕ} {c : Class} (ho : s.objs o = some c) {α : ℝ} (hα : c.K.IsRoot α) (hαc : α ∈ c.mem.fld.emb)
    {k : NamedField} {F : Env k.field.nf} (hF : ClearlyLegal (.make k F)) (hnf : k.field.nf = c.K)
    (hd : k.den = c.den) (hn : k.name = c.name) (hαk : α ∈ k.field.emb)
    (hm : step bk s (.make k F) = .ok s') :
    s'.handles = o :: s.handles ∧ ∀ o' ∈ s.handles, s'.objs o' = s.objs o' := by
  obtain ⟨root, hinv⟩ := run_inv hops ⟨_, inv_init⟩ hs
  have hro : root o = α := ((hinv.sound _ _ ho).unique hα hαc).symm
  obtain ⟨β, hβ⟩ := hF
  have hβα : α = β := by
    obtain ⟨I, hI, h0, hcl⟩ := hβ
    have h1 : β ∈ (renfInitSet k.field).emb := hI.enc h0
    change β ∈ k.field.emb at h1
    have hr : k.field.nf.IsRoot α := by rw [hnf]; exact hα
    rcases hcl _ h0 with hcl | ⟨m, r, e, hcl⟩
    · exact hcl _ hr
    · by_contra hne
      have hk := hcl _ hr hne
      change k.field.emb = _ at e
      rw [e, Ball.mem_fin] at h1 hαk
      rcases abs_cases (α - β) with ⟨e, _⟩ | ⟨e, _⟩ <;> rw [e] at hk <;>
        linarith [h1.1, h1.2, hαk.1, hαk.2]
  rw [← hβα] at hβ
  obtain ⟨o', c', e1, -, -, e4, -, e6⟩ := C61_make_partial hops hs hβ hm
  have := e4 o c ho ((hinv.is_iff ho).2 ⟨hn.symm, hnf.symm, hd.symm, hro⟩)
  subst this
  exact ⟨e1, e6⟩

/-- C61.  At all times there is one object for every name, polynomial and root, every live object has
one root, and the live objects are those the program has pointers to. -/
theorem C61_unique_partial (hops : ∀ op ∈ ops, ClearlyLegal op) (hs : run bk State.init ops = .ok s) :
    (∀ o, (∃ c, s.objs o = some c) ↔ o ∈ s.handles) ∧
    (∀ o c, s.objs o = some c → ∃! α, c.K.IsRoot α ∧ α ∈ c.mem.fld.emb) ∧
    ∀ o o' c c' k α, s.objs o = some c → s.objs o' = some c' → c.Is k α → c'.Is k α → o = o' := by
  obtain ⟨root, hi⟩ := run_inv hops ⟨_, inv_init⟩ hs
  refine ⟨hi.alive, fun o c ho => ?_, fun o o' c c' k α ho ho' h h' => ?_⟩
  · have hc := hi.sound _ _ ho
    exact ⟨root o, ⟨hc.root, hc.mem⟩, fun β hβ => hc.unique hβ.1 hβ.2⟩
  · obtain ⟨a1, a2, a3, a4⟩ := (hi.is_iff ho).1 h
    obtain ⟨b1, b2, b3, b4⟩ := (hi.is_iff ho').1 h'
    exact hi.unique _ _ _ _ ho ho' (a2.trans b2.symm) (a3.trans b3.symm) (a1.trans b1.symm)
      (a4.trans b4.symm)

/-- C61, `intrusive_ptr_release`.  Dropping a pointer leaves all fields alone that the program still
has pointers to; dropping the last pointer deletes the field, and nothing goes wrong as long as the
field can be hashed. -/
theorem C61_release_partial (hops : ∀ op ∈ ops, ClearlyLegal op) (hs : run bk State.init ops = .ok s)
    {o : ℕ} (ho : o ∈ s.handles) :
    (∀ s', step bk s (.release o) = .ok s' → s'.handles = s.handles.erase o ∧
      (∀ o' ∈ s'.handles, s'.objs o' = s.objs o') ∧ (o ∉ s'.handles → s'.objs o = none)) ∧
    ((∀ c, s.objs o = some c → ∃ p, c.hash = .ok p) → ∃ s', step bk s (.release o) = .ok s') := by
  obtain ⟨root, hi⟩ := run_inv hops ⟨_, inv_init⟩ hs
  constructor
  · intro s' h
    obtain ⟨hi', e1, e2, e3⟩ := step_release hi h
    refine ⟨e1, fun o' ho' => ?_, fun hno => ?_⟩
    · by_cases hne : o' = o
      · subst hne; exact e3 ho'
      · exact e2 o' hne
    · cases hc : s'.objs o with
      | none => rfl
      | some c' => exact absurd ((hi'.alive o).1 ⟨c', hc⟩) hno
  · intro hh
    simp only [step]
    rw [if_pos ho]
    by_cases h2 : o ∈ s.handles.erase o
    · rw [if_pos h2]; exact ⟨_, rfl⟩
    · rw [if_neg h2]
      obtain ⟨c, hc⟩ := (hi.alive o).2 ho
      obtain ⟨⟨d, c'⟩, e⟩ := hh c hc
      have := (release_find (bk := bk) hi hc e).1
      simp only [hc]
      rw [e]
      show ∃ s', (match (s.put o (some c')).find bk d c' with
        | none => Res.abort
        | some e => .ok { s.put o none with reg := s.reg.erase e, handles := s.handles.erase o }) = .ok s'
      rw [this]
      exact ⟨_, rfl⟩

/-- C61 for all fields, whatever their enclosures: the result of `make` has the name, the polynomial
and the denominator asked for.  Partial: nothing about the root. -/
theorem C61_name_and_polynomial_partial (hops : ∀ op ∈ ops, Legal op)
    (hs : run bk State.init ops = .ok s) {k : NamedField} {E : Env k.field.nf} {α : ℝ}
    (hk : EmbeddedAt k E α) (h : step bk s (.make k E) = .ok s') :
    ∃ o c, s'.handles = o :: s.handles ∧ s'.objs o = some c ∧ c.mem.fld.nf = k.field.nf ∧
      c.den = k.den ∧ c.name = k.name := by
  obtain ⟨h1, o, c, e1, e2, e3, e4, e5⟩ := make_allSound (run_allSound hops init_allSound hs) hk h
  obtain ⟨β, hβ⟩ := h1 o c e2
  exact ⟨o, c, e1, e2, hβ.nf.trans e3, e4, e5⟩

/-- C61, `zero()`, `one()` and `gen()`: at all times, for all fields, these are zero, one and the root
the field is embedded at, and their enclosures are right. -/
theorem C61_constants (hops : ∀ op ∈ ops, Legal op) (hs : run bk State.init ops = .ok s) {o : ℕ}
    {c : Class} (ho : s.objs o = some c) :
    ∃ α, c.K.IsRoot α ∧ α ∈ c.mem.fld.emb ∧
      (c.mem.heap (.user 0)).elem.val α = 0 ∧ (0 : ℝ) ∈ (c.mem.heap (.user 0)).emb ∧
      (c.mem.heap (.user 1)).elem.val α = 1 ∧ (1 : ℝ) ∈ (c.mem.heap (.user 1)).emb ∧
      (c.K.isLinear = false →
        (c.mem.heap (.user 2)).elem.val α = α ∧ α ∈ (c.mem.heap (.user 2)).emb) := by
  obtain ⟨α, I, hE, -, v, hv, h0, h1, h2⟩ := run_allSound hops init_allSound hs o c ho
  refine ⟨α, hE.root, hE.enc hv.inv, (hv.val _).trans h0, h0 ▸ hv.enc _, (hv.val _).trans h1,
    h1 ▸ hv.enc _, fun hl => ?_⟩
  have h3 : v (.user 2) = α := by rw [h2]; simp [genValue, hl]
  exact ⟨(hv.val _).trans h3, by have := hv.enc (.user 2); rwa [h3] at this⟩

/-- Where the hypotheses are met: any field of degree at least two, at any root, if the first enclosure
is small enough, with the modelled refinement over any arithmetic with tight radii. -/
theorem C61_small_enclosures {K : Nf} (hK : K.Ok) (h3 : 3 ≤ K.pol.length) {α : ℝ} (hα : K.IsRoot α)
    {A : ArbOps} (hA : A.Tight) :
    ∃ δ : ℝ, 0 < δ ∧ ∀ (k : NamedField) (E : Env k.field.nf) (nd : Bool) (n : ℕ), k.field.Near K α δ →
      2 ≤ k.field.prec → E.refine = refineEmbedding A nd n → ClearlyAt k E α := by
  obtain ⟨δ, hδ, H⟩ := near_inv_le hK h3 hα hA
  have hne : toPoly K.pol ≠ 0 := fun h0 => deriv_ne_zero hK hα (by rw [h0]; simp)
  have hfin : {β : ℝ | K.IsRoot β ∧ β ≠ α}.Finite :=
    (Polynomial.finite_setOf_isRoot hne).subset fun β hβ => hβ.1
  obtain ⟨ρ, hρ, hb⟩ := Metric.isOpen_iff.1 hfin.isClosed.isOpen_compl α (by simp)
  refine ⟨min δ (ρ / 5), lt_min hδ (by positivity), fun k E nd n hk hp hr => ?_⟩
  have hnf : k.field.nf = K := hk.1
  subst hnf
  refine ⟨_, H _ (min_le_left _ _) E nd n hr, ⟨hk, hp⟩, fun f hf => .inr ?_⟩
  obtain ⟨-, m, r, e, -, hr⟩ := hf.1
  refine ⟨m, r, e, fun β hβ hne => ?_⟩
  have : β ∉ Metric.ball α ρ := fun h => hb h ⟨hβ, hne⟩
  rw [Metric.mem_ball, Real.dist_eq, not_lt] at this
  have := hr.trans (min_le_right _ _)
  linarith

/-- Where the hypotheses are met: any field, also of degree one, whose polynomial has one real root, with any
enclosure, with the modelled refinement over any arithmetic. -/
theorem C61_one_root {k : NamedField} {E : Env k.field.nf} (hK : k.field.nf.Ok) {α : ℝ}
    (hα : k.field.nf.IsRoot α) (hu : ∀ β, k.field.nf.IsRoot β → β = α) (hm : α ∈ k.field.emb)
    (hp : 2 ≤ k.field.prec) {nd : Bool} {n : ℕ} (hr : E.refine = refineEmbedding E.A nd n) :
    ClearlyAt k E α :=
  ⟨_, goodField_inv hK hα (.inr hu) hr,
    ⟨rfl, hp, hm, fun _ _ _ β hβ hne => absurd (hu β hβ) hne⟩, fun _ _ => .inl hu⟩

private theorem compPrec_fin {pol : List ℤ} {b : Ball} {q p : ℤ} (h : compPrec pol b q = some p) :
    ∃ m r, b = .fin m r := by
  cases b with
  | fin m r => exact ⟨m, r, rfl⟩
  | whole =>
    unfold compPrec at h
    split at h
    · cases h
    · simp only at h
      split_ifs at h with hc
      exact absurd hc.1 (by decide)

private theorem refineLoop_fin {A : ArbOps} {pol : List ℤ} {p : ℤ} : ∀ (n : ℕ) (s : Ball × ℤ) (b : Ball),
    (∃ m r, s.1 = .fin m r) → loop (refineStep A pol p) n s = .ok b → ∃ m r, b = .fin m r
  | 0, s, b, _, h => by cases h
  | n + 1, s, b, hs, h => by
    rw [loop] at h
    split at h <;> try (cases h; done)
    · next s₁ hst =>
      refine refineLoop_fin n s₁ b ?_ h
      unfold refineStep at hst
      simp only at hst
      split_ifs at hst
      swap
      · cases hst
      split at hst <;> try (cases hst; done)
      · split at hst
        · cases hst
        · next hc => cases hst; exact compPrec_fin hc
      · split at hst
        · split at hst
          · cases hst
          · next hc => cases hst; exact compPrec_fin hc
        · cases hst; exact hs
    · next b₁ hst =>
      cases h
      unfold refineStep at hst
      simp only at hst
      split_ifs at hst
      · split at hst <;> try (cases hst; done)
        · split at hst <;> cases hst
        · split at hst
          · split at hst <;> cases hst
          · cases hst
      · cases hst; exact hs

/-- Where the hypotheses are met, with an explicit bound: the radius of the first enclosure is less than a
quarter of the distance to the other real roots, and an intersection of two balls does not have a larger
radius than the second one. -/
theorem C61_clear_enclosures {k : NamedField} {E : Env k.field.nf} (hK : k.field.nf.Ok) {α : ℝ}
    (hα : k.field.nf.IsRoot α) (hA : E.A.InterGrow 1) {m r : ℚ} (he : k.field.emb = .fin m r)
    (hm : α ∈ k.field.emb) (hap : ∀ β, k.field.nf.IsRoot β → β ≠ α → 4 * (r : ℝ) < |β - α|)
    (hp : 2 ≤ k.field.prec) {nd : Bool} {n : ℕ} (hr : E.refine = refineEmbedding E.A nd n) :
    ClearlyAt k E α := by
  have hg := goodField_inv hK hα (.inl hA) hr
  refine ⟨fun f => GoodField k.field.nf α f ∧ ∃ m r, f.emb = .fin m r,
    ⟨hK, hα, fun h => hg.nf h.1, fun h => hg.enc h.1, fun h => hg.prec h.1,
      fun {f p f'} h h' => ⟨hg.refine h.1 h', ?_⟩⟩,
    ⟨⟨rfl, hp, hm, fun m' r' e => ?_⟩, m, r, he⟩, fun f h => .inr ?_⟩
  · rw [hr] at h'
    obtain ⟨cp, b, -, h2, rfl, -⟩ := refineEmbedding_cases h'
    exact refineLoop_fin _ _ _ h.2 h2
  · have e : k.field.emb = .fin m' r' := e
    rw [he] at e
    injection e with _ e
    rw [← e]
    exact hap
  · obtain ⟨h1, m', r', e⟩ := h
    exact ⟨m', r', e, h1.apart m' r' e⟩

/-! ### The theorems apply -/

/-- the field of `∛2` -/
def k3 (n : List Char) (e : Ball) : NamedField := ⟨⟨K3, e, 64, false⟩, 1, n⟩

theorem k3_clear (n : List Char) {e : Ball} (he : cbrt2 ∈ e) : ClearlyAt (k3 n e) env3 cbrt2 :=
  ⟨_, env3_inv, ⟨rfl, (by decide : (2 : ℤ) ≤ 64), he, fun _ _ _ β hβ hne => absurd (K3_unique β hβ) hne⟩,
    fun _ _ => .inl K3_unique⟩

/-- `C61_one_root` for the field of `∛2` -/
example : ClearlyAt (k3 ['a'] (.fin 0 8)) env3 cbrt2 :=
  C61_one_root K3_ok K3_root K3_unique
    (by have h := cbrt2_bounds; rw [k3, Ball.mem_fin]; push_cast; constructor <;> linarith [h.1, h.2])
    (by decide) (nd := false) (n := 64) rfl

open EAntic.DemoSqrt in
/-- `C61_clear_enclosures` for `√2 ∈ [1, 2]`; the other root is `-√2` -/
example : ClearlyAt ⟨fldS, 1, ['x']⟩ envS √2 :=
  C61_clear_enclosures KS_ok KS_root exactArb_interGrow rfl fldS_enc KS_apart (by decide) (nd := false) (n := 64)
    rfl

/-- `make` of the field of `∛2` with the name `a`, with the enclosure `[1, 3/2]`, work in it, `make` of
the same field with the enclosure `[1, 2]`, of a field with the name `b`, and pointers dropped -/
def ops3 : List Op :=
  [.make (k3 ['a'] (.fin (5 / 4) (1 / 4))) env3, .work 0 (.add 3 2 1), .work 0 (.sgn 3),
   .make (k3 ['a'] (.fin (3 / 2) (1 / 2))) env3, .make (k3 ['b'] (.fin (5 / 4) (1 / 4))) env3,
   .release 0]

theorem ops3_legal : ∀ op ∈ ops3, ClearlyLegal op := by
  have h := cbrt2_bounds
  have h1 : cbrt2 ∈ Ball.fin (5 / 4) (1 / 4) := by
    rw [Ball.mem_fin]; push_cast; constructor <;> linarith [h.1, h.2]
  have h2 : cbrt2 ∈ Ball.fin (3 / 2) (1 / 2) := by
    rw [Ball.mem_fin]; push_cast; constructor <;> linarith [h.1, h.2]
  intro op hop
  simp only [ops3, List.mem_cons, List.not_mem_nil, or_false] at hop
  rcases hop with rfl | rfl | rfl | rfl | rfl | rfl
  · exact ⟨_, k3_clear _ h1⟩
  · intro n hn e; have e : n = 3 := e; omega
  · intro n hn e; exact e
  · exact ⟨_, k3_clear _ h2⟩
  · exact ⟨_, k3_clear _ h1⟩
  · trivial

/-- the pointers and the registered addresses after a run -/
def view : Res State → Option (List ℕ × List ℕ)
  | .ok s => some (s.handles, s.reg.map (·.1))
  | _ => none

theorem view_eq {r : Res State} {x : List ℕ × List ℕ} (h : view r = some x) :
    ∃ s, r = .ok s ∧ s.handles = x.1 ∧ s.reg.map (·.1) = x.2 := by
  cases r with
  | ok s => simp only [view, Option.some.injEq] at h; subst h; exact ⟨s, rfl, rfl, rfl⟩
  | _ => simp [view] at h

/-- the second `make` gave the first field, the third one another; after the release both are there -/
theorem ops3_run : ∃ s, run (fun _ => 0) State.init ops3 = .ok s ∧ s.handles = [1, 0] ∧
    s.reg.map (·.1) = [1, 0] := view_eq (x := ([1, 0], [1, 0])) (by decide +kernel)

/-- non-vacuity of `C61_make_partial`: once more the field with the name `b` -/
example : ∃ s s', run (fun _ => 0) State.init ops3 = .ok s ∧
    step (fun _ => 0) s (.make (k3 ['b'] (.fin (3 / 2) (1 / 2))) env3) = .ok s' ∧
    s'.handles = [1, 1, 0] := by
  obtain ⟨s', h, h1, -⟩ := view_eq (r := run (fun _ => 0) State.init
    (ops3 ++ [.make (k3 ['b'] (.fin (3 / 2) (1 / 2))) env3])) (x := ([1, 1, 0], [1, 0])) (by decide +kernel)
  obtain ⟨s, hs, -⟩ := ops3_run
  have key : ∀ (ops : List Op) (op : Op) (s0 : State), run (fun _ => 0) s0 (ops ++ [op]) =
      (run (fun _ => 0) s0 ops).bind fun s => (step (fun _ => 0) s op).bind fun s' => .ok s' := by
    intro ops op
    induction ops with
    | nil => intro s0; rfl
    | cons o os ih =>
      intro s0
      show (step (fun _ => 0) s0 o).bind _ = ((step (fun _ => 0) s0 o).bind _).bind _
      cases step (fun _ => 0) s0 o with
      | ok s1 => exact ih s1
      | _ => rfl
  rw [key, hs] at h
  change ((step (fun _ => 0) s _).bind fun s' => .ok s') = .ok s' at h
  obtain ⟨s2, e1, e2⟩ := Res.bind_eq_ok.1 h
  injection e2 with e2
  subst e2
  exact ⟨s, s2, hs, e1, h1⟩

/-- non-vacuity of `C61_release_partial`: the last pointer to the field at 0 -/
example : ∃ s, run (fun _ => 0) State.init (ops3 ++ [.release 0]) = .ok s ∧ s.handles = [1] ∧
    s.reg.map (·.1) = [1] := view_eq (x := ([1], [1])) (by decide +kernel)

/-- `C61_small_enclosures` for a field with two real roots -/
example : ∃ δ : ℝ, 0 < δ ∧ ∀ (k : NamedField) (E : Env k.field.nf) (nd : Bool) (n : ℕ),
    k.field.Near K2 √2 δ → 2 ≤ k.field.prec → E.refine = refineEmbedding fpArb nd n →
      ClearlyAt k E √2 := C61_small_enclosures K2_ok (by decide) K2_root fpArb_tight

/-! ### Where the code fails -/

/-- an arithmetic of the field of `2^141 (x-1)² - 1`, with the coefficients of the generator at hand -/
noncomputable def ops6 : NfOps K6 := { nfOps K6_ok with
  setPoly := fun d n q => if n = [0, 1] ∧ q = 1 then ⟨[0, 1], 1, 0⟩ else (nfOps K6_ok).setPoly d n q
  setPoly_wf := by
    intro d n q hq
    split_ifs
    · exact ⟨by decide, by decide, by decide, by decide, by decide⟩
    · exact (nfOps K6_ok).setPoly_wf hq
  setPoly_val := by
    intro d n q α hq hα
    split_ifs with h
    · rw [h.1, h.2]; rfl
    · exact (nfOps K6_ok).setPoly_val hq hα
  setQ := fun d q => if q = 1 then ⟨[1, 0], 1, 0⟩ else (nfOps K6_ok).setQ d q
  setQ_wf := by
    intro d q
    split_ifs
    · exact ⟨by decide, by decide, by decide, by decide, by decide⟩
    · exact (nfOps K6_ok).setQ_wf
  setQ_val := by
    intro d q α hα
    split_ifs with h
    · rw [h]; simp [NfElem.val, realValue, toPoly]
    · exact (nfOps K6_ok).setQ_val hα }

/-- the field of `2^141 (x-1)² - 1` with the modelled refinement -/
noncomputable def env6 : Env K6 := ⟨fpArb, ops6, refineEmbedding fpArb false 200, 200⟩

/-- a field with a given enclosure -/
def k6 (e : Ball) : NamedField := ⟨⟨K6, e, 64, false⟩, 1, ['a']⟩

/-- what the program sees of the field it got last -/
def view2 : Res State → Option (List ℕ × Option Ball)
  | .ok s => some (s.handles, (s.objs 0).map (·.mem.fld.emb))
  | _ => none

/-- the double by which a field is hashed -/
def hashOf (k : NamedField) (E : Env k.field.nf) : Option Dbl :=
  match (create k E).bind Class.hash with
  | .ok p => some p.1
  | _ => none

/-- C61 is FALSE of the code.  `2^141 (x-1)² - 1` is irreducible and has the roots `α`, `β` near 1.  The
constructor accepts an enclosure for either of them (`C19_counterexample`).  They have the
same hash.  A program that makes the field at `α` and then the field at `β` gets the field at `α` twice:
the field it has for `β` does not contain `β`. -/
theorem C61_counterexample : ∃ e e' : Ball, ∃ α β : ℝ,
    renfInit fpArb scale2Simple false 100 200 K6.pol (.fin (1 + 1 / 2 ^ 65) (1 / 2 ^ 65)) 64 =
      .ok (k6 e).field ∧
    renfInit fpArb scale2Simple false 100 200 K6.pol (.fin (1 - 1 / 2 ^ 66) (1 / 2 ^ 66)) 64 =
      .ok (k6 e').field ∧
    K6.Ok ∧ K6.IsRoot α ∧ K6.IsRoot β ∧ α ∈ e ∧ β ∈ e' ∧ α ≠ β ∧
    hashOf (k6 e) env6 = some (.fin 1) ∧ hashOf (k6 e') env6 = some (.fin 1) ∧
    ∃ s c, run (fun _ => 0) State.init [.make (k6 e) env6, .make (k6 e') env6] = .ok s ∧
      s.handles = [0, 0] ∧ s.objs 0 = some c ∧ β ∉ c.mem.fld.emb := by
  have h1 : (1 : ℝ) < √2 := by rw [Real.lt_sqrt (by norm_num)]; norm_num
  have h2 : √2 < (2 : ℝ) := by rw [Real.sqrt_lt' (by norm_num)]; norm_num
  have h3 : 0 < √2 / 2 ^ 71 := by positivity
  have h4 : √2 / 2 ^ 71 < 1 / 2 ^ 70 := by
    rw [div_lt_div_iff₀ (by positivity) (by positivity)]
    calc √2 * 2 ^ 70 < 2 * 2 ^ 70 := mul_lt_mul_of_pos_right h2 (by positivity)
      _ = _ := by norm_num
  have hv : view2 (run (fun _ => 0) State.init [.make (k6 (.fin (1 + 1 / 2 ^ 65) (1 / 2 ^ 65))) env6,
      .make (k6 (.fin (1 - 1 / 2 ^ 66) (1 / 2 ^ 66))) env6]) =
      some ([0, 0], some (.fin (1 + 1 / 2 ^ 65) (1 / 2 ^ 65))) := by decide +kernel
  refine ⟨.fin (1 + 1 / 2 ^ 65) (1 / 2 ^ 65), .fin (1 - 1 / 2 ^ 66) (1 / 2 ^ 66), 1 + 1 * (√2 / 2 ^ 71),
    1 + -1 * (√2 / 2 ^ 71), by decide +kernel, by decide +kernel, K6_ok, K6_roots 1 (.inl rfl),
    K6_roots (-1) (.inr rfl), ?_, ?_, ?_, by decide +kernel, by decide +kernel, ?_⟩
  · rw [Ball.mem_fin]; push_cast; norm_num at h4 h3 ⊢; constructor <;> linarith
  · rw [Ball.mem_fin]; push_cast; norm_num at h4 h3 ⊢; constructor <;> linarith
  · intro h; linarith
  · cases hr : run (fun _ => 0) State.init [.make (k6 (.fin (1 + 1 / 2 ^ 65) (1 / 2 ^ 65))) env6,
      .make (k6 (.fin (1 - 1 / 2 ^ 66) (1 / 2 ^ 66))) env6] with
    | ok s =>
      rw [hr] at hv
      simp only [view2, Option.some.injEq, Prod.mk.injEq] at hv
      cases hc : s.objs 0 with
      | none => rw [hc] at hv; simp at hv
      | some c =>
        rw [hc] at hv
        simp only [Option.map_some, Option.some.injEq] at hv
        refine ⟨s, c, rfl, hv.1, hc, ?_⟩
        rw [hv.2, Ball.mem_fin]
        push_cast
        intro h
        have := h.1
        norm_num at h4 h3 this
        linarith
    | _ => rw [hr] at hv; simp [view2] at hv

/-- C61 is FALSE of the code for the polynomial `x`, the rational numbers with the generator 0: the
constructor divides by its constant coefficient (`renf_elem_gen`), whatever the enclosure is. -/
theorem C61_zero_root_counterexample (e : Ball) (p : ℤ) (im : Bool) (den : ℤ) (name : List Char)
    (E : Env ⟨[0, 1]⟩) : (⟨[0, 1]⟩ : Nf).IsRoot 0 ∧
      create ⟨⟨⟨[0, 1]⟩, e, p, im⟩, den, name⟩ E = .ub := by
  refine ⟨by simp [Nf.IsRoot, toPoly], rfl⟩

end EAntic.Fields
