import Verif.Spec.Store
import Verif.Lemmas.NfPred
import Verif.Lemmas.Ball

/-! # Hoare rules for the memory monad -/

namespace EAntic

namespace M

theorem pure_run {α : Type} (a : α) (s : Mem) : (pure a : M α) s = .ok (a, s) := rfl

theorem bind_ok {α β : Type} {m : M α} {f : α → M β} {s s' : Mem} {b : β} :
    (m >>= f) s = .ok (b, s') ↔ ∃ a s₁, m s = .ok (a, s₁) ∧ f a s₁ = .ok (b, s') := by
  show (match m s with
    | .ok (a, s') => f a s'
    | .running => .running
    | .abort => .abort
    | .throw w => .throw w
    | .ub => .ub) = _ ↔ _
  cases h : m s with
  | ok p =>
    obtain ⟨a, s₁⟩ := p
    simp
  | _ => simp

end M

/-- `Pre ⊢ m ⊢ Post`: if `m` returns from a memory satisfying `Pre`, then `Post` holds. -/
def Hoare {α : Type} (Pre : Mem → Prop) (m : M α) (Post : α → Mem → Prop) : Prop :=
  ∀ s a s', Pre s → m s = .ok (a, s') → Post a s'

namespace Hoare

variable {α β σ : Type} {Pre : Mem → Prop} {Post : α → Mem → Prop}

theorem bind {m : M α} {f : α → M β} {R : β → Mem → Prop} (Q : α → Mem → Prop)
    (h1 : Hoare Pre m Q) (h2 : ∀ a, Hoare (Q a) (f a) R) : Hoare Pre (m >>= f) R := by
  intro s b s' hs h
  obtain ⟨a, s₁, e1, e2⟩ := M.bind_ok.1 h
  exact h2 a s₁ b s' (h1 s a s₁ hs e1) e2

theorem pure' {a : α} (h : ∀ s, Pre s → Post a s) : Hoare Pre (pure a) Post := by
  intro s b s' hs e
  rw [M.pure_run] at e
  injection e with e; injection e with e1 e2
  subst e1 e2
  exact h s hs

theorem ub : Hoare Pre (M.ub : M α) Post := by
  intro s b s' _ e; simp [M.ub] at e

theorem abort : Hoare Pre (M.abort : M α) Post := by
  intro s b s' _ e; simp [M.abort] at e

theorem read {r : Reg} {f : Elem → M α} (h : ∀ e, Hoare (fun s => Pre s ∧ s.heap r = e) (f e) Post) :
    Hoare Pre (M.read r >>= f) Post := by
  intro s b s' hs e
  obtain ⟨a, s₁, e1, e2⟩ := M.bind_ok.1 e
  simp only [M.read, Res.ok.injEq, Prod.mk.injEq] at e1
  obtain ⟨rfl, rfl⟩ := e1
  exact h _ _ _ _ ⟨hs, rfl⟩ e2

theorem field {f : Field → M α} (h : ∀ e, Hoare (fun s => Pre s ∧ s.fld = e) (f e) Post) :
    Hoare Pre (M.field >>= f) Post := by
  intro s b s' hs e
  obtain ⟨a, s₁, e1, e2⟩ := M.bind_ok.1 e
  simp only [M.field, Res.ok.injEq, Prod.mk.injEq] at e1
  obtain ⟨rfl, rfl⟩ := e1
  exact h _ _ _ _ ⟨hs, rfl⟩ e2

theorem write {r : Reg} {e : Elem} {Q : Unit → Mem → Prop} (h : ∀ s, Pre s → Q () (s.write r e)) :
    Hoare Pre (M.write r e) Q := by
  intro s b s' hs e'
  simp only [M.write, Res.ok.injEq, Prod.mk.injEq] at e'
  obtain ⟨-, rfl⟩ := e'
  exact h s hs

theorem setField {f : Field} {Q : Unit → Mem → Prop} (h : ∀ s, Pre s → Q () { s with fld := f }) :
    Hoare Pre (M.setField f) Q := by
  intro s b s' hs e'
  simp only [M.setField, Res.ok.injEq, Prod.mk.injEq] at e'
  obtain ⟨-, rfl⟩ := e'
  exact h s hs

theorem lift {x : Res α} (h : ∀ s a, Pre s → x = .ok a → Post a s) : Hoare Pre (M.lift x) Post := by
  intro s b s' hs e'
  unfold M.lift at e'
  cases hx : x with
  | ok a =>
    rw [hx] at e'
    simp only [Res.ok.injEq, Prod.mk.injEq] at e'
    obtain ⟨rfl, rfl⟩ := e'
    exact h s _ hs hx
  | _ => rw [hx] at e'; simp at e'

theorem conseq {Pre' : Mem → Prop} {Post' : α → Mem → Prop} {m : M α} (h : Hoare Pre' m Post')
    (h1 : ∀ s, Pre s → Pre' s) (h2 : ∀ a s, Post' a s → Post a s) : Hoare Pre m Post :=
  fun s a s' hs e => h2 a s' (h s a s' (h1 s hs) e)

theorem ite {c : Prop} [Decidable c] {m m' : M α} (h1 : c → Hoare Pre m Post)
    (h2 : ¬ c → Hoare Pre m' Post) : Hoare Pre (if c then m else m') Post := by
  split_ifs with h
  · exact h1 h
  · exact h2 h

theorem imp {m : M α} {p : Prop} (h : p → Hoare Pre m Post) (hp : ∀ s, Pre s → p) :
    Hoare Pre m Post := fun s a s' hs e => h (hp s hs) s a s' hs e

/-- the loop rule: an invariant on the loop variable -/
theorem loop {step : σ → M (σ ⊕ α)} {J : σ → Mem → Prop}
    (h : ∀ x, Hoare (J x) (step x) (fun r s => Sum.elim (fun x' => J x' s) (fun a => Post a s) r)) :
    ∀ (n : ℕ) (x : σ), Hoare (J x) (M.loop step n x) Post := by
  intro n
  induction n with
  | zero => intro x s a s' _ e; simp [M.loop] at e
  | succ n ih =>
    intro x
    unfold M.loop
    refine bind _ (h x) ?_
    rintro (x' | a)
    · exact ih x'
    · exact pure' (fun s hs => hs)

end Hoare

section Rep

variable {K : Nf} {E : Env K} {α : ℝ} {I : Field → Prop} {v : Reg → ℝ}

theorem upd_same (v : Reg → ℝ) (r : Reg) (x : ℝ) : upd v r x r = x := by simp [upd]

theorem upd_ne (v : Reg → ℝ) {r r' : Reg} (x : ℝ) (h : r' ≠ r) : upd v r x r' = v r' := by
  simp [upd, h]

theorem upd_self (v : Reg → ℝ) (r : Reg) : upd v r (v r) = v := by
  funext r'; unfold upd; split_ifs with h
  · rw [h]
  · rfl

theorem upd_upd (v : Reg → ℝ) (r : Reg) (x y : ℝ) : upd (upd v r x) r y = upd v r y := by
  funext r'; unfold upd; split_ifs <;> rfl

theorem write_heap (s : Mem) (r r' : Reg) (e : Elem) :
    (s.write r e).heap r' = if r' = r then e else s.heap r' := rfl

theorem write_fld (s : Mem) (r : Reg) (e : Elem) : (s.write r e).fld = s.fld := rfl

theorem Rep.write {s : Mem} (h : Rep K α I v s) {r : Reg} {e : Elem} {x : ℝ} (h1 : e.elem.Wf K)
    (h2 : e.elem.val α = x) (h3 : x ∈ e.emb) : Rep K α I (upd v r x) (s.write r e) where
  inv := h.inv
  wf r' := by rw [write_heap]; split_ifs; exacts [h1, h.wf r']
  val r' := by rw [write_heap]; unfold upd; split_ifs; exacts [h2, h.val r']
  enc r' := by rw [write_heap]; unfold upd; split_ifs; exacts [h3, h.enc r']

/-- writing an element with the value that was there -/
theorem Rep.rewrite {s : Mem} (h : Rep K α I v s) {r : Reg} {e : Elem} (h1 : e.elem.Wf K)
    (h2 : e.elem.val α = v r) (h3 : v r ∈ e.emb) : Rep K α I v (s.write r e) := by
  have := h.write (r := r) h1 h2 h3
  rwa [upd_self] at this

theorem Rep.setField {s : Mem} (h : Rep K α I v s) {f : Field} (hf : I f) :
    Rep K α I v { s with fld := f } := ⟨hf, h.wf, h.val, h.enc⟩

theorem init_wf (hK : K.Ok) : (NfElem.init K).Wf K := by
  unfold NfElem.init
  have hlen := hK.two_le
  split_ifs with h1 h2
  · have hq : K.isQuadratic = false := by simp [Nf.isLinear, Nf.isQuadratic] at *; omega
    exact ⟨by simp, by simp [NfElem.content], by simp, by simp [hq], by simp [h1]⟩
  · exact ⟨by simp, by simp [NfElem.content], by simp [h1], by simp, by simp [h2]⟩
  · exact ⟨by simp, by simp [NfElem.content], by simp [h1], by simp [h2], by simp⟩

theorem init_val : (NfElem.init K).val α = 0 := by
  unfold NfElem.init NfElem.val realValue
  split_ifs <;> simp [toPoly]

/-- local variables -/
theorem Hoare.withTmp {β : Type} {Pre : Mem → Prop} (hE : FieldInv E α I) {r : Reg} {body : M β}
    {Q : β → (Reg → ℝ) → Prop}
    (hPre : ∀ s, Pre s → Rep K α I v s)
    (h : Hoare (fun s => Rep K α I (upd v r 0) s ∧ s.heap r = ⟨NfElem.init K, Ball.exact 0⟩) body
      (fun b s => ∃ w, Rep K α I w s ∧ Q b (upd w r (v r)))) :
    Hoare Pre (M.withTmp r body) (fun b s => ∃ w, Rep K α I w s ∧ Q b w) := by
  unfold M.withTmp
  refine Hoare.read fun old => Hoare.field fun f => ?_
  refine Hoare.imp (p := f.nf = K ∧ old.elem.Wf K ∧ old.elem.val α = v r ∧ v r ∈ old.emb) ?_ ?_
  swap
  · rintro s ⟨⟨h0, rfl⟩, rfl⟩
    have h0 := hPre s h0
    exact ⟨hE.nf h0.inv, h0.wf r, h0.val r, h0.enc r⟩
  rintro ⟨hf, o1, o2, o3⟩
  rw [hf]
  refine Hoare.bind (fun _ s => Rep K α I (upd v r 0) s ∧ s.heap r = ⟨NfElem.init K, Ball.exact 0⟩)
    (Hoare.write ?_) fun _ => ?_
  · rintro s ⟨⟨h0, _⟩, _⟩
    have h0 := hPre s h0
    exact ⟨h0.write (init_wf hE.ok) init_val (Ball.mem_exact.2 (by simp)), by simp [write_heap]⟩
  refine Hoare.bind _ h fun b => ?_
  refine Hoare.bind (fun _ s => ∃ w, Rep K α I w s ∧ Q b w) (Hoare.write ?_)
    fun _ => Hoare.pure' fun s hs => hs
  rintro s ⟨w, hw, hq⟩
  exact ⟨_, hw.write o1 o2 o3, hq⟩

end Rep

end EAntic
