import Verif.Lemmas.CxxEnds
import Verif.Lemmas.TextCxx

/-! # Printing ends -/

namespace EAntic

section

variable {K : Nf} {A : ArbOps} {N : NfOps K} {R R' : Field → ℤ → Res Field} {k : ℕ} {T : TextLib}
  {nd : Bool}

theorem getStrPretty_agree (hR : ∀ f p, (R f p).reportOverflow = (R' f p).reportOverflow) (a : Reg)
    (var : List Char) (alg d arb : Bool) :
    Agree ((⟨A, N, R, k⟩ : Env K).getStrPretty T a var alg d arb nd)
      ((⟨A, N, R', k⟩ : Env K).getStrPretty T a var alg d arb nd) := by
  unfold Env.getStrPretty
  cases alg <;> cases d <;> simp only [Bool.false_eq_true, if_true, if_false]
  · exact Agree.refl _
  · exact (Agree.refl _).bind fun _ => (getD_agree hR _ _).bind fun _ => Agree.refl _
  · exact Agree.refl _
  · exact (Agree.refl _).bind fun _ => (Agree.refl _).bind fun _ => (getD_agree hR _ _).bind
      fun _ => Agree.refl _

theorem getStrPretty_nt {E : Env K} (hR : ∀ f p w, E.refine f p ≠ .throw w) (a : Reg)
    (var : List Char) (alg d arb : Bool) : NT (E.getStrPretty T a var alg d arb nd) := by
  unfold Env.getStrPretty
  have tail : ∀ t : List Char, NT (if d = true then do
        let v ← E.getD a .near nd
        let u ← pure (match v with
          | Dbl.inf => ['i', 'n', 'f']
          | Dbl.ninf => ['-', 'i', 'n', 'f']
          | Dbl.fin q => T.dbl q)
        pure (t ++ u)
      else if arb = true then do
        let x ← M.read a
        let u ← pure (T.ball x.emb)
        pure (t ++ u)
      else do
        let u ← pure []
        pure (t ++ u)) := fun t =>
    NT.ite ((getD_nt hR _ _).bind fun _ => (NT.pure _).bind fun _ => NT.pure _)
      (NT.ite ((NT.read _).bind fun _ => (NT.pure _).bind fun _ => NT.pure _)
        ((NT.pure _).bind fun _ => NT.pure _))
  exact NT.ite ((NT.read _).bind fun _ => (NT.pure _).bind fun _ => tail _) ((NT.pure _).bind fun _ => tail _)

end

namespace Cxx

variable {K : ℕ → Nf} {A : ℕ → ArbOps} {N : ∀ i, NfOps (K i)}
  {R R' : ℕ → ℕ → Field → ℤ → Res Field} {strict nd : Bool} {bits : Widths}
  {α : ℕ → ℝ} {p : ℕ → ℤ} {I : ℕ → Field → Prop} {Λ : Set ℕ} {S : Reg → Slot} {V : Prop}
  {X : String → World → Prop} {w : World} {T : TextLib}

@[inherit_doc libs] local notation "Lb" => libs K A N R strict nd bits
@[inherit_doc libs] local notation "Lr" => libs K A N R' strict nd bits

variable (Y : Setting K A N R R' α p I) (hT : T.Ok)
include Y hT

theorem toStringW_ends {x : Reg} {i : ℕ} {a : ℝ} {alg d arb : Bool}
    (hn : (d && arb) = true → nd = true) (hd : alg = true → (K i).degree < 2 ^ 63)
    (h : Rep (Lr 0) α I Λ S w) (hx : S x = .elem i a)
    (hs : d = true → ∀ r : ℝ, |r| = |a| → Sizeable (K i) (α i) (p i) r ∧
      Sizeable (K i) (α i) (p i) (r - (uintMax : ℚ)) ∧ Sizeable (K i) (α i) (p i) (r - (dblMax : ℚ))) :
    EndsW V X (fun k => toString (Lb k) T x alg d arb) (fun k => toString (Lr k) T x alg d arb) w
      fun s w' => StringOf T α i a alg d arb s ∧ Rep (Lr 0) α I Λ S w' := by
  have good : ∀ k, Good True X (fun s w' => StringOf T α i a alg d arb s ∧ Rep (Lr 0) α I Λ S w')
      (toString (Lr k) T x alg d arb w) := fun k =>
    (toString_good (L := Lr k) (Y.inv k) hT (fun _ => trivial) hn hd (h.lib (L' := Lr k) rfl) hx).mono
      fun _ _ h => ⟨h.1, h.2.lib (L' := Lr 0) rfl⟩
  refine ((?_ : EndsW V (fun _ _ => True) (fun k => toString (Lb k) T x alg d arb)
    (fun k => toString (Lr k) T x alg d arb) w fun _ _ => True).and_good good).mono fun _ _ h => h.2
  unfold toString
  refine EndsW.bind (Q := fun _ w' => w' = w) (EndsW.det (fun _ => rfl) (fun _ => rfl) ?_) ?_
  · show Good False _ _ (W.assert _ _ w)
    have : W.assert (Lr 0) (!(d && arb)) w = .ok ((), w) := by
      unfold W.assert
      rw [if_pos]
      cases hda : d && arb <;> simp
      exact hn hda
    rw [this]
    exact rfl
  rintro _ w₁ rfl
  refine EndsW.bind (Q := fun _ _ => True) (call1_ends Y h hx ?_ (fun k c => getStrPretty_agree (Y.report i k) _ _ _ _ _)
    fun k c => getStrPretty_nt (Y.nothrow i k) _ _ _ _ _) fun s w₂ _ => ?_
  · intro v c s hv hr
    unfold Env.getStrPretty
    have tail : ∀ t : List Char, Ends V (fun k => if d = true then do
          let v ← ((Lr k).E i).getD (.user c) .near (Lr k).ndebug
          let u ← pure (match v with
            | Dbl.inf => ['i', 'n', 'f']
            | Dbl.ninf => ['-', 'i', 'n', 'f']
            | Dbl.fin q => T.dbl q)
          pure (t ++ u)
        else if arb = true then do
          let x ← M.read (.user c)
          let u ← pure (T.ball x.emb)
          pure (t ++ u)
        else do
          let u ← pure []
          pure (t ++ u)) s fun _ _ => True := fun t =>
      Ends.ite (fun h => ((Y.ends i).getD c _ (by rw [hv]; exact hs h) hr).bind
          fun _ _ _ => Ends.pure' trivial)
        fun _ => Ends.ite (fun _ => Ends.read (Ends.pure' trivial)) fun _ => Ends.pure' trivial
    exact Ends.ite (fun _ => Ends.read (tail _)) fun _ => tail _
  · exact EndsW.ite (fun _ => EndsW.pure trivial) fun _ => EndsW.pure trivial

theorem printW_ends {x : Reg} {i : ℕ} {a : ℝ} (hd : (K i).degree < 2 ^ 63)
    (h : Rep (Lr 0) α I Λ S w) (hx : S x = .elem i a)
    (hs : ¬ IsInt a → ∀ r : ℝ, |r| = |a| → Sizeable (K i) (α i) (p i) r ∧
      Sizeable (K i) (α i) (p i) (r - (uintMax : ℚ)) ∧ Sizeable (K i) (α i) (p i) (r - (dblMax : ℚ))) :
    EndsW V X (fun k => print (Lb k) T x) (fun k => print (Lr k) T x) w
      fun s w' => IsPrinted T α i a s ∧ Rep (Lr 0) α I Λ S w' := by
  unfold print
  refine EndsW.bind (Q := fun b w' => (b = true ↔ IsInt a) ∧ Rep (Lr 0) α I Λ S w')
    (EndsW.det (fun _ => rfl) (fun _ => rfl) ((isInteger_good (L := Lr 0) (Y.inv 0) h hx).mono
      fun _ _ h => ⟨h.1, h.2.1⟩)) ?_
  rintro b w₁ ⟨hb, h₁⟩
  refine EndsW.ite (fun hi => ?_) fun hi => ?_
  · exact (toStringW_ends Y hT (by simp) (fun _ => hd) h₁ hx (by simp)).mono
      fun s w₂ h₂ => ⟨.inl ⟨hb.1 hi, h₂.1⟩, h₂.2⟩
  · exact (toStringW_ends Y hT (by simp) (fun _ => hd) h₁ hx (fun _ => hs fun h => hi (hb.2 h))).mono
      fun s w₂ h₂ => ⟨.inr ⟨fun h => hi (hb.2 h), h₂.1⟩, h₂.2⟩

end Cxx

end EAntic
