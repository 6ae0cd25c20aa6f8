import Verif.Spec.CatchEnds
import Verif.Lemmas.CxxEnds

/-! # Programs that catch exceptions end -/

namespace EAntic.Cxx

variable {β : Type} {V : Prop} {T T' : String → World → Prop} {w : World}

theorem EndsW.attempt {m m' : ℕ → W β} {Post : β → World → Prop} {R : Except String β → World → Prop}
    (h : EndsW V T m m' w Post) (h1 : ∀ a w', Post a w' → R (.ok a) w') (h2 : ∀ s w', T s w' → R (.error s) w') :
    EndsW V T' (fun k => attempt (m k)) (fun k => attempt (m' k)) w R := by
  obtain ⟨n, h⟩ := h
  refine ⟨n, ?_⟩
  unfold Cxx.attempt
  rcases h with ⟨z, w', hp, h⟩ | ⟨s, w', hp, h⟩ | h | ⟨hv, h⟩
  · exact .inl ⟨_, w', h1 z w' hp, fun k hk => by simp only [(h k hk).1, (h k hk).2, and_self]⟩
  · exact .inl ⟨_, w', h2 s w' hp, fun k hk => by simp only [(h k hk).1, (h k hk).2, and_self]⟩
  · exact .inr (.inr (.inl fun k hk => by simp only [(h k hk).1, (h k hk).2, and_self]))
  · exact .inr (.inr (.inr ⟨hv, fun k hk => by simp only [(h k hk).1, (h k hk).2, and_self]⟩))

variable {K : ℕ → Nf} {A : ℕ → ArbOps} {N : ∀ i, NfOps (K i)}
  {R R' : ℕ → ℕ → Field → ℤ → Res Field} {strict nd : Bool} {bits : Widths}
  {α : ℕ → ℝ} {p : ℕ → ℤ} {I : ℕ → Field → Prop} {S : ℕ → Slot} (X : Setting K A N R R' α p I)

@[inherit_doc libs] local notation "Lb" => libs K A N R strict nd bits
@[inherit_doc libs] local notation "Lr" => libs K A N R' strict nd bits

include X

theorem attempt_exec_ends (hb : bits.Ok) {c : Cmd} {Λ : Set ℕ} (hV : c.rounds → V)
    (h : RepresentsUpTo (Lr 0) α I Λ S w) (hv : Valid (Lr 0) α S c) (hs : SizeOk K α p S c) :
    EndsW V T (fun k => attempt (exec (Lb k) c)) (fun k => attempt (exec (Lr k) c)) w
      fun r w' => ∃ S' Λ', TryStep (Lr 0) α S c r S' ∧ RepresentsUpTo (Lr 0) α I Λ' S' w' ∧
        (Λ' = Λ ∨ c.converts ∧ (∃ s, r = .error s) ∧ ∃ d, Λ' = insert d Λ) := by
  refine (execW_ends X hb hV h hv hs).attempt ?_ ?_
  · rintro a w' ⟨S', hs, hr⟩
    exact ⟨S', Λ, hs, hr, .inl rfl⟩
  · rintro s w' ⟨ht, Λ', hl, hr⟩
    exact ⟨S, Λ', ⟨ht, rfl⟩, hr, hl.imp_right fun ⟨h1, h2⟩ => ⟨h1, ⟨s, rfl⟩, h2⟩⟩

theorem execCatchingW_ends (hb : bits.Ok) : ∀ {cs : List Cmd} {Λ : Set ℕ} {S : ℕ → Slot} {w : World},
    RepresentsUpTo (Lr 0) α I Λ S w → Λ.Finite → TryAllowedSized (Lr 0) α p S cs →
    EndsW (∃ c ∈ cs, c.rounds) (fun _ _ => False)
      (fun k => execCatching (Lb k) cs) (fun k => execCatching (Lr k) cs) w
      fun rs w' => ∃ S' Λ', TrySteps (Lr 0) α S cs rs S' ∧ RepresentsUpTo (Lr 0) α I Λ' S' w' ∧
        Λ'.Finite ∧ Λ'.ncard ≤ Λ.ncard + failedConversions cs rs
  | [], Λ, S, w, h, hf, _ => EndsW.pure ⟨S, Λ, rfl, h, hf, by simp [failedConversions]⟩
  | c :: cs, Λ, S, w, h, hf, hv => by
    classical
    unfold execCatching
    refine EndsW.bind (attempt_exec_ends X hb (V := ∃ c' ∈ c :: cs, c'.rounds) (fun h => ⟨c, by simp, h⟩) h
      hv.1 hv.2.1) ?_
    rintro r w₁ ⟨S₁, Λ₁, hs, h₁, hl₁⟩
    have hf₁ : Λ₁.Finite ∧ Λ₁.ncard ≤ Λ.ncard + failedConversions [c] [r] := by
      rcases hl₁ with rfl | ⟨hc, ⟨s, rfl⟩, d, rfl⟩
      · exact ⟨hf, by simp⟩
      · refine ⟨hf.insert d, ?_⟩
        simp only [failedConversions, if_pos hc]
        exact Set.ncard_insert_le d Λ
    refine EndsW.bind ((execCatchingW_ends hb h₁ hf₁.1 (hv.2.2 r S₁ hs)).weaken
      (fun ⟨c', hc, hu⟩ => ⟨c', by simp [hc], hu⟩) fun _ _ h => h) ?_
    rintro rs w₂ ⟨S₂, Λ₂, hs₂, h₂, hf₂, hl₂⟩
    refine EndsW.pure ⟨S₂, Λ₂, ⟨S₁, hs, hs₂⟩, h₂, hf₂, ?_⟩
    have := hf₁.2
    cases r <;> simp only [failedConversions] at this ⊢ <;> omega

end EAntic.Cxx
