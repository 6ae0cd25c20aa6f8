import Verif.Spec.SameText
import Verif.Lemmas.Same
import Verif.Props.TextProg

/-!
# Lemmas: texts, hashes and what is read are determined by the values
-/

namespace EAntic.Cxx

variable {L L' : Lib} {α : ℕ → ℝ} {I : ℕ → Field → Prop} {T : TextLib} {γ : Type} {hf : Dbl → γ}

theorem StringOf.unique (hE : ∀ i, FieldInv (L.E i) (α i) (I i)) {i : ℕ} {a : ℝ} {alg d : Bool}
    {s s' : List Char} (h : StringOf T α i a alg d false s) (h' : StringOf T α i a alg d false s') :
    s = s' := by
  obtain ⟨t, u, h1, h2, rfl⟩ := h
  obtain ⟨t', u', h1', h2', rfl⟩ := h'
  have ht : t = t' := by
    cases alg with
    | true => exact AlgText.unique hE (by simpa using h1) (by simpa using h1')
    | false => simp at h1 h1'; rw [h1, h1']
  have hu : u = u' := by
    cases d with
    | true =>
      simp only [if_true] at h2 h2'
      obtain ⟨D, h2, rfl⟩ := h2
      obtain ⟨D', h2', rfl⟩ := h2'
      rw [castsTo_det h2 h2']
    | false => simp at h2 h2'; rw [h2, h2']
  rw [ht, hu]

theorem IsPrinted.unique (hE : ∀ i, FieldInv (L.E i) (α i) (I i)) {i : ℕ} {a : ℝ} {s s' : List Char}
    (h : IsPrinted T α i a s) (h' : IsPrinted T α i a s') : s = s' := by
  rcases h with ⟨h1, h⟩ | ⟨h1, h⟩ <;> rcases h' with ⟨h1', h'⟩ | ⟨h1', h'⟩
  · exact h.unique hE h'
  · exact absurd h1 h1'
  · exact absurd h1' h1
  · exact h.unique hE h'

theorem ws_unique {l b r : List Char} (h : l = b ++ r) (hb : ∀ c ∈ b, isSpace c = true)
    (hr : ∀ c, r.head? = some c → isSpace c = false) : r = l.dropWhile isSpace := by
  subst h
  rw [List.dropWhile_append_of_pos hb]
  cases r with
  | nil => rfl
  | cons c r => rw [List.dropWhile_cons_of_neg (by simpa using hr c rfl)]

theorem stepT_det (hE : ∀ i, FieldInv (L.E i) (α i) (I i)) (hT : T.Ok) {S S' S'' : ℕ → Slot}
    {io io' io'' : Streams} {c : TCmd} {a b : TVal γ} (he : ExactT L S c)
    (h : StepT L T hf α S io c a S' io') (h' : StepT L T hf α S io c b S'' io'') :
    a = b ∧ S' = S'' ∧ io' = io'' := by
  have one : ∀ {x i j : ℕ} {u v : ℝ}, S x = .elem i u → S x = .elem j v → j = i ∧ v = u := by
    intro x i j u v h1 h2
    have := h2.symm.trans h1
    injection this with e1 e2
    exact ⟨e1, e2⟩
  cases c with
  | call c =>
    obtain ⟨rfl, v, rfl, h1⟩ := h
    obtain ⟨rfl, v', rfl, h1'⟩ := h'
    obtain ⟨rfl, rfl⟩ := step_det (fun i => (hE i).ok) (fun i => (hE i).root) he h1 h1'
    exact ⟨rfl, rfl, rfl⟩
  | toString x alg d arb =>
    obtain rfl : arb = false := he
    obtain ⟨rfl, rfl, i, u, s, h1, rfl, h2⟩ := h
    obtain ⟨rfl, rfl, i', u', s', h1', rfl, h2'⟩ := h'
    obtain ⟨rfl, rfl⟩ := one h1 h1'
    exact ⟨by rw [h2.unique hE h2'], rfl, rfl⟩
  | print x =>
    obtain ⟨rfl, rfl, i, u, s, h1, h2, rfl⟩ := h
    obtain ⟨rfl, rfl, i', u', s', h1', h2', rfl⟩ := h'
    obtain ⟨rfl, rfl⟩ := one h1 h1'
    exact ⟨rfl, rfl, by rw [h2.unique hE h2']⟩
  | write s =>
    obtain ⟨rfl, rfl, rfl⟩ := h
    obtain ⟨rfl, rfl, rfl⟩ := h'
    exact ⟨rfl, rfl, rfl⟩
  | hash x =>
    obtain ⟨rfl, rfl, i, u, d, h1, h2, rfl⟩ := h
    obtain ⟨rfl, rfl, i', u', d', h1', h2', rfl⟩ := h'
    obtain ⟨rfl, rfl⟩ := one h1 h1'
    exact ⟨by rw [castsTo_det h2 h2'], rfl, rfl⟩
  | construct x k s =>
    obtain ⟨rfl, rfl, u, h1, rfl⟩ := h
    obtain ⟨rfl, rfl, u', h1', rfl⟩ := h'
    exact ⟨rfl, by rw [h1.unique hT h1'], rfl⟩
  | setField k =>
    obtain ⟨rfl, rfl, rfl⟩ := h
    obtain ⟨rfl, rfl, rfl⟩ := h'
    exact ⟨rfl, rfl, rfl⟩
  | ws =>
    obtain ⟨rfl, rfl, u, r, h1, h2, h3, rfl⟩ := h
    obtain ⟨rfl, rfl, u', r', h1', h2', h3', rfl⟩ := h'
    exact ⟨rfl, rfl, by rw [ws_unique h1 h2 h3, ws_unique h1' h2' h3']⟩
  | read x =>
    obtain ⟨rfl, k, s, st, u, h1, h2, h3, rfl, rfl⟩ := h
    obtain ⟨rfl, k', s', st', u', h1', h2', h3', rfl, rfl⟩ := h'
    obtain rfl : k = k' := by simpa using h1.symm.trans h1'
    obtain ⟨rfl, rfl⟩ := C68_token_unique h2 h2'
    exact ⟨rfl, by rw [h3.unique hT h3'], rfl⟩

/-- a parenthesis that is not closed is no number -/
theorem Unclosed.not_token {st st' : Stream} {s : List Char} (h : Unclosed st) : ¬ Token st s st' := by
  intro ht
  have e := readToken_of_token ht
  have e' := readToken_unclosed h
  rw [e] at e'
  simp at e'

theorem not_throws_stepT {S S' : ℕ → Slot} {io io' : Streams} {c : TCmd} {a : TVal γ} {e : String}
    (h : StepT L T hf α S io c a S' io') : ¬ ThrowsT L T α S io c e := by
  intro h'
  cases c with
  | call c =>
    obtain ⟨-, v, -, h⟩ := h
    exact not_throws_step h h'
  | construct x k s =>
    obtain ⟨-, -, u, h1, -⟩ := h
    exact h'.2 u h1
  | read x =>
    obtain ⟨-, k, s, st, u, h1, h2, h3, -⟩ := h
    rcases h' with ⟨-, h'⟩ | ⟨-, h'⟩ | ⟨-, k', s', st', h1', h2', h3'⟩
    · exact absurd (h2.1.symm.trans h') (by decide)
    · exact h'.not_token h2
    · obtain rfl : k = k' := by simpa using h1.symm.trans h1'
      obtain ⟨rfl, rfl⟩ := C68_token_unique h2 h2'
      exact h3' u h3
  | _ => exact h'

theorem stepsT_det (hE : ∀ i, FieldInv (L.E i) (α i) (I i)) (hT : T.Ok) {cs : List TCmd} :
    ∀ {S S' S'' : ℕ → Slot} {io io' io'' : Streams} {as bs : List (TVal γ)},
      AllExactT L T hf α S io cs → StepsT L T hf α S io cs as S' io' →
      StepsT L T hf α S io cs bs S'' io'' → as = bs ∧ S' = S'' ∧ io' = io'' := by
  induction cs with
  | nil =>
    intro S S' S'' io io' io'' as bs _ h h'
    cases as with
    | cons _ _ => exact h.elim
    | nil =>
      cases bs with
      | cons _ _ => exact h'.elim
      | nil => exact ⟨rfl, h.1.trans h'.1.symm, h.2.trans h'.2.symm⟩
  | cons c cs ih =>
    intro S S' S'' io io' io'' as bs he h h'
    cases as with
    | nil => exact h.elim
    | cons a as =>
      cases bs with
      | nil => exact h'.elim
      | cons b bs =>
        obtain ⟨S₁, io₁, h1, h2⟩ := h
        obtain ⟨S₂, io₂, h1', h2'⟩ := h'
        obtain ⟨rfl, rfl, rfl⟩ := stepT_det hE hT he.1 h1 h1'
        obtain ⟨rfl, h3⟩ := ih (he.2 _ _ _ h1) h2 h2'
        exact ⟨rfl, h3⟩

theorem not_throwsInT_stepsT (hE : ∀ i, FieldInv (L.E i) (α i) (I i)) (hT : T.Ok) {e : String}
    {cs : List TCmd} : ∀ {S S' : ℕ → Slot} {io io' : Streams} {as : List (TVal γ)},
      AllExactT L T hf α S io cs → StepsT L T hf α S io cs as S' io' →
      ¬ ThrowsInT L T hf α S io cs e := by
  induction cs with
  | nil => exact fun _ _ h => h
  | cons c cs ih =>
    intro S S' io io' as he h h'
    cases as with
    | nil => exact h.elim
    | cons a as =>
      obtain ⟨S₁, io₁, h1, h2⟩ := h
      rcases h' with h' | ⟨b, S₂, io₂, h1', h2'⟩
      · exact not_throws_stepT h1 h'
      · obtain ⟨rfl, rfl, rfl⟩ := stepT_det hE hT he.1 h1 h1'
        exact ih (he.2 _ _ _ h1) h2 h2'

/-! ### The semantics only depends on the fields -/

theorem SameFields.stepT (h : SameFields L L') (S : ℕ → Slot) (io : Streams) (c : TCmd) (a : TVal γ)
    (S' : ℕ → Slot) (io' : Streams) :
    StepT L T hf α S io c a S' io' ↔ StepT L' T hf α S io c a S' io' := by
  cases c <;> simp only [StepT, h.step]

theorem SameFields.throwsT (h : SameFields L L') (S : ℕ → Slot) (io : Streams) (c : TCmd) (e : String) :
    ThrowsT L T α S io c e ↔ ThrowsT L' T α S io c e := by
  cases c <;> simp only [ThrowsT, h.throws]

theorem SameFields.validT (h : SameFields L L') {S : ℕ → Slot} {io : Streams} {c : TCmd}
    (he : ExactT L S c) : ValidT L α S io c ↔ ValidT L' α S io c := by
  cases c with
  | toString x alg d arb =>
    obtain rfl : arb = false := he
    simp [ValidT, h.fields]
  | _ => simp only [ValidT, h.valid, h.fields]

theorem SameFields.stepsT (h : SameFields L L') {cs : List TCmd} :
    ∀ (S : ℕ → Slot) (io : Streams) (as : List (TVal γ)) (S' : ℕ → Slot) (io' : Streams),
    StepsT L T hf α S io cs as S' io' ↔ StepsT L' T hf α S io cs as S' io' := by
  induction cs with
  | nil => intro S io as S' io'; cases as <;> exact Iff.rfl
  | cons c cs ih =>
    intro S io as S' io'
    cases as with
    | nil => exact Iff.rfl
    | cons a as =>
      exact exists_congr fun S₁ => exists_congr fun io₁ =>
        and_congr (h.stepT S io c a S₁ io₁) (ih S₁ io₁ as S' io')

theorem SameFields.throwsInT (h : SameFields L L') {e : String} {cs : List TCmd} :
    ∀ (S : ℕ → Slot) (io : Streams),
    ThrowsInT L T hf α S io cs e ↔ ThrowsInT L' T hf α S io cs e := by
  induction cs with
  | nil => exact fun _ _ => Iff.rfl
  | cons c cs ih =>
    intro S io
    exact or_congr (h.throwsT S io c e) (exists_congr fun a => exists_congr fun S₁ =>
      exists_congr fun io₁ => and_congr (h.stepT S io c a S₁ io₁) (ih S₁ io₁))

theorem SameFields.allowedT (h : SameFields L L') {cs : List TCmd} :
    ∀ {S : ℕ → Slot} {io : Streams}, AllExactT L T hf α S io cs →
    AllowedT L T hf α S io cs → AllowedT L' T hf α S io cs := by
  induction cs with
  | nil => exact fun _ _ => trivial
  | cons c cs ih =>
    intro S io he hv
    refine ⟨(h.validT he.1).1 hv.1, fun a S' io' hs => ?_⟩
    have hs := (h.stepT S io c a S' io').2 hs
    exact ih (he.2 _ _ _ hs) (hv.2 _ _ _ hs)

end EAntic.Cxx
