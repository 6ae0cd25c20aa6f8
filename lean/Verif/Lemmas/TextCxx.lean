import Verif.Spec.TextIO
import Verif.Lemmas.TextIO
import Verif.Lemmas.CxxRun

/-! # Lemmas on `to_string`, the constructor from a string, `operator<<` and `operator>>` -/

namespace EAntic.Cxx
open Polynomial

/-! ## Streams -/

lemma readParen_close (r : List Char) : readParen (')' :: r) = .ok ([], r) := by
  rw [readParen]; simp

lemma readParen_cons {c d : Char} {r r' t q : List Char} (hc : c ≠ ')')
    (hd : (c :: r).dropWhile isSpace = d :: r') (h : readParen r' = .ok (t, q)) :
    readParen (c :: r) = .ok (d :: t, q) := by
  rw [readParen]
  simp only [if_neg hc]
  split
  · rename_i h'; rw [hd] at h'; cases h'
  · rename_i d' r'' h'
    rw [hd] at h'
    cases h'
    rw [h]

/-- white space before the closing parenthesis is not allowed -/
lemma readParen_body (l rest : List Char) (h1 : ∀ c ∈ l, c ≠ ')')
    (h2 : ∀ c, l.getLast? = some c → isSpace c = false) :
    readParen (l ++ ')' :: rest) = .ok (l.filter (fun c => !isSpace c), rest) := by
  induction hn : l.length using Nat.strong_induction_on generalizing l with
  | _ n ih =>
    cases l with
    | nil => exact readParen_close rest
    | cons c l =>
      have hc := h1 c (by simp)
      by_cases hs : isSpace c = true
      · -- skip white space
        obtain ⟨b, d, m, hl, hb, hd⟩ : ∃ b d m, c :: l = b ++ d :: m ∧ (∀ x ∈ b, isSpace x = true) ∧
            isSpace d = false := by
          refine ⟨(c :: l).takeWhile isSpace, ?_⟩
          have hne : (c :: l).dropWhile isSpace ≠ [] := by
            intro h0
            have h3 := List.dropWhile_eq_nil_iff.1 h0
            obtain ⟨x, hx⟩ : ∃ x, (c :: l).getLast? = some x :=
              ⟨_, List.getLast?_eq_some_getLast (by simp)⟩
            have h4 := h2 x hx
            rw [h3 x (List.mem_of_getLast? hx)] at h4
            cases h4
          obtain ⟨d, m, hdm⟩ := List.exists_cons_of_ne_nil hne
          refine ⟨d, m, ?_, ?_, ?_⟩
          · rw [← hdm, List.takeWhile_append_dropWhile]
          · intro x hx; exact List.mem_takeWhile_imp hx
          · have := List.head?_dropWhile_not isSpace (c :: l)
            rw [hdm] at this
            simpa using this
        have hbne : b ≠ [] := by
          rintro rfl
          rw [List.nil_append] at hl
          cases hl
          rw [hd] at hs; cases hs
        have hlen : m.length < n := by
          rw [← hn, hl]; simp; omega
        have hm := ih _ hlen m (fun x hx => h1 x (by rw [hl]; simp [hx])) (by
          intro x hx
          apply h2 x
          rw [hl]
          have hm0 : m ≠ [] := by rintro rfl; cases hx
          rw [List.getLast?_append_of_ne_nil _ (by simp), List.getLast?_cons, hx]
          rfl) rfl
        rw [List.cons_append]
        have hdrop : (c :: (l ++ ')' :: rest)).dropWhile isSpace = d :: (m ++ ')' :: rest) := by
          rw [← List.cons_append, hl, List.append_assoc, List.dropWhile_append_of_pos hb]
          simp [hd]
        rw [readParen_cons hc hdrop hm, hl]
        congr 1
        simp only [Prod.mk.injEq, and_true]
        have hb' : b.filter (fun c => !isSpace c) = [] :=
          List.filter_eq_nil_iff.2 (by simpa using hb)
        rw [List.filter_append, hb']
        simp [hd]
      · have hs' : isSpace c = false := by simpa using hs
        have hm := ih l.length (by rw [← hn]; simp) l (fun x hx => h1 x (by simp [hx])) (by
          intro x hx
          apply h2 x
          rw [List.getLast?_cons, hx]; rfl) rfl
        rw [List.cons_append]
        rw [readParen_cons (d := c) (r' := l ++ ')' :: rest) hc (by simp [hs']) hm]
        simp [hs']

lemma readBare_body (l rest : List Char) (h1 : ∀ c ∈ l, isSpace c = false) (h2 : Delimits rest) :
    ∃ e, readBare (l ++ rest) = (l, ⟨rest, e⟩) ∧ (rest ≠ [] → e = false) := by
  induction l with
  | nil =>
    cases rest with
    | nil => exact ⟨true, rfl, by simp⟩
    | cons c r =>
      have : isSpace c = true := h2
      exact ⟨false, by simp [readBare, this], by simp⟩
  | cons c l ih =>
    obtain ⟨e, he, hf⟩ := ih fun x hx => h1 x (by simp [hx])
    refine ⟨e, ?_, hf⟩
    rw [List.cons_append, readBare, h1 c (by simp), he]; rfl

lemma readToken_bare {s rest : List Char} (hne : s ≠ []) (h1 : ∀ c ∈ s, isSpace c = false)
    (h1' : ∀ c ∈ s, c ≠ '(') (h2 : Delimits rest) :
    ∃ e, readToken ⟨s ++ rest, false⟩ = .ok (s, ⟨rest, e⟩) ∧ (rest ≠ [] → e = false) := by
  obtain ⟨c, l, rfl⟩ := List.exists_cons_of_ne_nil hne
  obtain ⟨e, he, hf⟩ := readBare_body (c :: l) rest h1 h2
  refine ⟨e, ?_, hf⟩
  unfold readToken
  rw [List.cons_append] at he ⊢
  simp [h1' c (by simp), he]

lemma readToken_paren {t u rest : List Char} (h1 : ∀ c ∈ t, c ≠ ')') (hu : ∀ c ∈ u, c ≠ ')')
    (hl : ∃ l c, u = l ++ [c] ∧ isSpace c = false) :
    ∃ u', readToken ⟨'(' :: (t ++ [' ', '~', ' '] ++ u ++ [')']) ++ rest, false⟩ =
      .ok (t.filter (fun c => !isSpace c) ++ '~' :: u', ⟨rest, false⟩) := by
  refine ⟨u.filter (fun c => !isSpace c), ?_⟩
  have := readParen_body (t ++ [' ', '~', ' '] ++ u) rest ?_ ?_
  · unfold readToken
    simp only [Bool.false_eq_true, if_false, List.cons_append, if_true]
    rw [List.append_assoc, List.singleton_append, this]
    simp only [List.filter_append]
    simp [isSpace, List.filter]
  · intro c hc
    rcases List.mem_append.1 hc with hc | hc
    · rcases List.mem_append.1 hc with hc | hc
      · exact h1 c hc
      · simp at hc; rcases hc with rfl | rfl | rfl <;> decide
    · exact hu c hc
  · obtain ⟨l, d, rfl, hd⟩ := hl
    intro c hc
    rw [← List.append_assoc, List.getLast?_append_of_ne_nil _ (by simp)] at hc
    simp at hc; subst hc; exact hd

/-! ## Elements -/

variable {L : Lib} {α : ℕ → ℝ} {I : ℕ → Field → Prop} {Λ : Set ℕ} {S : Reg → Slot} {w : World}
variable {U : Prop} {X : String → World → Prop} {T : TextLib}
variable (hE : ∀ i, FieldInv (L.E i) (α i) (I i)) (hT : T.Ok)
include hE hT

omit hT in
lemma normalise_rational {i : ℕ} {e : NfElem} (he : e.Wf (L.K i)) (hi : IsInt (e.val (α i))) :
    (normalise e.num).length ≤ 2 := by
  obtain ⟨z, hz⟩ := hi
  have hr := (EAntic.isRational_iff (hE i).ok (hE i).root he).2 ⟨z, by rw [hz]; simp⟩
  rw [EAntic.isRational_struct he] at hr
  by_contra hlen
  have hne : normalise e.num ≠ [] := by intro h0; rw [h0] at hlen; simp at hlen
  have hl : ¬((normalise e.num).getLast hne == 0) = true := List.rdropWhile_last_not (· == 0) e.num hne
  have h1 := hr ((normalise e.num).length - 1) (by omega)
  rw [← normalise_getD e.num] at h1
  rw [List.getLast_eq_getElem] at hl
  rw [List.getD_eq_getElem _ _ (by omega)] at h1
  exact hl (by simpa using h1)

omit hT in
/-- the polynomial that is printed is the one of least degree, in lowest terms -/
theorem leastPoly_of_wf {i : ℕ} {e : NfElem} (he : e.Wf (L.K i)) :
    LeastPoly (α i) (e.val (α i)) (normalise e.num) e.den := by
  refine ⟨⟨he.den_pos, realValue_congr (fun j => (normalise_getD e.num j).symm) _ _⟩, ?_, ?_⟩
  · rintro l' d' ⟨hd', hv⟩
    by_contra hlen
    push Not at hlen
    have h1 : (normalise e.num).length ≤ (L.K i).degree :=
      ((List.rdropWhile_prefix _ _).length_le).trans (NfElem.num_length_le (hE i).ok he)
    have hne : normalise e.num ≠ [] := by intro h0; rw [h0] at hlen; simp at hlen
    have hl : ¬((normalise e.num).getLast hne == 0) = true := List.rdropWhile_last_not (· == 0) e.num hne
    rw [NfElem.val_eq, realValue_eq] at hv
    have hp := polyQ_inj (hE i).ok (hE i).root (NfElem.polyQ_degree (hE i).ok he) ?_ hv
    · have := congrArg (fun P => P.coeff ((normalise e.num).length - 1)) hp
      simp only [NfElem.polyQ, Polynomial.coeff_C_mul, coeff_toPolyQ] at this
      rw [List.getD_eq_default l' _ (by omega)] at this
      have hdq : (e.den : ℚ) ≠ 0 := by exact_mod_cast he.den_pos.ne'
      rw [← normalise_getD, List.getD_eq_getElem _ _ (by omega), ← List.getLast_eq_getElem hne] at this
      apply hl
      simpa [hdq] using this
    · refine lt_of_le_of_lt ?_ (toPolyQ_natDegree_lt (n := (L.K i).degree) (by omega : l'.length ≤ _))
      rw [← Polynomial.smul_eq_C_mul]; exact Polynomial.degree_smul_le _ _
  · intro g h1 h2
    have h3 : ∀ n ∈ e.num, g ∣ n := by
      intro n hn
      obtain ⟨j, _, rfl⟩ := mem_getD hn
      rw [← normalise_getD]
      rcases Nat.lt_or_ge j (normalise e.num).length with hj | hj
      · rw [List.getD_eq_getElem _ _ hj]; exact h2 _ (List.getElem_mem hj)
      · rw [List.getD_eq_default _ _ hj]; exact dvd_zero g
    have h4 := dvd_content h3
    have h5 : g.natAbs ∣ 1 := by
      rw [← he.coprime]
      exact Nat.dvd_gcd (Int.natAbs_dvd_natAbs.2 h1) (by simpa using Int.natAbs_dvd_natAbs.2 h4)
    exact Int.isUnit_iff_natAbs_eq.2 (Nat.dvd_one.1 h5)

omit hT in
/-- and there is only one -/
theorem LeastPoly.unique {i : ℕ} {a : ℝ} {l l' : List ℤ} {d d' : ℤ} (h : LeastPoly (α i) a l d)
    (h' : LeastPoly (α i) a l' d') : l = l' ∧ d = d' := by
  obtain ⟨⟨h1, h2⟩, h3, h4⟩ := h
  obtain ⟨⟨h1', h2'⟩, h3', h4'⟩ := h'
  have hlen : l.length = l'.length := le_antisymm (h3 _ _ ⟨h1', h2'⟩) (h3' _ _ ⟨h1, h2⟩)
  have hdeg : l.length ≤ (L.K i).degree := by
    have hw := ((L.E i).N.setPoly_wf (d := ⟨[], 1, 0⟩) (n := l) h1.ne')
    have hv := ((L.E i).N.setPoly_val (d := ⟨[], 1, 0⟩) (n := l) h1.ne' (hE i).root)
    refine (h3 _ _ ⟨hw.den_pos, ?_⟩).trans (NfElem.num_length_le (hE i).ok hw)
    rw [h2, ← hv]; rfl
  have deg : ∀ (m : List ℤ) (q : ℤ), m.length ≤ (L.K i).degree →
      (C (1 / (q : ℚ)) * toPolyQ m).degree < (L.K i).degree := fun m q hm => by
    refine lt_of_le_of_lt ?_ (toPolyQ_natDegree_lt (n := (L.K i).degree) hm)
    rw [← Polynomial.smul_eq_C_mul]; exact Polynomial.degree_smul_le _ _
  have hv := h2.symm.trans h2'
  rw [realValue_eq, realValue_eq] at hv
  have hp := polyQ_inj (hE i).ok (hE i).root (deg l d hdeg) (deg l' d' (hlen ▸ hdeg)) hv
  have hdq : (d : ℚ) ≠ 0 := by exact_mod_cast h1.ne'
  have hdq' : (d' : ℚ) ≠ 0 := by exact_mod_cast h1'.ne'
  have key : ∀ j, d' * l.getD j 0 = d * l'.getD j 0 := fun j => by
    have := congrArg (fun P => P.coeff j) hp
    simp only [Polynomial.coeff_C_mul, coeff_toPolyQ] at this
    field_simp at this
    have h2 : ((d' * l.getD j 0 : ℤ) : ℚ) = ((d * l'.getD j 0 : ℤ) : ℚ) := by
      push_cast; linarith
    exact_mod_cast h2
  have cop : ∀ {m : List ℤ} {q : ℤ}, (∀ g : ℤ, g ∣ q → (∀ n ∈ m, g ∣ n) → IsUnit g) →
      Nat.gcd q.natAbs (NfElem.content m) = 1 := fun {m q} hg => by
    have := hg (Nat.gcd q.natAbs (NfElem.content m) : ℕ)
      (Int.natCast_dvd.2 (Nat.gcd_dvd_left _ _)) fun n hn =>
        (Int.natCast_dvd_natCast.2 (Nat.gcd_dvd_right _ _)).trans (content_dvd hn)
    simpa using Int.isUnit_iff_natAbs_eq.1 this
  have hdd : d = d' := by
    refine Int.dvd_antisymm h1.le h1'.le (EAntic.den_dvd (cop h4) fun n hn => ?_)
      (EAntic.den_dvd (cop h4') fun n hn => ?_)
    · obtain ⟨j, _, rfl⟩ := mem_getD hn
      rw [key]; exact dvd_mul_right _ _
    · obtain ⟨j, _, rfl⟩ := mem_getD hn
      rw [← key]; exact dvd_mul_right _ _
  subst hdd
  refine ⟨List.ext_getElem hlen fun j hj hj' => ?_, rfl⟩
  have := key j
  rw [List.getD_eq_getElem _ _ hj, List.getD_eq_getElem _ _ hj'] at this
  exact mul_left_cancel₀ h1.ne' this

omit hT in
theorem AlgText.unique {i : ℕ} {a : ℝ} {s s' : List Char} (h : AlgText T α i a s)
    (h' : AlgText T α i a s') : s = s' := by
  obtain ⟨l, d, h1, rfl⟩ := h.least
  obtain ⟨l', d', h1', rfl⟩ := h'.least
  obtain ⟨rfl, rfl⟩ := h1.unique hE h1'
  rfl

lemma alg_of_wf {i : ℕ} (hd : (L.K i).degree < 2 ^ 63) {e : NfElem} (he : e.Wf (L.K i)) :
    AlgText T α i (e.val (α i)) (Text.pretty (T.gen i) (normalise e.num) e.den) := by
  have hlen : (normalise e.num).length ≤ Text.longMax := by
    have h1 : (normalise e.num).length ≤ (L.K i).degree :=
      ((List.rdropWhile_prefix _ _).length_le).trans (NfElem.num_length_le (hE i).ok he)
    show _ ≤ 2 ^ 63 - 1
    omega
  have hval : aeval (α i) (C (1 / (e.den : ℚ)) * toPolyQ (normalise e.num)) = e.val (α i) := by
    rw [← realValue_eq]
    exact realValue_congr (fun j => normalise_getD e.num j) _ _
  refine ⟨⟨_, Text.pretty_reads hT.readRat _ _ _ hlen, hval⟩, ⟨_, ?_, hval⟩, Text.pretty_safe (hT.gen i) _ _,
    fun hi => ?_, Text.pretty_ne (hT.gen i) _ _,
    _, _, leastPoly_of_wf hE he, rfl⟩
  · rw [Text.pretty_filter (hT.gen i)]
    exact Text.compact_reads hT.readRat _ _ _ hlen
  · rw [Text.pretty_short _ _ (normalise_rational hE he hi)]
    exact fun c hc => (Text.compact_plain (hT.gen i) _ _ c hc).1

theorem toStringAlg_good {x : Reg} {i : ℕ} {a : ℝ} (hd : (L.K i).degree < 2 ^ 63)
    (h : Rep L α I Λ S w) (hx : S x = .elem i a) :
    Good U X (fun s w' => AlgText T α i a s ∧ Rep L α I Λ S w')
      (toString L T x true false false w) := by
  unfold toString
  refine Good.assert (by simp) ?_
  refine Good.bind (read_good hE h hx
    (g := fun e => Text.pretty (T.gen i) (normalise e.elem.num) e.elem.den ++ []) (fun _ _ => rfl)
    (Q := AlgText T α i a) fun e he hv => by
      rw [List.append_nil, ← hv]; exact alg_of_wf hE hT hd he) ?_
  rintro s w₁ ⟨hs, h₁, -⟩
  exact Good.pure ⟨hs, h₁⟩

theorem constructStr_good {x : Reg} {k : ℕ} {a : ℝ} {s : List Char} (h : Rep L α I Λ S w)
    (hx : S x = .absent)
    (hs : Text.IsTextOf T.readRat (T.gen k) (α k) a (s.takeWhile (· != '~'))) :
    Good U X (fun _ w' => Rep L α I Λ (Function.update S x (.elem k a)) w')
      (constructStr L T x k s w) := by
  obtain ⟨P, hP, rfl⟩ := hs
  obtain ⟨q, hq, rfl⟩ := (Text.setStrPretty_iff _ _ _ P).2 ⟨hT.gen k, hP⟩
  unfold constructStr
  rw [hq]
  exact constructWith_good hE k h hx fun _ _ _ _ hs =>
    stores (setPoly_spec (hE k) _ _ (Text.common_pos q).ne') hs ⟨_, rfl⟩ (Text.common_val q (α k))

/-- what `operator<<` prints -/
def Printed (T : TextLib) (α : ℕ → ℝ) (i : ℕ) (a : ℝ) (s : List Char) : Prop :=
  (IsInt a ∧ AlgText T α i a s) ∨
  ∃ t u, AlgText T α i a t ∧ (∀ c ∈ u, c ≠ ')') ∧ (∃ l c, u = l ++ [c] ∧ isSpace c = false) ∧
    s = '(' :: (t ++ [' ', '~', ' '] ++ u ++ [')'])

omit hE in
theorem dblText_ok (d : Dbl) : (∀ c ∈ dblText T d, c ≠ ')') ∧
    ∃ l c, dblText T d = l ++ [c] ∧ isSpace c = false := by
  cases d with
  | inf => exact ⟨by show ∀ c ∈ ['i', 'n', 'f'], c ≠ ')'; decide, ['i', 'n'], 'f', rfl, by decide⟩
  | ninf => exact ⟨by show ∀ c ∈ ['-', 'i', 'n', 'f'], c ≠ ')'; decide, ['-', 'i', 'n'], 'f', rfl, by decide⟩
  | fin q => exact ⟨hT.dbl q, hT.dbl_last q⟩

omit hE in
theorem IsPrinted.printed {i : ℕ} {a : ℝ} {s : List Char} (h : IsPrinted T α i a s) : Printed T α i a s := by
  rcases h with ⟨hi, t, u, ht, hu, rfl⟩ | ⟨-, t, u, ht, ⟨d, -, rfl⟩, rfl⟩
  · simp only [if_true, Bool.false_eq_true, if_false] at ht hu
    subst hu
    refine .inl ⟨hi, ?_⟩
    simpa [exactlyOne] using ht
  · refine .inr ⟨t, _, ht, (dblText_ok hT d).1, (dblText_ok hT d).2, ?_⟩
    simp [exactlyOne]

/-- `to_string` with any flags; in a build with assertions not with both approximations -/
theorem toString_good {x : Reg} {i : ℕ} {a : ℝ} {alg d arb : Bool} (hU : d = true → U)
    (hn : (d && arb) = true → L.ndebug = true) (hd : alg = true → (L.K i).degree < 2 ^ 63)
    (h : Rep L α I Λ S w) (hx : S x = .elem i a) :
    Good U X (fun s w' => StringOf T α i a alg d arb s ∧ Rep L α I Λ S w')
      (toString L T x alg d arb w) := by
  have fin : ∀ {t u : List Char}, (if alg then AlgText T α i a t else t = []) →
      (if d then ∃ D, CastsTo a D ∧ u = dblText T D
        else if arb then ∃ B : Ball, a ∈ B ∧ u = T.ball B else u = []) →
      StringOf T α i a alg d arb (if exactlyOne alg d arb then
        t ++ (if alg && (d || arb) then [' ', '~', ' '] else []) ++ u
      else ['('] ++ (t ++ (if alg && (d || arb) then [' ', '~', ' '] else []) ++ u) ++ [')']) :=
    fun ht hu => ⟨_, _, ht, hu, rfl⟩
  unfold toString
  have ha : W.assert L (!(d && arb)) w = .ok ((), w) := by
    unfold W.assert
    cases d <;> cases arb <;> simp at hn ⊢ <;> rw [hn]
  refine Good.bind (P := fun _ w' => w' = w) (show Good U X _ _ by rw [ha]; exact rfl) ?_
  rintro _ w rfl
  refine Good.bind (P := fun s w' => (∃ t u, (if alg then AlgText T α i a t else t = []) ∧
      (if d then ∃ D, CastsTo a D ∧ u = dblText T D
        else if arb then ∃ B : Ball, a ∈ B ∧ u = T.ball B else u = []) ∧
      s = t ++ (if alg && (d || arb) then [' ', '~', ' '] else []) ++ u) ∧
      Rep L α I Λ S w' ∧ w'.obj = w.obj)
    (query_good hE h hx (m := fun i r => (L.E i).getStrPretty T r (T.gen i) alg d arb L.ndebug)
      (Q := fun s => ∃ t u, (if alg then AlgText T α i a t else t = []) ∧
        (if d then ∃ D, CastsTo a D ∧ u = dblText T D
          else if arb then ∃ B : Ball, a ∈ B ∧ u = T.ball B else u = []) ∧
        s = t ++ (if alg && (d || arb) then [' ', '~', ' '] else []) ++ u)
      fun v c hv s hs => ?_) ?_
  · have hal : alg = true → AlgText T α i a (Text.pretty (T.gen i)
        (normalise (s.heap (.user c)).elem.num) (s.heap (.user c)).elem.den) := by
      intro ha
      have := alg_of_wf hE hT (α := α) (hd ha) (hs.wf (.user c))
      rwa [hs.val, hv] at this
    have first : (if alg then AlgText T α i a (if alg then Text.pretty (T.gen i)
        (normalise (s.heap (.user c)).elem.num) (s.heap (.user c)).elem.den else []) else
        (if alg then Text.pretty (T.gen i)
        (normalise (s.heap (.user c)).elem.num) (s.heap (.user c)).elem.den else []) = []) := by
      cases alg
      · simp
      · simpa using hal rfl
    have e0 : (L.E i).getStrPretty T (.user c) (T.gen i) alg d arb L.ndebug s =
        (do
          let u ← if d then do
              let v ← (L.E i).getD (.user c) .near L.ndebug
              pure (dblText T v)
            else if arb then pure (T.ball (s.heap (.user c)).emb)
            else pure []
          pure ((if alg then Text.pretty (T.gen i) (normalise (s.heap (.user c)).elem.num)
            (s.heap (.user c)).elem.den else []) ++
            (if alg && (d || arb) then [' ', '~', ' '] else []) ++ u) : M (List Char)) s := by
      cases alg <;> cases d <;> cases arb <;> first | rfl | skip
      show (Res.ok (_ ++ [], s) : Res (List Char × Mem)) = Res.ok ((_ ++ []) ++ [], s)
      simp
    rw [e0]
    cases d with
    | false =>
      cases arb with
      | false => exact ⟨hs, _, _, first, rfl, rfl⟩
      | true => exact ⟨hs, _, _, first, ⟨_, by rw [← hv]; exact hs.enc _, rfl⟩, rfl⟩
    | true =>
      refine GoodM.of_hoare (Q := fun r s' => EAntic.Rep _ _ _ v s' ∧ _)
        (P := fun s' => s' = s) ?_ rfl (.inl (hU rfl))
      intro s₀ r s' hs₀ hr
      subst hs₀
      simp only [if_true] at hr ⊢
      obtain ⟨D, s₂, e3, e2⟩ := M.bind_ok.1 hr
      have k1 := getD_spec (hE i) (v := v) (a := .user c) (by simp) .near _ D s₂ hs e3
      have k2 := getD_rounds (hE i) (v := v) (a := .user c) (by simp) .near _ D s₂ hs e3
      change Res.ok (_, s₂) = _ at e2
      cases e2
      rw [hv] at k1 k2
      exact ⟨k1.1, _, _, first, ⟨D, NearDouble.castsTo ⟨k1.2.1, k1.2.2.1, k1.2.2.2.1, k1.2.2.2.2, k2.2⟩,
        rfl⟩, rfl⟩
  · rintro s w₂ ⟨⟨t, u, ht, hu, rfl⟩, h₂, -⟩
    have := fin ht hu
    cases he : exactlyOne alg d arb <;> rw [he] at this
    · rw [if_neg (by unfold exactlyOne at he; rw [he]; simp)]
      exact Good.pure ⟨this, h₂⟩
    · rw [if_pos (by unfold exactlyOne at he; exact he)]
      exact Good.pure ⟨this, h₂⟩

theorem print_good' (hU : U) {x : Reg} {i : ℕ} {a : ℝ} (hd : (L.K i).degree < 2 ^ 63)
    (h : Rep L α I Λ S w) (hx : S x = .elem i a) :
    Good U X (fun s w' => IsPrinted T α i a s ∧ Rep L α I Λ S w') (print L T x w) := by
  unfold print
  refine Good.bind (isInteger_good hE h hx) ?_
  rintro b w₁ ⟨hb, h₁, -⟩
  split_ifs with hi
  · exact (toString_good hE hT (by simp) (by simp) (fun _ => hd) h₁ hx).mono
      fun s w₂ h₂ => ⟨.inl ⟨hb.1 hi, h₂.1⟩, h₂.2⟩
  · exact (toString_good hE hT (fun _ => hU) (by simp) (fun _ => hd) h₁ hx).mono
      fun s w₂ h₂ => ⟨.inr ⟨fun h => hi (hb.2 h), h₂.1⟩, h₂.2⟩

theorem print_good (hU : U) {x : Reg} {i : ℕ} {a : ℝ} (hd : (L.K i).degree < 2 ^ 63)
    (h : Rep L α I Λ S w) (hx : S x = .elem i a) :
    Good U X (fun s w' => Printed T α i a s ∧ Rep L α I Λ S w') (print L T x w) :=
  (print_good' hE hT hU hd h hx).mono fun _ _ h => ⟨h.1.printed hT, h.2⟩

/-- printing an integer always returns -/
theorem print_int_good {x : Reg} {i : ℕ} {a : ℝ} (hd : (L.K i).degree < 2 ^ 63)
    (h : Rep L α I Λ S w) (hx : S x = .elem i a) (ha : IsInt a) :
    Good U X (fun s w' => Printed T α i a s ∧ Rep L α I Λ S w') (print L T x w) := by
  unfold print
  refine Good.bind (isInteger_good hE h hx) ?_
  rintro b w₁ ⟨hb, h₁, -⟩
  rw [if_pos (hb.2 ha)]
  exact (toStringAlg_good hE hT hd h₁ hx).mono fun s w₂ h₂ => ⟨.inl ⟨ha, h₂.1⟩, h₂.2⟩

/-- assigning a new element made from a string -/
theorem assignStr_good {β : Type} {x : Reg} {k : ℕ} {a : ℝ} {t : List Char} (r : β)
    (h : Rep L α I Λ S w) (ht : S (.tmp 0) = .absent) (hx : S x ≠ .absent) (hxt : x ≠ .tmp 0)
    (htx : Text.IsTextOf T.readRat (T.gen k) (α k) a (t.takeWhile (· != '~'))) :
    Good U X (fun r' w' => r' = r ∧ Rep L α I Λ (Function.update S x (.elem k a)) w')
      ((do
        constructStr L T (.tmp 0) k t
        moveAssign x (.tmp 0)
        destroy (.tmp 0)
        pure r : W β) w) := by
  refine Good.bind (constructStr_good hE hT h ht htx) ?_
  intro _ w₁ h₁
  refine Good.bind (moveAssign_good h₁ (x := x) (y := .tmp 0) (by rwa [Function.update_of_ne hxt])
    (by simp)) ?_
  intro _ w₂ h₂
  have h₂' : ∃ sl, sl ≠ .absent ∧
      Rep L α I Λ (Function.update (Function.update S x (.elem k a)) (.tmp 0) sl) w₂ := by
    rcases h₂ with ⟨⟨i, b, hb⟩, h₂⟩ | ⟨hm, h₂⟩
    · refine ⟨.elem i b, by simp, ?_⟩
      rw [hb] at h₂
      convert h₂ using 1
      funext z
      by_cases hz : z = .tmp 0
      · subst hz; simp
      · by_cases hz' : z = x
        · subst hz'; simp [hz]
        · simp [hz, hz']
    · refine ⟨.moved, by simp, ?_⟩
      convert h₂ using 1
      rw [Function.update_self, Function.update_idem, Function.update_comm hxt.symm]
  obtain ⟨sl, hsl, h₃⟩ := h₂'
  refine Good.bind (destroy_good h₃ (x := .tmp 0) (by simpa using hsl)) ?_
  intro _ w₄ h₄
  refine Good.pure ⟨rfl, ?_⟩
  rw [Function.update_idem] at h₄
  convert h₄ using 1
  rw [Function.update_comm hxt, ← ht, Function.update_eq_self]

theorem extract_core {x : Reg} {k : ℕ} {a : ℝ} {t : List Char} {st st' : Stream}
    (h : Rep L α I Λ S w) (ht : S (.tmp 0) = .absent) (hx : S x ≠ .absent) (hxt : x ≠ .tmp 0)
    (hrd : readToken st = .ok (t, st'))
    (htx : Text.IsTextOf T.readRat (T.gen k) (α k) a (t.takeWhile (· != '~'))) :
    Good U X (fun st₂ w' => st₂ = st' ∧ Rep L α I Λ (Function.update S x (.elem k a)) w')
      (extract L T x (some k) st w) := by
  unfold extract
  rw [hrd]
  exact Good.deref (assignStr_good hE hT st' h ht hx hxt htx)

theorem extract_good {x : Reg} {k : ℕ} {a : ℝ} {s rest : List Char} (h : Rep L α I Λ S w)
    (ht : S (.tmp 0) = .absent) (hx : S x ≠ .absent) (hxt : x ≠ .tmp 0)
    (hs : Printed T α k a s) (hr : Delimits rest) :
    Good U X (fun st w' => (st.chars = rest ∧ (rest ≠ [] → st.eof = false)) ∧
      Rep L α I Λ (Function.update S x (.elem k a)) w')
      (extract L T x (some k) ⟨s ++ rest, false⟩ w) := by
  obtain ⟨t, st', hrd, htx, hst⟩ : ∃ t st', readToken ⟨s ++ rest, false⟩ = .ok (t, st') ∧
      Text.IsTextOf T.readRat (T.gen k) (α k) a (t.takeWhile (· != '~')) ∧
      (st'.chars = rest ∧ (rest ≠ [] → st'.eof = false)) := by
    have htw : ∀ {t u : List Char}, (∀ c ∈ t, c ≠ '~') →
        (t ++ '~' :: u).takeWhile (· != '~') = t := fun {t u} h => by
      rw [List.takeWhile_append_of_pos (by intro c hc; simpa using h c hc)]
      simp
    have htw' : ∀ {t : List Char}, (∀ c ∈ t, c ≠ '~') → t.takeWhile (· != '~') = t :=
      fun {t} h => List.takeWhile_eq_self_iff.2 (by intro c hc; simpa using h c hc)
    rcases hs with ⟨hi, hs⟩ | ⟨t, u, hs, hu, hl, rfl⟩
    · obtain ⟨e, he, hf⟩ := readToken_bare hs.ne (hs.int hi) (fun c hc => (hs.safe c hc).1) hr
      exact ⟨s, _, he, by rw [htw' fun c hc => (hs.safe c hc).2.2]; exact hs.text, rfl, hf⟩
    · obtain ⟨u', he⟩ := readToken_paren (rest := rest) (fun c hc => (hs.safe c hc).2.1) hu hl
      refine ⟨_, _, he, ?_, rfl, fun _ => rfl⟩
      rw [htw fun c hc => (hs.safe c (List.mem_of_mem_filter hc)).2.2]
      exact hs.squeezed
  refine (extract_core hE hT h ht hx hxt hrd htx).mono ?_
  rintro _ w' ⟨rfl, h'⟩
  exact ⟨hst, h'⟩

end EAntic.Cxx
