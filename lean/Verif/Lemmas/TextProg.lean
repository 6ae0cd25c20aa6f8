import Verif.Spec.TextProg
import Verif.Lemmas.TextEnds

/-! # Lemmas on programs that compute, print and read -/

namespace EAntic.Cxx
open Polynomial

/-! ## Streams -/

/-- after white space and one more character -/
theorem NotClosed.drop {p r : List Char} {d : Char} (h : NotClosed (p ++ d :: r)) (hd : isSpace d = false) :
    NotClosed r := by
  rintro u v rfl
  obtain ⟨u', c, hu, hc⟩ := h (p ++ d :: u) v (by simp)
  rcases List.eq_nil_or_concat u with rfl | ⟨u₁, e, rfl⟩
  · obtain ⟨-, h2⟩ := List.append_inj' hu rfl
    simp at h2
    rw [← h2, hd] at hc; cases hc
  · refine ⟨u₁, e, by simp, ?_⟩
    have : p ++ d :: u₁ ++ [e] = u' ++ [c] := by simpa using hu
    obtain ⟨-, h2⟩ := List.append_inj' this rfl
    simp at h2
    rw [h2]; exact hc

/-- splitting a list at the first character that is not white space -/
theorem exists_first {l : List Char} (hne : l ≠ []) (h : NoSpaceAtEnd l) :
    ∃ p d r, l = p ++ d :: r ∧ (∀ c ∈ p, isSpace c = true) ∧ isSpace d = false ∧ NoSpaceAtEnd r := by
  have hsp : l.takeWhile isSpace ++ l.dropWhile isSpace = l := List.takeWhile_append_dropWhile
  cases hd : l.dropWhile isSpace with
  | nil =>
    exfalso
    have := List.dropWhile_eq_nil_iff.1 hd
    have h3 := h _ (List.getLast?_eq_some_getLast hne)
    rw [this _ (List.getLast_mem hne)] at h3
    cases h3
  | cons d r =>
    rw [hd] at hsp
    refine ⟨_, d, r, hsp.symm, fun c hc => List.mem_takeWhile_imp hc, ?_, ?_⟩
    · have := List.head?_dropWhile_not isSpace l
      rw [hd] at this
      simpa using this
    · intro x hx
      refine h x ?_
      rw [← hsp, List.getLast?_append_of_ne_nil _ (by simp), List.getLast?_cons]
      simp [hx]

/-- one turn of the loop -/
theorem readParen_step {p r q : List Char} {d : Char} (hp : ∀ c ∈ p, isSpace c = true)
    (hd : isSpace d = false) (hh : (p ++ d :: r).head? ≠ some ')') :
    readParen (p ++ d :: r ++ q) = match readParen (r ++ q) with
      | .ok (t, q) => .ok (d :: t, q)
      | .throw e => .throw e
      | .ub => .ub
      | .abort => .abort
      | .running => .running := by
  have hdw : (p ++ d :: r ++ q).dropWhile isSpace = d :: (r ++ q) := by
    rw [List.append_assoc, List.dropWhile_append_of_pos hp, List.cons_append,
      List.dropWhile_cons_of_neg (by simp [hd])]
  obtain ⟨c, l, hl⟩ : ∃ c l, p ++ d :: r ++ q = c :: l := by
    cases p <;> simp
  have hc : c ≠ ')' := by
    rintro rfl
    apply hh
    cases p with
    | nil => simp at hl ⊢; exact hl.1
    | cons => simp at hl ⊢; exact hl.1
  rw [hl] at hdw ⊢
  rw [readParen]
  simp only [if_neg hc]
  split
  · rename_i h'; rw [h'] at hdw; cases hdw
  · rename_i d' r' h'
    rw [h'] at hdw
    cases hdw
    rfl

theorem NotClosed.head {l : List Char} (h : NotClosed l) : l.head? ≠ some ')' := by
  intro hh
  cases l with
  | nil => cases hh
  | cons c r =>
    cases hh
    obtain ⟨u', c, hu, -⟩ := h [] r rfl
    simp at hu

theorem readParen_unclosed (l : List Char) (h1 : NotClosed l) (h2 : NoSpaceAtEnd l) :
    readParen l = .throw "invalid stream" := by
  induction hn : l.length using Nat.strong_induction_on generalizing l with
  | _ n ih =>
    by_cases hl : l = []
    · subst hl; rw [readParen]
    · obtain ⟨p, d, r, rfl, hp, hd, hr⟩ := exists_first hl h2
      have := readParen_step (q := []) hp hd h1.head
      rw [List.append_nil, List.append_nil,
        ih r.length (by rw [← hn]; simp; omega) r (h1.drop hd) hr rfl] at this
      exact this

theorem readParen_closed (l rest : List Char) (h1 : NotClosed l) (h2 : NoSpaceAtEnd l) :
    readParen (l ++ ')' :: rest) = .ok (l.filter (fun c => !isSpace c), rest) := by
  induction hn : l.length using Nat.strong_induction_on generalizing l with
  | _ n ih =>
    by_cases hl : l = []
    · subst hl; simp [readParen]
    · obtain ⟨p, d, r, rfl, hp, hd, hr⟩ := exists_first hl h2
      rw [readParen_step (q := ')' :: rest) hp hd h1.head,
        ih r.length (by rw [← hn]; simp; omega) r (h1.drop hd) hr rfl]
      have : p.filter (fun c => !isSpace c) = [] := by
        rw [List.filter_eq_nil_iff]
        intro c hc; simp [hp c hc]
      simp [List.filter_append, this, List.filter_cons, hd]

theorem readParen_blank (l : List Char) (x : Char) (h1 : NotClosed (l ++ [x])) (h2 : isSpace x = true) :
    readParen (l ++ [x]) = .ub := by
  induction hn : l.length using Nat.strong_induction_on generalizing l with
  | _ n ih =>
    cases hd : (l ++ [x]).dropWhile isSpace with
    | nil =>
      obtain ⟨c, r, hc⟩ : ∃ c r, l ++ [x] = c :: r := by cases l <;> simp
      have hh := h1.head
      rw [hc] at hd hh ⊢
      have hc' : c ≠ ')' := by simpa using hh
      rw [readParen]
      simp only [if_neg hc']
      split
      · rfl
      · rename_i h'; rw [h'] at hd; cases hd
    | cons d r =>
      have hsp : (l ++ [x]).takeWhile isSpace ++ (l ++ [x]).dropWhile isSpace = l ++ [x] :=
        List.takeWhile_append_dropWhile
      rw [hd] at hsp
      have hds : isSpace d = false := by
        have := List.head?_dropWhile_not isSpace (l ++ [x])
        rw [hd] at this
        simpa using this
      rcases List.eq_nil_or_concat r with rfl | ⟨r', y, rfl⟩
      · obtain ⟨-, h⟩ := List.append_inj' hsp rfl
        simp at h
        rw [h, h2] at hds; cases hds
      · rw [← hsp] at h1
        have hstep := readParen_step (q := []) (p := (l ++ [x]).takeWhile isSpace) (d := d)
          (fun c hc => List.mem_takeWhile_imp hc) hds h1.head
        rw [List.append_nil, List.append_nil, hsp] at hstep
        have hy : y = x ∧ r'.length < l.length := by
          have h3 : ((l ++ [x]).takeWhile isSpace ++ d :: r') ++ [y] = l ++ [x] := by
            simpa using hsp
          obtain ⟨h4, h5⟩ := List.append_inj' h3 rfl
          refine ⟨by simpa using h5, ?_⟩
          rw [← h4]; simp; omega
        obtain ⟨rfl, hlen⟩ := hy
        have h6 := h1.drop hds
        rw [List.concat_eq_append] at h6 hstep
        rw [ih r'.length (by omega) r' h6 rfl] at hstep
        exact hstep

theorem notClosed_of {l : List Char} (h : ∀ c ∈ l, c ≠ ')') : NotClosed l := by
  rintro u v rfl
  exact absurd rfl (h ')' (by simp))

theorem Token.not_blank {st st' : Stream} {s : List Char} (h : Token st s st') : ¬ UnclosedBlank st := by
  rintro ⟨-, b, c, hb, -, hn⟩
  obtain ⟨-, ⟨body, rest, hc, -, h2, -⟩ | ⟨rest, hc, -, h2, h3, -⟩⟩ := h
  · rw [hb] at hc
    obtain ⟨u', d, rfl, hd⟩ := hn body rest (by simpa using hc)
    rw [h2 d (by simp)] at hd; cases hd
  · rw [hb] at hc
    cases s with
    | nil =>
      rw [List.nil_append] at hc
      subst hc
      exact absurd (show isSpace '(' = true from h3) (by decide)
    | cons d s => simp at hc h2; exact h2 hc.1.symm

/-- what can follow a parenthesis -/
theorem closed_or (l : List Char) :
    (∃ body rest, l = body ++ ')' :: rest ∧ NotClosed body ∧ NoSpaceAtEnd body) ∨
    NotClosed l := by
  classical
  by_cases h : NotClosed l
  · exact .inr h
  · left
    have hP : ∃ n, ∃ u v, u.length = n ∧ l = u ++ ')' :: v ∧ NoSpaceAtEnd u := by
      unfold NotClosed at h
      push Not at h
      obtain ⟨u, v, rfl, hu⟩ := h
      refine ⟨_, u, v, rfl, rfl, fun c hc => ?_⟩
      obtain ⟨u', hu'⟩ := List.getLast?_eq_some_iff.1 hc
      have := hu u' c hu'
      simpa using this
    obtain ⟨u, v, hn, hl, hu⟩ := Nat.find_spec hP
    refine ⟨u, v, hl, ?_, hu⟩
    rintro a b rfl
    by_contra hc
    refine Nat.find_min hP (m := a.length) (by rw [← hn]; simp) ⟨a, b ++ ')' :: v, rfl, by simp [hl], ?_⟩
    intro c hac
    obtain ⟨u', hu'⟩ := List.getLast?_eq_some_iff.1 hac
    push Not at hc
    simpa using hc u' c hu'

/-- every stream is of one of five kinds -/
theorem token_cases (st : Stream) : st.eof = true ∨ (∃ s st', Token st s st') ∨ Unclosed st ∨
    UnclosedBlank st := by
  cases he : st.eof with
  | true => exact .inl rfl
  | false =>
    right
    by_cases hp : ∃ l, st.chars = '(' :: l
    · obtain ⟨l, hl⟩ := hp
      rcases closed_or l with ⟨body, rest, rfl, h1, h2⟩ | h
      · exact .inl ⟨_, _, he, .inl ⟨body, rest, hl, h1, h2, rfl, rfl⟩⟩
      · rcases List.eq_nil_or_concat l with rfl | ⟨u, c, rfl⟩
        · exact .inr (.inl ⟨he, [], hl, h, by intro c hc; cases hc⟩)
        · cases hc : isSpace c with
          | true => exact .inr (.inr ⟨he, u, c, by simpa using hl, hc, by simpa using h⟩)
          | false => exact .inr (.inl ⟨he, _, hl, h, by intro x hx; simp at hx; rw [← hx]; exact hc⟩)
    · refine .inl ⟨st.chars.takeWhile (fun c => !isSpace c), _, he, .inr
        ⟨st.chars.dropWhile (fun c => !isSpace c), (List.takeWhile_append_dropWhile).symm, ?_, ?_, ?_, rfl⟩⟩
      · intro c hc
        simpa using List.mem_takeWhile_imp hc
      · intro hh
        apply hp
        cases hs : st.chars with
        | nil => rw [hs] at hh; cases hh
        | cons c r =>
          rw [hs] at hh
          by_cases hc : isSpace c = true
          · simp [List.takeWhile_cons, hc] at hh
          · simp [List.takeWhile_cons, hc] at hh
            exact ⟨r, by rw [hh]⟩
      · have := List.head?_dropWhile_not (fun c => !isSpace c) st.chars
        cases hs : st.chars.dropWhile (fun c => !isSpace c) with
        | nil => exact trivial
        | cons c r =>
          rw [hs] at this
          simpa [Delimits] using this

theorem readToken_of_token {st st' : Stream} {s : List Char} (h : Token st s st') :
    readToken st = .ok (s, st') := by
  obtain ⟨he, ⟨body, rest, hc, h1, h2, rfl, rfl⟩ | ⟨rest, hc, h1, h2, h3, rfl⟩⟩ := h
  · unfold readToken
    rw [he, hc]
    simp only [Bool.false_eq_true, if_false, if_true]
    rw [readParen_closed body rest h1 h2]
  · cases s with
    | nil =>
      simp only [List.nil_append] at hc
      unfold readToken
      rw [he, hc]
      simp only [Bool.false_eq_true, if_false]
      cases rest with
      | nil => rfl
      | cons c r =>
        have hsp : isSpace c = true := h3
        have : c ≠ '(' := by rintro rfl; revert hsp; decide
        simp [this, readBare, hsp]
    | cons c l =>
      obtain ⟨e, hr, hf⟩ := readBare_body (c :: l) rest h1 h3
      have hee : e = rest.isEmpty := by
        cases rest with
        | nil =>
          have : ∀ t : List Char, (∀ c ∈ t, isSpace c = false) → (readBare t).2.eof = true := by
            intro t
            induction t with
            | nil => intro _; rfl
            | cons c t ih =>
              intro h
              rw [readBare, if_neg (by simp [h c])]
              exact ih fun d hd => h d (by simp [hd])
          have h' := this (c :: l) h1
          rw [List.append_nil] at hr
          rw [hr] at h'
          exact h'
        | cons d r => exact hf (by simp)
      subst hee
      unfold readToken
      rw [he, hc]
      have hne : c ≠ '(' := by simpa using h2
      simp only [Bool.false_eq_true, if_false, List.cons_append, hne]
      exact congrArg _ hr

theorem readToken_unclosed {st : Stream} (h : Unclosed st) :
    readToken st = .throw "invalid stream" := by
  obtain ⟨he, body, hc, h1, h2⟩ := h
  unfold readToken
  rw [he, hc]
  simp only [Bool.false_eq_true, if_false, if_true]
  rw [readParen_unclosed body h1 h2]

theorem readToken_blank {st : Stream} (h : UnclosedBlank st) : readToken st = .ub := by
  obtain ⟨he, body, c, hc, h1, h2⟩ := h
  unfold readToken
  rw [he, hc]
  simp only [Bool.false_eq_true, if_false, if_true]
  rw [readParen_blank body c h2 h1]

/-! ## Calls -/

variable {L : Lib} {α : ℕ → ℝ} {I : ℕ → Field → Prop} {Λ : Set ℕ} {S : ℕ → Slot} {w : World}
variable {T : TextLib} {γ : Type} {hf : Dbl → γ} {io : Streams}

section

variable (hE : ∀ i, FieldInv (L.E i) (α i) (I i)) (hT : T.Ok)
include hT

theorem constructStr_throw {x : Reg} {k : ℕ} {s : List Char} (h : ∀ a, ¬ Denotes T α k s a) :
    constructStr L T x k s w = .throw "renf_elem_class fmpq_poly_set_str_pretty" w := by
  have : Text.setStrPretty T.readRat (s.takeWhile (· != '~')) (T.gen k) = none := by
    cases hs : Text.setStrPretty T.readRat (s.takeWhile (· != '~')) (T.gen k) with
    | none => rfl
    | some q =>
      have := (Text.setStrPretty_iff _ _ _ (Text.polyOf q)).1 ⟨q, hs, rfl⟩
      exact absurd ⟨_, this.2, rfl⟩ (h (aeval (α k) (Text.polyOf q)))
  unfold constructStr
  rw [this]
  rfl

include hE

/-- every call -/
theorem execT_good (hb : L.bits.Ok) {c : TCmd} (h : RepresentsUpTo L α I Λ S w) (hv : ValidT L α S io c) :
    Good c.approximates
      (fun e w' => ThrowsT L T α S io c e ∧ ∃ Λ', RepresentsUpTo L α I Λ' S w')
      (fun r w' => ∃ S', StepT L T hf α S io c r.1 S' r.2 ∧ RepresentsUpTo L α I Λ S' w')
      (execT L T hf c io w) := by
  cases c with
  | call c =>
    refine Good.bind ((exec_good hE hb h hv).weaken id ?_) ?_
    · rintro s w' ⟨h1, Λ', -, h2⟩
      exact ⟨h1, Λ', h2⟩
    · rintro a w' ⟨S', h1, h2⟩
      exact Good.pure ⟨S', ⟨rfl, a, rfl, h1⟩, h2⟩
  | toString x alg d arb =>
    obtain ⟨i, a, hx, hd, hn⟩ := hv
    refine Good.bind (toString_good (x := .user x) hE hT id hn hd h hx) ?_
    rintro s w' ⟨h1, h2⟩
    exact Good.pure ⟨S, ⟨rfl, rfl, i, a, s, hx, rfl, h1⟩, h2⟩
  | print x =>
    obtain ⟨i, a, hx, hd⟩ := hv
    refine Good.bind (print_good' (x := .user x) hE hT trivial hd h hx) ?_
    rintro s w' ⟨h1, h2⟩
    exact Good.pure ⟨S, ⟨rfl, rfl, i, a, s, hx, h1, rfl⟩, h2⟩
  | write s => exact ⟨S, ⟨rfl, rfl, rfl⟩, h⟩
  | setField k => exact ⟨S, ⟨rfl, rfl, rfl⟩, h⟩
  | ws =>
    refine ⟨S, ⟨rfl, rfl, io.inp.chars.takeWhile isSpace, io.inp.chars.dropWhile isSpace,
      (List.takeWhile_append_dropWhile).symm, fun c hc => List.mem_takeWhile_imp hc, fun c hc => ?_, rfl⟩, h⟩
    have := List.head?_dropWhile_not isSpace io.inp.chars
    rw [hc] at this
    simpa using this
  | hash x =>
    obtain ⟨i, a, hx⟩ := hv
    refine Good.bind (P := fun b w' => ∃ d, b = hf d ∧ CastsTo a d ∧ RepresentsUpTo L α I Λ S w')
      (Good.bind (toDouble_good (x := .user x) hE trivial h hx) fun d w' hd => Good.pure ⟨d, rfl, ?_, hd.2.1⟩) ?_
    · exact NearDouble.castsTo hd.1
    · rintro b w' ⟨d, rfl, hd, h'⟩
      exact Good.pure ⟨S, ⟨rfl, rfl, i, a, d, hx, hd, rfl⟩, h'⟩
  | construct x k s =>
    by_cases hs : ∃ a, Denotes T α k s a
    · obtain ⟨a, ha⟩ := hs
      refine Good.bind (constructStr_good (x := .user x) hE hT h hv ha) ?_
      rintro _ w' h1
      rw [vars_update] at h1
      exact Good.pure ⟨_, ⟨rfl, rfl, a, ha, rfl⟩, h1⟩
    · push Not at hs
      show Good _ _ _ (W.bind _ _ w)
      unfold W.bind
      rw [constructStr_throw hT hs]
      exact ⟨⟨rfl, hs⟩, Λ, h⟩
  | read x =>
    obtain ⟨hx, ⟨k, hk⟩, hr⟩ := hv
    by_cases he : io.inp.eof = true
    · show Good _ _ _ (W.bind _ _ w)
      unfold W.bind extract readToken
      rw [if_pos he]
      exact ⟨.inl ⟨rfl, he⟩, Λ, h⟩
    rcases token_cases io.inp with hr' | ⟨s, st, hr⟩ | hr | hr'
    · exact absurd hr' he
    rotate_left
    · show Good _ _ _ (W.bind _ _ w)
      unfold W.bind extract
      rw [readToken_unclosed hr]
      exact ⟨.inr (.inl ⟨rfl, hr⟩), Λ, h⟩
    · exact absurd hr' hr
    · by_cases hs : ∃ a, Denotes T α k s a
      · obtain ⟨a, ha⟩ := hs
        refine Good.bind (m := extract L T (.user x) io.field io.inp) (by
          rw [hk]
          exact extract_core (x := .user x) hE hT h rfl hx (by simp) (readToken_of_token hr) ha) ?_
        rintro _ w' ⟨rfl, h1⟩
        rw [vars_update] at h1
        exact Good.pure ⟨_, ⟨rfl, k, s, _, a, hk, hr, ha, rfl, rfl⟩, h1⟩
      · push Not at hs
        have : extract L T (.user x) io.field io.inp w =
            .throw "renf_elem_class fmpq_poly_set_str_pretty" w := by
          unfold extract
          rw [readToken_of_token hr, hk]
          show W.bind (constructStr L T (.tmp 0) k s) _ w = _
          unfold W.bind
          rw [constructStr_throw hT hs]
        show Good _ _ _ (W.bind _ _ w)
        unfold W.bind
        rw [this]
        exact ⟨.inr (.inr ⟨rfl, k, s, st, hk, hr, hs⟩), Λ, h⟩

theorem execAllT_good (hb : L.bits.Ok) : ∀ {cs : List TCmd} {S : ℕ → Slot} {io : Streams} {w : World},
    RepresentsUpTo L α I Λ S w → AllowedT L T hf α S io cs →
    Good (∃ c ∈ cs, c.approximates) (fun e _ => ThrowsInT L T hf α S io cs e)
      (fun r w' => ∃ S', StepsT L T hf α S io cs r.1 S' r.2 ∧ RepresentsUpTo L α I Λ S' w')
      (execAllT L T hf cs io w)
  | [], S, io, w, h, _ => ⟨S, ⟨rfl, rfl⟩, h⟩
  | c :: cs, S, io, w, h, hv => by
    unfold execAllT
    refine Good.bind ((execT_good hE hT hb h hv.1).weaken (fun hu => ⟨c, by simp, hu⟩)
      fun s _ hs => .inl hs.1) ?_
    rintro a w₁ ⟨S₁, hs, h₁⟩
    refine Good.bind ((execAllT_good hb h₁ (hv.2 a.1 S₁ a.2 hs)).weaken
      (fun ⟨c', hc, hu⟩ => ⟨c', by simp [hc], hu⟩) fun s _ ht => .inr ⟨a.1, S₁, a.2, hs, ht⟩) ?_
    rintro as w₂ ⟨S₂, hs₂, h₂⟩
    exact Good.pure ⟨S₂, ⟨S₁, a.2, hs, hs₂⟩, h₂⟩

end

/-! ## Programs that end -/

section

variable {K : ℕ → Nf} {A : ℕ → ArbOps} {N : ∀ i, NfOps (K i)}
  {R R' : ℕ → ℕ → Field → ℤ → Res Field} {strict nd : Bool} {bits : Widths} {V : Prop}

@[inherit_doc libs] local notation "Lb" => libs K A N R strict nd bits
@[inherit_doc libs] local notation "Lr" => libs K A N R' strict nd bits

variable {p : ℕ → ℤ} (Y : Setting K A N R R' α p I) (hT : T.Ok)
include Y hT

theorem execTW_ends (hb : bits.Ok) {c : TCmd} (hV : c.rounds → V) (h : RepresentsUpTo (Lr 0) α I Λ S w)
    (hv : ValidT (Lr 0) α S io c) (hs : SizeOkT K α p S c) :
    EndsW V (fun e _ => ThrowsT (Lr 0) T α S io c e)
      (fun k => execT (Lb k) T hf c io) (fun k => execT (Lr k) T hf c io) w
      fun r w' => ∃ S', StepT (Lr 0) T hf α S io c r.1 S' r.2 ∧ RepresentsUpTo (Lr 0) α I Λ S' w' := by
  have det : ¬ c.approximates → (∀ k j, execT (Lb k) T hf c io w = execT (Lr j) T hf c io w) →
      (∀ k, execT (Lr k) T hf c io w = execT (Lr 0) T hf c io w) →
      EndsW V (fun e _ => ThrowsT (Lr 0) T α S io c e)
      (fun k => execT (Lb k) T hf c io) (fun k => execT (Lr k) T hf c io) w
      fun r w' => ∃ S', StepT (Lr 0) T hf α S io c r.1 S' r.2 ∧ RepresentsUpTo (Lr 0) α I Λ S' w' := by
    intro hc h1 h2
    exact EndsW.det (fun k => h1 k 0) h2 ((execT_good (L := Lr 0) (Y.inv 0) hT hb h hv).weaken hc
      fun _ _ h => h.1)
  cases c with
  | call c =>
    refine EndsW.bind ((execW_ends Y hb hV h hv hs).weaken id fun _ _ h => h.1) ?_
    rintro a w' ⟨S', h1, h2⟩
    exact EndsW.pure ⟨S', ⟨rfl, a, rfl, h1⟩, h2⟩
  | toString x alg d arb =>
    obtain ⟨i, a, hx, hd, hn⟩ := hv
    refine EndsW.bind (toStringW_ends (x := .user x) Y hT hn hd h hx fun hd => hs hd i a hx) ?_
    rintro s w' ⟨h1, h2⟩
    exact EndsW.pure ⟨S, ⟨rfl, rfl, i, a, s, hx, rfl, h1⟩, h2⟩
  | print x =>
    obtain ⟨i, a, hx, hd⟩ := hv
    refine EndsW.bind (printW_ends (x := .user x) Y hT hd h hx fun hi => hs (fun j b hj => ?_) i a hx) ?_
    · rw [hx] at hj
      cases hj
      exact hi
    rintro s w' ⟨h1, h2⟩
    exact EndsW.pure ⟨S, ⟨rfl, rfl, i, a, s, hx, h1, rfl⟩, h2⟩
  | hash x =>
    obtain ⟨i, a, hx⟩ := hv
    refine ((?_ : EndsW V (fun _ _ => True) (fun k => execT (Lb k) T hf (.hash x) io)
      (fun k => execT (Lr k) T hf (.hash x) io) w fun _ _ => True).and_good (U := True) fun k => ?_).mono
        fun _ _ h => h.2
    · refine EndsW.bind (Q := fun _ _ => True) (EndsW.bind (toDoubleW_ends (x := .user x) Y h hx (hs i a hx))
        fun _ _ _ => EndsW.pure trivial) fun _ _ _ => EndsW.pure trivial
    · refine ((execT_good (L := Lr k) (hf := hf) (io := io) (c := .hash x) (Y.inv k) hT hb
        (h.lib (L' := Lr k) rfl) ⟨i, a, hx⟩).weaken (fun _ => trivial) fun _ _ h => h.1).mono ?_
      rintro r w' ⟨S', h1, h2⟩
      exact ⟨S', h1, h2.lib (L' := Lr 0) rfl⟩
  | write s => exact det (fun h => h) (fun _ _ => rfl) fun _ => rfl
  | setField s => exact det (fun h => h) (fun _ _ => rfl) fun _ => rfl
  | ws => exact det (fun h => h) (fun _ _ => rfl) fun _ => rfl
  | construct x k s => exact det (fun h => h) (fun _ _ => rfl) fun _ => rfl
  | read x => exact det (fun h => h) (fun _ _ => rfl) fun _ => rfl

theorem execAllTW_ends (hb : bits.Ok) : ∀ {cs : List TCmd} {S : ℕ → Slot} {io : Streams} {w : World},
    RepresentsUpTo (Lr 0) α I Λ S w → AllowedSizedT (Lr 0) T hf α p S io cs →
    EndsW (∃ c ∈ cs, c.rounds) (fun e _ => ThrowsInT (Lr 0) T hf α S io cs e)
      (fun k => execAllT (Lb k) T hf cs io) (fun k => execAllT (Lr k) T hf cs io) w
      fun r w' => ∃ S', StepsT (Lr 0) T hf α S io cs r.1 S' r.2 ∧ RepresentsUpTo (Lr 0) α I Λ S' w'
  | [], S, io, w, h, _ => EndsW.pure ⟨S, ⟨rfl, rfl⟩, h⟩
  | c :: cs, S, io, w, h, hv => by
    unfold execAllT
    refine EndsW.bind ((execTW_ends Y hT hb (V := ∃ c' ∈ c :: cs, c'.rounds) (fun h => ⟨c, by simp, h⟩) h
      hv.1 hv.2.1).weaken id fun s _ hs => .inl hs) ?_
    rintro a w₁ ⟨S₁, hs, h₁⟩
    refine EndsW.bind ((execAllTW_ends hb h₁ (hv.2.2 a.1 S₁ a.2 hs)).weaken
      (fun ⟨c', hc, hu⟩ => ⟨c', by simp [hc], hu⟩) fun s _ ht => .inr ⟨a.1, S₁, a.2, hs, ht⟩) ?_
    rintro as w₂ ⟨S₂, hs₂, h₂⟩
    exact EndsW.pure ⟨S₂, ⟨S₁, a.2, hs, hs₂⟩, h₂⟩

end

end EAntic.Cxx
