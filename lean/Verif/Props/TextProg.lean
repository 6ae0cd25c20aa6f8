import Verif.Lemmas.TextProg
import Verif.Lemmas.CxxSetting
import Verif.Props.Text
import Verif.Props.CxxEnds

/-!
# C68: programs that compute, print and read

The specification is in `Spec/TextProg.lean`: a program works on exact real numbers, an input stream
and an output stream.
-/

namespace EAntic.Cxx
open Polynomial

section

variable {L : Lib} {α : ℕ → ℝ} {I : ℕ → Field → Prop} {S : ℕ → Slot} {w w' : World} {T : TextLib}
  {γ : Type} {hf : Dbl → γ} {io : Streams}

/-- C68.  Whatever a program computes, prints and reads: if it returns then it returned the answers of
exact arithmetic, what it wrote are texts of the numbers, what it read are the numbers that the texts
denote, the rest of the input is left, and the memory is in order.  If it throws then at a call that
must throw. -/
theorem C68_programs (hE : ∀ i, FieldInv (L.E i) (α i) (I i)) (hT : T.Ok) (hb : L.bits.Ok)
    {cs : List TCmd} (h : Represents L α I S w) (hv : AllowedT L T hf α S io cs) :
    (∀ as io' w', execAllT L T hf cs io w = .ok ((as, io'), w') →
      ∃ S', StepsT L T hf α S io cs as S' io' ∧ Represents L α I S' w') ∧
    ∀ e w', execAllT L T hf cs io w = .throw e w' → ThrowsInT L T hf α S io cs e := by
  have := execAllT_good (hf := hf) hE hT hb h hv
  constructor
  · intro as io' w' e; rw [e] at this; exact this
  · intro e w' he; rw [he] at this; exact this

/-- C68.  A program that does not evaluate numbers (arithmetic, equality, reading, `to_string` of the
algebraic form or of the stored enclosure) always returns or throws. -/
theorem C68_safe_programs (hE : ∀ i, FieldInv (L.E i) (α i) (I i)) (hT : T.Ok) (hb : L.bits.Ok)
    {cs : List TCmd} (h : Represents L α I S w) (hv : AllowedT L T hf α S io cs)
    (hc : ∀ c ∈ cs, ¬ c.approximates) :
    (∃ as io' w' S', execAllT L T hf cs io w = .ok ((as, io'), w') ∧
      StepsT L T hf α S io cs as S' io' ∧ Represents L α I S' w') ∨
    ∃ e w', execAllT L T hf cs io w = .throw e w' ∧ ThrowsInT L T hf α S io cs e := by
  have := (execAllT_good (hf := hf) hE hT hb h hv).weaken (fun ⟨c, h1, h2⟩ => hc c h1 h2) fun _ _ h => h
  cases hr : execAllT L T hf cs io w with
  | ok p =>
    rw [hr] at this
    obtain ⟨S', h1, h2⟩ := this
    exact .inl ⟨p.1.1, p.1.2, p.2, S', rfl, h1, h2⟩
  | throw e w' =>
    rw [hr] at this
    exact .inr ⟨e, w', rfl, this⟩
  | running => rw [hr] at this; exact this.elim
  | abort => rw [hr] at this; exact this.elim
  | ub => rw [hr] at this; exact this.elim

/-- a text denotes at most one number -/
theorem Denotes.unique (hT : T.Ok) {k : ℕ} {s : List Char} {a b : ℝ} (ha : Denotes T α k s a)
    (hb : Denotes T α k s b) : a = b := by
  obtain ⟨P, hP, rfl⟩ := ha
  obtain ⟨Q, hQ, rfl⟩ := hb
  rw [Text.C31_unambiguous (hT.gen k) hP hQ]

/-- C68.  What one program prints another one reads: if `s` was printed for the number `a` of a field
then from a stream that continues with `s`, and white space or the end after it, exactly `s` is taken,
and it denotes `a` and no other number. -/
theorem C68_pipe (hT : T.Ok) {k : ℕ} {a : ℝ} {s rest : List Char} (hs : IsPrinted T α k a s)
    (hr : Delimits rest) :
    ∃ t st, Token ⟨s ++ rest, false⟩ t st ∧ st.chars = rest ∧ ∀ b, Denotes T α k t b ↔ b = a := by
  have htw : ∀ {t u : List Char}, (∀ c ∈ t, c ≠ '~') → (t ++ '~' :: u).takeWhile (· != '~') = t :=
    fun {t u} h => by
      rw [List.takeWhile_append_of_pos (by intro c hc; simpa using h c hc)]
      simp
  have htw' : ∀ {t : List Char}, (∀ c ∈ t, c ≠ '~') → t.takeWhile (· != '~') = t :=
    fun {t} h => List.takeWhile_eq_self_iff.2 (by intro c hc; simpa using h c hc)
  have key : ∀ {t : List Char}, Denotes T α k t a → ∀ b, Denotes T α k t b ↔ b = a :=
    fun h b => ⟨fun h' => h'.unique hT h, fun e => e ▸ h⟩
  rcases hs.printed hT with ⟨hi, hs⟩ | ⟨t, u, ht, hu, ⟨l, c, rfl, hl⟩, rfl⟩
  · refine ⟨s, _, ⟨rfl, .inr ⟨rest, rfl, hs.int hi, ?_, hr, rfl⟩⟩, rfl, key ?_⟩
    · intro h
      exact (hs.safe '(' (List.mem_of_mem_head? h)).1 rfl
    · show Text.IsTextOf _ _ _ _ (s.takeWhile _)
      rw [htw' fun c hc => (hs.safe c hc).2.2]
      exact hs.text
  · refine ⟨_, _, ⟨rfl, .inl ⟨t ++ [' ', '~', ' '] ++ (l ++ [c]), rest, by simp, ?_, ?_, rfl, rfl⟩⟩, rfl,
      key ?_⟩
    · refine notClosed_of fun d hd => ?_
      simp only [List.mem_append] at hd
      rcases hd with (hd | hd) | hd
      · exact (ht.safe d hd).2.1
      · simp at hd; rcases hd with rfl | rfl | rfl <;> decide
      · exact hu d (by simpa using hd)
    · intro d hd
      rw [← List.append_assoc, List.getLast?_append_of_ne_nil _ (by simp)] at hd
      simp at hd; subst hd; exact hl
    · show Text.IsTextOf _ _ _ _ (List.takeWhile _ _)
      have e : (t ++ [' ', '~', ' '] ++ (l ++ [c])).filter (fun c => !isSpace c) =
          t.filter (fun c => !isSpace c) ++ '~' :: (l ++ [c]).filter (fun c => !isSpace c) := by
        simp [List.filter_append, isSpace, List.filter]
      rw [e, htw fun c hc => (ht.safe c (List.mem_of_mem_filter hc)).2.2]
      exact ht.squeezed

/-- C68.  Reading is deterministic: a stream determines what is taken from it and what is left. -/
theorem C68_token_unique {st st₁ st₂ : Stream} {s₁ s₂ : List Char} (h₁ : Token st s₁ st₁)
    (h₂ : Token st s₂ st₂) : s₁ = s₂ ∧ st₁ = st₂ := by
  have := (readToken_of_token h₁).symm.trans (readToken_of_token h₂)
  simpa using this

/-- C68.  Reading covers every stream: it is at its end, or there is something to read, or a parenthesis
is not closed; if in the last case the stream ends with white space then a variable is used that has no
value (`renf_class.cpp:257-259`): undefined behaviour. -/
theorem C68_token_total (st : Stream) :
    (st.eof = true ∧ readToken st = .throw "empty stream") ∨
    (∃ s st', Token st s st' ∧ readToken st = .ok (s, st')) ∨
    (Unclosed st ∧ readToken st = .throw "invalid stream") ∨ (UnclosedBlank st ∧ readToken st = .ub) := by
  rcases token_cases st with h | ⟨s, st', h⟩ | h | h
  · exact .inl ⟨h, by unfold readToken; rw [if_pos h]⟩
  · exact .inr (.inl ⟨s, st', h, readToken_of_token h⟩)
  · exact .inr (.inr (.inl ⟨h, readToken_unclosed h⟩))
  · exact .inr (.inr (.inr ⟨h, readToken_blank h⟩))

/-- C68 is false for a blank in front of the closing parenthesis: the parenthesis and the number after
it are taken for a part of the first number.  From `(a ~ 1.26 ) (7)` one number is read, `a`, without
an exception, and nothing is left of the 7. -/
theorem C68_blank_counterexample (hE : ∀ i, FieldInv (L.E i) (α i) (I i)) (hT : T.Ok) (hb : L.bits.Ok)
    {k x : ℕ} (hk : T.gen k = ['a']) (h : Represents L α I S w) (hx : S x ≠ .absent)
    {out : List Char} :
    ∃ as w', execAllT L T hf [.read x] ⟨⟨"(a ~ 1.26 ) (7)".toList, false⟩, some k, out⟩ w =
        .ok ((as, ⟨⟨[], false⟩, some k, out⟩), w') ∧
      Represents L α I (Function.update S x (.elem k (α k))) w' := by
  have ht : Token ⟨"(a ~ 1.26 ) (7)".toList, false⟩ "a~1.26)(7".toList ⟨[], false⟩ := by
    refine ⟨rfl, .inl ⟨"a ~ 1.26 ) (7".toList, [], rfl, ?_, ?_, rfl, rfl⟩⟩
    · intro u v huv
      have : u = "a ~ 1.26 ".toList := by
        have h1 : u.length = 9 := by
          have hu : ("a ~ 1.26 ) (7".toList)[u.length]? = some ')' := by rw [huv]; simp
          have hlt : u.length < 13 := by
            have := congrArg List.length huv
            simp at this; omega
          revert hu hlt
          generalize u.length = n
          intro hu hlt
          interval_cases n <;> first | rfl | exact absurd hu (by decide)
        have h2 := congrArg (List.take 9) huv
        rw [← h1, List.take_left] at h2
        rw [← h2, h1]
        rfl
      exact ⟨"a ~ 1.26".toList, ' ', this, rfl⟩
    · intro c hc
      obtain rfl : '7' = c := Option.some.inj hc
      decide
  have hd : Denotes T α k "a~1.26)(7".toList (α k) := by
    refine ⟨X, ⟨[(⟨[], none, 0, some ⟨none, .one 0⟩⟩, 1, 1)], by
      intro x hx
      rw [List.mem_singleton.1 hx]
      exact ⟨⟨by simp, by simp, by simp, by rintro _ ⟨⟩; trivial⟩, rfl, .inl ⟨rfl, by
        simp [Text.Term.sign]⟩⟩, by simp, ?_, by simp⟩, by simp⟩
    rw [hk]; rfl
  rcases C68_safe_programs (hf := hf) (cs := [.read x])
      (io := ⟨⟨"(a ~ 1.26 ) (7)".toList, false⟩, some k, out⟩) hE hT hb h
      ⟨⟨hx, ⟨k, rfl⟩, ht.not_blank⟩, fun _ _ _ _ => trivial⟩ (by simp [TCmd.approximates]) with
    ⟨as, io', w', S', h1, h2, h3⟩ | ⟨e, w', -, h2⟩
  · cases as with
    | nil => exact h2.elim
    | cons a as =>
      obtain ⟨S₁, io₁, ⟨-, k', s', st, b, hk', ht', hd', rfl, rfl⟩, h5⟩ := h2
      cases hk'
      obtain ⟨rfl, rfl⟩ := C68_token_unique ht ht'
      obtain rfl := hd.unique hT hd'
      cases as with
      | cons => exact h5.elim
      | nil =>
        obtain ⟨rfl, rfl⟩ := h5
        exact ⟨_, w', h1, h3⟩
  · rcases h2 with (⟨-, h2⟩ | ⟨-, h2⟩ | ⟨-, k', s', st, hk', ht', h2⟩) | ⟨_, _, _, -, h2⟩
    · cases h2
    · have := (readToken_unclosed h2).symm.trans (readToken_of_token ht)
      cases this
    · cases hk'
      obtain ⟨rfl, rfl⟩ := C68_token_unique ht ht'
      exact absurd hd (h2 _)
    · exact h2.elim

/-- C32.  `to_string` with any flags.  In a build with assertions the program must not ask for the
double and the enclosure at once.  Without the double it always returns. -/
theorem C32_to_string (hE : ∀ i, FieldInv (L.E i) (α i) (I i)) (hT : T.Ok) (h : Represents L α I S w)
    {x k : ℕ} {a : ℝ} (hx : S x = .elem k a) {alg d arb : Bool}
    (hd : alg = true → (L.K k).degree < 2 ^ 63) (hn : (d && arb) = true → L.ndebug = true) :
    (∀ s w', toString L T (.user x) alg d arb w = .ok (s, w') →
      StringOf T α k a alg d arb s ∧ Represents L α I S w') ∧
    (d = false → ∃ s w', toString L T (.user x) alg d arb w = .ok (s, w')) ∧
    ∀ e w', toString L T (.user x) alg d arb w ≠ .throw e w' := by
  refine ⟨fun s w' e => ?_, fun hd' => ?_, fun e w' he => ?_⟩
  · have := toString_good (x := .user x) (U := True) (X := fun _ _ => True) hE hT (fun _ => trivial) hn hd h
      hx
    rw [e] at this
    exact this
  · have := toString_good (x := .user x) (U := False) (X := fun _ _ => False) hE hT (by simp [hd']) hn hd h
      hx
    cases hr : toString L T (.user x) alg d arb w with
    | ok p => exact ⟨p.1, p.2, rfl⟩
    | _ => rw [hr] at this; exact this.elim
  · have := toString_good (x := .user x) (U := True) (X := fun _ _ => False) hE hT (fun _ => trivial) hn hd h
      hx
    rw [he] at this
    exact this

end

/-- C68, for enclosures that are narrow enough and numbers of moderate size, as in
`C62_programs_end_partial`: programs that compute, print, hash and read come to an end, with an outcome
that does not depend on how many rounds loops are given: as on exact real numbers; or with an exception
that must be thrown; or the working precision of a refinement overflows; or, if a number is rounded,
with `abort` as the exponent of an enclosure does not fit into a machine word. -/
theorem C68_programs_end_partial {K : ℕ → Nf} {α : ℕ → ℝ} (hK : ∀ i, (K i).Ok)
    (hα : ∀ i, (K i).IsRoot (α i)) (hs : ∀ i, 3 ≤ (K i).pol.length → (K i).Sane (α i))
    {A : ℕ → ArbOps} (hA : ∀ i, (A i).Tight) (hC : ∀ i, (A i).Convergent) :
    ∃ δ : ℕ → ℝ, (∀ i, 0 < δ i) ∧ ∀ (N : ∀ i, NfOps (K i)) (strict ndebug : Bool) (bits : Widths)
      (T : TextLib) (γ : Type) (hf : Dbl → γ) (p : ℕ → ℤ), bits.Ok → T.Ok → (∀ i, 2 ≤ p i ∧ p i ≤ 2 ^ 63) →
      let code := libs K A N (fun i k => refineEmbedding (A i) ndebug k) strict ndebug bits
      let code' := libs K A N (fun i k => refineAt (A i) ndebug k) strict ndebug bits
      let I := fun i => FieldStart (K i) (α i) (δ i) (p i) ndebug
      ∀ (S : ℕ → Slot) (io : Streams) (w : World) (cs : List TCmd),
        Represents (code' 0) α I S w → AllowedSizedT (code' 0) T hf α p S io cs →
        EndsW (∃ c ∈ cs, c.rounds) (fun e _ => ThrowsInT (code' 0) T hf α S io cs e)
          (fun k => execAllT (code k) T hf cs io) (fun k => execAllT (code' k) T hf cs io) w
          fun r w' => ∃ S', StepsT (code' 0) T hf α S io cs r.1 S' r.2 ∧ Represents (code' 0) α I S' w' := by
  obtain ⟨δ, hδ, H⟩ := exists_setting hK hα hs hA hC
  refine ⟨δ, hδ, ?_⟩
  intro N strict ndebug bits T γ hf p hb hT hp code code' I S io w cs h hv
  exact execAllTW_ends (H N ndebug p hp) hT hb h hv

/-- C32, for narrow enclosures and numbers of moderate size: `os << x` ends.  It writes the text of the
number; the only other outcome is that the working precision of a refinement overflows. -/
theorem C32_print_ends_partial {K : ℕ → Nf} {α : ℕ → ℝ} (hK : ∀ i, (K i).Ok)
    (hα : ∀ i, (K i).IsRoot (α i)) (hs : ∀ i, 3 ≤ (K i).pol.length → (K i).Sane (α i))
    {A : ℕ → ArbOps} (hA : ∀ i, (A i).Tight) (hC : ∀ i, (A i).Convergent) :
    ∃ δ : ℕ → ℝ, (∀ i, 0 < δ i) ∧ ∀ (N : ∀ i, NfOps (K i)) (strict ndebug : Bool) (bits : Widths)
      (T : TextLib) (p : ℕ → ℤ), T.Ok → (∀ i, 2 ≤ p i ∧ p i ≤ 2 ^ 63) →
      let code := libs K A N (fun i k => refineEmbedding (A i) ndebug k) strict ndebug bits
      let code' := libs K A N (fun i k => refineAt (A i) ndebug k) strict ndebug bits
      let I := fun i => FieldStart (K i) (α i) (δ i) (p i) ndebug
      ∀ (S : ℕ → Slot) (w : World) (x i : ℕ) (a : ℝ), Represents (code' 0) α I S w →
        S x = .elem i a → (K i).degree < 2 ^ 63 → (¬ IsInt a → SizeOk K α p S (.toDouble x)) →
        ∃ n : ℕ, (∃ s w', IsPrinted T α i a s ∧ Represents (code' 0) α I S w' ∧
            ∀ k, n ≤ k → print (code k) T (.user x) w = .ok (s, w')) ∨
          ∀ k, n ≤ k → print (code k) T (.user x) w = .ub ∧ print (code' k) T (.user x) w = .abort := by
  obtain ⟨δ, hδ, H⟩ := exists_setting hK hα hs hA hC
  refine ⟨δ, hδ, ?_⟩
  intro N strict ndebug bits T p hT hp code code' I S w x i a h hx hd hsz
  obtain ⟨n, hn⟩ := printW_ends (x := .user x) (V := False) (X := fun _ _ => False) (strict := strict)
    (bits := bits) (H N ndebug p hp) hT hd h hx fun hi => hsz hi i a hx
  refine ⟨n, ?_⟩
  rcases hn with ⟨s, w', h1, h2⟩ | ⟨_, _, h1, _⟩ | h1 | ⟨h1, _⟩
  · exact .inl ⟨s, w', h1.1, h1.2, fun k hk => (h2 k hk).1⟩
  · exact h1.elim
  · exact .inr h1
  · exact h1.elim

/-! ## The theorems are not vacuous -/

/-- the name of the generator in the counterexample -/
example : textLib.gen 1 = ['a'] ∧ textLib.Ok := ⟨rfl, textLib_ok⟩

/-- read two numbers, print their difference, and its text with an enclosure -/
def demoText : List TCmd :=
  [.setField 1, .call (.construct 0 1), .call (.construct 1 1), .read 0, .ws, .read 1,
    .call (.binop .sub 0 1), .print 0, .toString 0 true false true, .hash 0]

/-- the program is allowed for an input with two elements -/
example : AllowedT lib textLib (γ := Dbl) id gens (fun _ => .absent)
    ⟨⟨"(a ~ 1.25) 7".toList, false⟩, none, []⟩ demoText := by
  have t1 : Token ⟨"(a ~ 1.25) 7".toList, false⟩ "a~1.25".toList ⟨" 7".toList, false⟩ :=
    ⟨rfl, .inl ⟨"a ~ 1.25".toList, " 7".toList, rfl, notClosed_of (by decide), by intro c hc; obtain rfl : '5' = c := Option.some.inj hc; decide, rfl, rfl⟩⟩
  have t2 : Token ⟨"7".toList, false⟩ "7".toList ⟨[], true⟩ :=
    ⟨rfl, .inr ⟨[], rfl, by decide, by decide, trivial, rfl⟩⟩
  refine ⟨trivial, ?_⟩
  rintro _ _ _ ⟨rfl, -, rfl⟩
  refine ⟨rfl, ?_⟩
  rintro _ _ _ ⟨rfl, _, -, -, rfl⟩
  refine ⟨rfl, ?_⟩
  rintro _ _ _ ⟨rfl, _, -, -, rfl⟩
  refine ⟨⟨by simp, ⟨1, rfl⟩, Token.not_blank t1⟩, ?_⟩
  rintro _ _ _ ⟨-, k, s, st, a, hk, hst, -, rfl, rfl⟩
  obtain ⟨rfl, rfl⟩ := C68_token_unique t1 hst
  cases hk
  refine ⟨trivial, ?_⟩
  rintro _ _ _ ⟨rfl, -, b, rest, h1, h2, h3, rfl⟩
  obtain rfl : rest = "7".toList := by
    cases b with
    | nil =>
      simp only [List.nil_append] at h1
      subst h1
      exact absurd (h3 ' ' rfl) (by decide)
    | cons c b =>
      cases b with
      | nil => exact (List.cons.inj h1).2.symm
      | cons d b =>
        simp only [List.cons_append] at h1
        have : d = '7' := by
          have := congrArg (fun l => l.tail.head?) h1
          simpa using this.symm
        subst this
        exact absurd (h2 '7' (by simp)) (by decide)
  refine ⟨⟨by simp, ⟨1, rfl⟩, Token.not_blank t2⟩, ?_⟩
  rintro _ _ _ ⟨-, k, s, st, b, hk, hst, -, rfl, rfl⟩
  cases hk
  refine ⟨⟨⟨1, a, by simp⟩, 1, b, by simp, by simp⟩, ?_⟩
  rintro _ _ _ ⟨rfl, _, -, i, a', j, b', k, h1, h2, -, h4, -, rfl⟩
  simp at h1 h2
  obtain ⟨rfl, rfl⟩ := h1
  obtain ⟨rfl, rfl⟩ := h2
  obtain ⟨-, rfl⟩ | ⟨h, -⟩ | ⟨h, -⟩ := h4
  · refine ⟨⟨1, _, by simp; rfl, by decide⟩, ?_⟩
    rintro _ _ _ ⟨rfl, -, -, -, -, -, -, rfl⟩
    refine ⟨⟨1, _, by simp; rfl, fun _ => by decide, by simp⟩, ?_⟩
    rintro _ _ _ ⟨rfl, rfl, -⟩
    exact ⟨⟨1, _, by simp; rfl⟩, fun _ _ _ _ => trivial⟩
  · exact absurd rfl h
  · exact absurd rfl h

private theorem sizeable3_shift (s z : ℤ) (hs : s = 1 ∨ s = -1) (hz : |z| ≤ 2 ^ 1024) {p : ℤ} (hp : 2 ≤ p) :
    Sizeable K3 cbrt2 p (s * cbrt2 + z) := by
  obtain ⟨h1, h2⟩ := cbrt2_bounds
  have wf : (⟨[z, s], 1, 0⟩ : NfElem).Wf K3 := by
    have hl' : K3.isLinear = false := rfl
    have hq : K3.isQuadratic = false := rfl
    refine ⟨show (0 : ℤ) < 1 by norm_num, ?_, by rw [hl']; simp, by rw [hq]; simp, fun _ _ => ?_⟩
    · show Nat.gcd 1 _ = 1
      simp
    · refine ⟨by show 2 ≤ 3; norm_num, ?_⟩
      rcases hs with rfl | rfl <;> simp
  have := sizeable_of_one_le K3_ok K3_root (by rw [abs_of_nonneg (by linarith)]; exact h1) wf hp (k := 1025) (by
    rw [abs_of_nonneg (by linarith)]
    have hz' : |(z : ℝ)| ≤ 2 ^ 1024 := by exact_mod_cast hz
    have hs' : |(s : ℝ)| = 1 := by rcases hs with rfl | rfl <;> simp
    simp only [List.map_cons, List.map_nil, toPoly, Polynomial.eval_add, Polynomial.eval_C,
      Polynomial.eval_mul, Polynomial.eval_X]
    push_cast
    rw [hs']
    have : (2 : ℝ) ^ (1025 : ℤ) = 2 ^ 1024 + 2 ^ 1024 := by
      rw [show (1025 : ℤ) = ((1025 : ℕ) : ℤ) by norm_num, zpow_natCast,
        show (1025 : ℕ) = 1024 + 1 from rfl, pow_succ]; ring
    rw [this]
    have h5 : (5 : ℝ) ≤ 2 ^ 1024 := by
      calc (5 : ℝ) ≤ 2 ^ 3 := by norm_num
        _ ≤ 2 ^ 1024 := pow_le_pow_right₀ (by norm_num) (by norm_num)
    generalize (2 : ℝ) ^ 1024 = P at *
    simp only [Polynomial.eval_zero, mul_zero, add_zero, mul_one]
    clear this wf hs hs' hz
    generalize |(z : ℝ)| = Q at *
    nlinarith) (by norm_num)
  rwa [show (⟨[z, s], 1, 0⟩ : NfElem).val cbrt2 = s * cbrt2 + z by
    simp [NfElem.val, realValue, toPoly]; ring] at this

/-- the sizes that are needed to print `∛2` -/
theorem cbrt2_printable (S : ℕ → Slot) {x : ℕ} (hx : S x = .elem 1 cbrt2) {p : ℤ} (hp : 2 ≤ p) :
    SizeOk lib.K gens (fun _ => p) S (.toDouble x) := by
  have hu : ((uintMax : ℚ) : ℝ) = ((2 ^ 32 - 1 : ℤ) : ℝ) := by
    norm_num [uintMax]
  have hd : ((dblMax : ℚ) : ℝ) = (((2 ^ 53 - 1) * 2 ^ 971 : ℤ) : ℝ) := by
    norm_num [dblMax]
  intro i a hi r hr
  rw [hx] at hi
  cases hi
  have key : ∀ z : ℤ, |z| ≤ 2 ^ 1024 → Sizeable K3 cbrt2 p (r - z) := by
    intro z hz
    rcases abs_eq_abs.1 hr with rfl | rfl
    · have := sizeable3_shift 1 (-z) (.inl rfl) (by rwa [abs_neg]) hp
      convert this using 1
      push_cast
      ring
    · have := sizeable3_shift (-1) (-z) (.inr rfl) (by rwa [abs_neg]) hp
      convert this using 1
      push_cast
      ring
  refine ⟨?_, ?_, ?_⟩
  · have := key 0 (by simp)
    rw [Int.cast_zero, sub_zero] at this
    exact this
  · rw [hu]
    refine key _ ?_
    calc |(2 ^ 32 - 1 : ℤ)| ≤ 2 ^ 32 := by norm_num
      _ ≤ 2 ^ 1024 := pow_le_pow_right₀ (by norm_num) (by norm_num)
  · rw [hd]
    refine key _ ?_
    calc |((2 ^ 53 - 1) * 2 ^ 971 : ℤ)| = (2 ^ 53 - 1) * 2 ^ 971 :=
          abs_of_nonneg (mul_nonneg (by norm_num) (by positivity))
      _ ≤ 2 ^ 53 * 2 ^ 971 := mul_le_mul_of_nonneg_right (by norm_num) (by positivity)
      _ = 2 ^ 1024 := by rw [← pow_add]

/-- C68 and C32 are not vacuous: the sizes of a program that prints `∛2` and hashes it are moderate. -/
example (R : ℕ → ℕ → Field → ℤ → Res Field) (strict ndebug : Bool) (io : Streams) :
    AllowedSizedT (libs lib.K (fun _ => fpArb) demoOps R strict ndebug lp64 0) textLib (γ := Dbl) id gens
      (fun _ => 64) (fun _ => .absent) io [.call (.constructVec 0 1 [0, 1] 1), .print 0, .hash 0] := by
  have hg : realValue (gens 1) [0, 1] 1 = cbrt2 := by simp [realValue, toPoly, gens]
  refine ⟨⟨rfl, by show 2 ≤ K3.degree; decide, by decide⟩, trivial, ?_⟩
  rintro _ _ _ ⟨rfl, _, rfl, -, rfl⟩
  rw [hg]
  have h0 : Function.update (fun _ : ℕ => Slot.absent) 0 (.elem 1 cbrt2) 0 = .elem 1 cbrt2 := by simp
  refine ⟨⟨1, cbrt2, h0, by show K3.degree < _; decide⟩, fun _ => cbrt2_printable _ h0 (by norm_num), ?_⟩
  rintro _ _ _ ⟨rfl, rfl, -⟩
  exact ⟨⟨1, cbrt2, h0⟩, cbrt2_printable _ h0 (by norm_num), fun _ _ _ _ => trivial⟩

/-- the streams and the answers of a program that ran, without hash values -/
def ran (r : Out (List (TVal Unit) × Streams)) : Option (List (List Char) × List Char × Stream) :=
  match r with
  | .ok (r, _) => some (r.1.filterMap fun
      | .text s => some s
      | _ => none, r.2.out, r.2.inp)
  | _ => none

/-- it runs in the field of `∛2`, and writes `∛2 - 7` with its nearest double -/
example : ran (execAllT (libs (fun _ => K3) (fun _ => fpArb) (fun _ => cubOps)
      (fun _ k => refineEmbedding fpArb false k) false false lp64 64) textLib (fun _ => ()) demoText
      ⟨⟨"(a ~ 1.25) 7".toList, false⟩, none, []⟩
      ⟨fun _ => ⟨K3, .fin (82570 / 65536) (1 / 65536), 64, false⟩, fun _ => none, 0, fun _ => none⟩) =
    some (["(a-7 ~ 0)".toList], "(a-7 ~ -6462754355192669/1125899906842624)".toList, ⟨[], true⟩) := by
  decide +kernel

end EAntic.Cxx
