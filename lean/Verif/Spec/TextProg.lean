import Verif.Spec.TextIO
import Verif.Spec.CxxEnds
import Verif.Model.TextProg

/-! # Specification: programs that compute, print and read -/

namespace EAntic.Cxx

/-- the list does not end with white space -/
def NoSpaceAtEnd (l : List Char) : Prop := ∀ c, l.getLast? = some c → isSpace c = false

/-- The list does not close a parenthesis that was opened in front of it.  A closing parenthesis right
after white space does not count: it is taken for a character of the number. -/
def NotClosed (l : List Char) : Prop :=
  ∀ u v, l = u ++ ')' :: v → ∃ u' c, u = u' ++ [c] ∧ isSpace c = true

/-- `is >> x` takes the text `s` from the stream `st` and leaves `st'`: a group in parentheses, of
which white space is ignored, or everything up to the next white space. -/
def Token (st : Stream) (s : List Char) (st' : Stream) : Prop :=
  st.eof = false ∧
  ((∃ body rest, st.chars = '(' :: (body ++ ')' :: rest) ∧ NotClosed body ∧ NoSpaceAtEnd body ∧
      s = body.filter (fun c => !isSpace c) ∧ st' = ⟨rest, false⟩) ∨
   ∃ rest, st.chars = s ++ rest ∧ (∀ c ∈ s, isSpace c = false) ∧ s.head? ≠ some '(' ∧ Delimits rest ∧
      st' = ⟨rest, rest.isEmpty⟩)

/-- a parenthesis that is not closed -/
def Unclosed (st : Stream) : Prop :=
  st.eof = false ∧ ∃ body, st.chars = '(' :: body ∧ NotClosed body ∧ NoSpaceAtEnd body

/-- a parenthesis that is not closed, with white space at the end of the stream -/
def UnclosedBlank (st : Stream) : Prop :=
  st.eof = false ∧ ∃ body c, st.chars = '(' :: (body ++ [c]) ∧ isSpace c = true ∧ NotClosed (body ++ [c])

/-- `s`, up to a tilde, is a text of the number `a` of the field `k` -/
def Denotes (T : TextLib) (α : ℕ → ℝ) (k : ℕ) (s : List Char) (a : ℝ) : Prop :=
  Text.IsTextOf T.readRat (T.gen k) (α k) a (s.takeWhile (· != '~'))

/-- Calls a program may make. -/
def ValidT (L : Lib) (α : ℕ → ℝ) (S : ℕ → Slot) (io : Streams) : TCmd → Prop
  | .call c => Valid L α S c
  | .toString x alg d arb => ∃ i a, S x = .elem i a ∧ (alg = true → (L.K i).degree < 2 ^ 63) ∧
      ((d && arb) = true → L.ndebug = true)
  | .print x => ∃ i a, S x = .elem i a ∧ (L.K i).degree < 2 ^ 63
  | .hash x => ∃ i a, S x = .elem i a
  | .construct x _ _ => S x = .absent
  | .read x => S x ≠ .absent ∧ (∃ k, io.field = some k) ∧ ¬ UnclosedBlank io.inp
  | .write _ | .setField _ | .ws => True

/-- What a call returns, and the state after it. -/
def StepT (L : Lib) (T : TextLib) {γ : Type} (h : Dbl → γ) (α : ℕ → ℝ) (S : ℕ → Slot) (io : Streams)
    (c : TCmd) (ans : TVal γ) (S' : ℕ → Slot) (io' : Streams) : Prop :=
  match c with
  | .call c => io' = io ∧ ∃ v, ans = .val v ∧ Step L α S c v S'
  | .toString x alg d arb => S' = S ∧ io' = io ∧ ∃ i a s, S x = .elem i a ∧ ans = .text s ∧
      StringOf T α i a alg d arb s
  | .print x => S' = S ∧ ans = .val .unit ∧ ∃ i a s, S x = .elem i a ∧ IsPrinted T α i a s ∧
      io' = { io with out := io.out ++ s }
  | .write s => S' = S ∧ ans = .val .unit ∧ io' = { io with out := io.out ++ s }
  | .hash x => S' = S ∧ io' = io ∧ ∃ i a d, S x = .elem i a ∧ CastsTo a d ∧ ans = .hash (h d)
  | .construct x k s => io' = io ∧ ans = .val .unit ∧ ∃ a, Denotes T α k s a ∧
      S' = Function.update S x (.elem k a)
  | .setField k => S' = S ∧ ans = .val .unit ∧ io' = { io with field := some k }
  | .ws => S' = S ∧ ans = .val .unit ∧ ∃ b rest, io.inp.chars = b ++ rest ∧ (∀ c ∈ b, isSpace c = true) ∧
      (∀ c, rest.head? = some c → isSpace c = false) ∧
      io' = { io with inp := ⟨rest, io.inp.eof || rest.isEmpty⟩ }
  | .read x => ans = .val .unit ∧ ∃ k s st a, io.field = some k ∧ Token io.inp s st ∧ Denotes T α k s a ∧
      S' = Function.update S x (.elem k a) ∧ io' = { io with inp := st }

/-- When a call throws, and which exception. -/
def ThrowsT (L : Lib) (T : TextLib) (α : ℕ → ℝ) (S : ℕ → Slot) (io : Streams) : TCmd → String → Prop
  | .call c, e => Throws L S c e
  | .construct _ k s, e => e = "renf_elem_class fmpq_poly_set_str_pretty" ∧ ∀ a, ¬ Denotes T α k s a
  | .read _, e => e = "empty stream" ∧ io.inp.eof = true ∨ e = "invalid stream" ∧ Unclosed io.inp ∨
      e = "renf_elem_class fmpq_poly_set_str_pretty" ∧
        ∃ k s st, io.field = some k ∧ Token io.inp s st ∧ ∀ a, ¬ Denotes T α k s a
  | _, _ => False

/-- Calls that evaluate numbers with increasing precision. -/
def TCmd.approximates : TCmd → Prop
  | .call c => c.approximates
  | .toString _ _ d _ => d = true
  | .print _ | .hash _ => True
  | _ => False

/-- Calls that round a number to an integer. -/
def TCmd.rounds : TCmd → Prop
  | .call c => c.rounds
  | _ => False

/-- Numbers that occur in a call that evaluates numbers are of moderate size. -/
def SizeOkT (K : ℕ → Nf) (α : ℕ → ℝ) (p : ℕ → ℤ) (S : ℕ → Slot) : TCmd → Prop
  | .call c => SizeOk K α p S c
  | .toString x _ d _ => d = true → SizeOk K α p S (.toDouble x)
  | .hash x => SizeOk K α p S (.toDouble x)
  | .print x => (∀ i a, S x = .elem i a → ¬ IsInt a) → SizeOk K α p S (.toDouble x)
  | _ => True

section

variable (L : Lib) (T : TextLib) {γ : Type} (h : Dbl → γ) (α : ℕ → ℝ)

/-- A program on exact real numbers. -/
def StepsT : (ℕ → Slot) → Streams → List TCmd → List (TVal γ) → (ℕ → Slot) → Streams → Prop
  | S, io, [], [], S', io' => S' = S ∧ io' = io
  | S, io, c :: cs, a :: as, S', io' => ∃ S₁ io₁, StepT L T h α S io c a S₁ io₁ ∧
      StepsT S₁ io₁ cs as S' io'
  | _, _, _, _, _, _ => False

/-- Every call of a program is one it may make, whatever the earlier calls returned. -/
def AllowedT : (ℕ → Slot) → Streams → List TCmd → Prop
  | _, _, [] => True
  | S, io, c :: cs => ValidT L α S io c ∧
      ∀ a S' io', StepT L T h α S io c a S' io' → AllowedT S' io' cs

/-- and its numbers are of moderate size -/
def AllowedSizedT (p : ℕ → ℤ) : (ℕ → Slot) → Streams → List TCmd → Prop
  | _, _, [] => True
  | S, io, c :: cs => ValidT L α S io c ∧ SizeOkT L.K α p S c ∧
      ∀ a S' io', StepT L T h α S io c a S' io' → AllowedSizedT p S' io' cs

/-- A program throws at one of its calls. -/
def ThrowsInT : (ℕ → Slot) → Streams → List TCmd → String → Prop
  | _, _, [], _ => False
  | S, io, c :: cs, e => ThrowsT L T α S io c e ∨
      ∃ a S' io', StepT L T h α S io c a S' io' ∧ ThrowsInT S' io' cs e

end

end EAntic.Cxx
