import Verif.Model.Py
import Verif.Lemmas.TextIO

/-! # Lemmas on the regular expressions of the Python layer -/

namespace EAntic.Py

variable {β : Type}

lemma downTo_none {lo : ℕ} {f : ℕ → Option β} {n : ℕ} (h : ∀ m, lo ≤ m → m ≤ n → f m = none) :
    downTo lo f n = none := by
  induction n with
  | zero =>
    rw [downTo]
    split_ifs with h0
    · exact h 0 (by omega) le_rfl
    · rfl
  | succ n ih =>
    rw [downTo]
    split_ifs with h1
    · rfl
    · rw [h (n + 1) (by omega) le_rfl]
      exact ih fun m h2 h3 => h m h2 (by omega)

lemma downTo_some {lo : ℕ} {f : ℕ → Option β} {n m : ℕ} {r : β} (h1 : lo ≤ m) (h2 : m ≤ n)
    (hm : f m = some r) (h : ∀ j, m < j → j ≤ n → f j = none) : downTo lo f n = some r := by
  induction n with
  | zero =>
    have : m = 0 := by omega
    subst this
    rw [downTo, if_pos (by omega), hm]
  | succ n ih =>
    rw [downTo, if_neg (by omega)]
    rcases Nat.lt_or_ge n m with h3 | h3
    · have : m = n + 1 := by omega
      subst this
      rw [hm]
    · rw [h (n + 1) (by omega) le_rfl]
      exact ih h3 fun j h4 h5 => h j h4 (by omega)

lemma reMatch_char (d : Bool) (c : Char) (ps : List Piece) (s : List Char) :
    reMatch d (Piece.char c :: ps) (c :: s) = reMatch d ps s := by
  have hm : (Piece.char c).most (c :: s) = 1 := by
    simp only [Piece.most, Piece.char, List.takeWhile_cons, beq_self_eq_true, if_true,
      List.length_cons]
    exact Nat.min_eq_left (by omega)
  rw [reMatch, hm, downTo]
  simp only [Piece.char, List.drop_succ_cons, List.drop_zero]
  rw [if_neg (by omega)]
  cases reMatch d ps s with
  | none => simp [downTo]
  | some g => simp

lemma reMatch_literal (d : Bool) (l : List Char) (ps : List Piece) (s : List Char) :
    reMatch d (l.map Piece.char ++ ps) (l ++ s) = reMatch d ps s := by
  induction l with
  | nil => rfl
  | cons c l ih => rw [List.map_cons, List.cons_append, List.cons_append, reMatch_char, ih]

/-- nothing, or a character outside the class -/
def Stops (cls : Char → Bool) (s : List Char) : Prop := ∀ c r, s = c :: r → cls c = false

lemma takeWhile_stops {cls : Char → Bool} {a b : List Char} (ha : ∀ c ∈ a, cls c = true)
    (hb : Stops cls b) : (a ++ b).takeWhile cls = a := by
  rw [List.takeWhile_append_of_pos ha]
  cases b with
  | nil => simp
  | cons c r => rw [List.takeWhile_cons, hb c r rfl]; simp

/-- a group that takes all it can -/
lemma reMatch_group {d : Bool} {cls : Char → Bool} {ps : List Piece} {a b : List Char}
    {g : List (List Char)} (ha : a ≠ []) (hc : ∀ c ∈ a, cls c = true) (hb : Stops cls b)
    (h : reMatch d ps b = some g) : reMatch d (⟨cls, 1, none, true⟩ :: ps) (a ++ b) = some (a :: g) := by
  have hm : (⟨cls, 1, none, true⟩ : Piece).most (a ++ b) = a.length := by
    simp only [Piece.most]; rw [takeWhile_stops hc hb]
  rw [reMatch, hm]
  have hl : 1 ≤ a.length := List.length_pos_iff.2 ha
  refine downTo_some (m := a.length) hl le_rfl ?_ fun j h1 h2 => by omega
  simp [h]

theorem field_match {a b : List Char} (ha : a ≠ []) (hb : b ≠ []) (hac : ∀ c ∈ a, c ≠ ',')
    (hbc : ∀ c ∈ b, c ≠ ')') :
    reMatch true fieldPattern ("NumberField(".toList ++ a ++ ", ".toList ++ b ++ ")".toList) =
      some [a, b] := by
  unfold fieldPattern
  simp only [List.append_assoc]
  rw [reMatch_literal, List.singleton_append]
  refine reMatch_group ha (by simpa using hac) ?_ ?_
  · rintro c r h
    have : (", ".toList ++ (b ++ ")".toList)) = ',' :: (' ' :: (b ++ ")".toList)) := rfl
    rw [this] at h
    obtain ⟨rfl, -⟩ := List.cons.inj h
    decide
  · rw [reMatch_literal, List.singleton_append]
    refine reMatch_group hb (by simpa using hbc) ?_ ?_
    · rintro c r h
      obtain ⟨rfl, -⟩ := List.cons.inj h
      decide
    · rfl

/-! ## The name of the variable -/

/-- characters of the group -/
def inGroup (c : Char) : Bool := c != '^' && c != ' ' && c != '*'
/-- characters that may follow it -/
def isSep (c : Char) : Bool := c == '^' || c == ' ' || c == '+' || c == '-'

/-- the pattern without what is in front of the group -/
def tailPattern : List Piece := [⟨inGroup, 1, none, true⟩, ⟨isSep, 1, some 1, false⟩]

lemma sep_match (s : List Char) : reMatch false [⟨isSep, 1, some 1, false⟩] s =
    match s with
    | [] => none
    | c :: _ => if isSep c then some [] else none := by
  cases s with
  | nil => rfl
  | cons c r =>
    rw [reMatch]
    by_cases h : isSep c = true
    · have hm : (⟨isSep, 1, some 1, false⟩ : Piece).most (c :: r) = 1 := by
        simp only [Piece.most, List.takeWhile_cons, h, if_true, List.length_cons]
        exact Nat.min_eq_left (by omega)
      rw [hm]
      simp [downTo, reMatch, h]
    · have hm : (⟨isSep, 1, some 1, false⟩ : Piece).most (c :: r) = 0 := by
        simp only [Piece.most, List.takeWhile_cons, h]
        exact Nat.min_zero 1
      rw [hm]
      simp [downTo, h]

lemma most_le {cls : Char → Bool} {b : Bool} (s : List Char) :
    (⟨cls, 1, none, b⟩ : Piece).most s ≤ s.length := by
  simp only [Piece.most]
  exact (List.takeWhile_prefix _).length_le

/-- the group is the name if a separator follows, and no separator after that within reach -/
lemma tail_some {v r : List Char} {t : Char} (hv : v ≠ []) (hc : ∀ c ∈ v, inGroup c = true)
    (ht : isSep t = true) (hr : inGroup t = false ∨ ∀ c ∈ r, isSep c = false) :
    reMatch false tailPattern (v ++ t :: r) = some [v] := by
  unfold tailPattern
  rw [reMatch]
  have hle : v.length ≤ (⟨inGroup, 1, none, true⟩ : Piece).most (v ++ t :: r) := by
    simp only [Piece.most]
    rw [List.takeWhile_append_of_pos hc]
    simp
  refine downTo_some (m := v.length) (List.length_pos_iff.2 hv) hle ?_ fun j h1 h2 => ?_
  · simp [sep_match, ht]
  · rcases hr with hr | hr
    · exfalso
      have : (⟨inGroup, 1, none, true⟩ : Piece).most (v ++ t :: r) = v.length := by
        simp only [Piece.most]
        rw [takeWhile_stops hc]
        intro c r' h
        rw [← (List.cons.inj h).1]; exact hr
      omega
    · have hd : (v ++ t :: r).drop j = r.drop (j - v.length - 1) := by
        rw [List.drop_append, List.drop_eq_nil_of_le h1.le, List.nil_append]
        obtain ⟨i, hi⟩ : ∃ i, j - v.length = i + 1 := ⟨j - v.length - 1, by omega⟩
        rw [hi, List.drop_succ_cons]; congr 1
      rw [hd, sep_match]
      cases hx : r.drop (j - v.length - 1) with
      | nil => rfl
      | cons c l =>
        have : c ∈ r := List.mem_of_mem_drop (i := j - v.length - 1) (by rw [hx]; simp)
        simp [hr c this]

/-- no match if the characters that the group can take are followed by neither a separator -/
lemma tail_none {a b : List Char} (ha : ∀ c ∈ a.tail, isSep c = false)
    (hb : ∀ c r, b = c :: r → inGroup c = false ∧ isSep c = false) :
    reMatch false tailPattern (a ++ b) = none := by
  unfold tailPattern
  rw [reMatch]
  refine downTo_none fun m h1 h2 => ?_
  have hm : m ≤ a.length := by
    by_contra hlt
    have h3 : m ≤ ((a ++ b).takeWhile inGroup).length := h2
    cases b with
    | nil =>
      have := (List.takeWhile_prefix (l := a ++ []) inGroup).length_le
      simp at this h3; omega
    | cons c r =>
      have hpre := List.takeWhile_prefix (l := a ++ c :: r) inGroup
      have hlen : a.length < ((a ++ c :: r).takeWhile inGroup).length := by omega
      have h4 : ((a ++ c :: r).takeWhile inGroup)[a.length] = c := by
        rw [hpre.getElem]; simp
      have h5 : c ∈ (a ++ c :: r).takeWhile inGroup := by
        have := List.getElem_mem hlen
        rwa [h4] at this
      have := List.mem_takeWhile_imp h5
      rw [(hb c r rfl).1] at this
      cases this
  rw [sep_match]
  cases hx : (a ++ b).drop m with
  | nil => rfl
  | cons c l =>
    have hs : isSep c = false := by
      rcases Nat.lt_or_ge m a.length with h3 | h3
      · apply ha
        rw [List.drop_append_of_le_length h3.le] at hx
        have h4 : c ∈ a.drop m := by
          cases hy : a.drop m with
          | nil => rw [List.drop_eq_nil_iff] at hy; omega
          | cons c' l' => rw [hy] at hx; rw [(List.cons.inj hx).1]; simp
        obtain ⟨m, rfl⟩ : ∃ i, m = i + 1 := ⟨m - 1, by have h1 : 1 ≤ m := h1; omega⟩
        cases a with
        | nil => simp at h4
        | cons a0 a => exact List.mem_of_mem_drop (by simpa using h4)
      · have : m = a.length := by omega
        subst this
        rw [List.drop_left] at hx
        exact (hb c l hx).2
    simp [hs]

lemma varPattern_eq : varPattern =
    ⟨Char.isDigit, 0, none, false⟩ :: ⟨(· == '*'), 0, some 1, false⟩ :: tailPattern := rfl

/-- the optional star -/
lemma star_match (s : List Char) (hs : Stops (· == '*') s) :
    reMatch false (⟨(· == '*'), 0, some 1, false⟩ :: tailPattern) s = reMatch false tailPattern s := by
  have hm : (⟨(· == '*'), 0, some 1, false⟩ : Piece).most s = 0 := by
    cases s with
    | nil => rfl
    | cons c r =>
      have := hs c r rfl
      simp only [Piece.most, List.takeWhile_cons, this, Bool.false_eq_true, if_false, List.length_nil]
      exact Nat.min_zero 1
  rw [reMatch, hm, downTo]
  simp

lemma star_match_cons (s : List Char) :
    reMatch false (⟨(· == '*'), 0, some 1, false⟩ :: tailPattern) ('*' :: s) =
      reMatch false tailPattern s := by
  have hm : (⟨(· == '*'), 0, some 1, false⟩ : Piece).most ('*' :: s) = 1 := by
    simp only [Piece.most, List.takeWhile_cons, beq_self_eq_true, if_true, List.length_cons]
    exact Nat.min_eq_left (by omega)
  rw [reMatch, hm, downTo]
  simp only [List.drop_succ_cons, List.drop_zero]
  cases h : reMatch false tailPattern s with
  | some g => simp
  | none =>
    simp only [Option.map_none]
    rw [if_neg (by omega), downTo, if_pos rfl]
    have := tail_none (a := []) (b := '*' :: s) (by simp)
      (by rintro c r h; rw [← (List.cons.inj h).1]; decide)
    simp only [List.nil_append] at this
    simp [this]

/-- a text that begins with neither a digit nor a star -/
lemma var_plain (s : List Char) (hs : Stops (fun c => c.isDigit || c == '*') s) :
    reMatch false varPattern s = reMatch false tailPattern s := by
  rw [varPattern_eq, reMatch]
  have hm : (⟨Char.isDigit, 0, none, false⟩ : Piece).most s = 0 := by
    cases s with
    | nil => rfl
    | cons c r =>
      have := hs c r rfl
      simp only [Bool.or_eq_false_iff] at this
      simp [Piece.most, this.1]
  rw [hm, downTo, if_pos rfl]
  simp only [List.drop_zero]
  rw [star_match s fun c r h => by have := hs c r h; simp only [Bool.or_eq_false_iff] at this; exact this.2]
  simp

lemma isDigit_props {c : Char} (h : c.isDigit = true) :
    inGroup c = true ∧ isSep c = false ∧ (c == '*') = false := by
  have hne : ∀ d : Char, d.isDigit = false → c ≠ d := by rintro d hd rfl; rw [h] at hd; cases hd
  have h1 := hne '^' (by decide)
  have h2 := hne ' ' (by decide)
  have h3 := hne '*' (by decide)
  have h4 := hne '+' (by decide)
  have h5 := hne '-' (by decide)
  simp [inGroup, isSep, h1, h2, h3, h4, h5]

/-- a numeral (digits, then `x` with no star or digit in front of it): no fewer digits match either -/
lemma var_digits {ds s : List Char} (hd : ∀ c ∈ ds, c.isDigit = true) (hs : Stops Char.isDigit s)
    (h : ∀ i, i < ds.length → reMatch false tailPattern (ds.drop i ++ s) = none) :
    reMatch false varPattern (ds ++ s) =
      reMatch false (⟨(· == '*'), 0, some 1, false⟩ :: tailPattern) s := by
  rw [varPattern_eq, reMatch]
  have hm : (⟨Char.isDigit, 0, none, false⟩ : Piece).most (ds ++ s) = ds.length := by
    simp only [Piece.most]; rw [takeWhile_stops hd hs]
  rw [hm]
  have hlow : ∀ j, j < ds.length → reMatch false
      (⟨(· == '*'), 0, some 1, false⟩ :: tailPattern) ((ds ++ s).drop j) = none := by
    intro j hj
    rw [List.drop_append_of_le_length hj.le, star_match, h j hj]
    intro c r hcr
    have : c ∈ ds := by
      cases hy : ds.drop j with
      | nil => rw [List.drop_eq_nil_iff] at hy; omega
      | cons c' l' =>
        rw [hy] at hcr
        have h1 : c' = c := (List.cons.inj hcr).1
        subst h1
        exact List.mem_of_mem_drop (i := j) (by rw [hy]; simp)
    exact (isDigit_props (hd c this)).2.2
  cases hx : reMatch false (⟨(· == '*'), 0, some 1, false⟩ :: tailPattern) s with
  | some g =>
    refine downTo_some (m := ds.length) (Nat.zero_le _) le_rfl ?_ fun j h1 h2 => by omega
    simp [hx]
  | none =>
    refine downTo_none fun m _ h2 => ?_
    rcases Nat.lt_or_ge m ds.length with h3 | h3
    · simp [hlow m h3]
    · have : m = ds.length := by omega
      subst this
      simp [hx]

end EAntic.Py
