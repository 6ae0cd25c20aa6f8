import Verif.Model.Ptr
import Mathlib.Data.List.TakeWhile
import Mathlib.Data.List.Basic
import Mathlib.Tactic.Ring

/-! # The parser with pointers computes what the parser on strings computes -/

namespace EAntic.Ptr

/-- a C string in ASCII -/
def Ascii (l : List Char) : Prop := ∀ c ∈ l, c ≠ nul ∧ c.toNat < 128

/-- the C string at `m + x` is `l` -/
def At (m : Mem) (x : ℕ) (l : List Char) : Prop := Ascii l ∧ ∃ g, m.drop x = l ++ nul :: g

variable {m : Mem} {x : ℕ} {l : List Char}

lemma At.get_nil (h : At m x []) : get m x = .ok nul := by
  obtain ⟨-, g, hg⟩ := h
  have : m[x]? = some nul := by
    rw [← List.head?_drop, hg]; rfl
  simp [get, this]

lemma At.opt_nil (h : At m x []) : m[x]? = some nul := by
  obtain ⟨-, g, hg⟩ := h
  rw [← List.head?_drop, hg]; rfl

lemma At.opt_cons {c : Char} (h : At m x (c :: l)) : m[x]? = some c := by
  obtain ⟨-, g, hg⟩ := h
  rw [← List.head?_drop, hg]; rfl

lemma At.get_cons {c : Char} (h : At m x (c :: l)) : get m x = .ok c := by
  simp [get, h.opt_cons]

lemma At.ne_nul {c : Char} (h : At m x (c :: l)) : c ≠ nul := (h.1 c List.mem_cons_self).1
lemma At.lt {c : Char} (h : At m x (c :: l)) : c.toNat < 128 := (h.1 c List.mem_cons_self).2

lemma At.tail {c : Char} (h : At m x (c :: l)) : At m (x + 1) l := by
  obtain ⟨h1, g, hg⟩ := h
  refine ⟨fun d hd => h1 d (List.mem_cons_of_mem _ hd), g, ?_⟩
  rw [← List.drop_drop, hg]; rfl

lemma At.drop {l₁ l₂ : List Char} (h : At m x (l₁ ++ l₂)) : At m (x + l₁.length) l₂ := by
  obtain ⟨h1, g, hg⟩ := h
  refine ⟨fun d hd => h1 d (List.mem_append_right _ hd), g, ?_⟩
  rw [← List.drop_drop, hg, List.append_assoc, List.drop_left]

lemma ctype_ok {f : Char → Bool} {c : Char} (h : c.toNat < 128) : ctype f c = .ok (f c) := by
  simp [ctype, h]

/-- `f` computes `p` on ASCII characters and stops at NUL -/
def Decides (f : Char → Res Bool) (p : Char → Bool) : Prop :=
  f nul = .ok false ∧ ∀ c, c ≠ nul → c.toNat < 128 → f c = .ok (p c)

lemma decides_blank : Decides blankC (· == ' ') := ⟨rfl, fun _ _ _ => rfl⟩

lemma decides_num : Decides numC (fun c => c.isDigit || c == '/') :=
  ⟨by decide, fun c _ h => by simp [numC, ctype_ok h]⟩

lemma decides_alnum : Decides alnumC (fun c => c.isAlphanum || c == '_') :=
  ⟨by decide, fun c h0 h => by simp [alnumC, ctype_ok h, h0]⟩

lemma decides_sign : Decides signC Text.isSignChar := ⟨by decide, fun _ _ _ => rfl⟩

lemma decides_body : Decides bodyC Text.isBodyChar :=
  ⟨by decide, fun c h _ => by simp [bodyC, h]⟩

lemma scan_at {f : Char → Res Bool} {p : Char → Bool} (hf : Decides f p) (h : At m x l) :
    scan f m x = .ok (x + (l.takeWhile p).length) ∧
      At m (x + (l.takeWhile p).length) (l.dropWhile p) := by
  refine ⟨?_, ?_⟩
  swap
  · have : At m x (l.takeWhile p ++ l.dropWhile p) := by rwa [List.takeWhile_append_dropWhile]
    exact this.drop
  induction l generalizing x with
  | nil =>
    rw [scan]
    split
    · rename_i e; rw [h.opt_nil] at e; cases e
    · rename_i c e; rw [h.opt_nil] at e; cases e; simp [hf.1]
  | cons a l ih =>
    rw [scan]
    split
    · rename_i e; rw [h.opt_cons] at e; cases e
    · rename_i c e
      rw [h.opt_cons] at e
      cases e
      rw [hf.2 a h.ne_nul h.lt]
      cases hp : p a with
      | true =>
        simp only
        rw [ih h.tail, List.takeWhile_cons_of_pos hp, List.length_cons]
        congr 1; ring
      | false => simp [List.takeWhile_cons_of_neg (p := p) (a := a) (by simp [hp])]

lemma cstr_at (h : At m x l) : cstr m x = .ok l := by
  obtain ⟨h1, g, hg⟩ := h
  unfold cstr
  rw [hg, if_pos (by simp)]
  congr 1
  rw [List.takeWhile_append_of_pos (by intro c hc; simp [(h1 c hc).1])]
  simp

/-- the loop over signs -/
lemma signLoop_at (s : ℤ) (h : At m x l) :
    (Text.signLoop s l = none → signLoop m s x = .ok none) ∧
    ∀ t r, Text.signLoop s l = some (t, r) → ∃ y, signLoop m s x = .ok (some (t, y)) ∧ At m y r ∧
      r ≠ [] := by
  induction l generalizing s x with
  | nil =>
    constructor
    · intro _
      rw [signLoop]
      split
      · rename_i e; rw [h.opt_nil] at e; cases e
      · rename_i c e; rw [h.opt_nil] at e; cases e; simp
    · intro t r e; simp [Text.signLoop] at e
  | cons a l ih =>
    have key : signLoop m s x = if a = '-' then signLoop m (-s) (x + 1)
        else if a ≠ ' ' ∧ a ≠ '+' then .ok (some (s, x)) else signLoop m s (x + 1) := by
      conv_lhs => rw [signLoop]
      split
      · rename_i e; rw [h.opt_cons] at e; cases e
      · rename_i c e
        rw [h.opt_cons] at e
        cases e
        rw [if_neg h.ne_nul]
    rw [key, Text.signLoop]
    by_cases h1 : a = '-'
    · rw [if_pos h1, if_pos h1]; exact ih (-s) h.tail
    · rw [if_neg h1, if_neg h1]
      by_cases h2 : a ≠ ' ' ∧ a ≠ '+'
      · rw [if_pos h2, if_pos h2]
        refine ⟨by simp, fun t r e => ?_⟩
        simp only [Option.some.injEq, Prod.mk.injEq] at e
        obtain ⟨rfl, rfl⟩ := e
        exact ⟨x, rfl, h, by simp⟩
      · rw [if_neg h2, if_neg h2]; exact ih s h.tail

/-- the coefficient; memory is restored -/
lemma coeff_at (R : List Char → Option ℚ) (h : At m x l) :
    (Text.parseCoeff R l = none → coeff R m x = .ok none) ∧
    ∀ q r, Text.parseCoeff R l = some (q, r) → ∃ y, coeff R m x = .ok (some (q, y, m)) ∧ At m y r := by
  cases l with
  | nil =>
    have e : coeff R m x = .ok (some (1, x, m)) := by
      unfold coeff; rw [h.get_nil]; rfl
    refine ⟨by simp [Text.parseCoeff, Text.startsDigit], fun q r hq => ?_⟩
    simp only [Text.parseCoeff, Text.startsDigit, Bool.false_eq_true, if_false, Option.some.injEq,
      Prod.mk.injEq] at hq
    obtain ⟨rfl, rfl⟩ := hq
    exact ⟨x, e, h⟩
  | cons a l =>
    by_cases hd : a.isDigit = true
    · obtain ⟨s1, s2⟩ := scan_at decides_num h.tail
      set isNum := fun c : Char => c.isDigit || c == '/' with hisNum
      set y := x + 1 + (l.takeWhile isNum).length with hy
      have hna : isNum a = true := by simp [hisNum, hd]
      -- the byte that is overwritten
      obtain ⟨tmp, ht, htd⟩ : ∃ tmp, m[y]? = some tmp ∧ get m y = .ok tmp := by
        rcases hr : l.dropWhile isNum with _ | ⟨b, r⟩
        · rw [hr] at s2; exact ⟨_, s2.opt_nil, s2.get_nil⟩
        · rw [hr] at s2; exact ⟨_, s2.opt_cons, s2.get_cons⟩
      obtain ⟨hlt, hget⟩ := List.getElem?_eq_some_iff.1 ht
      have hput : put m y nul = .ok (m.set y nul) := by simp [put, hlt]
      have hput2 : put (m.set y nul) y tmp = .ok m := by
        simp only [put, List.length_set, hlt, if_true, List.set_set]
        congr 1
        rw [← hget]
        exact List.set_getElem_self hlt
      have hat : At (m.set y nul) x (a :: l.takeWhile isNum) := by
        obtain ⟨h1, g, hg⟩ := h
        refine ⟨fun c hc => ?_, (m.drop x).drop (l.takeWhile isNum).length.succ.succ, ?_⟩
        · rcases List.mem_cons.1 hc with rfl | hc
          · exact h1 c List.mem_cons_self
          · exact h1 c (List.mem_cons_of_mem _ ((List.takeWhile_sublist _).subset hc))
        · have e1 : m.drop x = (a :: l.takeWhile isNum) ++ (l.dropWhile isNum ++ nul :: g) := by
            rw [hg, List.cons_append, List.cons_append, ← List.append_assoc,
              List.takeWhile_append_dropWhile]
          have e2 : (m.set y nul).drop x = (m.drop x).set (l.takeWhile isNum).length.succ nul := by
            rw [List.drop_set, if_neg (by omega)]
            congr 1; omega
          rw [e2, e1]
          obtain ⟨b, r', hr⟩ : ∃ b r', l.dropWhile isNum ++ nul :: g = b :: r' := by
            cases l.dropWhile isNum with
            | nil => exact ⟨_, _, rfl⟩
            | cons b t => exact ⟨_, _, rfl⟩
          rw [hr, List.set_append, if_neg (by simp)]
          simp
      have hc := cstr_at hat
      have hdig : coeff R m x = match R (a :: l.takeWhile isNum) with
          | none => .ok none
          | some q => .ok (some (q, y, m)) := by
        unfold coeff
        rw [h.get_cons, Res.ok_bind, ctype_ok h.lt, Res.ok_bind, hd]
        simp only [if_true]
        rw [s1, Res.ok_bind, htd, Res.ok_bind, hput, Res.ok_bind, hc, Res.ok_bind, hput2, Res.ok_bind]
        rfl
      have hp : Text.parseCoeff R (a :: l) = match R (a :: l.takeWhile isNum) with
          | none => none
          | some q => some (q, l.dropWhile isNum) := by
        unfold Text.parseCoeff
        simp only [Text.startsDigit, hd, if_true]
        rw [List.takeWhile_cons_of_pos hna, List.dropWhile_cons_of_pos hna]
        rfl
      rw [hdig, hp]
      cases R (a :: l.takeWhile isNum) with
      | none => simp
      | some q =>
        refine ⟨by simp, fun q' r e => ?_⟩
        simp only [Option.some.injEq, Prod.mk.injEq] at e
        obtain ⟨rfl, rfl⟩ := e
        exact ⟨y, rfl, s2⟩
    · have hd' : a.isDigit = false := by simpa using hd
      have e : coeff R m x = .ok (some (1, x, m)) := by
        unfold coeff
        rw [h.get_cons, Res.ok_bind, ctype_ok h.lt, Res.ok_bind, hd']
        rfl
      refine ⟨by simp [Text.parseCoeff, Text.startsDigit, hd'], fun q r hq => ?_⟩
      simp only [Text.parseCoeff, Text.startsDigit, hd', Bool.false_eq_true, if_false,
        Option.some.injEq, Prod.mk.injEq] at hq
      obtain ⟨rfl, rfl⟩ := hq
      exact ⟨x, e, h⟩

/-- test for the end of the string -/
lemma at_end (h : At m x l) : (get m x).bind (fun c => .ok (decide (c = nul))) = .ok (decide (l = [])) := by
  cases l with
  | nil => rw [h.get_nil]; rfl
  | cons a l => rw [h.get_cons]; simp [Res.bind, h.ne_nul]

lemma digits_at (h : At m x l) : digits m x = .ok (Text.parseDigits l) := by
  cases l with
  | nil => unfold digits; rw [h.get_nil]; rfl
  | cons a l =>
    unfold digits Text.parseDigits
    rw [h.get_cons, Res.ok_bind, if_neg h.ne_nul, ctype_ok h.lt, Res.ok_bind]
    rcases hd : a.isDigit with _ | _
    · simp [hd]
    · simp only [hd, Bool.true_eq_false, if_false]
      rw [cstr_at h, Res.ok_bind]
      by_cases hn : Text.longMax < Nat.ofDigitChars 10 ((a :: l).takeWhile Char.isDigit) 0
      · rw [if_pos hn, if_pos hn]; rfl
      · rw [if_neg hn, if_neg hn]
        have h2 : At m (x + ((a :: l).takeWhile Char.isDigit).length) ((a :: l).dropWhile Char.isDigit) := by
          have : At m x ((a :: l).takeWhile Char.isDigit ++ (a :: l).dropWhile Char.isDigit) := by
            rwa [List.takeWhile_append_dropWhile]
          exact this.drop
        obtain ⟨s1, s2⟩ := scan_at decides_blank h2
        rw [s1, Res.ok_bind]
        change At m _ (Text.skipBlanks _) at s2
        rcases hr : Text.skipBlanks ((a :: l).dropWhile Char.isDigit) with _ | ⟨b, r⟩
        · rw [hr] at s2; rw [s2.get_nil]; simp
        · rw [hr] at s2; rw [s2.get_cons, Res.ok_bind, if_pos s2.ne_nul]; simp

lemma exponent_at (h : At m x l) : exponent m x = .ok (Text.parseExp l) := by
  unfold exponent Text.parseExp
  have hstart : ∃ c, get m x = .ok c ∧ ctype Char.isDigit c = .ok (Text.startsDigit l) := by
    cases l with
    | nil => exact ⟨nul, h.get_nil, by decide⟩
    | cons a l => exact ⟨a, h.get_cons, ctype_ok h.lt⟩
  obtain ⟨c, h1, h2⟩ := hstart
  rw [h1, Res.ok_bind, h2, Res.ok_bind]
  cases hd : Text.startsDigit l with
  | true => simp only [Bool.true_eq_false, if_false, if_true]; exact digits_at h
  | false =>
    simp only [if_true, Bool.false_eq_true, if_false]
    obtain ⟨s1, s2⟩ := scan_at decides_blank h
    change At m _ (Text.skipBlanks _) at s2
    rw [s1, Res.ok_bind]
    rcases hr : Text.skipBlanks l with _ | ⟨b, r⟩
    · rw [hr] at s2; rw [s2.get_nil, Res.ok_bind, if_pos rfl]; rfl
    · rw [hr] at s2
      rw [s2.get_cons, Res.ok_bind, if_neg s2.ne_nul]
      by_cases hb : b ≠ '^'
      · rw [if_pos hb]; simp [hb]
      · rw [if_neg hb]
        obtain ⟨t1, t2⟩ := scan_at decides_blank s2.tail
        rw [t1, Res.ok_bind, digits_at t2]
        simp only [hb, if_false]
        rfl

lemma hasPrefix_at (v : List Char) (hv : Ascii v) (h : At m x l) :
    hasPrefix m x v = .ok (v.isPrefixOf l) := by
  induction v generalizing x l with
  | nil => simp [hasPrefix]
  | cons a v ih =>
    unfold hasPrefix
    cases l with
    | nil =>
      rw [h.get_nil, Res.ok_bind, if_neg (fun e => (hv a List.mem_cons_self).1 e.symm)]
      rfl
    | cons b l =>
      rw [h.get_cons, Res.ok_bind]
      by_cases hab : b = a
      · subst hab
        rw [if_pos rfl, ih (fun c hc => hv c (List.mem_cons_of_mem _ hc)) h.tail]
        simp
      · rw [if_neg hab]
        have : (a :: v).isPrefixOf (b :: l) = false := by
          simp [List.isPrefixOf, Ne.symm hab]
        rw [this]; rfl

lemma variable_at {v : List Char} (hv : Ascii v) (h : At m x l) :
    variable' v m x = .ok (Text.parseVar v l) := by
  unfold variable' Text.parseVar
  rw [hasPrefix_at v hv h, Res.ok_bind]
  cases hp : v.isPrefixOf l with
  | false => simp
  | true =>
    simp only [Bool.true_eq_false, if_false, if_true]
    obtain ⟨r, rfl⟩ := List.isPrefixOf_iff_prefix.1 hp
    rw [exponent_at h.drop, List.drop_left]

lemma power_at {v : List Char} (hv : Ascii v) (h : At m x l) :
    power v m x = .ok (Text.parsePower v l) := by
  unfold power Text.parsePower
  cases l with
  | nil => rw [h.get_nil]; rfl
  | cons a l =>
    rw [h.get_cons, Res.ok_bind, if_neg h.ne_nul]
    by_cases hs : a = '*'
    · simp only [hs, if_true]
      obtain ⟨s1, s2⟩ := scan_at decides_blank h.tail
      change At m _ (Text.skipBlanks _) at s2
      rw [s1, Res.ok_bind]
      rcases hr : Text.skipBlanks l with _ | ⟨b, r⟩
      · rw [hr] at s2; rw [s2.get_nil, Res.ok_bind, if_pos rfl]; simp
      · rw [hr] at s2
        rw [s2.get_cons, Res.ok_bind, if_neg s2.ne_nul, variable_at hv s2]
        simp
    · simp only [hs, if_false]
      exact variable_at hv h

/-- `_monomial_set_str` on an array that holds the string `l` -/
theorem monomial_at (R : List Char → Option ℚ) {v : List Char} (hv : Ascii v) (h : At m 0 l) :
    monomial R v m = .ok (Text.monomialSetStr R v l) := by
  unfold monomial Text.monomialSetStr
  obtain ⟨s1, s2⟩ := scan_at decides_blank h
  change At m _ (Text.skipBlanks _) at s2
  rw [s1, Res.ok_bind]
  rcases hr : Text.skipBlanks l with _ | ⟨b, r⟩
  · rw [hr] at s2; rw [s2.get_nil, Res.ok_bind, if_pos rfl]; simp
  · rw [hr] at s2
    rw [s2.get_cons, Res.ok_bind, if_neg s2.ne_nul]
    simp only [List.cons_ne_nil, if_false]
    obtain ⟨g1, g2⟩ := signLoop_at 1 s2
    cases hs : Text.signLoop 1 (b :: r) with
    | none => rw [g1 hs]; rfl
    | some p =>
      obtain ⟨sg, t⟩ := p
      obtain ⟨y, e1, e2, -⟩ := g2 sg t hs
      rw [e1, Res.ok_bind]
      simp only
      obtain ⟨k1, k2⟩ := coeff_at R e2
      cases hc : Text.parseCoeff R t with
      | none => rw [k1 hc]; rfl
      | some p =>
        obtain ⟨q, u⟩ := p
        obtain ⟨y', f1, f2⟩ := k2 q u hc
        rw [f1, Res.ok_bind]
        simp only
        obtain ⟨t1, t2⟩ := scan_at decides_blank f2
        change At m _ (Text.skipBlanks _) at t2
        rw [t1, Res.ok_bind, power_at hv t2, Res.ok_bind]
        cases Text.parsePower v (Text.skipBlanks u) <;> rfl

theorem isVarname_at {v : List Char} (h : At m 0 v) : isVarname m = .ok (Text.strIsVarname v) := by
  unfold isVarname Text.strIsVarname
  cases v with
  | nil => rw [h.get_nil]; rfl
  | cons a v =>
    rw [h.get_cons, Res.ok_bind]
    have ha : alphaC a = .ok (a.isAlpha || a == '_') := by simp [alphaC, ctype_ok h.lt]
    rw [ha, Res.ok_bind]
    rcases hb : (a.isAlpha || a == '_') with _ | _
    · simp only [if_true, hb, Bool.false_and]; rfl
    · simp only [Bool.true_eq_false, if_false, hb, Bool.true_and]
      obtain ⟨s1, s2⟩ := scan_at decides_alnum h.tail
      rw [Nat.zero_add] at s1 s2
      rw [s1, Res.ok_bind]
      rcases hr : v.dropWhile (fun c => c.isAlphanum || c == '_') with _ | ⟨b, r⟩
      · rw [hr] at s2
        rw [s2.get_nil, Res.ok_bind]
        have := List.dropWhile_eq_nil_iff.1 hr
        have h2 : v.all (fun d => d.isAlphanum || d == '_') = true := List.all_eq_true.2 this
        rw [h2]; rfl
      · rw [hr] at s2
        rw [s2.get_cons, Res.ok_bind]
        have h2 : v.all (fun d => d.isAlphanum || d == '_') = false := by
          by_contra hc
          have hc' : v.all (fun d => d.isAlphanum || d == '_') = true := Bool.eq_true_of_not_eq_false hc
          have := List.dropWhile_eq_nil_iff.2 (List.all_eq_true.1 hc')
          rw [this] at hr; cases hr
        rw [h2]
        simp [s2.ne_nul]

/-- copying `t` from `s + start` into `z` -/
lemma copy_at {s : Mem} {start : ℕ} {l₂ : List Char} : ∀ (n : ℕ) {z : Mem} {t : List Char},
    (∃ g, s.drop start = t ++ l₂ ++ nul :: g) → n ≤ t.length → t.length < z.length →
    copy s start n z = .ok (t.take n ++ z.drop n)
  | 0, z, t, _, _, _ => by simp [copy]
  | n + 1, z, t, h, hn, hz => by
    unfold copy
    rw [copy_at n h (by omega) hz, Res.ok_bind]
    obtain ⟨g, hg⟩ := h
    have e : s[start + n]? = some (t[n]'(by omega)) := by
      have : (s.drop start)[n]? = some (t[n]'(by omega)) := by
        rw [hg, List.append_assoc, List.getElem?_append_left (by omega),
          List.getElem?_eq_getElem (by omega)]
      rwa [List.getElem?_drop] at this
    have e' : get s (start + n) = .ok (t[n]'(by omega)) := by simp [get, e]
    rw [e', Res.ok_bind]
    unfold put
    have hl : (t.take n).length = n := by rw [List.length_take]; omega
    rw [if_pos (by rw [List.length_append, hl, List.length_drop]; omega)]
    congr 1
    rw [List.set_append, if_neg (by rw [hl]; omega), hl, Nat.sub_self,
      List.take_succ_eq_append_getElem (by omega), List.append_assoc]
    congr 1
    rw [List.drop_eq_getElem_cons (by omega : n < z.length)]
    rfl

/-- one iteration of the outer loop -/
lemma step_at (R : List Char → Option ℚ) {v : List Char} (hv : Ascii v) {s : Mem} {p : List ℚ}
    {start : ℕ} {z : Mem} (h : At s start l) (hz : l.length < z.length) :
    (l = [] → step R v s (p, start, z) = .ok (.inr (some p))) ∧
    (l ≠ [] → ∃ w, w = (Text.skipBlanks l).takeWhile Text.isSignChar ++
        ((Text.skipBlanks l).dropWhile Text.isSignChar).takeWhile Text.isBodyChar ∧
      (Text.monomialSetStr R v w = none → step R v s (p, start, z) = .ok (.inr none)) ∧
      ∀ q n, Text.monomialSetStr R v w = some (q, n) → ∃ start' z',
        step R v s (p, start, z) = .ok (.inl (Text.addMono p q n, start', z')) ∧
        At s start' (Text.restOf l) ∧ z'.length = z.length) := by
  constructor
  · rintro rfl
    unfold step
    rw [h.get_nil]; rfl
  · intro hl
    obtain ⟨c, r, rfl⟩ := List.exists_cons_of_ne_nil hl
    refine ⟨_, rfl, ?_⟩
    obtain ⟨a1, a2⟩ := scan_at decides_blank h
    change At s _ (Text.skipBlanks _) at a2
    obtain ⟨b1, b2⟩ := scan_at decides_sign a2
    obtain ⟨c1, c2⟩ := scan_at decides_body b2
    set x := Text.skipBlanks (c :: r) with hx
    set st := start + ((c :: r).takeWhile (· == ' ')).length with hst
    set w := x.takeWhile Text.isSignChar ++ (x.dropWhile Text.isSignChar).takeWhile Text.isBodyChar
      with hw
    have hsplit : x = w ++ Text.restOf (c :: r) := by
      rw [hw, List.append_assoc]
      unfold Text.restOf
      rw [← hx, List.takeWhile_append_dropWhile, List.takeWhile_append_dropWhile]
    have hwl : st + (x.takeWhile Text.isSignChar).length +
        ((x.dropWhile Text.isSignChar).takeWhile Text.isBodyChar).length - st = w.length := by
      rw [hw, List.length_append]; omega
    have hxl : x.length ≤ (c :: r).length := (List.dropWhile_suffix _).length_le
    have hwx : w.length ≤ x.length := by
      have := congrArg List.length hsplit
      rw [List.length_append] at this; omega
    have a2' : At s st (w ++ Text.restOf (c :: r)) := hsplit ▸ a2
    have hcopy := copy_at (s := s) (start := st) w.length (z := z) a2'.2 le_rfl (by omega)
    rw [List.take_length] at hcopy
    have hput : put (w ++ z.drop w.length) w.length nul = .ok ((w ++ z.drop w.length).set w.length nul) := by
      unfold put
      rw [if_pos (by rw [List.length_append (as := w), List.length_drop]; omega)]
    have hat : At ((w ++ z.drop w.length).set w.length nul) 0 w := by
      refine ⟨fun d hd => a2'.1 d (List.mem_append_left _ hd), z.drop (w.length + 1), ?_⟩
      rw [List.drop_zero, List.set_append, if_neg (by omega), Nat.sub_self,
        List.drop_eq_getElem_cons (by omega : w.length < z.length)]
      rfl
    have hmono := monomial_at R hv hat
    have key : step R v s (p, start, z) = match Text.monomialSetStr R v w with
        | none => .ok (.inr none)
        | some (q, n) => .ok (.inl (Text.addMono p q n,
            st + (x.takeWhile Text.isSignChar).length +
              ((x.dropWhile Text.isSignChar).takeWhile Text.isBodyChar).length,
            (w ++ z.drop w.length).set w.length nul)) := by
      unfold step
      simp only
      rw [h.get_cons, Res.ok_bind, if_neg h.ne_nul, a1, Res.ok_bind, b1, Res.ok_bind, c1, Res.ok_bind,
        hwl, hcopy, Res.ok_bind, hput, Res.ok_bind, hmono, Res.ok_bind]
      cases Text.monomialSetStr R v w <;> rfl
    rw [key]
    cases hm : Text.monomialSetStr R v w with
    | none => simp
    | some qn =>
      obtain ⟨q', n'⟩ := qn
      refine ⟨by simp, fun q n e => ?_⟩
      simp only [Option.some.injEq, Prod.mk.injEq] at e
      obtain ⟨rfl, rfl⟩ := e
      refine ⟨_, _, rfl, c2, ?_⟩
      rw [List.length_set, List.length_append (as := w), List.length_drop]; omega

lemma loop_at (R : List Char → Option ℚ) {v : List Char} (hv : Ascii v) {s : Mem} :
    ∀ (fuel : ℕ) {l : List Char} {p : List ℚ} {start : ℕ} {z : Mem}, At s start l →
      l.length < z.length → l.length < fuel →
      loop (step R v s) fuel (p, start, z) = .ok (Text.readTerms R v p l)
  | 0, _, _, _, _, _, _, hf => absurd hf (by omega)
  | fuel + 1, l, p, start, z, h, hz, hf => by
    obtain ⟨h1, h2⟩ := step_at R hv (p := p) h hz
    rw [loop, Text.readTerms]
    by_cases hl : l = []
    · rw [h1 hl]; simp [hl]
    · obtain ⟨w, hw, g1, g2⟩ := h2 hl
      simp only [hl, dif_neg, not_false_eq_true]
      rw [← hw]
      cases hm : Text.monomialSetStr R v w with
      | none => rw [g1 hm]
      | some qn =>
        obtain ⟨q, n⟩ := qn
        obtain ⟨st', z', e1, e2, e3⟩ := g2 q n hm
        rw [e1]
        simp only
        have := Text.restOf_lt hl
        exact loop_at R hv fuel e2 (by omega) (by omega)

theorem setStrPretty_at (R : List Char → Option ℚ) (junk : ℕ → Char) {fuel : ℕ} {s var : Mem}
    {l v : List Char} (hs : At s 0 l) (hvar : At var 0 v) (hf : l.length < fuel) :
    setStrPretty R junk fuel s var = .ok (Text.setStrPretty R l v) := by
  unfold setStrPretty Text.setStrPretty
  rw [isVarname_at hvar, Res.ok_bind]
  cases hb : Text.strIsVarname v with
  | false => simp
  | true =>
    simp only [Bool.true_eq_false, if_false, if_true]
    rw [cstr_at hs, Res.ok_bind, cstr_at hvar, Res.ok_bind]
    exact loop_at R hvar.1 fuel hs (by simp) hf

/-- tests that are not limited to ASCII -/
lemma scan_gen {p : Char → Bool} (hp : p nul = false) {g : List Char}
    (h : m.drop x = l ++ nul :: g) :
    scan (fun c => .ok (p c)) m x = .ok (x + (l.takeWhile p).length) := by
  induction l generalizing x with
  | nil =>
    have e0 : m[x]? = some nul := by rw [← List.head?_drop, h]; rfl
    rw [scan]
    split
    · rename_i e; rw [e0] at e; cases e
    · rename_i c e; rw [e0] at e; cases e; simp [hp]
  | cons a l ih =>
    have e0 : m[x]? = some a := by rw [← List.head?_drop, h]; rfl
    rw [scan]
    split
    · rename_i e; rw [e0] at e; cases e
    · rename_i c e
      rw [e0] at e
      cases e
      have h' : m.drop (x + 1) = l ++ nul :: g := by rw [← List.drop_drop, h]; rfl
      cases hpa : p a with
      | true =>
        simp only
        rw [ih h', List.takeWhile_cons_of_pos hpa, List.length_cons]
        congr 1; ring
      | false => simp [List.takeWhile_cons_of_neg (p := p) (a := a) (by simp [hpa])]

lemma scan_stop {f : Char → Res Bool} {c : Char} (h : f c = .ok false) (z : Mem) :
    scan f (c :: z) 0 = .ok 0 := by
  rw [scan]
  split
  · rename_i e; simp at e
  · rename_i d e
    simp only [List.length_cons, Nat.zero_lt_succ, getElem?_pos, List.getElem_cons_zero,
      Option.some.injEq] at e
    subst e
    rw [h]

/-- a term that begins with a byte above 127 -/
lemma monomial_high (R : List Char → Option ℚ) (v : List Char) {c : Char} (hc : 128 ≤ c.toNat)
    (z : Mem) : monomial R v (c :: z) = .ub := by
  have h0 : c ≠ nul := by rintro rfl; revert hc; decide
  have h1 : c ≠ ' ' := by rintro rfl; revert hc; decide
  have h2 : c ≠ '-' := by rintro rfl; revert hc; decide
  have h3 : c ≠ '+' := by rintro rfl; revert hc; decide
  have e1 : scan blankC (c :: z) 0 = .ok 0 := by
    exact scan_stop (by simp [blankC, h1]) z
  have e2 : signLoop (c :: z) 1 0 = .ok (some (1, 0)) := by
    rw [signLoop]
    split
    · rename_i e; simp at e
    · rename_i d e
      simp only [List.length_cons, Nat.zero_lt_succ, getElem?_pos, List.getElem_cons_zero,
        Option.some.injEq] at e
      subst e
      simp [h0, h1, h2, h3]
  have e3 : coeff R (c :: z) 0 = .ub := by
    have h : ¬ c.toNat < 128 := by omega
    simp [coeff, get, ctype, h]
  unfold monomial
  rw [e1, Res.ok_bind]
  have eg : get (c :: z) 0 = .ok c := rfl
  rw [eg, Res.ok_bind, if_neg h0, e2, Res.ok_bind]
  simp only [e3, Res.ub_bind]

theorem setStrPretty_high (R : List Char → Option ℚ) (junk : ℕ → Char) {c : Char}
    {s g : List Char} {var : Mem} {v : List Char} (hc : 128 ≤ c.toNat) (hv : At var 0 v)
    (hn : Text.strIsVarname v = true) (hs : nul ∉ s) (fuel : ℕ) :
    setStrPretty R junk (fuel + 1) (c :: s ++ nul :: g) var = .ub := by
  have h0 : c ≠ nul := by rintro rfl; revert hc; decide
  have h1 : c ≠ ' ' := by rintro rfl; revert hc; decide
  have h2 : c ≠ '-' := by rintro rfl; revert hc; decide
  have h3 : c ≠ '+' := by rintro rfl; revert hc; decide
  have hb : Text.isBodyChar c = true := by simp [Text.isBodyChar, h2, h3]
  have hs' : nul ∉ c :: s := by
    rw [List.mem_cons]; rintro (h | h)
    · exact h0 h.symm
    · exact hs h
  have hcs : cstr (c :: s ++ nul :: g) 0 = .ok (c :: s) := by
    unfold cstr
    rw [List.drop_zero, if_pos (by simp)]
    congr 1
    rw [List.takeWhile_append_of_pos (by
      intro d hd; simp only [bne_iff_ne]; rintro rfl; exact hs' hd)]
    simp
  unfold setStrPretty
  rw [isVarname_at hv, Res.ok_bind, hn]
  simp only [Bool.true_eq_false, if_false]
  rw [hcs, Res.ok_bind, cstr_at hv, Res.ok_bind, loop]
  set z : Mem := (List.range ((c :: s).length + 1)).map junk with hz
  have hzl : z.length = s.length + 2 := by simp [hz]
  have e1 : scan blankC (c :: s ++ nul :: g) 0 = .ok 0 := by
    exact scan_stop (by simp [blankC, h1]) _
  have e2 : scan signC (c :: s ++ nul :: g) 0 = .ok 0 := by
    exact scan_stop (by simp [signC, Text.isSignChar, h1, h2, h3]) _
  have e3 := scan_gen (p := fun c => c != nul && Text.isBodyChar c) (by decide) (g := g)
    (m := c :: s ++ nul :: g) (x := 0) (l := c :: s) rfl
  set k := ((c :: s).takeWhile (fun c => c != nul && Text.isBodyChar c)) with hk
  have hk1 : ∃ k', k = c :: k' := by
    refine ⟨s.takeWhile (fun c => c != nul && Text.isBodyChar c), ?_⟩
    rw [hk, List.takeWhile_cons_of_pos (by simp [h0, hb])]
  obtain ⟨k', hk'⟩ := hk1
  have hkl : k.length ≤ (c :: s).length := (List.takeWhile_sublist _).length_le
  have hsplit : c :: s = k ++ (c :: s).dropWhile (fun c => c != nul && Text.isBodyChar c) :=
    List.takeWhile_append_dropWhile.symm
  have e4 := copy_at (s := c :: s ++ nul :: g) (start := 0) (z := z) (t := k)
    (l₂ := (c :: s).dropWhile (fun c => c != nul && Text.isBodyChar c)) k.length
    ⟨g, by rw [← hsplit]; rfl⟩ le_rfl (by simp only [List.length_cons] at hkl; omega)
  rw [List.take_length] at e4
  have e5 : ∃ y, put (k ++ z.drop k.length) k.length nul = .ok (c :: y) := by
    unfold put
    rw [if_pos (by
      rw [List.length_append, List.length_drop]; simp only [List.length_cons] at hkl; omega)]
    rw [hk']
    exact ⟨_, rfl⟩
  obtain ⟨y, e5⟩ := e5
  have eg : get (c :: s ++ nul :: g) 0 = .ok c := rfl
  have key : step R v (c :: s ++ nul :: g) ([], 0, z) = .ub := by
    unfold step
    simp only
    rw [eg, Res.ok_bind, if_neg h0, e1, Res.ok_bind, e2, Res.ok_bind]
    have e3' : scan bodyC (c :: s ++ nul :: g) 0 = .ok (0 + k.length) := e3
    rw [e3', Res.ok_bind, Nat.zero_add, Nat.sub_zero, e4, Res.ok_bind, e5, Res.ok_bind,
      monomial_high R v hc, Res.ub_bind]
  rw [key]

/-! ## Buffers -/

/-- the array holds the C string `l` at its beginning -/
def Holds (m : Mem) (l : List Char) : Prop := nul ∉ l ∧ ∃ g, m = l ++ nul :: g

lemma Holds.cstr {m : Mem} {l : List Char} (h : Holds m l) : cstr m 0 = .ok l := by
  obtain ⟨h1, g, rfl⟩ := h
  unfold Ptr.cstr
  rw [List.drop_zero, if_pos (by simp)]
  congr 1
  rw [List.takeWhile_append_of_pos (by
    intro c hc; simp only [bne_iff_ne]; rintro rfl; exact h1 hc)]
  simp

lemma Holds.strlen {m : Mem} {l : List Char} (h : Holds m l) : strlen m = .ok l.length := by
  unfold Ptr.strlen; rw [h.cstr]; rfl

lemma Holds.scan {m : Mem} {l : List Char} (h : Holds m l) :
    scan (fun c => .ok (c != nul)) m 0 = .ok l.length := by
  obtain ⟨h1, g, rfl⟩ := h
  have key : ∀ (a b : List Char), nul ∉ b → Ptr.scan (fun c => .ok (c != nul)) (a ++ (b ++ nul :: g))
      a.length = .ok (a.length + b.length) := by
    intro a b
    induction b generalizing a with
    | nil =>
      intro _
      rw [Ptr.scan]
      have e : (a ++ ([] ++ nul :: g))[a.length]? = some nul := by simp
      split
      · rename_i e'; rw [e] at e'; cases e'
      · rename_i c e'; rw [e] at e'; cases e'; simp
    | cons c b ih =>
      intro hb
      rw [Ptr.scan]
      have e : (a ++ (c :: b ++ nul :: g))[a.length]? = some c := by simp
      have hc : (c != nul) = true := by
        simp only [bne_iff_ne]; rintro rfl; exact hb List.mem_cons_self
      split
      · rename_i e'; rw [e] at e'; cases e'
      · rename_i c' e'
        rw [e] at e'; cases e'
        simp only [hc]
        have := ih (a ++ [c]) (fun h => hb (List.mem_cons_of_mem _ h))
        simp only [List.append_assoc, List.cons_append, List.nil_append, List.length_append,
          List.length_cons, List.length_nil, Nat.zero_add] at this ⊢
        rw [this]; congr 1; omega
  simpa using key [] l h1

lemma write_eq : ∀ (b a c : List Char), b.length ≤ c.length →
    write (a ++ c) a.length b = .ok (a ++ b ++ c.drop b.length)
  | [], a, c, _ => by simp [write]
  | x :: b, a, [], h => absurd h (by simp)
  | x :: b, a, y :: c, h => by
    have hp : put (a ++ y :: c) a.length x = .ok (a ++ x :: c) := by
      unfold put
      rw [if_pos (by simp), List.set_append, if_neg (by omega), Nat.sub_self]
      rfl
    unfold write
    rw [hp, Res.ok_bind]
    have := write_eq b (a ++ [x]) c (by simpa using h)
    simp only [List.append_assoc, List.cons_append, List.nil_append, List.length_append,
      List.length_cons, List.length_nil, Nat.zero_add, List.drop_succ_cons] at this ⊢
    exact this

lemma strcat_ok {t s : Mem} {a b : List Char} (ht : Holds t a) (hs : Holds s b)
    (hl : a.length + b.length < t.length) :
    ∃ t', strcat t s = .ok t' ∧ Holds t' (a ++ b) ∧ t'.length = t.length := by
  obtain ⟨h1, g, hg⟩ := id ht
  have hlen : t.length = a.length + (g.length + 1) := by rw [hg]; simp
  have hw := write_eq (b ++ [nul]) a (nul :: g) (by simp; omega)
  refine ⟨a ++ (b ++ [nul]) ++ (nul :: g).drop (b ++ [nul]).length, ?_, ⟨?_, g.drop b.length, ?_⟩, ?_⟩
  · unfold strcat
    rw [ht.scan, Res.ok_bind, hs.cstr, Res.ok_bind]
    rw [← hg] at hw
    exact hw
  · rw [List.mem_append]; rintro (h | h)
    · exact h1 h
    · exact hs.1 h
  · simp
  · simp only [List.length_append, List.length_drop, List.length_cons, List.length_nil]; omega

lemma holds_lit {s : String} (h : nul ∉ s.toList) : Holds (lit s) s.toList := ⟨h, [], rfl⟩

lemma realloc_holds {junk : ℕ → Char} {t : Mem} {a : List Char} (h : Holds t a) {n : ℕ}
    (hn : a.length < n) : Holds (realloc junk t n) a ∧ (realloc junk t n).length = n := by
  have hl : (realloc junk t n).length = n := by simp [realloc]
  obtain ⟨h1, g, rfl⟩ := h
  refine ⟨⟨h1, (realloc junk (a ++ nul :: g) n).drop (a.length + 1), ?_⟩, hl⟩
  apply List.ext_getElem?
  intro i
  rcases lt_trichotomy i a.length with hi | hi | hi
  · rw [List.getElem?_append_left hi]
    simp only [realloc, List.getElem?_map]
    rw [List.getElem?_range (by omega), Option.map_some, List.getElem?_append_left hi,
      List.getElem?_eq_getElem hi]
    rfl
  · subst hi
    simp only [realloc, List.getElem?_map]
    rw [List.getElem?_range hn]
    simp
  · rw [List.getElem?_append_right (by omega),
      show i - a.length = (i - a.length - 1) + 1 by omega, List.getElem?_cons_succ,
      List.getElem?_drop]
    congr 1; omega

theorem renfGetStr_ok {p e : Mem} {a b : List Char} (hp : Holds p a) (he : Holds e b) :
    ∃ m, renfGetStr p e = .ok m ∧ Holds m ("NumberField(".toList ++ a ++ ", ".toList ++ b ++ ")".toList) := by
  unfold renfGetStr
  rw [hp.strlen, Res.ok_bind, he.strlen, Res.ok_bind]
  have h0 : put (calloc (15 + a.length + b.length + 1)) 0 nul =
      .ok (calloc (15 + a.length + b.length + 1)) := by
    unfold put
    rw [if_pos (by simp [calloc])]
    congr 1
  have hh : Holds (calloc (15 + a.length + b.length + 1)) [] :=
    ⟨by simp, calloc (15 + a.length + b.length), by unfold calloc; rw [List.replicate_succ]; rfl⟩
  have hl : (calloc (15 + a.length + b.length + 1)).length = 15 + a.length + b.length + 1 := by
    simp [calloc]
  have l1 : "NumberField(".toList.length = 12 := by decide
  have l2 : ", ".toList.length = 2 := by decide
  have l3 : ")".toList.length = 1 := by decide
  rw [h0, Res.ok_bind]
  obtain ⟨t1, e1, f1, g1⟩ := strcat_ok hh (holds_lit (s := "NumberField(") (by decide))
    (by rw [hl, l1]; simp; omega)
  rw [e1, Res.ok_bind]
  obtain ⟨t2, e2, f2, g2⟩ := strcat_ok f1 hp (by simp only [List.length_append, List.length_nil]; omega)
  rw [e2, Res.ok_bind]
  obtain ⟨t3, e3, f3, g3⟩ := strcat_ok f2 (holds_lit (s := ", ") (by decide))
    (by simp only [List.length_append, List.length_nil]; omega)
  rw [e3, Res.ok_bind]
  obtain ⟨t4, e4, f4, g4⟩ := strcat_ok f3 he (by simp only [List.length_append, List.length_nil]; omega)
  rw [e4, Res.ok_bind]
  obtain ⟨t5, e5, f5, g5⟩ := strcat_ok f4 (holds_lit (s := ")") (by decide))
    (by simp only [List.length_append, List.length_nil]; omega)
  exact ⟨t5, e5, by simpa using f5⟩

theorem elemGetStr_ok (j₁ j₂ j₃ : ℕ → Char) (alg d arb : Bool) {s v w : Mem} {a b c : List Char}
    (hs : Holds s a) (hv : Holds v b) (hw : Holds w c) :
    ∃ m, elemGetStr j₁ j₂ j₃ alg d arb s v w = .ok m ∧
      Holds m ((if alg then (if d || arb then a ++ " ~ ".toList else a) else []) ++
        (if d then b else if arb then c else [])) := by
  unfold elemGetStr
  have h0 : put ((List.range 1).map j₁) 0 nul = .ok [nul] := by
    unfold put; rw [if_pos (by simp)]; rfl
  have hh : Holds [nul] [] := ⟨by simp, [], rfl⟩
  rw [h0, Res.ok_bind]
  have first : ∃ t, elemAlg j₂ alg d arb s [nul] = .ok t ∧
      Holds t (if alg then (if d || arb then a ++ " ~ ".toList else a) else []) := by
    unfold elemAlg
    cases alg with
    | false => exact ⟨[nul], rfl, hh⟩
    | true =>
      simp only [if_true]
      rw [hs.strlen, Res.ok_bind]
      by_cases hb : (d || arb) = true
      · rw [if_pos hb, if_pos hb]
        obtain ⟨r1, r2⟩ := realloc_holds (junk := j₂) hh (n := a.length + 4) (by simp)
        obtain ⟨t1, e1, f1, g1⟩ := strcat_ok r1 hs (by rw [r2]; simp)
        rw [e1, Res.ok_bind]
        have l2 : " ~ ".toList.length = 3 := by decide
        obtain ⟨t2, e2, f2, g2⟩ := strcat_ok f1 (holds_lit (s := " ~ ") (by decide))
          (by rw [g1, r2, l2]; simp)
        exact ⟨t2, e2, by simpa using f2⟩
      · rw [if_neg hb, if_neg hb]
        obtain ⟨r1, r2⟩ := realloc_holds (junk := j₂) hh (n := a.length + 1) (by simp)
        obtain ⟨t1, e1, f1, g1⟩ := strcat_ok r1 hs (by rw [r2]; simp)
        exact ⟨t1, e1, by simpa using f1⟩
  obtain ⟨t, e, ht⟩ := first
  rw [e, Res.ok_bind]
  unfold elemNum
  have second : ∀ {u : Mem} {x : List Char}, Holds u x → ∃ m, (do
      let a ← strlen t
      let b ← strlen u
      strcat (realloc j₃ t (a + b + 1)) u : Res Mem) = .ok m ∧
      Holds m ((if alg then (if d || arb then a ++ " ~ ".toList else a) else []) ++ x) := by
    intro u x hu
    rw [ht.strlen, Res.ok_bind, hu.strlen, Res.ok_bind]
    obtain ⟨r1, r2⟩ := realloc_holds (junk := j₃) ht
      (n := (if alg then (if d || arb then a ++ " ~ ".toList else a) else []).length + x.length + 1)
      (by omega)
    obtain ⟨m, e1, f1, -⟩ := strcat_ok r1 hu (by rw [r2]; omega)
    exact ⟨m, e1, f1⟩
  cases d with
  | true => simp only [if_true]; exact second hv
  | false =>
    cases arb with
    | true => simp only [if_true, Bool.false_eq_true, if_false]; exact second hw
    | false => simp only [Bool.false_eq_true, if_false, List.append_nil]; exact ⟨t, rfl, ht⟩

end EAntic.Ptr
