import Verif.Lemmas.CxxDemo
import Verif.Lemmas.NearDouble

/-!
# C33–C37, C46, C48–C50: the C++ elements

Setting: `L` collects the fields of a program (field 0 is the trivial one) and what the element layer
is built on for each of them; `α i` is the generator of field `i`.  `w` is the memory of the process
and `Represents L α I S w` says what every variable of the program holds: `S x` is `absent`, `moved`
(a moved-from element) or `elem i a`, the real number `a` as an element of field `i`.  `exec L c w`
is a call.
-/

namespace EAntic.Cxx

variable {L : Lib} {α : ℕ → ℝ} {I : ℕ → Field → Prop} {S : ℕ → Slot} {w w' : World}

/-- a good run of a call that does not approximate returns or throws -/
private theorem outcome {β : Type} {T : String → World → Prop} {Q : β → World → Prop} {r : Out β}
    (h : Good False T Q r) : (∃ a w', r = .ok (a, w') ∧ Q a w') ∨ ∃ s w', r = .throw s w' ∧ T s w' := by
  cases r with
  | ok p => exact .inl ⟨p.1, p.2, rfl, h⟩
  | throw s w' => exact .inr ⟨s, w', rfl, h⟩
  | _ => exact h.elim

private theorem returns {β : Type} {Q : β → World → Prop} {r : Out β}
    (h : Good False (fun _ _ => False) Q r) : ∃ a w', r = .ok (a, w') ∧ Q a w' := by
  rcases outcome h with h | ⟨_, _, _, h⟩
  · exact h
  · exact h.elim

private theorem ub_bind {β γ : Type} {m : W β} {f : β → W γ} {P : β → World → Prop} {w : World}
    (h1 : Good False (fun _ _ => False) P (m w)) (h2 : ∀ a w', P a w' → f a w' = .ub) :
    (m >>= f) w = .ub := by
  obtain ⟨a, w', e, hp⟩ := returns h1
  show W.bind m f w = .ub
  unfold W.bind
  rw [e]
  exact h2 a w' hp

private theorem ub_ret {β : Type} {f : β → Val} {m : W β} {w : World} (h : m w = .ub) :
    ret f m w = .ub := by
  show W.bind m _ w = .ub
  unfold W.bind
  rw [h]

private theorem W.obj_bind {γ : Type} {x : Reg} {o : Obj} {f : Obj → W γ} {w : World}
    (h : w.obj x = some o) : (W.obj x >>= f) w = f o w := by
  show W.bind _ f w = _
  simp [W.bind, W.obj, h]

private theorem parent_good {S : Reg → Slot} {U : Prop} {T : String → World → Prop} {x : Reg} {i : ℕ} {a : ℝ}
    (h : Rep L α I Λ S w) (hx : S x = .elem i a) :
    Good U T (fun k w' => k = i ∧ w' = w) (parent x w) := by
  obtain ⟨c, hc, _⟩ := h.find hx
  unfold parent
  rw [W.obj_bind hc]
  exact ⟨rfl, rfl⟩

/-! ## C49: programs -/

/-- C49.  Every call that a program may make (`Valid`) and that does not evaluate numerically
returns with the result of exact arithmetic or throws an exception it should throw.  Afterwards the
memory represents the new values, or the old ones if it threw: every element owns storage of its own
field, nothing is released twice, nothing (more) leaks.  (A conversion to another field that throws is the
exception, see `C56_leak_counterexample`.) -/
theorem C49_call (hE : ∀ i, FieldInv (L.E i) (α i) (I i)) (hb : L.bits.Ok) {Λ : Set ℕ} {c : Cmd}
    (h : RepresentsUpTo L α I Λ S w) (hv : Valid L α S c) (hc : ¬ c.approximates) :
    (∃ ans w' S', exec L c w = .ok (ans, w') ∧ Step L α S c ans S' ∧ RepresentsUpTo L α I Λ S' w') ∨
    ∃ s w', exec L c w = .throw s w' ∧ Throws L S c s ∧
      (¬ c.converts → RepresentsUpTo L α I Λ S w') := by
  rcases outcome ((exec_good hE hb h hv).weaken hc fun _ _ h => h) with
    ⟨a, w', h1, S', h2, h3⟩ | ⟨s, w', h1, h2, Λ', h3, h4⟩
  · exact .inl ⟨a, w', S', h1, h2, h3⟩
  · refine .inr ⟨s, w', h1, h2, fun hn => ?_⟩
    rcases h3 with rfl | ⟨h3, _⟩
    · exact h4
    · exact absurd h3 hn

/-- C49.  The same for calls that evaluate numerically, whenever they return or throw. -/
theorem C49_approximating_call (hE : ∀ i, FieldInv (L.E i) (α i) (I i)) (hb : L.bits.Ok) {c : Cmd}
    (h : Represents L α I S w) (hv : Valid L α S c) :
    (∀ ans w', exec L c w = .ok (ans, w') → ∃ S', Step L α S c ans S' ∧ Represents L α I S' w') ∧
    ∀ s w', exec L c w = .throw s w' → Throws L S c s ∧
      (¬ c.converts → Represents L α I S w') := by
  have := exec_good hE hb h hv
  constructor
  · intro a w' e; rw [e] at this; exact this
  · intro s w' e
    rw [e] at this
    obtain ⟨h2, Λ, h3, h4⟩ := this
    refine ⟨h2, fun hn => ?_⟩
    rcases h3 with rfl | ⟨h3, _⟩
    · exact h4
    · exact absurd h3 hn

/-- C49.  Programs: the answers are those of exact arithmetic, and the memory is in order at the
end. -/
theorem C49_program (hE : ∀ i, FieldInv (L.E i) (α i) (I i)) (hb : L.bits.Ok) {cs : List Cmd}
    (h : Represents L α I S w) (hv : Allowed L α S cs) {as : List Val}
    (hr : execAll L cs w = .ok (as, w')) :
    ∃ S', Steps L α S cs as S' ∧ Represents L α I S' w' := by
  have := execAll_good hE hb h hv
  rw [hr] at this; exact this

/-- C49.  Programs without numerical evaluation run to the end or throw where they should: no
undefined behaviour, no failed assertion, no endless loop. -/
theorem C49_safe_program (hE : ∀ i, FieldInv (L.E i) (α i) (I i)) (hb : L.bits.Ok) {cs : List Cmd}
    (h : Represents L α I S w) (hv : Allowed L α S cs) (hc : ∀ c ∈ cs, ¬ c.approximates) :
    (∃ as w' S', execAll L cs w = .ok (as, w') ∧ Steps L α S cs as S' ∧ Represents L α I S' w') ∨
    ∃ s w', execAll L cs w = .throw s w' ∧ ThrowsIn L α S cs s := by
  rcases outcome ((execAll_good hE hb h hv).weaken (fun ⟨c, h1, h2⟩ => hc c h1 h2)
    fun _ _ h => h) with
    ⟨a, w', h1, S', h2, h3⟩ | h
  · exact .inl ⟨a, w', S', h1, h2, h3⟩
  · exact .inr h

/-- C49.  When every element is destroyed, no storage is left. -/
theorem C49_no_leak (h : Represents L α I (fun _ => .absent) w) (c : ℕ) : w.cell c = none := by
  by_contra hc
  obtain ⟨x, i, hx⟩ := h.owned c hc (by simp)
  have : vars (fun _ => Slot.absent) x = .absent := by cases x <;> rfl
  rw [h.absent x this] at hx
  cases hx

private theorem has3 : IntTy.int.Has lib.bits 3 := show InS 32 3 by decide

/-- `∛2`, `3`, their sum, a move, destruction of everything -/
def demoCmds : List Cmd :=
  [.constructVec 0 1 [0, 1] 1, .constructInt 1 0 .int 3, .binary .add 2 0 1, .moveCtor 3 2,
    .destroy 0, .destroy 1, .destroy 2, .destroy 3]

theorem demoCmds_allowed : Allowed lib gens (fun _ => .absent) demoCmds := by
  refine ⟨⟨rfl, by decide, by decide⟩, ?_⟩
  rintro _ _ ⟨rfl, rfl⟩
  refine ⟨⟨by simp, has3⟩, ?_⟩
  rintro _ _ ⟨rfl, rfl⟩
  refine ⟨⟨by simp, ⟨1, realValue (gens 1) [0, 1] 1, by simp⟩, 0, (3 : ℤ), by simp, by simp⟩, ?_⟩
  rintro _ _ ⟨i, a, j, b, k, h1, h2, h3, h4, rfl, rfl⟩
  refine ⟨⟨by simp, by simp⟩, ?_⟩
  rintro _ _ ⟨rfl, rfl⟩
  refine ⟨by simp [Valid], ?_⟩
  rintro _ _ ⟨rfl, rfl⟩
  refine ⟨by simp [Valid], ?_⟩
  rintro _ _ ⟨rfl, rfl⟩
  refine ⟨by simp [Valid], ?_⟩
  rintro _ _ ⟨rfl, rfl⟩
  exact ⟨by simp [Valid], fun _ _ _ => trivial⟩

/-- the hypotheses of the theorems of this file hold at the start of a program -/
example : (∀ i, FieldInv (lib.E i) (gens i) (fine i)) ∧ lib.bits.Ok ∧
    Represents lib gens fine (fun _ => .absent) start := ⟨lib_inv, lp64_ok, start_rep⟩

/-- the program runs to its end, with these answers, and leaves no storage behind -/
example : ∃ w', execAll lib demoCmds start = .ok ([.unit, .unit, .unit, .unit, .unit, .unit, .unit, .unit], w') ∧
    ∃ S', Steps lib gens (fun _ => .absent) demoCmds [.unit, .unit, .unit, .unit, .unit, .unit, .unit, .unit] S' ∧
      Represents lib gens fine S' w' := by
  obtain ⟨w', h⟩ := answer_eq_some (β := List Val) (r := execAll lib demoCmds start)
    (a := [.unit, .unit, .unit, .unit, .unit, .unit, .unit, .unit]) (by decide +kernel)
  exact ⟨w', h, C49_program lib_inv lp64_ok start_rep demoCmds_allowed h⟩
example : (∃ as w' S', execAll lib demoCmds start = .ok (as, w') ∧
      Steps lib gens (fun _ => .absent) demoCmds as S' ∧ Represents lib gens fine S' w') ∨
    ∃ s w', execAll lib demoCmds start = .throw s w' ∧ ThrowsIn lib gens (fun _ => .absent) demoCmds s :=
  C49_safe_program lib_inv lp64_ok start_rep demoCmds_allowed (by simp [demoCmds, Cmd.approximates])

/-- a state with `∛2` in field 1 and `3` in the trivial field is reached -/
theorem demo_state : ∃ w, Represents lib gens fine
    (Function.update (Function.update (fun _ => .absent) 0 (.elem 1 cbrt2)) 1 (.elem 0 3)) w := by
  obtain ⟨a, w₁, -, S₁, h1, r1⟩ := returns ((exec_good lib_inv lp64_ok
    (c := .constructVec 0 1 [0, 1] 1) start_rep ⟨rfl, by decide, by decide⟩).weaken id fun _ _ h => h.1)
  obtain ⟨rfl, rfl⟩ := h1
  obtain ⟨a, w₂, -, S₂, h2, r2⟩ := returns ((exec_good lib_inv lp64_ok
    (c := .constructInt 1 0 .int 3) r1 ⟨by simp, has3⟩).weaken id fun _ _ h => h.1)
  obtain ⟨rfl, rfl⟩ := h2
  refine ⟨w₂, ?_⟩
  convert r2 using 3
  · congr 1
    simp [realValue, toPoly, gens]
  · norm_num

/-- `∛2` and `(3 + 2∛2)/6` in field 1, `3` in the trivial field -/
noncomputable def demoSlots : ℕ → Slot :=
  Function.update (Function.update (Function.update (fun _ => .absent) 0 (.elem 1 cbrt2)) 1 (.elem 0 3)) 2
    (.elem 1 ((3 + 2 * cbrt2) / 6))

/-- that state is reached, and in it these calls return with these answers; enclosures are refined on the way -/
theorem demo_world : ∃ w, Represents lib gens fine demoSlots w ∧
    ∀ p ∈ ([(.lt 0 1, .bool true), (.lt 2 0, .bool true), (.eq 0 2, .bool false), (.ltQ 0 (5 / 4), .bool false),
        (.gtQ 0 (5 / 4), .bool true), (.ltInt 0 .long 2, .bool true), (.gtInt 0 .uint 2, .bool false),
        (.floordiv 1 0, .int 2), (.floordiv 2 0, .int 0), (.den 2, .int 6), (.numVector 2, .ints [3, 2, 0]),
        (.numContent 2, .int 1), (.floor 2, .int 0), (.sgn 2, .int 1), (.rel .ge 0 1, .bool false),
        (.relNum .ne 0 (.mpq (5 / 4)), .bool true), (.numRel .lt (.int .int 1) 2, .bool false)] : List (Cmd × Val)),
      (exec lib p.1 w).answer = some p.2 := by
  obtain ⟨a, w₁, e1, S₁, h1, r1⟩ := returns ((exec_good lib_inv lp64_ok
    (c := .constructVec 0 1 [0, 1] 1) start_rep ⟨rfl, by decide, by decide⟩).weaken id fun _ _ h => h.1)
  obtain ⟨rfl, rfl⟩ := h1
  obtain ⟨a, w₂, e2, S₂, h2, r2⟩ := returns ((exec_good lib_inv lp64_ok
    (c := .constructInt 1 0 .int 3) r1 ⟨by simp, has3⟩).weaken id fun _ _ h => h.1)
  obtain ⟨rfl, rfl⟩ := h2
  obtain ⟨a, w₃, e3, S₃, h3, r3⟩ := returns ((exec_good lib_inv lp64_ok
    (c := .constructVec 2 1 [3, 2] 6) r2 ⟨by simp, by decide, by decide⟩).weaken id fun _ _ h => h.1)
  obtain ⟨rfl, rfl⟩ := h3
  refine ⟨w₃, ?_, ?_⟩
  · convert r3 using 1
    unfold demoSlots
    congr 1
    · congr 1
      · congr 1
        simp [realValue, toPoly, gens]
    · congr 1
      simp [realValue, toPoly, gens]
  · intro p hp
    have key : ∀ p ∈ ([(.lt 0 1, .bool true), (.lt 2 0, .bool true), (.eq 0 2, .bool false),
        (.ltQ 0 (5 / 4), .bool false),
        (.gtQ 0 (5 / 4), .bool true), (.ltInt 0 .long 2, .bool true), (.gtInt 0 .uint 2, .bool false),
        (.floordiv 1 0, .int 2), (.floordiv 2 0, .int 0), (.den 2, .int 6), (.numVector 2, .ints [3, 2, 0]),
        (.numContent 2, .int 1), (.floor 2, .int 0), (.sgn 2, .int 1), (.rel .ge 0 1, .bool false),
        (.relNum .ne 0 (.mpq (5 / 4)), .bool true), (.numRel .lt (.int .int 1) 2, .bool false)] : List (Cmd × Val)),
        (match exec lib (.constructVec 0 1 [0, 1] 1) start with
        | .ok (_, w) => match exec lib (.constructInt 1 0 .int 3) w with
          | .ok (_, w) => match exec lib (.constructVec 2 1 [3, 2] 6) w with
            | .ok (_, w) => (exec lib p.1 w).answer
            | _ => none
          | _ => none
        | _ => none) = some p.2 := by decide +kernel
    have := key p hp
    simp only [e1, e2, e3] at this
    exact this

/-! ## C33: arithmetic -/

/-- C33.  `x += y` and its relatives, for every combination of parents (also `x` and `y` the same
object): if the operation is supported the element `x` becomes the sum, difference, product or
quotient, as an element of the parent of `x` if `y` is rational or has the same parent, of the parent
of `y` otherwise; if it is not supported an exception is thrown. -/
theorem C33_compound (hE : ∀ i, FieldInv (L.E i) (α i) (I i)) (hb : L.bits.Ok)
    (h : Represents L α I S w) (f : BinK) {x y i j : ℕ} {a b : ℝ} (hx : S x = .elem i a)
    (hy : S y = .elem j b) (h0 : f = .div → b ≠ 0) :
    (Supported L.strict i a j b → ∃ k w', ResultField i j b k ∧
      exec L (.binop f x y) w = .ok (.unit, w') ∧
      Represents L α I (Function.update S x (.elem k (f.real a b))) w') ∧
    (¬ Supported L.strict i a j b → ∃ s w', exec L (.binop f x y) w = .throw s w' ∧
      Represents L α I S w') := by
  rcases C49_call hE hb h (c := .binop f x y) ⟨⟨i, a, hx⟩, j, b, hy, h0⟩ id with
    ⟨ans, w', S', h1, ⟨i', a', j', b', k, e1, e2, h2, h3, rfl, rfl⟩, h4⟩ |
    ⟨s, w', h1, ⟨i', a', j', b', e1, e2, h2⟩, h3⟩
  all_goals
    rw [hx] at e1; rw [hy] at e2
    injection e1 with e1 e1'; injection e2 with e2 e2'
    subst e1 e1' e2 e2'
  · exact ⟨fun _ => ⟨k, w', h3, h1, h4⟩, fun hn => absurd h2 hn⟩
  · exact ⟨fun hs => absurd hs h2, fun _ => ⟨s, w', h1, h3 id⟩⟩

/-- C33.  `x + y` and its relatives: a new element with the same properties; the operands are
unchanged. -/
theorem C33_binary (hE : ∀ i, FieldInv (L.E i) (α i) (I i)) (hb : L.bits.Ok)
    (h : Represents L α I S w) (f : BinK) {r x y i j : ℕ} {a b : ℝ} (hr : S r = .absent)
    (hx : S x = .elem i a) (hy : S y = .elem j b) (h0 : f = .div → b ≠ 0) :
    (Supported L.strict i a j b → ∃ k w', ResultField i j b k ∧
      exec L (.binary f r x y) w = .ok (.unit, w') ∧
      Represents L α I (Function.update S r (.elem k (f.real a b))) w') ∧
    (¬ Supported L.strict i a j b → ∃ s w', exec L (.binary f r x y) w = .throw s w' ∧
      Represents L α I S w') := by
  rcases C49_call hE hb h (c := .binary f r x y) ⟨hr, ⟨i, a, hx⟩, j, b, hy, h0⟩ id with
    ⟨ans, w', S', h1, ⟨i', a', j', b', k, e1, e2, h2, h3, rfl, rfl⟩, h4⟩ |
    ⟨s, w', h1, ⟨i', a', j', b', e1, e2, h2⟩, h3⟩
  all_goals
    rw [hx] at e1; rw [hy] at e2
    injection e1 with e1 e1'; injection e2 with e2 e2'
    subst e1 e1' e2 e2'
  · exact ⟨fun _ => ⟨k, w', h3, h1, h4⟩, fun hn => absurd h2 hn⟩
  · exact ⟨fun hs => absurd hs h2, fun _ => ⟨s, w', h1, h3 id⟩⟩

/-- C33.  An integer or rational number on the left: always supported, also with strict checks. -/
theorem C33_rational_left (hE : ∀ i, FieldInv (L.E i) (α i) (I i)) (hb : L.bits.Ok)
    (h : Represents L α I S w) (f : BinK) {r y j : ℕ} (q : ℚ) {b : ℝ} (hr : S r = .absent)
    (hy : S y = .elem j b) (h0 : f = .div → b ≠ 0) :
    ∃ k w', (k = j ∨ ResultField 0 j b k) ∧
      exec L (.numBinary f r (.mpq q) y) w = .ok (.unit, w') ∧
      Represents L α I (Function.update S r (.elem k (f.real q b))) w' := by
  rcases C49_call hE hb h (c := .numBinary f r (.mpq q) y) ⟨hr, trivial, j, b, hy, h0⟩ id with
    ⟨ans, w', S', h1, ⟨j', b', k, e2, h3, rfl, rfl⟩, h4⟩ | ⟨s, _, h1, h2, -⟩
  · rw [hy] at e2
    injection e2 with e2 e2'
    subst e2 e2'
    refine ⟨k, w', ?_, h1, h4⟩
    split_ifs at h3
    · exact .inl h3
    · exact .inr h3
  · exact h2.elim

/-- C33.  An arbitrary precision integer or rational number on the right: the parent stays. -/
theorem C33_rational_right (hE : ∀ i, FieldInv (L.E i) (α i) (I i)) (hb : L.bits.Ok)
    (h : Represents L α I S w) (f : BinK) {x i : ℕ} {a : ℝ} (hx : S x = .elem i a) :
    (∀ q : ℚ, (f = .div → q ≠ 0) → ∃ w', exec L (.binopQ f x q) w = .ok (.unit, w') ∧
      Represents L α I (Function.update S x (.elem i (f.real a q))) w') ∧
    (∀ z : ℤ, (f = .div → z ≠ 0) → ∃ w', exec L (.binopZ f x z) w = .ok (.unit, w') ∧
      Represents L α I (Function.update S x (.elem i (f.real a z))) w') := by
  constructor
  · intro q hq
    rcases C49_call hE hb h (c := .binopQ f x q) ⟨⟨i, a, hx⟩, hq⟩ id with
      ⟨ans, w', S', h1, ⟨i', a', e1, rfl, rfl⟩, h4⟩ | ⟨s, _, h1, h2, -⟩
    · rw [hx] at e1; injection e1 with e1 e1'; subst e1 e1'; exact ⟨w', h1, h4⟩
    · exact h2.elim
  · intro q hq
    rcases C49_call hE hb h (c := .binopZ f x q) ⟨⟨i, a, hx⟩, hq⟩ id with
      ⟨ans, w', S', h1, ⟨i', a', e1, rfl, rfl⟩, h4⟩ | ⟨s, _, h1, h2, -⟩
    · rw [hx] at e1; injection e1 with e1 e1'; subst e1 e1'; exact ⟨w', h1, h4⟩
    · exact h2.elim

/-- C33.  Unary minus. -/
theorem C33_neg (hE : ∀ i, FieldInv (L.E i) (α i) (I i)) (hb : L.bits.Ok)
    (h : Represents L α I S w) {r x i : ℕ} {a : ℝ} (hr : S r = .absent) (hx : S x = .elem i a) :
    ∃ w', exec L (.neg r x) w = .ok (.unit, w') ∧
      Represents L α I (Function.update S r (.elem i (-a))) w' := by
  rcases C49_call hE hb h (c := .neg r x) ⟨hr, i, a, hx⟩ id with
    ⟨ans, w', S', h1, ⟨i', a', e1, rfl, rfl⟩, h4⟩ | ⟨s, _, h1, h2, -⟩
  · rw [hx] at e1; injection e1 with e1 e1'; subst e1 e1'; exact ⟨w', h1, h4⟩
  · exact h2.elim

/-- `3 + ∛2` is an element of the field of `∛2`, and `∛2 - ∛2` with different parents throws -/
example : (∃ w w' : World, exec lib (.binary .add 2 1 0) w = .ok (.unit, w') ∧
    Represents lib gens fine (Function.update (Function.update (Function.update (fun _ => .absent)
      0 (.elem 1 cbrt2)) 1 (.elem 0 3)) 2 (.elem 1 (3 + cbrt2))) w') ∧
    ¬ Supported false 1 cbrt2 2 cbrt2 := by
  constructor
  · obtain ⟨w, hw⟩ := demo_state
    obtain ⟨k, w', hk, h1, h2⟩ := (C33_binary lib_inv lp64_ok hw .add (r := 2) (x := 1) (y := 0)
      (i := 0) (j := 1) (a := 3) (b := cbrt2) (by simp) (by simp) (by simp) (by simp)).1
      (.inr ⟨.inl ⟨3, by norm_num⟩, by simp [lib]⟩)
    rcases hk with ⟨h, _⟩ | ⟨_, h, _⟩ | ⟨_, _, rfl⟩
    · cases h
    · exact absurd h cbrt2_irr
    · exact ⟨w, w', h1, h2⟩
  · rintro (h | ⟨h | h, _⟩)
    · cases h
    · exact cbrt2_irr h
    · exact cbrt2_irr h

/-- in place, and with rational numbers on either side -/
example : ∃ w, Represents lib gens fine demoSlots w ∧
    (∃ k w', ResultField 1 1 cbrt2 k ∧ exec lib (.binop .div 2 0) w = .ok (.unit, w') ∧
      Represents lib gens fine (Function.update demoSlots 2
        (.elem k (BinK.div.real ((3 + 2 * cbrt2) / 6) cbrt2))) w') ∧
    (∃ k w', (k = 1 ∨ ResultField 0 1 cbrt2 k) ∧ exec lib (.numBinary .div 5 (.mpq (2 / 7)) 0) w = .ok (.unit, w') ∧
      Represents lib gens fine (Function.update demoSlots 5
        (.elem k (BinK.div.real ((2 / 7 : ℚ) : ℝ) cbrt2))) w') ∧
    (∃ w', exec lib (.binopQ .sub 0 (1 / 3)) w = .ok (.unit, w') ∧
      Represents lib gens fine (Function.update demoSlots 0
        (.elem 1 (BinK.sub.real cbrt2 ((1 / 3 : ℚ) : ℝ)))) w') ∧
    (∃ w', exec lib (.neg 5 0) w = .ok (.unit, w') ∧
      Represents lib gens fine (Function.update demoSlots 5 (.elem 1 (-cbrt2))) w') := by
  obtain ⟨w, hw, -⟩ := demo_world
  exact ⟨w, hw, (C33_compound lib_inv lp64_ok hw .div (x := 2) (y := 0) rfl rfl fun _ => cbrt2_pos.ne').1 (.inl rfl),
    C33_rational_left lib_inv lp64_ok hw .div (2 / 7) (r := 5) (y := 0) rfl rfl fun _ => cbrt2_pos.ne',
    (C33_rational_right lib_inv lp64_ok hw .sub (x := 0) rfl).1 (1 / 3) (by simp),
    C33_neg lib_inv lp64_ok hw (r := 5) (x := 0) rfl rfl⟩

/-! ## C34: comparison and hashing -/

/-- C34.  `==` decides equality of the real numbers if the parents agree or one of the operands is
rational, and throws otherwise. -/
theorem C34_eq (hE : ∀ i, FieldInv (L.E i) (α i) (I i)) (hb : L.bits.Ok)
    (h : Represents L α I S w) {x y i j : ℕ} {a b : ℝ} (hx : S x = .elem i a)
    (hy : S y = .elem j b) :
    (i = j ∨ IsRat a ∨ IsRat b → ∃ r w', exec L (.eq x y) w = .ok (.bool r, w') ∧
      Represents L α I S w' ∧ (r = true ↔ a = b)) ∧
    (¬ (i = j ∨ IsRat a ∨ IsRat b) → ∃ s w', exec L (.eq x y) w = .throw s w' ∧
      Represents L α I S w') := by
  rcases C49_call hE hb h (c := .eq x y) ⟨⟨i, a, hx⟩, j, b, hy⟩ id with
    ⟨ans, w', S', h1, ⟨i', a', j', b', e1, e2, h2, rfl, r, rfl, hr⟩, h4⟩ |
    ⟨s, w', h1, ⟨i', a', j', b', e1, e2, h2⟩, h3⟩
  all_goals
    rw [hx] at e1; rw [hy] at e2
    injection e1 with e1 e1'; injection e2 with e2 e2'
    subst e1 e1' e2 e2'
  · exact ⟨fun _ => ⟨r, w', h1, h4, hr⟩, fun hn => absurd h2 hn⟩
  · exact ⟨fun hs => absurd hs h2, fun _ => ⟨s, w', h1, h3 id⟩⟩

/-- C34.  Whenever `<` returns, the answer is that for the real numbers; it throws only if neither
operand is rational and the parents differ. -/
theorem C34_lt (hE : ∀ i, FieldInv (L.E i) (α i) (I i)) (hb : L.bits.Ok)
    (h : Represents L α I S w) {x y i j : ℕ} {a b : ℝ} (hx : S x = .elem i a)
    (hy : S y = .elem j b) :
    (∀ ans w', exec L (.lt x y) w = .ok (ans, w') → ∃ r, ans = .bool r ∧ (r = true ↔ a < b) ∧
      Represents L α I S w') ∧
    (∀ s w', exec L (.lt x y) w = .throw s w' → (i ≠ j ∧ ¬ IsRat a ∧ ¬ IsRat b) ∧
      Represents L α I S w') := by
  obtain ⟨h1, h2⟩ := C49_approximating_call hE hb h (c := .lt x y) ⟨⟨i, a, hx⟩, j, b, hy⟩
  constructor
  · intro ans w' e
    obtain ⟨S', ⟨i', a', j', b', e1, e2, h2, rfl, r, rfl, hr⟩, h4⟩ := h1 ans w' e
    rw [hx] at e1; rw [hy] at e2
    injection e1 with e1 e1'; injection e2 with e2 e2'
    subst e1 e1' e2 e2'
    exact ⟨r, rfl, hr, h4⟩
  · intro s w' e
    obtain ⟨⟨i', a', j', b', e1, e2, h2⟩, h3⟩ := h2 s w' e
    rw [hx] at e1; rw [hy] at e2
    injection e1 with e1 e1'; injection e2 with e2 e2'
    subst e1 e1' e2 e2'
    push Not at h2
    exact ⟨h2, h3 id⟩

/-- C34.  Comparison with rational numbers: `==` always returns, `<` and `>` are right whenever they
return. -/
theorem C34_rational (hE : ∀ i, FieldInv (L.E i) (α i) (I i)) (hb : L.bits.Ok)
    (h : Represents L α I S w) {x i : ℕ} {a : ℝ} (hx : S x = .elem i a) (q : ℚ) :
    (∃ r w', exec L (.eqQ x q) w = .ok (.bool r, w') ∧ (r = true ↔ a = q) ∧
      Represents L α I S w') ∧
    (∀ ans w', exec L (.ltQ x q) w = .ok (ans, w') → ∃ r, ans = .bool r ∧ (r = true ↔ a < q) ∧
      Represents L α I S w') ∧
    (∀ ans w', exec L (.gtQ x q) w = .ok (ans, w') → ∃ r, ans = .bool r ∧ (r = true ↔ q < a) ∧
      Represents L α I S w') := by
  refine ⟨?_, ?_, ?_⟩
  · rcases C49_call hE hb h (c := .eqQ x q) ⟨i, a, hx⟩ id with
      ⟨ans, w', S', h1, ⟨i', a', e1, rfl, r, rfl, hr⟩, h4⟩ | ⟨s, _, h1, h2, -⟩
    · rw [hx] at e1; injection e1 with e1 e1'; subst e1 e1'; exact ⟨r, w', h1, hr, h4⟩
    · exact h2.elim
  · intro ans w' e
    obtain ⟨S', ⟨i', a', e1, rfl, r, rfl, hr⟩, h4⟩ :=
      (C49_approximating_call hE hb h (c := .ltQ x q) ⟨i, a, hx⟩).1 ans w' e
    rw [hx] at e1; injection e1 with e1 e1'; subst e1 e1'; exact ⟨r, rfl, hr, h4⟩
  · intro ans w' e
    obtain ⟨S', ⟨i', a', e1, rfl, r, rfl, hr⟩, h4⟩ :=
      (C49_approximating_call hE hb h (c := .gtQ x q) ⟨i, a, hx⟩).1 ans w' e
    rw [hx] at e1; injection e1 with e1 e1'; subst e1 e1'; exact ⟨r, rfl, hr, h4⟩

/-- C34.  Equal real numbers have equal hashes: for elements of the same or of different fields, at
different times, with different precision, whatever the hash function on doubles is. -/
theorem C34_hash {γ : Type} {L' : Lib} {α' : ℕ → ℝ} {I' : ℕ → Field → Prop} {S' : ℕ → Slot}
    (hE : ∀ i, FieldInv (L.E i) (α i) (I i)) (hE' : ∀ i, FieldInv (L'.E i) (α' i) (I' i))
    {w₁ w₁' w₂ w₂' : World} (h : Represents L α I S w₁) (h' : Represents L' α' I' S' w₁')
    {x y i j : ℕ} {a : ℝ} (hx : S x = .elem i a) (hy : S' y = .elem j a) (f : Dbl → γ) {u v : γ}
    (hu : hash L f (.user x) w₁ = .ok (u, w₂)) (hv : hash L' f (.user y) w₁' = .ok (v, w₂')) :
    u = v := by
  have key : ∀ {L : Lib} {α : ℕ → ℝ} {I : ℕ → Field → Prop} {S : ℕ → Slot} {w₁ w₂ : World}
      {x i : ℕ} {u : γ}, (∀ i, FieldInv (L.E i) (α i) (I i)) → Represents L α I S w₁ →
      S x = .elem i a → hash L f (.user x) w₁ = .ok (u, w₂) → ∃ d, NearDouble a d ∧ u = f d := by
    intro L α I S w₁ w₂ x i u hE h hx hu
    have : Good True (fun _ _ => True) (fun u _ => ∃ d, NearDouble a d ∧ u = f d)
        (hash L f (.user x) w₁) := by
      refine Good.bind (toDouble_good hE trivial h (x := .user x) hx) ?_
      rintro d w' ⟨hd, -, -⟩
      exact ⟨d, hd, rfl⟩
    rw [hu] at this
    exact this
  obtain ⟨d, hd, rfl⟩ := key hE h hx hu
  obtain ⟨d', hd', rfl⟩ := key hE' h' hy hv
  rw [nearDouble_unique hd hd']

/-- elements in different fields that compare equal: `3` and `3` -/
example : ∃ w, Represents lib gens fine (Function.update (Function.update (Function.update
    (fun _ => .absent) 0 (.elem 1 cbrt2)) 1 (.elem 0 3)) 2 (.elem 1 (3 : ℤ))) w ∧
    ∃ w', exec lib (.eq 1 2) w = .ok (.bool true, w') := by
  obtain ⟨w, hw⟩ := demo_state
  obtain ⟨ans, w', -, S', ⟨rfl, rfl⟩, h1⟩ := returns ((exec_good lib_inv lp64_ok
    (c := .constructZ 2 1 3) hw (by simp [Valid])).weaken id fun _ _ h => h.1)
  refine ⟨w', h1, ?_⟩
  obtain ⟨r, w'', h2, -, h3⟩ := (C34_eq lib_inv lp64_ok h1 (x := 1) (y := 2) (i := 0) (j := 1)
    (a := 3) (b := (3 : ℤ)) (by simp) (by simp)).1 (.inr (.inl ⟨3, by norm_num⟩))
  rw [h3.2 (by norm_num)] at h2
  exact ⟨w'', h2⟩

/-- what the calls say about the numbers: `∛2 < 3`, `5/4 < ∛2` -/
example : cbrt2 < 3 ∧ ((5 / 4 : ℚ) : ℝ) < cbrt2 := by
  obtain ⟨w, hw, h⟩ := demo_world
  obtain ⟨w1, h1⟩ := answer_eq_some (h (.lt 0 1, .bool true) (by simp))
  obtain ⟨w2, h2⟩ := answer_eq_some (h (.gtQ 0 (5 / 4), .bool true) (by simp))
  obtain ⟨r, e, h3, -⟩ := (C34_lt lib_inv lp64_ok hw (x := 0) (y := 1) rfl rfl).1 _ _ h1
  obtain ⟨r', e', h4, -⟩ := (C34_rational lib_inv lp64_ok hw (x := 0) rfl (5 / 4)).2.2 _ _ h2
  cases e; cases e'
  exact ⟨h3.1 rfl, h4.1 rfl⟩

/-! ## C35: native integers -/

/-- C35.  Construction from a value of a native integer type, and assignment of it, store exactly
this integer, on every platform; assignment moves the element to the trivial field. -/
theorem C35_construct_assign (hE : ∀ i, FieldInv (L.E i) (α i) (I i)) (hb : L.bits.Ok)
    (h : Represents L α I S w) (x : ℕ) (t : IntTy) {z : ℤ} (hz : t.Has L.bits z) :
    (S x = .absent → ∀ k, ∃ w', exec L (.constructInt x k t z) w = .ok (.unit, w') ∧
      Represents L α I (Function.update S x (.elem k z)) w') ∧
    (S x ≠ .absent → ∃ w', exec L (.assignInt x t z) w = .ok (.unit, w') ∧
      Represents L α I (Function.update S x (.elem 0 z)) w') := by
  constructor
  · intro hx k
    rcases C49_call hE hb h (c := .constructInt x k t z) ⟨hx, hz⟩ id with
      ⟨ans, w', S', h1, ⟨rfl, rfl⟩, h4⟩ | ⟨s, _, h1, h2, -⟩
    · exact ⟨w', h1, h4⟩
    · exact h2.elim
  · intro hx
    rcases C49_call hE hb h (c := .assignInt x t z) ⟨hx, hz⟩ id with
      ⟨ans, w', S', h1, ⟨rfl, rfl⟩, h4⟩ | ⟨s, _, h1, h2, -⟩
    · exact ⟨w', h1, h4⟩
    · exact h2.elim

/-- C35.  Arithmetic with a value of a native integer type. -/
theorem C35_arithmetic (hE : ∀ i, FieldInv (L.E i) (α i) (I i)) (hb : L.bits.Ok)
    (h : Represents L α I S w) (f : BinK) {x i : ℕ} {a : ℝ} (hx : S x = .elem i a) (t : IntTy) {z : ℤ}
    (hz : t.Has L.bits z) (h0 : f = .div → z ≠ 0) :
    ∃ w', exec L (.binopInt f x t z) w = .ok (.unit, w') ∧
      Represents L α I (Function.update S x (.elem i (f.real a z))) w' := by
  rcases C49_call hE hb h (c := .binopInt f x t z) ⟨⟨i, a, hx⟩, hz, h0⟩ id with
    ⟨ans, w', S', h1, ⟨i', a', e1, rfl, rfl⟩, h4⟩ | ⟨s, _, h1, h2, -⟩
  · rw [hx] at e1; injection e1 with e1 e1'; subst e1 e1'; exact ⟨w', h1, h4⟩
  · exact h2.elim

/-- C35.  Comparison with a value of a native integer type. -/
theorem C35_comparison (hE : ∀ i, FieldInv (L.E i) (α i) (I i)) (hb : L.bits.Ok)
    (h : Represents L α I S w) {x i : ℕ} {a : ℝ} (hx : S x = .elem i a) (t : IntTy) {z : ℤ}
    (hz : t.Has L.bits z) :
    (∃ r w', exec L (.eqInt x t z) w = .ok (.bool r, w') ∧ (r = true ↔ a = z) ∧
      Represents L α I S w') ∧
    (∀ ans w', exec L (.ltInt x t z) w = .ok (ans, w') → ∃ r, ans = .bool r ∧ (r = true ↔ a < z) ∧
      Represents L α I S w') ∧
    (∀ ans w', exec L (.gtInt x t z) w = .ok (ans, w') → ∃ r, ans = .bool r ∧ (r = true ↔ z < a) ∧
      Represents L α I S w') := by
  refine ⟨?_, ?_, ?_⟩
  · rcases C49_call hE hb h (c := .eqInt x t z) ⟨⟨i, a, hx⟩, hz⟩ id with
      ⟨ans, w', S', h1, ⟨i', a', e1, rfl, r, rfl, hr⟩, h4⟩ | ⟨s, _, h1, h2, -⟩
    · rw [hx] at e1; injection e1 with e1 e1'; subst e1 e1'; exact ⟨r, w', h1, hr, h4⟩
    · exact h2.elim
  · intro ans w' e
    obtain ⟨S', ⟨i', a', e1, rfl, r, rfl, hr⟩, h4⟩ :=
      (C49_approximating_call hE hb h (c := .ltInt x t z) ⟨⟨i, a, hx⟩, hz⟩).1 ans w' e
    rw [hx] at e1; injection e1 with e1 e1'; subst e1 e1'; exact ⟨r, rfl, hr, h4⟩
  · intro ans w' e
    obtain ⟨S', ⟨i', a', e1, rfl, r, rfl, hr⟩, h4⟩ :=
      (C49_approximating_call hE hb h (c := .gtInt x t z) ⟨⟨i, a, hx⟩, hz⟩).1 ans w' e
    rw [hx] at e1; injection e1 with e1 e1'; subst e1 e1'; exact ⟨r, rfl, hr, h4⟩

/-- the largest `unsigned long long` where `unsigned long` has 32 bits; a negative `long long` -/
example : IntTy.ullong.Has ⟨16, 32, 32, 64, 32⟩ (2 ^ 64 - 1) ∧ Widths.Ok ⟨16, 32, 32, 64, 32⟩ ∧
    IntTy.llong.Has lp64 (-2 ^ 63) ∧ native ⟨16, 32, 32, 64, 32⟩ .ullong (2 ^ 64 - 1) = 2 ^ 64 - 1 := by
  exact ⟨show InU 64 _ by decide, by constructor <;> decide, show InS 64 _ by decide, by decide⟩

example : ∃ w, Represents lib gens fine demoSlots w ∧
    (∃ w', exec lib (.constructInt 5 1 .int 3) w = .ok (.unit, w') ∧
      Represents lib gens fine (Function.update demoSlots 5 (.elem 1 (3 : ℤ))) w') ∧
    (∃ w', exec lib (.binopInt .mul 0 .int 3) w = .ok (.unit, w') ∧
      Represents lib gens fine (Function.update demoSlots 0 (.elem 1 (BinK.mul.real cbrt2 (3 : ℤ)))) w') ∧
    (∃ w', exec lib (.ltInt 0 .long 2) w = .ok (.bool true, w')) ∧ cbrt2 < (2 : ℤ) := by
  obtain ⟨w, hw, h⟩ := demo_world
  obtain ⟨w1, h1⟩ := answer_eq_some (h (.ltInt 0 .long 2, .bool true) (by simp))
  obtain ⟨r, e, h3, -⟩ := (C35_comparison lib_inv lp64_ok hw (x := 0) rfl .long (z := 2)
    (show InS 64 2 by decide)).2.1 _ _ h1
  cases e
  exact ⟨w, hw, (C35_construct_assign lib_inv lp64_ok hw 5 .int has3).1 rfl 1,
    C35_arithmetic lib_inv lp64_ok hw .mul (x := 0) rfl .int has3 (by simp), ⟨w1, h1⟩, h3.1 rfl⟩

/-! ## C36: powers -/

/-- C36, partial.  `pow` with every `int` exponent other than the smallest.  Missing: the smallest
`int`, see `C36_int_min_counterexample`. -/
theorem C36_pow_partial (hE : ∀ i, FieldInv (L.E i) (α i) (I i)) (hb : L.bits.Ok)
    (h : Represents L α I S w) {r x i : ℕ} {a : ℝ} (hr : S r = .absent) (hx : S x = .elem i a)
    {e : ℤ} (he : InS 32 e) (hmin : e ≠ -2 ^ 31) (h0 : e < 0 → a ≠ 0) :
    ∃ w', exec L (.pow r x e) w = .ok (.unit, w') ∧
      Represents L α I (Function.update S r (.elem i (a ^ e))) w' := by
  rcases C49_call hE hb h (c := .pow r x e) ⟨hr, he, i, a, hx, fun hn => ⟨h0 hn, hmin⟩⟩ id with
    ⟨ans, w', S', h1, ⟨i', a', e1, rfl, rfl⟩, h4⟩ | ⟨s, _, h1, h2, -⟩
  · rw [hx] at e1; injection e1 with e1 e1'; subst e1 e1'; exact ⟨w', h1, h4⟩
  · exact h2.elim

/-- C36 fails for the smallest `int`: negating the exponent overflows, whatever the element is. -/
theorem C36_int_min_counterexample (hE : ∀ i, FieldInv (L.E i) (α i) (I i))
    {Λ : Set ℕ} (h : RepresentsUpTo L α I Λ S w) {r x i : ℕ} {a : ℝ} (hr : S r = .absent) (hx : S x = .elem i a)
    (h0 : a ≠ 0) : exec L (.pow r x (-2 ^ 31)) w = .ub := by
  refine ub_ret ?_
  unfold pow
  refine ub_bind (parent_good h (x := .user x) hx) ?_
  rintro _ _ ⟨e1, e2⟩
  rw [e1, e2]
  refine ub_bind (construct_good hE i h (x := .user r) hr) ?_
  intro _ w₁ h₁
  have hxr : x ≠ r := by rintro rfl; rw [hr] at hx; cases hx
  have hx₁ : Function.update (vars S) (.user r) (.elem i 0) (.user x) = .elem i a := by
    rw [Function.update_of_ne (by simpa using hxr)]; exact hx
  obtain ⟨c, hc, _⟩ := h₁.find (x := .user r) (Function.update_self ..)
  obtain ⟨cx, hcx, _⟩ := h₁.find hx₁
  rw [W.obj_bind hc, W.obj_bind hcx, if_pos (by norm_num)]
  refine ub_bind (P := fun _ _ => True) ((store2_good hE h₁ (x := .user r) (Function.update_self ..)
    hx₁ hc hcx (z := a⁻¹)
      fun v hv hv' s hs => stores (inv_spec (hE i) _ _) hs ?_ (by rw [hv'])).mono
      fun _ _ _ => trivial) ?_
  · show ∃ p, (if (s.heap (.user cx)).elem.isZero (L.K i) = true then (M.ub : M Unit)
      else M.write (.user c) ⟨(L.E i).N.inv (s.heap (.user c)).elem (s.heap (.user cx)).elem,
        (L.E i).A.inv (s.heap (.user cx)).emb s.fld.prec⟩) s = .ok p
    rw [if_neg]
    · exact ⟨_, rfl⟩
    · intro h
      refine h0 ?_
      rw [← hv', ← hs.val]
      exact (isZero_iff (hE i).ok (hE i).root (hs.wf _)).1 h
  · intro _ _ _
    rw [if_pos (by rfl)]
    rfl

/-- `(∛2)^(-2)`, and the counterexample for `∛2` -/
example : ∃ w : World, (∃ w', exec lib (.pow 2 0 (-2)) w = .ok (.unit, w') ∧
    Represents lib gens fine (Function.update (Function.update (Function.update (fun _ => .absent)
      0 (.elem 1 cbrt2)) 1 (.elem 0 3)) 2 (.elem 1 (cbrt2 ^ (-2 : ℤ)))) w') ∧
    exec lib (.pow 2 0 (-2 ^ 31)) w = .ub := by
  obtain ⟨w, hw⟩ := demo_state
  have h0 : cbrt2 ≠ 0 := fun h => cbrt2_irr ⟨0, by simpa using h⟩
  exact ⟨w, C36_pow_partial lib_inv lp64_ok hw (by simp) (by simp) (by decide) (by norm_num)
    fun _ => h0, C36_int_min_counterexample lib_inv hw (i := 1) (a := cbrt2) (by simp) (by simp) h0⟩

/-! ## C37: numerators and denominators -/

/-- C37.  `den` returns the least denominator of the coordinates. -/
theorem C37_den (hE : ∀ i, FieldInv (L.E i) (α i) (I i)) (hb : L.bits.Ok)
    (h : Represents L α I S w) {x i : ℕ} {a : ℝ} (hx : S x = .elem i a) :
    ∃ d w', exec L (.den x) w = .ok (.int d, w') ∧ IsDen (α i) (L.K i).degree a d ∧
      Represents L α I S w' := by
  rcases C49_call hE hb h (c := .den x) ⟨i, a, hx⟩ id with
    ⟨ans, w', S', h1, ⟨rfl, i', a', d, e1, rfl, hd⟩, h4⟩ | ⟨s, _, h1, h2, -⟩
  · rw [hx] at e1; injection e1 with e1 e1'; subst e1 e1'; exact ⟨d, w', h1, hd, h4⟩
  · exact h2.elim

/-- C37.  `num_vector` returns the numerators of the coordinates over the least denominator, as many
as the degree of the field. -/
theorem C37_num_vector (hE : ∀ i, FieldInv (L.E i) (α i) (I i)) (hb : L.bits.Ok)
    (h : Represents L α I S w) {x i : ℕ} {a : ℝ} (hx : S x = .elem i a) :
    ∃ l d w', exec L (.numVector x) w = .ok (.ints l, w') ∧ l.length = (L.K i).degree ∧
      HasCoords (α i) a l d ∧ IsDen (α i) (L.K i).degree a d ∧ Represents L α I S w' := by
  rcases C49_call hE hb h (c := .numVector x) ⟨i, a, hx⟩ id with
    ⟨ans, w', S', h1, ⟨rfl, i', a', l, d, e1, rfl, h2, h3, hd⟩, h4⟩ | ⟨s, _, h1, h2, -⟩
  · rw [hx] at e1; injection e1 with e1 e1'; subst e1 e1'; exact ⟨l, d, w', h1, h2, h3, hd, h4⟩
  · exact h2.elim

/-- C37.  `num_content` returns the greatest common divisor of these numerators. -/
theorem C37_num_content (hE : ∀ i, FieldInv (L.E i) (α i) (I i)) (hb : L.bits.Ok)
    (h : Represents L α I S w) {x i : ℕ} {a : ℝ} (hx : S x = .elem i a) :
    ∃ l d g w', exec L (.numContent x) w = .ok (.int g, w') ∧ l.length = (L.K i).degree ∧
      HasCoords (α i) a l d ∧ IsDen (α i) (L.K i).degree a d ∧
      0 ≤ g ∧ (∀ n ∈ l, g ∣ n) ∧ (∀ g' : ℤ, (∀ n ∈ l, g' ∣ n) → g' ∣ g) ∧
      Represents L α I S w' := by
  rcases C49_call hE hb h (c := .numContent x) ⟨i, a, hx⟩ id with
    ⟨ans, w', S', h1, ⟨rfl, i', a', l, d, g, e1, rfl, h2, h3, hd, h5, h6, h7⟩, h4⟩ | ⟨s, _, h1, h2, -⟩
  · rw [hx] at e1; injection e1 with e1 e1'; subst e1 e1'
    exact ⟨l, d, g, w', h1, h2, h3, hd, h5, h6, h7, h4⟩
  · exact h2.elim

/-- C37.  For a rational element `num` and `den` are the numerator and denominator in lowest terms,
and the conversion to `mpq_class` is the number. -/
theorem C37_rational (hE : ∀ i, FieldInv (L.E i) (α i) (I i)) (hb : L.bits.Ok)
    (h : Represents L α I S w) {x i : ℕ} {q : ℚ} (hx : S x = .elem i q) :
    (∃ w', exec L (.num x) w = .ok (.int q.num, w') ∧ Represents L α I S w') ∧
    (∃ w', exec L (.toMpq x) w = .ok (.rat q, w') ∧ Represents L α I S w') := by
  constructor
  · rcases C49_call hE hb h (c := .num x) ⟨i, q, hx, q, rfl⟩ id with
      ⟨ans, w', S', h1, ⟨rfl, i', a', q', e1, rfl, hd⟩, h4⟩ | ⟨s, _, h1, h2, -⟩
    · rw [hx] at e1; injection e1 with e1 e1'; subst e1 e1'
      rw [Rat.cast_inj.1 hd]
      exact ⟨w', h1, h4⟩
    · exact h2.elim
  · rcases C49_call hE hb h (c := .toMpq x) ⟨i, q, hx, q, rfl⟩ id with
      ⟨ans, w', S', h1, ⟨rfl, i', a', q', e1, rfl, hd⟩, h4⟩ | ⟨s, _, h1, h2, -⟩
    · rw [hx] at e1; injection e1 with e1 e1'; subst e1 e1'
      rw [Rat.cast_inj.1 hd]
      exact ⟨w', h1, h4⟩
    · exact h2.elim

/-- the denominator of a rational element is that of the number: `IsDen` determines it -/
theorem C37_den_unique {α a : ℝ} {n : ℕ} {d d' : ℤ} (h : IsDen α n a d) (h' : IsDen α n a d') :
    d = d' := by
  obtain ⟨⟨l, hl, h1⟩, h2⟩ := h
  obtain ⟨⟨l', hl', h1'⟩, h2'⟩ := h'
  exact Int.dvd_antisymm h1.1.le h1'.1.le (h2 l' d' hl' h1') (h2' l d hl h1)

/-- the element `∛2 / 3 + 1 / 2` has the denominator 6 -/
example : ∃ w, Represents lib gens fine
    (Function.update (fun _ => .absent) 0 (.elem 1 (realValue (gens 1) [3, 2] 6))) w := by
  obtain ⟨a, w₁, -, S₁, h1, r1⟩ := returns ((exec_good lib_inv lp64_ok
    (c := .constructVec 0 1 [3, 2] 6) start_rep ⟨rfl, by decide, by decide⟩).weaken id fun _ _ h => h.1)
  obtain ⟨rfl, rfl⟩ := h1
  exact ⟨w₁, r1⟩

/-- denominator and numerators of `(3 + 2∛2)/6`, numerator of 3 -/
example : ∃ w, Represents lib gens fine demoSlots w ∧
    (∃ w', exec lib (.den 2) w = .ok (.int 6, w')) ∧ IsDen cbrt2 3 ((3 + 2 * cbrt2) / 6) 6 ∧
    (∃ w', exec lib (.numVector 2) w = .ok (.ints [3, 2, 0], w')) ∧
    (∃ d, HasCoords cbrt2 ((3 + 2 * cbrt2) / 6) [3, 2, 0] d) ∧
    (∃ g w', exec lib (.numContent 2) w = .ok (.int g, w') ∧ 0 ≤ g) ∧
    (∃ w', exec lib (.num 1) w = .ok (.int 3, w')) := by
  obtain ⟨w, hw, h⟩ := demo_world
  obtain ⟨w1, h1⟩ := answer_eq_some (h (.den 2, .int 6) (by simp))
  obtain ⟨w2, h2⟩ := answer_eq_some (h (.numVector 2, .ints [3, 2, 0]) (by simp))
  obtain ⟨d, w1', e1, k1, -⟩ := C37_den lib_inv lp64_ok hw (x := 2) rfl
  obtain ⟨l, d', w2', e2, -, k2, -⟩ := C37_num_vector lib_inv lp64_ok hw (x := 2) rfl
  obtain ⟨l', d'', g, w3, e3, -, -, -, k3, -⟩ := C37_num_content lib_inv lp64_ok hw (x := 2) rfl
  rw [h1] at e1; rw [h2] at e2
  cases e1; cases e2
  refine ⟨w, hw, ⟨w1, h1⟩, k1, ⟨w2, h2⟩, ⟨d', k2⟩, ⟨g, w3, e3, k3⟩, ?_⟩
  obtain ⟨w4, h4, -⟩ := (C37_rational lib_inv lp64_ok hw (x := 1) (q := 3)
    (show Slot.elem 0 3 = .elem 0 ((3 : ℚ) : ℝ) by norm_num)).1
  exact ⟨w4, h4⟩

/-! ## C46: copies, moves, assignment -/

/-- C46.  A copy is an element of its own with the value and parent of the source; the source is
unchanged, and by `Represents` later changes of one do not affect the other. -/
theorem C46_copy (hE : ∀ i, FieldInv (L.E i) (α i) (I i)) (hb : L.bits.Ok)
    (h : Represents L α I S w) {x y j : ℕ} {b : ℝ} (hy : S y = .elem j b) :
    (S x = .absent → ∃ w', exec L (.copyCtor x y) w = .ok (.unit, w') ∧
      Represents L α I (Function.update S x (.elem j b)) w') ∧
    (S x ≠ .absent → ∃ w', exec L (.copyAssign x y) w = .ok (.unit, w') ∧
      Represents L α I (Function.update S x (.elem j b)) w') := by
  constructor
  · intro hx
    rcases C49_call hE hb h (c := .copyCtor x y) ⟨hx, j, b, hy⟩ id with
      ⟨ans, w', S', h1, ⟨j', b', e1, rfl, rfl⟩, h4⟩ | ⟨s, _, h1, h2, -⟩
    · rw [hy] at e1; injection e1 with e1 e1'; subst e1 e1'; exact ⟨w', h1, h4⟩
    · exact h2.elim
  · intro hx
    rcases C49_call hE hb h (c := .copyAssign x y) ⟨hx, j, b, hy⟩ id with
      ⟨ans, w', S', h1, ⟨j', b', e1, rfl, rfl⟩, h4⟩ | ⟨s, _, h1, h2, -⟩
    · rw [hy] at e1; injection e1 with e1 e1'; subst e1 e1'; exact ⟨w', h1, h4⟩
    · exact h2.elim

/-- C46.  Moving gives the value and parent of the source to the target, for every source and target
(moved-from ones, the same object); swap exchanges values and parents; every element, also a
moved-from one, can be destroyed. -/
theorem C46_move_swap_destroy (hE : ∀ i, FieldInv (L.E i) (α i) (I i)) (hb : L.bits.Ok)
    (h : Represents L α I S w) {x y : ℕ} (hy : S y ≠ .absent) :
    (S x = .absent → ∃ w', exec L (.moveCtor x y) w = .ok (.unit, w') ∧
      Represents L α I (Function.update (Function.update S y .moved) x (S y)) w') ∧
    (S x ≠ .absent → ∃ w' S', exec L (.moveAssign x y) w = .ok (.unit, w') ∧
      Represents L α I S' w' ∧ S' x = S y ∧ S' y ≠ .absent ∧ ∀ z, z ≠ x → z ≠ y → S' z = S z) ∧
    (S x ≠ .absent → ∃ w', exec L (.swap x y) w = .ok (.unit, w') ∧
      Represents L α I (Function.update (Function.update S x (S y)) y (S x)) w') ∧
    (∃ w', exec L (.destroy y) w = .ok (.unit, w') ∧
      Represents L α I (Function.update S y .absent) w') := by
  refine ⟨?_, ?_, ?_, ?_⟩
  · intro hx
    rcases C49_call hE hb h (c := .moveCtor x y) ⟨hx, hy⟩ id with
      ⟨ans, w', S', h1, ⟨rfl, rfl⟩, h4⟩ | ⟨s, _, h1, h2, -⟩
    · exact ⟨w', h1, h4⟩
    · exact h2.elim
  · intro hx
    rcases C49_call hE hb h (c := .moveAssign x y) ⟨hx, hy⟩ id with
      ⟨ans, w', S', h1, ⟨rfl, h2⟩, h4⟩ | ⟨s, _, h1, h2, -⟩
    · refine ⟨w', S', h1, h4, ?_⟩
      rcases h2 with ⟨_, rfl⟩ | ⟨h3, rfl⟩
      · refine ⟨?_, ?_, ?_⟩
        · by_cases e : x = y
          · subst e; simp
          · rw [Function.update_of_ne e, Function.update_self]
        · rw [Function.update_self]; exact hx
        · intro z h1 h2; rw [Function.update_of_ne h2, Function.update_of_ne h1]
      · refine ⟨Function.update_self .., ?_, ?_⟩
        · by_cases e : y = x
          · subst e; rw [Function.update_self]; exact hy
          · rw [Function.update_of_ne e, Function.update_self]; simp
        · intro z h1 h2; rw [Function.update_of_ne h1, Function.update_of_ne h2]
    · exact h2.elim
  · intro hx
    rcases C49_call hE hb h (c := .swap x y) ⟨hx, hy⟩ id with
      ⟨ans, w', S', h1, ⟨rfl, rfl⟩, h4⟩ | ⟨s, _, h1, h2, -⟩
    · exact ⟨w', h1, h4⟩
    · exact h2.elim
  · rcases C49_call hE hb h (c := .destroy y) hy id with
      ⟨ans, w', S', h1, ⟨rfl, rfl⟩, h4⟩ | ⟨s, _, h1, h2, -⟩
    · exact ⟨w', h1, h4⟩
    · exact h2.elim

/-- C46.  Conversion to another field: an element of this field or a rational number is converted, for
other elements an exception is thrown. -/
theorem C46_convert (hE : ∀ i, FieldInv (L.E i) (α i) (I i)) (hb : L.bits.Ok)
    (h : Represents L α I S w) {x y j k : ℕ} {b : ℝ} (hx : S x = .absent) (hy : S y = .elem j b) :
    (j = k ∨ IsRat b → ∃ w', exec L (.constructFrom x k y) w = .ok (.unit, w') ∧
      Represents L α I (Function.update S x (.elem k b)) w') ∧
    (¬ (j = k ∨ IsRat b) → ∃ s w', exec L (.constructFrom x k y) w = .throw s w') := by
  rcases C49_call hE hb h (c := .constructFrom x k y) ⟨hx, j, b, hy⟩ id with
    ⟨ans, w', S', h1, ⟨j', b', e1, h2, rfl, rfl⟩, h4⟩ | ⟨s, w', h1, ⟨j', b', e1, h2⟩, -⟩
  all_goals rw [hy] at e1; injection e1 with e1 e1'; subst e1 e1'
  · exact ⟨fun _ => ⟨w', h1, h4⟩, fun hn => absurd h2 hn⟩
  · exact ⟨fun hs => absurd hs (by tauto), fun _ => ⟨s, w', h1⟩⟩

/-- a moved-from element is reached: `∛2` moved to a new object -/
example : ∃ w, Represents lib gens fine (Function.update (Function.update (Function.update
    (Function.update (fun _ => .absent) 0 (.elem 1 cbrt2)) 1 (.elem 0 3)) 0 .moved) 2
    (.elem 1 cbrt2)) w := by
  obtain ⟨w, hw⟩ := demo_state
  obtain ⟨w', -, h⟩ := (C46_move_swap_destroy lib_inv lp64_ok hw (x := 2) (y := 0) (by simp)).1
    (by simp)
  exact ⟨w', by simpa using h⟩

example : ∃ w, Represents lib gens fine demoSlots w ∧
    (∃ w', exec lib (.copyCtor 5 2) w = .ok (.unit, w') ∧
      Represents lib gens fine (Function.update demoSlots 5 (.elem 1 ((3 + 2 * cbrt2) / 6))) w') ∧
    (∃ w', exec lib (.constructFrom 5 2 1) w = .ok (.unit, w') ∧
      Represents lib gens fine (Function.update demoSlots 5 (.elem 2 3)) w') ∧
    (∃ s w', exec lib (.constructFrom 5 2 0) w = .throw s w') := by
  obtain ⟨w, hw, -⟩ := demo_world
  exact ⟨w, hw, (C46_copy lib_inv lp64_ok hw (x := 5) (y := 2) rfl).1 rfl,
    (C46_convert lib_inv lp64_ok hw (x := 5) (y := 1) (k := 2) rfl rfl).1 (.inr ⟨3, by norm_num⟩),
    (C46_convert lib_inv lp64_ok hw (x := 5) (y := 0) (k := 2) rfl rfl).2 (by
      rintro (h | h)
      · cases h
      · exact cbrt2_irr h)⟩

/-! ## C48: floor division -/

/-- C48, partial.  `floordiv` of elements with the same parent, or one of them rational.  Missing:
irrational elements with different parents, where it should throw an exception, see
`C48_counterexample`. -/
theorem C48_floordiv_partial (hE : ∀ i, FieldInv (L.E i) (α i) (I i)) (hb : L.bits.Ok)
    (h : Represents L α I S w) {x y i j : ℕ} {a b : ℝ} (hx : S x = .elem i a) (hy : S y = .elem j b)
    (hb0 : b ≠ 0) (hs : i = j ∨ IsRat a ∨ IsRat b) :
    (∀ ans w', exec L (.floordiv x y) w = .ok (ans, w') → Represents L α I S w' ∧
      (IsRat b → Supported L.strict i a j b) ∧
      ∃ z : ℤ, ans = .int z ∧ (i = j ∨ a ≠ 0 ∨ ¬ IsRat b ∨ (L.K i).degree ≤ 2 → z = ⌊a / b⌋)) ∧
    (∀ s w', exec L (.floordiv x y) w = .throw s w' →
      (IsRat b ∧ ¬ Supported L.strict i a j b) ∧ Represents L α I S w') := by
  obtain ⟨h1, h2⟩ := C49_approximating_call hE hb h (c := .floordiv x y)
    ⟨i, a, j, b, hx, hy, hb0, hs⟩
  constructor
  · intro ans w' e
    obtain ⟨S', ⟨rfl, i', a', j', b', z, e1, e2, rfl, hz⟩, h4⟩ := h1 ans w' e
    rw [hx] at e1; rw [hy] at e2
    injection e1 with e1 e1'; injection e2 with e2 e2'
    subst e1 e1' e2 e2'
    exact ⟨h4, hz.2, z, rfl, hz.1⟩
  · intro s w' e
    obtain ⟨⟨i', a', j', b', e1, e2, h2⟩, h3⟩ := h2 s w' e
    rw [hx] at e1; rw [hy] at e2
    injection e1 with e1 e1'; injection e2 with e2 e2'
    subst e1 e1' e2 e2'
    exact ⟨h2, h3 id⟩

/-- C48 fails for irrational elements with different parents: the data of one is used with the
field of the other. -/
theorem C48_counterexample (hE : ∀ i, FieldInv (L.E i) (α i) (I i)) (h : Represents L α I S w)
    {x y i j : ℕ} {a b : ℝ} (hx : S x = .elem i a) (hy : S y = .elem j b) (hij : i ≠ j)
    (ha : ¬ IsRat a) (hb : ¬ IsRat b) : exec L (.floordiv x y) w = .ub := by
  refine ub_ret ?_
  unfold floordiv
  refine ub_bind (parent_good h (x := .user x) hx) ?_
  rintro _ _ ⟨e1, e2⟩
  rw [e1, e2]
  refine ub_bind (parent_good h (x := .user y) hy) ?_
  rintro _ _ ⟨e1, e2⟩
  rw [e1, e2, if_pos hij]
  refine ub_bind (isRational_good hE h (x := .user y) hy) ?_
  rintro r w₁ ⟨hr, h₁, -⟩
  rw [if_neg fun e => hb (hr.1 e)]
  refine ub_bind (isRational_good hE h₁ (x := .user x) hx) ?_
  rintro r w₂ ⟨hr, h₂, -⟩
  rw [if_neg fun e => ha (hr.1 e)]
  obtain ⟨c, e, hc, -⟩ := h₂.elem (.user x) i a hx
  obtain ⟨c', e', hc', hw, -⟩ := h₂.elem (.user y) j b hy
  unfold fdivRaw
  rw [W.obj_bind hc, W.obj_bind hc']
  show call L i [c, c'] _ w₂ = .ub
  unfold call
  rw [if_neg]
  simp [owns, hw, hij]

/-- `∛2` in two fields -/
example : ∃ w, exec lib (.floordiv 0 2) w = .ub := by
  obtain ⟨w, hw⟩ := demo_state
  obtain ⟨ans, w', -, S', ⟨rfl, rfl⟩, h1⟩ := returns ((exec_good lib_inv lp64_ok
    (c := .constructVec 2 2 [0, 1] 1) hw
      ⟨by simp, by decide, by decide⟩).weaken id fun _ _ h => h.1)
  refine ⟨w', C48_counterexample lib_inv h1 (i := 1) (j := 2) (a := cbrt2)
    (b := realValue (gens 2) [0, 1] 1) (by simp) (by simp) (by decide) cbrt2_irr ?_⟩
  convert cbrt2_irr using 2
  simp [realValue, toPoly, gens]

/-- `⌊3/∛2⌋ = 2`: different parents, a rational dividend -/
example : ⌊3 / cbrt2⌋ = 2 := by
  obtain ⟨w, hw, h⟩ := demo_world
  obtain ⟨w1, h1⟩ := answer_eq_some (h (.floordiv 1 0, .int 2) (by simp))
  obtain ⟨-, -, z, e, h2⟩ := (C48_floordiv_partial lib_inv lp64_ok hw (x := 1) (y := 0) rfl rfl cbrt2_pos.ne'
    (.inr (.inl ⟨3, by norm_num⟩))).1 _ _ h1
  cases e
  exact (h2 (.inr (.inl (by norm_num)))).symm

/-! ## C50: moved-from elements -/

/-- C50, partial.  A moved-from element can be destroyed, and it can be given the value of another
element, an integer or a rational number; its storage is not released a second time.  Moving and
swapping it: `C46_move_swap_destroy`.  Missing: copying it, see `C50_copy_counterexample`. -/
theorem C50_moved_from_partial (hE : ∀ i, FieldInv (L.E i) (α i) (I i)) (hb : L.bits.Ok)
    (h : Represents L α I S w) {x : ℕ} (hx : S x = .moved) :
    (∃ w', exec L (.destroy x) w = .ok (.unit, w') ∧
      Represents L α I (Function.update S x .absent) w') ∧
    (∀ y j b, S y = .elem j b → ∃ w', exec L (.copyAssign x y) w = .ok (.unit, w') ∧
      Represents L α I (Function.update S x (.elem j b)) w') ∧
    (∀ y j b, S y = .elem j b → ∃ w', exec L (.moveAssign x y) w = .ok (.unit, w') ∧
      Represents L α I (Function.update (Function.update S y .moved) x (.elem j b)) w') ∧
    (∀ z : ℤ, ∃ w', exec L (.assignZ x z) w = .ok (.unit, w') ∧
      Represents L α I (Function.update S x (.elem 0 z)) w') ∧
    (∀ q : ℚ, ∃ w', exec L (.assignQ x q) w = .ok (.unit, w') ∧
      Represents L α I (Function.update S x (.elem 0 q)) w') := by
  have hx' : S x ≠ .absent := by rw [hx]; simp
  refine ⟨(C46_move_swap_destroy hE hb h (x := x) hx').2.2.2, ?_, ?_, ?_, ?_⟩
  · intro y j b hy
    exact (C46_copy hE hb h hy).2 hx'
  · intro y j b hy
    rcases C49_call hE hb h (c := .moveAssign x y) ⟨hx', by rw [hy]; simp⟩ id with
      ⟨ans, w', S', h1, ⟨rfl, h2⟩, h4⟩ | ⟨s, _, h1, h2, -⟩
    · rcases h2 with ⟨⟨i, a, h3⟩, _⟩ | ⟨_, rfl⟩
      · rw [hx] at h3; cases h3
      · rw [hy] at h4; exact ⟨w', h1, h4⟩
    · exact h2.elim
  · intro z
    rcases C49_call hE hb h (c := .assignZ x z) hx' id with
      ⟨ans, w', S', h1, ⟨rfl, rfl⟩, h4⟩ | ⟨s, _, h1, h2, -⟩
    · exact ⟨w', h1, h4⟩
    · exact h2.elim
  · intro z
    rcases C49_call hE hb h (c := .assignQ x z) hx' id with
      ⟨ans, w', S', h1, ⟨rfl, rfl⟩, h4⟩ | ⟨s, _, h1, h2, -⟩
    · exact ⟨w', h1, h4⟩
    · exact h2.elim

/-- C50 fails for copies: a null pointer is dereferenced.  (The standard
library copies moved-from elements in some algorithms.) -/
theorem C50_copy_counterexample (h : Represents L α I S w) {x y : ℕ} (hy : S y = .moved) :
    exec L (.copyCtor x y) w = .ub ∧
    (S x ≠ .absent → exec L (.copyAssign x y) w = .ub) := by
  obtain ⟨c, hc⟩ := h.moved (.user y) hy
  constructor
  · refine ub_ret ?_
    unfold copyCtor parent
    show W.bind (W.bind _ _) _ _ = _
    simp [W.bind, W.obj, hc, W.deref, W.ub]
  · intro hx
    refine ub_ret ?_
    unfold copyAssign
    have : ∃ o, w.obj (.user x) = some o := by
      cases hS : S x with
      | absent => exact absurd hS hx
      | moved => obtain ⟨c, h⟩ := h.moved (.user x) hS; exact ⟨_, h⟩
      | elem i a => obtain ⟨c, _, h, _⟩ := h.elem (.user x) i a hS; exact ⟨_, h⟩
    obtain ⟨o, ho⟩ := this
    rw [W.obj_bind ho, W.obj_bind hc]
    by_cases hn : o.nf = none
    · rw [if_neg (by simp [hn])]
      show W.bind _ _ _ = _
      simp only [W.bind, pure]
      rw [W.obj_bind ho, W.obj_bind hc, hn]
      rfl
    · rw [if_pos hn]
      rfl

/-- the counterexample is reached: construct, move, copy -/
example : ∃ w, exec lib (.copyCtor 3 0) w = .ub := by
  obtain ⟨w, hw⟩ := demo_state
  obtain ⟨w', -, h⟩ := (C46_move_swap_destroy lib_inv lp64_ok hw (x := 2) (y := 0) (by simp)).1
    (by simp)
  exact ⟨w', (C50_copy_counterexample h (by simp)).1⟩
/-- and 7 can be stored in it -/
example : ∃ w w' S', exec lib (.assignZ 0 7) w = .ok (.unit, w') ∧ Represents lib gens fine S' w' ∧
    S' 0 = .elem 0 (7 : ℤ) := by
  obtain ⟨w, hw⟩ := demo_state
  obtain ⟨w', -, h⟩ := (C46_move_swap_destroy lib_inv lp64_ok hw (x := 2) (y := 0) (by simp)).1
    (by simp)
  obtain ⟨w'', h1, h2⟩ := (C50_moved_from_partial lib_inv lp64_ok h (x := 0) (by simp)).2.2.2.1 7
  exact ⟨w', w'', _, h1, h2, by simp⟩

end EAntic.Cxx
