import Verif.Lemmas.PyNum
import Verif.Props.Cxx
import Verif.Props.Derived
import Verif.Props.Except
import Verif.Lemmas.PyDemo

/-!
# C74: elements and numbers of Python

`Atom.Is` (the real number that an object of Python stands for), `Atom.Big` and `Apart` (when there is an
exception) are in `Spec/PyNum.lean`, `RepresentsUpTo` in `Spec/Cxx.lean`, `value` in `Spec/Py.lean`.
-/

namespace EAntic.Py
open Cxx

variable {L : Lib} {α : ℕ → ℝ} {I : ℕ → Field → Prop} {S : ℕ → Slot} {w : World} {P : PyEnv} {Λ : Set ℕ}

/-- C74.  Numbers of Python, gmpy2 and SageMath keep their value when they are converted, also through their
text. -/
theorem C74_for_eantic (hg : P.gmpy = true) {a : Atom} {v : ℝ} (h : a.Is S v) :
    ∃ a', forEantic P (.atom a) = .ok (.atom a') ∧ a'.Is S v := by
  obtain ⟨a', h1, -, h2, -⟩ := forAtom_is hg h
  exact ⟨a', by simp only [forEantic, h1]; rfl, h2⟩

/-- C74.  The texts of numbers are read by GMP as these numbers, although the base is not given. -/
theorem C74_text (z : ℤ) (q : ℚ) : gmpInt (pyStr z) = some z ∧ gmpRat (pyStr q) = some q :=
  ⟨gmpInt_pyStr z, gmpRat_pyStr q⟩

/-- other texts: `010` is eight, `0x1F` is 31, `12a` is none -/
example : gmpInt "010".toList = some 8 ∧ gmpInt "-0x1F".toList = some (-31) ∧ gmpInt "12a".toList = none ∧
    gmpRat "-6/4".toList = some (-3 / 2) ∧ pyStr (-3 / 2) = "-3/2".toList := by
  decide +kernel

section
variable (hE : ∀ i, FieldInv (L.E i) (α i) (I i)) (hb : L.bits.Ok) (h : RepresentsUpTo L α I Λ S w)
  (hg : P.gmpy = true)
include hE hb h hg

open Classical in
/-- C74.  `lhs + rhs`, `lhs - rhs`, `lhs * rhs`, `lhs / rhs`, one of them an element and the other one an
element or a number of Python, gmpy2 or SageMath: the exact result.  There is an exception exactly for an
`int` of Python that does not fit `int`, and for elements of different fields that cannot be combined (C33);
it leaves everything as it was. -/
theorem C74_operator (f : BinK) {r : ℕ} {lhs rhs : Atom} {a b : ℝ} (hr : S r = .absent) (hl : lhs.Is S a)
    (hrh : rhs.Is S b) (he : lhs.IsElem ∨ rhs.IsElem) (h0 : f = .div → b ≠ 0) :
    if lhs.Big L.bits ∨ rhs.Big L.bits ∨ Apart L S lhs rhs then
      ∃ s w', (PyCmd.operator f r (.atom lhs) (.atom rhs)).run P L w = .throw s w' ∧ RepresentsUpTo L α I Λ S w'
    else
      ∃ k w', (PyCmd.operator f r (.atom lhs) (.atom rhs)).run P L w = .ok (.unit, w') ∧
        RepresentsUpTo L α I Λ (Function.update S r (.elem k (f.real a b))) w' ∧ ResultIn S f lhs rhs k := by
  obtain ⟨l', l1, l2, l3, l4, l5⟩ := forAtom_is hg hl
  obtain ⟨r', r1, r2, r3, r4, r5⟩ := forAtom_is hg hrh
  have hrun : (PyCmd.operator f r (.atom lhs) (.atom rhs)).run P L w =
      (match operatorCall L f r (.atom l') (.atom r') with
        | .ok c => exec L c
        | .error s => W.throw s) w := by
    unfold PyCmd.run PyCmd.cmd operatorOf
    simp only [forEantic, l1, r1]
    rfl
  rw [hrun]
  -- a number as operand
  have num : ∀ {a₀ a' : Atom}, (∀ z, a' = .int z ↔ a₀ = .int z) → (a'.Big L.bits ↔ a₀.Big L.bits) := by
    intro a₀ a' hi
    constructor
    · cases a' <;> simp only [Atom.Big, false_imp_iff]
      rename_i z
      rw [(hi z).1 rfl]; exact id
    · cases a₀ <;> simp only [Atom.Big, false_imp_iff]
      rename_i z
      rw [(hi z).2 rfl]; exact id
  by_cases hle : ∃ x, l' = .elem x
  · obtain ⟨x, rfl⟩ := hle
    obtain rfl := (l4 x).1 rfl
    obtain ⟨i, hx⟩ := hl
    by_cases hre : ∃ y, r' = .elem y
    · obtain ⟨y, rfl⟩ := hre
      obtain rfl := (r4 y).1 rfl
      obtain ⟨j, hy⟩ := hrh
      rcases C49_call hE hb h (c := .binary f r x y) ⟨hr, ⟨i, a, hx⟩, j, b, hy, h0⟩ id with
        ⟨ans, w', S', e1, ⟨i', a', j', b', k, f1, f2, f3, f4, rfl, rfl⟩, e2⟩ |
        ⟨s, w', e1, ⟨i', a', j', b', f1, f2, f3⟩, e2⟩
      · rw [hx] at f1; rw [hy] at f2
        injection f1 with g1 g2; injection f2 with g3 g4
        subst g1 g2 g3 g4
        rw [if_neg]
        · exact ⟨k, w', e1, e2, i, a, j, b, hx, hy, f4⟩
        · rintro (hc | hc | ⟨_, _, _, _, c1, c2, c3⟩)
          · exact hc
          · exact hc
          · rw [hx] at c1; rw [hy] at c2
            injection c1 with g1 g2; injection c2 with g3 g4
            subst g1 g2 g3 g4
            exact c3 f3
      · rw [if_pos (.inr (.inr ⟨i', a', j', b', f1, f2, f3⟩))]
        exact ⟨s, w', e1, e2 id⟩
    · have hne : ¬ r'.IsElem := by
        intro hc; cases r' <;> first | exact hc | exact hre ⟨_, rfl⟩
      have hap : ¬ Apart L S (.elem x) rhs := by
        intro hc; cases rhs <;> first | exact hc | exact hre ⟨_, (r4 _).2 rfl⟩
      have hcall : operatorCall L f r (.atom (.elem x)) (.atom r') =
          (templateArg L.bits r').bind fun n => .ok (.binaryNum f r x n) := by
        cases r' <;> first | rfl | exact absurd trivial hne
      rcases templateArg_is (b := L.bits) r2 hne r3 with ⟨n, t1, t2, t3⟩ | ⟨t1, t2⟩
      · have hbig : ¬ r'.Big L.bits := by
          intro hc; cases r' <;> first | exact hc | skip
          simp only [Atom.Big] at hc
          simp [templateArg, hc, throw, throwThe, MonadExceptOf.throw] at t1
        rw [if_neg (by rintro (hc | hc | hc) <;> [exact hc; exact hbig ((num r5).2 hc); exact hap hc])]
        obtain ⟨w', e1, e2⟩ := C58_number_right hE hb h f hr hx t2 (fun hf hz => h0 hf (by rw [t3, hz]; simp))
        rw [hcall, t1]
        refine ⟨i, w', e1, by rw [t3]; exact e2, ?_⟩
        cases rhs <;> first | exact ⟨a, hx⟩ | exact absurd ⟨_, (r4 _).2 rfl⟩ hre
      · rw [if_pos (.inr (.inl ((num r5).1 t1))), hcall, t2]
        exact ⟨_, w, rfl, h⟩
  · have hne : ¬ l'.IsElem := by
      intro hc; cases l' <;> first | exact hc | exact hle ⟨_, rfl⟩
    obtain ⟨y, rfl⟩ : ∃ y, r' = .elem y := by
      rcases he with he | he
      · exfalso
        cases lhs <;> first | exact he | exact hle ⟨_, (l4 _).2 rfl⟩
      · cases rhs <;> first | exact he.elim | exact ⟨_, (r4 _).2 rfl⟩
    obtain rfl := (r4 y).1 rfl
    obtain ⟨j, hy⟩ := hrh
    have hap : ¬ Apart L S lhs (.elem y) := by
      intro hc; cases lhs <;> first | exact hc | exact hle ⟨_, (l4 _).2 rfl⟩
    have hcall : operatorCall L f r (.atom l') (.atom (.elem y)) =
        (templateArg L.bits l').bind fun n => .ok (.numBinary f r n y) := by
      cases l' <;> first | rfl | exact absurd trivial hne
    rcases templateArg_is (b := L.bits) l2 hne l3 with ⟨n, t1, t2, t3⟩ | ⟨t1, t2⟩
    · have hbig : ¬ l'.Big L.bits := by
        intro hc; cases l' <;> first | exact hc | skip
        simp only [Atom.Big] at hc
        simp [templateArg, hc, throw, throwThe, MonadExceptOf.throw] at t1
      rw [if_neg (by rintro (hc | hc | hc) <;> [exact hbig ((num l5).2 hc); exact hc; exact hap hc])]
      obtain ⟨k, w', e1, e2, e3⟩ := C58_number_left hE hb h f hr hy t2 h0
      rw [hcall, t1]
      refine ⟨k, w', e1, by rw [t3]; exact e2, ?_⟩
      cases lhs <;> first | exact ⟨j, b, hy, e3⟩ | exact absurd ⟨_, (l4 _).2 rfl⟩ hle
    · rw [if_pos (.inl ((num l5).1 t1)), hcall, t2]
      exact ⟨_, w, rfl, h⟩

end

/-- C74.  Operators with anything else (a list, a text, a float) are exceptions. -/
theorem C74_operator_other (f : BinK) (r : ℕ) {lhs rhs : Obj}
    (hh : (lhs = .atom .other ∨ ∃ l, lhs = .list l) ∨ (rhs = .atom .other ∨ ∃ l, rhs = .list l)) :
    ∃ s, (PyCmd.operator f r lhs rhs).run P L w = .throw s w := by
  suffices hs : ∃ s, operatorOf P L f r lhs rhs = .error s by
    obtain ⟨s, hs⟩ := hs
    exact ⟨s, by unfold PyCmd.run PyCmd.cmd; simp only [hs]; rfl⟩
  unfold operatorOf
  cases h1 : forEantic P lhs with
  | error s => exact ⟨s, rfl⟩
  | ok l' =>
    cases h2 : forEantic P rhs with
    | error s => exact ⟨s, rfl⟩
    | ok r' =>
      have key : ∀ {o : Obj} {c : Converted}, forEantic P o = .ok c → (o = .atom .other ∨ ∃ l, o = .list l) →
          c = .atom .other ∨ ∃ l, c = .vec l := by
        rintro o c hc (rfl | ⟨l, rfl⟩)
        · simp only [forEantic, forAtom_other, bind, Except.bind, pure, Except.pure] at hc
          exact .inl (Except.ok.inj hc).symm
        · right
          simp only [forEantic] at hc
          cases e1 : listOf (forAtom P) l with
          | error s => rw [e1] at hc; cases hc
          | ok m =>
            rw [e1] at hc
            cases e2 : listOf (toCoeff P) m with
            | error s => simp only [bind, Except.bind, e2] at hc; cases hc
            | ok m' =>
              simp only [bind, Except.bind, e2, pure, Except.pure] at hc
              exact ⟨m', (Except.ok.inj hc).symm⟩
      show ∃ s, operatorCall L f r l' r' = .error s
      rcases hh with hh | hh
      · rcases key h1 hh with rfl | ⟨l, rfl⟩
        · rcases r' with a | v
          · cases a <;> exact ⟨_, rfl⟩
          · exact ⟨_, rfl⟩
        · rcases r' with a | v <;> exact ⟨_, rfl⟩
      · rcases key h2 hh with rfl | ⟨l, rfl⟩
        · rcases l' with a | v
          · cases a <;> exact ⟨_, rfl⟩
          · exact ⟨_, rfl⟩
        · rcases l' with a | v
          · cases a <;> exact ⟨_, rfl⟩
          · exact ⟨_, rfl⟩

section
variable (hE : ∀ i, FieldInv (L.E i) (α i) (I i)) (hb : L.bits.Ok) (h : RepresentsUpTo L α I Λ S w)
include hE hb h

/-- C74.  `-x`, `x ** n` and `renf_elem(K)`, `renf_elem()`; exponents that do not fit `int` are exceptions.
Missing: the smallest `int` as exponent, see `C74_pow_counterexample`. -/
theorem C74_unary_partial {r x i : ℕ} {a : ℝ} (hr : S r = .absent) (hx : S x = .elem i a) :
    (∃ w', (PyCmd.neg r x).run P L w = .ok (.unit, w') ∧
      RepresentsUpTo L α I Λ (Function.update S r (.elem i (-a))) w') ∧
    (∀ n : ℤ, -2 ^ 31 < n → n < 2 ^ 31 → (n < 0 → a ≠ 0) → ∃ w', (PyCmd.pow r x n).run P L w = .ok (.unit, w') ∧
      RepresentsUpTo L α I Λ (Function.update S r (.elem i (a ^ n))) w') ∧
    (∀ n : ℤ, n < -2 ^ 31 ∨ 2 ^ 31 ≤ n → ∃ s, (PyCmd.pow r x n).run P L w = .throw s w) ∧
    ∀ K : Option ℕ, ∃ w', (PyCmd.zero r K).run P L w = .ok (.unit, w') ∧
      RepresentsUpTo L α I Λ (Function.update S r (.elem (K.getD 0) 0)) w' := by
  refine ⟨?_, fun n h1 h2 h3 => ?_, fun n hn => ?_, fun K => ?_⟩
  · rcases C49_call hE hb h (c := .neg r x) ⟨hr, i, a, hx⟩ id with
      ⟨ans, w', S', e1, ⟨i', a', f1, rfl, rfl⟩, e2⟩ | ⟨s, w', e1, e2, -⟩
    · rw [hx] at f1
      injection f1 with g1 g2
      subst g1 g2
      exact ⟨w', e1, e2⟩
    · exact e2.elim
  · have hin : InS 32 n := ⟨by norm_num at h1 ⊢; omega, by norm_num at h2 ⊢; omega⟩
    rcases C49_call hE hb h (c := .pow r x n) ⟨hr, hin, i, a, hx, fun h4 => ⟨h3 h4, by omega⟩⟩ id with
      ⟨ans, w', S', e1, ⟨i', a', f1, rfl, rfl⟩, e2⟩ | ⟨s, w', e1, e2, -⟩
    · rw [hx] at f1
      injection f1 with g1 g2
      subst g1 g2
      refine ⟨w', ?_, e2⟩
      simp only [PyCmd.run, PyCmd.cmd, if_pos hin, pure, Except.pure]
      exact e1
    · exact e2.elim
  · refine ⟨"TypeError", ?_⟩
    have hin : ¬ InS 32 n := by
      rintro ⟨g1, g2⟩
      norm_num at g1 g2
      rcases hn with hn | hn <;> omega
    simp only [PyCmd.run, PyCmd.cmd, if_neg hin]
    rfl
  · rcases C49_call hE hb h (c := .construct r (K.getD 0)) hr id with
      ⟨ans, w', S', e1, ⟨rfl, rfl⟩, e2⟩ | ⟨s, w', e1, e2, -⟩
    · exact ⟨w', e1, e2⟩
    · exact e2.elim

omit hb in
/-- C74 fails for `x ** (-2 ** 31)`: undefined behaviour, whatever the element is (C36). -/
theorem C74_pow_counterexample {r x i : ℕ} {a : ℝ} (hr : S r = .absent) (hx : S x = .elem i a) (h0 : a ≠ 0) :
    (PyCmd.pow r x (-2 ^ 31)).run P L w = .ub := by
  have := C36_int_min_counterexample hE h hr hx h0
  simp only [PyCmd.run, PyCmd.cmd, if_pos (show InS 32 (-2 ^ 31) by decide), pure, Except.pure]
  exact this

open Classical in
/-- C74.  `renf_elem(K, v)` and `renf_elem(v)` for a number `v`: the element of `K`, or of the trivial field,
with this value.  There is an exception exactly for an `int` of Python for which cppyy finds no overload. -/
theorem C74_make_number (hg : P.gmpy = true) (hP : P.Ok L.bits) {r : ℕ} (hr : S r = .absent) (K : Option ℕ)
    {v : Atom} {a : ℝ} (hv : v.Is S a) (hn : ¬ v.IsElem) :
    if ∃ z, v = .int z ∧ P.pick z = none then
      ∃ s, (PyCmd.make r K (.atom v)).run P L w = .throw s w
    else
      ∃ w', (PyCmd.make r K (.atom v)).run P L w = .ok (.unit, w') ∧
        RepresentsUpTo L α I Λ (Function.update S r (.elem (K.getD 0) a)) w' := by
  obtain ⟨v', l1, l2, l3, l4, l5⟩ := forAtom_is hg hv
  have hrun : (PyCmd.make r K (.atom v)).run P L w =
      (match constructorCall P r K (.atom v') with
        | .ok c => exec L c
        | .error s => W.throw s) w := by
    unfold PyCmd.run PyCmd.cmd
    simp only [forEantic, l1]
    rfl
  rw [hrun]
  cases v' with
  | int z =>
    obtain rfl := (l5 z).1 rfl
    obtain rfl : a = (z : ℝ) := l3
    cases hz : P.pick z with
    | none =>
      rw [if_pos ⟨z, rfl, hz⟩]
      exact ⟨"TypeError", by simp only [constructorCall, hz]; rfl⟩
    | some t =>
      rw [if_neg (by rintro ⟨z', e1, e2⟩; injection e1 with e1; subst e1; rw [hz] at e2; cases e2)]
      rcases C49_call hE hb h (c := .constructInt r (K.getD 0) t z) ⟨hr, hP z t hz⟩ id with
        ⟨ans, w', S', e1, ⟨rfl, rfl⟩, e2⟩ | ⟨s, w', e1, e2, -⟩
      · exact ⟨w', by simp only [constructorCall, hz]; exact e1, e2⟩
      · exact e2.elim
  | mpzClass z =>
    rw [if_neg (by rintro ⟨z', rfl, -⟩; cases (l5 z').2 rfl)]
    obtain rfl : a = (z : ℝ) := l3
    rcases C49_call hE hb h (c := .constructZ r (K.getD 0) z) hr id with
      ⟨ans, w', S', e1, ⟨rfl, rfl⟩, e2⟩ | ⟨s, w', e1, e2, -⟩
    · exact ⟨w', by simp only [constructorCall]; exact e1, e2⟩
    · exact e2.elim
  | mpqClass q =>
    rw [if_neg (by rintro ⟨z', rfl, -⟩; cases (l5 z').2 rfl)]
    obtain rfl : a = (q : ℝ) := l3
    rcases C49_call hE hb h (c := .constructQ r (K.getD 0) q) hr id with
      ⟨ans, w', S', e1, ⟨rfl, rfl⟩, e2⟩ | ⟨s, w', e1, e2, -⟩
    · exact ⟨w', by simp only [constructorCall]; exact e1, e2⟩
    · exact e2.elim
  | elem x => obtain rfl := (l4 x).1 rfl; exact absurd trivial hn
  | _ => exact l2.elim

/-- C74.  `renf_elem(v)` copies an element `v`. -/
theorem C74_make_copy {r y j : ℕ} {b : ℝ} (hr : S r = .absent) (hy : S y = .elem j b) :
    ∃ w', (PyCmd.make r none (.atom (.elem y))).run P L w = .ok (.unit, w') ∧
      RepresentsUpTo L α I Λ (Function.update S r (.elem j b)) w' := by
  rcases C49_call hE hb h (c := .copyCtor r y) ⟨hr, j, b, hy⟩ id with
    ⟨ans, w', S', e1, ⟨j', b', f1, rfl, rfl⟩, e2⟩ | ⟨s, w', e1, e2, -⟩
  · rw [hy] at f1
    injection f1 with g1 g2
    subst g1 g2
    exact ⟨w', e1, e2⟩
  · exact e2.elim

open Classical in
/-- C74.  `renf_elem(K, v)` for an element `v`: the element of `K` with the same value, if `v` is in `K` or
rational; otherwise an exception, which leaks a cell (C56). -/
theorem C74_make_convert {r k y j : ℕ} {b : ℝ} (hr : S r = .absent) (hy : S y = .elem j b) :
    if j = k ∨ IsRat b then
      ∃ w', (PyCmd.make r (some k) (.atom (.elem y))).run P L w = .ok (.unit, w') ∧
        RepresentsUpTo L α I Λ (Function.update S r (.elem k b)) w'
    else ∃ s w' Λ', (PyCmd.make r (some k) (.atom (.elem y))).run P L w = .throw s w' ∧
      RepresentsUpTo L α I Λ' S w' ∧ (Λ' = Λ ∨ ∃ d, Λ' = insert d Λ) := by
  rcases C49_call hE hb h (c := .constructFrom r k y) ⟨hr, j, b, hy⟩ id with
    ⟨ans, w', S', e1, ⟨j', b', f1, f2, rfl, rfl⟩, e2⟩ | ⟨s, w', e1, ⟨j', b', f1, f2, f3⟩, -⟩
  · rw [hy] at f1
    injection f1 with g1 g2
    subst g1 g2
    rw [if_pos f2]
    exact ⟨w', e1, e2⟩
  · rw [hy] at f1
    injection f1 with g1 g2
    subst g1 g2
    rw [if_neg (by rintro (g | g) <;> contradiction)]
    obtain ⟨-, Λ', h3, h2⟩ := C56_call hE hb h (c := .constructFrom r k y) ⟨hr, j, b, hy⟩ e1
    exact ⟨s, w', Λ', e1, h2, h3.imp_right And.right⟩

open Classical in
/-- C74.  `renf_elem(K, [c0, c1, ...])` with numbers of Python, gmpy2 or SageMath, at most as many as the
degree: the element `c0 + c1 x + ...`.  There is an exception exactly for an `int` of Python for which cppyy
finds no overload. -/
theorem C74_make_list (hg : P.gmpy = true) {r k : ℕ} (hr : S r = .absent) {l : List Atom} {qs : List ℚ}
    (hl : Numbers l qs) (hd : l.length ≤ (L.K k).degree) :
    if ∃ z, .int z ∈ l ∧ P.pick z = none then
      ∃ s, (PyCmd.make r (some k) (.list l)).run P L w = .throw s w
    else
      ∃ w', (PyCmd.make r (some k) (.list l)).run P L w = .ok (.unit, w') ∧
        RepresentsUpTo L α I Λ (Function.update S r (.elem k (value (α k) qs))) w' := by
  -- the converted list
  obtain ⟨m, hm, hmq, hmi⟩ : ∃ m, listOf (forAtom P) l = .ok m ∧
      List.Forall₂ (fun a q => a.Native ∧ a.Is (fun _ => .absent) (q : ℚ)) m qs ∧
      ∀ z, Atom.int z ∈ m ↔ Atom.int z ∈ l := by
    clear hd
    induction hl with
    | nil => exact ⟨[], rfl, .nil, by simp⟩
    | @cons a q l qs h1 _ ih =>
      obtain ⟨a', e1, e2, e3, -, e5⟩ := forAtom_is hg h1
      obtain ⟨m, f1, f2, f3⟩ := ih
      refine ⟨a' :: m, by simp only [listOf, e1, f1]; rfl, .cons ⟨e2, e3⟩ f2, fun z => ?_⟩
      rw [List.mem_cons, List.mem_cons, f3, eq_comm, e5, eq_comm]
  have hc : if ∃ z, Atom.int z ∈ m ∧ P.pick z = none then ∃ s, listOf (toCoeff P) m = .error s
      else listOf (toCoeff P) m = .ok qs := by
    clear hmi hm hl hd
    induction hmq with
    | nil => simp [listOf, pure, Except.pure]
    | @cons a q m qs h1 _ ih =>
      have hq : if ∃ z, a = .int z ∧ P.pick z = none then ∃ s, toCoeff P a = .error s
          else toCoeff P a = .ok q := by
        cases a with
        | int z =>
          have e : (q : ℝ) = (z : ℝ) := h1.2
          have e : q = z := by exact_mod_cast e
          cases hz : P.pick z with
          | none => rw [if_pos ⟨z, rfl, hz⟩]; exact ⟨"TypeError", by simp [toCoeff, hz]; rfl⟩
          | some t =>
            rw [if_neg (by rintro ⟨z', e1, e2⟩; injection e1 with e1; subst e1; rw [hz] at e2; cases e2)]
            simp [toCoeff, hz, e, pure, Except.pure]
        | mpzClass z =>
          have e : (q : ℝ) = (z : ℝ) := h1.2
          have e : q = z := by exact_mod_cast e
          rw [if_neg (by rintro ⟨z', e1, e2⟩; cases e1), e]; rfl
        | mpqClass p =>
          have e : (q : ℝ) = (p : ℝ) := h1.2
          have e : q = p := by exact_mod_cast e
          rw [if_neg (by rintro ⟨z', e1, e2⟩; cases e1), e]; rfl
        | elem x => obtain ⟨i, hi⟩ := h1.2; cases hi
        | _ => exact h1.1.elim
      by_cases c1 : ∃ z, a = .int z ∧ P.pick z = none
      · rw [if_pos c1] at hq
        obtain ⟨s, hs⟩ := hq
        obtain ⟨z, e1, e2⟩ := c1
        rw [if_pos ⟨z, by rw [e1]; simp, e2⟩]
        exact ⟨s, by simp only [listOf, hs]; rfl⟩
      · rw [if_neg c1] at hq
        by_cases c2 : ∃ z, Atom.int z ∈ m ∧ P.pick z = none
        · rw [if_pos c2] at ih
          obtain ⟨s, hs⟩ := ih
          obtain ⟨z, e1, e2⟩ := c2
          rw [if_pos ⟨z, by simp [e1], e2⟩]
          exact ⟨s, by simp only [listOf, hq, hs]; rfl⟩
        · rw [if_neg c2] at ih
          rw [if_neg]
          · simp only [listOf, hq, ih]; rfl
          · rintro ⟨z, e1, e2⟩
            rw [List.mem_cons] at e1
            rcases e1 with e1 | e1
            · exact c1 ⟨z, e1.symm, e2⟩
            · exact c2 ⟨z, e1, e2⟩
  simp only [hmi] at hc
  by_cases c : ∃ z, Atom.int z ∈ l ∧ P.pick z = none
  · rw [if_pos c] at hc ⊢
    obtain ⟨s, hs⟩ := hc
    refine ⟨s, ?_⟩
    unfold PyCmd.run PyCmd.cmd
    simp only [forEantic, hm, hs, bind, Except.bind]
    rfl
  · rw [if_neg c] at hc ⊢
    have hlen : (Text.common qs).1.length ≤ (L.K k).degree := by
      have hlq : l.length = qs.length := List.Forall₂.length_eq hl
      simpa [Text.common, ← hlq] using hd
    rcases C49_call hE hb h (c := .constructVec r k (Text.common qs).1 (Text.common qs).2)
      ⟨hr, hlen, Text.common_pos qs⟩ id with ⟨ans, w', S', e1, ⟨rfl, rfl⟩, e2⟩ | ⟨s, w', e1, e2, -⟩
    · refine ⟨w', ?_, ?_⟩
      · unfold PyCmd.run PyCmd.cmd
        simp only [forEantic, hm, hc, bind, Except.bind, pure, Except.pure]
        exact e1
      · rw [Text.common_val] at e2
        exact e2
    · exact e2.elim

end

/-! ## Examples -/

/-- gmpy2 is installed, and the overload for `long` is selected -/
def demoPy : PyEnv := ⟨true, fun z => if InS 64 z then some .long else none⟩

lemma demoPy_ok : demoPy.Ok lib.bits := by
  intro z t h
  unfold demoPy at h
  simp only at h
  split_ifs at h with hz
  injection h with h
  subst h
  exact hz

/-- `QQ(1/2) - ∛2` -/
example : ∃ w k w', Represents lib gens fine demoSlots w ∧
    (PyCmd.operator .sub 5 (.atom (.sageRational (1 / 2))) (.atom (.elem 0))).run demoPy lib w = .ok (.unit, w') ∧
    Represents lib gens fine (Function.update demoSlots 5 (.elem k (((1 / 2 : ℚ) : ℝ) - cbrt2))) w' := by
  obtain ⟨w, hw, -⟩ := demo_world
  have := C74_operator lib_inv lp64_ok hw (P := demoPy) rfl .sub (r := 5) (lhs := .sageRational (1 / 2))
    (rhs := .elem 0) (a := ((1 / 2 : ℚ) : ℝ)) (b := cbrt2) (by simp [demoSlots]) rfl
    ⟨1, by simp [demoSlots]⟩ (.inr trivial) (by simp)
  rw [if_neg (by rintro (h | h | h) <;> exact h)] at this
  obtain ⟨k, w', h1, h2, -⟩ := this
  exact ⟨w, k, w', hw, h1, h2⟩

/-- `∛2 + 2 ** 40` is an exception, `∛2 + mpz(2 ** 40)` is not; `∛2 ** 2` -/
example : ∃ w, Represents lib gens fine demoSlots w ∧
    (∃ s w', (PyCmd.operator .add 5 (.atom (.elem 0)) (.atom (.int (2 ^ 40)))).run demoPy lib w = .throw s w') ∧
    (∃ w', (PyCmd.operator .add 5 (.atom (.elem 0)) (.atom (.gmpyMpz (2 ^ 40)))).run demoPy lib w =
      .ok (.unit, w')) ∧
    ∃ w', (PyCmd.pow 5 0 2).run demoPy lib w = .ok (.unit, w') ∧
      Represents lib gens fine (Function.update demoSlots 5 (.elem 1 (cbrt2 ^ (2 : ℤ)))) w' := by
  obtain ⟨w, hw, -⟩ := demo_world
  have hx : (Atom.elem 0).Is demoSlots cbrt2 := ⟨1, by simp [demoSlots]⟩
  have h1 := C74_operator lib_inv lp64_ok hw (P := demoPy) rfl .add (r := 5) (lhs := .elem 0)
    (rhs := .int (2 ^ 40)) (by simp [demoSlots]) hx rfl (.inl trivial) (by simp)
  have h2 := C74_operator lib_inv lp64_ok hw (P := demoPy) rfl .add (r := 5) (lhs := .elem 0)
    (rhs := .gmpyMpz (2 ^ 40)) (by simp [demoSlots]) hx rfl (.inl trivial) (by simp)
  rw [if_pos (.inr (.inl (show ¬ InS 32 (2 ^ 40) by decide)))] at h1
  rw [if_neg (by rintro (h | h | h) <;> exact h)] at h2
  obtain ⟨s, w₁, h1, -⟩ := h1
  obtain ⟨k, w₂, h2, -⟩ := h2
  have h3 := (C74_unary_partial (P := demoPy) lib_inv lp64_ok hw (r := 5) (x := 0) (i := 1) (a := cbrt2)
    (by simp [demoSlots]) (by simp [demoSlots])).2.1 2 (by norm_num) (by norm_num) (by norm_num)
  exact ⟨w, hw, ⟨s, w₁, h1⟩, ⟨w₂, h2⟩, h3⟩

/-- `renf_elem(K, [1, mpq(1, 2), Integer(3)])` in the field of `∛2`, and `renf_elem(10 ** 30)`, for which there is no
overload -/
example : ∃ w w', Represents lib gens fine demoSlots w ∧
    (PyCmd.make 5 (some 1) (.list [.int 1, .gmpyMpq (1 / 2), .sageInteger 3])).run demoPy lib w = .ok (.unit, w') ∧
    Represents lib gens fine (Function.update demoSlots 5 (.elem 1 (value cbrt2 [1, 1 / 2, 3]))) w' ∧
    ∃ s, (PyCmd.make 5 none (.atom (.int (10 ^ 30)))).run demoPy lib w = .throw s w := by
  obtain ⟨w, hw, -⟩ := demo_world
  have hl : Numbers [.int 1, .gmpyMpq (1 / 2), .sageInteger 3] [1, 1 / 2, 3] := by
    refine .cons ?_ (.cons ?_ (.cons ?_ .nil)) <;> simp [Atom.Is]
  have h1 := C74_make_list lib_inv lp64_ok hw (P := demoPy) rfl (r := 5) (k := 1) (by simp [demoSlots]) hl (by decide)
  rw [if_neg (by
    rintro ⟨z, h, hz⟩
    simp only [List.mem_cons, Atom.int.injEq, reduceCtorEq, List.not_mem_nil, or_false] at h
    subst h
    exact absurd hz (by decide))] at h1
  obtain ⟨w', h1, h2⟩ := h1
  have h3 := C74_make_number lib_inv lp64_ok hw (P := demoPy) rfl demoPy_ok (r := 5) (by simp [demoSlots]) none
    (v := .int (10 ^ 30)) rfl id
  rw [if_pos ⟨_, rfl, by decide⟩] at h3
  exact ⟨w, w', hw, h1, h2, h3⟩

end EAntic.Py
