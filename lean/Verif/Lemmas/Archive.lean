import Verif.Spec.Archive
import Verif.Lemmas.TextCxx
import Mathlib.Data.Finset.Card
import Mathlib.Data.List.Lookmap

/-! # Lemmas on serialization -/

namespace EAntic.Cxx

lemma or_msb {n : ℕ} (h : n < 2 ^ 31) : n ||| msb = n + msb := by
  have := Nat.two_pow_add_eq_or_of_lt h 1
  rw [mul_one] at this
  rw [msb, Nat.or_comm, ← this, Nat.add_comm]

lemma new_flag {n : ℕ} : (n ||| msb) &&& msb ≠ 0 := by
  intro h
  have h1 : ((n ||| msb) &&& msb).testBit 31 = false := by rw [h]; simp
  rw [Nat.testBit_and, Nat.testBit_or] at h1
  revert h1
  simp [msb, show Nat.testBit 2147483648 31 = true by decide]

lemma old_flag {n : ℕ} (h : n < 2 ^ 31) : n &&& msb = 0 := by
  apply Nat.eq_of_testBit_eq
  intro i
  rw [Nat.testBit_and, Nat.zero_testBit, msb, Nat.testBit_two_pow]
  by_cases hi : 31 = i
  · subst hi; rw [Nat.testBit_lt_two_pow h]; simp
  · simp [hi]

/-- output and input identifiers belong together: `ρ` is the field that was loaded for an address -/
structure Ids (A : Finset ℕ) (ρ : ℕ → ℕ) (o : OutIds) (i : InIds) : Prop where
  len : o.next = o.map.length + 1
  nodup : (o.map.map Prod.fst).Nodup
  sub : ∀ p ∈ o.map.map Prod.fst, p ∈ A
  low : ∀ p n, (p, n) ∈ o.map → 1 ≤ n ∧ n < o.next
  look : ∀ p n, (p, n) ∈ o.map → i.lookup n = some (ρ p)

lemma mem_of_lookup {l : List (ℕ × ℕ)} {p n : ℕ} (h : l.lookup p = some n) : (p, n) ∈ l := by
  induction l with
  | nil => cases h
  | cons a l ih =>
    obtain ⟨q, m⟩ := a
    rw [List.lookup_cons] at h
    by_cases hq : p = q
    · subst hq; simp at h; simp [h]
    · have : (p == q) = false := by simpa using hq
      rw [this] at h
      simp [ih h]

lemma not_mem_of_lookup {l : List (ℕ × ℕ)} {p : ℕ} (h : l.lookup p = none) :
    p ∉ l.map Prod.fst := by
  induction l with
  | nil => simp
  | cons a l ih =>
    obtain ⟨q, m⟩ := a
    rw [List.lookup_cons] at h
    by_cases hq : p = q
    · subst hq; simp at h
    · have : (p == q) = false := by simpa using hq
      rw [this] at h
      simp only [List.map_cons, List.mem_cons, not_or]
      exact ⟨hq, ih h⟩

variable {A : Finset ℕ} {ρ : ℕ → ℕ} {o : OutIds} {i : InIds}

lemma Ids.empty : Ids A ρ .empty [] where
  len := rfl
  nodup := by simp [OutIds.empty]
  sub := by simp [OutIds.empty]
  low := by simp [OutIds.empty]
  look := by simp [OutIds.empty]

lemma Ids.next_le (h : Ids A ρ o i) (hA : A.card < 2 ^ 31) : o.next ≤ 2 ^ 31 := by
  have h1 : o.map.length ≤ A.card := by
    have h2 : (o.map.map Prod.fst).toFinset ⊆ A := by
      intro p hp; exact h.sub p (by simpa using hp)
    have := Finset.card_le_card h2
    rwa [List.toFinset_card_of_nodup h.nodup, List.length_map] at this
  rw [h.len]; omega

/-- the two cases of saving a field -/
lemma putField_cases (h : Ids A ρ o i) (hA : A.card < 2 ^ 31) {p : ℕ} (hp : p ∈ A)
    (c : Construction) :
    (∃ n, 1 ≤ n ∧ n < 2 ^ 31 ∧ p ∈ o.map.map Prod.fst ∧ putField o p c = ([.u32 n], o) ∧
      i.lookup n = some (ρ p)) ∨
    ∃ o' n, n < 2 ^ 31 ∧ p ∉ o.map.map Prod.fst ∧ putField o p c =
      ([.u32 (n ||| msb), .str c.name, .str c.emb, .str c.minpoly, .slong c.prec], o') ∧
      o'.map.map Prod.fst = p :: o.map.map Prod.fst ∧ Ids A ρ o' ((n, ρ p) :: i) := by
  unfold putField OutIds.register
  cases hl : o.map.lookup p with
  | some n =>
    left
    have hm := mem_of_lookup hl
    have h1 := h.low p n hm
    have h2 := h.next_le hA
    refine ⟨n, h1.1, by omega, List.mem_map_of_mem (f := Prod.fst) hm, ?_, h.look p n hm⟩
    simp [old_flag (show n < 2 ^ 31 by omega)]
  | none =>
    right
    have hn := not_mem_of_lookup hl
    have h3 : o.next < 2 ^ 31 := by
      have h2 : (p :: o.map.map Prod.fst).toFinset ⊆ A := by
        intro q hq
        simp only [List.toFinset_cons, Finset.mem_insert, List.mem_toFinset] at hq
        rcases hq with rfl | hq
        · exact hp
        · exact h.sub q hq
      have h4 := Finset.card_le_card h2
      rw [List.toFinset_card_of_nodup (List.nodup_cons.2 ⟨hn, h.nodup⟩), List.length_cons,
        List.length_map] at h4
      rw [h.len]; omega
    have h5 : o.next % 2 ^ 32 = o.next := Nat.mod_eq_of_lt (by omega)
    refine ⟨⟨(p, o.next) :: o.map, o.next + 1⟩, o.next, h3, hn, ?_, rfl, ?_, ?_, ?_, ?_, ?_⟩
    · simp only [h5, ne_eq, new_flag, not_false_eq_true, if_true]
    · simp [h.len]
    · exact List.nodup_cons.2 ⟨hn, h.nodup⟩
    · intro q hq
      rcases List.mem_cons.1 hq with rfl | hq
      · exact hp
      · exact h.sub q hq
    · intro q n hq
      rcases List.mem_cons.1 hq with hq | hq
      · cases hq; rw [h.len]; simp
      · have := h.low q n hq; simp; omega
    · intro q n hq
      rcases List.mem_cons.1 hq with hq | hq
      · cases hq; simp
      · have := h.low q n hq
        rw [List.lookup_cons, show (n == o.next) = false by simp; omega]
        exact h.look q n hq

/-! ## Saving -/

/-- what is written for an element -/
structure Rec where
  addr : ℕ
  field : ℕ
  con : Construction
  text : List Char
  val : ℝ

/-- the archive of a list of records -/
def putAll : OutIds → List Rec → List Tok × OutIds
  | o, [] => ([], o)
  | o, r :: l =>
    ((putElem o r.addr r.con r.text).1 ++ (putAll (putElem o r.addr r.con r.text).2 l).1,
      (putAll (putElem o r.addr r.con r.text).2 l).2)

variable {L : Lib} {α : ℕ → ℝ} {I : ℕ → Field → Prop} {S : ℕ → Slot} {w : World}
variable {U : Prop} {X : String → World → Prop} {T : TextLib} {F : FieldIO}
variable (hE : ∀ i, FieldInv (L.E i) (α i) (I i)) (hT : T.Ok)

/-- the record describes the item -/
def Rec.Of (T : TextLib) (F : FieldIO) (α : ℕ → ℝ) (I : ℕ → Field → Prop) (r : Rec) (e : Item) :
    Prop :=
  r.addr = e.addr ∧ r.field = e.field ∧ r.val = e.val ∧
    (∃ f, I e.field f ∧ r.con = F.construction e.field f) ∧ AlgText T α e.field e.val r.text

include hE hT

theorem saveElem_good {e : Item} (hd : (L.K e.field).degree < 2 ^ 63) (h : Represents L α I S w)
    (hx : S e.var = .elem e.field e.val) :
    Good U X (fun r w' => (∃ c : Rec, c.Of T F α I e ∧ r = putElem o c.addr c.con c.text) ∧
      Represents L α I S w') (saveElem L T F o (.user e.var) e.addr w) := by
  obtain ⟨c, hc, -⟩ := Rep.find h (x := .user e.var) hx
  unfold saveElem parent
  have h0 : ∀ f : ℕ → W (List Tok × OutIds), ((W.obj (.user e.var) >>= fun o => W.deref o.nf) >>= f) w
      = f e.field w := by
    intro f
    rw [W.bind_def, W.bind, W.bind_def, W.bind]
    simp only [W.obj, hc]
    rfl
  rw [h0]
  show Good U X _ ((toString L T (.user e.var) true false false >>= _) w)
  refine Good.bind (toStringAlg_good hE hT hd h (x := .user e.var) hx) ?_
  rintro s w₁ ⟨hs, h₁⟩
  refine Good.pure ⟨⟨⟨e.addr, e.field, F.construction e.field (w.fld e.field), s, e.val⟩, ?_, rfl⟩, h₁⟩
  exact ⟨rfl, rfl, rfl, ⟨_, h.fld _, rfl⟩, hs⟩

theorem saveAll_good (l : List Item) (hd : ∀ e ∈ l, (L.K e.field).degree < 2 ^ 63)
    (h : Represents L α I S w) (hx : ∀ e ∈ l, S e.var = .elem e.field e.val) :
    Good U X (fun r w' => (∃ cs : List Rec, List.Forall₂ (Rec.Of T F α I) cs l ∧ r = putAll o cs) ∧
      Represents L α I S w') (saveAll L T F o (l.map fun e => (.user e.var, e.addr)) w) := by
  induction l generalizing o w with
  | nil => exact Good.pure ⟨⟨[], .nil, rfl⟩, h⟩
  | cons e l ih =>
    rw [List.map_cons, saveAll]
    refine Good.bind (saveElem_good hE hT (hd e (by simp)) h (hx e (by simp))) ?_
    rintro r w₁ ⟨⟨c, hc, rfl⟩, h₁⟩
    refine Good.bind (ih (fun e he => hd e (by simp [he])) h₁ fun e he => hx e (by simp [he])) ?_
    rintro r w₂ ⟨⟨cs, hcs, rfl⟩, h₂⟩
    exact Good.pure ⟨⟨c :: cs, .cons hc hcs, rfl⟩, h₂⟩

omit hE hT in
/-- every field is written once -/
theorem putAll_count (h : Ids A ρ o i) (hA : A.card < 2 ^ 31) (cs : List Rec)
    (hp : ∀ c ∈ cs, c.addr ∈ A) :
    ((putAll o cs).1.countP Tok.isField) + (o.map.map Prod.fst).toFinset.card =
      ((o.map.map Prod.fst) ++ cs.map Rec.addr).toFinset.card := by
  induction cs generalizing o i with
  | nil => simp [putAll]
  | cons c cs ih =>
    rw [putAll, List.countP_append]
    rcases putField_cases h hA (hp c (by simp)) c.con with ⟨n, h1, h2, h3, h4, h5⟩ |
      ⟨o', n, h1, h2, h3, h4, h5⟩
    · have := ih h fun c hc => hp c (by simp [hc])
      simp only [putElem, h4]
      rw [show ([Tok.u32 n] ++ [Tok.str c.text]).countP Tok.isField = 0 by rfl, zero_add, this]
      congr 1
      ext q
      simp only [List.toFinset_append, List.map_cons, List.toFinset_cons, Finset.mem_union,
        List.mem_toFinset, Finset.mem_insert]
      constructor
      · rintro (h | h)
        · exact .inl h
        · exact .inr (.inr h)
      · rintro (h | h | h)
        · exact .inl h
        · subst h; exact .inl h3
        · exact .inr h
    · have := ih h5 fun c hc => hp c (by simp [hc])
      simp only [putElem, h3]
      rw [h4] at this
      rw [List.toFinset_cons, Finset.card_insert_of_notMem (by simpa using h2)] at this
      rw [List.countP_append,
        show [Tok.u32 (n ||| msb), .str c.con.name, .str c.con.emb, .str c.con.minpoly,
          .slong c.con.prec].countP Tok.isField = 1 by rfl,
        show ([Tok.str c.text]).countP Tok.isField = 0 by rfl]
      have e1 : ((o.map.map Prod.fst) ++ (c :: cs).map Rec.addr).toFinset =
          ((c.addr :: o.map.map Prod.fst) ++ cs.map Rec.addr).toFinset := by
        ext q
        simp only [List.toFinset_append, List.map_cons, List.toFinset_cons, Finset.mem_union,
          List.mem_toFinset, Finset.mem_insert]
        tauto
      rw [e1, ← this]
      omega

/-! ## Loading -/

omit hE hT in
theorem getField_put {σ : ℕ → ℕ} (h : Ids A ρ o i) (hA : A.card < 2 ^ 31) {p k : ℕ} (hp : p ∈ A)
    (hρ : ρ p = σ k) {c : Construction} (hc : F.make c.minpoly c.name c.emb c.prec = some (σ k))
    (ts : List Tok) :
    ∃ i', getField F i ((putField o p c).1 ++ ts) = .ok (σ k, i', ts) ∧ Ids A ρ (putField o p c).2 i' := by
  rcases putField_cases h hA hp c with ⟨n, h1, h2, h3, h4, h5⟩ | ⟨o', n, h1, h2, h3, h4, h5⟩
  · refine ⟨i, ?_, by rw [h4]; exact h⟩
    rw [h4]
    simp [getField, old_flag h2, h5, hρ]
    omega
  · refine ⟨(n, ρ p) :: i, ?_, by rw [h3]; exact h5⟩
    rw [h3]
    simp only [getField, List.cons_append, List.nil_append, ne_eq, new_flag, not_false_eq_true,
      if_true, hc]
    rw [or_msb h1, Nat.add_sub_cancel, hρ]

theorem loadElem_good {σ : ℕ → ℕ} (hF : F.Ok T α I σ) (h : Ids A ρ o i) (hA : A.card < 2 ^ 31)
    {r : Rec} {e : Item} (hr : r.Of T F α I e) (hp : e.addr ∈ A) (hρ : ρ e.addr = σ e.field)
    (hw : Represents L α I S w) {y : ℕ} (hy : S y ≠ .absent) (ts : List Tok) :
    Good U X (fun q w' => (q.2 = ts ∧ Ids A ρ (putElem o r.addr r.con r.text).2 q.1) ∧
      Represents L α I (Function.update S y (.elem (σ e.field) e.val)) w')
      (loadElem L T F i ((putElem o r.addr r.con r.text).1 ++ ts) (.user y) w) := by
  obtain ⟨h1, h2, h3, ⟨f, hf, h4⟩, h5⟩ := hr
  rw [h1]
  have hm : F.make r.con.minpoly r.con.name r.con.emb r.con.prec = some (σ e.field) := by
    rw [h4]; exact hF.make _ f hf
  obtain ⟨i', hg, hi'⟩ := getField_put (σ := σ) (k := e.field) h hA hp hρ hm (.str r.text :: ts)
  unfold loadElem
  have e1 : (putElem o e.addr r.con r.text).1 ++ ts = (putField o e.addr r.con).1 ++ .str r.text :: ts := by
    simp [putElem]
  rw [e1, hg]
  have htx : Text.IsTextOf T.readRat (T.gen (σ e.field)) (α (σ e.field)) e.val
      (r.text.takeWhile (· != '~')) := by
    rw [List.takeWhile_eq_self_iff.2 (by intro c hc; simpa using (h5.safe c hc).2.2), hF.gen,
      hF.name]
    exact h5.text
  refine (assignStr_good (x := .user y) hE hT (i', ts) hw rfl hy (by simp) htx).mono ?_
  rintro _ w' ⟨rfl, h'⟩
  rw [vars_update] at h'
  exact ⟨⟨rfl, hi'⟩, h'⟩

/-- an address that is known: the field that was loaded for it is used, whatever is saved -/
theorem loadElem_known (h : Ids A ρ o i) (hA : A.card < 2 ^ 31) {p : ℕ} (hp : p ∈ A)
    (hk : p ∈ o.map.map Prod.fst) {c : Construction} {s : List Char} {a : ℝ}
    (hs : Text.IsTextOf T.readRat (T.gen (ρ p)) (α (ρ p)) a (s.takeWhile (· != '~')))
    (hw : Represents L α I S w) {y : ℕ} (hy : S y ≠ .absent) (ts : List Tok) :
    Good U X (fun q w' => q.2 = ts ∧ Represents L α I (Function.update S y (.elem (ρ p) a)) w')
      (loadElem L T F i ((putElem o p c s).1 ++ ts) (.user y) w) := by
  rcases putField_cases h hA hp c with ⟨n, h1, h2, h3, h4, h5⟩ | ⟨o', n, h1, h2, -⟩
  · have e1 : (putElem o p c s).1 ++ ts = .u32 n :: .str s :: ts := by
      simp [putElem, h4]
    have e2 : getField F i (.u32 n :: .str s :: ts) = .ok (ρ p, i, .str s :: ts) := by
      simp [getField, old_flag h2, h5]
      omega
    unfold loadElem
    rw [e1, e2]
    refine (assignStr_good (x := .user y) hE hT (i, ts) hw rfl hy (by simp) hs).mono ?_
    rintro _ w' ⟨rfl, h'⟩
    rw [vars_update] at h'
    exact ⟨rfl, h'⟩
  · exact absurd hk h2

omit hE hT in
lemma mem_putElem (h : Ids A ρ o i) (hA : A.card < 2 ^ 31) {p : ℕ} (hp : p ∈ A) (c : Construction)
    (s : List Char) : p ∈ (putElem o p c s).2.map.map Prod.fst := by
  rcases putField_cases h hA hp c with ⟨n, h1, h2, h3, h4, h5⟩ | ⟨o', n, h1, h2, h3, h4, -⟩
  · simp only [putElem, h4]; exact h3
  · simp only [putElem, h3, h4]; simp

theorem loadAll_good {σ : ℕ → ℕ} (hF : F.Ok T α I σ) (hA : A.card < 2 ^ 31) (cs : List Rec)
    (l : List Item) (hr : List.Forall₂ (Rec.Of T F α I) cs l) (hp : ∀ e ∈ l, e.addr ∈ A)
    (hρ : ∀ e ∈ l, ρ e.addr = σ e.field) (h : Ids A ρ o i) (hw : Represents L α I S w) (ys : List ℕ)
    (hl : ys.length = l.length) (hy : ∀ y ∈ ys, S y ≠ .absent) (ts : List Tok) :
    Good U X (fun q w' => q = ts ∧
      Represents L α I (storeAll S ys (l.map fun e => (σ e.field, e.val))) w')
      (loadAll L T F i ((putAll o cs).1 ++ ts) (ys.map .user) w) := by
  induction hr generalizing o i w S ys with
  | nil =>
    obtain rfl : ys = [] := by simpa using hl
    exact Good.pure ⟨rfl, hw⟩
  | @cons c e cs l hc hcs ih =>
    obtain ⟨y, ys, rfl⟩ := List.exists_cons_of_ne_nil (l := ys) (by rintro rfl; simp at hl)
    rw [putAll, List.append_assoc]
    show Good U X _ ((loadElem L T F i _ (.user y) >>= fun r => loadAll L T F r.1 r.2 _) w)
    refine Good.bind (loadElem_good hE hT hF h hA hc (hp e (by simp)) (hρ e (by simp)) hw
      (hy y (by simp)) _) ?_
    rintro ⟨i', ts'⟩ w₁ ⟨⟨rfl, hi⟩, hw₁⟩
    refine ih (fun e he => hp e (by simp [he])) (fun e he => hρ e (by simp [he])) hi hw₁ ys
      (by simpa using hl) ?_
    intro z hz
    by_cases hzy : z = y
    · subst hzy; simp
    · rw [Function.update_of_ne hzy]; exact hy z (by simp [hz])

end EAntic.Cxx
