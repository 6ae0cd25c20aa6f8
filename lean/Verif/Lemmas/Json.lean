import Verif.Lemmas.Archive
import Verif.Spec.Json

/-! # Lemmas: JSON archives -/

namespace EAntic.Cxx

variable {A : Finset ℕ} {ρ : ℕ → ℕ} {o : OutIds} {i : InIds}

/-- the two cases of saving a field -/
lemma putFieldJ_cases (h : Ids A ρ o i) (hA : A.card < 2 ^ 31) {p : ℕ} (hp : p ∈ A)
    (c : Construction) :
    (∃ n : ℕ, 1 ≤ n ∧ n < 2 ^ 31 ∧ p ∈ o.map.map Prod.fst ∧
      putFieldJ o p c = (.obj [("id", .num n)], o) ∧ i.lookup n = some (ρ p)) ∨
    ∃ (o' : OutIds) (n : ℕ), n < 2 ^ 31 ∧ p ∉ o.map.map Prod.fst ∧ putFieldJ o p c =
      (.obj [("id", .num (n ||| msb : ℕ)), ("name", .str c.name), ("embedding", .str c.emb),
        ("minpoly", .str c.minpoly), ("precision", .num c.prec)], o') ∧
      o'.map.map Prod.fst = p :: o.map.map Prod.fst ∧ Ids A ρ o' ((n, ρ p) :: i) := by
  rcases putField_cases h hA hp c with ⟨n, h1, h2, h3, h4, h5⟩ | ⟨o', n, h1, h2, h3, h4, h5⟩
  · refine .inl ⟨n, h1, h2, h3, ?_, h5⟩
    unfold putField at h4
    unfold putFieldJ
    simp only at h4 ⊢
    by_cases hf : (o.register p).1 &&& msb ≠ 0
    · rw [if_pos hf] at h4
      simp at h4
    · rw [if_neg hf] at h4 ⊢
      simp only [Prod.mk.injEq, List.cons.injEq, Tok.u32.injEq, and_true] at h4
      rw [h4.1, h4.2]
  · refine .inr ⟨o', n, h1, h2, ?_, h4, h5⟩
    unfold putField at h3
    unfold putFieldJ
    simp only at h3 ⊢
    by_cases hf : (o.register p).1 &&& msb ≠ 0
    · rw [if_pos hf] at h3 ⊢
      simp only [Prod.mk.injEq, List.cons.injEq, Tok.u32.injEq, and_true] at h3
      rw [h3.1, h3.2]
    · rw [if_neg hf] at h3
      simp at h3

/-- the identifiers that are given out do not depend on the kind of archive -/
lemma putFieldJ_snd (o : OutIds) (p : ℕ) (c : Construction) : (putFieldJ o p c).2 = (putField o p c).2 := by
  unfold putFieldJ putField
  simp only
  split_ifs <;> rfl

/-! ## Reading -/

variable {F : FieldIO}

lemma seek_here {j : JIter} {nm : String} {v : Json} (h : j.items[j.idx]? = some (some nm, v))
    {n : Option String} (hn : n = none ∨ n = some nm) : j.seek n = .ok j := by
  rcases hn with rfl | rfl
  · rfl
  · simp [JIter.seek, JIter.name, h]

lemma startNode_obj {j : JIter} {nm : String} {m : List (String × Json)}
    (h : j.items[j.idx]? = some (some nm, .obj m)) {n : Option String} (hn : n = none ∨ n = some nm)
    (st : JStack) : startNode n (j :: st) = .ok (⟨m.map fun e => (some e.1, e.2), 0⟩ :: j :: st) := by
  simp only [startNode, seek_here h hn, Res.ok_bind, JIter.value, h, Json.iter, Res.pure_eq]

/-- reading a field record -/
lemma loadFieldJ_put (h : Ids A ρ o i) (hA : A.card < 2 ^ 31) {p : ℕ} (hp : p ∈ A) {c : Construction}
    (hc : F.make c.minpoly c.name c.emb c.prec = some (ρ p)) (hz : -2 ^ 63 ≤ c.prec ∧ c.prec < 2 ^ 63)
    (b : Bool) : ∃ i' m, (if b then olderField (putFieldJ o p c).1 else (putFieldJ o p c).1) = .obj m ∧
      (∃ k, ∀ st, loadFieldJ F i (⟨m.map fun e => (some e.1, e.2), 0⟩ :: st) =
        .ok (ρ p, i', ⟨m.map fun e => (some e.1, e.2), k⟩ :: st)) ∧ Ids A ρ (putFieldJ o p c).2 i' := by
  rcases putFieldJ_cases h hA hp c with ⟨n, h1, h2, h3, h4, h5⟩ | ⟨o', n, h1, h2, h3, h4, h5⟩
  · rw [h4]
    have hn : (n : ℤ) ≤ 2 ^ 32 - 1 := by omega
    have hn0 : n ≠ 0 := by omega
    cases b
    · refine ⟨i, _, rfl, ⟨1, fun st => ?_⟩, h⟩
      simp only [loadFieldJ, getIdJ, nodeName, JIter.name, loadNum, JIter.seek, JIter.value,
        JIter.next, List.map_cons, List.map_nil, List.getElem?_cons_zero,
        Option.bind_some, Res.ok_bind, Res.pure_eq, reduceIte, Int.toNat_natCast, hn, hn0, h5,
        old_flag h2, Nat.cast_nonneg, and_self, zero_add, ne_eq, not_true_eq_false, String.reduceEq]
    · refine ⟨i, _, rfl, ⟨1, fun st => ?_⟩, h⟩
      simp only [loadFieldJ, getIdJ, nodeName, JIter.name, loadNum, JIter.seek, JIter.value,
        JIter.next, List.map_cons, List.map_nil, List.getElem?_cons_zero,
        Option.bind_some, Res.ok_bind, Res.pure_eq, reduceIte, Int.toNat_natCast, hn, hn0, h5,
        old_flag h2, Nat.cast_nonneg, and_self, zero_add, ne_eq, not_true_eq_false, String.reduceEq]
  · rw [h3]
    have hn : ((n ||| msb : ℕ) : ℤ) ≤ 2 ^ 32 - 1 := by
      rw [or_msb h1, msb]; push_cast; omega
    have hf : (n ||| msb) &&& msb ≠ 0 := new_flag
    have hs : (n ||| msb) - msb = n := by rw [or_msb h1, Nat.add_sub_cancel]
    have hz' : c.prec ≤ 2 ^ 63 - 1 := by omega
    generalize (n ||| msb) = q at hn hf hs
    have hz1 := hz.1
    generalize hP : c.prec = P at *
    cases b
    · refine ⟨(n, ρ p) :: i, _, rfl, ⟨5, fun st => ?_⟩, h5⟩
      simp only [loadFieldJ, getIdJ, nodeName, JIter.name, loadNum, loadStr, JIter.seek, JIter.value,
        JIter.next, List.map_cons, List.map_nil, List.getElem?_cons_zero, List.getElem?_cons_succ,
        Option.bind_some, Res.ok_bind, Res.pure_eq, reduceIte, Int.toNat_natCast, hn, hf, hc, hs, hz1, hz',
        Nat.cast_nonneg, and_self, zero_add, ne_eq, not_false_eq_true, String.reduceEq, Nat.reduceAdd]
    · refine ⟨(n, ρ p) :: i, _, rfl, ⟨5, fun st => ?_⟩, h5⟩
      simp only [loadFieldJ, getIdJ, nodeName, JIter.name, loadNum, loadStr, JIter.seek, JIter.value,
        JIter.next, List.map_cons, List.map_nil, List.getElem?_cons_zero, List.getElem?_cons_succ,
        Option.bind_some, Res.ok_bind, Res.pure_eq, reduceIte, Int.toNat_natCast, hn, hf, hc, hs, hz1, hz',
        Nat.cast_nonneg, and_self, zero_add, ne_eq, not_false_eq_true, String.reduceEq, Nat.reduceAdd]

/-- reading an element, as it was written or as older versions wrote it -/
lemma loadTextJ_put (h : Ids A ρ o i) (hA : A.card < 2 ^ 31) {p : ℕ} (hp : p ∈ A) {c : Construction}
    (hc : F.make c.minpoly c.name c.emb c.prec = some (ρ p)) (hz : -2 ^ 63 ≤ c.prec ∧ c.prec < 2 ^ 63)
    (b b' : Bool) (t : List Char) {j : JIter} {nm : String}
    (hj : j.items[j.idx]? = some (some nm, olderElem b b' (putElemJ o p c t).1)) {n : Option String}
    (hn : n = none ∨ n = some nm) (st : JStack) :
    ∃ i' k, loadTextJ F i n (j :: st) = .ok ((ρ p, t), i', k :: j :: st) ∧
      Ids A ρ (putElemJ o p c t).2 i' := by
  obtain ⟨i', m, h1, ⟨k, h2⟩, h3⟩ := loadFieldJ_put h hA hp hc hz b'
  simp only [putElemJ, olderElem, h1] at hj
  cases b
  · have e1 := startNode_obj hj hn st
    simp only [Bool.false_eq_true, if_false, List.nil_append, List.map_cons, List.map_nil] at e1
    refine ⟨i', ⟨[(some "parent", .obj m), (some "value", .str t)], 2⟩, ?_, h3⟩
    simp only [loadTextJ, e1, Res.ok_bind]
    rw [startNode_obj (nm := "parent") (m := m) (by rfl) (.inr rfl)]
    simp only [Res.ok_bind, h2, finishNode, JIter.next]
    simp only [loadStr, JIter.seek, JIter.name, JIter.value, List.getElem?_cons_succ, zero_add,
      List.getElem?_cons_zero, Option.bind_some, if_true, Res.ok_bind, Res.pure_eq, JIter.next]
  · have e1 := startNode_obj hj hn st
    simp only [if_true, List.cons_append, List.nil_append, List.map_cons, List.map_nil] at e1
    refine ⟨i', ⟨[(some "cereal_class_version", .num 0), (some "parent", .obj m),
      (some "value", .str t)], 3⟩, ?_, h3⟩
    simp only [loadTextJ, e1, Res.ok_bind]
    have e2 : ∀ st : JStack, startNode (some "parent") (⟨[(some "cereal_class_version", .num 0),
        (some "parent", .obj m), (some "value", .str t)], 0⟩ :: st) =
        .ok (⟨m.map fun e => (some e.1, e.2), 0⟩ :: ⟨[(some "cereal_class_version", .num 0),
          (some "parent", .obj m), (some "value", .str t)], 1⟩ :: st) := by
      intro st
      simp [startNode, JIter.seek, JIter.name, JIter.value, Json.iter, List.findIdx?_cons]
    simp only [e2, Res.ok_bind, h2, finishNode, JIter.next]
    simp only [loadStr, JIter.seek, JIter.name, JIter.value, List.getElem?_cons_succ, Nat.reduceAdd,
      List.getElem?_cons_zero, Option.bind_some, if_true, Res.ok_bind, Res.pure_eq, JIter.next]

/-! ## Programs -/

/-- the archive of a list of records -/
def putAllJ : ℕ → OutIds → List (Option String × Rec) → List (String × Json) × OutIds
  | _, o, [] => ([], o)
  | c, o, (n, r) :: l =>
    (((memberName c n).1, (putElemJ o r.addr r.con r.text).1) ::
      (putAllJ (memberName c n).2 (putElemJ o r.addr r.con r.text).2 l).1,
      (putAllJ (memberName c n).2 (putElemJ o r.addr r.con r.text).2 l).2)

variable {L : Lib} {α : ℕ → ℝ} {I : ℕ → Field → Prop} {S : ℕ → Slot} {w : World}
variable {U : Prop} {X : String → World → Prop} {T : TextLib}
variable (hE : ∀ i, FieldInv (L.E i) (α i) (I i)) (hT : T.Ok)

include hE hT

theorem saveElemJ_good {e : Item} (hd : (L.K e.field).degree < 2 ^ 63) (h : Represents L α I S w)
    (hx : S e.var = .elem e.field e.val) :
    Good U X (fun r w' => (∃ c : Rec, c.Of T F α I e ∧ r = putElemJ o c.addr c.con c.text) ∧
      Represents L α I S w') (saveElemJ L T F o (.user e.var) e.addr w) := by
  obtain ⟨c, hc, -⟩ := Rep.find h (x := .user e.var) hx
  unfold saveElemJ parent
  have h0 : ∀ f : ℕ → W (Json × OutIds), ((W.obj (.user e.var) >>= fun o => W.deref o.nf) >>= f) w
      = f e.field w := by
    intro f
    rw [W.bind_def, W.bind, W.bind_def, W.bind]
    simp only [W.obj, hc]
    rfl
  rw [h0]
  show Good U X _ ((toString L T (.user e.var) true false false >>= _) w)
  refine Good.bind (toStringAlg_good hE hT hd h (x := .user e.var) hx) ?_
  rintro s w₁ ⟨hs, h₁⟩
  refine Good.pure ⟨⟨⟨e.addr, e.field, F.construction e.field (w.fld e.field), s, e.val⟩, ?_, rfl⟩, h₁⟩
  exact ⟨rfl, rfl, rfl, ⟨_, h.fld _, rfl⟩, hs⟩

theorem saveAllJ_good (l : List (Option String × Item)) (hd : ∀ e ∈ l, (L.K e.2.field).degree < 2 ^ 63)
    (h : Represents L α I S w) (hx : ∀ e ∈ l, S e.2.var = .elem e.2.field e.2.val) (q : ℕ) :
    Good U X (fun r w' => (∃ cs : List (Option String × Rec),
      List.Forall₂ (fun c e => c.1 = e.1 ∧ c.2.Of T F α I e.2) cs l ∧ r = putAllJ q o cs) ∧
      Represents L α I S w') (saveAllJ L T F q o (l.map fun e => (e.1, .user e.2.var, e.2.addr)) w) := by
  induction l generalizing o w q with
  | nil => exact Good.pure ⟨⟨[], .nil, rfl⟩, h⟩
  | cons e l ih =>
    rw [List.map_cons, saveAllJ]
    refine Good.bind (saveElemJ_good hE hT (hd e (by simp)) h (hx e (by simp))) ?_
    rintro r w₁ ⟨⟨c, hc, rfl⟩, h₁⟩
    refine Good.bind (ih (fun e he => hd e (by simp [he])) h₁ (fun e he => hx e (by simp [he])) _) ?_
    rintro r w₂ ⟨⟨cs, hcs, rfl⟩, h₂⟩
    exact Good.pure ⟨⟨(e.1, c) :: cs, .cons ⟨rfl, hc⟩ hcs, rfl⟩, h₂⟩

theorem loadElemJ_good {σ : ℕ → ℕ} (hF : F.Ok T α I σ)
    (hZ : ∀ k f, -2 ^ 63 ≤ (F.construction k f).prec ∧ (F.construction k f).prec < 2 ^ 63)
    (h : Ids A ρ o i) (hA : A.card < 2 ^ 31)
    {r : Rec} {e : Item} (hr : r.Of T F α I e) (hp : e.addr ∈ A) (hρ : ρ e.addr = σ e.field)
    (hw : Represents L α I S w) {y : ℕ} (hy : S y ≠ .absent) {j : JIter} {nm : String} {b b' : Bool}
    (hj : j.items[j.idx]? = some (some nm, olderElem b b' (putElemJ o r.addr r.con r.text).1))
    {n : Option String} (hn : n = none ∨ n = some nm) (st : JStack) :
    Good U X (fun q w' => (q.2 = j.next :: st ∧ Ids A ρ (putElemJ o r.addr r.con r.text).2 q.1) ∧
      Represents L α I (Function.update S y (.elem (σ e.field) e.val)) w')
      (loadElemJ L T F i (j :: st) n (.user y) w) := by
  obtain ⟨h1, h2, h3, ⟨f, hf, h4⟩, h5⟩ := hr
  rw [h1] at hj ⊢
  have hm : F.make r.con.minpoly r.con.name r.con.emb r.con.prec = some (ρ e.addr) := by
    rw [h4, hρ]; exact hF.make _ f hf
  obtain ⟨i', k, hg, hi'⟩ := loadTextJ_put h hA hp hm (by rw [h4]; exact hZ _ _) b b' r.text hj hn st
  unfold loadElemJ
  rw [hg, hρ]
  simp only [finishNode]
  have htx : Text.IsTextOf T.readRat (T.gen (σ e.field)) (α (σ e.field)) e.val
      (r.text.takeWhile (· != '~')) := by
    rw [List.takeWhile_eq_self_iff.2 (by intro c hc; simpa using (h5.safe c hc).2.2), hF.gen,
      hF.name]
    exact h5.text
  refine (assignStr_good (x := .user y) hE hT (i', j.next :: st) hw rfl hy (by simp) htx).mono ?_
  rintro _ w' ⟨rfl, h'⟩
  rw [vars_update] at h'
  exact ⟨⟨rfl, hi'⟩, h'⟩

theorem loadAllJ_good {σ : ℕ → ℕ} (hF : F.Ok T α I σ)
    (hZ : ∀ k f, -2 ^ 63 ≤ (F.construction k f).prec ∧ (F.construction k f).prec < 2 ^ 63)
    (hA : A.card < 2 ^ 31) (cs : List (Option String × Rec))
    (l : List (Option String × Item)) (hr : List.Forall₂ (fun c e => c.2.Of T F α I e.2) cs l)
    (hp : ∀ e ∈ l, e.2.addr ∈ A) (hρ : ∀ e ∈ l, ρ e.2.addr = σ e.2.field) (h : Ids A ρ o i)
    (hw : Represents L α I S w) (q : ℕ) (ms : List (String × Json)) (hms : SameFile (putAllJ q o cs).1 ms)
    (ys : List (Option String × ℕ))
    (hl : List.Forall₂ (fun y e => y.1 = none ∨ y.1 = some e.1) ys ms) (hy : ∀ y ∈ ys, S y.2 ≠ .absent)
    (j : JIter) (hj : j.items.drop j.idx = ms.map fun e => (some e.1, e.2)) (st : JStack) :
    Good U X (fun _ w' =>
      Represents L α I (storeAll S (ys.map Prod.snd) (l.map fun e => (σ e.2.field, e.2.val))) w')
      (loadAllJ L T F i (j :: st) (ys.map fun y => (y.1, .user y.2)) w) := by
  induction hr generalizing o i w S ys q ms j with
  | nil =>
    cases hms
    cases hl
    exact Good.pure hw
  | @cons c e cs l hc hcs ih =>
    obtain ⟨n, c⟩ := c
    simp only [putAllJ] at hms
    cases hms with
    | @cons _ m _ ms hm hms =>
    cases hl with
    | @cons y _ ys _ hyn hl =>
    obtain ⟨hm1, b, b', hm2⟩ := hm
    simp only at hm1 hm2
    have hlt : j.idx < j.items.length := by
      by_contra hlt
      rw [List.drop_eq_nil_of_le (by omega)] at hj
      simp at hj
    have hget : j.items[j.idx]? = some (some m.1, m.2) := by
      have := congrArg (·[0]?) hj
      simpa using this
    have hdrop : j.next.items.drop j.next.idx = ms.map fun e => (some e.1, e.2) := by
      have := congrArg List.tail hj
      simpa [JIter.next] using this
    rw [hm2] at hget
    show Good U X _ ((loadElemJ L T F i (j :: st) y.1 (.user y.2) >>= fun r => loadAllJ L T F r.1 r.2 _) w)
    refine Good.bind (loadElemJ_good hE hT hF hZ h hA hc (hp e (by simp)) (hρ e (by simp)) hw
      (hy y (by simp)) hget hyn st) ?_
    rintro ⟨i', st'⟩ w₁ ⟨⟨rfl, hi⟩, hw₁⟩
    refine ih (fun e he => hp e (by simp [he])) (fun e he => hρ e (by simp [he])) hi hw₁ _ _ hms ys
      hl ?_ _ hdrop
    intro z hz
    by_cases hzy : z.2 = y.2
    · rw [hzy]; simp
    · rw [Function.update_of_ne hzy]; exact hy z (by simp [hz])

/-! ## Malformed files -/

/-- the call returns or throws -/
def NoUb {β : Type} (r : Res β) : Prop := (∃ a, r = .ok a) ∨ ∃ s, r = .throw s

omit hE hT in
lemma NoUb.bind {β γ : Type} {r : Res β} {f : β → Res γ} (h : NoUb r) (hf : ∀ a, r = .ok a → NoUb (f a)) :
    NoUb (r >>= f) := by
  rcases h with ⟨a, rfl⟩ | ⟨s, rfl⟩
  · exact hf a rfl
  · exact .inr ⟨s, rfl⟩

omit hE hT in
lemma NoUb.ok {β : Type} (a : β) : NoUb (.ok a : Res β) := .inl ⟨a, rfl⟩

omit hE hT in
lemma NoUb.throw {β : Type} (s : String) : NoUb (.throw s : Res β) := .inr ⟨s, rfl⟩

omit hE hT in
lemma noUb_seek (j : JIter) (n : Option String) : NoUb (j.seek n) := by
  unfold JIter.seek
  split
  · exact .ok _
  · split
    · exact .ok _
    · split
      · exact .ok _
      · exact .throw _

omit hE hT in
/-- the member that was searched for -/
lemma seek_name {j j' : JIter} {n : Option String} (h : j.seek n = .ok j') : j'.items = j.items ∧
    ∀ s, n = some s → j'.name = some s := by
  unfold JIter.seek at h
  split at h
  · cases h; exact ⟨rfl, by simp⟩
  · rename_i n
    split at h
    · rename_i hn
      cases h
      exact ⟨rfl, by rintro s hs; cases hs; exact hn⟩
    · split at h
      · rename_i k hk
        cases h
        refine ⟨rfl, ?_⟩
        rintro s hs
        cases hs
        obtain ⟨h1, h2, -⟩ := List.findIdx?_eq_some_iff_getElem.1 hk
        simpa [JIter.name, h1] using h2
      · cases h

omit hE hT in
lemma noUb_value (j : JIter) : NoUb j.value := by
  unfold JIter.value
  split
  · exact .ok _
  · exact .throw _

omit hE hT in
lemma value_mem {j : JIter} {v : Json} (h : j.value = .ok v) : (j.name, v) ∈ j.items := by
  unfold JIter.value at h
  split at h
  · rename_i e he
    cases h
    rw [JIter.name, he]
    exact List.mem_of_getElem? he
  · cases h

omit hE hT in
lemma noUb_iter (v : Json) : NoUb v.iter := by
  cases v
  · exact .throw _
  · exact .throw _
  · exact .ok _
  · exact .ok _

omit hE hT in
lemma noUb_startNode (n : Option String) (j : JIter) (st : JStack) : NoUb (startNode n (j :: st)) := by
  unfold startNode
  refine (noUb_seek j n).bind fun j' _ => (noUb_value j').bind fun v _ => (noUb_iter v).bind fun k _ => .ok _

omit hE hT in
lemma startNode_ok {n : Option String} {j : JIter} {st st' : JStack} (h : startNode n (j :: st) = .ok st') :
    ∃ k j' nm v, st' = k :: j' :: st ∧ (nm, v) ∈ j.items ∧ v.iter = .ok k ∧ ∀ s, n = some s → nm = some s := by
  unfold startNode at h
  obtain ⟨j', h1, h⟩ := Res.bind_eq_ok.1 h
  obtain ⟨v, h2, h⟩ := Res.bind_eq_ok.1 h
  obtain ⟨k, h3, h⟩ := Res.bind_eq_ok.1 h
  cases h
  obtain ⟨h4, h5⟩ := seek_name h1
  exact ⟨k, j', j'.name, v, rfl, h4 ▸ value_mem h2, h3, h5⟩

omit hE hT in
lemma noUb_loadStr (n : Option String) (j : JIter) (st : JStack) : NoUb (loadStr n (j :: st)) := by
  unfold loadStr
  refine (noUb_seek j n).bind fun j' _ => (noUb_value j').bind fun v _ => ?_
  cases v
  · exact .throw _
  · exact .ok _
  · exact .throw _
  · exact .throw _

omit hE hT in
lemma loadStr_ok {n : Option String} {j : JIter} {st : JStack} {r : List Char × JStack}
    (h : loadStr n (j :: st) = .ok r) : ∃ k, r.2 = k :: st := by
  unfold loadStr at h
  obtain ⟨j', h1, h⟩ := Res.bind_eq_ok.1 h
  obtain ⟨v, h2, h⟩ := Res.bind_eq_ok.1 h
  cases v
  · cases h
  · cases h; exact ⟨_, rfl⟩
  · cases h
  · cases h

omit hE hT in
lemma noUb_loadNum (lo hi : ℤ) (n : Option String) (j : JIter) (st : JStack) :
    NoUb (loadNum lo hi n (j :: st)) := by
  unfold loadNum
  refine (noUb_seek j n).bind fun j' _ => (noUb_value j').bind fun v _ => ?_
  cases v
  · simp only
    split_ifs
    · exact .ok _
    · exact .throw _
  · exact .throw _
  · exact .throw _
  · exact .throw _

omit hE hT in
lemma loadNum_ok {lo hi : ℤ} {n : Option String} {j : JIter} {st : JStack} {r : ℤ × JStack}
    (h : loadNum lo hi n (j :: st) = .ok r) :
    (∃ k, r.2 = k :: st) ∧ (∃ nm, (nm, Json.num r.1) ∈ j.items) ∧ lo ≤ r.1 := by
  unfold loadNum at h
  obtain ⟨j', h1, h⟩ := Res.bind_eq_ok.1 h
  obtain ⟨v, h2, h⟩ := Res.bind_eq_ok.1 h
  obtain ⟨h4, -⟩ := seek_name h1
  cases v
  · simp only at h
    split_ifs at h with hz
    · cases h
      exact ⟨⟨_, rfl⟩, ⟨_, h4 ▸ value_mem h2⟩, hz.1⟩
  · cases h
  · cases h
  · cases h

omit hE hT in
/-- `load` of a field from a readable record -/
lemma noUb_loadFieldJ {v : Json} (hv : Readable v) {k : JIter} (hk : v.iter = .ok k) (st : JStack) :
    NoUb (loadFieldJ F i (k :: st)) ∧ ∀ r, loadFieldJ F i (k :: st) = .ok r → ∃ k', r.2.2 = k' :: st := by
  obtain ⟨e, m, rfl⟩ : ∃ e m, v = .obj (e :: m) := by
    match v, hv with
    | .obj (e :: m), _ => exact ⟨e, m, rfl⟩
    | .num _, _ => cases hk
    | .str _, _ => cases hk
  obtain ⟨h1, h2⟩ := hv
  cases hk
  have hid : NoUb (getIdJ (⟨(e :: m).map fun e => (some e.1, e.2), 0⟩ :: st)) ∧
      ∀ r, getIdJ (⟨(e :: m).map fun e => (some e.1, e.2), 0⟩ :: st) = .ok r →
        r.1 ≠ 0 ∧ ∃ k, r.2 = k :: st := by
    have e1 : getIdJ (⟨(e :: m).map fun e => (some e.1, e.2), 0⟩ :: st) =
        (loadNum 0 (2 ^ 32 - 1) (some (if e.1 = "shared" then "shared" else "id"))
          (⟨(e :: m).map fun e => (some e.1, e.2), 0⟩ :: st) >>= fun r => pure (r.1.toNat, r.2)) := by
      simp only [getIdJ, nodeName, JIter.name, List.map_cons, List.getElem?_cons_zero, Option.bind_some,
        if_neg h1, Res.pure_eq, Res.ok_bind]
    rw [e1]
    refine ⟨(noUb_loadNum _ _ _ _ _).bind fun _ _ => .ok _, fun r hr => ?_⟩
    obtain ⟨q, h3, h4⟩ := Res.bind_eq_ok.1 hr
    cases h4
    obtain ⟨h5, ⟨nm, h6⟩, h7⟩ := loadNum_ok h3
    refine ⟨?_, h5⟩
    obtain ⟨a, ha, hb⟩ := List.mem_map.1 h6
    have := h2 a ha q.1 (congrArg Prod.snd hb)
    simp only
    omega
  unfold loadFieldJ
  obtain ⟨h3, h4⟩ := hid
  refine ⟨h3.bind fun q hq => ?_, fun r hr => ?_⟩
  · obtain ⟨h5, k, h6⟩ := h4 q hq
    split
    · rw [h6]
      refine (noUb_loadStr _ _ _).bind fun a ha => ?_
      obtain ⟨_, h7⟩ := loadStr_ok ha
      rw [h7]
      refine (noUb_loadStr _ _ _).bind fun b hb => ?_
      obtain ⟨_, h8⟩ := loadStr_ok hb
      rw [h8]
      refine (noUb_loadStr _ _ _).bind fun c hc => ?_
      obtain ⟨_, h9⟩ := loadStr_ok hc
      rw [h9]
      refine (noUb_loadNum _ _ _ _ _).bind fun d hd => ?_
      split
      · exact .ok _
      · exact .throw _
    · split
      · exact .ok _
      · exact .throw _
  · obtain ⟨q, hq, hr⟩ := Res.bind_eq_ok.1 hr
    obtain ⟨h5, k, h6⟩ := h4 q hq
    split at hr
    · rw [h6] at hr
      obtain ⟨a, ha, hr⟩ := Res.bind_eq_ok.1 hr
      obtain ⟨_, h7⟩ := loadStr_ok ha
      rw [h7] at hr
      obtain ⟨b, hb, hr⟩ := Res.bind_eq_ok.1 hr
      obtain ⟨_, h8⟩ := loadStr_ok hb
      rw [h8] at hr
      obtain ⟨c, hc, hr⟩ := Res.bind_eq_ok.1 hr
      obtain ⟨_, h9⟩ := loadStr_ok hc
      rw [h9] at hr
      obtain ⟨d, hd, hr⟩ := Res.bind_eq_ok.1 hr
      obtain ⟨⟨_, h10⟩, -⟩ := loadNum_ok hd
      split at hr
      · cases hr; exact ⟨_, h10⟩
      · cases hr
    · split at hr
      · cases hr; exact ⟨_, h6⟩
      · cases hr

end EAntic.Cxx
