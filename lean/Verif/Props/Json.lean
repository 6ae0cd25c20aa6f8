import Verif.Lemmas.Json
import Verif.Props.Archive

/-!
# C70: JSON archives

`saveAllJ L T F 0 .empty l` is a program that opens a JSON archive and saves elements, with or without
names; `p` in `(n, x, p) ∈ l` is the address of the field of `x` at that time.
`loadAllJ L T F [] (openJ ms) ys` opens a JSON file with the members `ms` and loads elements into the
variables `ys`, with or without names.
-/

namespace EAntic.Cxx
open Polynomial

variable {L : Lib} {α : ℕ → ℝ} {I : ℕ → Field → Prop} {S : ℕ → Slot} {w w' : World} {T : TextLib}
  {F : FieldIO}

private theorem json_returns {β : Type} {Q : β → World → Prop} {r : Out β}
    (h : Good False (fun _ _ => False) Q r) : ∃ a w', r = .ok (a, w') ∧ Q a w' := by
  cases r with
  | ok p => exact ⟨p.1, p.2, rfl, h⟩
  | _ => exact h.elim

/-- C70, under the assumptions of `C40_partial`: what was saved is loaded again in the order in which
it was saved.  Every element may be asked for without a name or with the name it has in the file.  The
same holds for the file as unreleased versions wrote it (the identifier of the field is called
`shared`, a class version stands in front of the members of the element). -/
theorem C70_roundtrip_partial (hE : ∀ i, FieldInv (L.E i) (α i) (I i)) (hT : T.Ok) {σ : ℕ → ℕ}
    (hF : F.Ok T α I σ)
    (hZ : ∀ k f, -2 ^ 63 ≤ (F.construction k f).prec ∧ (F.construction k f).prec < 2 ^ 63)
    (h : Represents L α I S w) (l : List (Option String × Item))
    (hd : ∀ e ∈ l, (L.K e.2.field).degree < 2 ^ 63) (hx : ∀ e ∈ l, S e.2.var = .elem e.2.field e.2.val)
    (ha : ∀ e ∈ l, ∀ e' ∈ l, e.2.addr = e'.2.addr ↔ e.2.field = e'.2.field)
    (hn : (l.map fun e => e.2.field).toFinset.card < 2 ^ 31) :
    ∃ ms o w₁, saveAllJ L T F 0 .empty (l.map fun e => (e.1, .user e.2.var, e.2.addr)) w =
        .ok ((ms, o), w₁) ∧ Represents L α I S w₁ ∧
      List.Forall₂ (fun e m => ∀ n, e.1 = some n → m.1 = n) l ms ∧
      ∀ ms', SameFile ms ms' → ∀ ys : List (Option String × ℕ),
        List.Forall₂ (fun y m => y.1 = none ∨ y.1 = some m.1) ys ms' → (∀ y ∈ ys, S y.2 ≠ .absent) →
        ∃ w₂, loadAllJ L T F [] (openJ ms') (ys.map fun y => (y.1, .user y.2)) w₁ = .ok ((), w₂) ∧
          Represents L α I (storeAll S (ys.map Prod.snd) (l.map fun e => (σ e.2.field, e.2.val))) w₂ := by
  obtain ⟨⟨ms, o⟩, w₁, h1, ⟨cs, h2, h3⟩, h4⟩ := json_returns (saveAllJ_good (F := F) (o := .empty) hE
    hT l hd h hx 0)
  obtain ⟨ρ₀, hρ₀⟩ : ∃ ρ₀ : ℕ → ℕ, ∀ e ∈ l, ρ₀ e.2.addr = e.2.field := by
    classical
    refine ⟨fun p => if hp : ∃ e ∈ l, e.2.addr = p then hp.choose.2.field else 0, fun e he => ?_⟩
    have hp : ∃ e' ∈ l, e'.2.addr = e.2.addr := ⟨e, he, rfl⟩
    simp only [dif_pos hp]
    exact (ha _ hp.choose_spec.1 _ he).1 hp.choose_spec.2
  have hcard : (l.map fun e => e.2.addr).toFinset.card = (l.map fun e => e.2.field).toFinset.card := by
    have : (l.map fun e => e.2.field).toFinset = (l.map fun e => e.2.addr).toFinset.image ρ₀ := by
      ext k
      simp only [List.mem_toFinset, List.mem_map, Finset.mem_image]
      constructor
      · rintro ⟨e, he, rfl⟩; exact ⟨e.2.addr, ⟨e, he, rfl⟩, hρ₀ e he⟩
      · rintro ⟨_, ⟨e, he, rfl⟩, rfl⟩; exact ⟨e, he, (hρ₀ e he).symm⟩
    rw [this, Finset.card_image_of_injOn]
    intro p hp q hq hpq
    simp only [List.coe_toFinset, List.mem_map, Set.mem_ofPred_eq] at hp hq
    obtain ⟨e, he, rfl⟩ := hp
    obtain ⟨e', he', rfl⟩ := hq
    rw [hρ₀ e he, hρ₀ e' he'] at hpq
    exact (ha e he e' he').2 hpq
  have hA : (l.map fun e => e.2.addr).toFinset.card < 2 ^ 31 := by rw [hcard]; exact hn
  have hnames : ∀ (cs : List (Option String × Rec)) (l : List (Option String × Item)),
      List.Forall₂ (fun c e => c.1 = e.1 ∧ c.2.Of T F α I e.2) cs l → ∀ q o,
      List.Forall₂ (fun e m => ∀ n, e.1 = some n → m.1 = n) l (putAllJ q o cs).1 := by
    intro cs l h
    induction h with
    | nil => intro q o; exact .nil
    | cons h _ ih =>
      intro q o
      refine .cons ?_ (ih _ _)
      intro n hn
      rw [h.1, hn]
      rfl
  obtain ⟨rfl, rfl⟩ := Prod.mk.inj h3
  refine ⟨_, _, w₁, h1, h4, hnames _ _ h2 _ _, fun ms' hm ys hl hy => ?_⟩
  obtain ⟨_, w₂, h6, h7⟩ := json_returns (loadAllJ_good (ρ := fun p => σ (ρ₀ p)) (U := False)
    (X := fun _ _ => False) hE hT hF hZ hA cs l (h2.imp fun _ _ h => h.2) (fun e he => by simpa using ⟨e.1, e.2, he, rfl⟩)
    (fun e he => by simp only [hρ₀ e he]) Ids.empty h4 0 ms' hm ys hl hy
    ⟨ms'.map fun e => (some e.1, e.2), 0⟩ rfl [])
  exact ⟨w₂, h6, h7⟩

/-- C70: whatever the file contains, loading the field and the text of an element returns or throws,
if the members `parent` in it are `Readable`. -/
theorem C70_malformed_partial (F : FieldIO) (i : InIds) (n : Option String) (ms : List (String × Json))
    (hm : ∀ e ∈ ms, ∀ m, e.2 = .obj m → ∀ f ∈ m, f.1 = "parent" → Readable f.2) :
    (∃ r, loadTextJ F i n (openJ ms) = .ok r) ∨ ∃ s, loadTextJ F i n (openJ ms) = .throw s := by
  show NoUb _
  unfold loadTextJ openJ
  refine (noUb_startNode _ _ _).bind fun st hst => ?_
  obtain ⟨k, j, nm, v, rfl, h1, h2, -⟩ := startNode_ok hst
  refine (noUb_startNode _ _ _).bind fun st hst => ?_
  obtain ⟨k', j', nm', v', rfl, h3, h4, h5⟩ := startNode_ok hst
  cases h5 "parent" rfl
  obtain ⟨e, he, hev⟩ := List.mem_map.1 h1
  have hread : Readable v' := by
    cases v with
    | obj m =>
      cases h2
      obtain ⟨f, hf, hfv⟩ := List.mem_map.1 h3
      have e1 : v' = f.2 := (congrArg Prod.snd hfv).symm
      rw [e1]
      exact hm e he m (congrArg Prod.snd hev) f hf (Option.some.inj (congrArg Prod.fst hfv))
    | arr l =>
      cases h2
      obtain ⟨f, hf, hfv⟩ := List.mem_map.1 h3
      cases hfv
    | num _ => cases h2
    | str _ => cases h2
  obtain ⟨h6, h7⟩ := noUb_loadFieldJ (F := F) (i := i) hread h4 (j' :: j :: [])
  refine h6.bind fun f hf => ?_
  obtain ⟨k'', h8⟩ := h7 f hf
  rw [h8]
  exact (noUb_loadStr _ _ _).bind fun s hs => .ok _

/-- C70, FALSE for a field with a class version in front of its identifier: the branch that should
strip the version leaves the record, and the identifier is searched for among the members of the
element. -/
theorem C70_version_counterexample (F : FieldIO) (c : Construction) (t : List Char) (x : Reg) (z : ℤ) :
    loadElemJ L T F [] (openJ [("value0", .obj [("parent", .obj [("cereal_class_version", .num 0),
      ("shared", .num z), ("name", .str c.name), ("embedding", .str c.emb), ("minpoly", .str c.minpoly),
      ("precision", .num c.prec)]), ("value", .str t)])]) none x w = .throw "cereal" w := by
  simp [loadElemJ, loadTextJ, openJ, startNode, JIter.seek, JIter.name, JIter.value, Json.iter,
    loadFieldJ, getIdJ, nodeName, finishNode, JIter.next, loadNum, List.findIdx?_cons]

/-- C70, FALSE for a field that is an empty object or an array: the name of its first member is a null
pointer, and it is compared.  The same for a field with nothing but a class version that is the last
member of the element. -/
theorem C70_null_name_counterexample (F : FieldIO) (i : InIds) (l : List Json) (t : List Char) (x : Reg)
    (v : Json) :
    loadElemJ L T F i (openJ [("value0", .obj [("parent", .obj []), ("value", .str t)])]) none x w = .ub ∧
    loadElemJ L T F i (openJ [("value0", .obj [("parent", .arr l), ("value", .str t)])]) none x w = .ub ∧
    loadElemJ L T F i (openJ [("value0", .obj [("parent", .obj [("cereal_class_version", v)])])]) none x w =
      .ub := by
  refine ⟨?_, ?_, ?_⟩
  · simp [loadElemJ, loadTextJ, openJ, startNode, JIter.seek, JIter.name, JIter.value, Json.iter,
      loadFieldJ, getIdJ, nodeName]
  · cases l <;>
    simp [loadElemJ, loadTextJ, openJ, startNode, JIter.seek, JIter.name, JIter.value, Json.iter,
      loadFieldJ, getIdJ, nodeName]
  · simp [loadElemJ, loadTextJ, openJ, startNode, JIter.seek, JIter.name, JIter.value, Json.iter,
      loadFieldJ, getIdJ, nodeName, finishNode, JIter.next]

/-- C70, FALSE if the members of an object are in another order, which means the same in JSON: name
and embedding are exchanged. -/
theorem C70_member_order_counterexample (F : FieldIO) (c : Construction) (t : List Char) {k : ℕ}
    (hk : F.make c.minpoly c.emb c.name c.prec = some k) (hz : -2 ^ 63 ≤ c.prec ∧ c.prec < 2 ^ 63) :
    ∃ st, loadTextJ F [] none (openJ [("value0", .obj [("parent", .obj [("id", .num (1 ||| msb : ℕ)),
      ("embedding", .str c.emb), ("name", .str c.name), ("minpoly", .str c.minpoly),
      ("precision", .num c.prec)]), ("value", .str t)])]) = .ok ((k, t), [(1, k)], st) := by
  obtain ⟨h1, h2⟩ := hz
  have h2' : c.prec ≤ 2 ^ 63 - 1 := by omega
  have hn : ((1 ||| msb : ℕ) : ℤ) ≤ 2 ^ 32 - 1 := by decide
  have hf : (1 ||| msb) &&& msb ≠ 0 := new_flag
  have hs : (1 ||| msb) - msb = 1 := by decide
  generalize (1 ||| msb) = q at hn hf hs ⊢
  generalize c.prec = P at *
  simp only [loadTextJ, openJ, startNode, Json.iter, finishNode, loadFieldJ, getIdJ, nodeName, JIter.name,
    loadNum, loadStr, JIter.seek, JIter.value,
    JIter.next, List.map_cons, List.map_nil, List.getElem?_cons_zero, List.getElem?_cons_succ,
    Option.bind_some, Res.ok_bind, Res.pure_eq, reduceIte, Int.toNat_natCast, hn, hf, hk, hs, h1, h2',
    Nat.cast_nonneg, and_self, zero_add, ne_eq, not_false_eq_true, String.reduceEq, Nat.reduceAdd]
  exact ⟨_, rfl⟩

/-- C70, FALSE if a program asks for the elements by their names in another order: the field is
stored with the first element only, and the second one cannot be loaded before the first. -/
theorem C70_by_name_counterexample (hE : ∀ i, FieldInv (L.E i) (α i) (I i)) (hT : T.Ok)
    (h : Represents L α I S w) {x y p k : ℕ} {a b : ℝ} (hd : (L.K k).degree < 2 ^ 63)
    (hx : S x = .elem k a) (hy : S y = .elem k b) :
    ∃ ms o w₁, saveAllJ L T F 0 .empty [(some "x", .user x, p), (some "y", .user y, p)] w =
        .ok ((ms, o), w₁) ∧ Represents L α I S w₁ ∧
      loadAllJ L T F [] (openJ ms) [(some "y", .user y), (some "x", .user x)] w₁ = .throw "cereal" w₁ := by
  obtain ⟨⟨ms, o⟩, w₁, h1, ⟨cs, h2, h3⟩, h4⟩ := json_returns (saveAllJ_good (F := F) (o := .empty) hE
    hT [(some "x", ⟨x, p, k, a⟩), (some "y", ⟨y, p, k, b⟩)] (by simpa using hd) h (by simp [hx, hy]) 0)
  refine ⟨ms, o, w₁, h1, h4, ?_⟩
  cases h2 with
  | @cons c _ cs _ hc h2 =>
  cases h2 with
  | @cons c' _ cs _ hc' h2 =>
  cases h2
  obtain ⟨n, c⟩ := c
  obtain ⟨n', c'⟩ := c'
  obtain ⟨rfl, e1, -⟩ := hc
  obtain ⟨rfl, e2, -⟩ := hc'
  simp only at e1 e2
  have hms := congrArg Prod.fst h3
  have hf : (1 ||| msb) &&& msb ≠ 0 := new_flag
  simp only [putAllJ, putElemJ, memberName, putFieldJ, OutIds.register, OutIds.empty, e1, e2,
    List.lookup_nil, Nat.reducePow, Nat.one_mod, hf, ne_eq, not_false_eq_true, if_true,
    List.lookup_cons_self, old_flag (show 1 < 2 ^ 31 by norm_num), not_true_eq_false, if_false] at hms
  have e3 : loadTextJ F [] (some "y") (openJ ms) = .throw "cereal" := by
    rw [hms]
    simp [loadTextJ, openJ, startNode, JIter.seek, JIter.name, JIter.value, Json.iter, loadFieldJ, getIdJ,
      nodeName, JIter.next, loadNum, List.findIdx?_cons, old_flag (show 1 < 2 ^ 31 by norm_num)]
  show W.bind (loadElemJ L T F [] (openJ ms) (some "y") (.user y)) _ w₁ = _
  unfold W.bind loadElemJ
  rw [e3]

/-- the hypotheses are met: `∛2` and 5 in field 1 and 3 in field 2, one of them with a name -/
example : (∀ k f, -2 ^ 63 ≤ (fieldIO.construction k f).prec ∧ (fieldIO.construction k f).prec < 2 ^ 63) ∧
    ∃ S w, Represents lib gens fine S w ∧ ∃ l : List (Option String × Item),
      l = [(none, ⟨0, 1000, 1, cbrt2⟩), (some "three", ⟨2, 2000, 2, 3⟩), (none, ⟨1, 1000, 1, 5⟩)] ∧
      (∀ e ∈ l, S e.2.var = .elem e.2.field e.2.val) ∧ (∀ e ∈ l, (lib.K e.2.field).degree < 2 ^ 63) ∧
      (∀ e ∈ l, ∀ e' ∈ l, e.2.addr = e'.2.addr ↔ e.2.field = e'.2.field) := by
  refine ⟨fun k f => by simp [fieldIO], ?_⟩
  obtain ⟨_, w₁, -, r1⟩ := json_returns (constructVec_good (x := .user 0) lib_inv 1 (n := [0, 1])
    (d := 1) start_rep rfl (by decide) (by norm_num))
  rw [vars_update] at r1
  obtain ⟨_, w₂, -, r2⟩ := json_returns (constructZ_good (x := .user 1) lib_inv 1 5 r1
    (by simp [vars]))
  rw [vars_update] at r2
  obtain ⟨_, w₃, -, r3⟩ := json_returns (constructZ_good (x := .user 2) lib_inv 2 3 r2
    (by simp [vars]))
  rw [vars_update] at r3
  have hv : realValue (gens 1) [0, 1] 1 = cbrt2 := by simp [realValue, toPoly, gens]
  refine ⟨_, w₃, r3, _, rfl, ?_, ?_, ?_⟩
  · simp [hv]
  · intro e he
    simp only [List.mem_cons, List.not_mem_nil, or_false] at he
    rcases he with rfl | rfl | rfl <;> decide
  · simp

/-- a file with a field that is readable and one that older versions wrote -/
example : Readable (.obj [("id", .num 2147483649), ("name", .str ['a'])]) ∧
    SameFile [("value0", .obj [("parent", .obj [("id", .num 1)]), ("value", .str ['5'])])]
      [("value0", .obj [("cereal_class_version", .num 0), ("parent", .obj [("shared", .num 1)]),
        ("value", .str ['5'])])] :=
  ⟨⟨by decide, by simp⟩, .cons ⟨rfl, true, true, rfl⟩ .nil⟩

/-- The example of the test suite (`t-cereal.cpp:67-77`): the file that e-antic before version 1 wrote is
read, with `make` called for the texts in it. -/
example (F : FieldIO) {pol name emb t : List Char} {k : ℕ} (hk : F.make pol name emb 64 = some k) :
    ∃ st, loadTextJ F [] none (openJ [("cereal", .obj [("cereal_class_version", .num 0),
      ("parent", .obj [("shared", .num 2147483649), ("name", .str name), ("embedding", .str emb),
        ("minpoly", .str pol), ("precision", .num 64)]), ("value", .str t)])]) =
      .ok ((k, t), [(1, k)], st) := by
  have hf : (2147483649 : ℕ) &&& msb ≠ 0 := by decide
  have hs : 2147483649 - msb = 1 := by decide
  simp [loadTextJ, openJ, startNode, Json.iter, finishNode, loadFieldJ, getIdJ, nodeName, JIter.name,
    loadNum, loadStr, JIter.seek, JIter.value, JIter.next, List.findIdx?_cons, hf, hs, hk]

end EAntic.Cxx
