import Verif.Lemmas.Archive
import Verif.Props.Text

/-!
# C40: serialization

`saveAll L T F .empty l` is a program that opens an output archive and saves elements; `p` in
`(x, p) ∈ l` is the address of the field of `x` at that time.  `loadAll L T F [] ts ys` opens an input
archive with the contents `ts` and loads elements into the variables `ys`.
-/

namespace EAntic.Cxx
open Polynomial

variable {L : Lib} {α : ℕ → ℝ} {I : ℕ → Field → Prop} {S : ℕ → Slot} {w w' : World} {T : TextLib}
  {F : FieldIO}

private theorem archive_returns {β : Type} {Q : β → World → Prop} {r : Out β}
    (h : Good False (fun _ _ => False) Q r) : ∃ a w', r = .ok (a, w') ∧ Q a w' := by
  cases r with
  | ok p => exact ⟨p.1, p.2, rfl, h⟩
  | _ => exact h.elim

/-- C40, if different fields have different addresses while the archive is open (that is, no field
is destroyed in between) and `make` restores every field from its `construction()`.  Elements of fewer
than `2^31` fields are saved; the archive stores every field once.  Loading returns, in order,
elements with the same values; their fields are the restored fields `σ k`, hence elements that shared
a field share it again. -/
theorem C40_partial (hE : ∀ i, FieldInv (L.E i) (α i) (I i)) (hT : T.Ok) {σ : ℕ → ℕ}
    (hF : F.Ok T α I σ) (h : Represents L α I S w) (l : List Item)
    (hd : ∀ e ∈ l, (L.K e.field).degree < 2 ^ 63) (hx : ∀ e ∈ l, S e.var = .elem e.field e.val)
    (ha : ∀ e ∈ l, ∀ e' ∈ l, e.addr = e'.addr ↔ e.field = e'.field)
    (hn : (l.map Item.field).toFinset.card < 2 ^ 31) :
    ∃ ts o w₁, saveAll L T F .empty (l.map fun e => (.user e.var, e.addr)) w = .ok ((ts, o), w₁) ∧
      Represents L α I S w₁ ∧ ts.countP Tok.isField = (l.map Item.field).toFinset.card ∧
      ∀ ys, ys.length = l.length → (∀ y ∈ ys, S y ≠ .absent) →
        ∃ w₂, loadAll L T F [] ts (ys.map .user) w₁ = .ok ([], w₂) ∧
          Represents L α I (storeAll S ys (l.map fun e => (σ e.field, e.val))) w₂ := by
  obtain ⟨⟨ts, o⟩, w₁, h1, ⟨cs, h2, h3⟩, h4⟩ := archive_returns (saveAll_good (F := F) (o := .empty) hE
    hT l hd h hx)
  -- the field at an address
  obtain ⟨ρ₀, hρ₀⟩ : ∃ ρ₀ : ℕ → ℕ, ∀ e ∈ l, ρ₀ e.addr = e.field := by
    classical
    refine ⟨fun p => if hp : ∃ e ∈ l, e.addr = p then hp.choose.field else 0, fun e he => ?_⟩
    have hp : ∃ e' ∈ l, e'.addr = e.addr := ⟨e, he, rfl⟩
    simp only [dif_pos hp]
    exact (ha _ hp.choose_spec.1 _ he).1 hp.choose_spec.2
  have hcard : (l.map Item.addr).toFinset.card = (l.map Item.field).toFinset.card := by
    have : (l.map Item.field).toFinset = (l.map Item.addr).toFinset.image ρ₀ := by
      ext k
      simp only [List.mem_toFinset, List.mem_map, Finset.mem_image]
      constructor
      · rintro ⟨e, he, rfl⟩; exact ⟨e.addr, ⟨e, he, rfl⟩, hρ₀ e he⟩
      · rintro ⟨_, ⟨e, he, rfl⟩, rfl⟩; exact ⟨e, he, (hρ₀ e he).symm⟩
    rw [this, Finset.card_image_of_injOn]
    intro p hp q hq hpq
    simp only [List.coe_toFinset, List.mem_map, Set.mem_ofPred_eq] at hp hq
    obtain ⟨e, he, rfl⟩ := hp
    obtain ⟨e', he', rfl⟩ := hq
    rw [hρ₀ e he, hρ₀ e' he'] at hpq
    exact (ha e he e' he').2 hpq
  have hA : (l.map Item.addr).toFinset.card < 2 ^ 31 := by rw [hcard]; exact hn
  have haddr : cs.map Rec.addr = l.map Item.addr := by
    clear h1 h3 hd hx ha hn hρ₀ hcard hA
    induction h2 with
    | nil => rfl
    | cons h _ ih => rw [List.map_cons, List.map_cons, ih, h.1]
  refine ⟨ts, o, w₁, h1, h4, ?_, ?_⟩
  · have := putAll_count (ρ := fun p => σ (ρ₀ p)) Ids.empty hA cs (by
      intro c hc
      rw [← haddr]
      simpa using ⟨c, hc, rfl⟩)
    rw [← h3] at this
    simp only [OutIds.empty, List.map_nil, List.toFinset_nil, Finset.card_empty, add_zero,
      List.nil_append] at this
    rw [this, haddr, hcard]
  · intro ys hl hy
    have h5 := loadAll_good (ρ := fun p => σ (ρ₀ p)) (U := False) (X := fun _ _ => False) hE hT hF hA cs
      l h2 (fun e he => by simpa using ⟨e, he, rfl⟩) (fun e he => by simp only [hρ₀ e he]) Ids.empty
      h4 ys hl hy []
    rw [← h3, List.append_nil] at h5
    obtain ⟨_, w₂, h6, rfl, h7⟩ := archive_returns h5
    exact ⟨w₂, h6, h7⟩

/-- C40, FALSE if a field is destroyed while the archive is open and another one is created at its
address: the second element is loaded into the first field, as the same polynomial in its
generator.  (`save` registers a shared pointer that does not own the field.) -/
theorem C40_address_reuse_counterexample (hE : ∀ i, FieldInv (L.E i) (α i) (I i)) (hT : T.Ok)
    {σ : ℕ → ℕ} (hF : F.Ok T α I σ) (h : Represents L α I S w) {x y p k k' : ℕ} {a b : ℝ}
    (hd : (L.K k).degree < 2 ^ 63) (hd' : (L.K k').degree < 2 ^ 63) (hx : S x = .elem k a)
    (hy : S y = .elem k' b) (hname : T.gen k' = T.gen k) :
    ∃ ts o w₁, saveAll L T F .empty [(.user x, p), (.user y, p)] w = .ok ((ts, o), w₁) ∧
      ∃ w₂, ∃ P : ℚ[X], loadAll L T F [] ts [.user x, .user y] w₁ = .ok ([], w₂) ∧ aeval (α k') P = b ∧
        Represents L α I (storeAll S [x, y] [(σ k, a), (σ k, aeval (α k) P)]) w₂ := by
  obtain ⟨⟨ts, o⟩, w₁, h1, ⟨cs, h2, h3⟩, h4⟩ := archive_returns (saveAll_good (F := F) (o := .empty) hE
    hT [⟨x, p, k, a⟩, ⟨y, p, k', b⟩] (by
      intro e he
      simp only [List.mem_cons, List.not_mem_nil, or_false] at he
      rcases he with rfl | rfl
      · exact hd
      · exact hd') h (by simp [hx, hy]))
  refine ⟨ts, o, w₁, h1, ?_⟩
  cases h2 with
  | @cons c _ cs _ hc h2 =>
  cases h2 with
  | @cons c' _ cs _ hc' h2 =>
  cases h2
  have hA : ({p} : Finset ℕ).card < 2 ^ 31 := by simp
  have hts : ts = (putElem .empty c.addr c.con c.text).1 ++
      ((putElem (putElem .empty c.addr c.con c.text).2 c'.addr c'.con c'.text).1 ++ []) := by
    have := congrArg Prod.fst h3
    exact this
  obtain ⟨P, hP, hPb⟩ := hc'.2.2.2.2.text
  simp only at hPb hP
  have h5 := loadElem_good (U := False) (X := fun _ _ => False) (ρ := fun _ => σ k) (y := x) hE hT hF
    Ids.empty hA hc (by simp) rfl h4 (by rw [hx]; simp)
    ((putElem (putElem .empty c.addr c.con c.text).2 c'.addr c'.con c'.text).1 ++ [])
  rw [← hts] at h5
  obtain ⟨⟨i', ts'⟩, w₂, h6, ⟨rfl, hi⟩, h7⟩ := archive_returns h5
  -- the second record is read as one of the first field
  obtain ⟨⟨i'', ts''⟩, w₃, h8, rfl, h10⟩ := archive_returns (loadElem_known (U := False) (F := F)
    (X := fun _ _ => False) (y := y) (p := p) (c := c'.con) (s := c'.text) (a := aeval (α k) P) hE hT hi
    hA (by simp) (by
      rw [show c.addr = p from hc.1]
      exact mem_putElem (ρ := fun _ => σ k) Ids.empty hA (by simp) c.con c.text) (by
      rw [List.takeWhile_eq_self_iff.2 (by
        intro c hc; simpa using (hc'.2.2.2.2.safe c hc).2.2), hF.gen, hF.name]
      exact ⟨P, by rw [← hname]; exact hP, rfl⟩) h7 (by
      by_cases hxy : y = x
      · subst hxy; simp
      · rw [Function.update_of_ne hxy, hy]; simp) [])
  refine ⟨w₃, P, ?_, hPb, h10⟩
  show W.bind (loadElem L T F [] ts (.user x)) _ w₁ = _
  unfold W.bind
  rw [h6]
  simp only
  show W.bind (loadElem L T F i' _ (.user y)) _ w₂ = _
  unfold W.bind
  rw [show c'.addr = p from hc'.1, h8]
  rfl

/-- field texts that meet the assumption: the name of field `k` is `k` letters -/
def fieldIO : FieldIO where
  construction k _ := ⟨[], List.replicate k 'a', [], 0⟩
  make _ name _ _ := some name.length

theorem fieldIO_ok : fieldIO.Ok textLib gens fine id where
  make k _ _ := by simp [fieldIO]
  gen _ := rfl
  name _ := rfl

/-- the hypotheses are met: `∛2` and 5 in field 1 and 3 in field 2 -/
theorem archive_demo : ∃ S w, Represents lib gens fine S w ∧ S 0 = .elem 1 cbrt2 ∧ S 1 = .elem 1 5 ∧
    S 2 = .elem 2 3 ∧ ∃ l : List Item, l = [⟨0, 1000, 1, cbrt2⟩, ⟨2, 2000, 2, 3⟩, ⟨1, 1000, 1, 5⟩] ∧
    (∀ e ∈ l, S e.var = .elem e.field e.val) ∧ (∀ e ∈ l, (lib.K e.field).degree < 2 ^ 63) ∧
    (∀ e ∈ l, ∀ e' ∈ l, e.addr = e'.addr ↔ e.field = e'.field) := by
  obtain ⟨_, w₁, -, r1⟩ := archive_returns (constructVec_good (x := .user 0) lib_inv 1 (n := [0, 1])
    (d := 1) start_rep rfl (by decide) (by norm_num))
  rw [vars_update] at r1
  obtain ⟨_, w₂, -, r2⟩ := archive_returns (constructZ_good (x := .user 1) lib_inv 1 5 r1
    (by simp [vars]))
  rw [vars_update] at r2
  obtain ⟨_, w₃, -, r3⟩ := archive_returns (constructZ_good (x := .user 2) lib_inv 2 3 r2
    (by simp [vars]))
  rw [vars_update] at r3
  have hv : realValue (gens 1) [0, 1] 1 = cbrt2 := by simp [realValue, toPoly, gens]
  refine ⟨_, w₃, r3, ?_, ?_, ?_, _, rfl, ?_, ?_, ?_⟩
  · simp [hv]
  · simp
  · simp
  · simp [hv]
  · intro e he
    simp only [List.mem_cons, List.not_mem_nil, or_false] at he
    rcases he with rfl | rfl | rfl <;> decide
  · simp

/-- `∛2`, 3 and 5 are saved with two descriptions of fields and loaded in the other order of variables -/
example : ∃ S w ts o w₁ w₂, Represents lib gens fine S w ∧
    saveAll lib textLib fieldIO .empty [(.user 0, 1000), (.user 2, 2000), (.user 1, 1000)] w =
      .ok ((ts, o), w₁) ∧ ts.countP Tok.isField = 2 ∧
    loadAll lib textLib fieldIO [] ts [.user 1, .user 0, .user 2] w₁ = .ok ([], w₂) ∧
    Represents lib gens fine (storeAll S [1, 0, 2] [(1, cbrt2), (2, 3), (1, 5)]) w₂ := by
  obtain ⟨S, w, hw, h0, h1, h2, l, rfl, a1, a2, a3⟩ := archive_demo
  obtain ⟨ts, o, w₁, e1, -, e2, H⟩ := C40_partial lib_inv textLib_ok fieldIO_ok hw _ a2 a1 a3
    (by simp)
  obtain ⟨w₂, e3, e4⟩ := H [1, 0, 2] rfl (by simp [h0, h1, h2])
  exact ⟨S, w, ts, o, w₁, w₂, hw, e1, e2, e3, e4⟩

end EAntic.Cxx
