import Verif.Props.Same
import Verif.Lemmas.SameText

/-!
# C75: what is printed, hashed and read does not depend on the precision of the fields
-/

namespace EAntic.Cxx

variable {L L' : Lib} {α : ℕ → ℝ} {I I' : ℕ → Field → Prop} {S : ℕ → Slot} {w w' v v' : World}
  {T : TextLib} {γ : Type} {hf : Dbl → γ} {io : Streams}

/-- C75, partial.  The same program, which computes, prints, hashes and reads, on variables with the same
values and with the same input, with two versions of the library for the same fields: precisions,
enclosures, refinement, arithmetic and build options may all differ, and so may the history of the
variables.  If both runs return then the answers, the strings, the hashes and everything that was
written are the same, the same input is left, and the variables hold the same values.  If one returns
the other one does not throw.
Missing: the calls that are not `ExactT`, see `C75_floor_counterexample` and
`C75_enclosure_counterexample`. -/
theorem C75_text_partial (hs : SameFields L L') (hE : ∀ i, FieldInv (L.E i) (α i) (I i))
    (hE' : ∀ i, FieldInv (L'.E i) (α i) (I' i)) (hT : T.Ok) (hb : L.bits.Ok) {cs : List TCmd}
    (h : Represents L α I S w) (h' : Represents L' α I' S w') (hv : AllowedT L T hf α S io cs)
    (he : AllExactT L T hf α S io cs) {as : List (TVal γ)} {io₁ : Streams}
    (hr : execAllT L T hf cs io w = .ok ((as, io₁), v)) :
    (∀ as' io₂, execAllT L' T hf cs io w' = .ok ((as', io₂), v') →
      as = as' ∧ io₁ = io₂ ∧ ∃ S', Represents L α I S' v ∧ Represents L' α I' S' v') ∧
    ∀ e, execAllT L' T hf cs io w' ≠ .throw e v' := by
  obtain ⟨S₁, h1, h2⟩ := (C68_programs hE hT hb h hv).1 _ _ _ hr
  have hP := C68_programs (hf := hf) (io := io) hE' hT (hs.bits ▸ hb) h' (hs.allowedT he hv)
  constructor
  · intro as' io₂ hr'
    obtain ⟨S₂, h1', h2'⟩ := hP.1 _ _ _ hr'
    obtain ⟨rfl, rfl, rfl⟩ := stepsT_det hE hT he h1 ((hs.stepsT S io as' S₂ io₂).2 h1')
    exact ⟨rfl, rfl, S₁, h2, h2'⟩
  · intro e hr'
    exact not_throwsInT_stepsT hE hT he h1 ((hs.throwsInT S io).2 (hP.2 _ _ hr'))

/-! ### A concrete case -/

/-- `x = ∛2`, `os << x`, `hash(x)`, `x.to_string()`, and `y` is read from the input -/
def demoT : List TCmd :=
  [.call (.constructVec 0 1 [0, 1] 1), .call (.construct 1 0), .print 0, .hash 0, .toString 0 true false false,
    .setField 1, .read 1, .ws]

/-- the input: `a` and white space -/
def demoIO : Streams := ⟨⟨['a', ' '], false⟩, none, []⟩

theorem demoT_ok : AllowedT lib textLib (γ := Dbl) id gens (fun _ => .absent) demoIO demoT ∧
    AllExactT lib textLib (γ := Dbl) id gens (fun _ => .absent) demoIO demoT := by
  constructor
  · refine ⟨⟨rfl, by decide, by decide⟩, ?_⟩
    rintro a S io ⟨rfl, v, rfl, rfl, rfl⟩
    refine ⟨by simp [ValidT, Valid], ?_⟩
    rintro a S io ⟨rfl, v, rfl, rfl, rfl⟩
    refine ⟨⟨1, realValue (gens 1) [0, 1] 1, by simp, by decide⟩, ?_⟩
    rintro a S io ⟨rfl, rfl, -, -, s, -, -, rfl⟩
    refine ⟨⟨1, realValue (gens 1) [0, 1] 1, by simp⟩, ?_⟩
    rintro a S io ⟨rfl, rfl, -⟩
    refine ⟨⟨1, realValue (gens 1) [0, 1] 1, by simp, fun _ => by decide, by simp⟩, ?_⟩
    rintro a S io ⟨rfl, rfl, -⟩
    refine ⟨trivial, ?_⟩
    rintro a S io ⟨rfl, rfl, rfl⟩
    refine ⟨⟨by simp, ⟨1, rfl⟩, ?_⟩, ?_⟩
    · rintro ⟨-, body, c, h, -⟩
      simp [demoIO] at h
    · intro a S io _
      exact ⟨trivial, fun _ _ _ _ => trivial⟩
  · refine ⟨trivial, fun _ _ _ _ => ⟨trivial, fun _ _ _ _ => ⟨trivial, fun _ _ _ _ => ⟨trivial, fun _ _ _ _ => ⟨rfl,
      fun _ _ _ _ => ⟨trivial, fun _ _ _ _ => ⟨trivial, fun _ _ _ _ => ⟨trivial, fun _ _ _ _ => trivial⟩⟩⟩⟩⟩⟩⟩⟩

/-- what is written and left -/
def shown : List (TVal Dbl) × Streams → Bool × List Char × List Char
  | ([.val .unit, .val .unit, .val .unit, .hash _, .text s, .val .unit, .val .unit, .val .unit], io) =>
    (io.inp.eof, io.inp.chars, s)
  | _ => (false, [], [])

/-- both runs return, with a different course, and agree on everything -/
example : ∃ p v v', execAllT lib textLib id demoT demoIO start = .ok (p, v) ∧
    execAllT libB textLib id demoT demoIO startB = .ok (p, v') ∧
    shown p = (true, [], ['a']) := by
  have h1 : ((execAllT lib textLib id demoT demoIO start).answer).map shown = some (true, [], ['a']) := by
    decide +kernel
  have h2 : ((execAllT libB textLib id demoT demoIO startB).answer).map shown = some (true, [], ['a']) := by
    decide +kernel
  obtain ⟨⟨as, io₁⟩, e1, h1⟩ := Option.map_eq_some_iff.1 h1
  obtain ⟨⟨as', io₂⟩, e2, h2⟩ := Option.map_eq_some_iff.1 h2
  obtain ⟨v, e1⟩ := answer_eq_some e1
  obtain ⟨v', e2⟩ := answer_eq_some e2
  obtain ⟨rfl, rfl, -⟩ := (C75_text_partial (L := lib) (L' := libB) ⟨rfl, rfl, rfl⟩ lib_inv libB_inv textLib_ok
    lp64_ok start_rep startB_rep demoT_ok.1 demoT_ok.2 e1).1 _ _ e2
  exact ⟨_, v, v', e1, e2, h1⟩

/-- text functions that print the radius of an enclosure -/
def radiusText : TextLib where
  readRat := textLib.readRat
  dbl := textLib.dbl
  ball
    | .fin _ r => Text.absStr r
    | _ => ['0']
  gen := textLib.gen

theorem radiusText_ok : radiusText.Ok := ⟨textLib_ok.readRat, textLib_ok.dbl, textLib_ok.dbl_last, textLib_ok.gen⟩

/-- C75, FALSE for the strings with the stored enclosure: they depend on the precision. -/
theorem C75_enclosure_counterexample : ∃ (T : TextLib) (cs : List TCmd), T.Ok ∧ SameFields lib libB ∧
    AllowedT lib T (γ := Unit) (fun _ => ()) gens (fun _ => .absent) demoIO cs ∧
    ∃ as as' io io' v v', execAllT lib T (fun _ => ()) cs demoIO start = .ok ((as, io), v) ∧
      execAllT libB T (fun _ => ()) cs demoIO startB = .ok ((as', io'), v') ∧ as ≠ as' := by
  let txt : List (TVal Unit) × Streams → List Char := fun p => match p.1 with
    | [_, .text s] => s
    | _ => []
  let cs : List TCmd := [.call (.constructVec 0 1 [0, 1] 1), .toString 0 false false true]
  have h0 : (((execAllT lib radiusText (γ := Unit) (fun _ => ()) cs demoIO start).answer).map txt).isSome = true ∧
      (((execAllT libB radiusText (γ := Unit) (fun _ => ()) cs demoIO startB).answer).map txt).isSome = true ∧
      ((execAllT lib radiusText (γ := Unit) (fun _ => ()) cs demoIO start).answer).map txt ≠
      ((execAllT libB radiusText (γ := Unit) (fun _ => ()) cs demoIO startB).answer).map txt := by
    decide +kernel
  obtain ⟨h1, h2, h3⟩ := h0
  obtain ⟨s, h1⟩ := Option.isSome_iff_exists.1 h1
  obtain ⟨s', h2⟩ := Option.isSome_iff_exists.1 h2
  rw [h1, h2] at h3
  obtain ⟨⟨as, io⟩, e1, h1⟩ := Option.map_eq_some_iff.1 h1
  obtain ⟨⟨as', io'⟩, e2, h2⟩ := Option.map_eq_some_iff.1 h2
  obtain ⟨v, e1⟩ := answer_eq_some e1
  obtain ⟨v', e2⟩ := answer_eq_some e2
  refine ⟨radiusText, cs, radiusText_ok, ⟨rfl, rfl, rfl⟩, ?_, as, as', io, io', v, v', e1, e2, ?_⟩
  · refine ⟨⟨rfl, by decide, by decide⟩, ?_⟩
    rintro a S io ⟨rfl, v, rfl, rfl, rfl⟩
    exact ⟨⟨1, realValue (gens 1) [0, 1] 1, by simp, by simp, by simp⟩, fun _ _ _ _ => trivial⟩
  · rintro rfl
    exact h3 (by rw [← h1, ← h2])

end EAntic.Cxx
