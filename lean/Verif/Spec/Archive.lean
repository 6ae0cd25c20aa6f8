import Verif.Spec.TextIO
import Verif.Model.Archive

/-! # Specification: serialization -/

namespace EAntic.Cxx

/-- the variables after storing the numbers `as`, with their fields, in the variables `ys` -/
noncomputable def storeAll (S : ℕ → Slot) : List ℕ → List (ℕ × ℝ) → ℕ → Slot
  | y :: ys, a :: as => storeAll (Function.update S y (.elem a.1 a.2)) ys as
  | _, _ => S

/-- An element that is saved: the variable, the address of its field at the time, its field and
value. -/
structure Item where
  var : ℕ
  addr : ℕ
  field : ℕ
  val : ℝ

/-- does a field record end here? -/
def Tok.isField : Tok → Bool
  | .slong _ => true
  | _ => false

/-- Fields are restored: `make` applied to what `construction()` returned gives a field with the same
generator and name, whatever the precision of the field is at that time. -/
structure FieldIO.Ok (F : FieldIO) (T : TextLib) (α : ℕ → ℝ) (I : ℕ → Field → Prop) (σ : ℕ → ℕ) :
    Prop where
  make : ∀ k f, I k f → F.make (F.construction k f).minpoly (F.construction k f).name
    (F.construction k f).emb (F.construction k f).prec = some (σ k)
  gen : ∀ k, α (σ k) = α k
  name : ∀ k, T.gen (σ k) = T.gen k

end EAntic.Cxx
