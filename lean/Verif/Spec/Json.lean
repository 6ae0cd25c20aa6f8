import Verif.Spec.Archive
import Verif.Model.Json

/-! # Specification: JSON archives -/

namespace EAntic.Cxx

/-- a field as unreleased versions wrote it: the identifier was called `shared` -/
def olderField : Json → Json
  | .obj (("id", n) :: m) => .obj (("shared", n) :: m)
  | v => v

/-- An element as unreleased versions wrote it: `version` says that there is a class version in front
of it, `shared` that the identifier of its field is called `shared`. -/
def olderElem (version shared : Bool) : Json → Json
  | .obj [("parent", f), ("value", s)] =>
    .obj ((if version then [("cereal_class_version", .num 0)] else []) ++
      [("parent", if shared then olderField f else f), ("value", s)])
  | v => v

/-- the two files have the same members, up to the way older versions wrote elements -/
def SameFile (ms ms' : List (String × Json)) : Prop :=
  List.Forall₂ (fun e e' => e'.1 = e.1 ∧ ∃ b b', e'.2 = olderElem b b' e.2) ms ms'

/-- A field record that `load` can look at: a nonempty object that does not begin with a class version
and whose identifiers are not zero.  (Numbers and strings are fine, they are rejected.) -/
def Readable : Json → Prop
  | .obj [] => False
  | .obj (e :: m) => e.1 ≠ "cereal_class_version" ∧ ∀ a ∈ e :: m, ∀ z, a.2 = .num z → z ≠ 0
  | .arr _ => False
  | _ => True

end EAntic.Cxx
