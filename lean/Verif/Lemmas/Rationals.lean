import Verif.Spec.Rationals
import Verif.Lemmas.Threads

/-!
# Fields of degree one are not refined
-/

namespace EAntic.Threaded

variable {K : Nf} {E : Threaded K} {I : Field → Prop} {W T : Set ℕ} {a b c : Reg}

open Code

theorem isRational_linear (hK : K.isLinear = true) (e : NfElem) : e.isRational K = true := by
  simp [NfElem.isRational, hK]

theorem plain_sgn (hK : K.isLinear = true) (ha : InT T a) : (E.sgn a).Confined I W T := by
  unfold sgn
  refine (confined_read ha).bind fun x => ?_
  rw [if_pos (isRational_linear hK _)]
  confine

theorem plain_cmp (hK : K.isLinear = true) (ha : InT T a) (hb : InT T b) :
    (E.cmp a b).Confined I W T := by
  unfold cmp
  refine (confined_read ha).bind fun x => (confined_read hb).bind fun y => ?_
  simp only [isRational_linear hK, Bool.and_self, if_true]
  confine
  · exact plain_sgn hK hb
  · exact plain_sgn hK ha

theorem plain_cmpQ (hK : K.isLinear = true) (ha : InT T a) (q : ℚ) (nd : Bool) :
    (E.cmpQ a q nd).Confined I W T := by
  unfold cmpQ
  refine (confined_read ha).bind fun x => ?_
  simp only [isRational_linear hK, if_true]
  confine
  exact plain_sgn hK ha

theorem plain_round (hK : K.isLinear = true) (ha : InT T a) (k : Env.Kind) :
    (E.round k a).Confined I W T := by
  unfold round
  refine (confined_read ha).bind fun x => ?_
  rw [if_pos (isRational_linear hK _)]
  confine

theorem plain_fdiv (hK : K.isLinear = true) (ha : InT T a) (hb : InT T b) :
    (E.fdiv a b).Confined I W T := by
  unfold fdiv
  refine (confined_read hb).bind fun x => ?_
  simp only [isRational_linear hK, Bool.not_true, Bool.false_eq_true, if_false]
  confine
  · exact confined_div inT_tmp inT_tmp ha hb
  · exact plain_round hK inT_tmp _

theorem plain_getCfrac (hK : K.isLinear = true) (ha : InT T a) (hw : InT W a) (hb : InT T b) (n : ℕ) :
    (E.getCfrac a b n).Confined I W T := by
  have key : ∀ n, (E.cfracLoop a n).Confined I W T := by
    intro n
    induction n with
    | zero => trivial
    | succ n ih =>
      unfold cfracLoop
      confine
      · exact plain_round hK ha _
      · exact confined_subZ ha hw ha _
      · exact confined_isZero ha
      · exact confined_inv ha hw ha
      · exact ih
  unfold getCfrac
  confine
  · exact confined_set ha hw hb
  · exact confined_isZero ha
  · exact key n

theorem plain_getD (hK : K.isLinear = true) (ha : InT T a) (r : Rnd) : (E.getD a r).Confined I W T := by
  unfold getD
  refine confined_field.bind fun f => (confined_read ha).bind fun x => ?_
  simp only [isRational_linear hK, if_true]
  confine

/-- What a call writes in a field of degree one: queries write nothing. -/
theorem plain_exec (hK : K.isLinear = true) (op : Op) (hop : op.Plain) (hW : ∀ a ∈ op.assignsTo, a ∈ W)
    (hT : ∀ a ∈ op.uses, a ∈ T) : (E.exec op).Confined I W T := by
  -- all calls that do not refine are as in any field
  by_cases h : (∃ a, op = .sgn a) ∨ (∃ a b, op = .cmp a b) ∨ (∃ a q, op = .cmpQ a q) ∨ (∃ a, op = .floor a) ∨
      (∃ a, op = .ceil a) ∨ (∃ a b, op = .fdiv a b) ∨ (∃ a r, op = .getD a r) ∨
      ∃ a b n, op = .getCfrac a b n
  · replace hW : ∀ a ∈ op.assignsTo, InT W (.user a) := hW
    replace hT : ∀ a ∈ op.uses, InT T (.user a) := hT
    rcases h with ⟨a, rfl⟩ | ⟨a, b, rfl⟩ | ⟨a, q, rfl⟩ | ⟨a, rfl⟩ | ⟨a, rfl⟩ | ⟨a, b, rfl⟩ | ⟨a, r, rfl⟩ |
      ⟨a, b, n, rfl⟩ <;>
      simp only [Op.assignsTo, Op.changes, Op.uses, List.mem_cons, List.not_mem_nil, or_false,
        forall_eq_or_imp, forall_eq] at hW hT <;> unfold exec
    · exact (plain_sgn hK hT).bind fun _ => trivial
    · exact (plain_cmp hK hT.1 hT.2).bind fun _ => trivial
    · exact (plain_cmpQ hK hT _ _).bind fun _ => trivial
    · exact (plain_round hK hT _).bind fun _ => trivial
    · exact (plain_round hK hT _).bind fun _ => trivial
    · exact (plain_fdiv hK hT.1 hT.2).bind fun _ => trivial
    · exact (plain_getD hK hT _).bind fun _ => trivial
    · exact (plain_getCfrac hK hT.1 hW hT.2 _).bind fun _ => trivial
  · replace hW : ∀ a ∈ op.assignsTo, InT W (.user a) := hW
    replace hT : ∀ a ∈ op.uses, InT T (.user a) := hT
    cases op <;> simp only [Op.assignsTo, Op.changes, Op.uses, List.mem_cons, List.not_mem_nil, or_false,
      forall_eq_or_imp, forall_eq] at hW hT <;> unfold exec
    case zero => exact (confined_zero hT hW).bind fun _ => trivial
    case one => exact (confined_one hT hW).bind fun _ => trivial
    case set => exact (confined_set hT.1 hW hT.2).bind fun _ => trivial
    case setZ => exact (confined_setZ hT hW _).bind fun _ => trivial
    case setQ => exact (confined_setQ hT hW _).bind fun _ => trivial
    case setPoly => exact confined_ite trivial ((confined_setPoly hT hW _ _).bind fun _ => trivial)
    case gen => exact (confined_gen hT hW).bind fun _ => trivial
    case swap => exact (confined_swap hT.1 hW.1 hT.2 hW.2).bind fun _ => trivial
    case neg => exact (confined_neg hT.1 hW hT.2).bind fun _ => trivial
    case add => exact (confined_add hT.1 hW hT.2.1 hT.2.2).bind fun _ => trivial
    case sub => exact (confined_sub hT.1 hW hT.2.1 hT.2.2).bind fun _ => trivial
    case mul => exact (confined_mul hT.1 hW hT.2.1 hT.2.2).bind fun _ => trivial
    case div => exact (confined_div hT.1 hW hT.2.1 hT.2.2).bind fun _ => trivial
    case inv => exact (confined_inv hT.1 hW hT.2).bind fun _ => trivial
    case pow => exact (confined_pow hT.1 hW hT.2 _).bind fun _ => trivial
    case addZ => exact (confined_addZ hT.1 hW hT.2 _).bind fun _ => trivial
    case subZ => exact (confined_subZ hT.1 hW hT.2 _).bind fun _ => trivial
    case mulZ => exact (confined_mulZ hT.1 hW hT.2 _).bind fun _ => trivial
    case divZ => exact (confined_divZ hT.1 hW hT.2 _).bind fun _ => trivial
    case addQ => exact (confined_addQ hT.1 hW hT.2 _).bind fun _ => trivial
    case subQ => exact (confined_subQ hT.1 hW hT.2 _).bind fun _ => trivial
    case qSub => exact (confined_qSub hT.1 hW hT.2 _).bind fun _ => trivial
    case mulQ => exact (confined_mulQ hT.1 hW hT.2 _).bind fun _ => trivial
    case divQ => exact (confined_divQ hT.1 hW hT.2 _).bind fun _ => trivial
    case qDiv => exact (confined_qDiv hT.1 hW hT.2 _).bind fun _ => trivial
    case refine => exact hop.elim
    case setEvaluation => exact (confined_setEvaluation hT hW _).bind fun _ => trivial
    case checkEmbedding => exact (confined_checkEmbedding hT _).bind fun _ => trivial
    case isZero => exact (confined_isZero hT).bind fun _ => trivial
    case isOne => exact (confined_isOne hT).bind fun _ => trivial
    case isInteger => exact (confined_isInteger hT).bind fun _ => trivial
    case isRational => exact (confined_isRational hT).bind fun _ => trivial
    case equal => exact (confined_equal hT.1 hT.2).bind fun _ => trivial
    case equalQ => exact (confined_equalQ hT _).bind fun _ => trivial
    case getArb => exact hop.elim
    all_goals exact absurd (by simp) h

theorem plain_run (hK : K.isLinear = true) (ops : List Op) (hops : ∀ op ∈ ops, op.Plain) :
    (E.run ops).Confined I {a | Assigns ops a} {a | Uses ops a} := by
  have key : ∀ (l : List Op), (∀ op ∈ l, op ∈ ops) →
      (E.run l).Confined I {a | Assigns ops a} {a | Uses ops a} := by
    intro l hl
    induction l with
    | nil => trivial
    | cons op l ih =>
      have h := hl op List.mem_cons_self
      have h1 : (E.exec op).Confined I {a | Assigns ops a} {a | Uses ops a} :=
        plain_exec hK op (hops op h) (fun a ha => ⟨op, h, ha⟩) (fun a ha => ⟨op, h, ha⟩)
      exact h1.bind fun _ =>
        (ih fun o ho => hl o (List.mem_cons_of_mem _ ho)).bind fun _ => trivial
  exact key ops fun _ h => h

theorem assigns_uses (ops : List Op) : {a | Assigns ops a} ⊆ {a | Uses ops a} := by
  rintro a ⟨op, h, ha⟩
  refine ⟨op, h, ?_⟩
  cases op <;> simp_all [Op.assignsTo, Op.changes, Op.uses]

end EAntic.Threaded
