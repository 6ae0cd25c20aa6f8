import Verif.Model.Concurrent

/-!
# What a thread would get without other threads

The calls of a thread, executed one after the other by the program with one thread of
`Model/Fields.lean`, where every call is executed as a whole.
-/

namespace EAntic

/-- Refining the enclosure of a field does not change the number field. -/
def Env.KeepsNf {K : Nf} (E : Env K) : Prop := ∀ f p f', E.refine f p = .ok f' → f'.nf = f.nf

namespace Fields

/-- what a call returns (only calls of the C library return something here) -/
def answers (σ : State) : Op → List Ans
  | .work o op =>
    match σ.objs o with
    | some c =>
      match c.E.exec op c.mem with
      | .ok p => [p.1]
      | _ => []
    | none => []
  | _ => []

/-- One call after the other; with the answers, the last one first. -/
def runOut (bk : Dbl → ℕ) : State × List Ans → List Op → Res (State × List Ans)
  | s, [] => .ok s
  | s, op :: ops => (step bk s.1 op).bind fun σ => runOut bk (σ, answers s.1 op ++ s.2) ops

end Fields

namespace Concurrent

/-- the call that a step starts; addresses without the number of the thread -/
def Act.call : Act → Option Fields.Op
  | .make k E => some (.make k E)
  | .copy o => some (.copy o.2)
  | .release o => some (.release o.2)
  | .work o op => some (.work o.2 op)
  | .next => none

/-- the calls of thread `t` -/
def calls (as : List (ℕ × Act)) (t : ℕ) : List Fields.Op :=
  (as.filter fun a => a.1 = t).filterMap fun a => a.2.call

end Concurrent

end EAntic
