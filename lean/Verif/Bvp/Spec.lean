import Verif.Bvp.Model

/-!
# Specification for C46
-/

namespace Dedalus.Bvp

open Subsys

variable {K : Type} [Field K]

/-- A matrix solver is exact: if it accepts a square matrix, every right-hand side is solved. -/
def Exact (ms : Matsolver K) : Prop :=
  ∀ A s, ms A = some s → (∀ r ∈ A, r.length = A.length) → ∀ b, b.length = A.length →
    (s b).length = A.length ∧ A.map (fun r => dot r (s b)) = b

/-- The layout of a subproblem is sound: every subsystem's columns have the sizes of the matrices, name no entry
twice, different subsystems share no entry, and the kept rows and columns are distinct and in range
(`Subsys.column_nodup`, `Subsys.subsystems_disjoint`, `Perm.precond_nodup`). -/
structure Sp.Ok (sp : Sp) : Prop where
  inLen : ∀ c ∈ sp.inputs, c.length = sp.nVar
  outLen : ∀ c ∈ sp.outputs, c.length = sp.nEq
  count : sp.outputs.length = sp.inputs.length
  inNodup : ∀ c ∈ sp.inputs, c.Nodup
  inDisjoint : sp.inputs.Pairwise List.Disjoint
  varNodup : sp.srcVar.Nodup
  varLt : ∀ j ∈ sp.srcVar, j < sp.nVar
  eqNodup : sp.srcEq.Nodup
  eqLt : ∀ i ∈ sp.srcEq, i < sp.nEq

/-- Different subproblems share no entry of the state. -/
def Separate (sps : List Sp) : Prop :=
  sps.Pairwise fun p q => ∀ c ∈ p.inputs, ∀ d ∈ q.inputs, List.Disjoint c d

/-- The equations `A x = f` of one subsystem hold in every valid row, for the unknowns `x` read from the state at the
addresses `ins` and the right-hand side read at `outs`; the unknowns that are no valid modes are zero. -/
def Holds (sp : Sp) (A : Nat → Nat → K) (X F : Store K) (ins outs : List Addr) : Prop :=
  (∀ i ∈ sp.srcEq, ∀ b, outs[i]? = some b →
    ((ins.zipIdx).map fun (a, j) => A i j * X a).sum = F b) ∧
  (∀ j, j ∉ sp.srcVar → ∀ a, ins[j]? = some a → X a = 0)

/-- The equations of all subsystems of a subproblem hold. -/
def Sp.Solved (sp : Sp) (A : Nat → Nat → K) (X F : Store K) : Prop :=
  ∀ (k : Nat) ins outs, sp.inputs[k]? = some ins → sp.outputs[k]? = some outs → Holds sp A X F ins outs

/-- The outside data at which the matrices of subproblem `n` were last built: the latest call that asked for a
rebuild of it, or else the first call that solved it. Latest call first. -/
def builtAt {W : Type} (n : Nat) : List (Call W) → Option W
  | [] => none
  | c :: older =>
    if n ∈ c.sel then
      if c.rebuild then some c.w
      else match builtAt n older with
        | some w => some w
        | none => some c.w
    else builtAt n older

end Dedalus.Bvp
