import Verif.Eval.Model

/-!
# Specification of task evaluation
-/

namespace Dedalus.Eval

variable {F : Type}

mutual

/-- Operator number `n` always has the same argument list, `kids n`, which is not empty: two occurrences
of one object are the same expression. -/
def Shares (kids : Nat → List Expr) : Expr → Prop
  | .leaf _ => True
  | .node n ts => kids n = ts ∧ ts ≠ [] ∧ SharesAll kids ts

def SharesAll (kids : Nat → List Expr) : List Expr → Prop
  | [] => True
  | t :: ts => Shares kids t ∧ SharesAll kids ts

end

mutual

/-- `n` is the number of an operator of the expression. -/
def Uses (n : Nat) : Expr → Prop
  | .leaf _ => False
  | .node m ts => n = m ∨ UsesAny n ts

def UsesAny (n : Nat) : List Expr → Prop
  | [] => False
  | t :: ts => Uses n t ∨ UsesAny n ts

end

mutual

/-- `f` is a field of the expression. -/
def Reads (f : Nat) : Expr → Prop
  | .leaf g => f = g
  | .node _ ts => ReadsAny f ts

def ReadsAny (f : Nat) : List Expr → Prop
  | [] => False
  | t :: ts => Reads f t ∨ ReadsAny f ts

end

/-- What the evaluation relies on: scale changes and moves of fields that already have the dealias scales
keep them; operators write outputs with the dealias scales, in the common layout of their arguments;
moves lead from layout to layout, and going up one layout and down again is exact. Going down and up
again need not be exact (truncation). -/
structure Lawful (O : Ops F) : Prop where
  resc_idem : ∀ x, O.resc (O.resc x) = O.resc x
  resc_run : ∀ n vs, O.resc (O.run n vs) = O.run n vs
  resc_up : ∀ k x, O.resc x = x → O.resc (O.up k x) = O.up k x
  resc_dn : ∀ k x, O.resc x = x → O.resc (O.dn k x) = O.dn k x
  lay_up : ∀ k x, O.lay (O.up k x) = k + 1
  lay_dn : ∀ k x, O.lay (O.dn k x) = k
  lay_run : ∀ n vs k, vs ≠ [] → (∀ v ∈ vs, O.lay v = k) → O.chk n vs = true → O.lay (O.run n vs) = k
  dn_up : ∀ k x, O.resc x = x → O.lay x = k → O.dn k (O.up k x) = x

/-- Between evaluations: no argument is left replaced. -/
def Clean (st : St F) : Prop := ∀ n i, st.sub n i = false

/-- The evaluation id has not been used. -/
def Fresh (id : Nat) (st : St F) : Prop := ∀ n, st.lastId n ≠ some id

mutual

/-- Mathematical value of an expression, given the values of the fields and the operators. -/
def denote {W : Type} (sem : Nat → List W → W) (env : Nat → W) : Expr → W
  | .leaf f => env f
  | .node n ts => sem n (denoteAll sem env ts)

def denoteAll {W : Type} (sem : Nat → List W → W) (env : Nat → W) : List Expr → List W
  | [] => []
  | t :: ts => denote sem env t :: denoteAll sem env ts

end

end Dedalus.Eval
