import Mathlib.Algebra.Module.LinearMap.Basic
import Mathlib.Algebra.Algebra.Bilinear
import Mathlib.Algebra.Module.Pi
import Verif.Mats.Model

/-!
# Meaning in coefficient space

The data of an operand are its coefficients, indexed by a set `X` (components and modes, over all
subproblems). The subproblem holds some of them: coefficient number `i` of operand `e` in the subproblem is
the one with index `idx e i`.
-/

namespace Dedalus.Mats

open Dedalus.Symb

/-- What the operators do to coefficients. A linear operator may depend on its operand's domain, hence on the
operand expression; products are bilinear; everything else is arbitrary. -/
structure Sem (K X : Type) [Field K] where
  lin : Op → Expr K → (X → K) →ₗ[K] (X → K)
  bil : PKind → Expr K → Expr K → (X → K) →ₗ[K] (X → K) →ₗ[K] (X → K)
  un : UF → (X → K) → (X → K)
  pw : K → (X → K) → (X → K)
  const : Sig → K → (X → K)

variable {K X : Type} [Field K]

/-- Coefficients of an expression when field `i` has coefficients `env i`. -/
def eval (T : Sem K X) (env : Nat → X → K) : Expr K → X → K
  | .num _ => 0
  | .fld i _ => env i
  | .cst s c => T.const s c
  | .add a b => eval T env a + eval T env b
  | .prod .mul (.num c) b => c • eval T env b
  | .prod p a b => T.bil p a b (eval T env a) (eval T env b)
  | .lin o a => T.lin o a (eval T env a)
  | .un f a => T.un f (eval T env a)
  | .pow a p => T.pw p (eval T env a)

/-- The matrix `m` computes, from the subproblem's coefficients of `a`, the subproblem's coefficients of `out`
given by the linear map `f`. -/
structure Acts (S : Sub K) (idx : Expr K → Nat → X) (m : Mat K) (f : (X → K) →ₗ[K] (X → K)) (a out : Expr K) :
    Prop where
  rows : m.rows = S.size out
  cols : m.cols = S.size a
  act : ∀ (v : X → K) i, i < S.size out → f v (idx out i) = ∑ j ∈ Finset.range (S.size a), m.e i j * v (idx a j)

/-- What is assumed of the tree and of the operators' own matrices: terms of a sum live on the domain of the
sum (the constructors insert conversions), scaling by a number keeps the domain, each operator node's matrix
represents the operator (needed only when the node has data in the subproblem), and each coefficient's matrix
represents multiplication by the coefficient's value. -/
def Good [DecidableEq K] (S : Sub K) (idx : Expr K → Nat → X) (T : Sem K X) (env : Nat → X → K) : Expr K → Prop
  | .num _ => True
  | .fld _ _ => True
  | .cst _ _ => True
  | .add a b => Good S idx T env a ∧ Good S idx T env b ∧ S.size a = S.size (.add a b) ∧ S.size b = S.size (.add a b) ∧
      (∀ i, i < S.size (.add a b) → idx a i = idx (.add a b) i ∧ idx b i = idx (.add a b) i)
  | .prod .mul (.num c) b => Good S idx T env b ∧ S.size b = S.size (.prod .mul (.num c) b) ∧
      (∀ i, i < S.size b → idx (.prod .mul (.num c) b) i = idx b i)
  | .prod p a b => Good S idx T env a ∧ Good S idx T env b ∧
      (∀ m, S.nccMat p b a false = some m → Acts S idx m ((T.bil p a b).flip (eval T env b)) a (.prod p a b)) ∧
      (∀ m, S.nccMat p a b true = some m → Acts S idx m (T.bil p a b (eval T env a)) b (.prod p a b))
  | .lin o a => Good S idx T env a ∧
      (S.size (.lin o a) ≠ 0 → ∀ m, S.opMat o a = some m → Acts S idx m (T.lin o a) a (.lin o a))
  | .un _ _ => True
  | .pow _ _ => True

end Dedalus.Mats
