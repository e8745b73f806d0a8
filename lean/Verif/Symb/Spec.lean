import Mathlib.Algebra.Module.LinearMap.Basic
import Mathlib.Algebra.Module.LinearMap.Defs
import Mathlib.Algebra.Algebra.Bilinear
import Mathlib.Algebra.Module.Pi
import Verif.Symb.Model

/-!
# Meaning of expressions

The value of an operand is an array of numbers of `K`, indexed by a set `X` (all components at all
points). A scalar is stored as an array that repeats its value over the components, so that scalar times
tensor and elementwise functions are pointwise.
-/

namespace Dedalus.Symb

/-- An interpretation of the operators: what products, linear operators, elementwise functions and
powers compute. The linear operators and the tensor products are arbitrary (bi)linear maps. -/
structure Sem (K X : Type) [Field K] where
  /-- products, given the signatures of the arguments -/
  bil : PKind → Sig → Sig → (X → K) →ₗ[K] (X → K) →ₗ[K] (X → K)
  /-- linear operators, given the signature of the argument -/
  lin : Op → Sig → (X → K) →ₗ[K] (X → K)
  un : UF → K → K
  pw : K → K → K
  /-- scalar times tensor and tensor times scalar are pointwise products -/
  mul_left : ∀ t a b, bil .mul [] t a b = fun x => a x * b x
  mul_right : ∀ s a b, bil .mul s [] a b = fun x => a x * b x
  /-- operators declared to annihilate numbers are zero on constants (derivatives) -/
  annihilates : ∀ o c, o.kind = .annihilates → lin o [] (fun _ => c) = 0
  /-- operators declared to keep numbers preserve constants (interpolation, average) -/
  keeps : ∀ o c, o.kind = .keeps → lin o [] (fun _ => c) = fun _ => c
  /-- conversion between bases does not change the function represented -/
  passes : ∀ o s, o.kind = .passes → lin o s = LinearMap.id
  pow_zero : ∀ a, pw a 0 = 1
  pow_one : ∀ a, pw a 1 = a

variable {K X : Type} [Field K]

/-- Value of an expression when field `i` has the value `env i`. A plain number counts as the constant
array. -/
def eval (S : Sem K X) (env : Nat → X → K) : Expr K → X → K
  | .num c => fun _ => c
  | .fld i _ => env i
  | .cst _ c => fun _ => c
  | .add a b => eval S env a + eval S env b
  | .prod p a b => S.bil p a.sig b.sig (eval S env a) (eval S env b)
  | .lin o a => S.lin o a.sig (eval S env a)
  | .un f a => fun x => S.un f (eval S env a x)
  | .pow a p => fun x => S.pw (eval S env a x) p

/-- Well-formed trees, when field `i` has signature `G i`: what the constructors of the code guarantee.
Both arguments of a sum are operands
of the same signature; a plain number occurs only as the first argument of a product with an operand;
linear operators, functions and powers are applied to operands. Conversions and operators that keep
numbers do not change the signature. -/
def WF (G : Nat → Sig) : Expr K → Prop
  | .num _ => False
  | .fld i s => s = G i
  | .cst _ _ => True
  | .add a b => WF G a ∧ WF G b ∧ a.sig = b.sig
  | .prod p (.num _) b => p = .mul ∧ WF G b
  | .prod p a b => WF G a ∧ WF G b ∧ p.fits a.sig b.sig = true
  | .lin o a => WF G a ∧ ((o.kind = .keeps ∨ o.kind = .passes) → o.rule = .same)
  | .un _ a => WF G a
  | .pow a _ => WF G a

/-- The expression mentions the variable: a field by its number, an operator class by an operator of
that class in the tree. -/
def Mentions (v : Var) : Expr K → Prop
  | .num _ => False
  | .fld i _ => v = .fld i
  | .cst _ _ => False
  | .add a b => Mentions v a ∨ Mentions v b
  | .prod _ a b => Mentions v a ∨ Mentions v b
  | .lin o a => v = .cls o.cls ∨ Mentions v a
  | .un _ a => Mentions v a
  | .pow a _ => Mentions v a

/-- Terms of a sum; the number zero has no terms. -/
def terms [DecidableEq K] : Expr K → List (Expr K)
  | .add a b => terms a ++ terms b
  | .num c => if c = 0 then [] else [.num c]
  | e => [e]

/-- Replace the value of one field. -/
def setVal (env : Nat → X → K) (x : Nat) (v : X → K) : Nat → X → K :=
  fun i => if i = x then v else env i

/-- The value in an environment where the fields in `vars` have the values `u` and the other fields the
values `env`. -/
def withVars (vars : List Nat) (env u : Nat → X → K) : Nat → X → K :=
  fun i => if i ∈ vars then u i else env i

end Dedalus.Symb
