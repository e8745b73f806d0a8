import Verif.Symb.Spec
import Verif.Symb.Problem

/-!
# What the problem classes should represent
-/

namespace Dedalus.Symb

variable {K X : Type} [Field K]

/-- Every operator of class `c` in the tree satisfies `Q`. -/
def ClsOps (c : Nat) (Q : Op → Prop) : Expr K → Prop
  | .add a b => ClsOps c Q a ∧ ClsOps c Q b
  | .prod _ a b => ClsOps c Q a ∧ ClsOps c Q b
  | .lin o a => (o.cls = c → Q o) ∧ ClsOps c Q a
  | .un _ a => ClsOps c Q a
  | .pow a _ => ClsOps c Q a
  | _ => True

/-- Every time derivative in the tree is the operator `dt`. -/
def DtOps (e : Expr K) : Prop := ClsOps 0 (· = dtOp) e

/-- In every product, a factor that mentions no variable has no time derivative. -/
def CoeffFree (V : List Nat) : Expr K → Prop
  | .add a b => CoeffFree V a ∧ CoeffFree V b
  | .prod _ a b => CoeffFree V a ∧ CoeffFree V b ∧
      ((∀ i ∈ V, ¬ Mentions (.fld i) a) → ¬ Mentions (.cls 0) a) ∧
      ((∀ i ∈ V, ¬ Mentions (.fld i) b) → ¬ Mentions (.cls 0) b)
  | .lin _ a => CoeffFree V a
  | .un _ a => CoeffFree V a
  | .pow a _ => CoeffFree V a
  | _ => True

/-- The same interpretation with the time derivative read as the linear map `T`. -/
def Sem.withDt (S : Sem K X) (T : (X → K) →ₗ[K] (X → K)) : Sem K X where
  bil := S.bil
  lin o s := if o = dtOp then T else S.lin o s
  un := S.un
  pw := S.pw
  mul_left := S.mul_left
  mul_right := S.mul_right
  annihilates := by
    intro o c h; rw [if_neg]; · exact S.annihilates o c h
    · rintro rfl; simp [dtOp] at h
  keeps := by
    intro o c h; rw [if_neg]; · exact S.keeps o c h
    · rintro rfl; simp [dtOp] at h
  passes := by
    intro o s h; rw [if_neg]; · exact S.passes o s h
    · rintro rfl; simp [dtOp] at h
  pow_zero := S.pow_zero
  pow_one := S.pow_one

/-- The interpretation of `dt` behaves as a time derivative, when the fields that are not variables do not
depend on time. Arrays are now indexed by time and position; the derivative of fields of signature `s` is
`S.lin dtOp s`. -/
structure TimeLike (S : Sem K X) (G : Nat → Sig) (V : List Nat) (env : Nat → X → K) : Prop where
  /-- fields that are not variables are constant in time -/
  stationary : ∀ i, i ∉ V → S.lin dtOp (G i) (env i) = 0
  const : ∀ s k, S.lin dtOp s (fun _ => k) = 0
  /-- spatial operators do not depend on time -/
  commutes : ∀ o s v, o ≠ dtOp → S.lin dtOp (o.outSig s) (S.lin o s v) = S.lin o s (S.lin dtOp s v)
  /-- product rule with a stationary factor -/
  prod_left : ∀ q s t c u, S.lin dtOp s c = 0 →
    S.lin dtOp (q.outSig s t) (S.bil q s t c u) = S.bil q s t c (S.lin dtOp t u)
  prod_right : ∀ q s t u c, S.lin dtOp t c = 0 →
    S.lin dtOp (q.outSig s t) (S.bil q s t u c) = S.bil q s t (S.lin dtOp s u) c
  /-- functions of stationary arguments are stationary -/
  fn : ∀ f s a, S.lin dtOp s a = 0 → S.lin dtOp s (fun x => S.un f (a x)) = 0
  pow : ∀ p s a, S.lin dtOp s a = 0 → S.lin dtOp s (fun x => S.pw (a x) p) = 0

/-- The time derivatives of the variables, with the other fields unchanged. -/
def rates (S : Sem K X) (G : Nat → Sig) (V : List Nat) (env : Nat → X → K) : Nat → X → K :=
  withVars V env (fun i => S.lin dtOp (G i) (env i))

end Dedalus.Symb
