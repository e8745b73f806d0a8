import Mathlib.Analysis.SpecialFunctions.Pow.Deriv
import Mathlib.Analysis.SpecialFunctions.Trigonometric.ArctanDeriv
import Mathlib.Analysis.SpecialFunctions.Trigonometric.InverseDeriv
import Mathlib.Analysis.Calculus.Deriv.Abs
import Mathlib.MeasureTheory.Integral.IntervalIntegral.FundThmCalculus
import Mathlib.Analysis.Normed.Module.FiniteDimension
import Verif.Symb.DerivSpec
import Verif.Symb.Linear

/-! Helper lemmas for symbolic differentiation. -/

namespace Dedalus.Symb

open Real

/-- The values the derivative table should give. -/
noncomputable def fnDeriv : UF → ℝ → ℝ
  | .absolute, x => (SignType.sign x : ℝ)
  | .sign, _ => 0
  | .exp, x => Real.exp x
  | .exp2, x => 2 ^ x * Real.log 2
  | .log, x => x ^ (-1 : ℝ)
  | .log2, x => (x * Real.log 2) ^ (-1 : ℝ)
  | .log10, x => (x * Real.log 10) ^ (-1 : ℝ)
  | .sqrt, x => (1 / 2) * x ^ (-1 / 2 : ℝ)
  | .square, x => 2 * x
  | .sin, x => Real.cos x
  | .cos, x => -1 * Real.sin x
  | .tan, x => Real.cos x ^ (-2 : ℝ)
  | .arcsin, x => (1 + -1 * x ^ (2 : ℝ)) ^ (-1 / 2 : ℝ)
  | .arccos, x => -1 * (1 + -1 * x ^ (2 : ℝ)) ^ (-1 / 2 : ℝ)
  | .arctan, x => (1 + x ^ (2 : ℝ)) ^ (-1 : ℝ)
  | .sinh, x => Real.cosh x
  | .cosh, x => Real.sinh x
  | .tanh, x => 1 + -1 * Real.tanh x ^ (2 : ℝ)
  | .arcsinh, x => (x ^ (2 : ℝ) + 1) ^ (-1 / 2 : ℝ)
  | .arccosh, x => (x ^ (2 : ℝ) + -1) ^ (-1 / 2 : ℝ)
  | .arctanh, x => (1 + -1 * x ^ (2 : ℝ)) ^ (-1 : ℝ)
  | .erf, x => 2 * Real.pi ^ (-1 / 2 : ℝ) * Real.exp (-1 * x ^ (2 : ℝ))
  | .user _, _ => 0

theorem rsqrt_eq {y : ℝ} (hy : 0 ≤ y) : y ^ (-1 / 2 : ℝ) = (√y)⁻¹ := by
  rw [show (-1 / 2 : ℝ) = -(1 / 2) by norm_num, Real.rpow_neg hy, Real.sqrt_eq_rpow]

theorem hasDerivAt_fn {f : UF} (hf : ∀ n, f ≠ .user n) {x : ℝ} (hx : fnDom f x) :
    HasDerivAt (realFn f) (fnDeriv f x) x := by
  have two : ∀ y : ℝ, y ^ (2 : ℝ) = y ^ 2 := fun y => by
    rw [show (2 : ℝ) = ((2 : ℕ) : ℝ) by norm_num, Real.rpow_natCast]
  cases f with
  | absolute => exact hasDerivAt_abs hx
  | sign =>
    simp only [fnDom] at hx
    have : realFn .sign =ᶠ[nhds x] fun _ => (SignType.sign x : ℝ) := by
      rcases lt_or_gt_of_ne hx with h | h
      · filter_upwards [Iio_mem_nhds h] with y hy
        simp [realFn, sign_neg (Set.mem_Iio.1 hy), sign_neg h]
      · filter_upwards [Ioi_mem_nhds h] with y hy
        simp [realFn, sign_pos (Set.mem_Ioi.1 hy), sign_pos h]
    exact (hasDerivAt_const x _).congr_of_eventuallyEq this
  | exp => exact Real.hasDerivAt_exp x
  | exp2 =>
    have h := (hasDerivAt_id x).const_rpow (a := 2) (by norm_num : (0 : ℝ) < 2)
    simpa [fnDeriv, mul_comm, mul_assoc, mul_left_comm] using! h
  | log =>
    simp only [fnDom] at hx
    have h := Real.hasDerivAt_log hx.ne'
    simpa [fnDeriv, Real.rpow_neg_one] using! h
  | log2 =>
    simp only [fnDom] at hx
    have h := (Real.hasDerivAt_log hx.ne').div_const (Real.log 2)
    have e : fnDeriv .log2 x = x⁻¹ / Real.log 2 := by
      simp only [fnDeriv, Real.rpow_neg_one, mul_inv, div_eq_mul_inv]
    rw [e]; exact h
  | log10 =>
    simp only [fnDom] at hx
    have h := (Real.hasDerivAt_log hx.ne').div_const (Real.log 10)
    have e : fnDeriv .log10 x = x⁻¹ / Real.log 10 := by
      simp only [fnDeriv, Real.rpow_neg_one, mul_inv, div_eq_mul_inv]
    rw [e]; exact h
  | sqrt =>
    simp only [fnDom] at hx
    have h := Real.hasDerivAt_sqrt hx.ne'
    have e : fnDeriv .sqrt x = 1 / (2 * √x) := by
      simp only [fnDeriv, rsqrt_eq hx.le]; rw [one_div, one_div, mul_inv]
    rw [e]; exact h
  | square =>
    have h := (hasDerivAt_id x).mul (hasDerivAt_id x)
    have e : fnDeriv .square x = 1 * id x + id x * 1 := by simp [fnDeriv]; ring
    rw [e]; exact h
  | sin => exact Real.hasDerivAt_sin x
  | cos => simpa [fnDeriv] using! Real.hasDerivAt_cos x
  | tan =>
    simp only [fnDom] at hx
    have h := Real.hasDerivAt_tan hx
    have e : fnDeriv .tan x = 1 / Real.cos x ^ 2 := by
      simp only [fnDeriv]
      rw [show (-2 : ℝ) = ((-2 : ℤ) : ℝ) by norm_num, Real.rpow_intCast, zpow_neg, one_div]
      norm_cast
    rw [e]; exact h
  | arcsin =>
    simp only [fnDom] at hx
    have h := Real.hasDerivAt_arcsin (x := x) (by linarith [hx.1]) (by linarith [hx.2])
    have e : fnDeriv .arcsin x = 1 / √(1 - x ^ 2) := by
      simp only [fnDeriv, two]
      rw [rsqrt_eq (by nlinarith), one_div]; congr 2; ring
    rw [e]; exact h
  | arccos =>
    simp only [fnDom] at hx
    have h := Real.hasDerivAt_arccos (x := x) (by linarith [hx.1]) (by linarith [hx.2])
    have e : fnDeriv .arccos x = -(1 / √(1 - x ^ 2)) := by
      simp only [fnDeriv, two]
      rw [rsqrt_eq (by nlinarith), one_div, neg_one_mul]; congr 3; ring
    rw [e]; exact h
  | arctan =>
    have h := Real.hasDerivAt_arctan' x
    simpa [fnDeriv, Real.rpow_neg_one] using! h
  | sinh => exact Real.hasDerivAt_sinh x
  | cosh => exact Real.hasDerivAt_cosh x
  | tanh =>
    have hc : Real.cosh x ≠ 0 := (Real.cosh_pos x).ne'
    have h := (Real.hasDerivAt_sinh x).div (Real.hasDerivAt_cosh x) hc
    have ef : realFn .tanh = fun x => Real.sinh x / Real.cosh x := by
      funext y; simp [realFn, Real.tanh_eq_sinh_div_cosh]
    rw [ef]
    have e : fnDeriv .tanh x = (Real.cosh x * Real.cosh x - Real.sinh x * Real.sinh x) / Real.cosh x ^ 2 := by
      simp only [fnDeriv, two, Real.tanh_eq_sinh_div_cosh]
      field_simp; ring
    rw [e]; exact h
  | arcsinh =>
    have h := Real.hasDerivAt_arsinh x
    have e : fnDeriv .arcsinh x = (√(1 + x ^ 2))⁻¹ := by
      simp only [fnDeriv, two]; rw [rsqrt_eq (by positivity), add_comm]
    rw [e]; exact h
  | arccosh =>
    simp only [fnDom] at hx
    have h := Real.hasDerivAt_arcosh (x := x) hx
    have e : fnDeriv .arccosh x = (√(x ^ 2 - 1))⁻¹ := by
      simp only [fnDeriv, two]; rw [rsqrt_eq (by nlinarith), sub_eq_add_neg]
    rw [e]; exact h
  | arctanh =>
    simp only [fnDom] at hx
    have h1 : 0 < 1 + x := by linarith [hx.1]
    have h2 : 0 < 1 - x := by linarith [hx.2]
    have hd : HasDerivAt (fun y : ℝ => 1 / 2 * (Real.log (1 + y) - Real.log (1 - y)))
        (1 / 2 * (1 / (1 + x) - -1 / (1 - x))) x := by
      have a := ((hasDerivAt_id x).const_add 1).log h1.ne'
      have b := ((hasDerivAt_id x).const_sub 1).log h2.ne'
      exact (a.sub b).const_mul _
    have ev : realFn .arctanh =ᶠ[nhds x] fun y : ℝ => 1 / 2 * (Real.log (1 + y) - Real.log (1 - y)) := by
      filter_upwards [Ioo_mem_nhds hx.1 hx.2] with y hy
      have y1 : 0 < 1 + y := by linarith [hy.1]
      have y2 : 0 < 1 - y := by linarith [hy.2]
      simp only [realFn]
      rw [Real.artanh_eq_half_log ⟨hy.1.le, hy.2.le⟩, Real.log_div y1.ne' y2.ne']
    have e : fnDeriv .arctanh x = 1 / 2 * (1 / (1 + x) - -1 / (1 - x)) := by
      simp only [fnDeriv, two, Real.rpow_neg_one]
      rw [show (1 + -1 * x ^ 2) = (1 + x) * (1 - x) by ring]
      field_simp; ring
    rw [e]; exact hd.congr_of_eventuallyEq ev
  | erf =>
    have hc : Continuous fun t : ℝ => Real.exp (-t ^ 2) := by fun_prop
    have h := (intervalIntegral.integral_hasDerivAt_right (hc.intervalIntegrable 0 x)
      (hc.stronglyMeasurableAtFilter _ _) hc.continuousAt).const_mul (2 / √π)
    have e : fnDeriv .erf x = 2 / √π * Real.exp (-x ^ 2) := by
      simp only [fnDeriv, two, rsqrt_eq Real.pi_pos.le]
      rw [neg_one_mul, div_eq_mul_inv]
    rw [e]; exact h
  | user n => exact absurd rfl (hf n)

/-! ### The table -/

variable {X : Type}

theorem mkMul_scalar {G : Nat → Sig} (S : Sem ℝ X) (env : Nat → X → ℝ) {a b r : Expr ℝ}
    (ha : Ty G [] a) (hb : Ty G [] b) (h : mkMul a b = some r) :
    Ty G [] r ∧ eval S env r = fun x => eval S env a x * eval S env b x := by
  obtain ⟨r', e, t⟩ := mkMul_ty ha hb
  obtain rfl : r' = r := Option.some.inj (e.symm.trans h)
  exact ⟨t, by rw [mkMul_eval S env h, bil_ty S env ha hb, S.mul_left]⟩

theorem mkAdd_scalar {G : Nat → Sig} (S : Sem ℝ X) (env : Nat → X → ℝ) {s : Sig} {a b r : Expr ℝ}
    (ha : Ty G s a) (hb : Ty G s b) (h : mkAdd a b = some r) :
    Ty G s r ∧ eval S env r = fun x => eval S env a x + eval S env b x := by
  obtain ⟨r', e, t⟩ := mkAdd_ty ha hb
  obtain rfl : r' = r := Option.some.inj (e.symm.trans h)
  exact ⟨t, mkAdd_eval S env h⟩

theorem pyPow_scalar {G : Nat → Sig} (S : Sem ℝ X) (env : Nat → X → ℝ) {a r : Expr ℝ} {k : ℝ}
    (ha : Ty G [] a) (h : pyPow a k = some r) :
    Ty G [] r ∧ eval S env r = fun x => S.pw (eval S env a x) k := by
  unfold pyPow at h
  split at h
  · rename_i hk; obtain rfl := Option.some.inj h
    exact ⟨Or.inr (Or.inl ⟨1, rfl, rfl⟩), by funext x; simp [eval, hk, S.pow_zero]⟩
  split at h
  · rename_i hk; obtain rfl := Option.some.inj h
    exact ⟨ha, by funext x; simp [hk, S.pow_one]⟩
  · obtain ⟨ho, rfl⟩ := newPow_eq h
    obtain ⟨w, s⟩ := ha.operand ho
    exact ⟨Or.inr (Or.inr ⟨w, s⟩), rfl⟩

theorem newUn_scalar {G : Nat → Sig} (S : Sem ℝ X) (env : Nat → X → ℝ) {a r : Expr ℝ} {f : UF}
    (ha : Ty G [] a) (h : newUn f a = some r) :
    Ty G [] r ∧ eval S env r = fun x => S.un f (eval S env a x) := by
  obtain ⟨ho, rfl⟩ := newUn_eq h
  obtain ⟨w, s⟩ := ha.operand ho
  exact ⟨Or.inr (Or.inr ⟨w, s⟩), rfl⟩

theorem num_ty {G : Nat → Sig} (c : ℝ) : Ty G [] (.num c : Expr ℝ) := Or.inr (Or.inl ⟨c, rfl, rfl⟩)

theorem deriv_spec {G : Nat → Sig} {S : Sem ℝ X} (hS : Analytic S) (env : Nat → X → ℝ) {f : UF}
    {a d : Expr ℝ} (ha : Ty G [] a) (h : deriv f a = some d) :
    Ty G [] d ∧ (eval S env d = fun x => fnDeriv f (eval S env a x)) ∧ ∀ n, f ≠ .user n := by
  have pw := hS.2
  cases f with
  | user n => simp [deriv] at h
  | absolute =>
    obtain ⟨t, e⟩ := newUn_scalar S env ha h
    exact ⟨t, by rw [e, hS.1 _ (by simp)]; rfl, by simp⟩
  | sign =>
    simp only [deriv, Option.some.injEq] at h; subst h
    exact ⟨Ty.zero, rfl, by simp⟩
  | exp =>
    obtain ⟨t, e⟩ := newUn_scalar S env ha h
    exact ⟨t, by rw [e, hS.1 _ (by simp)]; rfl, by simp⟩
  | exp2 =>
    simp only [deriv, Option.bind_eq_bind, Option.bind_eq_some_iff] at h
    obtain ⟨u, h1, h2⟩ := h
    obtain ⟨t1, e1⟩ := newUn_scalar S env ha h1
    obtain ⟨t2, e2⟩ := mkMul_scalar S env t1 (num_ty _) h2
    exact ⟨t2, by rw [e2, e1, hS.1 _ (by simp)]; rfl, by simp⟩
  | log =>
    obtain ⟨t, e⟩ := pyPow_scalar S env ha h
    exact ⟨t, by rw [e]; funext x; simp only [pw]; rfl, by simp⟩
  | log2 =>
    simp only [deriv, Option.bind_eq_bind, Option.bind_eq_some_iff] at h
    obtain ⟨u, h1, h2⟩ := h
    obtain ⟨t1, e1⟩ := mkMul_scalar S env ha (num_ty _) h1
    obtain ⟨t2, e2⟩ := pyPow_scalar S env t1 h2
    exact ⟨t2, by rw [e2, e1]; funext x; simp only [pw]; rfl, by simp⟩
  | log10 =>
    simp only [deriv, Option.bind_eq_bind, Option.bind_eq_some_iff] at h
    obtain ⟨u, h1, h2⟩ := h
    obtain ⟨t1, e1⟩ := mkMul_scalar S env ha (num_ty _) h1
    obtain ⟨t2, e2⟩ := pyPow_scalar S env t1 h2
    exact ⟨t2, by rw [e2, e1]; funext x; simp only [pw]; rfl, by simp⟩
  | sqrt =>
    simp only [deriv, Option.bind_eq_bind, Option.bind_eq_some_iff] at h
    obtain ⟨u, h1, h2⟩ := h
    obtain ⟨t1, e1⟩ := pyPow_scalar S env ha h1
    obtain ⟨t2, e2⟩ := mkMul_scalar S env (num_ty _) t1 h2
    exact ⟨t2, by rw [e2, e1]; funext x; simp only [pw]; rfl, by simp⟩
  | square =>
    obtain ⟨t, e⟩ := mkMul_scalar S env (num_ty _) ha h
    exact ⟨t, by rw [e]; rfl, by simp⟩
  | sin =>
    obtain ⟨t, e⟩ := newUn_scalar S env ha h
    exact ⟨t, by rw [e, hS.1 _ (by simp)]; rfl, by simp⟩
  | cos =>
    simp only [deriv, pyNeg, Option.bind_eq_bind, Option.bind_eq_some_iff] at h
    obtain ⟨u, h1, h2⟩ := h
    obtain ⟨t1, e1⟩ := newUn_scalar S env ha h1
    obtain ⟨t2, e2⟩ := mkMul_scalar S env (num_ty _) t1 h2
    exact ⟨t2, by rw [e2, e1, hS.1 _ (by simp)]; rfl, by simp⟩
  | tan =>
    simp only [deriv, Option.bind_eq_bind, Option.bind_eq_some_iff] at h
    obtain ⟨u, h1, h2⟩ := h
    obtain ⟨t1, e1⟩ := newUn_scalar S env ha h1
    obtain ⟨t2, e2⟩ := pyPow_scalar S env t1 h2
    exact ⟨t2, by rw [e2, e1, hS.1 _ (by simp)]; funext x; simp only [pw]; rfl, by simp⟩
  | arcsin =>
    simp only [deriv, pySub, pyNeg, Option.bind_eq_bind, Option.bind_eq_some_iff] at h
    obtain ⟨u, h1, v, ⟨w, h2, h3⟩, h4⟩ := h
    obtain ⟨t1, e1⟩ := pyPow_scalar S env ha h1
    obtain ⟨t2, e2⟩ := mkMul_scalar S env (num_ty _) t1 h2
    obtain ⟨t3, e3⟩ := mkAdd_scalar S env (num_ty _) t2 h3
    obtain ⟨t4, e4⟩ := pyPow_scalar S env t3 h4
    exact ⟨t4, by rw [e4, e3, e2, e1]; funext x; simp only [pw]; rfl, by simp⟩
  | arccos =>
    simp only [deriv, pySub, pyNeg, Option.bind_eq_bind, Option.bind_eq_some_iff] at h
    obtain ⟨u, h1, v, ⟨w, h2, h3⟩, q, h4, h5⟩ := h
    obtain ⟨t1, e1⟩ := pyPow_scalar S env ha h1
    obtain ⟨t2, e2⟩ := mkMul_scalar S env (num_ty _) t1 h2
    obtain ⟨t3, e3⟩ := mkAdd_scalar S env (num_ty _) t2 h3
    obtain ⟨t4, e4⟩ := pyPow_scalar S env t3 h4
    obtain ⟨t5, e5⟩ := mkMul_scalar S env (num_ty _) t4 h5
    exact ⟨t5, by rw [e5, e4, e3, e2, e1]; funext x; simp only [pw]; rfl, by simp⟩
  | arctan =>
    simp only [deriv, Option.bind_eq_bind, Option.bind_eq_some_iff] at h
    obtain ⟨u, h1, v, h2, h3⟩ := h
    obtain ⟨t1, e1⟩ := pyPow_scalar S env ha h1
    obtain ⟨t2, e2⟩ := mkAdd_scalar S env (num_ty _) t1 h2
    obtain ⟨t3, e3⟩ := pyPow_scalar S env t2 h3
    exact ⟨t3, by rw [e3, e2, e1]; funext x; simp only [pw]; rfl, by simp⟩
  | sinh =>
    obtain ⟨t, e⟩ := newUn_scalar S env ha h
    exact ⟨t, by rw [e, hS.1 _ (by simp)]; rfl, by simp⟩
  | cosh =>
    obtain ⟨t, e⟩ := newUn_scalar S env ha h
    exact ⟨t, by rw [e, hS.1 _ (by simp)]; rfl, by simp⟩
  | tanh =>
    simp only [deriv, pySub, pyNeg, Option.bind_eq_bind, Option.bind_eq_some_iff] at h
    obtain ⟨u, h1, v, h2, w, h3, h4⟩ := h
    obtain ⟨t1, e1⟩ := newUn_scalar S env ha h1
    obtain ⟨t2, e2⟩ := pyPow_scalar S env t1 h2
    obtain ⟨t3, e3⟩ := mkMul_scalar S env (num_ty _) t2 h3
    obtain ⟨t4, e4⟩ := mkAdd_scalar S env (num_ty _) t3 h4
    exact ⟨t4, by rw [e4, e3, e2, e1, hS.1 _ (by simp)]; funext x; simp only [pw]; rfl, by simp⟩
  | arcsinh =>
    simp only [deriv, Option.bind_eq_bind, Option.bind_eq_some_iff] at h
    obtain ⟨u, h1, v, h2, h3⟩ := h
    obtain ⟨t1, e1⟩ := pyPow_scalar S env ha h1
    obtain ⟨t2, e2⟩ := mkAdd_scalar S env t1 (num_ty _) h2
    obtain ⟨t3, e3⟩ := pyPow_scalar S env t2 h3
    exact ⟨t3, by rw [e3, e2, e1]; funext x; simp only [pw]; rfl, by simp⟩
  | arccosh =>
    simp only [deriv, Option.bind_eq_bind, Option.bind_eq_some_iff] at h
    obtain ⟨u, h1, v, h2, h3⟩ := h
    obtain ⟨t1, e1⟩ := pyPow_scalar S env ha h1
    obtain ⟨t2, e2⟩ := mkAdd_scalar S env t1 (num_ty _) h2
    obtain ⟨t3, e3⟩ := pyPow_scalar S env t2 h3
    exact ⟨t3, by rw [e3, e2, e1]; funext x; simp only [pw]; rfl, by simp⟩
  | arctanh =>
    simp only [deriv, pySub, pyNeg, Option.bind_eq_bind, Option.bind_eq_some_iff] at h
    obtain ⟨u, h1, v, ⟨w, h2, h3⟩, h4⟩ := h
    obtain ⟨t1, e1⟩ := pyPow_scalar S env ha h1
    obtain ⟨t2, e2⟩ := mkMul_scalar S env (num_ty _) t1 h2
    obtain ⟨t3, e3⟩ := mkAdd_scalar S env (num_ty _) t2 h3
    obtain ⟨t4, e4⟩ := pyPow_scalar S env t3 h4
    exact ⟨t4, by rw [e4, e3, e2, e1]; funext x; simp only [pw]; rfl, by simp⟩
  | erf =>
    simp only [deriv, pyNeg, Option.bind_eq_bind, Option.bind_eq_some_iff] at h
    obtain ⟨u, h1, v, h2, w, h3, h4⟩ := h
    obtain ⟨t1, e1⟩ := pyPow_scalar S env ha h1
    obtain ⟨t2, e2⟩ := mkMul_scalar S env (num_ty _) t1 h2
    obtain ⟨t3, e3⟩ := newUn_scalar S env t2 h3
    obtain ⟨t4, e4⟩ := mkMul_scalar S env (num_ty _) t3 h4
    exact ⟨t4, by rw [e4, e3, e2, e1, hS.1 _ (by simp)]; funext x; simp only [pw]; rfl, by simp⟩

/-! ### The tree -/

/-- Field values moved by `t` times the constant field `1` in field `x`. -/
def moved (env : Nat → X → ℝ) (x : Nat) (t : ℝ) : Nat → X → ℝ :=
  setVal env x (fun p => env x p + t)

theorem moved_zero (env : Nat → X → ℝ) (x : Nat) : moved env x 0 = env := by
  funext i p; unfold moved setVal; split
  · rename_i h; simp [h]
  · rfl

theorem linmap_hasDerivAt [Fintype X] (L : (X → ℝ) →ₗ[ℝ] (X → ℝ)) {f : ℝ → X → ℝ} {f' : X → ℝ} {t : ℝ}
    (h : HasDerivAt f f' t) : HasDerivAt (fun s => L (f s)) (L f') t := by
  have := (LinearMap.toContinuousLinearMap L).hasFDerivAt.comp_hasDerivAt t h
  exact this

theorem bilmap_hasDerivAt [Fintype X] (B : (X → ℝ) →ₗ[ℝ] (X → ℝ) →ₗ[ℝ] (X → ℝ)) {f g : ℝ → X → ℝ}
    {f' g' : X → ℝ} {t : ℝ} (hf : HasDerivAt f f' t) (hg : HasDerivAt g g' t) :
    HasDerivAt (fun s => B (f s) (g s)) (B f' (g t) + B (f t) g') t := by
  let C : (X → ℝ) →L[ℝ] (X → ℝ) →L[ℝ] (X → ℝ) :=
    LinearMap.toContinuousLinearMap
      ((LinearMap.toContinuousLinearMap : ((X → ℝ) →ₗ[ℝ] (X → ℝ)) ≃ₗ[ℝ] _).toLinearMap ∘ₗ B)
  have hC : ∀ a b, C a b = B a b := fun a b => rfl
  have h1 := C.hasFDerivAt.comp_hasDerivAt t hf
  have h2 := h1.clm_apply hg
  simpa [hC] using h2

theorem symDiff_spec [Fintype X] {G : Nat → Sig} {S : Sem ℝ X} (hS : Analytic S) (env : Nat → X → ℝ)
    {x : Nat} (hx : G x = []) {e d : Expr ℝ} (hw : WF G e) (hs : ScalarFns e)
    (hd : InDomain S env e) (h : symDiff x e = some d) :
    Ty G e.sig d ∧ HasDerivAt (fun t => eval S (moved env x t) e) (eval S env d) 0 := by
  induction e generalizing d with
  | num c => exact hw.elim
  | fld i s =>
    simp only [symDiff] at h
    split at h <;> obtain rfl := Option.some.inj h
    · rename_i hi; subst hi
      have : s = [] := by rw [← hx]; exact hw
      subst this
      refine ⟨num_ty 1, ?_⟩
      rw [hasDerivAt_pi]
      intro p
      simp only [eval, moved, setVal, if_true]
      exact (hasDerivAt_id (0 : ℝ)).const_add _
    · rename_i hi
      refine ⟨Ty.zero, ?_⟩
      simp only [eval, moved, setVal, hi, if_false]
      exact hasDerivAt_const _ _
  | cst s c =>
    obtain rfl := Option.some.inj h
    exact ⟨Ty.zero, hasDerivAt_const _ _⟩
  | add a b iha ihb =>
    obtain ⟨wa, wb, hab⟩ : WF G a ∧ WF G b ∧ a.sig = b.sig := hw
    simp only [symDiff, pySum_two, Option.bind_eq_bind, Option.bind_eq_some_iff] at h
    obtain ⟨a', ha, b', hb, h⟩ := h
    obtain ⟨ta, da⟩ := iha wa hs.1 hd.1 ha
    obtain ⟨tb, db⟩ := ihb wb hs.2 hd.2 hb
    rw [← hab] at tb
    obtain ⟨t, e⟩ := mkAdd_scalar S env ta tb h
    exact ⟨t, by rw [e]; exact da.add db⟩
  | prod p a b iha ihb =>
    obtain ⟨hwa, hwb, hf⟩ := wf_prod_args hw
    have gen : ∀ {a' t0 b' t1 : Expr ℝ}, WF G a → symDiff x a = some a' → newProd p a' b = some t0 →
        symDiff x b = some b' → newProd p a b' = some t1 → mkAdd t0 t1 = some d →
        Ty G (Expr.prod p a b).sig d ∧
          HasDerivAt (fun t => eval S (moved env x t) (.prod p a b)) (eval S env d) 0 := by
      intro a' t0 b' t1 wa ha h0 hb h1 h2
      obtain ⟨ta, da⟩ := iha wa hs.1 hd.1 ha
      obtain ⟨tb, db⟩ := ihb hwb hs.2 hd.2 hb
      obtain ⟨r0, q0, y0⟩ := newProd_ty ta (Ty.of_wf hwb) hf
      obtain rfl : r0 = t0 := Option.some.inj (q0.symm.trans h0)
      obtain ⟨r1, q1, y1⟩ := newProd_ty (Ty.of_wf wa) tb hf
      obtain rfl : r1 = t1 := Option.some.inj (q1.symm.trans h1)
      obtain ⟨t, e⟩ := mkAdd_scalar S env y0 y1 h2
      refine ⟨t, ?_⟩
      have := bilmap_hasDerivAt (S.bil p a.sig b.sig) da db
      rw [moved_zero] at this
      rw [e, newProd_eval S env h0, newProd_eval S env h1, bil_ty S env ta (Ty.of_wf hwb),
        bil_ty S env (Ty.of_wf wa) tb]
      exact this
    have gen' : WF G a → Ty G (Expr.prod p a b).sig d ∧
        HasDerivAt (fun t => eval S (moved env x t) (.prod p a b)) (eval S env d) 0 := by
      intro wa
      have hna : ∀ c, a ≠ .num c := by rintro c rfl; exact wa.elim
      have h' : (do
          let a' ← symDiff x a
          let t0 ← newProd p a' b
          let b' ← symDiff x b
          let t1 ← newProd p a b'
          pySum [t0, t1]) = some d := by
        rw [← h]
        cases p <;> cases a <;> first | rfl | exact absurd rfl (hna _)
      simp only [pySum_two, Option.bind_eq_bind, Option.bind_eq_some_iff] at h'
      obtain ⟨a', ha, t0, h0, b', hb, t1, h1, h2⟩ := h'
      exact gen wa ha h0 hb h1 h2
    rcases wf_prod.1 hw with ⟨c, rfl, rfl, _⟩ | ⟨wa, _, _⟩
    · simp only [symDiff, Option.bind_eq_bind, Option.bind_eq_some_iff] at h
      obtain ⟨b', hb, h⟩ := h
      obtain ⟨tb, db⟩ := ihb hwb hs.2 hd.2 hb
      obtain ⟨r, q, t⟩ := mkMul_ty (num_ty (G := G) c) tb
      obtain rfl : r = d := Option.some.inj (q.symm.trans h)
      refine ⟨t, ?_⟩
      rw [mkMul_eval S env h, bil_ty S env (num_ty (G := G) c) tb]
      exact linmap_hasDerivAt (S.bil .mul [] b.sig (fun _ => c)) db
    · exact gen' wa
  | lin o a iha =>
    obtain ⟨wa, ho⟩ : WF G a ∧ ((o.kind = .keeps ∨ o.kind = .passes) → o.rule = .same) := hw
    simp only [symDiff, Option.bind_eq_bind, Option.bind_eq_some_iff] at h
    obtain ⟨a', ha, h⟩ := h
    obtain ⟨ta, da⟩ := iha wa hs hd ha
    refine ⟨newLin_ty ta ho h, ?_⟩
    rw [newLin_eval S env h, lin_ty S env ta]
    exact linmap_hasDerivAt (S.lin o a.sig) da
  | un f a iha =>
    have wa : WF G a := hw
    simp only [symDiff, Option.bind_eq_bind, Option.bind_eq_some_iff] at h
    obtain ⟨g, hg, a', ha, h⟩ := h
    obtain ⟨ta, da⟩ := iha wa hs.1 hd.1 ha
    have tya : Ty G [] a := by rw [← hs.2]; exact Ty.of_wf wa
    rw [hs.2] at ta
    obtain ⟨tg, eg, nu⟩ := deriv_spec hS env tya hg
    obtain ⟨t, e⟩ := mkMul_scalar S env tg ta h
    refine ⟨by simpa [Expr.sig, hs.2] using t, ?_⟩
    rw [e, eg]
    rw [hasDerivAt_pi] at da ⊢
    intro p
    have h1 := hasDerivAt_fn nu (hd.2 p)
    have h2 := da p
    have h3 : HasDerivAt (realFn f) (fnDeriv f (eval S env a p)) (eval S (moved env x 0) a p) := by
      rw [moved_zero]; exact h1
    have := h3.comp (0 : ℝ) h2
    simp only [eval, hS.1 f nu]
    exact this
  | pow a k iha =>
    have wa : WF G a := hw
    simp only [symDiff, Option.bind_eq_bind, Option.bind_eq_some_iff] at h
    obtain ⟨q, hq, m, hm, a', ha, h⟩ := h
    obtain ⟨ta, da⟩ := iha wa hs.1 hd.1 ha
    have tya : Ty G [] a := by rw [← hs.2]; exact Ty.of_wf wa
    rw [hs.2] at ta
    obtain ⟨tq, eq⟩ := pyPow_scalar S env tya hq
    obtain ⟨tm, em⟩ := mkMul_scalar S env (num_ty _) tq hm
    obtain ⟨t, e⟩ := mkMul_scalar S env tm ta h
    refine ⟨by simpa [Expr.sig, hs.2] using t, ?_⟩
    rw [e, em, eq]
    rw [hasDerivAt_pi] at da ⊢
    intro p
    have hb : eval S env a p ≠ 0 ∨ 1 ≤ k := by
      rcases hd.2 p with h | ⟨_, h⟩
      · exact Or.inl h.ne'
      · exact h
    have h1 := Real.hasDerivAt_rpow_const hb
    have h2 := da p
    have h3 : HasDerivAt (fun y : ℝ => y ^ k) (k * eval S env a p ^ (k - 1)) (eval S (moved env x 0) a p) := by
      rw [moved_zero]; exact h1
    have := h3.comp (0 : ℝ) h2
    simp only [eval, hS.2]
    exact this

end Dedalus.Symb
