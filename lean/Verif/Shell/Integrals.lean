import Verif.Shell.Expand

namespace Dedalus.Shell

open Jacobi Jacobi.Spec Spec

theorem rho_gt (rin rout : ℝ) (h0 : 0 < rin) (h1 : rin < rout) : 1 < (rout + rin) / (rout - rin) := by
  rw [lt_div_iff₀ (by linarith)]
  linarith

theorem legendre_exact (n : Nat) (hn : 0 < n) (g : Nat → ℝ) (hg : GridGuess n 0 0 g) (p : Polynomial ℝ) (hp : p.natDegree ≤ 2 * n - 1) :
    ∑ i ∈ Finset.range n, (quadrature n 0 0 g i).2 * p.eval (quadrature n 0 0 g i).1 = ∫ z in (-1 : ℝ)..1, p.eval z := by
  rw [quadrature_exact n hn 0 0 (by norm_num) (by norm_num) g hg p hp]
  simp only [Real.rpow_zero, one_mul]

theorem quad_node (n : Nat) (hn : 0 < n) (a b : ℝ) (ha : -1 < a) (hb : -1 < b) (g : Nat → ℝ) (hg : GridGuess n a b g) (i : Nat) (hi : i < n) :
    (-1 < (quadrature n a b g i).1 ∧ (quadrature n a b g i).1 < 1) ∧ Q n a b (quadrature n a b g i).1 = 0 := by
  have hr := guess_roots n a b ha hb hn g hg
  rw [quadrature_gauss n a b g i ha hb hr hi]
  exact ⟨node_interior n a b g ha hb hr i hi, hr.1 i hi⟩

theorem inverse_continuous (rho : ℝ) (h : 1 < rho) (f : ℝ → ℝ) (hf : Continuous f) : IntervalIntegrable (fun z => f z / (z + rho)) MeasureTheory.volume (-1) 1 := by
  apply ContinuousOn.intervalIntegrable
  rw [Set.uIcc_of_le (by norm_num)]
  apply ContinuousOn.div hf.continuousOn (by fun_prop)
  intro z hz
  have := hz.1
  linarith

/-- the Gauss-Legendre quadrature of `1 / (z + rho)` is too small -/
theorem quad_inverse (rho : ℝ) (h : 1 < rho) (n : Nat) (hn : 0 < n) (g : Nat → ℝ) (hg : GridGuess n 0 0 g) :
    ∑ i ∈ Finset.range n, (quadrature n 0 0 g i).2 * (1 / ((quadrature n 0 0 g i).1 + rho)) < ∫ z in (-1 : ℝ)..1, 1 / (z + rho) := by
  set y := Q n 0 0 (-rho)
  have hroot : (Polynomial.C (y ^ 2) - polyQ n 0 0 ^ 2).IsRoot (-rho) := by
    simp only [Polynomial.IsRoot, Polynomial.eval_sub, Polynomial.eval_C, Polynomial.eval_pow, polyQ_eval]
    exact sub_self _
  obtain ⟨q, hq⟩ := Polynomial.dvd_iff_isRoot.2 hroot
  have hqd : q.natDegree ≤ 2 * n - 1 := by
    by_cases h0 : q = 0
    · simp [h0]
    have h1 : (Polynomial.C (y ^ 2) - polyQ n 0 0 ^ 2).natDegree ≤ 2 * n := by
      refine (Polynomial.natDegree_sub_le _ _).trans (max_le (by simp) ?_)
      refine Polynomial.natDegree_pow_le.trans ?_
      have := polyQ_degree n 0 0
      omega
    rw [hq, Polynomial.natDegree_mul (Polynomial.X_sub_C_ne_zero _) h0, Polynomial.natDegree_X_sub_C] at h1
    omega
  have hev : ∀ z, y ^ 2 - Q n 0 0 z ^ 2 = (z + rho) * q.eval z := by
    intro z
    have := congrArg (Polynomial.eval z) hq
    simp only [Polynomial.eval_sub, Polynomial.eval_C, Polynomial.eval_pow, polyQ_eval, Polynomial.eval_mul, Polynomial.eval_X] at this
    rw [this]
    ring
  have hG := legendre_exact n hn g hg q hqd
  have hQc : Continuous (Q n 0 0) := Q_continuous n 0 0
  have i1 : IntervalIntegrable (fun z => y ^ 2 * (1 / (z + rho))) MeasureTheory.volume (-1) 1 :=
    (inverse_continuous rho h (fun _ => 1) continuous_const).const_mul _
  have i2 : IntervalIntegrable (fun z => Q n 0 0 z ^ 2 / (z + rho)) MeasureTheory.volume (-1) 1 := inverse_continuous rho h _ (hQc.pow 2)
  have hI : ∫ z in (-1 : ℝ)..1, q.eval z = y ^ 2 * (∫ z in (-1 : ℝ)..1, 1 / (z + rho)) - ∫ z in (-1 : ℝ)..1, Q n 0 0 z ^ 2 / (z + rho) := by
    rw [← intervalIntegral.integral_const_mul, ← intervalIntegral.integral_sub i1 i2]
    apply intervalIntegral.integral_congr
    intro z hz
    rw [Set.uIcc_of_le (by norm_num)] at hz
    have hz' : z + rho ≠ 0 := by have := hz.1; linarith
    have := hev z
    simp only
    field_simp
    linarith
  have hS : ∑ i ∈ Finset.range n, (quadrature n 0 0 g i).2 * q.eval (quadrature n 0 0 g i).1 =
      y ^ 2 * ∑ i ∈ Finset.range n, (quadrature n 0 0 g i).2 * (1 / ((quadrature n 0 0 g i).1 + rho)) := by
    rw [Finset.mul_sum]
    apply Finset.sum_congr rfl
    intro i hi
    obtain ⟨⟨hl, -⟩, h0⟩ := quad_node n hn 0 0 (by norm_num) (by norm_num) g hg i (Finset.mem_range.1 hi)
    have := hev (quadrature n 0 0 g i).1
    rw [h0] at this
    have hz' : (quadrature n 0 0 g i).1 + rho ≠ 0 := by linarith
    field_simp
    linear_combination -(quadrature n 0 0 g i).2 * this
  have hpos : 0 < ∫ z in (-1 : ℝ)..1, Q n 0 0 z ^ 2 / (z + rho) := by
    have h1 : ∫ z in (-1 : ℝ)..1, Q n 0 0 z ^ 2 = 1 := by
      have := Q_orthonormal n n 0 0 (by norm_num) (by norm_num)
      unfold integ at this
      rw [if_pos rfl] at this
      simp only [Real.rpow_zero, one_mul] at this
      refine Eq.trans ?_ this
      apply intervalIntegral.integral_congr
      intro z _
      simp only
      ring
    have h2 : ∫ z in (-1 : ℝ)..1, Q n 0 0 z ^ 2 / (1 + rho) ≤ ∫ z in (-1 : ℝ)..1, Q n 0 0 z ^ 2 / (z + rho) := by
      apply intervalIntegral.integral_mono_on (by norm_num) (((hQc.pow 2).div_const _).intervalIntegrable _ _) i2
      intro z hz
      exact div_le_div_of_nonneg_left (sq_nonneg _) (by linarith [hz.1]) (by linarith [hz.2])
    rw [intervalIntegral.integral_div, h1] at h2
    have : (0 : ℝ) < 1 / (1 + rho) := by positivity
    linarith
  rw [hS, hI] at hG
  have hy : 0 ≤ y ^ 2 := sq_nonneg y
  nlinarith [hG, hpos, hy]

theorem radius_pos (rin rout z : ℝ) (h0 : 0 < rin) (h1 : rin < rout) (hz : -1 ≤ z) : 0 < (rout - rin) / 2 * (z + (rout + rin) / (rout - rin)) := by
  have := rho_gt rin rout h0 h1
  have h2 : 0 < z + (rout + rin) / (rout - rin) := by linarith
  have h3 : 0 < (rout - rin) / 2 := by linarith
  positivity

theorem native_radius (rin rout z : ℝ) (h1 : rin < rout) : native rin rout ((rout - rin) / 2 * (z + (rout + rin) / (rout - rin))) = z := by
  have : rout - rin ≠ 0 := by linarith
  unfold native
  field_simp
  ring

theorem radius_native (rin rout r : ℝ) (h1 : rin < rout) : (rout - rin) / 2 * (native rin rout r + (rout + rin) / (rout - rin)) = r := by
  rw [native_rho rin rout r (by linarith)]
  have : rout - rin ≠ 0 := by linarith
  field_simp

/-- the integral of a basis function over the native interval -/
theorem phi_integral (rin rout : ℝ) (h1 : rin < rout) (alpha : ℝ × ℝ) (p k j : Nat) :
    ∫ r in rin..rout, r ^ p * phi rin rout alpha k j r = (rout - rin) / 2 * ∫ z in (-1 : ℝ)..1,
      ((rout - rin) / 2 * (z + (rout + rin) / (rout - rin))) ^ p *
        (((rout - rin) / ((rout - rin) / 2 * (z + (rout + rin) / (rout - rin)))) ^ k * Q j (alpha.1 + k) (alpha.2 + k) z) := by
  rw [← native_integral rin rout h1]
  apply intervalIntegral.integral_congr
  intro r _
  simp only
  rw [radius_native rin rout r h1]
  rfl

/-- the vector of the code at a node -/
theorem vector_eq (rin rout : ℝ) (h0 : 0 < rin) (h1 : rin < rout) (alpha : ℝ × ℝ) (ha : -1 < alpha.1) (hb : -1 < alpha.2) (p N k : Nat) (hN : 0 < N) (g : Nat → ℝ)
    (hg : GridGuess (2 * N) 0 0 g) (j : Nat) (hj : j < N) :
    integralVector rin rout alpha p N k g j = ∑ i ∈ Finset.range (2 * N), (quadrature (2 * N) 0 0 g i).2 *
      (((rout - rin) / 2 * ((quadrature (2 * N) 0 0 g i).1 + (rout + rin) / (rout - rin))) ^ p *
        (((rout - rin) / ((rout - rin) / 2 * ((quadrature (2 * N) 0 0 g i).1 + (rout + rin) / (rout - rin)))) ^ k *
          Q j (alpha.1 + k) (alpha.2 + k) (quadrature (2 * N) 0 0 g i).1)) := by
  unfold integralVector
  apply Finset.sum_congr rfl
  intro i hi
  have hk : (0 : ℝ) ≤ k := Nat.cast_nonneg k
  obtain ⟨⟨hl, -⟩, -⟩ := quad_node (2 * N) (by omega) 0 0 (by norm_num) (by norm_num) g hg i (Finset.mem_range.1 hi)
  have hr := (radius_pos rin rout _ h0 h1 hl.le).ne'
  simp only
  rw [polynomials_Q N _ _ _ (by linarith) (by linarith) j hj.le, zpow_neg, zpow_natCast, ← inv_pow, inv_div]
  ring

theorem vector_exact (rin rout : ℝ) (h0 : 0 < rin) (h1 : rin < rout) (alpha : ℝ × ℝ) (ha : -1 < alpha.1) (hb : -1 < alpha.2) (p N k : Nat) (hp : p ≤ 2) (hk : k ≤ p)
    (hN : 0 < N) (g : Nat → ℝ) (hg : GridGuess (2 * N) 0 0 g) (j : Nat) (hj : j < N) :
    integralVector rin rout alpha p N k g j * ((rout - rin) / 2) = ∫ r in rin..rout, r ^ p * phi rin rout alpha k j r := by
  rw [phi_integral rin rout h1, vector_eq rin rout h0 h1 alpha ha hb p N k hN g hg j hj, mul_comm]
  congr 1
  set W := rout - rin
  set rho := (rout + rin) / W
  set P : Polynomial ℝ := Polynomial.C (W ^ k) * ((Polynomial.C (W / 2) * (Polynomial.X + Polynomial.C rho)) ^ (p - k) * polyQ j (alpha.1 + k) (alpha.2 + k))
  have hP : P.natDegree ≤ 2 * (2 * N) - 1 := by
    refine (Polynomial.natDegree_C_mul_le _ _).trans (Polynomial.natDegree_mul_le.trans ?_)
    have e1 : ((Polynomial.C (W / 2) * (Polynomial.X + Polynomial.C rho)) ^ (p - k)).natDegree ≤ (p - k) * 1 :=
      Polynomial.natDegree_pow_le.trans (Nat.mul_le_mul_left _ ((Polynomial.natDegree_C_mul_le _ _).trans (Polynomial.natDegree_X_add_C rho).le))
    have e2 := polyQ_degree j (alpha.1 + k) (alpha.2 + k)
    omega
  have hE : ∀ z : ℝ, -1 ≤ z → P.eval z = (W / 2 * (z + rho)) ^ p * ((W / (W / 2 * (z + rho))) ^ k * Q j (alpha.1 + k) (alpha.2 + k) z) := by
    intro z hz
    have hr : W / 2 * (z + rho) ≠ 0 := (radius_pos rin rout z h0 h1 hz).ne'
    simp only [P, Polynomial.eval_mul, Polynomial.eval_C, Polynomial.eval_pow, Polynomial.eval_add, Polynomial.eval_X, polyQ_eval]
    generalize W / 2 * (z + rho) = r at hr ⊢
    obtain ⟨d, rfl⟩ := Nat.exists_eq_add_of_le hk
    rw [Nat.add_sub_cancel_left, pow_add, div_pow]
    field_simp
  have hG := legendre_exact (2 * N) (by omega) g hg P hP
  have hS : ∀ i ∈ Finset.range (2 * N), (quadrature (2 * N) 0 0 g i).2 * P.eval (quadrature (2 * N) 0 0 g i).1 = _ := fun i hi => by
    rw [hE _ (quad_node (2 * N) (by omega) 0 0 (by norm_num) (by norm_num) g hg i (Finset.mem_range.1 hi)).1.1.le]
  rw [Finset.sum_congr rfl hS] at hG
  rw [hG]
  apply intervalIntegral.integral_congr
  intro z hz
  rw [Set.uIcc_of_le (by norm_num)] at hz
  exact hE z hz.1

theorem vector_low (rin rout : ℝ) (h0 : 0 < rin) (h1 : rin < rout) (alpha : ℝ × ℝ) (ha : -1 < alpha.1) (hb : -1 < alpha.2) (p N : Nat)
    (hN : 0 < N) (g : Nat → ℝ) (hg : GridGuess (2 * N) 0 0 g) :
    integralVector rin rout alpha p N (p + 1) g 0 * ((rout - rin) / 2) < ∫ r in rin..rout, r ^ p * phi rin rout alpha (p + 1) 0 r := by
  rw [phi_integral rin rout h1, vector_eq rin rout h0 h1 alpha ha hb p N (p + 1) hN g hg 0 hN, mul_comm]
  have hW : 0 < rout - rin := by linarith
  have hk : (0 : ℝ) ≤ ((p + 1 : Nat) : ℝ) := Nat.cast_nonneg _
  have hrho := rho_gt rin rout h0 h1
  set W := rout - rin
  set rho := (rout + rin) / W
  have hq : ∀ z, Q 0 (alpha.1 + ((p + 1 : Nat) : ℝ)) (alpha.2 + ((p + 1 : Nat) : ℝ)) z = Q 0 (alpha.1 + ((p + 1 : Nat) : ℝ)) (alpha.2 + ((p + 1 : Nat) : ℝ)) 0 := by
    intro z; rw [Q, Q, P_zero, P_zero]
  have hq0 := Q_zero_pos (alpha.1 + ((p + 1 : Nat) : ℝ)) (alpha.2 + ((p + 1 : Nat) : ℝ)) 0 (by linarith) (by linarith)
  generalize Q 0 (alpha.1 + ((p + 1 : Nat) : ℝ)) (alpha.2 + ((p + 1 : Nat) : ℝ)) 0 = q at hq hq0
  have hE : ∀ z : ℝ, -1 ≤ z → (W / 2 * (z + rho)) ^ p * ((W / (W / 2 * (z + rho))) ^ (p + 1) * Q 0 (alpha.1 + ((p + 1 : Nat) : ℝ)) (alpha.2 + ((p + 1 : Nat) : ℝ)) z) =
      2 * W ^ p * q * (1 / (z + rho)) := by
    intro z hz
    have hr : W / 2 * (z + rho) ≠ 0 := (radius_pos rin rout z h0 h1 hz).ne'
    have hz' : z + rho ≠ 0 := by linarith
    rw [hq z, pow_succ, div_pow]
    have : W / (W / 2 * (z + rho)) = 2 / (z + rho) := by field_simp
    rw [this]
    field_simp
  have hS : ∑ i ∈ Finset.range (2 * N), (quadrature (2 * N) 0 0 g i).2 * ((W / 2 * ((quadrature (2 * N) 0 0 g i).1 + rho)) ^ p *
        ((W / (W / 2 * ((quadrature (2 * N) 0 0 g i).1 + rho))) ^ (p + 1) * Q 0 (alpha.1 + ((p + 1 : Nat) : ℝ)) (alpha.2 + ((p + 1 : Nat) : ℝ)) (quadrature (2 * N) 0 0 g i).1)) =
      2 * W ^ p * q * ∑ i ∈ Finset.range (2 * N), (quadrature (2 * N) 0 0 g i).2 * (1 / ((quadrature (2 * N) 0 0 g i).1 + rho)) := by
    rw [Finset.mul_sum]
    apply Finset.sum_congr rfl
    intro i hi
    rw [hE _ (quad_node (2 * N) (by omega) 0 0 (by norm_num) (by norm_num) g hg i (Finset.mem_range.1 hi)).1.1.le]
    ring
  have hI : ∫ z in (-1 : ℝ)..1, (W / 2 * (z + rho)) ^ p *
        ((W / (W / 2 * (z + rho))) ^ (p + 1) * Q 0 (alpha.1 + ((p + 1 : Nat) : ℝ)) (alpha.2 + ((p + 1 : Nat) : ℝ)) z) =
      2 * W ^ p * q * ∫ z in (-1 : ℝ)..1, 1 / (z + rho) := by
    rw [← intervalIntegral.integral_const_mul]
    apply intervalIntegral.integral_congr
    intro z hz
    rw [Set.uIcc_of_le (by norm_num)] at hz
    exact hE z hz.1
  rw [hS, hI]
  have := quad_inverse rho hrho (2 * N) (by omega) g hg
  exact mul_lt_mul_of_pos_left (mul_lt_mul_of_pos_left this (by positivity)) (by positivity)

/-- integrals of series -/
theorem radial_integral (rin rout : ℝ) (h0 : 0 < rin) (h1 : rin < rout) (alpha : ℝ × ℝ) (p N k : Nat) (c : Nat → ℂ) :
    ∫ r in rin..rout, ((r ^ p : ℝ) : ℂ) * radial rin rout alpha N k c r =
      ∑ j ∈ Finset.range N, ((∫ r in rin..rout, r ^ p * phi rin rout alpha k j r : ℝ) : ℂ) * c j := by
  have hc : ∀ j, ContinuousOn (fun r : ℝ => r ^ p * phi rin rout alpha k j r) (Set.uIcc rin rout) := by
    intro j
    rw [Set.uIcc_of_le h1.le]
    unfold phi native
    have hr : ∀ r ∈ Set.Icc rin rout, r ≠ 0 := fun r hr => by have := hr.1; linarith
    have hq := Q_continuous j (alpha.1 + k) (alpha.2 + k)
    have hd : ContinuousOn (fun r : ℝ => (rout - rin) / r) (Set.Icc rin rout) := continuousOn_const.div continuousOn_id hr
    exact (continuousOn_id.pow p).mul ((hd.pow k).mul (hq.comp_continuousOn (by fun_prop)))
  have hi : ∀ j ∈ Finset.range N, IntervalIntegrable (fun r : ℝ => ((r ^ p * phi rin rout alpha k j r : ℝ) : ℂ) * c j) MeasureTheory.volume rin rout := fun j _ =>
    ((Complex.continuous_ofReal.comp_continuousOn (hc j)).mul continuousOn_const).intervalIntegrable
  have e : ∀ r : ℝ, ((r ^ p : ℝ) : ℂ) * radial rin rout alpha N k c r = ∑ j ∈ Finset.range N, ((r ^ p * phi rin rout alpha k j r : ℝ) : ℂ) * c j := by
    intro r
    rw [radial_phi, Finset.mul_sum]
    apply Finset.sum_congr rfl
    intro j _
    push_cast
    ring
  simp only [e]
  rw [intervalIntegral.integral_finset_sum hi]
  apply Finset.sum_congr rfl
  intro j _
  rw [intervalIntegral.integral_mul_const, intervalIntegral.integral_ofReal]

end Dedalus.Shell
