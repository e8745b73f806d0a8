import Verif.Zernike.Transform
import Verif.Zernike.Ortho
import Verif.Sphere.Props
import Mathlib.Analysis.Calculus.Deriv.Add
import Mathlib.Analysis.Calculus.Deriv.Mul
import Mathlib.Analysis.Complex.RealDeriv

namespace Dedalus.Zernike

open Jacobi Jacobi.Spec Spec

/-! ## Derivatives of series -/

theorem radial_sum (dim N : Nat) (radius k : ℝ) (l : Nat) (A : Nat → Nat → ℝ) (c : Nat → ℂ) (r : ℝ) :
    radial dim N radius k l (apply N A c) r =
      ∑ n ∈ Finset.range N, ((∑ i ∈ Finset.range N, A i n * Z dim i k l (r / radius) : ℝ) : ℂ) * c n := by
  unfold radial apply
  simp only [Finset.mul_sum]
  rw [Finset.sum_comm]
  apply Finset.sum_congr rfl
  intro n _
  rw [Complex.ofReal_sum, Finset.sum_mul]
  apply Finset.sum_congr rfl
  intro i _
  push_cast
  ring

theorem radial_hasDeriv (dim N : Nat) (radius k : ℝ) (l : Nat) (c : Nat → ℂ) (r q : ℝ) (B : Nat → ℝ)
    (h : ∀ n, n < N → HasDerivAt (fun x => Z dim n k l (x / radius)) (q * Z dim n k l (r / radius) + B n) r) :
    HasDerivAt (radial dim N radius k l c) ((q : ℂ) * radial dim N radius k l c r + ∑ n ∈ Finset.range N, (B n : ℂ) * c n) r := by
  have h1 : HasDerivAt (fun x => ∑ n ∈ Finset.range N, (Z dim n k l (x / radius) : ℂ) * c n)
      (∑ n ∈ Finset.range N, ((q * Z dim n k l (r / radius) + B n : ℝ) : ℂ) * c n) r := by
    have := HasDerivAt.sum (u := Finset.range N) (A := fun n x => (Z dim n k l (x / radius) : ℂ) * c n)
      (A' := fun n => ((q * Z dim n k l (r / radius) + B n : ℝ) : ℂ) * c n) (x := r)
      (fun n hn => ((h n (Finset.mem_range.1 hn)).ofReal_comp).mul_const (c n))
    refine this.congr_of_eventuallyEq (Filter.Eventually.of_forall fun x => ?_)
    simp only [Finset.sum_apply]
  refine (h1.congr_deriv ?_)
  unfold radial
  rw [Finset.mul_sum, ← Finset.sum_add_distrib]
  apply Finset.sum_congr rfl
  intro n _
  push_cast
  ring

theorem radial_plus (dim N : Nat) (k : ℝ) (l : Nat) (radius r : ℝ) (hd : 0 < dim) (hk : -1 < k) (hR : radius ≠ 0) (hr : r ≠ 0) (c : Nat → ℂ) :
    HasDerivAt (radial dim N radius k l c)
      (((l / r : ℝ) : ℂ) * radial dim N radius k l c r + radial dim N radius (k + 1) (l + 1) (apply N (square dim (zD radius 1) N k l) c) r) r := by
  rw [radial_sum]
  exact radial_hasDeriv dim N radius k l c r _ _ fun n hn => Z_D_plus dim n N k l radius r hd hk hR hr hn

theorem radial_minus (dim N : Nat) (k : ℝ) (l : Nat) (radius r : ℝ) (hd : 2 ≤ dim) (hk : -1 < k) (hR : radius ≠ 0) (hr : r ≠ 0) (c : Nat → ℂ) :
    HasDerivAt (radial dim N radius k (l + 1) c)
      (((-((l : ℝ) + dim - 1) / r : ℝ) : ℂ) * radial dim N radius k (l + 1) c r +
        radial dim N radius (k + 1) l (apply N (square dim (zD radius (-1)) N k (l + 1 : Nat)) c) r) r := by
  rw [radial_sum]
  exact radial_hasDeriv dim N radius k (l + 1) c r _ _ fun n hn => Z_D_minus dim n N k l radius r hd hk hR hr hn

theorem radial_mul (dim N : Nat) (radius k : ℝ) (l : Nat) (q : ℝ) (A : Nat → Nat → ℝ) (c : Nat → ℂ) (r : ℝ) :
    radial dim N radius k l (apply N (fun i j => q * A i j) c) r = (q : ℂ) * radial dim N radius k l (apply N A c) r := by
  rw [radial_sum, radial_sum, Finset.mul_sum]
  apply Finset.sum_congr rfl
  intro n _
  simp only [mul_assoc, ← Finset.mul_sum]
  push_cast
  ring

theorem apply_apply (N : Nat) (A B : Nat → Nat → ℝ) (c : Nat → ℂ) (i : Nat) :
    apply N A (apply N B c) i = apply N (fun i j => ∑ t ∈ Finset.range N, A i t * B t j) c i := by
  unfold apply
  simp only [Finset.mul_sum]
  rw [Finset.sum_comm]
  apply Finset.sum_congr rfl
  intro j _
  rw [Complex.ofReal_sum, Finset.sum_mul]
  apply Finset.sum_congr rfl
  intro t _
  push_cast
  ring

theorem zD_plus_entry (radius : ℝ) (N : Nat) (a b : ℝ) (i j : Nat) : (zD radius 1).entry N a b i j = 2 / radius * opD.entry N a b i j := by
  simp [zD, smul]

theorem zD_minus_entry (radius : ℝ) (N : Nat) (a b : ℝ) (i j : Nat) : (zD radius (-1)).entry N a b i j = 2 / radius * opC.entry N a b i j := by
  simp [zD, smul]

/-- the two steps of the Laplacian, up first -/
theorem square_minus_plus (dim N : Nat) (radius k : ℝ) (l : Nat) (i j : Nat) (hi : i < N) :
    square dim ((zD radius (-1)).comp (zD radius 1)) N k l i j =
      ∑ t ∈ Finset.range N, square dim (zD radius (-1)) N (k + 1) (l + 1 : Nat) i t * square dim (zD radius 1) N k l t j := by
  have hb : bParam dim (l : Int) + 1 = bParam dim ((l + 1 : Nat) : Int) := by
    simp only [bParam]; push_cast; ring
  have r1 : (zD radius 1).rows N = N - 1 := by simp [zD, smul, opD]
  have r2 : ∀ n, (zD radius (-1)).rows n = n := fun n => by simp [zD, smul, opC]
  have d1 : (zD radius 1).da = 1 := by simp [zD, smul, opD]
  have d2 : (zD radius 1).db = 1 := by simp [zD, smul, opD]
  unfold square at_
  simp only [Op.comp, r1, r2, d1, d2, hb, zD_plus_entry, zD_minus_entry, if_pos hi, Int.cast_one]
  by_cases h : i < N - 1
  · rw [if_pos h]
    apply Finset.sum_subset_zero_on_sdiff
    · intro x hx; simp at *; omega
    · intro x hx
      simp at hx
      rw [if_neg (by omega), mul_zero]
    · intro x hx
      rw [if_pos (Finset.mem_range.1 hx)]
      rfl
  · rw [if_neg h]
    symm
    apply Finset.sum_eq_zero
    intro t _
    by_cases ht : t < N - 1
    · have : opC.entry N (k + 1) (bParam dim ((l + 1 : Nat) : Int)) i t = 0 := by
        simp only [opC]; rw [if_neg (by omega)]
      rw [this]; ring
    · rw [if_neg ht, mul_zero]

/-- the two steps of the Laplacian, down first -/
theorem square_plus_minus (dim N : Nat) (radius k : ℝ) (l : Nat) (i j : Nat) :
    square dim ((zD radius 1).comp (zD radius (-1))) N k (l + 1 : Nat) i j =
      ∑ t ∈ Finset.range N, square dim (zD radius 1) N (k + 1) l i t * square dim (zD radius (-1)) N k (l + 1 : Nat) t j := by
  have hb : bParam dim ((l + 1 : Nat) : Int) + -1 = bParam dim (l : Int) := by
    simp only [bParam]; push_cast; ring
  have r1 : (zD radius 1).rows N = N - 1 := by simp [zD, smul, opD]
  have r2 : (zD radius (-1)).rows N = N := by simp [zD, smul, opC]
  have d1 : (zD radius (-1)).da = 1 := by simp [zD, smul, opC]
  have d2 : (zD radius (-1)).db = -1 := by simp [zD, smul, opC]
  unfold square at_
  simp only [Op.comp, r1, r2, d1, d2, Int.cast_neg, Int.cast_one, hb]
  by_cases h : i < N - 1
  · simp only [if_pos h]
    apply Finset.sum_congr rfl
    intro t ht
    rw [if_pos (Finset.mem_range.1 ht)]
  · simp [h]

theorem radial_congr (dim N : Nat) (radius k : ℝ) (l : Nat) (c c' : Nat → ℂ) (r : ℝ) (h : ∀ n, n < N → c n = c' n) :
    radial dim N radius k l c r = radial dim N radius k l c' r := by
  unfold radial
  apply Finset.sum_congr rfl
  intro n hn
  rw [h n (Finset.mem_range.1 hn)]

theorem radial_minus_plus (dim N : Nat) (radius k' k : ℝ) (l l' : Nat) (c : Nat → ℂ) (r : ℝ) :
    radial dim N radius k' l' (apply N (square dim ((zD radius (-1)).comp (zD radius 1)) N k l) c) r =
      radial dim N radius k' l' (apply N (square dim (zD radius (-1)) N (k + 1) (l + 1 : Nat)) (apply N (square dim (zD radius 1) N k l) c)) r := by
  apply radial_congr
  intro n hn
  rw [apply_apply]
  unfold apply
  simp only [square_minus_plus dim N radius k l n _ hn]

theorem radial_plus_minus (dim N : Nat) (radius k' k : ℝ) (l l' : Nat) (c : Nat → ℂ) (r : ℝ) :
    radial dim N radius k' l' (apply N (square dim ((zD radius 1).comp (zD radius (-1))) N k (l + 1 : Nat)) c) r =
      radial dim N radius k' l' (apply N (square dim (zD radius 1) N (k + 1) l) (apply N (square dim (zD radius (-1)) N k (l + 1 : Nat)) c)) r := by
  apply radial_congr
  intro n hn
  rw [apply_apply]
  unfold apply
  simp only [square_plus_minus dim N radius k l n]

/-- derivative of the radial function times a power -/
theorem second_deriv {F F' : ℝ → ℂ} {G H : ℝ → ℂ} {H' : ℂ} (p r : ℝ) (hr : 0 < r) (hF : ∀ x, 0 < x → HasDerivAt F (F' x) x)
    (e : ∀ x, 0 < x → F' x = ((p / x : ℝ) : ℂ) * F x + H x) (hH : HasDerivAt H H' r) :
    HasDerivAt F' (((-p / r ^ 2 : ℝ) : ℂ) * F r + ((p / r : ℝ) : ℂ) * F' r + H') r := by
  have h1 : HasDerivAt (fun x : ℝ => p / x) (-p / r ^ 2) r := by
    have := (hasDerivAt_inv hr.ne').const_mul p
    refine (this.congr_deriv (by ring)).congr_of_eventuallyEq (Filter.Eventually.of_forall fun x => ?_)
    simp only [div_eq_mul_inv]
  have h2 := (h1.ofReal_comp.mul (hF r hr)).add hH
  refine (h2.congr_of_eventuallyEq ?_)
  filter_upwards [lt_mem_nhds hr] with x hx
  rw [e x hx]
  rfl

/-! ## Operators of the disk -/

theorem ladder_step (radius : ℝ) (hR : radius ≠ 0) (N k : Nat) (alpha : ℝ) (ha : -1 < alpha) (mu m s : Int) (hmu : mu = 1 ∨ mu = -1) (c : Nat → ℂ) (r : ℝ) (hr : 0 < r) :
    HasPlaneDeriv mu m s (radial 2 N radius (alpha + k) (m + s).natAbs c)
      (radial 2 N radius (alpha + (k + 1 : Nat)) (m + s + mu).natAbs (apply N (fun i j => 1 / √2 * ladderMatrix radius N k alpha mu m s i j) c) r) r := by
  have hk : -1 < alpha + (k : ℝ) := by have : (0 : ℝ) ≤ k := Nat.cast_nonneg k; linarith
  rw [radial_mul]
  have up : ∀ l : Nat, (m + s).natAbs = l → (m + s + mu).natAbs = l + 1 →
      (fun i j => ladderMatrix radius N k alpha mu m s i j) = square 2 (zD radius 1) N (alpha + k) (l : Nat) → mu * (m + s) = l →
      HasPlaneDeriv mu m s (radial 2 N radius (alpha + k) (m + s).natAbs c)
        (((1 / √2 : ℝ) : ℂ) * radial 2 N radius (alpha + (k + 1 : Nat)) (m + s + mu).natAbs (apply N (fun i j => ladderMatrix radius N k alpha mu m s i j) c) r) r := by
    intro l h1 h2 h3 h4
    rw [h1, h2, h3]
    have hd := radial_plus 2 N (alpha + k) l radius r (by norm_num) hk hR hr.ne' c
    refine ⟨_, hd, ?_⟩
    have h4' : ((mu : ℝ) * ((m : ℝ) + s)) = l := by exact_mod_cast h4
    rw [h4', show alpha + ((k + 1 : Nat) : ℝ) = alpha + k + 1 by push_cast; ring]
    push_cast
    ring
  have down : ∀ l : Nat, (m + s).natAbs = l + 1 → (m + s + mu).natAbs = l →
      (fun i j => ladderMatrix radius N k alpha mu m s i j) = square 2 (zD radius (-1)) N (alpha + k) (l + 1 : Nat) → mu * (m + s) = -(l + 1 : Int) →
      HasPlaneDeriv mu m s (radial 2 N radius (alpha + k) (m + s).natAbs c)
        (((1 / √2 : ℝ) : ℂ) * radial 2 N radius (alpha + (k + 1 : Nat)) (m + s + mu).natAbs (apply N (fun i j => ladderMatrix radius N k alpha mu m s i j) c) r) r := by
    intro l h1 h2 h3 h4
    rw [h1, h2, h3]
    have hd := radial_minus 2 N (alpha + k) l radius r (by norm_num) hk hR hr.ne' c
    refine ⟨_, hd, ?_⟩
    have h4' : ((mu : ℝ) * ((m : ℝ) + s)) = -(l + 1) := by exact_mod_cast h4
    rw [h4', show alpha + ((k + 1 : Nat) : ℝ) = alpha + k + 1 by push_cast; ring]
    push_cast
    ring
  have habs : |m + s| = ((m + s).natAbs : Int) := Int.abs_eq_natAbs _
  rcases lt_trichotomy (m + s) 0 with h | h | h
  · obtain ⟨l, hl⟩ : ∃ l : Nat, (m + s).natAbs = l + 1 := ⟨(m + s).natAbs - 1, by omega⟩
    rcases hmu with rfl | rfl
    · refine down l hl (by omega) ?_ (by omega)
      unfold ladderMatrix
      rw [if_neg h.ne, if_pos h, habs, hl]
    · refine up (l + 1) hl (by omega) ?_ (by omega)
      unfold ladderMatrix
      rw [if_neg h.ne, if_pos h, habs, hl]
      rfl
  · rcases hmu with rfl | rfl
    · refine up 0 (by omega) (by omega) ?_ (by omega)
      unfold ladderMatrix
      rw [if_pos h, habs, h]
      rfl
    · refine up 0 (by omega) (by omega) ?_ (by omega)
      unfold ladderMatrix
      rw [if_pos h, habs, h]
      rfl
  · obtain ⟨l, hl⟩ : ∃ l : Nat, (m + s).natAbs = l + 1 := ⟨(m + s).natAbs - 1, by omega⟩
    rcases hmu with rfl | rfl
    · refine up (l + 1) hl (by omega) ?_ (by omega)
      unfold ladderMatrix
      rw [if_neg h.ne', if_neg (by omega), habs, hl]
    · refine down l hl (by omega) ?_ (by omega)
      unfold ladderMatrix
      rw [if_neg h.ne', if_neg (by omega), habs, hl]

theorem laplacian_step (radius : ℝ) (hR : radius ≠ 0) (N k : Nat) (alpha : ℝ) (ha : -1 < alpha) (m s : Int) (c : Nat → ℂ) (r : ℝ) (hr : 0 < r) :
    HasPlaneLaplacian m s (radial 2 N radius (alpha + k) (m + s).natAbs c)
      (radial 2 N radius (alpha + (k + 2 : Nat)) (m + s).natAbs (apply N (laplacianMatrix radius N k alpha m s) c) r) r := by
  have hk : -1 < alpha + (k : ℝ) := by have : (0 : ℝ) ≤ k := Nat.cast_nonneg k; linarith
  have hk1 : -1 < alpha + (k : ℝ) + 1 := by linarith
  have habs : |m + s| = ((m + s).natAbs : Int) := Int.abs_eq_natAbs _
  have e2 : alpha + ((k + 2 : Nat) : ℝ) = alpha + k + 1 + 1 := by push_cast; ring
  have hms : (((m + s : Int) : ℂ)) ^ 2 = (((m + s).natAbs : ℕ) : ℂ) ^ 2 := by
    rcases Int.natAbs_eq (m + s) with h | h
    · rw [h]; simp
    · rw [h]; simp
  have hrc : (r : ℂ) ≠ 0 := by exact_mod_cast hr.ne'
  unfold HasPlaneLaplacian laplacianMatrix
  simp only [div_pow, hms]
  by_cases h : m + s < 0
  · rw [if_pos h, habs]
    obtain ⟨l, hl⟩ : ∃ l : Nat, (m + s).natAbs = l + 1 := ⟨(m + s).natAbs - 1, by omega⟩
    rw [hl, radial_plus_minus, e2]
    have hF := fun x (hx : 0 < x) => radial_minus 2 N (alpha + k) l radius x (by norm_num) hk hR hx.ne' c
    have hH := radial_plus 2 N (alpha + k + 1) l radius r (by norm_num) hk1 hR hr.ne' (apply N (square 2 (zD radius (-1)) N (alpha + k) (l + 1 : Nat)) c)
    have hS := second_deriv (G := fun _ => 0) (-((l : ℝ) + (2 : Nat) - 1)) r hr hF (fun x _ => rfl) hH
    refine ⟨_, _, hF, hS, ?_⟩
    generalize radial 2 N radius (alpha + k) (l + 1) c r = F at *
    generalize radial 2 N radius (alpha + k + 1) l (apply N (square 2 (zD radius (-1)) N (alpha + k) (l + 1 : Nat)) c) r = H at *
    generalize radial 2 N radius (alpha + k + 1 + 1) (l + 1) _ r = G at *
    push_cast
    field_simp
    ring
  · rw [if_neg h, habs]
    generalize (m + s).natAbs = l
    rw [radial_minus_plus, e2]
    have hF := fun x (hx : 0 < x) => radial_plus 2 N (alpha + k) l radius x (by norm_num) hk hR hx.ne' c
    have hH := radial_minus 2 N (alpha + k + 1) l radius r (by norm_num) hk1 hR hr.ne' (apply N (square 2 (zD radius 1) N (alpha + k) l) c)
    have hS := second_deriv (G := fun _ => 0) (l : ℝ) r hr hF (fun x _ => rfl) hH
    refine ⟨_, _, hF, hS, ?_⟩
    generalize radial 2 N radius (alpha + k) l c r = F at *
    generalize radial 2 N radius (alpha + k + 1) (l + 1) (apply N (square 2 (zD radius 1) N (alpha + k) l) c) r = H at *
    generalize radial 2 N radius (alpha + k + 1 + 1) l _ r = G at *
    push_cast
    field_simp
    ring

/-! ## Integrals -/

/-- Gauss quadrature of polynomials in `r^2` -/
theorem gauss_radial (dim N : Nat) (alpha : ℝ) (g : Nat → ℝ) (hd : 0 < dim) (ha : -1 < alpha) (hN : 0 < N) (hg : GridGuess N alpha ((dim : ℝ) / 2 - 1) g)
    (p : Polynomial ℝ) (hp : p.natDegree < 2 * N) :
    ∑ i ∈ Finset.range N, (quadrature dim N alpha g i).2 * p.eval (2 * radiusGrid dim N alpha g i ^ 2 - 1) =
      ∫ r in (0 : ℝ)..1, p.eval (2 * r ^ 2 - 1) * ((1 - r ^ 2) ^ alpha * r ^ (dim - 1)) := by
  have hr := guess_roots N alpha _ ha (dim_gt dim hd) hN g hg
  have hG := gauss_exact N alpha _ g ha (dim_gt dim hd) hN hr p hp
  have hT := two_pow_pos (alpha + (dim : ℝ) / 2 + 1)
  have e1 : ∑ i ∈ Finset.range N, (quadrature dim N alpha g i).2 * p.eval (2 * radiusGrid dim N alpha g i ^ 2 - 1) =
      (∑ i ∈ Finset.range N, (Jacobi.quadrature N alpha ((dim : ℝ) / 2 - 1) g i).2 * p.eval (Jacobi.quadrature N alpha ((dim : ℝ) / 2 - 1) g i).1) /
        (2 : ℝ) ^ (alpha + (dim : ℝ) / 2 + 1) := by
    rw [Finset.sum_div]
    apply Finset.sum_congr rfl
    intro i hi
    obtain ⟨-, -, hz⟩ := grid_eq dim N alpha g hd ha hN hg i (Finset.mem_range.1 hi)
    have hz' : (Jacobi.quadrature N alpha ((dim : ℝ) / 2 - 1) g i).1 = 2 * radiusGrid dim N alpha g i ^ 2 - 1 := hz
    rw [hz']
    unfold quadrature
    simp only
    ring
  rw [e1, hG, integ, integral_radius, ← intervalIntegral.integral_div]
  rw [intervalIntegral.integral_of_le (by norm_num), intervalIntegral.integral_of_le (by norm_num), MeasureTheory.integral_Ioc_eq_integral_Ioo,
    MeasureTheory.integral_Ioc_eq_integral_Ioo]
  apply MeasureTheory.setIntegral_congr_fun measurableSet_Ioo
  intro r hr
  have hw := weight_radius dim 0 alpha r hr.1 hr.2
  simp only [Nat.cast_zero, zero_add, add_zero, pow_zero, mul_one] at hw
  have hr0 := hr.1.ne'
  beta_reduce
  obtain ⟨d, rfl⟩ : ∃ d, dim = d + 1 := ⟨dim - 1, by omega⟩
  rw [Nat.add_sub_cancel, div_eq_iff hT.ne']
  apply mul_right_cancel₀ hr0
  rw [pow_succ r d] at hw
  generalize (2 : ℝ) ^ (alpha + ((d + 1 : Nat) : ℝ) / 2 + 1) = T at *
  generalize p.eval (2 * r ^ 2 - 1) = v
  linear_combination v * hw

end Dedalus.Zernike
