import Verif.Shell.Props
import Verif.Shell.Integrals

/-!
# Properties of the transforms, conversions, integrals and products of the annulus and the shell
-/

namespace Dedalus.Shell

open Jacobi Jacobi.Spec Spec
open Zernike (apply)
open Regularity (T mem_T mix intertwiner)
open Regularity.Spec (Component)
open Ball (mix_congr allowed_iff)

/-! ## C74: transforms -/

/-- The grid of the annulus and the shell lies between the radii. -/
theorem grid_inside (rin rout : ℝ) (h0 : 0 < rin) (h1 : rin < rout) (alpha : ℝ × ℝ) (ha : -1 < alpha.1) (hb : -1 < alpha.2) (Ng : Nat) (g : Nat → ℝ)
    (hg : GridGuess Ng alpha.1 alpha.2 g) (i : Nat) (hi : i < Ng) : rin < radiusGrid rin rout alpha Ng g i ∧ radiusGrid rin rout alpha Ng g i < rout := by
  obtain ⟨⟨hl, hu⟩, -⟩ := quad_node Ng (by omega) alpha.1 alpha.2 ha hb g hg i hi
  unfold radiusGrid
  generalize (quadrature Ng alpha.1 alpha.2 g i).1 = z at *
  have hW : 0 < rout - rin := by linarith
  have e : (rout - rin) / 2 * (z + (rout + rin) / (rout - rin)) = ((rout - rin) * z + (rout + rin)) / 2 := by field_simp
  rw [e]
  constructor <;> nlinarith

theorem complex_sum (Ng : Nat) (F : Nat → ℝ) (f : Nat → ℂ) : (∑ i ∈ Finset.range Ng, (F i : ℂ) * f i).re = ∑ i ∈ Finset.range Ng, F i * (f i).re ∧
    (∑ i ∈ Finset.range Ng, (F i : ℂ) * f i).im = ∑ i ∈ Finset.range Ng, F i * (f i).im := by
  constructor
  · rw [Complex.re_sum]; simp only [Complex.re_ofReal_mul]
  · rw [Complex.im_sum]; simp only [Complex.im_ofReal_mul]

/-- The backward transform gives the values of the function at the grid points. If there are fewer grid points than coefficients the
highest coefficients are not used. -/
theorem backward_evaluates (rin rout : ℝ) (h0 : 0 < rin) (h1 : rin < rout) (alpha : ℝ × ℝ) (ha : -1 < alpha.1) (hb : -1 < alpha.2) (Ng Nc k : Nat) (g : Nat → ℝ)
    (hg : GridGuess Ng alpha.1 alpha.2 g) (c : Nat → ℂ) (i : Nat) (hi : i < Ng) :
    backward rin rout alpha Ng Nc k g c i = radial rin rout alpha (min Nc Ng) k c (radiusGrid rin rout alpha Ng g i) := by
  have hk : (0 : ℝ) ≤ k := Nat.cast_nonneg k
  have hB : ∑ n ∈ Finset.range Nc, (backwardMatrix Ng Nc (alpha.1 + k) (alpha.2 + k) alpha.1 alpha.2 g i n : ℂ) * c n =
      ∑ n ∈ Finset.range (min Nc Ng), (Q n (alpha.1 + k) (alpha.2 + k) (quadrature Ng alpha.1 alpha.2 g i).1 : ℂ) * c n := by
    have h := fun c => matrix_backward_evaluates Ng Nc (by omega) (alpha.1 + k) (alpha.2 + k) alpha.1 alpha.2 (by linarith) (by linarith) ha hb g hg c i hi
    have hc : ∀ c : Nat → ℝ, ∑ m ∈ Finset.range Nc, backwardMatrix Ng Nc (alpha.1 + k) (alpha.2 + k) alpha.1 alpha.2 g i m * c m =
        ∑ n ∈ Finset.range (min Nc Ng), Q n (alpha.1 + k) (alpha.2 + k) (quadrature Ng alpha.1 alpha.2 g i).1 * c n := by
      intro c
      rw [h c]
      unfold series
      apply Finset.sum_congr rfl
      intro n _
      ring
    apply Complex.ext
    · rw [(complex_sum _ _ _).1, (complex_sum _ (fun n => Q n (alpha.1 + k) (alpha.2 + k) (quadrature Ng alpha.1 alpha.2 g i).1) _).1]
      exact hc _
    · rw [(complex_sum _ _ _).2, (complex_sum _ (fun n => Q n (alpha.1 + k) (alpha.2 + k) (quadrature Ng alpha.1 alpha.2 g i).1) _).2]
      exact hc _
  unfold backward radial
  rw [hB, show native rin rout (radiusGrid rin rout alpha Ng g i) = (quadrature Ng alpha.1 alpha.2 g i).1 from native_radius rin rout _ h1]
  congr 1
  unfold radialFactor
  split
  · rw [zpow_natCast]; push_cast; rfl
  · have : k = 0 := by omega
    rw [this, pow_zero]

/-- The forward transform undoes the backward transform, for both ways of building the plan's matrix; coefficients beyond the number of
grid points become 0. -/
theorem transform_round_trip (before : Bool) (rin rout : ℝ) (h0 : 0 < rin) (h1 : rin < rout) (alpha : ℝ × ℝ) (ha : -1 < alpha.1) (hb : -1 < alpha.2) (Ng Nc k : Nat)
    (hN : 0 < Ng) (g : Nat → ℝ) (hg : GridGuess Ng alpha.1 alpha.2 g) :
    ∃ F, forwardMatrix before Ng Nc (alpha.1 + k) (alpha.2 + k) alpha.1 alpha.2 g = some F ∧ ∀ (c : Nat → ℂ) (n : Nat), n < Nc →
      forward rin rout alpha Ng k g F (backward rin rout alpha Ng Nc k g c) n = if n < Ng then c n else 0 := by
  obtain ⟨F, hF⟩ := (matrix_forward_possible before Ng Nc (alpha.1 + k) (alpha.2 + k) alpha.1 alpha.2 g).2 ⟨k, k, rfl, rfl⟩
  refine ⟨F, hF, fun c n hn => ?_⟩
  have e : forward rin rout alpha Ng k g F (backward rin rout alpha Ng Nc k g c) n =
      ∑ i ∈ Finset.range Ng, (F n i : ℂ) * ∑ m ∈ Finset.range Nc, (backwardMatrix Ng Nc (alpha.1 + k) (alpha.2 + k) alpha.1 alpha.2 g i m : ℂ) * c m := by
    unfold forward backward
    apply Finset.sum_congr rfl
    intro i hi
    have hr := (h0.trans (grid_inside rin rout h0 h1 alpha ha hb Ng g hg i (Finset.mem_range.1 hi)).1).ne'
    congr 1
    split
    · unfold radialFactor
      have hx : ((rout - rin) / radiusGrid rin rout alpha Ng g i) ≠ 0 := div_ne_zero (by linarith) hr
      rw [← mul_assoc, ← Complex.ofReal_mul, ← zpow_add₀ hx, neg_add_cancel, zpow_zero, Complex.ofReal_one, one_mul]
    · rw [one_mul, one_mul]
  rw [e]
  have h := fun c => matrix_round_trip before Ng Nc hN (alpha.1 + k) (alpha.2 + k) alpha.1 alpha.2 ha hb g hg F hF c n hn
  apply Complex.ext
  · rw [(complex_sum _ _ _).1]
    simp only [(complex_sum _ _ _).1]
    rw [h]
    split <;> simp
  · rw [(complex_sum _ _ _).2]
    simp only [(complex_sum _ _ _).2]
    rw [h]
    split <;> simp

/-! ## C74: conversion -/

/-- Conversion to a basis of order `k + dk` gives the first `N` of the `N + dk` coefficients of the same function in that basis, so it is
exact if the top `dk` coefficients vanish. Missing: it is not exact for other coefficients, see `radial_conversion_refuted`. -/
theorem radial_conversion_partial (rin rout : ℝ) (hw : rin ≠ rout) (alpha : ℝ × ℝ) (ha : -1 < alpha.1) (hb : -1 < alpha.2) (N k dk : Nat) (c : Nat → ℂ) :
    (∃ d : Nat → ℂ, (∀ r : ℝ, r ≠ 0 → radial rin rout alpha (N + dk) (k + dk) d r = radial rin rout alpha N k c r) ∧
      ∀ i, i < N → apply N (conversionMatrix rin rout alpha N k dk) c i = d i) ∧
    ((∀ j, j < N → N ≤ j + dk → c j = 0) → ∀ r : ℝ, r ≠ 0 →
      radial rin rout alpha N (k + dk) (apply N (conversionMatrix rin rout alpha N k dk) c) r = radial rin rout alpha N k c r) := by
  have hw' : rout - rin ≠ 0 := sub_ne_zero.2 hw.symm
  have hd : ∀ i, i < N → apply N (conversionMatrix rin rout alpha N k dk) c i =
      ∑ j ∈ Finset.range N, (((opE rin rout).pow dk).entry N (k + alpha.1) (k + alpha.2) i j : ℂ) * c j := by
    intro i hi
    unfold apply conversionMatrix square
    simp only [E_pow_rows, if_pos (show i < N + dk by omega)]
  refine ⟨⟨_, fun r hr => radial_expand rin rout hw' alpha ha hb N k dk c r hr, hd⟩, fun hc r hr => ?_⟩
  rw [← radial_expand rin rout hw' alpha ha hb N k dk c r hr, radial_phi, radial_phi]
  refine (Finset.sum_congr rfl fun i hi => by rw [hd i (Finset.mem_range.1 hi)]).trans ?_
  apply Finset.sum_subset
  · intro x hx; simp at *; omega
  · intro i hi hi'
    simp at hi hi'
    rw [Finset.sum_eq_zero, mul_zero]
    intro j hj
    have hj' := Finset.mem_range.1 hj
    by_cases h : N ≤ j + dk
    · rw [hc j hj' h, mul_zero]
    · rw [E_far rin rout _ _ (alpha_gt _ k ha) (alpha_gt _ k hb) dk N i j hj' hi (by omega)]
      simp

/-- For every basis there is a field that conversion changes: the basis function of the highest index. -/
theorem radial_conversion_refuted (rin rout : ℝ) (h0 : 0 < rin) (h1 : rin < rout) (alpha : ℝ × ℝ) (ha : -1 < alpha.1) (hb : -1 < alpha.2) (N k : Nat) (hN : 0 < N) :
    ∃ (c : Nat → ℂ) (r : ℝ), rin ≤ r ∧ r ≤ rout ∧
      radial rin rout alpha N (k + 1) (apply N (conversionMatrix rin rout alpha N k 1) c) r ≠ radial rin rout alpha N k c r := by
  have hw' : rout - rin ≠ 0 := by linarith
  by_contra hcon
  push Not at hcon
  set c : Nat → ℂ := fun j => if j = N - 1 then 1 else 0
  have hk := alpha_gt _ k ha
  have hk' := alpha_gt _ k hb
  have hphi : ∀ r : ℝ, rin ≤ r → r ≤ rout → phi rin rout alpha (k + 1) N r = 0 := by
    intro r hl hu
    have hr : r ≠ 0 := by linarith
    have h := hcon c r hl hu
    rw [← radial_expand rin rout hw' alpha ha hb N k 1 c r hr, radial_phi, radial_phi, Finset.sum_range_succ] at h
    have e : ∀ i ∈ Finset.range N, (phi rin rout alpha (k + 1) i r : ℂ) * apply N (conversionMatrix rin rout alpha N k 1) c i =
        (phi rin rout alpha (k + 1) i r : ℂ) * ∑ j ∈ Finset.range N, (((opE rin rout).pow 1).entry N (k + alpha.1) (k + alpha.2) i j : ℂ) * c j := by
      intro i hi
      have := Finset.mem_range.1 hi
      unfold apply conversionMatrix square
      simp only [E_pow_rows, if_pos (show i < N + 1 by omega)]
    rw [Finset.sum_congr rfl e, left_eq_add] at h
    have e2 : ∑ j ∈ Finset.range N, (((opE rin rout).pow 1).entry N (k + alpha.1) (k + alpha.2) N j : ℂ) * c j =
        (((opE rin rout).pow 1).entry N (k + alpha.1) (k + alpha.2) N (N - 1) : ℂ) := by
      simp only [c, mul_ite, mul_one, mul_zero]
      rw [Finset.sum_ite_eq' _ _ _, if_pos (Finset.mem_range.2 (by omega))]
    rw [e2, mul_eq_zero] at h
    rcases h with h | h
    · exact_mod_cast h
    · exact absurd (by exact_mod_cast h) (E_last rin rout (k + alpha.1) (k + alpha.2) hk hk' N hN)
  -- a polynomial of the basis does not vanish on an interval
  have hQ : ∀ z : ℝ, -1 ≤ z → z ≤ 1 → Q N (alpha.1 + ((k + 1 : Nat) : ℝ)) (alpha.2 + ((k + 1 : Nat) : ℝ)) z = 0 := by
    intro z hz1 hz2
    have hW : 0 < rout - rin := by linarith
    have e : (rout - rin) / 2 * (z + (rout + rin) / (rout - rin)) = ((rout - rin) * z + (rout + rin)) / 2 := by field_simp
    have h := hphi ((rout - rin) / 2 * (z + (rout + rin) / (rout - rin))) (by rw [e]; nlinarith) (by rw [e]; nlinarith)
    unfold phi at h
    rw [native_radius rin rout z h1] at h
    exact (mul_eq_zero.1 h).resolve_left (pow_ne_zero _ (div_ne_zero hw' (radius_pos rin rout z h0 h1 hz1).ne'))
  have hkk : (0 : ℝ) ≤ ((k + 1 : Nat) : ℝ) := Nat.cast_nonneg _
  have := Q_orthonormal N N (alpha.1 + ((k + 1 : Nat) : ℝ)) (alpha.2 + ((k + 1 : Nat) : ℝ)) (by linarith) (by linarith)
  unfold integ at this
  rw [if_pos rfl] at this
  have hz : ∫ z in (-1 : ℝ)..1, (1 - z) ^ (alpha.1 + ((k + 1 : Nat) : ℝ)) * (1 + z) ^ (alpha.2 + ((k + 1 : Nat) : ℝ)) *
      (Q N (alpha.1 + ((k + 1 : Nat) : ℝ)) (alpha.2 + ((k + 1 : Nat) : ℝ)) z * Q N (alpha.1 + ((k + 1 : Nat) : ℝ)) (alpha.2 + ((k + 1 : Nat) : ℝ)) z) = ∫ z in (-1 : ℝ)..1, (0 : ℝ) := by
    apply intervalIntegral.integral_congr
    intro z hz
    rw [Set.uIcc_of_le (by norm_num)] at hz
    simp only
    rw [hQ z hz.1 hz.2]
    ring
  rw [hz] at this
  simp at this

/-! ## C74: interpolation, constants, lifting -/

/-- Interpolation gives the value of the function. -/
theorem radial_interpolation (rin rout : ℝ) (hw : rin ≠ rout) (alpha : ℝ × ℝ) (ha : -1 < alpha.1) (hb : -1 < alpha.2) (N k : Nat) (position : ℝ) (c : Nat → ℂ) :
    ∑ j ∈ Finset.range N, (interpolation rin rout alpha N k position j : ℂ) * c j = radial rin rout alpha N k c position := by
  have hw' : rout - rin ≠ 0 := sub_ne_zero.2 hw.symm
  have hk : (0 : ℝ) ≤ k := Nat.cast_nonneg k
  rw [radial_phi]
  apply Finset.sum_congr rfl
  intro j hj
  have e : position * 2 / (rout - rin) - (rout + rin) / (rout - rin) = native rin rout position := by
    unfold native; field_simp; ring
  unfold interpolation phi
  rw [e, polynomials_Q N _ _ _ (by linarith) (by linarith) j (Finset.mem_range.1 hj).le]

/-- Interpolation in the shell gives the spin components of the tensor field at the radius. -/
theorem shell_interpolation (rin rout : ℝ) (hw : rin ≠ rout) (alpha : ℝ × ℝ) (ha : -1 < alpha.1) (hb : -1 < alpha.2) (N k ell rank : Nat) (position : ℝ)
    (c : List Int → Nat → ℂ) (τ : List Int) (hτ : Component rank τ) :
    shellInterpolate rin rout alpha N k ell rank position c τ = Spec.field ell rank rin rout alpha N k c τ position := by
  refine mix_congr ell rank _ _ τ hτ.1 fun b hb' h => ?_
  rw [if_pos ((allowed_iff ell b ((mem_T rank b).1 hb').2).2 h), radial_interpolation rin rout hw alpha ha hb]

theorem constant_radial (rin rout : ℝ) (hw : rin ≠ rout) (alpha : ℝ × ℝ) (ha : -1 < alpha.1) (hb : -1 < alpha.2) (N k : Nat) (hk : k < N) (value : ℝ) (v : ℂ) (r : ℝ) (hr : r ≠ 0) :
    radial rin rout alpha N k (fun i => (constantColumn rin rout alpha N k value i : ℂ) * v) r = (Q 0 alpha.1 alpha.2 0 : ℂ) * (((1 / value : ℝ)) * v) := by
  have h := (radial_conversion_partial rin rout hw alpha ha hb N 0 k (fun j => if j = 0 then ((1 / value : ℝ) : ℂ) * v else 0)).2 (fun j _ h => if_neg (by omega)) r hr
  rw [zero_add] at h
  have e : ∀ i, (constantColumn rin rout alpha N k value i : ℂ) * v =
      apply N (conversionMatrix rin rout alpha N 0 k) (fun j => if j = 0 then ((1 / value : ℝ) : ℂ) * v else 0) i := by
    intro i
    unfold constantColumn apply
    rw [Complex.ofReal_sum, Finset.sum_mul]
    apply Finset.sum_congr rfl
    intro j _
    beta_reduce
    by_cases hj : j = 0
    · rw [if_pos hj, if_pos hj]; push_cast; ring
    · rw [if_neg hj, if_neg hj]; simp
  simp only [e]
  rw [h, radial_phi, Finset.sum_eq_single 0]
  · rw [if_pos rfl]
    unfold phi
    rw [pow_zero, one_mul, Nat.cast_zero, add_zero, add_zero]
    rw [Q, Q, P_zero, P_zero]
  · intro j _ hj; rw [if_neg hj, mul_zero]
  · intro h'; exact absurd (Finset.mem_range.2 (by omega)) h'

theorem constant_value (alpha : ℝ × ℝ) (ha : -1 < alpha.1) (hb : -1 < alpha.2) : constantModeValue alpha = Q 0 alpha.1 alpha.2 0 ∧ 0 < constantModeValue alpha := by
  have e : constantModeValue alpha = Q 0 alpha.1 alpha.2 0 := polynomials_Q 1 _ _ _ ha hb 0 (by norm_num)
  exact ⟨e, e ▸ Q_zero_pos _ _ _ ha hb⟩

/-- On the annulus a constant becomes the coefficients of the constant function, if the basis has more coefficients than `k`. It has no
part of other azimuthal orders. -/
theorem annulus_constant (rin rout : ℝ) (hw : rin ≠ rout) (alpha : ℝ × ℝ) (ha : -1 < alpha.1) (hb : -1 < alpha.2) (N k : Nat) (hk : k < N) :
    (∃ q : Nat → ℝ, (∀ i, annulusConstant rin rout alpha N k 0 i = some (q i)) ∧
      ∀ (v : ℂ) (r : ℝ), r ≠ 0 → radial rin rout alpha N k (fun i => (q i : ℂ) * v) r = v) ∧
    ∀ m : Int, m ≠ 0 → ∀ i, annulusConstant rin rout alpha N k m i = none := by
  refine ⟨⟨_, fun i => if_pos rfl, fun v r hr => ?_⟩, fun m hm i => if_neg hm⟩
  obtain ⟨e, hp⟩ := constant_value alpha ha hb
  rw [constant_radial rin rout hw alpha ha hb N k hk _ v r hr, ← e]
  have : (constantModeValue alpha : ℂ) ≠ 0 := by exact_mod_cast hp.ne'
  push_cast
  field_simp

/-- In the shell a constant becomes the coefficients of the constant function: the radial function times the harmonic of degree 0, or the
radial function alone for a field of the radius. -/
theorem shell_constant (onShell : Bool) (rin rout : ℝ) (hw : rin ≠ rout) (alpha : ℝ × ℝ) (ha : -1 < alpha.1) (hb : -1 < alpha.2) (N k : Nat) (hk : k < N) (v : ℂ)
    (r θ : ℝ) (hr : r ≠ 0) :
    (∃ q : Nat → ℝ, (∀ i, shellConstant onShell rin rout alpha N k 0 i = some (q i)) ∧
      Spec.field 0 0 rin rout alpha N k (fun _ i => (q i : ℂ) * v) [] r * (if onShell then (Sphere.Spec.Y 0 0 0 (Real.cos θ) : ℂ) else 1) = v) ∧
    ∀ ell, ell ≠ 0 → ∀ i, shellConstant onShell rin rout alpha N k ell i = none := by
  refine ⟨⟨constantColumn rin rout alpha N k (if onShell then constantModeValue alpha / √2 else constantModeValue alpha), fun i => by unfold shellConstant; exact if_pos rfl, ?_⟩,
    fun ell h i => by unfold shellConstant; exact if_neg h⟩
  obtain ⟨e, hp⟩ := constant_value alpha ha hb
  have hc : (constantModeValue alpha : ℂ) ≠ 0 := by exact_mod_cast hp.ne'
  have h2 : ((√2 : ℝ) : ℂ) ≠ 0 := by exact_mod_cast (Real.sqrt_pos.2 (by norm_num : (0 : ℝ) < 2)).ne'
  simp only [Spec.field, Ball.spinComponent, Regularity.range, List.map_cons, List.map_nil, List.sum_cons, List.sum_nil, add_zero, Regularity.intertwiner, Nat.cast_zero,
    Int.toNat_zero, Complex.ofReal_one, one_mul]
  rw [constant_radial rin rout hw alpha ha hb N k hk _ v r hr, ← e]
  cases onShell
  · simp only [Bool.false_eq_true, if_false]
    push_cast
    field_simp
  · simp only [if_true]
    rw [Ball.Y_zero]
    push_cast
    field_simp

/-- Lifting: the field is the basis function of index `n`, counted from the end if `n` is negative, times the lifted value. -/
theorem annulus_lift (rin rout : ℝ) (alpha : ℝ × ℝ) (N k : Nat) (n : Int) (h : -(N : Int) ≤ n ∧ n < N) :
    ∃ q : Nat → ℝ, (∀ i, annulusLift N n i = some (q i)) ∧ ∃ j : Nat, j < N ∧ (j : Int) = (if n < 0 then N + n else n) ∧ ∀ (tau : ℂ) (r : ℝ),
      radial rin rout alpha N k (fun i => (q i : ℂ) * tau) r =
        ((((rout - rin) / r) ^ k * Q j (alpha.1 + k) (alpha.2 + k) (native rin rout r) : ℝ) : ℂ) * tau := by
  obtain ⟨j, hj, hjN⟩ : ∃ j : Nat, (j : Int) = (if n < 0 then N + n else n) ∧ j < N := by
    refine ⟨(if n < 0 then N + n else n).toNat, ?_, ?_⟩ <;> split <;> omega
  have hj' : ∀ i : Nat, ((i : Int) = (if n < 0 then n + N else n)) ↔ i = j := by
    intro i; split at hj <;> split <;> omega
  refine ⟨fun i => if i = j then 1 else 0, fun i => by unfold annulusLift; rw [if_pos h]; simp only [hj'], j, hjN, hj, fun tau r => ?_⟩
  rw [radial_phi, Finset.sum_eq_single j]
  · beta_reduce
    rw [if_pos rfl, Complex.ofReal_one, one_mul]
    rfl
  · intro i _ hi; simp [hi]
  · intro hh; exact absurd (Finset.mem_range.2 hjN) hh

theorem spin_scale (ell rank : Nat) (q : ℂ) (f : List Int → ℂ) (τ : List Int) :
    Ball.spinComponent ell rank (fun reg => q * f reg) τ = q * Ball.spinComponent ell rank f τ := by
  unfold Ball.spinComponent
  rw [← List.sum_map_mul_left]
  congr 1
  apply List.map_congr_left
  intro reg _
  ring

/-- Lifting in the shell (the matrices are those of the ball, with all coefficients in every degree). -/
theorem shell_lift (rin rout : ℝ) (alpha : ℝ × ℝ) (N k ell rank : Nat) (n : Int) (h : -(N : Int) ≤ n ∧ n < N) (tau : List Int → ℂ) (τ : List Int) (hτ : Component rank τ)
    (r : ℝ) :
    ∃ q : List Int → Nat → ℂ, (∀ reg i, Ball.lift N n ell rank tau reg i = some (q reg i)) ∧ ∃ j : Nat, j < N ∧ (j : Int) = (if n < 0 then N + n else n) ∧
      Spec.field ell rank rin rout alpha N k q τ r = ((((rout - rin) / r) ^ k * Q j (alpha.1 + k) (alpha.2 + k) (native rin rout r) : ℝ) : ℂ) *
        Ball.spinComponent ell rank (Ball.Spec.regularityComponent ell rank tau) τ := by
  obtain ⟨j, hj, hjN⟩ : ∃ j : Nat, (j : Int) = (if n < 0 then N + n else n) ∧ j < N := by
    refine ⟨(if n < 0 then N + n else n).toNat, ?_, ?_⟩ <;> split <;> omega
  have hj' : ∀ i : Nat, ((i : Int) = (if n < 0 then n + N else n)) ↔ i = j := by
    intro i; split at hj <;> split <;> omega
  refine ⟨fun reg i => if Ball.allowed ell reg then (if i = j then ((Regularity.range Regularity.ordering rank).map fun spin => (intertwiner ell reg spin : ℂ) * tau spin).sum else 0) else 0,
    fun reg i => by unfold Ball.lift; rw [if_pos h]; simp only [hj'], j, hjN, hj, ?_⟩
  rw [← spin_scale]
  refine mix_congr ell rank _ _ τ hτ.1 fun b hb hA => ?_
  rw [radial_phi, Finset.sum_eq_single j]
  · beta_reduce
    rw [if_pos ((allowed_iff ell b ((mem_T rank b).1 hb).2).2 hA), if_pos rfl]
    rfl
  · intro i _ hi; simp [hi]
  · intro hh; exact absurd (Finset.mem_range.2 hjN) hh

/-! ## C74: integrals -/

theorem vector_sum (rin rout : ℝ) (h0 : 0 < rin) (h1 : rin < rout) (alpha : ℝ × ℝ) (ha : -1 < alpha.1) (hb : -1 < alpha.2) (p N k : Nat) (hp : p ≤ 2) (hk : k ≤ p)
    (hN : 0 < N) (g : Nat → ℝ) (hg : GridGuess (2 * N) 0 0 g) (q : ℝ) (c : Nat → ℂ) :
    ∑ j ∈ Finset.range N, ((integralVector rin rout alpha p N k g j * ((rout - rin) / 2) * q : ℝ) : ℂ) * c j =
      (q : ℂ) * ∫ r in rin..rout, ((r ^ p : ℝ) : ℂ) * radial rin rout alpha N k c r := by
  rw [radial_integral rin rout h0 h1, Finset.mul_sum]
  apply Finset.sum_congr rfl
  intro j hj
  rw [vector_exact rin rout h0 h1 alpha ha hb p N k hp hk hN g hg j (Finset.mem_range.1 hj)]
  push_cast
  ring

/-- The integral over the annulus of a field `F(r)` of azimuthal order 0 is `2 π ∫ r F(r) dr` if the basis has order 0 or 1. Missing: it is
not for other orders, see `annulus_integral_refuted`. -/
theorem annulus_integral_partial (rin rout : ℝ) (h0 : 0 < rin) (h1 : rin < rout) (alpha : ℝ × ℝ) (ha : -1 < alpha.1) (hb : -1 < alpha.2) (N k : Nat) (hk : k ≤ 1) (hN : 0 < N)
    (g : Nat → ℝ) (hg : GridGuess (2 * N) 0 0 g) (c : Nat → ℂ) :
    ∑ j ∈ Finset.range N, (annulusIntegrate rin rout alpha N k g j : ℂ) * c j =
      2 * Real.pi * ∫ r in rin..rout, (r : ℂ) * radial rin rout alpha N k c r := by
  have := vector_sum rin rout h0 h1 alpha ha hb 1 N k (by norm_num) hk hN g hg (2 * Real.pi) c
  unfold annulusIntegrate
  rw [this]
  push_cast
  simp only [pow_one]

/-- The average over the annulus is the integral divided by the area, if the basis has order 0 or 1. -/
theorem annulus_average_partial (rin rout : ℝ) (h0 : 0 < rin) (h1 : rin < rout) (alpha : ℝ × ℝ) (ha : -1 < alpha.1) (hb : -1 < alpha.2) (N k : Nat) (hk : k ≤ 1) (hN : 0 < N)
    (g : Nat → ℝ) (hg : GridGuess (2 * N) 0 0 g) (c : Nat → ℂ) :
    ∑ j ∈ Finset.range N, (annulusAverage rin rout alpha N k g j : ℂ) * c j =
      (2 * Real.pi * ∫ r in rin..rout, (r : ℂ) * radial rin rout alpha N k c r) / (2 * Real.pi * ∫ r in rin..rout, (r : ℂ)) := by
  have hi : ∫ r in rin..rout, (r : ℂ) = (((rout ^ 2 - rin ^ 2) / 2 : ℝ) : ℂ) := by
    rw [intervalIntegral.integral_ofReal, integral_id]
  rw [← annulus_integral_partial rin rout h0 h1 alpha ha hb N k hk hN g hg c, hi, Finset.sum_div]
  apply Finset.sum_congr rfl
  intro j _
  unfold annulusAverage annulusIntegrate
  push_cast
  rw [show (2 : ℂ) * Real.pi * ((rout ^ 2 - rin ^ 2) / 2) = Real.pi * (rout ^ 2 - rin ^ 2) by ring]
  ring

/-- The integral over the shell of a scalar field of degree 0, the radial function times the harmonic of degree 0, is `4 π ∫ r² F(r) Y dr` if
the basis has order 0, 1 or 2. Missing: it is not for other orders, see `shell_integral_refuted`. -/
theorem shell_integral_partial (rin rout : ℝ) (h0 : 0 < rin) (h1 : rin < rout) (alpha : ℝ × ℝ) (ha : -1 < alpha.1) (hb : -1 < alpha.2) (N k : Nat) (hk : k ≤ 2) (hN : 0 < N)
    (g : Nat → ℝ) (hg : GridGuess (2 * N) 0 0 g) (c : Nat → ℂ) (θ : ℝ) :
    ∑ j ∈ Finset.range N, (shellIntegrate rin rout alpha N k g j : ℂ) * c j =
      4 * Real.pi * ∫ r in rin..rout, ((r ^ 2 : ℝ) : ℂ) * radial rin rout alpha N k (fun i => (Sphere.Spec.Y 0 0 0 (Real.cos θ) : ℂ) * c i) r := by
  have := vector_sum rin rout h0 h1 alpha ha hb 2 N k (by norm_num) hk hN g hg (4 * Real.pi / √2) c
  unfold shellIntegrate
  rw [this, Ball.Y_zero]
  simp only [radial_smul]
  rw [show (fun r : ℝ => ((r ^ 2 : ℝ) : ℂ) * (((1 / √2 : ℝ) : ℂ) * radial rin rout alpha N k c r)) =
    fun r => ((1 / √2 : ℝ) : ℂ) * (((r ^ 2 : ℝ) : ℂ) * radial rin rout alpha N k c r) by funext r; ring, intervalIntegral.integral_const_mul]
  push_cast
  ring

theorem vector_wrong (rin rout : ℝ) (h0 : 0 < rin) (h1 : rin < rout) (alpha : ℝ × ℝ) (ha : -1 < alpha.1) (hb : -1 < alpha.2) (p N : Nat)
    (hN : 0 < N) (g : Nat → ℝ) (hg : GridGuess (2 * N) 0 0 g) (q : ℝ) (hq : q ≠ 0) :
    ∑ j ∈ Finset.range N, ((integralVector rin rout alpha p N (p + 1) g j * ((rout - rin) / 2) * q : ℝ) : ℂ) * (if j = 0 then 1 else 0) ≠
      (q : ℂ) * ∫ r in rin..rout, ((r ^ p : ℝ) : ℂ) * radial rin rout alpha N (p + 1) (fun j => if j = 0 then 1 else 0) r := by
  rw [radial_integral rin rout h0 h1]
  simp only [mul_ite, mul_one, mul_zero]
  rw [Finset.sum_ite_eq' _ _ _, Finset.sum_ite_eq' _ _ _, if_pos (Finset.mem_range.2 hN), if_pos (Finset.mem_range.2 hN), mul_comm _ q, Complex.ofReal_mul]
  intro h
  have h' := mul_left_cancel₀ (by exact_mod_cast hq) h
  have := vector_low rin rout h0 h1 alpha ha hb p N hN g hg
  exact absurd (by exact_mod_cast h') this.ne

/-- For every annulus and resolution the integral of the constant-index basis function of a basis of order 2 is wrong. -/
theorem annulus_integral_refuted (rin rout : ℝ) (h0 : 0 < rin) (h1 : rin < rout) (alpha : ℝ × ℝ) (ha : -1 < alpha.1) (hb : -1 < alpha.2) (N : Nat) (hN : 0 < N)
    (g : Nat → ℝ) (hg : GridGuess (2 * N) 0 0 g) : ∃ c : Nat → ℂ,
    ∑ j ∈ Finset.range N, (annulusIntegrate rin rout alpha N 2 g j : ℂ) * c j ≠
      2 * Real.pi * ∫ r in rin..rout, (r : ℂ) * radial rin rout alpha N 2 c r := by
  refine ⟨fun j => if j = 0 then 1 else 0, ?_⟩
  have := vector_wrong rin rout h0 h1 alpha ha hb 1 N hN g hg (2 * Real.pi) (by positivity)
  unfold annulusIntegrate
  push_cast at this ⊢
  simp only [pow_one] at this
  exact this

/-- For every shell and resolution the integral of the constant-index basis function of a basis of order 3 is wrong. -/
theorem shell_integral_refuted (rin rout : ℝ) (h0 : 0 < rin) (h1 : rin < rout) (alpha : ℝ × ℝ) (ha : -1 < alpha.1) (hb : -1 < alpha.2) (N : Nat) (hN : 0 < N)
    (g : Nat → ℝ) (hg : GridGuess (2 * N) 0 0 g) (θ : ℝ) : ∃ c : Nat → ℂ,
    ∑ j ∈ Finset.range N, (shellIntegrate rin rout alpha N 3 g j : ℂ) * c j ≠
      4 * Real.pi * ∫ r in rin..rout, ((r ^ 2 : ℝ) : ℂ) * radial rin rout alpha N 3 (fun i => (Sphere.Spec.Y 0 0 0 (Real.cos θ) : ℂ) * c i) r := by
  refine ⟨fun j => if j = 0 then 1 else 0, ?_⟩
  have := vector_wrong rin rout h0 h1 alpha ha hb 2 N hN g hg (4 * Real.pi / √2) (by positivity)
  unfold shellIntegrate
  rw [Ball.Y_zero]
  simp only [radial_smul]
  rw [show (fun r : ℝ => ((r ^ 2 : ℝ) : ℂ) * (((1 / √2 : ℝ) : ℂ) * radial rin rout alpha N 3 (fun j => if j = 0 then 1 else 0) r)) =
    fun r => ((1 / √2 : ℝ) : ℂ) * (((r ^ 2 : ℝ) : ℂ) * radial rin rout alpha N 3 (fun j => if j = 0 then 1 else 0) r) by funext r; ring, intervalIntegral.integral_const_mul,
    ← mul_assoc, show (4 : ℂ) * Real.pi * ((1 / √2 : ℝ) : ℂ) = ((4 * Real.pi / √2 : ℝ) : ℂ) by push_cast; ring]
  exact this

/-! ## C74: products -/

theorem product_column (N : Nat) (aN bN a b : ℝ) (da db : Nat) (haN : -1 < aN) (hbN : -1 < bN) (ha : -1 < a) (hb : -1 < b) (K : Nat) (hK : K ≤ N) (c : Nat → ℝ) (z : ℝ)
    (j : Nat) (hj : j < N) : (∑ n ∈ Finset.range K, c n * Q n aN bN z) * Q j a b z =
      ∑ i ∈ Finset.range (2 * N), (∑ l ∈ Finset.range (2 * N), conversion (2 * N) a b da db i l * prodCoef aN bN a b K c j l) * Q i (a + da) (b + db) z := by
  have := product_series N aN bN a b da db haN hbN ha hb K hK c (fun i => if i = j then 1 else 0) z
  simp only [ite_mul, one_mul, zero_mul, mul_ite, mul_one, mul_zero, Finset.sum_ite_eq', if_pos (Finset.mem_range.2 hj)] at this
  exact this

theorem product_exact (rin rout : ℝ) (alpha : ℝ × ℝ) (ha : -1 < alpha.1) (hb : -1 < alpha.2) (N K kN kA : Nat) (hK : K ≤ N) (cutoff : ℝ) (f : Nat → ℝ) (u : Nat → ℂ) :
    ∃ w : Nat → ℂ,
      (∀ r, radial rin rout alpha K kN (fun n => ((if |f n| > cutoff then f n else 0 : ℝ) : ℂ)) r * radial rin rout alpha N kA u r =
        radial rin rout alpha (2 * N) (kN + kA) w r) ∧
      ∀ i, i < N → apply N (nccMatrix alpha N kN kA ((List.range K).map f) cutoff) u i = w i := by
  have hkN : (0 : ℝ) ≤ kN := Nat.cast_nonneg kN
  have hkA : (0 : ℝ) ≤ kA := Nat.cast_nonneg kA
  set A : Nat → Nat → ℝ := fun i j => ∑ l ∈ Finset.range (2 * N), conversion (2 * N) (kA + alpha.1) (kA + alpha.2) kN kN i l *
    prodCoef (kN + alpha.1) (kN + alpha.2) (kA + alpha.1) (kA + alpha.2) K (fun n => if |f n| > cutoff then f n else 0) j l with hA
  refine ⟨fun i => ∑ j ∈ Finset.range N, (A i j : ℂ) * u j, fun r => ?_, fun i hi => ?_⟩
  · have e1 : alpha.1 + ((kN + kA : Nat) : ℝ) = kA + alpha.1 + kN := by push_cast; ring
    have e2 : alpha.2 + ((kN + kA : Nat) : ℝ) = kA + alpha.2 + kN := by push_cast; ring
    unfold radial
    rw [e1, e2, add_comm alpha.1, add_comm alpha.2, add_comm alpha.1, add_comm alpha.2, pow_add]
    set z := native rin rout r
    have hr : ∀ j ∈ Finset.range N, (∑ n ∈ Finset.range K, (if |f n| > cutoff then f n else 0) * Q n (kN + alpha.1) (kN + alpha.2) z) * Q j (kA + alpha.1) (kA + alpha.2) z =
        ∑ i ∈ Finset.range (2 * N), A i j * Q i (kA + alpha.1 + kN) (kA + alpha.2 + kN) z :=
      fun j hj => product_column N _ _ _ _ kN kN (by linarith) (by linarith) (by linarith) (by linarith) K hK _ z j (Finset.mem_range.1 hj)
    have key : (∑ n ∈ Finset.range K, (Q n (kN + alpha.1) (kN + alpha.2) z : ℂ) * ((if |f n| > cutoff then f n else 0 : ℝ) : ℂ)) *
        ∑ j ∈ Finset.range N, (Q j (kA + alpha.1) (kA + alpha.2) z : ℂ) * u j =
        ∑ i ∈ Finset.range (2 * N), (Q i (kA + alpha.1 + kN) (kA + alpha.2 + kN) z : ℂ) * ∑ j ∈ Finset.range N, (A i j : ℂ) * u j := by
      rw [Finset.mul_sum]
      simp only [Finset.mul_sum (Finset.range N)]
      rw [Finset.sum_comm]
      apply Finset.sum_congr rfl
      intro j hj
      have h' : (∑ n ∈ Finset.range K, (Q n (kN + alpha.1) (kN + alpha.2) z : ℂ) * ((if |f n| > cutoff then f n else 0 : ℝ) : ℂ)) * (Q j (kA + alpha.1) (kA + alpha.2) z : ℂ) =
          ∑ i ∈ Finset.range (2 * N), (A i j : ℂ) * (Q i (kA + alpha.1 + kN) (kA + alpha.2 + kN) z : ℂ) := by
        have := congrArg (fun x : ℝ => (x : ℂ)) (hr j hj)
        simp only [Complex.ofReal_mul, Complex.ofReal_sum] at this
        rw [← this]
        congr 1
        apply Finset.sum_congr rfl
        intro n _
        ring
      rw [← mul_assoc, h', Finset.sum_mul]
      apply Finset.sum_congr rfl
      intro i _
      ring
    rw [← key]
    push_cast
    ring
  · unfold apply
    apply Finset.sum_congr rfl
    intro j hj
    have hj' := Finset.mem_range.1 hj
    have hjM : j < nccSize N kN := by unfold nccSize; omega
    congr 2
    unfold nccMatrix
    rw [dif_pos hjM, hA]
    beta_reduce
    rw [← ncc_entry_size N (nccSize N kN) _ _ _ _ kN kN (by linarith) (by linarith) (by linarith) (by linarith) K hK f cutoff i j hi hj' hjM (by unfold nccSize; omega)]
    apply Finset.sum_congr rfl
    intro l _
    congr 1
    unfold jacobiConversion square
    rw [pow_rows _ AB_shift.2.2, if_pos (by unfold nccSize; omega), AB_pow _ _ (by linarith) (by linarith) kN _ i l (by unfold nccSize; omega) l.2]

/-- The matrix of a non-constant coefficient gives the first `N` coefficients of the product of the two functions, in the basis of order
`kN + kA`. The real and imaginary parts of the NCC are both multiplied, and its coefficients at most the cutoff are dropped. -/
theorem radial_product (rin rout : ℝ) (alpha : ℝ × ℝ) (ha : -1 < alpha.1) (hb : -1 < alpha.2) (N K kN kA : Nat) (hK : K ≤ N) (cutoff : ℝ) (cos msin : Nat → ℝ) (u : Nat → Nat → ℝ) :
    ∃ w : Nat → ℂ,
      (∀ r, radial rin rout alpha K kN (fun n => ((if |cos n| > cutoff then cos n else 0 : ℝ) : ℂ) + Complex.I * ((if |msin n| > cutoff then msin n else 0 : ℝ) : ℂ)) r *
        radial rin rout alpha N kA (fun j => (u 0 j : ℂ) + Complex.I * u 1 j) r = radial rin rout alpha (2 * N) (kN + kA) w r) ∧
      ∀ i, i < N → (nccReal alpha N kN kA ((List.range K).map cos) ((List.range K).map msin) cutoff u 0 i : ℂ) +
        Complex.I * nccReal alpha N kN kA ((List.range K).map cos) ((List.range K).map msin) cutoff u 1 i = w i := by
  obtain ⟨w1, p1, m1⟩ := product_exact rin rout alpha ha hb N K kN kA hK cutoff cos (fun j => (u 0 j : ℂ) + Complex.I * u 1 j)
  obtain ⟨w2, p2, m2⟩ := product_exact rin rout alpha ha hb N K kN kA hK cutoff msin (fun j => (u 0 j : ℂ) + Complex.I * u 1 j)
  refine ⟨fun i => w1 i + Complex.I * w2 i, fun r => ?_, fun i hi => ?_⟩
  · rw [radial_add rin rout alpha K, radial_smul rin rout alpha K, add_mul, mul_assoc, p1, p2, ← radial_smul, ← radial_add]
  · beta_reduce
    rw [← m1 i hi, ← m2 i hi]
    unfold nccReal apply
    simp only [if_pos, if_neg one_ne_zero]
    push_cast
    simp only [mul_add, Finset.mul_sum, ← Finset.sum_add_distrib]
    apply Finset.sum_congr rfl
    intro j _
    linear_combination (-(nccMatrix alpha N kN kA ((List.range K).map msin) cutoff i j : ℂ) * u 1 j) * Complex.I_mul_I

example : ∃ g, GridGuess 6 (-1 / 2) (-1 / 2) g := guess_exists 6 _ _ (by norm_num) (by norm_num)
example : ∃ g, GridGuess (2 * 5) 0 0 g := guess_exists (2 * 5) 0 0 (by norm_num) (by norm_num)
example := radial_product 1 3 (-1 / 2, -1 / 2) (by norm_num) (by norm_num) 5 3 1 2 (by norm_num) 0 (fun n => n) (fun _ => 1) (fun _ j => j)

end Dedalus.Shell
