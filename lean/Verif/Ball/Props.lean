import Verif.Ball.Calculus
import Verif.Zernike.DiskProps
import Verif.Sphere.Harmonic

/-!
# Properties of operators on tensors in the ball
-/

namespace Dedalus.Ball

open Jacobi (GridGuess)
open Regularity (intertwiner Unit3 T mem_T mix inter_tail)
open Regularity.Spec
open Zernike (apply derivativeK square zD zE)
open Zernike.Spec

/-! ## C71: tensor calculus in the ball -/

/-- The spin component `τ` at radius `r` of the tensor field of degree `ell` with the coefficients `c`: what the backward transform
evaluates. The component of regularities `reg` is a Zernike function of order `ell + reg.sum`. -/
noncomputable def Spec.field (ell rank N : Nat) (radius k : ℝ) (c : List Int → Nat → ℂ) (τ : List Int) (r : ℝ) : ℂ :=
  spinComponent ell rank (fun reg => radial 3 N radius k (ell + reg.sum).toNat (c reg) r) τ

/-- The regularity components of the spin components `u` of a tensor of degree `ell`. -/
noncomputable def Spec.regularityComponent (ell rank : Nat) (u : List Int → ℂ) (reg : List Int) : ℂ := ∑ spin ∈ T rank, (intertwiner ell reg spin : ℂ) * u spin

/-- The ladder coefficients of the specification are those of the spin-weighted harmonics: the derivative on the unit sphere along
`(e_θ ± i e_φ) / √2` of the harmonic of spin weight `s` is this multiple of the harmonic of spin weight `s ± 1`. -/
theorem harmonic_ladder (ell : Nat) (m s mu : Int) (hmu : mu = 1 ∨ mu = -1) (hm : m.natAbs ≤ ell) (hs : s.natAbs ≤ ell) (θ : ℝ) (h0 : 0 < θ) (h1 : θ < Real.pi) :
    Sphere.Spec.HasSpinDeriv mu m s (fun x => (Sphere.Spec.Y ell m s (Real.cos x) : ℂ)) ((ladder ell mu s * Sphere.Spec.Y ell m (s + mu) (Real.cos θ) : ℝ) : ℂ) θ := by
  obtain ⟨F', d, e⟩ := Sphere.Y_ladder ell m s mu hmu hm hs θ h0 h1
  refine ⟨F', d.ofReal_comp, ?_⟩
  have : ladder ell mu s = Sphere.k ell s mu := by
    unfold ladder Sphere.k
    congr 2
    rw [max_eq_right]
    · rcases hmu with rfl | rfl
      · refine div_nonneg (mul_nonneg ?_ ?_) (by norm_num) <;> norm_cast <;> omega
      · refine div_nonneg (mul_nonneg ?_ ?_) (by norm_num) <;> norm_cast <;> omega
  rw [this, e]
  push_cast
  ring

theorem radial_lin (dim N : Nat) (radius k : ℝ) (l : Nat) (x y : ℂ) (c d : Nat → ℂ) (r : ℝ) :
    radial dim N radius k l (fun n => x * c n + y * d n) r = x * radial dim N radius k l c r + y * radial dim N radius k l d r := by
  unfold radial
  rw [Finset.mul_sum, Finset.mul_sum, ← Finset.sum_add_distrib]
  exact Finset.sum_congr rfl fun n _ => by ring

theorem ball_ladder (radius : ℝ) (hR : radius ≠ 0) (N k ell : Nat) (alpha : ℝ) (ha : -1 < alpha) (r : ℝ) (hr : 0 < r) :
    Ladder N ell (ladderMatrix radius N k alpha (-1) ell) (ladderMatrix radius N k alpha 1 ell)
      (fun deg c => radial 3 N radius (alpha + k) (ell + deg).toNat c) (fun deg c => radial 3 N radius (alpha + (derivativeK k 1 : Nat)) (ell + deg).toNat c) r := by
  have hk : -1 < alpha + (k : ℝ) := by have : (0 : ℝ) ≤ k := Nat.cast_nonneg k; linarith
  have e1 : alpha + ((derivativeK k 1 : Nat) : ℝ) = alpha + k + 1 := by unfold derivativeK; push_cast; ring
  refine ⟨fun deg x y c d => radial_lin _ _ _ _ _ _ _ _ _ _, fun deg c d h => Zernike.radial_congr _ _ _ _ _ _ _ _ h, fun deg c => ?_, fun deg h c => ?_, fun deg h c => ?_⟩
  · exact ⟨_, Zernike.radial_plus 3 N (alpha + k) _ radius r (by norm_num) hk hR hr.ne' c⟩
  · obtain ⟨l, hl⟩ : ∃ l : Nat, (ell : Int) + deg = l := ⟨(ell + deg).toNat, by omega⟩
    have hlr : (ell : ℝ) + (deg : ℝ) = l := by exact_mod_cast hl
    have := Zernike.radial_plus 3 N (alpha + k) l radius r (by norm_num) hk hR hr.ne' c
    rw [← add_assoc, hl, show ((l : Int) + 1).toNat = l + 1 by omega, hlr, e1]
    unfold ladderMatrix
    rw [hl, Int.toNat_natCast]
    push_cast at this ⊢
    exact this
  · obtain ⟨l, hl⟩ : ∃ l : Nat, (ell : Int) + deg = (l + 1 : Nat) := ⟨(ell + deg - 1).toNat, by omega⟩
    have hlr : (ell : ℝ) + (deg : ℝ) = (l + 1 : Nat) := by exact_mod_cast hl
    have := Zernike.radial_minus 3 N (alpha + k) l radius r (by norm_num) hk hR hr.ne' c
    rw [show (ell : Int) + (deg - 1) = l by omega, Int.toNat_natCast, hl, Int.toNat_natCast, hlr, e1]
    unfold ladderMatrix
    rw [hl]
    push_cast at this ⊢
    convert this using 3
    ring

/-- The gradient of a tensor field of any rank: the coefficients computed in the basis of order `k + 1` are those of the gradient. -/
theorem ball_gradient (radius : ℝ) (hR : radius ≠ 0) (N k ell rank : Nat) (alpha : ℝ) (ha : -1 < alpha) (c : List Int → Nat → ℂ) (r : ℝ) (hr : 0 < r) :
    IsGradient ell rank (Spec.field ell rank N radius (alpha + k) c)
      (fun τ => Spec.field ell (rank + 1) N radius (alpha + (derivativeK k 1 : Nat))
        (operate N ell (gradientTerms ell (ladderMatrix radius N k alpha (-1) ell) (ladderMatrix radius N k alpha 1 ell)) rank c) τ r) r :=
  (ball_ladder radius hR N k ell alpha ha r hr).gradient hr.ne' rank c

/-- The divergence of a tensor field of any rank, over its first index. -/
theorem ball_divergence (radius : ℝ) (hR : radius ≠ 0) (N k ell rank : Nat) (alpha : ℝ) (ha : -1 < alpha) (c : List Int → Nat → ℂ) (r : ℝ) (hr : 0 < r) :
    IsDivergence ell rank (Spec.field ell (rank + 1) N radius (alpha + k) c)
      (fun τ => Spec.field ell rank N radius (alpha + (derivativeK k 1 : Nat))
        (operate N ell (divergenceTerms ell (ladderMatrix radius N k alpha (-1) ell) (ladderMatrix radius N k alpha 1 ell)) (rank + 1) c) τ r) r :=
  (ball_ladder radius hR N k ell alpha ha r hr).divergence rank c

/-- The curl of a tensor field of any rank, over its first index. -/
theorem ball_curl (radius : ℝ) (hR : radius ≠ 0) (N k ell rank : Nat) (alpha : ℝ) (ha : -1 < alpha) (c : List Int → Nat → ℂ) (r : ℝ) (hr : 0 < r) :
    IsCurl ell rank (Spec.field ell (rank + 1) N radius (alpha + k) c)
      (fun τ => Spec.field ell (rank + 1) N radius (alpha + (derivativeK k 1 : Nat))
        (operate N ell (curlTerms ell (ladderMatrix radius N k alpha (-1) ell) (ladderMatrix radius N k alpha 1 ell)) (rank + 1) c) τ r) r :=
  (ball_ladder radius hR N k ell alpha ha r hr).curl hr.ne' rank c

/-- The Laplacian of a tensor field of any rank. -/
theorem ball_laplacian (radius : ℝ) (hR : radius ≠ 0) (N k ell rank : Nat) (alpha : ℝ) (ha : -1 < alpha) (c : List Int → Nat → ℂ) (r : ℝ) (hr : 0 < r) :
    IsLaplacian ell rank (Spec.field ell rank N radius (alpha + k) c)
      (fun τ => Spec.field ell rank N radius (alpha + (derivativeK k 2 : Nat))
        (operate N ell (diagonalTerms (laplacianMatrix radius N k alpha ell)) rank c) τ r) r := by
  refine ladder_laplacian hr (fun x hx => ball_ladder radius hR N k ell alpha ha x hx) (ball_ladder radius hR N (k + 1) ell alpha ha r hr) ?_ rank c
  intro deg h c
  obtain ⟨l, hl⟩ : ∃ l : Nat, (ell : Int) + deg = l := ⟨(ell + deg).toNat, by omega⟩
  unfold laplacianMatrix ladderMatrix
  rw [show (ell : Int) + (deg + 1) = (l + 1 : Nat) by push_cast; omega, hl, Zernike.radial_minus_plus]
  push_cast
  simp only [add_assoc]

/-- Conversion to a basis of higher order `k` does not change the field. -/
theorem ball_conversion (radius : ℝ) (N k dk ell rank : Nat) (alpha : ℝ) (ha : -1 < alpha) (c : List Int → Nat → ℂ) (τ : List Int) (hτ : Component rank τ) (r : ℝ) :
    Spec.field ell rank N radius (alpha + (k + dk : Nat)) (operate N ell (diagonalTerms (conversionMatrix N k alpha dk ell)) rank c) τ r =
      Spec.field ell rank N radius (alpha + k) c τ r := by
  have hk : -1 < alpha + (k : ℝ) := by have : (0 : ℝ) ≤ k := Nat.cast_nonneg k; linarith
  refine mix_congr ell rank _ _ τ hτ.1 fun b hb h => ?_
  have hJ := Regularity.allowed_sum ell b h
  obtain ⟨l, hl⟩ : ∃ l : Nat, (ell : Int) + b.sum = l := ⟨(ell + b.sum).toNat, by omega⟩
  rw [Zernike.radial_congr _ _ _ _ _ _ _ _ fun n _ => diagonal_out N ell _ rank c b hb h n, hl, Int.toNat_natCast]
  have e : conversionMatrix N k alpha dk ell b.sum = square 3 ((zE 1).pow dk) N (alpha + k) (l : Nat) := by unfold conversionMatrix; rw [hl]
  rw [e, Zernike.radial_sum]
  unfold radial
  apply Finset.sum_congr rfl
  intro n hn
  congr 2
  rw [Zernike.Z_convert 3 dk N (alpha + k) l (r / radius) (by norm_num) hk n (Finset.mem_range.1 hn)]
  apply Finset.sum_congr rfl
  intro i hi
  unfold Zernike.square
  have hrows : ((zE 1).pow dk).rows N = N := by
    unfold zE
    rw [if_pos rfl, (Zernike.smul_pow _ Jacobi.opAp N 0 0 dk).1]
    induction dk with
    | zero => rfl
    | succ d ih => exact ih (by unfold conversionMatrix; rw [hl])
  rw [hrows, if_pos (Finset.mem_range.1 hi)]
  push_cast
  rw [add_assoc]

/-- Interpolation gives the spin components of the field at every radius other than the centre. -/
theorem ball_interpolation (radius : ℝ) (hR : 0 < radius) (N k ell rank : Nat) (alpha : ℝ) (ha : -1 < alpha) (position : ℝ) (hp : 0 < position) (c : List Int → Nat → ℂ)
    (τ : List Int) (hτ : Component rank τ) : interpolate radius N k alpha ell rank position c τ = Spec.field ell rank N radius (alpha + k) c τ position := by
  have hk : -1 < alpha + (k : ℝ) := by have : (0 : ℝ) ≤ k := Nat.cast_nonneg k; linarith
  refine mix_congr ell rank _ _ τ hτ.1 fun b hb h => ?_
  have hJ := Regularity.allowed_sum ell b h
  obtain ⟨l, hl⟩ : ∃ l : Nat, (ell : Int) + b.sum = l := ⟨(ell + b.sum).toNat, by omega⟩
  rw [if_pos ((allowed_iff ell b ((mem_T rank b).1 hb).2).2 h)]
  unfold radial
  apply Finset.sum_congr rfl
  intro j hj
  unfold interpolation
  simp only
  rw [hl, Int.toNat_natCast, Zernike.polynomials_Z 3 N _ _ _ (by norm_num) hk (div_pos hp hR) j (Finset.mem_range.1 hj).le]

theorem constant_mode (k : Nat) (alpha : ℝ) (ha : -1 < alpha) (r : ℝ) : constantModeValue k alpha = Z 3 0 (alpha + k) 0 r ∧ 0 < constantModeValue k alpha := by
  have hk : -1 < alpha + (k : ℝ) := by have : (0 : ℝ) ≤ k := Nat.cast_nonneg k; linarith
  have e : constantModeValue k alpha = Z 3 0 (alpha + k) 0 √(1 / 2) := by
    unfold constantModeValue
    have := Zernike.polynomials_Z 3 1 (alpha + k) 0 √(1 / 2) (by norm_num) hk (Real.sqrt_pos.2 (by norm_num)) 0 (by norm_num)
    rw [Real.sq_sqrt (by norm_num)] at this
    norm_num at this ⊢
    exact this
  have hconst : ∀ r r' : ℝ, Z 3 0 (alpha + k) 0 r = Z 3 0 (alpha + k) 0 r' := by
    intro r r'
    rw [Zernike.Z_eq, Zernike.Z_eq, Jacobi.Spec.Q, Jacobi.Spec.Q, Jacobi.P_zero, Jacobi.P_zero]
    simp
  refine ⟨e.trans (hconst _ _), ?_⟩
  rw [e, hconst _ 1]
  exact (Zernike.zernike_functions 3 0 0 (alpha + k) (by norm_num) hk).2.1

theorem Y_zero (z : ℝ) : Sphere.Spec.Y 0 0 0 z = 1 / √2 := by
  have hn : Jacobi.Spec.norm2 0 (0 : ℝ) 0 = 2 := by
    rw [← Jacobi.mass_norm]
    unfold Jacobi.mass
    norm_num [Real.Gamma_two]
  simp [Sphere.Spec.Y, Jacobi.Spec.Q, Jacobi.P_zero, hn]

/-- A constant `v` becomes the coefficients of the scalar field that is `v` everywhere: on the ball the field of degree 0 is the radial
function times the harmonic of degree 0. -/
theorem ball_constant (onBall : Bool) (radius : ℝ) (N k : Nat) (hN : 0 < N) (alpha : ℝ) (ha : -1 < alpha) (v : ℂ) (r θ : ℝ) :
    (∀ ell i, 0 < ell → convertConstant onBall k alpha ell i = none) ∧ ∃ q : Nat → ℝ, (∀ i, convertConstant onBall k alpha 0 i = some (q i)) ∧
      Spec.field 0 0 N radius (alpha + k) (fun _ i => (q i : ℂ) * v) [] r * (if onBall then (Sphere.Spec.Y 0 0 0 (Real.cos θ) : ℂ) else 1) = v := by
  refine ⟨fun ell i h => if_neg h.ne', fun i => if i = 0 then 1 / (if onBall then constantModeValue k alpha / √2 else constantModeValue k alpha) else 0, fun i => by simp [convertConstant], ?_⟩
  obtain ⟨e, hp⟩ := constant_mode k alpha ha (r / radius)
  have hc : (constantModeValue k alpha : ℂ) ≠ 0 := by exact_mod_cast hp.ne'
  have h2 : ((√2 : ℝ) : ℂ) ≠ 0 := by exact_mod_cast (Real.sqrt_pos.2 (by norm_num : (0 : ℝ) < 2)).ne'
  have hf : Spec.field 0 0 N radius (alpha + k) (fun _ i => (((if i = 0 then 1 / (if onBall then constantModeValue k alpha / √2 else constantModeValue k alpha) else 0 : ℝ)) : ℂ) * v) [] r =
      (constantModeValue k alpha : ℂ) * (((1 / (if onBall then constantModeValue k alpha / √2 else constantModeValue k alpha) : ℝ)) * v) := by
    simp only [Spec.field, spinComponent, Regularity.range, List.map_cons, List.map_nil, List.sum_cons, List.sum_nil, add_zero, Regularity.intertwiner, Nat.cast_zero, Int.toNat_zero,
      Complex.ofReal_one, one_mul]
    unfold radial
    rw [Finset.sum_eq_single 0]
    · beta_reduce
      rw [← e, if_pos rfl]
    · intro n _ hn; simp [hn]
    · intro h; exact absurd (Finset.mem_range.2 hN) h
  rw [hf]
  cases onBall
  · simp only [Bool.false_eq_true, if_false]
    push_cast
    field_simp
  · simp only [if_true]
    rw [Y_zero]
    push_cast
    field_simp

theorem integral_vector (Nc k : Nat) (hNc : 0 < Nc) (alpha : ℝ) (ha : -1 < alpha) (g : Nat → ℝ) (hg : GridGuess Nc 0 (1 / 2) g) (j : Nat) (hj : j < Nc) :
    integralVector Nc k alpha g j = ∫ r in (0 : ℝ)..1, Z 3 j (alpha + k) 0 r * r ^ 2 := by
  have hk : -1 < alpha + (k : ℝ) := by have : (0 : ℝ) ≤ k := Nat.cast_nonneg k; linarith
  have hg' : GridGuess Nc 0 (((3 : Nat) : ℝ) / 2 - 1) g := by convert hg using 1; norm_num
  have h0 : (-1 : ℝ) < 0 := by norm_num
  have hG := Zernike.gauss_radial 3 Nc 0 g (by norm_num) h0 hNc hg' (Polynomial.C (Zernike.cst 3 (alpha + k) 0) * Jacobi.polyQ j (alpha + k) (((0 : Nat) : ℝ) + ((3 : Nat) : ℝ) / 2 - 1))
    (lt_of_le_of_lt ((Polynomial.natDegree_C_mul_le _ _).trans (Jacobi.polyQ_degree _ _ _)) (by omega))
  have e : ∀ r : ℝ, (Polynomial.C (Zernike.cst 3 (alpha + k) 0) * Jacobi.polyQ j (alpha + k) (((0 : Nat) : ℝ) + ((3 : Nat) : ℝ) / 2 - 1)).eval (2 * r ^ 2 - 1) = Z 3 j (alpha + k) 0 r := by
    intro r
    rw [Polynomial.eval_mul, Polynomial.eval_C, Jacobi.polyQ_eval, Zernike.Z_eq, pow_zero, mul_one]
  simp only [e, Real.rpow_zero, one_mul, Nat.add_one_sub_one] at hG
  rw [← hG]
  unfold integralVector
  apply Finset.sum_congr rfl
  intro i hi
  obtain ⟨hp, -, hz⟩ := Zernike.grid_eq 3 Nc 0 g (by norm_num) h0 hNc hg' i (Finset.mem_range.1 hi)
  have hn : (Zernike.nSize Nc 0).toNat = Nc := by unfold Zernike.nSize; simp
  rw [hn, hz]
  have := Zernike.polynomials_Z 3 Nc (alpha + k) 0 (Zernike.radiusGrid 3 Nc 0 g i) (by norm_num) hk hp j hj.le
  rw [Nat.cast_zero] at this
  rw [this]

/-- The integral over the ball of a scalar field: only the degree 0 counts, whose value is its radial function times the harmonic
of degree 0, and the integral is `4 π ∫ F(r) r^2 dr` of this value. -/
theorem ball_integral (radius : ℝ) (hR : 0 < radius) (Nc k : Nat) (hNc : 0 < Nc) (alpha : ℝ) (ha : -1 < alpha) (g : Nat → ℝ) (hg : GridGuess Nc 0 (1 / 2) g)
    (c : List Int → Nat → ℂ) (θ : ℝ) :
    ∑ j ∈ Finset.range Nc, (integrate radius Nc k alpha g j : ℂ) * c [] j =
      4 * Real.pi * ∫ r in (0 : ℝ)..radius, (Spec.field 0 0 Nc radius (alpha + k) c [] r * Sphere.Spec.Y 0 0 0 (Real.cos θ)) * (r : ℂ) ^ 2 := by
  have h := Zernike.radial_integral 3 Nc 2 radius (alpha + k) hR 0 (c [])
  have e : ∀ r : ℝ, (Spec.field 0 0 Nc radius (alpha + k) c [] r * Sphere.Spec.Y 0 0 0 (Real.cos θ)) * (r : ℂ) ^ 2 =
      ((1 / √2 : ℝ) : ℂ) * (radial 3 Nc radius (alpha + k) 0 (c []) r * (r : ℂ) ^ 2) := by
    intro r
    rw [Y_zero]
    simp only [Spec.field, spinComponent, Regularity.range, List.map_cons, List.map_nil, List.sum_cons, List.sum_nil, add_zero, Regularity.intertwiner, Nat.cast_zero, Int.toNat_zero,
      Complex.ofReal_one, one_mul]
    ring
  simp only [e]
  rw [intervalIntegral.integral_const_mul, h, Finset.mul_sum, Finset.mul_sum]
  apply Finset.sum_congr rfl
  intro j hj
  unfold integrate
  rw [integral_vector Nc k hNc alpha ha g hg j (Finset.mem_range.1 hj)]
  push_cast
  ring

/-- Lifting boundary values `tau`: every regularity component of the result is the radial function of index `n`, counted from the end if `n`
is negative, times the regularity component of `tau`. -/
theorem ball_lift (radius : ℝ) (N k ell rank : Nat) (alpha : ℝ) (n : Int) (h : -(N : Int) ≤ n ∧ n < N) (tau : List Int → ℂ) (τ : List Int) (hτ : Component rank τ) (r : ℝ) :
    ∃ q : List Int → Nat → ℂ, (∀ reg i, lift N n ell rank tau reg i = some (q reg i)) ∧ ∃ j : Nat, j < N ∧ (j : Int) = (if n < 0 then N + n else n) ∧
      Spec.field ell rank N radius (alpha + k) q τ r =
        spinComponent ell rank (fun reg => (Z 3 j (alpha + k) (ell + reg.sum).toNat (r / radius) : ℂ) * Spec.regularityComponent ell rank tau reg) τ := by
  obtain ⟨j, hj, hjN⟩ : ∃ j : Nat, (j : Int) = (if n < 0 then N + n else n) ∧ j < N := by
    refine ⟨(if n < 0 then N + n else n).toNat, ?_, ?_⟩ <;> split <;> omega
  have hj' : ∀ i : Nat, ((i : Int) = (if n < 0 then n + N else n)) ↔ i = j := by
    intro i; split at hj <;> split <;> omega
  refine ⟨fun reg i => if allowed ell reg then (if i = j then ((Regularity.range Regularity.ordering rank).map fun spin => (intertwiner ell reg spin : ℂ) * tau spin).sum else 0) else 0,
    fun reg i => by unfold lift; rw [if_pos h]; simp only [hj'], j, hjN, hj, ?_⟩
  refine mix_congr ell rank _ _ τ hτ.1 fun b hb hA => ?_
  unfold radial
  rw [Finset.sum_eq_single j]
  · beta_reduce
    rw [if_pos ((allowed_iff ell b ((mem_T rank b).1 hb).2).2 hA), if_pos rfl]
    rfl
  · intro i _ hi; simp [hi]
  · intro hh; exact absurd (Finset.mem_range.2 hjN) hh

example (r : ℝ) (hr : 0 < r) := ball_gradient 2 (by norm_num) 5 1 3 1 0 (by norm_num) (fun reg n => if n = 2 ∧ reg = [1] then 1 else 0) r hr
example : Component 2 [1, -1] := ⟨rfl, by simp⟩

end Dedalus.Ball
