import Verif.Zncc.Entries

/-!
# C86: coefficients that depend on the radius in balls and disks
-/

namespace Dedalus.Zncc

open Jacobi (Op)
open Zernike hiding polynomials quadrature forwardMatrix backwardMatrix
open Zernike.Spec Spec

theorem gt_add (alpha : ℝ) (ha : -1 < alpha) (k : Nat) : -1 < alpha + k := by have : (0 : ℝ) ≤ k := Nat.cast_nonneg _; linarith

theorem zrep_ball (alpha : ℝ) (ha : -1 < alpha) (kN kA ell lN lA lO : Nat) (rA rO : Int) (hA : (lA : Int) = ell + rA) (hO : (lO : Int) = ell + rO)
    (hd : 0 ≤ (lN : Int) - |rO - rA|) (h2 : ((lN : Int) - |rO - rA|) % 2 = 0) :
    ZRep 3 (ballOp (rO - rA) (lN - |rO - rA|) (max kN kA - kA)) lN (alpha + kA) lA (alpha + (max kN kA : Nat)) lO := by
  have h := ZRep.comp (zrep_E 3 (by norm_num) (alpha + kA) (gt_add alpha ha kA) lO (max kN kA - kA))
    (zrep_radius 3 (by norm_num) (alpha + kA) (gt_add alpha ha kA) lA lO (rO - rA) (lN - |rO - rA|) hd h2 (by omega))
  rw [show (0 + ((lN : Int) - |rO - rA| + |rO - rA|).toNat) = lN by omega, show alpha + (kA : ℝ) + ((max kN kA - kA : Nat) : ℝ) = alpha + ((max kN kA : Nat) : ℝ) by
    rw [Nat.cast_sub (le_max_right _ _)]; ring] at h
  exact h

theorem ball_rows (diff d : Int) (hd : 0 ≤ d) (dk n : Nat) : n ≤ (ballOp diff d dk).rows n := by
  have := (Band.comp (band_E dk (0 + (radiusOp diff d).da) (0 + (radiusOp diff d).db)) (band_radius diff d hd 0 0)).rows n
  unfold ballOp
  omega

/-- Complex data in the ball. For a component of the coefficient of total regularity at most 2, the computed matrix gives the first coefficients of
the product of the coefficient and the operand, for every operand, as functions of the radius. -/
theorem ball_product (Nc N : Nat) (radius alpha : ℝ) (ha : -1 < alpha) (kN kA ell : Nat) (hN : N = Nc - ell / 2) (rN rA rO : Int) (hA : 0 ≤ ell + rA) (hO : 0 ≤ ell + rO)
    (hr : rN ≤ 2) (hd : 0 ≤ rN - |rO - rA|) (h2 : (rN - |rO - rA|) % 2 = 0) (c u : Nat → ℂ) (cutoff : ℝ) :
    ∃ L w, N ≤ L ∧ (∀ r, radial 3 Nc radius (alpha + kN) rN.toNat (above cutoff c) r *
        radial 3 (N) radius (alpha + kA) (ell + rA).toNat u r = radial 3 L radius (alpha + (max kN kA : Nat)) (ell + rO).toNat w r) ∧
      ∀ i, i < N →
        ∑ j ∈ Finset.range (N), ballNcc Nc alpha kN kA ell rN rA rO ((List.range Nc).map c) cutoff i j * u j = w i := by
  obtain rfl : N = ballSize Nc ell := hN
  obtain ⟨lA, hlA⟩ := Int.eq_ofNat_of_zero_le hA
  obtain ⟨lO, hlO⟩ := Int.eq_ofNat_of_zero_le hO
  obtain ⟨lN, rfl⟩ := Int.eq_ofNat_of_zero_le (show 0 ≤ rN by have := abs_nonneg (rO - rA); omega)
  rw [hlA, hlO]
  simp only [Int.toNat_natCast]
  refine ⟨_, _, ?_, fun r => series_product 3 (by norm_num) _ Nc (ballSize Nc ell) radius (alpha + kN) (gt_add alpha ha kN) lN (alpha + kA) (gt_add alpha ha kA) lA _ lO
    (zrep_ball alpha ha kN kA ell lN lA lO rA rO hlA.symm hlO.symm hd h2) (above cutoff c) u r, fun i hi => ?_⟩
  · have := ball_rows (rO - rA) (lN - |rO - rA|) hd (max kN kA - kA) (Nc + ballSize Nc ell); omega
  · apply Finset.sum_congr rfl
    intro j hj
    have hj' := Finset.mem_range.1 hj
    rw [ball_entry Nc alpha ha kN kA ell lN lA lO rA rO hlA.symm hlO.symm (by omega) hd h2 c cutoff i j (Nc + ballSize Nc ell) hi hj' (by omega)]
    rfl

/-- Real data in the ball: the two parts of the computed product are the real and imaginary parts of the first coefficients of the product. -/
theorem ball_product_real (Nc N : Nat) (radius alpha : ℝ) (ha : -1 < alpha) (kN kA ell : Nat) (hN : N = Nc - ell / 2) (rN rA rO : Int) (hA : 0 ≤ ell + rA) (hO : 0 ≤ ell + rO)
    (hr : rN ≤ 2) (hd : 0 ≤ rN - |rO - rA|) (h2 : (rN - |rO - rA|) % 2 = 0) (cos msin : Nat → ℝ) (u : Nat → Nat → ℝ) (cutoff : ℝ) :
    ∃ L w, N ≤ L ∧ (∀ r, radial 3 Nc radius (alpha + kN) rN.toNat (fun n => ((above cutoff cos n : ℝ) : ℂ) + Complex.I * ((above cutoff msin n : ℝ) : ℂ)) r *
        radial 3 (N) radius (alpha + kA) (ell + rA).toNat (fun n => (u 0 n : ℂ) + Complex.I * (u 1 n : ℂ)) r =
          radial 3 L radius (alpha + (max kN kA : Nat)) (ell + rO).toNat w r) ∧
      ∀ i, i < N →
        (ballReal Nc alpha kN kA ell rN rA rO ((List.range Nc).map cos) ((List.range Nc).map msin) cutoff u 0 i : ℂ) +
          Complex.I * (ballReal Nc alpha kN kA ell rN rA rO ((List.range Nc).map cos) ((List.range Nc).map msin) cutoff u 1 i : ℂ) = w i := by
  obtain rfl : N = ballSize Nc ell := hN
  obtain ⟨lA, hlA⟩ := Int.eq_ofNat_of_zero_le hA
  obtain ⟨lO, hlO⟩ := Int.eq_ofNat_of_zero_le hO
  obtain ⟨lN, rfl⟩ := Int.eq_ofNat_of_zero_le (show 0 ≤ rN by have := abs_nonneg (rO - rA); omega)
  rw [hlA, hlO]
  simp only [Int.toNat_natCast]
  refine ⟨_, _, ?_, fun r => series_product 3 (by norm_num) _ Nc (ballSize Nc ell) radius (alpha + kN) (gt_add alpha ha kN) lN (alpha + kA) (gt_add alpha ha kA) lA _ lO
    (zrep_ball alpha ha kN kA ell lN lA lO rA rO hlA.symm hlO.symm hd h2) _ _ r, fun i hi => ?_⟩
  · have := ball_rows (rO - rA) (lN - |rO - rA|) hd (max kN kA - kA) (Nc + ballSize Nc ell); omega
  · unfold ballReal realProduct
    rw [Complex.ofReal_sum, Complex.ofReal_sum, Finset.mul_sum, ← Finset.sum_add_distrib]
    apply Finset.sum_congr rfl
    intro j hj
    have hj' := Finset.mem_range.1 hj
    have e := fun c : Nat → ℝ => ball_entry Nc alpha ha kN kA ell lN lA lO rA rO hlA.symm hlO.symm (by omega) hd h2 c cutoff i j (Nc + ballSize Nc ell) hi hj' (by omega)
    simp only [RCLike.ofReal_real_eq_id, id] at e
    rw [e, e, if_pos rfl, if_neg (by decide)]
    simp only [add_mul, Finset.sum_add_distrib]
    push_cast
    simp only [mul_assoc, ← Finset.mul_sum]
    generalize (∑ n ∈ Finset.range Nc, ((above cutoff cos n : ℝ) : ℂ) * _) = x
    generalize (∑ n ∈ Finset.range Nc, ((above cutoff msin n : ℝ) : ℂ) * _) = y
    have := Complex.I_mul_I
    linear_combination (-(y * (u 1 j : ℂ))) * this

/-- The coefficients of a function are unique. -/
theorem radial_coefficients_unique (dim : Nat) (hd : 0 < dim) (k : ℝ) (hk : -1 < k) (l N N' : Nat) (radius : ℝ) (hR : 0 < radius) (w w' : Nat → ℂ)
    (h : ∀ r : ℝ, radial dim N radius k l w r = radial dim N' radius k l w' r) (i : Nat) (hi : i < N) (hi' : i < N') : w i = w' i :=
  coefs_unique dim hd k hk l N N' radius hR w w' h i hi hi'

/-- The cases that give an empty block: `d` negative or odd. -/
theorem ball_zero (Nc : Nat) (alpha : ℝ) (kN kA ell : Nat) (rN rA rO : Int) (c : List ℂ) (cutoff : ℝ) (i j : Nat)
    (h : rN < |rO - rA| ∨ (rN - |rO - rA|) % 2 = 1) : ballNcc Nc alpha kN kA ell rN rA rO c cutoff i j = 0 := by
  unfold ballNcc
  simp only
  rw [if_neg (by omega)]

/-! ## Disk -/

theorem half_sum (lN lA lO : Nat) (hd : 0 ≤ (lN : Int) - |(lO : Int) - lA|) (h2 : ((lN : Int) - |(lO : Int) - lA|) % 2 = 0) :
    2 * ((((lO : Int) - lA).toNat + (((lN : Int) - |(lO : Int) - lA|) / 2).toNat : Nat) : Int) = lN + lO - lA := by
  rw [Int.abs_eq_natAbs] at *
  omega

theorem disk_rows (diff d : Int) (hd : 0 ≤ d) (n : Nat) : n ≤ (radiusOp diff d).rows n := by
  have := (band_radius diff d hd 0 0).rows n
  omega

/-- Complex data in the disk, for coefficients with `T` terms and operands with `J` terms: coefficient `i` of the product is correct if
`i + T + J` is small enough. What is missing: the last coefficients of the product, and coefficients with more terms than the operand
(`disk_padding_refuted`, `disk_truncation_refuted`). -/
theorem disk_product_partial (Nr N : Nat) (radius alpha : ℝ) (ha : -1 < alpha) (kN kA : Nat) (m sN sA sO : Int) (hN : N = Nr - m.natAbs / 2)
    (hd : 0 ≤ |sN| - |(|m + sO| - |m + sA|)|) (h2 : (|sN| - |(|m + sO| - |m + sA|)|) % 2 = 0) (T J : Nat) (c u : Nat → ℂ) (cutoff : ℝ)
    (hT : T ≤ N) (hc : ∀ n, T ≤ n → c n = 0) (hu : ∀ n, J ≤ n → u n = 0) :
    ∃ L w, N ≤ L ∧ (∀ r, radial 2 Nr radius (alpha + kN) |sN|.toNat (above cutoff c) r *
        radial 2 N radius (alpha + kA) |m + sA|.toNat u r = radial 2 L radius (alpha + kA) |m + sO|.toNat w r) ∧
      ∀ i, i < N → 2 * ((i : Int) + T + J) + |sN| + |m + sO| - |m + sA| < 4 * (N : Int) + 4 →
        ∑ j ∈ Finset.range N, diskComplex Nr alpha kN kA m sN sA sO ((List.range Nr).map c) cutoff i j * u j = w i := by
  obtain ⟨lA, hlA⟩ := Int.eq_ofNat_of_zero_le (abs_nonneg (m + sA))
  obtain ⟨lO, hlO⟩ := Int.eq_ofNat_of_zero_le (abs_nonneg (m + sO))
  obtain ⟨lN, hlN⟩ := Int.eq_ofNat_of_zero_le (abs_nonneg sN)
  have hd' := hd
  have h2' := h2
  rw [hlA, hlO, hlN] at hd' h2'
  have hz := zrep_radius 2 (by norm_num) (alpha + kA) (gt_add alpha ha kA) lA lO ((lO : Int) - lA) (lN - |(lO : Int) - lA|) hd' h2' (by omega)
  rw [show ((lN : Int) - |(lO : Int) - lA| + |(lO : Int) - lA|).toNat = lN by omega] at hz
  have hN' : (nSize Nr m).toNat = N := by rw [nSize_nat, hN]
  rw [hlA, hlO, hlN]
  simp only [Int.toNat_natCast]
  refine ⟨_, _, ?_, fun r => series_product 2 (by norm_num) _ Nr N radius (alpha + kN) (gt_add alpha ha kN) lN (alpha + kA) (gt_add alpha ha kA) lA _ lO
    hz (above cutoff c) u r, fun i hi hex => ?_⟩
  · have := disk_rows ((lO : Int) - lA) (lN - |(lO : Int) - lA|) hd' (Nr + N); omega
  · have hh := half_sum lN lA lO hd' h2'
    apply Finset.sum_congr rfl
    intro j hj
    have hj' := Finset.mem_range.1 hj
    by_cases hJ : J ≤ j
    · rw [hu j hJ, mul_zero, mul_zero]
    · unfold diskComplex
      rw [hN', take_range Nr N (by omega), disk_entry Nr N alpha ha kN kA m sN sA sO hN' lN lA lO hlN.symm hlA.symm hlO.symm hd h2 N le_rfl c cutoff i j (Nr + N) T hi hj' hc (by omega)
        (by omega)]
      congr 1
      apply Finset.sum_subset
      · intro x hx; simp at *; omega
      · intro x _ hx
        simp at hx
        have : above cutoff c x = 0 := by unfold above; rw [hc x (by omega), ite_self]
        rw [this, zero_mul]

/-- Real data in the disk for azimuthal orders below 2, under the same conditions. What is missing: all other azimuthal orders
(`disk_real_refuted`). -/
theorem disk_product_real_partial (Nr : Nat) (radius alpha : ℝ) (ha : -1 < alpha) (kN kA : Nat) (m sN sA sO : Int) (hm : m.natAbs < 2)
    (hd : 0 ≤ |sN| - |(|m + sO| - |m + sA|)|) (h2 : (|sN| - |(|m + sO| - |m + sA|)|) % 2 = 0) (T J : Nat) (cos msin : Nat → ℝ) (u : Nat → Nat → ℝ) (cutoff : ℝ)
    (hc : ∀ n, T ≤ n → cos n = 0) (hs : ∀ n, T ≤ n → msin n = 0) (hu : ∀ p n, J ≤ n → u p n = 0) :
    ∃ L w, Nr ≤ L ∧ (∀ r, radial 2 Nr radius (alpha + kN) |sN|.toNat (fun n => ((above cutoff cos n : ℝ) : ℂ) + Complex.I * ((above cutoff msin n : ℝ) : ℂ)) r *
        radial 2 Nr radius (alpha + kA) |m + sA|.toNat (fun n => (u 0 n : ℂ) + Complex.I * (u 1 n : ℂ)) r = radial 2 L radius (alpha + kA) |m + sO|.toNat w r) ∧
      ∀ i, i < Nr → 2 * ((i : Int) + T + J) + |sN| + |m + sO| - |m + sA| < 4 * (Nr : Int) + 4 →
        (diskReal Nr alpha kN kA m sN sA sO ((List.range Nr).map cos) ((List.range Nr).map msin) cutoff u 0 i : ℂ) +
          Complex.I * (diskReal Nr alpha kN kA m sN sA sO ((List.range Nr).map cos) ((List.range Nr).map msin) cutoff u 1 i : ℂ) = w i := by
  obtain ⟨lA, hlA⟩ := Int.eq_ofNat_of_zero_le (abs_nonneg (m + sA))
  obtain ⟨lO, hlO⟩ := Int.eq_ofNat_of_zero_le (abs_nonneg (m + sO))
  obtain ⟨lN, hlN⟩ := Int.eq_ofNat_of_zero_le (abs_nonneg sN)
  have hd' := hd
  have h2' := h2
  rw [hlA, hlO, hlN] at hd' h2'
  have hz := zrep_radius 2 (by norm_num) (alpha + kA) (gt_add alpha ha kA) lA lO ((lO : Int) - lA) (lN - |(lO : Int) - lA|) hd' h2' (by omega)
  rw [show ((lN : Int) - |(lO : Int) - lA| + |(lO : Int) - lA|).toNat = lN by omega] at hz
  have hN' : (nSize Nr m).toNat = Nr := by rw [nSize_nat]; omega
  rw [hlA, hlO, hlN]
  simp only [Int.toNat_natCast]
  refine ⟨_, _, ?_, fun r => series_product 2 (by norm_num) _ Nr Nr radius (alpha + kN) (gt_add alpha ha kN) lN (alpha + kA) (gt_add alpha ha kA) lA _ lO
    hz _ _ r, fun i hi hex => ?_⟩
  · have := disk_rows ((lO : Int) - lA) (lN - |(lO : Int) - lA|) hd' (Nr + Nr); omega
  · have hh := half_sum lN lA lO hd' h2'
    unfold diskReal
    simp only
    rw [hN', List.take_of_length_le (i := 2 * Nr) (by simp; omega), List.take_append_of_le_length (by simp), take_range Nr Nr le_rfl, drop_append_range]
    unfold realProduct
    rw [Complex.ofReal_sum, Complex.ofReal_sum, Finset.mul_sum, ← Finset.sum_add_distrib]
    apply Finset.sum_congr rfl
    intro j hj
    have hj' := Finset.mem_range.1 hj
    by_cases hJ : J ≤ j
    · simp [hu _ j hJ]
    · have e := fun (c : Nat → ℝ) hc => disk_entry Nr Nr alpha ha kN kA m sN sA sO hN' lN lA lO hlN.symm hlA.symm hlO.symm hd h2 Nr le_rfl c cutoff i j (Nr + Nr) T hi hj' hc (by omega)
        (by omega)
      simp only [RCLike.ofReal_real_eq_id, id] at e
      rw [e cos hc, e msin hs, if_pos rfl, if_neg (by decide)]
      simp only [add_mul, Finset.sum_add_distrib]
      push_cast
      simp only [mul_assoc, ← Finset.mul_sum]
      generalize (∑ n ∈ Finset.range Nr, ((above cutoff cos n : ℝ) : ℂ) * _) = x
      generalize (∑ n ∈ Finset.range Nr, ((above cutoff msin n : ℝ) : ℂ) * _) = y
      have := Complex.I_mul_I
      linear_combination (-(y * (u 1 j : ℂ))) * this

/-! ### What fails in the disk -/

theorem radiusOp_zero : radiusOp 0 0 = Op.one := by
  unfold radiusOp
  simp

theorem exact_one (dim L : Nat) (aN : ℝ) (lN : Nat) (aA : ℝ) (lA n i j : Nat) (hi : i < L) : exact dim Op.one L aN lN aA lA n i j =
    cst dim aN lN * Jacobi.full aN ((lN : ℝ) + (dim : ℝ) / 2 - 1) aA ((lA : ℝ) + (dim : ℝ) / 2 - 1) j n i := by
  unfold exact at_ Op.one
  simp only [ite_mul, one_mul, zero_mul]
  rw [Finset.sum_ite_eq, if_pos (Finset.mem_range.2 hi)]

/-- the entries of the block of a scalar coefficient and a scalar operand -/
theorem disk_scalar_entry {K : Type} [RCLike K] (Nr N : Nat) (alpha : ℝ) (ha : -1 < alpha) (kN kA : Nat) (m : Int) (hN : N = Nr - m.natAbs / 2) (n : Nat) (hn : n ≤ N) (c : Nat → K) (cutoff : ℝ)
    (i j : Nat) (hi : i < N) (hj : j < N) :
    diskBlock Nr alpha kN kA m 0 0 0 ((List.range n).map c) cutoff i j = ∑ t ∈ Finset.range n, above cutoff c t *
      ((cst 2 (alpha + kN) 0 * Jacobi.trunc N (alpha + kN) (((0 : Nat) : ℝ) + ((2 : Nat) : ℝ) / 2 - 1) (alpha + kA) ((m.natAbs : ℝ) + ((2 : Nat) : ℝ) / 2 - 1) t ⟨i, hi⟩ ⟨j, hj⟩ : ℝ) : K) := by
  have hN' : (nSize Nr m).toNat = N := by rw [nSize_nat, hN]
  unfold diskBlock
  simp only [add_zero, abs_zero, sub_self]
  rw [if_pos (by decide), hN', Int.abs_eq_natAbs, radiusOp_zero]
  have hce := clenshaw_entry (K := K) 2 N N (by norm_num) (alpha + kN) (gt_add alpha ha kN) 0 (alpha + kA) m.natAbs n c cutoff hn
  unfold scaled
  rw [dif_pos hj, Finset.sum_eq_single (⟨i, hi⟩ : Fin N)]
  · rw [← hce ⟨i, hi⟩ ⟨j, hj⟩]
    unfold square at_ Op.one
    simp only
    rw [if_pos hi, if_pos trivial, RCLike.ofReal_one, one_mul]
    rfl
  · intro l _ hl
    unfold square at_ Op.one
    simp only
    rw [if_pos hi, if_neg (fun h => hl (Fin.ext h.symm)), RCLike.ofReal_zero, zero_mul]
  · intro h; exact absurd (Finset.mem_univ _) h

/-- the exact product of a scalar coefficient and a scalar operand -/
theorem disk_scalar_exact (Nr N : Nat) (radius alpha : ℝ) (ha : -1 < alpha) (kN kA l : Nat) (c u : Nat → ℂ) (r : ℝ) :
    radial 2 Nr radius (alpha + kN) 0 c r * radial 2 N radius (alpha + kA) l u r = radial 2 (Nr + N) radius (alpha + kA) l
      (fun i => ∑ j ∈ Finset.range N, (∑ n ∈ Finset.range Nr, c n * (exact 2 Op.one (Nr + N) (alpha + kN) 0 (alpha + kA) l n i j : ℂ)) * u j) r :=
  series_product 2 (by norm_num) Op.one Nr N radius (alpha + kN) (gt_add alpha ha kN) 0 (alpha + kA) (gt_add alpha ha kA) l _ l (ZRep.one 2 (alpha + kA) l) c u r

/-- the coefficients of one function -/
noncomputable def unit (p : Nat) : Nat → ℂ := fun n => if n = p then 1 else 0

theorem sum_unit (N p : Nat) (hp : p < N) (f : Nat → ℂ) : ∑ n ∈ Finset.range N, unit p n * f n = f p := by
  unfold unit
  simp only [ite_mul, one_mul, zero_mul]
  rw [Finset.sum_ite_eq', if_pos (Finset.mem_range.2 hp)]

theorem sum_unit' (N p : Nat) (hp : p < N) (f : Nat → ℂ) : ∑ n ∈ Finset.range N, f n * unit p n = f p := by
  rw [← sum_unit N p hp f]
  exact Finset.sum_congr rfl fun n _ => mul_comm _ _

theorem above_unit (p : Nat) (cutoff : ℝ) (hc : cutoff < 1) : above cutoff (unit p) = unit p := by
  funext n
  unfold above unit
  split
  · rw [if_pos (by rw [norm_one]; exact hc)]
  · rw [ite_self]

/-- The matrices of the disk are not padded: for the third function as the coefficient and the last function as the operand the last
coefficient of the product is wrong, at every resolution and every azimuthal order. -/
theorem disk_padding_refuted (Nr N : Nat) (radius alpha : ℝ) (hR : 0 < radius) (ha : -1 < alpha) (kN kA : Nat) (m : Int) (hN : N = Nr - m.natAbs / 2) (h3 : 3 ≤ N) (cutoff : ℝ)
    (hc : cutoff < 1) : ¬ ∃ L w, N ≤ L ∧ (∀ r, radial 2 Nr radius (alpha + kN) 0 (above cutoff (unit 2)) r *
        radial 2 N radius (alpha + kA) m.natAbs (unit (N - 1)) r = radial 2 L radius (alpha + kA) m.natAbs w r) ∧
      ∀ i, i < N → ∑ j ∈ Finset.range N, diskComplex Nr alpha kN kA m 0 0 0 ((List.range Nr).map (unit 2)) cutoff i j * unit (N - 1) j = w i := by
  rintro ⟨L, w, hL, h, hw⟩
  obtain ⟨t, rfl⟩ : ∃ t, N = t + 2 := ⟨N - 2, by omega⟩
  have hN' : (nSize Nr m).toNat = t + 2 := by rw [nSize_nat, hN]
  rw [above_unit 2 cutoff hc] at h
  have hu := coefs_unique 2 (by norm_num) (alpha + kA) (gt_add alpha ha kA) m.natAbs L (Nr + (t + 2)) radius hR w _
    (fun r => (h r).symm.trans (disk_scalar_exact Nr (t + 2) radius alpha ha kN kA m.natAbs _ _ r)) (t + 1) (by omega) (by omega)
  rw [sum_unit' _ (t + 2 - 1) (by omega), sum_unit _ 2 (by omega), exact_one _ _ _ _ _ _ _ _ _ (by omega)] at hu
  have hv := hw (t + 1) (by omega)
  rw [sum_unit' _ (t + 2 - 1) (by omega), hu] at hv
  unfold diskComplex at hv
  rw [hN', take_range Nr (t + 2) (by omega), disk_scalar_entry Nr (t + 2) alpha ha kN kA m hN (t + 2) le_rfl _ cutoff (t + 1) (t + 2 - 1) (by omega) (by omega), above_unit 2 cutoff hc,
    sum_unit _ 2 (by omega)] at hv
  have hv' := Complex.ofReal_injective hv
  have hlt := Jacobi.corner t (alpha + kN) (((0 : Nat) : ℝ) + ((2 : Nat) : ℝ) / 2 - 1) (alpha + kA) ((m.natAbs : ℝ) + ((2 : Nat) : ℝ) / 2 - 1) (gt_add alpha ha kN)
    (b_gt 2 0 (by norm_num)) (gt_add alpha ha kA) (b_gt 2 m.natAbs (by norm_num))
  exact hlt.ne (mul_left_cancel₀ (cst_pos _ _ _).ne' hv')

/-- Functions of the coefficient beyond the number of functions of the operand are dropped: with two radial functions and order 2, the
product with the second function is lost although the product is not. -/
theorem disk_truncation_refuted (radius alpha : ℝ) (hR : 0 < radius) (ha : -1 < alpha) (k : Nat) (cutoff : ℝ) (hc : cutoff < 1) :
    ¬ ∃ L w, 1 ≤ L ∧ (∀ r, radial 2 2 radius (alpha + k) 0 (above cutoff (unit 1)) r *
        radial 2 1 radius (alpha + k) 2 (unit 0) r = radial 2 L radius (alpha + k) 2 w r) ∧
      ∀ i, i < 1 → ∑ j ∈ Finset.range 1, diskComplex 2 alpha k k 2 0 0 0 ((List.range 2).map (unit 1)) cutoff i j * unit 0 j = w i := by
  rintro ⟨L, w, hL, h, hw⟩
  have hN' : (nSize 2 2).toNat = 1 := by decide
  rw [above_unit 1 cutoff hc] at h
  have hu := coefs_unique 2 (by norm_num) (alpha + k) (gt_add alpha ha k) 2 L (2 + 1) radius hR w _
    (fun r => (h r).symm.trans (disk_scalar_exact 2 1 radius alpha ha k k 2 _ _ r)) 0 (by omega) (by omega)
  rw [sum_unit' _ 0 (by omega), sum_unit _ 1 (by omega), exact_one _ _ _ _ _ _ _ _ _ (by omega)] at hu
  have hv := hw 0 (by omega)
  rw [sum_unit' _ 0 (by omega), hu] at hv
  unfold diskComplex at hv
  rw [hN', take_range 2 1 (by omega), disk_scalar_entry 2 1 alpha ha k k 2 (by decide) 1 le_rfl _ cutoff 0 0 (by omega) (by omega), above_unit 1 cutoff hc,
    Finset.sum_range_one, show unit 1 0 = 0 by simp [unit], zero_mul] at hv
  have hv' : cst 2 (alpha + k) 0 * Jacobi.full (alpha + k) (((0 : Nat) : ℝ) + ((2 : Nat) : ℝ) / 2 - 1) (alpha + k) (((2 : Nat) : ℝ) + ((2 : Nat) : ℝ) / 2 - 1) 0 1 0 = 0 := by
    exact_mod_cast hv.symm
  have hk := gt_add alpha ha k
  exact absurd hv' (mul_pos (cst_pos _ _ _) (Jacobi.first_pos _ hk)).ne'

/-- For real data and azimuthal orders from 2 the rows of the coefficient are split at the wrong place: with two radial functions and order 2,
the second function of the cosine part acts as a sine part, and the product with a cosine has a sine part. -/
theorem disk_real_refuted (radius alpha : ℝ) (hR : 0 < radius) (ha : -1 < alpha) (k : Nat) (cutoff : ℝ) (hc : cutoff < 1) :
    ¬ ∃ L w, 1 ≤ L ∧ (∀ r, radial 2 2 radius (alpha + k) 0 (unit 1) r * radial 2 1 radius (alpha + k) 2 (unit 0) r = radial 2 L radius (alpha + k) 2 w r) ∧
      ∀ i, i < 1 → (diskReal 2 alpha k k 2 0 0 0 [0, 1] [0, 0] cutoff (fun p n => if p = 0 ∧ n = 0 then 1 else 0) 0 i : ℂ) +
        Complex.I * (diskReal 2 alpha k k 2 0 0 0 [0, 1] [0, 0] cutoff (fun p n => if p = 0 ∧ n = 0 then 1 else 0) 1 i : ℂ) = w i := by
  rintro ⟨L, w, hL, h, hw⟩
  have hN' : (nSize 2 2).toNat = 1 := by decide
  have hu := coefs_unique 2 (by norm_num) (alpha + k) (gt_add alpha ha k) 2 L (2 + 1) radius hR w _
    (fun r => (h r).symm.trans (disk_scalar_exact 2 1 radius alpha ha k k 2 _ _ r)) 0 (by omega) (by omega)
  rw [sum_unit' _ 0 (by omega), sum_unit _ 1 (by omega)] at hu
  have hv := congrArg Complex.im (hw 0 (by omega))
  rw [hu] at hv
  simp only [Complex.add_im, Complex.ofReal_im, Complex.I_mul_im, Complex.ofReal_re, zero_add] at hv
  unfold diskReal at hv
  simp only [hN'] at hv
  have e := disk_scalar_entry (K := ℝ) 2 1 alpha ha k k 2 (by decide) 1 le_rfl (fun _ => 1) cutoff 0 0 (by omega) (by omega)
  have hl : (([0, 1] ++ [0, 0] : List ℝ).take (2 * 1)).drop 1 = (List.range 1).map fun _ => 1 := rfl
  rw [hl] at hv
  unfold realProduct at hv
  rw [Finset.sum_range_one, if_neg (by decide)] at hv
  beta_reduce at hv
  rw [if_pos ⟨rfl, rfl⟩, if_neg (by decide), mul_one, mul_zero, add_zero, e, Finset.sum_range_one] at hv
  have ha1 : above cutoff (fun _ : Nat => (1 : ℝ)) 0 = 1 := by unfold above; rw [if_pos (by rw [norm_one]; exact hc)]
  rw [ha1, one_mul, Jacobi.trunc.eq_1, Matrix.smul_apply, Matrix.one_apply_eq, smul_eq_mul, mul_one] at hv
  exact absurd hv (mul_pos (cst_pos _ _ _) (Q_zero_pos _ _ (gt_add alpha ha k) (b_gt 2 0 (by norm_num)))).ne'

/-! ### The hypotheses are met -/

/-- a radial vector coefficient times a vector operand in the ball -/
example := ball_product 8 7 2 0 (by norm_num) 1 0 3 (by decide) 1 (-1) 0 (by norm_num) (by norm_num) (by norm_num) (by decide) (by decide) (fun n => n + 1) (fun n => 1 / (n + 1)) (1 / 1000000)

example := ball_product_real 8 6 2 0 (by norm_num) 0 2 4 (by decide) 2 (-1) 1 (by norm_num) (by norm_num) (by norm_num) (by decide) (by decide) (fun n => n + 1) (fun _ => 0) (fun p n => p + n) (1 / 1000000)

/-- a scalar coefficient with 3 terms: the first 6 of 8 coefficients of the product with any operand are correct -/
example (u : Nat → ℂ) (hu : ∀ n, 8 ≤ n → u n = 0) := disk_product_partial 9 8 1 0 (by norm_num) 0 1 3 0 0 0 (by decide) (by decide) (by decide) 3 8 (fun n => if n < 3 then 1 else 0) u (1 / 1000000)
  (by norm_num) (fun n hn => if_neg (by omega)) hu

example : ∃ i : Nat, i < 8 ∧ i = 5 ∧ 2 * ((i : Int) + 3 + 8) + |0| + |3 + 0| - |3 + 0| < 4 * ((8 : Nat) : Int) + 4 := ⟨5, by decide, rfl, by decide⟩

example (u : Nat → Nat → ℝ) (hu : ∀ p n, 8 ≤ n → u p n = 0) := disk_product_real_partial 8 1 0 (by norm_num) 0 1 1 1 0 1 (by decide) (by decide) (by decide) 3 8 (fun n => if n < 3 then 1 else 0)
  (fun _ => 0) u (1 / 1000000) (fun n hn => if_neg (by omega)) (fun _ _ => rfl) hu

end Dedalus.Zncc
