import Verif.Sphere.Harmonic
import Verif.Jacobi.Interior

namespace Dedalus.Sphere

open Jacobi Jacobi.Spec Spec

theorem polynomialsInit_eq (n : Nat) (a b z init : ℝ) (hm : 0 < mass a b) : ∀ k, polynomialsInit n a b z init k = init * √(mass a b) * polynomials n a b z k
  | 0 => by
    have := (Real.sqrt_pos.2 hm).ne'
    rw [polynomialsInit, polynomials]; field_simp
  | 1 => by
    have := (Real.sqrt_pos.2 hm).ne'
    rw [polynomialsInit, polynomials]
    field_simp
  | k + 2 => by
    rw [polynomialsInit, polynomials, polynomialsInit_eq n a b z init hm (k + 1), polynomialsInit_eq n a b z init hm k]
    ring

theorem exp_measure (a b : Nat) (z : ℝ) (h0 : -1 < z) (h1 : z < 1) (hm : 0 < mass a b) :
    Real.exp ((1 / 2) * logMeasure a b z) * √(mass a b) = √((1 - z) ^ a * (1 + z) ^ b) := by
  have e1 : (if (a : ℝ) ≠ 0 then (a : ℝ) * Real.log (1 - z) else 0) = a * Real.log (1 - z) := by
    split
    · rfl
    · rename_i h; rw [not_not] at h; rw [h, zero_mul]
  have e2 : (if (b : ℝ) ≠ 0 then (b : ℝ) * Real.log (1 + z) else 0) = b * Real.log (1 + z) := by
    split
    · rfl
    · rename_i h; rw [not_not] at h; rw [h, zero_mul]
  have p1 : 0 < 1 - z := by linarith
  have p2 : 0 < 1 + z := by linarith
  unfold logMeasure
  rw [e1, e2]
  have hpos : 0 < Real.exp ((1 / 2) * (a * Real.log (1 - z) + b * Real.log (1 + z) - Real.log (mass a b))) * √(mass a b) :=
    mul_pos (Real.exp_pos _) (Real.sqrt_pos.2 hm)
  rw [eq_comm, Real.sqrt_eq_iff_mul_self_eq (by positivity) hpos.le]
  rw [mul_mul_mul_comm, Real.mul_self_sqrt hm.le, ← Real.exp_add, ← two_mul, ← mul_assoc, show (2 : ℝ) * (1 / 2) = 1 by norm_num, one_mul,
    Real.exp_sub, Real.exp_log hm, Real.exp_add, Real.exp_nat_mul, Real.exp_nat_mul, Real.exp_log p1, Real.exp_log p2]
  field_simp

theorem mass_pos (a b : Nat) : 0 < mass a b := by
  rw [mass_norm]
  exact norm2_pos 0 a b (by have : (0 : ℝ) ≤ a := Nat.cast_nonneg a; linarith) (by have : (0 : ℝ) ≤ b := Nat.cast_nonneg b; linarith)

/-- the recursion of the code computes the harmonics -/
theorem harmonics_eq (Lmax : Nat) (m s : Int) (z : ℝ) (h0 : -1 < z) (h1 : z < 1) (k : Nat) (hk : max m.natAbs s.natAbs + k ≤ Lmax) :
    harmonics Lmax m s z k = Y (max m.natAbs s.natAbs + k) m s z := by
  have hm := mass_pos (m + s).natAbs (m - s).natAbs
  have ha : (-1 : ℝ) < ((m + s).natAbs : ℝ) := by have : (0 : ℝ) ≤ ((m + s).natAbs : ℝ) := Nat.cast_nonneg _; linarith
  have hb : (-1 : ℝ) < ((m - s).natAbs : ℝ) := by have : (0 : ℝ) ≤ ((m - s).natAbs : ℝ) := Nat.cast_nonneg _; linarith
  unfold harmonics spin2Jacobi
  simp only [Int.abs_eq_natAbs, Int.cast_natCast]
  rw [polynomialsInit_eq _ _ _ _ _ hm, mul_right_comm (Real.exp _), exp_measure _ _ z h0 h1 hm, polynomials_Q _ _ _ z ha hb k (by omega), Y,
    show max m.natAbs s.natAbs + k - max m.natAbs s.natAbs = k by omega]
  ring

/-- products of two harmonics are polynomials -/
noncomputable def prodPoly (l l' : Nat) (m s : Int) : Polynomial ℝ :=
  (Polynomial.C 1 - Polynomial.X) ^ (m + s).natAbs * (Polynomial.C 1 + Polynomial.X) ^ (m - s).natAbs *
    (polyQ (l - max m.natAbs s.natAbs) (m + s).natAbs (m - s).natAbs * polyQ (l' - max m.natAbs s.natAbs) (m + s).natAbs (m - s).natAbs)

theorem sign_sq (m s : Int) : ((-1 : ℝ)) ^ (max m (-s)) * (-1) ^ (max m (-s)) = 1 := by
  rw [← mul_zpow]; norm_num

theorem prodPoly_eval (l l' : Nat) (m s : Int) (z : ℝ) (h0 : -1 ≤ z) (h1 : z ≤ 1) : (prodPoly l l' m s).eval z = Y l m s z * Y l' m s z := by
  have p1 : 0 ≤ 1 - z := by linarith
  have p2 : 0 ≤ 1 + z := by linarith
  have hw : √((1 - z) ^ (m + s).natAbs * (1 + z) ^ (m - s).natAbs) * √((1 - z) ^ (m + s).natAbs * (1 + z) ^ (m - s).natAbs) =
    (1 - z) ^ (m + s).natAbs * (1 + z) ^ (m - s).natAbs := Real.mul_self_sqrt (by positivity)
  have hs := sign_sq m s
  unfold prodPoly Y
  simp only [Polynomial.eval_mul, Polynomial.eval_pow, Polynomial.eval_sub, Polynomial.eval_add, Polynomial.eval_C, Polynomial.eval_X, polyQ_eval]
  generalize √((1 - z) ^ (m + s).natAbs * (1 + z) ^ (m - s).natAbs) = w at *
  generalize ((-1 : ℝ)) ^ (max m (-s)) = e at *
  generalize Q (l - max m.natAbs s.natAbs) (m + s).natAbs (m - s).natAbs z = q
  generalize Q (l' - max m.natAbs s.natAbs) (m + s).natAbs (m - s).natAbs z = q'
  rw [← hw]
  linear_combination (-(w * w * q * q')) * hs

theorem prodPoly_degree (l l' : Nat) (m s : Int) (hl : max m.natAbs s.natAbs ≤ l) (hl' : max m.natAbs s.natAbs ≤ l') :
    (prodPoly l l' m s).natDegree ≤ l + l' := by
  unfold prodPoly
  have d1 : ((Polynomial.C (1 : ℝ) - Polynomial.X) ^ (m + s).natAbs).natDegree ≤ (m + s).natAbs := by
    refine Polynomial.natDegree_pow_le.trans ?_
    have : (Polynomial.C (1 : ℝ) - Polynomial.X).natDegree ≤ 1 := (Polynomial.natDegree_sub_le _ _).trans (by simp)
    simpa using Nat.mul_le_mul_left (m + s).natAbs this
  have d2 : ((Polynomial.C (1 : ℝ) + Polynomial.X) ^ (m - s).natAbs).natDegree ≤ (m - s).natAbs := by
    refine Polynomial.natDegree_pow_le.trans ?_
    have : (Polynomial.C (1 : ℝ) + Polynomial.X).natDegree ≤ 1 := (Polynomial.natDegree_add_le _ _).trans (by simp)
    simpa using Nat.mul_le_mul_left (m - s).natAbs this
  have d3 := polyQ_degree (l - max m.natAbs s.natAbs) ((m + s).natAbs : ℝ) ((m - s).natAbs : ℝ)
  have d4 := polyQ_degree (l' - max m.natAbs s.natAbs) ((m + s).natAbs : ℝ) ((m - s).natAbs : ℝ)
  refine Polynomial.natDegree_mul_le.trans ?_
  have e1 := @Polynomial.natDegree_mul_le ℝ _ ((Polynomial.C (1 : ℝ) - Polynomial.X) ^ (m + s).natAbs) ((Polynomial.C (1 : ℝ) + Polynomial.X) ^ (m - s).natAbs)
  have e2 := @Polynomial.natDegree_mul_le ℝ _ (polyQ (l - max m.natAbs s.natAbs) (m + s).natAbs (m - s).natAbs)
    (polyQ (l' - max m.natAbs s.natAbs) (m + s).natAbs (m - s).natAbs)
  have e3 : (m + s).natAbs + (m - s).natAbs = 2 * max m.natAbs s.natAbs := by omega
  omega

/-- the harmonics are orthonormal -/
theorem Y_orthonormal (l l' : Nat) (m s : Int) (hl : max m.natAbs s.natAbs ≤ l) (hl' : max m.natAbs s.natAbs ≤ l') :
    ∫ z in (-1 : ℝ)..1, Y l m s z * Y l' m s z = if l = l' then 1 else 0 := by
  have ha : (-1 : ℝ) < ((m + s).natAbs : ℝ) := by have : (0 : ℝ) ≤ ((m + s).natAbs : ℝ) := Nat.cast_nonneg _; linarith
  have hb : (-1 : ℝ) < ((m - s).natAbs : ℝ) := by have : (0 : ℝ) ≤ ((m - s).natAbs : ℝ) := Nat.cast_nonneg _; linarith
  have h := Q_orthonormal (l - max m.natAbs s.natAbs) (l' - max m.natAbs s.natAbs) _ _ ha hb
  simp only [show (l - max m.natAbs s.natAbs = l' - max m.natAbs s.natAbs) ↔ (l = l') by omega] at h
  rw [← h]
  unfold integ
  apply intervalIntegral.integral_congr
  intro z hz
  rw [Set.uIcc_of_le (by norm_num)] at hz
  simp only
  rw [← prodPoly_eval l l' m s z hz.1 hz.2, Real.rpow_natCast, Real.rpow_natCast]
  unfold prodPoly
  simp only [Polynomial.eval_mul, Polynomial.eval_pow, Polynomial.eval_sub, Polynomial.eval_add, Polynomial.eval_C, Polynomial.eval_X, polyQ_eval]

/-- discrete orthogonality on the grid -/
theorem Y_gauss (N : Nat) (hN : 0 < N) (g : Nat → ℝ) (hg : GridGuess N 0 0 g) (l l' : Nat) (m s : Int) (hl : max m.natAbs s.natAbs ≤ l)
    (hl' : max m.natAbs s.natAbs ≤ l') (h : l + l' < 2 * N) :
    ∑ i ∈ Finset.range N, (grid N g i).2 * (Y l m s (grid N g i).1 * Y l' m s (grid N g i).1) = if l = l' then 1 else 0 := by
  have hr := guess_roots N 0 0 (by norm_num) (by norm_num) hN g hg
  have hG := gauss_exact N 0 0 g (by norm_num) (by norm_num) hN hr (prodPoly l l' m s) (lt_of_le_of_lt (prodPoly_degree l l' m s hl hl') h)
  rw [← Y_orthonormal l l' m s hl hl']
  have e : integ 0 0 (fun z => (prodPoly l l' m s).eval z) = ∫ z in (-1 : ℝ)..1, Y l m s z * Y l' m s z := by
    unfold integ
    apply intervalIntegral.integral_congr
    intro z hz
    rw [Set.uIcc_of_le (by norm_num)] at hz
    simp only [Real.rpow_zero, one_mul]
    exact prodPoly_eval l l' m s z hz.1 hz.2
  rw [← e, ← hG]
  apply Finset.sum_congr rfl
  intro i hi
  have hin := node_interior N 0 0 g (by norm_num) (by norm_num) hr i (Finset.mem_range.1 hi)
  unfold grid
  rw [quadrature_gauss N 0 0 g i (by norm_num) (by norm_num) hr (Finset.mem_range.1 hi)]
  simp only
  rw [prodPoly_eval l l' m s _ hin.1.le hin.2.le]

theorem grid_interior (N : Nat) (hN : 0 < N) (g : Nat → ℝ) (hg : GridGuess N 0 0 g) (i : Nat) (hi : i < N) :
    -1 < (grid N g i).1 ∧ (grid N g i).1 < 1 := by
  have hr := guess_roots N 0 0 (by norm_num) (by norm_num) hN g hg
  unfold grid
  rw [quadrature_gauss N 0 0 g i (by norm_num) (by norm_num) hr hi]
  exact node_interior N 0 0 g (by norm_num) (by norm_num) hr i hi

theorem grid_weight_pos (N : Nat) (hN : 0 < N) (g : Nat → ℝ) (hg : GridGuess N 0 0 g) (i : Nat) (hi : i < N) : 0 < (grid N g i).2 := by
  have hr := guess_roots N 0 0 (by norm_num) (by norm_num) hN g hg
  unfold grid
  rw [quadrature_gauss N 0 0 g i (by norm_num) (by norm_num) hr hi]
  exact inv_pos.2 (kernel_pos N 0 0 (g i) (by norm_num) (by norm_num) hN)

/-- which rows of the matrices are filled -/
theorem filled (Ntheta Lmax : Nat) (m : Int) (hm : m.natAbs ≤ Ntheta) (r : Nat) (hr : r < Lmax + 1 - m.natAbs) :
    sliceBound (Lmax + 1 - m.natAbs) ((Ntheta : Int) - |m|) ≤ r ↔ Ntheta ≤ m.natAbs + r := by
  unfold sliceBound
  rw [Int.abs_eq_natAbs, if_neg (by omega)]
  omega

theorem start_eq (m s : Int) : (max |m| |s| - |m|).toNat = max m.natAbs s.natAbs - m.natAbs := by
  rw [Int.abs_eq_natAbs, Int.abs_eq_natAbs]; omega

theorem backwardMatrix_eq (Ntheta Lmax : Nat) (hN : 0 < Ntheta) (m s : Int) (hm : m.natAbs ≤ Ntheta) (g : Nat → ℝ) (hg : GridGuess Ntheta 0 0 g) (i r : Nat)
    (hi : i < Ntheta) (hr : r < Lmax + 1 - m.natAbs) :
    backwardMatrix Ntheta Lmax m s g i r =
      if s.natAbs ≤ m.natAbs + r ∧ m.natAbs + r < Ntheta then Y (m.natAbs + r) m s (grid Ntheta g i).1 else 0 := by
  unfold backwardMatrix
  simp only
  simp only [filled Ntheta Lmax m hm r hr, start_eq]
  obtain ⟨h0, h1⟩ := grid_interior Ntheta hN g hg i hi
  by_cases h : Ntheta ≤ m.natAbs + r
  · rw [if_pos h, if_neg (by omega)]
  · rw [if_neg h]
    by_cases h' : s.natAbs ≤ m.natAbs + r
    · rw [if_pos (by omega), if_pos ⟨h', by omega⟩, harmonics_eq Lmax m s _ h0 h1 _ (by omega)]
      congr 1
      omega
    · rw [if_neg (by omega), if_neg (by omega)]

theorem forwardMatrix_eq (Ntheta Lmax : Nat) (hN : 0 < Ntheta) (m s : Int) (hm : m.natAbs ≤ Ntheta) (g : Nat → ℝ) (hg : GridGuess Ntheta 0 0 g) (i r : Nat)
    (hi : i < Ntheta) (hr : r < Lmax + 1 - m.natAbs) :
    forwardMatrix Ntheta Lmax m s g r i =
      if s.natAbs ≤ m.natAbs + r ∧ m.natAbs + r < Ntheta then Y (m.natAbs + r) m s (grid Ntheta g i).1 * (grid Ntheta g i).2 else 0 := by
  unfold forwardMatrix
  simp only
  simp only [filled Ntheta Lmax m hm r hr, start_eq]
  obtain ⟨h0, h1⟩ := grid_interior Ntheta hN g hg i hi
  by_cases h : Ntheta ≤ m.natAbs + r
  · rw [if_pos h, if_neg (by omega)]
  · rw [if_neg h]
    by_cases h' : s.natAbs ≤ m.natAbs + r
    · rw [if_pos (by omega), if_pos ⟨h', by omega⟩, harmonics_eq Lmax m s _ h0 h1 _ (by omega)]
      congr 2
      omega
    · rw [if_neg (by omega), if_neg (by omega)]

section
variable {V : Type} [AddCommGroup V] [Module ℝ V]

/-- forward transform of a sum of harmonics -/
theorem forward_sum (Ntheta Lmax : Nat) (hN : 0 < Ntheta) (m s : Int) (hm : m.natAbs ≤ Ntheta) (hL : m.natAbs ≤ Lmax) (g : Nat → ℝ)
    (hg : GridGuess Ntheta 0 0 g) (K : Nat) (f : Nat → V) (gdata old : Nat → V)
    (hd : ∀ i, i < Ntheta → gdata i = ∑ l ∈ Finset.Ico (max m.natAbs s.natAbs) K, Y l m s (grid Ntheta g i).1 • f l)
    (r : Nat) (hr : r < Lmax + 1 - m.natAbs) (hK : m.natAbs + r < Ntheta → m.natAbs + r + K ≤ 2 * Ntheta) :
    forward Ntheta Lmax m s g gdata old r =
      if s.natAbs ≤ m.natAbs + r ∧ m.natAbs + r < Ntheta ∧ m.natAbs + r < K then f (m.natAbs + r) else 0 := by
  unfold forward
  rw [if_pos (by rw [Int.abs_eq_natAbs]; exact_mod_cast hL)]
  by_cases h : s.natAbs ≤ m.natAbs + r ∧ m.natAbs + r < Ntheta
  · have hsum : ∀ i ∈ Finset.range Ntheta, forwardMatrix Ntheta Lmax m s g r i • gdata i =
        ∑ l ∈ Finset.Ico (max m.natAbs s.natAbs) K, ((grid Ntheta g i).2 * (Y (m.natAbs + r) m s (grid Ntheta g i).1 * Y l m s (grid Ntheta g i).1)) • f l := by
      intro i hi
      rw [forwardMatrix_eq Ntheta Lmax hN m s hm g hg i r (Finset.mem_range.1 hi) hr, if_pos h, hd i (Finset.mem_range.1 hi), Finset.smul_sum]
      apply Finset.sum_congr rfl
      intro l _
      rw [smul_smul]
      congr 1
      ring
    rw [Finset.sum_congr rfl hsum, Finset.sum_comm]
    simp only [← Finset.sum_smul]
    have hs2 : ∀ l ∈ Finset.Ico (max m.natAbs s.natAbs) K,
        (∑ i ∈ Finset.range Ntheta, (grid Ntheta g i).2 * (Y (m.natAbs + r) m s (grid Ntheta g i).1 * Y l m s (grid Ntheta g i).1)) • f l =
        if m.natAbs + r = l then f l else 0 := by
      intro l hl
      obtain ⟨h1, h2⟩ := Finset.mem_Ico.1 hl
      have := hK h.2
      rw [Y_gauss Ntheta hN g hg (m.natAbs + r) l m s (by omega) h1 (by omega)]
      split
      · rw [one_smul]
      · rw [zero_smul]
    rw [Finset.sum_congr rfl hs2, Finset.sum_ite_eq]
    by_cases hk : m.natAbs + r < K
    · rw [if_pos (Finset.mem_Ico.2 ⟨by omega, hk⟩), if_pos ⟨h.1, h.2, hk⟩]
    · rw [if_neg (fun hh => hk (Finset.mem_Ico.1 hh).2), if_neg (fun hh => hk hh.2.2)]
  · rw [if_neg (fun hh => h ⟨hh.1, hh.2.1⟩)]
    apply Finset.sum_eq_zero
    intro i hi
    rw [forwardMatrix_eq Ntheta Lmax hN m s hm g hg i r (Finset.mem_range.1 hi) hr, if_neg h, zero_smul]

/-- the backward transform evaluates the sum of the resolved harmonics -/
theorem backward_sum (Ntheta Lmax : Nat) (hN : 0 < Ntheta) (m s : Int) (hm : m.natAbs ≤ Ntheta) (hL : m.natAbs ≤ Lmax) (g : Nat → ℝ)
    (hg : GridGuess Ntheta 0 0 g) (c : Nat → V) (i : Nat) (hi : i < Ntheta) :
    backward Ntheta Lmax m s g c i =
      ∑ l ∈ Finset.Ico (max m.natAbs s.natAbs) (min (Lmax + 1) Ntheta), Y l m s (grid Ntheta g i).1 • c (l - m.natAbs) := by
  unfold backward
  rw [if_neg (by rw [Int.abs_eq_natAbs]; omega)]
  have hsum : ∀ r ∈ Finset.range (Lmax + 1 - m.natAbs), backwardMatrix Ntheta Lmax m s g i r • c r =
      if s.natAbs ≤ m.natAbs + r ∧ m.natAbs + r < Ntheta then Y (m.natAbs + r) m s (grid Ntheta g i).1 • c r else 0 := by
    intro r hr
    rw [backwardMatrix_eq Ntheta Lmax hN m s hm g hg i r hi (Finset.mem_range.1 hr)]
    split
    · rfl
    · rw [zero_smul]
  rw [Finset.sum_congr rfl hsum, ← Finset.sum_filter]
  refine Finset.sum_nbij' (fun r => m.natAbs + r) (fun l => l - m.natAbs) ?_ ?_ ?_ ?_ ?_
  · intro r hr
    obtain ⟨h1, h2⟩ := Finset.mem_filter.1 hr
    have := Finset.mem_range.1 h1
    exact Finset.mem_Ico.2 (by omega)
  · intro l hl
    have := Finset.mem_Ico.1 hl
    exact Finset.mem_filter.2 ⟨Finset.mem_range.2 (by omega), by omega⟩
  · intro r _; simp
  · intro l hl
    have := Finset.mem_Ico.1 hl
    omega
  · intro r _
    simp

end

end Dedalus.Sphere
