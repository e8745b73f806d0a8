import Verif.Zernike.Ortho
import Verif.Jacobi.Transform

namespace Dedalus.Zernike

open Jacobi hiding forwardMatrix backwardMatrix quadrature polynomials conversionMatrix interpolate convertConstant integrate average
open Jacobi.Spec Spec

theorem dim_gt (dim : Nat) (hd : 0 < dim) : -1 < (dim : ℝ) / 2 - 1 := by
  have := b_gt dim 0 hd
  simpa using this

/-- points and weights of the grid -/
theorem grid_eq (dim N : Nat) (alpha : ℝ) (g : Nat → ℝ) (hd : 0 < dim) (ha : -1 < alpha) (hN : 0 < N) (hg : GridGuess N alpha ((dim : ℝ) / 2 - 1) g)
    (i : Nat) (hi : i < N) : 0 < radiusGrid dim N alpha g i ∧ radiusGrid dim N alpha g i < 1 ∧
      (quadrature dim N alpha g i).1 = 2 * radiusGrid dim N alpha g i ^ 2 - 1 := by
  have hr := guess_roots N alpha _ ha (dim_gt dim hd) hN g hg
  have hq := quadrature_gauss N alpha _ g i ha (dim_gt dim hd) hr hi
  obtain ⟨h0, h1⟩ := node_interior N alpha _ g ha (dim_gt dim hd) hr i hi
  unfold radiusGrid quadrature
  rw [hq]
  simp only
  have hp : 0 < (g i + 1) / 2 := by linarith
  refine ⟨Real.sqrt_pos.2 hp, ?_, ?_⟩
  · rw [Real.sqrt_lt' one_pos]; linarith
  · rw [Real.sq_sqrt hp.le]; ring

/-- products of two functions are polynomials -/
noncomputable def prodPoly (n n' l : Nat) (k b : ℝ) : Polynomial ℝ := (Polynomial.C 1 + Polynomial.X) ^ l * (polyQ n k b * polyQ n' k b)

theorem prodPoly_degree (n n' l : Nat) (k b : ℝ) : (prodPoly n n' l k b).natDegree ≤ l + (n + n') := by
  unfold prodPoly
  have d2 : ((Polynomial.C (1 : ℝ) + Polynomial.X) ^ l).natDegree ≤ l := by
    refine Polynomial.natDegree_pow_le.trans ?_
    have : (Polynomial.C (1 : ℝ) + Polynomial.X).natDegree ≤ 1 := (Polynomial.natDegree_add_le _ _).trans (by simp)
    simpa using Nat.mul_le_mul_left l this
  refine Polynomial.natDegree_mul_le.trans (Nat.add_le_add d2 (Polynomial.natDegree_mul_le.trans (Nat.add_le_add ?_ ?_)))
  · exact polyQ_degree n k b
  · exact polyQ_degree n' k b

/-- discrete orthogonality on the grid -/
theorem Z_gauss (dim N : Nat) (alpha : ℝ) (g : Nat → ℝ) (hd : 0 < dim) (ha : -1 < alpha) (hN : 0 < N) (hg : GridGuess N alpha ((dim : ℝ) / 2 - 1) g)
    (n n' l : Nat) (h : l + (n + n') < 2 * N) :
    ∑ i ∈ Finset.range N, (quadrature dim N alpha g i).2 * (Z dim n alpha l (radiusGrid dim N alpha g i) * Z dim n' alpha l (radiusGrid dim N alpha g i)) =
      if n = n' then 1 else 0 := by
  have hr := guess_roots N alpha _ ha (dim_gt dim hd) hN g hg
  have hG := gauss_exact N alpha _ g ha (dim_gt dim hd) hN hr (prodPoly n n' l alpha (l + (dim : ℝ) / 2 - 1)) (lt_of_le_of_lt (prodPoly_degree _ _ _ _ _) h)
  rw [← Q_orthonormal n n' alpha _ ha (b_gt dim l hd)]
  have e : integ alpha ((dim : ℝ) / 2 - 1) (fun z => (prodPoly n n' l alpha (l + (dim : ℝ) / 2 - 1)).eval z) =
      integ alpha (l + (dim : ℝ) / 2 - 1) fun z => Q n alpha (l + (dim : ℝ) / 2 - 1) z * Q n' alpha (l + (dim : ℝ) / 2 - 1) z := by
    unfold integ
    rw [intervalIntegral.integral_of_le (by norm_num), intervalIntegral.integral_of_le (by norm_num),
      MeasureTheory.integral_Ioc_eq_integral_Ioo, MeasureTheory.integral_Ioc_eq_integral_Ioo]
    apply MeasureTheory.setIntegral_congr_fun measurableSet_Ioo
    intro z hz
    have hp : 0 < 1 + z := by have := hz.1; linarith
    simp only [prodPoly, Polynomial.eval_mul, Polynomial.eval_pow, Polynomial.eval_add, Polynomial.eval_C, Polynomial.eval_X, polyQ_eval]
    rw [show (l : ℝ) + (dim : ℝ) / 2 - 1 = l + ((dim : ℝ) / 2 - 1) by ring, Real.rpow_add hp, Real.rpow_natCast]
    ring
  rw [← e, ← hG]
  apply Finset.sum_congr rfl
  intro i hi
  obtain ⟨-, -, hz⟩ := grid_eq dim N alpha g hd ha hN hg i (Finset.mem_range.1 hi)
  have hz' : (Jacobi.quadrature N alpha ((dim : ℝ) / 2 - 1) g i).1 = 2 * radiusGrid dim N alpha g i ^ 2 - 1 := hz
  rw [Z_mul]
  unfold quadrature
  simp only
  rw [hz']
  simp only [prodPoly, Polynomial.eval_mul, Polynomial.eval_pow, Polynomial.eval_add, Polynomial.eval_C, Polynomial.eval_X, polyQ_eval]
  rw [show alpha + (l : ℝ) + (dim : ℝ) / 2 + 1 = l + (alpha + (dim : ℝ) / 2 + 1) by ring, Real.rpow_add (by norm_num) (l : ℝ), Real.rpow_natCast,
    show (1 + (2 * radiusGrid dim N alpha g i ^ 2 - 1)) = 2 * (radiusGrid dim N alpha g i * radiusGrid dim N alpha g i) by ring, mul_pow, mul_pow]
  have := (two_pow_pos (alpha + (dim : ℝ) / 2 + 1)).ne'
  generalize (2 : ℝ) ^ (alpha + (dim : ℝ) / 2 + 1) = T at *
  generalize Q n alpha _ _ = q
  generalize Q n' alpha _ _ = q'
  field_simp

theorem full_eq (Ng Nc Nmin : Nat) : (max (((max Ng Nc : Nat) : Int) - (Nmin : Int)) 0).toNat = max Ng Nc - Nmin := by omega

theorem kept_eq (Nc Nmin : Nat) : (max ((Nc : Int) - (Nmin : Int)) 0).toNat = Nc - Nmin := by omega

theorem bound_eq (Ng l : Nat) : (max ((Ng : Int) - (l : Int) / 2) 0).toNat = Ng - l / 2 := by omega

section
variable (dim Ng Nc Nmin : Nat) (alpha : ℝ) (l : Nat) (g : Nat → ℝ)
  (hd : 0 < dim) (ha : -1 < alpha) (hN : 0 < Ng) (hg : GridGuess Ng alpha ((dim : ℝ) / 2 - 1) g)

include hd ha hN hg

theorem gaussMatrix_eq (row i : Nat) (hi : i < Ng) (hrow : row ≤ max Ng Nc - Nmin) :
    gaussMatrix dim Ng Nc Nmin alpha l g row i =
      if row < Ng - l / 2 then Z dim row alpha l (radiusGrid dim Ng alpha g i) * (quadrature dim Ng alpha g i).2 else 0 := by
  obtain ⟨h0, h1, hz⟩ := grid_eq dim Ng alpha g hd ha hN hg i hi
  unfold gaussMatrix
  simp only [full_eq, bound_eq]
  rw [hz, polynomials_Z dim _ alpha l _ hd ha h0 row hrow]
  by_cases h : row < Ng - l / 2
  · rw [if_neg (by omega), if_pos h]
  · rw [if_pos (by omega), if_neg h]

theorem backwardMatrix_eq (k row i : Nat) (hi : i < Ng) (hrow : row ≤ Nc - Nmin) :
    backwardMatrix dim Ng Nc Nmin k alpha l g i row =
      if row < Ng - l / 2 then Z dim row (alpha + k) l (radiusGrid dim Ng alpha g i) else 0 := by
  obtain ⟨h0, h1, hz⟩ := grid_eq dim Ng alpha g hd ha hN hg i hi
  unfold backwardMatrix
  simp only [kept_eq, bound_eq]
  have hk : (-1 : ℝ) < k + alpha := by have : (0 : ℝ) ≤ k := Nat.cast_nonneg k; linarith
  rw [hz, polynomials_Z dim _ _ l _ hd hk h0 row hrow, add_comm (k : ℝ)]
  by_cases h : row < Ng - l / 2
  · rw [if_neg (by omega), if_pos h]
  · rw [if_pos (by omega), if_neg h]

variable {V : Type} [AddCommGroup V] [Module ℝ V]

/-- coefficients of the base functions -/
theorem gauss_sum (K : Nat) (f : Nat → V) (gdata : Nat → V)
    (hdata : ∀ i, i < Ng → gdata i = ∑ n ∈ Finset.range K, Z dim n alpha l (radiusGrid dim Ng alpha g i) • f n)
    (row : Nat) (hrow : row ≤ max Ng Nc - Nmin) (hK : row < Ng - l / 2 → l + (row + K) ≤ 2 * Ng) :
    ∑ i ∈ Finset.range Ng, gaussMatrix dim Ng Nc Nmin alpha l g row i • gdata i = if row < Ng - l / 2 ∧ row < K then f row else 0 := by
  by_cases h : row < Ng - l / 2
  · have hsum : ∀ i ∈ Finset.range Ng, gaussMatrix dim Ng Nc Nmin alpha l g row i • gdata i =
        ∑ n ∈ Finset.range K, ((quadrature dim Ng alpha g i).2 * (Z dim row alpha l (radiusGrid dim Ng alpha g i) *
          Z dim n alpha l (radiusGrid dim Ng alpha g i))) • f n := by
      intro i hi
      rw [gaussMatrix_eq dim Ng Nc Nmin alpha l g hd ha hN hg row i (Finset.mem_range.1 hi) hrow, if_pos h, hdata i (Finset.mem_range.1 hi), Finset.smul_sum]
      apply Finset.sum_congr rfl
      intro n _
      rw [smul_smul]
      congr 1
      ring
    rw [Finset.sum_congr rfl hsum, Finset.sum_comm]
    simp only [← Finset.sum_smul]
    have hs2 : ∀ n ∈ Finset.range K,
        (∑ i ∈ Finset.range Ng, (quadrature dim Ng alpha g i).2 * (Z dim row alpha l (radiusGrid dim Ng alpha g i) *
          Z dim n alpha l (radiusGrid dim Ng alpha g i))) • f n = if row = n then f n else 0 := by
      intro n hn
      have := Finset.mem_range.1 hn
      have := hK h
      rw [Z_gauss dim Ng alpha g hd ha hN hg row n l (by omega)]
      split
      · rw [one_smul]
      · rw [zero_smul]
    rw [Finset.sum_congr rfl hs2, Finset.sum_ite_eq]
    by_cases hk : row < K
    · rw [if_pos (Finset.mem_range.2 hk), if_pos ⟨h, hk⟩]
    · rw [if_neg (fun hh => hk (Finset.mem_range.1 hh)), if_neg (fun hh => hk hh.2)]
  · rw [if_neg (fun hh => h hh.1)]
    apply Finset.sum_eq_zero
    intro i hi
    rw [gaussMatrix_eq dim Ng Nc Nmin alpha l g hd ha hN hg row i (Finset.mem_range.1 hi) hrow, if_neg h, zero_smul]

end

/-! ## Conversion -/

theorem smul_pow (c : ℝ) (A : Op) (n : Nat) (a b : ℝ) : ∀ k, ((smul c A).pow k).rows n = (A.pow k).rows n ∧ ((smul c A).pow k).da = (A.pow k).da ∧
    ((smul c A).pow k).db = (A.pow k).db ∧ ∀ i j, ((smul c A).pow k).entry n a b i j = c ^ k * (A.pow k).entry n a b i j
  | 0 => ⟨rfl, rfl, rfl, fun i j => by simp [Op.pow]⟩
  | k + 1 => by
    obtain ⟨h1, h2, h3, h4⟩ := smul_pow c A n a b k
    refine ⟨by simp only [Op.pow, Op.comp, smul, h1] at *, by simp only [Op.pow, Op.comp, smul] at *; rw [h2],
      by simp only [Op.pow, Op.comp, smul] at *; rw [h3], fun i j => ?_⟩
    simp only [Op.pow, Op.comp]
    rw [h1, h2, h3, Finset.mul_sum]
    apply Finset.sum_congr rfl
    intro m _
    rw [h4 m j]
    simp only [smul]
    rw [pow_succ]
    ring

theorem zE_pow (dim k R : Nat) (a : ℝ) (l i j : Nat) (hj : j < R) :
    at_ dim ((zE 1).pow k) R a l i j = √(1 / 2) ^ k * conversion R a (l + (dim : ℝ) / 2 - 1) k 0 i j := by
  unfold at_ zE
  rw [if_pos rfl, (smul_pow _ opAp R a _ k).2.2.2 i j, b_nat]
  congr 1
  unfold conversion
  simp only [Op.comp, Op.pow, Op.one, add_zero]
  rw [Finset.sum_eq_single j]
  · rw [if_pos rfl, mul_one]
  · intro m _ hm; rw [if_neg hm, mul_zero]
  · intro h; exact absurd (Finset.mem_range.2 hj) h

theorem cst_ks (dim : Nat) (a : ℝ) (l : Nat) : ∀ k : Nat, cst dim (a + k) l = √2 ^ k * cst dim a l
  | 0 => by simp
  | k + 1 => by
    have := cst_k dim (a + k) l
    rw [cst_ks dim a l k, add_assoc] at this
    push_cast
    rw [this, pow_succ]
    ring

/-- the functions of parameter `k` in those of higher parameter -/
theorem Z_convert (dim k N : Nat) (a : ℝ) (l : Nat) (r : ℝ) (hd : 0 < dim) (ha : -1 < a) (j : Nat) (hj : j < N) :
    Z dim j a l r = ∑ i ∈ Finset.range N, at_ dim ((zE 1).pow k) N a l i j * Z dim i (a + k) l r := by
  have h := rep_conversion a _ ha (b_gt dim l hd) k 0 N j (2 * r ^ 2 - 1) hj
  rw [Z_eq, h, Finset.mul_sum]
  apply Finset.sum_congr rfl
  intro i _
  rw [zE_pow dim k N a l i j hj, Z_eq, cst_ks]
  have e : √(1 / 2 : ℝ) ^ k * √2 ^ k = 1 := by rw [← mul_pow, sqrt_half, one_pow]
  simp only [Nat.cast_zero, add_zero]
  generalize conversion N a _ k 0 i j = C
  generalize Q i _ _ _ = q
  linear_combination (-(C * cst dim a l * r ^ l * q)) * e

/-- the functions of higher parameter in those of the base parameter -/
theorem Z_unconvert (dim k L : Nat) (a : ℝ) (l : Nat) (hd : 0 < dim) (ha : -1 < a) : ∃ M : Nat → Nat → ℝ,
    (∀ i m, i < L → m < L → ∑ j ∈ Finset.range L, at_ dim ((zE 1).pow k) L a l i j * M j m = if i = m then 1 else 0) ∧
    ∀ m r, m < L → Z dim m (a + k) l r = ∑ j ∈ Finset.range L, M j m * Z dim j a l r := by
  have hb := b_gt dim l hd
  choose d hd1 hd2 using fun m => base_series a _ ha hb k 0 L (fun i => if i = m then (1 : ℝ) else 0)
  have e : √(1 / 2 : ℝ) ^ k * √2 ^ k = 1 := by rw [← mul_pow, sqrt_half, one_pow]
  refine ⟨fun j m => √2 ^ k * d m j, fun i m hi hm => ?_, fun m r hm => ?_⟩
  · rw [← hd1 m i hi]
    apply Finset.sum_congr rfl
    intro j hj
    rw [zE_pow dim k L a l i j (Finset.mem_range.1 hj)]
    linear_combination (conversion L a (l + (dim : ℝ) / 2 - 1) k 0 i j * d m j) * e
  · have h := hd2 m (2 * r ^ 2 - 1)
    simp only [ite_mul, one_mul, zero_mul, Nat.cast_zero, add_zero] at h
    rw [Finset.sum_ite_eq', if_pos (Finset.mem_range.2 hm)] at h
    rw [Z_eq, h, Finset.mul_sum]
    apply Finset.sum_congr rfl
    intro j _
    rw [Z_eq, cst_ks]
    ring

theorem zE_short (dim k R L : Nat) (hL : L ≤ R) (a : ℝ) (l : Nat) (hd : 0 < dim) (ha : -1 < a) (i : Nat) (d : Nat → ℝ) :
    ∑ j ∈ Finset.range R, at_ dim ((zE 1).pow k) R a l i j * (if j < L then d j else 0) =
      if i < L then ∑ j ∈ Finset.range L, at_ dim ((zE 1).pow k) L a l i j * d j else 0 := by
  have h := conversion_short R L hL a _ ha (b_gt dim l hd) k 0 i d
  have e1 : ∑ j ∈ Finset.range R, at_ dim ((zE 1).pow k) R a l i j * (if j < L then d j else 0) =
      √(1 / 2) ^ k * ∑ j ∈ Finset.range R, conversion R a (l + (dim : ℝ) / 2 - 1) k 0 i j * (if j < L then d j else 0) := by
    rw [Finset.mul_sum]
    apply Finset.sum_congr rfl
    intro j hj
    rw [zE_pow dim k R a l i j (Finset.mem_range.1 hj), mul_assoc]
  rw [e1, h]
  split
  · rw [Finset.mul_sum]
    apply Finset.sum_congr rfl
    intro j hj
    rw [zE_pow dim k L a l i j (Finset.mem_range.1 hj), mul_assoc]
  · rw [mul_zero]

section
variable {V : Type} [AddCommGroup V] [Module ℝ V]

/-- the forward matrix recovers resolved series -/
theorem forward_resolved (dim : Nat) (before : Bool) (Ng Nc Nmin k : Nat) (alpha : ℝ) (l : Nat) (g : Nat → ℝ)
    (hd : 0 < dim) (ha : -1 < alpha) (hN : 0 < Ng) (hg : GridGuess Ng alpha ((dim : ℝ) / 2 - 1) g) (L : Nat) (hL : L ≤ Ng - l / 2)
    (hL1 : L ≤ max Ng Nc - Nmin) (hM : before = true → L ≤ Nc - Nmin) (c gdata : Nat → V)
    (hdata : ∀ i, i < Ng → gdata i = ∑ n ∈ Finset.range L, Z dim n (alpha + k) l (radiusGrid dim Ng alpha g i) • c n)
    (row : Nat) (hrow : row < Nc - Nmin) :
    ∑ i ∈ Finset.range Ng, forwardMatrix dim before Ng Nc Nmin k alpha l g row i • gdata i = if row < L then c row else 0 := by
  have cond : ∀ L' row, L' = L → row < Ng - l / 2 → l + (row + L) ≤ 2 * Ng := by
    intro L' row _ h1; omega
  unfold forwardMatrix
  simp only [full_eq, kept_eq]
  rcases Nat.eq_zero_or_pos k with rfl | hk
  · simp only [gt_iff_lt, lt_self_iff_false, if_false]
    rw [gauss_sum dim Ng Nc Nmin alpha l g hd ha hN hg L c gdata (fun i hi => by rw [hdata i hi]; simp) row (by omega) (cond L row rfl)]
    by_cases h : row < L
    · rw [if_pos h, if_pos ⟨by omega, h⟩]
    · rw [if_neg h, if_neg (fun hh => h hh.2)]
  · simp only [gt_iff_lt, hk, if_true]
    set R := if before = true then Nc - Nmin else max Ng Nc - Nmin with hR
    have hLR : L ≤ R := by
      rw [hR]; split
      · exact hM ‹_›
      · omega
    have hRf : R ≤ max Ng Nc - Nmin := by rw [hR]; split <;> omega
    obtain ⟨M, hM1, hM2⟩ := Z_unconvert dim k L alpha l hd ha
    have hf := fun j (hj : j ≤ max Ng Nc - Nmin) => gauss_sum dim Ng Nc Nmin alpha l g hd ha hN hg L (fun j => ∑ m ∈ Finset.range L, M j m • c m) gdata (fun i hi => by
      rw [hdata i hi]
      have : ∀ n ∈ Finset.range L, Z dim n (alpha + k) l (radiusGrid dim Ng alpha g i) • c n =
          ∑ j ∈ Finset.range L, Z dim j alpha l (radiusGrid dim Ng alpha g i) • M j n • c n := by
        intro n hn
        rw [hM2 n _ (Finset.mem_range.1 hn), Finset.sum_smul]
        apply Finset.sum_congr rfl
        intro j _
        rw [smul_smul, mul_comm]
      rw [Finset.sum_congr rfl this, Finset.sum_comm]
      simp only [Finset.smul_sum]) j hj (cond L j rfl)
    have e1 : ∀ i ∈ Finset.range Ng, (∑ j ∈ Finset.range R, at_ dim ((zE 1).pow k) R alpha l row j * gaussMatrix dim Ng Nc Nmin alpha l g j i) • gdata i =
        ∑ j ∈ Finset.range R, at_ dim ((zE 1).pow k) R alpha l row j • gaussMatrix dim Ng Nc Nmin alpha l g j i • gdata i := by
      intro i _
      rw [Finset.sum_smul]
      simp only [smul_smul]
    rw [Finset.sum_congr rfl e1, Finset.sum_comm]
    have e2 : ∀ j ∈ Finset.range R, ∑ i ∈ Finset.range Ng, at_ dim ((zE 1).pow k) R alpha l row j • gaussMatrix dim Ng Nc Nmin alpha l g j i • gdata i =
        ∑ m ∈ Finset.range L, (at_ dim ((zE 1).pow k) R alpha l row j * if j < L then M j m else 0) • c m := by
      intro j hj
      rw [← Finset.smul_sum, hf j (by have := Finset.mem_range.1 hj; omega)]
      by_cases h : j < L
      · rw [if_pos ⟨by omega, h⟩, Finset.smul_sum]
        simp only [if_pos h, smul_smul]
      · rw [if_neg (fun hh => h hh.2)]
        simp [h]
    rw [Finset.sum_congr rfl e2, Finset.sum_comm]
    simp only [← Finset.sum_smul]
    simp only [zE_short dim k R L hLR alpha l hd ha]
    by_cases h : row < L
    · simp only [if_pos h]
      rw [Finset.sum_eq_single row]
      · rw [hM1 row row h h, if_pos rfl, one_smul]
      · intro m hm hne
        rw [hM1 row m h (Finset.mem_range.1 hm), if_neg (fun e => hne e.symm), zero_smul]
      · intro h'; exact absurd (Finset.mem_range.2 h) h'
    · simp [h]

/-- the backward matrix evaluates -/
theorem backward_apply (dim Ng Nc Nmin k : Nat) (alpha : ℝ) (l : Nat) (g : Nat → ℝ)
    (hd : 0 < dim) (ha : -1 < alpha) (hN : 0 < Ng) (hg : GridGuess Ng alpha ((dim : ℝ) / 2 - 1) g) (c : Nat → V) (i : Nat) (hi : i < Ng) :
    ∑ row ∈ Finset.range (Nc - Nmin), backwardMatrix dim Ng Nc Nmin k alpha l g i row • c row =
      ∑ n ∈ Finset.range (min (Nc - Nmin) (Ng - l / 2)), Z dim n (alpha + k) l (radiusGrid dim Ng alpha g i) • c n := by
  symm
  rw [← Finset.sum_subset (s₁ := Finset.range (min (Nc - Nmin) (Ng - l / 2))) (s₂ := Finset.range (Nc - Nmin))]
  · apply Finset.sum_congr rfl
    intro n hn
    have := Finset.mem_range.1 hn
    rw [backwardMatrix_eq dim Ng Nc Nmin alpha l g hd ha hN hg k n i hi (by omega), if_pos (by omega)]
  · intro x hx; simp at *; omega
  · intro x hx hx'
    simp at hx hx'
    rw [backwardMatrix_eq dim Ng Nc Nmin alpha l g hd ha hN hg k x i hi (by omega), if_neg (by omega), zero_smul]

end

end Dedalus.Zernike
