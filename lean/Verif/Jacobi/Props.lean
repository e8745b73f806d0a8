import Verif.Jacobi.Transform

/-!
# Properties of Jacobi bases
-/

namespace Dedalus.Jacobi

open Spec

/-! ## C59: polynomials and operators -/

/-- The recursion of the code computes the classical polynomials divided by their norms. -/
theorem polynomials_classical (n : Nat) (a b z : ℝ) (ha : -1 < a) (hb : -1 < b) (k : Nat) (hk : k < n) :
    polynomials n a b z k = P k a b z / √(norm2 k a b) := polynomials_Q n a b z ha hb k hk.le

/-- The polynomials of the code are orthonormal for the weight `(1 - z)^a (1 + z)^b`. -/
theorem polynomials_orthonormal (n m : Nat) (a b : ℝ) (ha : -1 < a) (hb : -1 < b) (j k : Nat) (hj : j < n) (hk : k < m) :
    ∫ z in (-1 : ℝ)..1, (1 - z) ^ a * (1 + z) ^ b * (polynomials n a b z j * polynomials m a b z k) = if j = k then 1 else 0 := by
  rw [← Q_orthonormal j k a b ha hb]
  unfold integ
  apply intervalIntegral.integral_congr
  intro z _
  simp only
  rw [polynomials_Q n a b z ha hb j hj.le, polynomials_Q m a b z ha hb k hk.le]

/-- Legendre polynomials are an instance, and the first one is `√(3/2) z`. -/
example (z : ℝ) : polynomials 2 0 0 z 1 = √(3 / 2) * z := by
  rw [polynomials_Q 2 0 0 z (by norm_num) (by norm_num) 1 (by omega), Q, P, norm2, weight]
  have h1 : Real.Gamma (1 + 0 + 1) = 1 := by norm_num [Real.Gamma_two]
  have h2 : Real.Gamma (1 + 0 + 0 + 2) = 2 := by
    rw [show (1 : ℝ) + 0 + 0 + 2 = 2 + 1 by norm_num, Real.Gamma_add_one (by norm_num), Real.Gamma_two]; norm_num
  simp only [Finset.sum_range_succ, Finset.sum_range_zero, coef, poch, Nat.cast_one, h1, h2]
  norm_num
  have h3 : (0 : ℝ) < √3 := Real.sqrt_pos.2 (by norm_num)
  have h4 : (0 : ℝ) < √2 := Real.sqrt_pos.2 (by norm_num)
  field_simp
  ring

/-- Conversion changes the coefficients but not the function. -/
theorem conversion_preserves (N : Nat) (a0 b0 a1 b1 : ℝ) (ha : -1 < a0) (hb : -1 < b0) (C : Nat → Nat → ℝ)
    (h : conversionMatrix N a0 b0 a1 b1 = some C) (c : Nat → ℝ) (z : ℝ) :
    series N (fun i => ∑ j ∈ Finset.range N, C i j * c j) a1 b1 z = series N c a0 b0 z := by
  obtain ⟨da, db, rfl, rfl, rfl⟩ := conversionMatrix_cases N a0 b0 a1 b1 C h
  exact (series_convert a0 b0 z ha hb da db N c).symm

/-- Conversion is possible if and only if both parameters grow by natural numbers. -/
theorem conversion_possible (N : Nat) (a0 b0 a1 b1 : ℝ) :
    (∃ C, conversionMatrix N a0 b0 a1 b1 = some C) ↔ ∃ da db : Nat, a1 = a0 + da ∧ b1 = b0 + db := by
  constructor
  · rintro ⟨C, h⟩
    obtain ⟨da, db, e1, e2, _⟩ := conversionMatrix_cases N a0 b0 a1 b1 C h
    exact ⟨da, db, e1, e2⟩
  · rintro ⟨da, db, rfl, rfl⟩
    exact ⟨_, conversionMatrix_some N a0 b0 da db⟩

/-- From Chebyshev polynomials to the polynomials of the second derivative. -/
example : ∃ C, conversionMatrix 8 (-1 / 2) (-1 / 2) (3 / 2) (3 / 2) = some C :=
  (conversion_possible 8 _ _ _ _).2 ⟨2, 2, by norm_num, by norm_num⟩

theorem native_coord (l r x : ℝ) (h : l < r) : (jacobiCov l r).nativeCoord (.num x) = some (native l r x) := by
  unfold Fourier.Cov.nativeCoord jacobiCov native Fourier.Cov.problemLength Fourier.Cov.nativeLength
  have : r - l ≠ 0 := by linarith
  simp only [Option.some.injEq]
  field_simp
  ring

theorem stretch_eq (l r : ℝ) : (jacobiCov l r).stretch = (r - l) / 2 := by
  unfold jacobiCov Fourier.Cov.stretch Fourier.Cov.problemLength Fourier.Cov.nativeLength
  norm_num

theorem native_deriv (l r x : ℝ) (h : l < r) : HasDerivAt (native l r) (2 / (r - l)) x := by
  have hs := ((((hasDerivAt_id x).sub_const l).const_mul 2).div_const (r - l)).sub_const 1
  have e : (2 : ℝ) * 1 / (r - l) = 2 / (r - l) := by ring
  rw [e] at hs
  exact hs

theorem series_deriv (N : Nat) (a b : ℝ) (ha : -1 < a) (hb : -1 < b) (c : Nat → ℝ) (z : ℝ) :
    HasDerivAt (series N c a b) (series N (fun i => ∑ j ∈ Finset.range N, differentiationMatrix N a b i j * c j) (a + 1) (b + 1) z) z := by
  have h : HasDerivAt (fun x => ∑ j ∈ Finset.range N, c j * Q j a b x)
      (∑ j ∈ Finset.range N, c j * ∑ i ∈ Finset.range N, differentiationMatrix N a b i j * Q i (a + 1) (b + 1) z) z := by
    refine HasDerivAt.fun_sum fun j hj => ?_
    exact (Q_deriv a b ha hb N j (Finset.mem_range.1 hj) z).const_mul (c j)
  have e : series N (fun i => ∑ j ∈ Finset.range N, differentiationMatrix N a b i j * c j) (a + 1) (b + 1) z =
      ∑ j ∈ Finset.range N, c j * ∑ i ∈ Finset.range N, differentiationMatrix N a b i j * Q i (a + 1) (b + 1) z := by
    unfold series
    simp only [Finset.sum_mul, Finset.mul_sum]
    rw [Finset.sum_comm]
    apply Finset.sum_congr rfl
    intro j _
    apply Finset.sum_congr rfl
    intro i _
    ring
  rw [e]
  exact h

/-- Differentiation of a field on `[left, right]` is exact, with output in the basis of parameters `a + 1, b + 1`. -/
theorem differentiate_exact (l r : ℝ) (h : l < r) (N : Nat) (a b : ℝ) (ha : -1 < a) (hb : -1 < b) (c : Nat → ℝ) (x : ℝ) :
    HasDerivAt (fun x => series N c a b (native l r x))
      (series N (differentiate (jacobiCov l r) N a b c) (a + 1) (b + 1) (native l r x)) x := by
  have h1 := (series_deriv N a b ha hb c (native l r x)).comp x (native_deriv l r x h)
  have e : series N (differentiate (jacobiCov l r) N a b c) (a + 1) (b + 1) (native l r x) =
      series N (fun i => ∑ j ∈ Finset.range N, differentiationMatrix N a b i j * c j) (a + 1) (b + 1) (native l r x) * (2 / (r - l)) := by
    unfold series differentiate
    rw [Finset.sum_mul, stretch_eq]
    apply Finset.sum_congr rfl
    intro i _
    have : r - l ≠ 0 := by linarith
    rw [Finset.sum_mul, Finset.sum_mul, Finset.sum_mul]
    apply Finset.sum_congr rfl
    intro j _
    field_simp
  rw [e]
  exact h1

/-- Interpolation returns the value of the field at the requested point, given by a number or a name. -/
theorem interpolate_exact (l r : ℝ) (h : l < r) (N : Nat) (a b : ℝ) (ha : -1 < a) (hb : -1 < b) (c : Nat → ℝ) :
    (∀ x, interpolate (jacobiCov l r) N a b (.num x) c = some (series N c a b (native l r x))) ∧
    (∀ s x, Named s l r x → interpolate (jacobiCov l r) N a b (.name s) c = some (series N c a b (native l r x))) ∧
    ∀ s, interpolate (jacobiCov l r) N a b (.name s) c ≠ none → ∃ x, Named s l r x := by
  have hs : ∀ z, ∑ j ∈ Finset.range N, polynomials N a b z j * c j = series N c a b z := by
    intro z
    apply Finset.sum_congr rfl
    intro j hj
    rw [polynomials_Q N a b z ha hb j (Finset.mem_range.1 hj).le, mul_comm]
  have n1 : native l r l = -1 := by unfold native; simp
  have n2 : native l r r = 1 := by
    unfold native
    have : r - l ≠ 0 := by linarith
    field_simp
    ring
  have n3 : native l r ((l + r) / 2) = 0 := by
    unfold native
    have : r - l ≠ 0 := by linarith
    field_simp
    ring
  refine ⟨fun x => ?_, fun s x hx => ?_, fun s hn => ?_⟩
  · unfold interpolate
    rw [native_coord l r x h, Option.map_some, hs]
  · unfold interpolate Fourier.Cov.nativeCoord jacobiCov Fourier.Cov.nativeCenter
    cases hx <;> simp [hs, n1, n2, n3]
  · unfold interpolate Fourier.Cov.nativeCoord at hn
    simp only at hn
    split at hn
    · rename_i e; rcases e with rfl | rfl
      · exact ⟨_, .left l r⟩
      · exact ⟨_, .lower l r⟩
    · split at hn
      · rename_i e; rcases e with rfl | rfl
        · exact ⟨_, .right l r⟩
        · exact ⟨_, .upper l r⟩
      · split at hn
        · rename_i e; rcases e with rfl | rfl
          · exact ⟨_, .center l r⟩
          · exact ⟨_, .middle l r⟩
        · exact absurd rfl hn

theorem series_continuous (N : Nat) (c : Nat → ℝ) (a b : ℝ) : Continuous (series N c a b) := by
  unfold series
  exact continuous_finset_sum _ fun k _ => continuous_const.mul (Q_continuous k a b)

theorem series_integral (N : Nat) (c : Nat → ℝ) (a b : ℝ) :
    ∫ z in (-1 : ℝ)..1, series N c a b z = ∑ m ∈ Finset.range N, c m * ∫ z in (-1 : ℝ)..1, Q m a b z := by
  unfold series
  have hi : ∀ k ∈ Finset.range N, IntervalIntegrable (fun z => c k * Q k a b z) MeasureTheory.volume (-1) 1 := fun k _ =>
    (continuous_const.mul (Q_continuous k a b)).intervalIntegrable _ _
  rw [intervalIntegral.integral_finset_sum hi]
  apply Finset.sum_congr rfl
  intro k _
  rw [intervalIntegral.integral_const_mul]

theorem native_integral (l r : ℝ) (h : l < r) (f : ℝ → ℝ) : ∫ x in l..r, f (native l r x) = (r - l) / 2 * ∫ z in (-1 : ℝ)..1, f z := by
  have hne : r - l ≠ 0 := by linarith
  have e : ∀ x, native l r x = x / ((r - l) / 2) - (2 * l / (r - l) + 1) := by
    intro x
    unfold native
    field_simp
    ring
  simp only [e]
  rw [intervalIntegral.integral_comp_div_sub _ (by positivity)]
  rw [smul_eq_mul]
  congr 2
  · field_simp; ring
  · field_simp; ring

/-- Integration over `[left, right]` is exact up to the entries of the vector that the code drops because they are at
most the cutoff. -/
theorem integrate_exact (l r : ℝ) (h : l < r) (N : Nat) (a b cutoff : ℝ) (ha : -1 < a) (hb : -1 < b) (hc : 0 ≤ cutoff) (g : Nat → ℝ)
    (hg : GridGuess N 0 0 g) (c : Nat → ℝ) :
    |integrate (jacobiCov l r) N a b cutoff g c - ∫ x in l..r, series N c a b (native l r x)| ≤
      (r - l) / 2 * cutoff * ∑ m ∈ Finset.range N, |c m| := by
  rw [native_integral l r h, series_integral, Finset.mul_sum, Finset.mul_sum]
  unfold integrate
  rw [← Finset.sum_sub_distrib]
  refine (Finset.abs_sum_le_sum_abs _ _).trans (Finset.sum_le_sum fun m hm => ?_)
  rw [integrationVector_eq N a b cutoff g ha hb hg m (Finset.mem_range.1 hm), stretch_eq]
  have hp : 0 < (r - l) / 2 := by linarith
  split
  · rename_i hs
    rw [zero_mul, zero_mul, zero_sub, abs_neg, abs_mul, abs_mul, abs_of_pos hp, mul_assoc]
    have := mul_le_mul_of_nonneg_left hs (abs_nonneg (c m))
    nlinarith
  · rw [show (∫ z in (-1 : ℝ)..1, Q m a b z) * ((r - l) / 2) * c m - (r - l) / 2 * (c m * ∫ z in (-1 : ℝ)..1, Q m a b z) = 0 by ring, abs_zero]
    positivity

/-- The average is the integral divided by the length, again up to the cutoff. -/
theorem average_exact (l r : ℝ) (h : l < r) (N : Nat) (a b cutoff : ℝ) (ha : -1 < a) (hb : -1 < b) (hc : 0 ≤ cutoff) (g : Nat → ℝ)
    (hg : GridGuess N 0 0 g) (c : Nat → ℝ) :
    |average N a b cutoff g c - (∫ x in l..r, series N c a b (native l r x)) / (r - l)| ≤ cutoff / 2 * ∑ m ∈ Finset.range N, |c m| := by
  have hi := integrate_exact l r h N a b cutoff ha hb hc g hg c
  have e : average N a b cutoff g c = integrate (jacobiCov l r) N a b cutoff g c / (r - l) := by
    unfold average integrate
    rw [stretch_eq, Finset.sum_div]
    apply Finset.sum_congr rfl
    intro m _
    have : r - l ≠ 0 := by linarith
    field_simp
  have hp : 0 < r - l := by linarith
  rw [e, ← sub_div, abs_div, abs_of_pos hp, div_le_iff₀ hp]
  refine hi.trans (le_of_eq ?_)
  ring

/-- Legendre grids exist for every number of points, so the hypothesis can be met. -/
example : ∃ g, GridGuess 7 0 0 g := guess_exists 7 0 0 (by norm_num) (by norm_num)

/-- A constant becomes the series with that value everywhere. -/
theorem convert_constant_exact (N : Nat) (hN : 0 < N) (a b u : ℝ) (ha : -1 < a) (hb : -1 < b) (z : ℝ) :
    series N (convertConstant a b u) a b z = u := by
  unfold series convertConstant
  rw [Finset.sum_eq_single_of_mem 0 (Finset.mem_range.2 hN)]
  · rw [if_pos rfl, Q, P_zero, mass_norm]
    have := (sq_pos 0 a b ha hb).ne'
    field_simp
  · intro k _ hk
    rw [if_neg hk, zero_mul]

/-- A lifting index in range selects one polynomial; negative indices count from the end. -/
theorem lift_partial (N : Nat) (n : Int) (h1 : -(N : Int) ≤ n) (h2 : n < N) (a b z : ℝ) :
    ∃ k : Nat, k < N ∧ (k : Int) = n % N ∧ series N (liftPolynomial N n) a b z = Q k a b z := by
  have hk : ∀ k : Nat, k < N → (k : Int) = (if n < 0 then n + N else n) → series N (liftPolynomial N n) a b z = Q k a b z := by
    intro k hk e
    have hl : ∀ m, liftPolynomial N n m = if m = k then 1 else 0 := by
      intro m
      unfold liftPolynomial
      simp only
      rw [← e]
      have s1 : sliceBound N k = k := by unfold sliceBound; rw [if_neg (by omega)]; omega
      have s2 : sliceBound N ((k : Int) + 1) = k + 1 := by unfold sliceBound; rw [if_neg (by omega)]; omega
      rw [s1, s2]
      by_cases hm : m = k
      · rw [if_pos (by omega), if_pos hm]
      · rw [if_neg (by omega), if_neg hm]
    unfold series
    rw [Finset.sum_eq_single_of_mem k (Finset.mem_range.2 hk)]
    · rw [hl, if_pos rfl, one_mul]
    · intro m _ hm
      rw [hl, if_neg hm, zero_mul]
  by_cases hn : n < 0
  · obtain ⟨k, hk'⟩ : ∃ k : Nat, (k : Int) = n + N := ⟨(n + N).toNat, by omega⟩
    refine ⟨k, by omega, ?_, hk k (by omega) (by rw [if_pos hn, hk'])⟩
    rw [hk', ← Int.add_emod_right, Int.emod_eq_of_lt (by omega) (by omega)]
  · obtain ⟨k, hk'⟩ : ∃ k : Nat, (k : Int) = n := ⟨n.toNat, by omega⟩
    refine ⟨k, by omega, ?_, hk k (by omega) (by rw [if_neg hn, hk'])⟩
    rw [hk', Int.emod_eq_of_lt (by omega) (by omega)]

example : ∃ k : Nat, k < 16 ∧ (k : Int) = (-1 : Int) % 16 := ⟨15, by decide⟩

/-- An index out of range is not rejected: too large an index lifts to zero, and some too small an index lifts to a
polynomial that was not asked for. -/
theorem lift_out_of_range_refuted (N : Nat) (a b z : ℝ) :
    (∀ n : Int, (N : Int) ≤ n → series N (liftPolynomial N n) a b z = 0) ∧
    series 4 (liftPolynomial 4 (-6)) a b z = Q 2 a b z := by
  constructor
  · intro n hn
    unfold series
    apply Finset.sum_eq_zero
    intro m hm
    have := Finset.mem_range.1 hm
    unfold liftPolynomial
    simp only
    rw [if_neg (show ¬ n < 0 by omega)]
    have s1 : sliceBound N n = N := by unfold sliceBound; rw [if_neg (by omega)]; omega
    rw [s1, if_neg (by omega), zero_mul]
  · have e : ∀ m : Nat, liftPolynomial 4 (-6) m = if 2 ≤ m ∧ m < 3 then 1 else 0 := fun m => rfl
    unfold series
    simp only [e, Finset.sum_range_succ, Finset.sum_range_zero]
    norm_num

/-- Multiplication by the coordinate: the rectangular matrix is exact, and its square part is symmetric. -/
theorem jacobi_matrix_multiplies (N : Nat) (a b : ℝ) (ha : -1 < a) (hb : -1 < b) :
    (∀ (c : Nat → ℝ) z, z * series N c a b z = series (N + 1) (fun i => ∑ j ∈ Finset.range N, opZ.entry N a b i j * c j) a b z) ∧
    (∀ i j, i < N → j < N → jacobiMatrix N a b i j = jacobiMatrix N a b j i) ∧
    ∀ i j, i < N → j < N → (i + 1 < j ∨ j + 1 < i) → jacobiMatrix N a b i j = 0 := by
  refine ⟨fun c z => ?_, fun i j hi hj => ?_, fun i j _ hj h => opZ_far N a b i j hj h⟩
  · unfold series
    rw [Finset.mul_sum]
    have : ∀ j ∈ Finset.range N, z * (c j * Q j a b z) = ∑ i ∈ Finset.range (N + 1), opZ.entry N a b i j * c j * Q i a b z := by
      intro j hj
      have h := rep_Z a b ha hb N j z (Finset.mem_range.1 hj)
      change _ = ∑ i ∈ Finset.range (N + 1), opZ.entry N a b i j * Q i (a + 0) (b + 0) z at h
      rw [add_zero, add_zero] at h
      rw [show z * (c j * Q j a b z) = c j * (z * Q j a b z) by ring, h, Finset.mul_sum]
      apply Finset.sum_congr rfl
      intro i _
      ring
    rw [Finset.sum_congr rfl this, Finset.sum_comm]
    apply Finset.sum_congr rfl
    intro i _
    rw [Finset.sum_mul]
  · have h := (XM_symm N a b ha hb).apply ⟨j, hj⟩ ⟨i, hi⟩
    simp only [star_trivial] at h
    exact h

/-! ## C60: multiplication matrices -/

/-- The matrix of a non-constant coefficient gives the first `N` coefficients of the product of the two functions. The
coefficients at most the cutoff are dropped. -/
theorem ncc_matrix_exact (N K : Nat) (hK : K ≤ N) (aN bN aA bA aO bO cutoff : ℝ) (haN : -1 < aN) (hbN : -1 < bN) (haA : -1 < aA) (hbA : -1 < bA)
    (f : Nat → ℝ) (A : Nat → Nat → ℝ) (hA : nccMatrix N aN bN aA bA aO bO ((List.range K).map f) cutoff = some A) (u : Nat → ℝ) :
    ∃ w : Nat → ℝ,
      (∀ z, series K (fun n => if |f n| > cutoff then f n else 0) aN bN z * series N u aA bA z = series (2 * N) w aO bO z) ∧
      ∀ i, i < N → ∑ j ∈ Finset.range N, A i j * u j = w i := by
  unfold nccMatrix at hA
  simp only at hA
  obtain ⟨C, hC, hA⟩ := Option.map_eq_some_iff.1 hA
  obtain ⟨da, db, rfl, rfl, hC2⟩ := conversionMatrix_cases _ _ _ _ _ _ hC
  rw [show aA + (da : ℝ) - aA = da by ring, show bA + (db : ℝ) - bA = db by ring, round_natCast, round_natCast] at hA hC2
  subst hC2
  refine ⟨_, fun z => product_series N aN bN aA bA da db haN hbN haA hbA K hK _ u z, fun i hi => ?_⟩
  apply Finset.sum_congr rfl
  intro j hj
  have hj' := Finset.mem_range.1 hj
  have hM := nccSize_nat N da db
  have hjM : j < nccSize N da db := by omega
  rw [← hA]
  simp only [dif_pos hjM]
  rw [ncc_entry N aN bN aA bA da db haN hbN haA hbA K hK f cutoff i j hi hj' hjM]

/-- The coefficients of a function are determined by the function, so the coefficients above are those of the product. -/
theorem coefficients_unique (K : Nat) (a b : ℝ) (ha : -1 < a) (hb : -1 < b) (v w : Nat → ℝ) (h : ∀ z, series K v a b z = series K w a b z) :
    ∀ i, i < K → v i = w i := by
  intro i hi
  have := Q_unique a b ha hb K (fun i => v i - w i) (fun z => by
    have := h z
    unfold series at this
    simp only [sub_mul, Finset.sum_sub_distrib]
    linarith) i hi
  linarith

/-- The matrix exists if and only if the output parameters are reachable from those of the operand. -/
theorem ncc_matrix_possible (N : Nat) (aN bN aA bA aO bO cutoff : ℝ) (f : List ℝ) :
    (∃ A, nccMatrix N aN bN aA bA aO bO f cutoff = some A) ↔ ∃ da db : Nat, aO = aA + da ∧ bO = bA + db := by
  rw [← conversion_possible (nccSize N (round (aO - aA)) (round (bO - bA)))]
  unfold nccMatrix
  simp only [Option.map_eq_some_iff]
  constructor
  · rintro ⟨A, C, hC, _⟩; exact ⟨C, hC⟩
  · rintro ⟨C, hC⟩; exact ⟨_, C, hC, rfl⟩

/-- Chebyshev coefficients times Chebyshev fields in the basis of the second derivative: all 8 by 8 products. -/
example : ∃ A, nccMatrix 8 (-1 / 2) (-1 / 2) (-1 / 2) (-1 / 2) (3 / 2) (3 / 2) ((List.range 8).map fun n => (n : ℝ)) 0 = some A :=
  (ncc_matrix_possible 8 _ _ _ _ _ _ 0 _).2 ⟨2, 2, by norm_num, by norm_num⟩

/-- The matrix of one basis polynomial multiplies by this polynomial. -/
theorem product_matrix_exact (N n : Nat) (hn : n < N) (aN bN aA bA aO bO : ℝ) (haN : -1 < aN) (hbN : -1 < bN) (haA : -1 < aA) (hbA : -1 < bA)
    (A : Nat → Nat → ℝ) (hA : productMatrix N aN bN aA bA aO bO n = some A) (u : Nat → ℝ) :
    ∃ w : Nat → ℝ, (∀ z, Q n aN bN z * series N u aA bA z = series (2 * N) w aO bO z) ∧
      ∀ i, i < N → ∑ j ∈ Finset.range N, A i j * u j = w i := by
  have hl : (List.replicate n (0 : ℝ) ++ [1]) = (List.range (n + 1)).map fun k => if k = n then 1 else 0 := by
    rw [List.range_succ, List.map_append]
    congr 1
    · apply List.ext_getElem
      · simp
      · intro i h1 h2
        simp only [List.length_replicate] at h1
        simp only [List.getElem_replicate, List.getElem_map, List.getElem_range]
        rw [if_neg (by omega)]
    · simp
  unfold productMatrix at hA
  rw [hl] at hA
  obtain ⟨w, h1, h2⟩ := ncc_matrix_exact N (n + 1) (by omega) aN bN aA bA aO bO 0 haN hbN haA hbA _ A hA u
  refine ⟨w, fun z => ?_, h2⟩
  rw [← h1 z]
  congr 1
  unfold series
  rw [Finset.sum_eq_single_of_mem n (Finset.mem_range.2 (by omega))]
  · simp
  · intro k _ hk
    simp [hk]

/-! ## C61: grids, quadrature and matrix transforms -/

/-- The grid consists of the distinct roots of the polynomial of degree `n`, in any order `grid_guess` returns, and the
Newton updates keep it. -/
theorem quadrature_grid (n : Nat) (hn : 0 < n) (a b : ℝ) (ha : -1 < a) (hb : -1 < b) (g : Nat → ℝ) (hg : GridGuess n a b g) :
    (∀ i, i < n → P n a b (quadrature n a b g i).1 = 0) ∧
    ∀ i j, i < n → j < n → (quadrature n a b g i).1 = (quadrature n a b g j).1 → i = j := by
  have hr := guess_roots n a b ha hb hn g hg
  refine ⟨fun i hi => ?_, fun i j hi hj h => ?_⟩
  · rw [quadrature_gauss n a b g i ha hb hr hi]
    have := hr.1 i hi
    rw [Q, div_eq_zero_iff] at this
    rcases this with h | h
    · exact h
    · exact absurd h (sq_pos n a b ha hb).ne'
  · rw [quadrature_gauss n a b g i ha hb hr hi, quadrature_gauss n a b g j ha hb hr hj] at h
    exact hr.2 i j hi hj h

/-- Quadrature integrates every polynomial of degree at most `2 n - 1` exactly. -/
theorem quadrature_exact (n : Nat) (hn : 0 < n) (a b : ℝ) (ha : -1 < a) (hb : -1 < b) (g : Nat → ℝ) (hg : GridGuess n a b g)
    (p : Polynomial ℝ) (hp : p.natDegree ≤ 2 * n - 1) :
    ∑ i ∈ Finset.range n, (quadrature n a b g i).2 * p.eval (quadrature n a b g i).1 =
      ∫ z in (-1 : ℝ)..1, (1 - z) ^ a * (1 + z) ^ b * p.eval z :=
  gauss_exact n a b g ha hb hn (guess_roots n a b ha hb hn g hg) p (by omega)

/-- Grids exist for all parameters. -/
example : ∃ g, GridGuess 12 (1 / 3) (-1 / 2) g := guess_exists 12 _ _ (by norm_num) (by norm_num)

/-- The backward transform evaluates the resolved part of the series on the grid. -/
theorem matrix_backward_evaluates (N M : Nat) (hN : 0 < N) (a b a0 b0 : ℝ) (ha : -1 < a) (hb : -1 < b) (ha0 : -1 < a0) (hb0 : -1 < b0)
    (g : Nat → ℝ) (hg : GridGuess N a0 b0 g) (c : Nat → ℝ) (i : Nat) (hi : i < N) :
    ∑ m ∈ Finset.range M, backwardMatrix N M a b a0 b0 g i m * c m = series (min M N) c a b (quadrature N a0 b0 g i).1 := by
  have hr := guess_roots N a0 b0 ha0 hb0 hN g hg
  rw [backward_apply N M a b a0 b0 g ha hb ha0 hb0 hr c i hi, quadrature_gauss N a0 b0 g i ha0 hb0 hr hi]
  rfl

/-- From coefficients to the grid and back: resolved modes are kept, the others are zero, with and without truncation
before the conversion. -/
theorem matrix_round_trip (before : Bool) (N M : Nat) (hN : 0 < N) (a b a0 b0 : ℝ) (ha0 : -1 < a0) (hb0 : -1 < b0) (g : Nat → ℝ)
    (hg : GridGuess N a0 b0 g) (F : Nat → Nat → ℝ) (hF : forwardMatrix before N M a b a0 b0 g = some F) (c : Nat → ℝ) (m : Nat) (hm : m < M) :
    ∑ i ∈ Finset.range N, F m i * ∑ k ∈ Finset.range M, backwardMatrix N M a b a0 b0 g i k * c k = if m < N then c m else 0 := by
  have hr := guess_roots N a0 b0 ha0 hb0 hN g hg
  obtain ⟨da, db, e1, e2, -⟩ := forward_cases before N M a b a0 b0 g F hF
  have hd : (0 : ℝ) ≤ da := Nat.cast_nonneg da
  have he : (0 : ℝ) ≤ db := Nat.cast_nonneg db
  rw [forward_resolved before N M a b a0 b0 g ha0 hb0 hr F hF (min M N) (by omega) (fun _ => by omega) c _
    (fun i hi => backward_apply N M a b a0 b0 g (by linarith) (by linarith) ha0 hb0 hr c i hi) m hm]
  by_cases h : m < N
  · rw [if_pos h, if_pos (by omega)]
  · rw [if_neg h, if_neg (by omega)]

/-- The forward matrix exists if and only if the parameters of the basis are reachable from those of the grid. -/
theorem matrix_forward_possible (before : Bool) (N M : Nat) (a b a0 b0 : ℝ) (g : Nat → ℝ) :
    (∃ F, forwardMatrix before N M a b a0 b0 g = some F) ↔ ∃ da db : Nat, a = a0 + da ∧ b = b0 + db := by
  constructor
  · rintro ⟨F, hF⟩
    obtain ⟨da, db, e1, e2, -⟩ := forward_cases before N M a b a0 b0 g F hF
    exact ⟨da, db, e1, e2⟩
  · rintro ⟨da, db, rfl, rfl⟩
    unfold forwardMatrix
    simp only
    split
    · exact ⟨_, rfl⟩
    · rw [conversionMatrix_some]
      exact ⟨_, rfl⟩

/-- With truncation before the conversion, the forward transform projects on the first `M` polynomials of the grid, for
every function of degree below `2 N - M + 2`. -/
theorem matrix_forward_projects (N M L : Nat) (hN : 0 < N) (a b a0 b0 : ℝ) (ha0 : -1 < a0) (hb0 : -1 < b0) (g : Nat → ℝ)
    (hg : GridGuess N a0 b0 g) (F : Nat → Nat → ℝ) (hF : forwardMatrix true N M a b a0 b0 g = some F)
    (hL : min M N + L ≤ 2 * N + 1) (d : Nat → ℝ) (z : ℝ) :
    series M (fun m => ∑ i ∈ Finset.range N, F m i * series L d a0 b0 (quadrature N a0 b0 g i).1) a b z =
      series (min (min M N) L) d a0 b0 z := by
  have hr := guess_roots N a0 b0 ha0 hb0 hN g hg
  obtain ⟨da, db, rfl, rfl, hf⟩ := forward_apply true N M a b a0 b0 g ha0 hb0 hr F hF L
    (fun l h1 h2 => by simp only [if_true] at h2; omega) d
    (fun i => series L d a0 b0 (quadrature N a0 b0 g i).1) (fun i hi => by rw [quadrature_gauss N a0 b0 g i ha0 hb0 hr hi]; rfl)
  simp only [if_true] at hf
  have e1 : series M (fun m => ∑ i ∈ Finset.range N, F m i * series L d a0 b0 (quadrature N a0 b0 g i).1) (a0 + da) (b0 + db) z =
      series M (fun m => ∑ l ∈ Finset.range M, conversion M a0 b0 da db m l * if l < N ∧ l < L then d l else 0) (a0 + da) (b0 + db) z := by
    unfold series
    apply Finset.sum_congr rfl
    intro m hm
    have := hf m (Finset.mem_range.1 hm)
    simp only [series] at this
    simp only [this]
  rw [e1]
  have e2 := series_convert a0 b0 z ha0 hb0 da db M (fun l => if l < N ∧ l < L then d l else 0)
  unfold series
  rw [← e2]
  symm
  rw [← Finset.sum_subset (s₁ := Finset.range (min (min M N) L)) (s₂ := Finset.range M)]
  · apply Finset.sum_congr rfl
    intro k hk
    have := Finset.mem_range.1 hk
    rw [if_pos (by omega)]
  · intro x hx; simp at *; omega
  · intro x hx hx'
    simp at hx hx'
    rw [if_neg (by omega), zero_mul]

/-- Products of two fields on a grid of at least 3/2 the number of modes, with truncation before the conversion: the
result is the product of the two functions, truncated to the first `M` polynomials of the grid. -/
theorem matrix_product_dealiased (N M : Nat) (hM : 0 < M) (h : 3 * M ≤ 2 * N) (a b a0 b0 : ℝ) (ha0 : -1 < a0) (hb0 : -1 < b0) (g : Nat → ℝ)
    (hg : GridGuess N a0 b0 g) (F : Nat → Nat → ℝ) (hF : forwardMatrix true N M a b a0 b0 g = some F) (u v : Nat → ℝ) :
    ∃ w : Nat → ℝ, (∀ z, series M u a b z * series M v a b z = series (2 * M) w a0 b0 z) ∧ ∀ z,
      series M (fun m => ∑ i ∈ Finset.range N, F m i * ((∑ k ∈ Finset.range M, backwardMatrix N M a b a0 b0 g i k * u k) *
        ∑ k ∈ Finset.range M, backwardMatrix N M a b a0 b0 g i k * v k)) a b z = series M w a0 b0 z := by
  have hr := guess_roots N a0 b0 ha0 hb0 (by omega) g hg
  obtain ⟨da, db, e1, e2, -⟩ := forward_cases true N M a b a0 b0 g F hF
  have hd : (0 : ℝ) ≤ da := Nat.cast_nonneg da
  have he : (0 : ℝ) ≤ db := Nat.cast_nonneg db
  obtain ⟨w, hw⟩ := poly_series a0 b0 ha0 hb0 ((∑ k ∈ Finset.range M, Polynomial.C (u k) * polyQ k a b) * ∑ k ∈ Finset.range M, Polynomial.C (v k) * polyQ k a b)
    (2 * M) (by
      have hdeg : ∀ c : Nat → ℝ, (∑ k ∈ Finset.range M, Polynomial.C (c k) * polyQ k a b).natDegree ≤ M - 1 := fun c =>
        Polynomial.natDegree_sum_le_of_forall_le _ _ fun k hk =>
          (Polynomial.natDegree_C_mul_le _ _).trans ((polyQ_degree k a b).trans (by have := Finset.mem_range.1 hk; omega))
      refine lt_of_le_of_lt Polynomial.natDegree_mul_le ?_
      have := hdeg u
      have := hdeg v
      omega)
  have hw' : ∀ z, series M u a b z * series M v a b z = series (2 * M) w a0 b0 z := by
    intro z
    have := hw z
    simp only [Polynomial.eval_mul, Polynomial.eval_finset_sum, Polynomial.eval_C, polyQ_eval] at this
    exact this
  refine ⟨w, hw', fun z => ?_⟩
  have hp := matrix_forward_projects N M (2 * M) (by omega) a b a0 b0 ha0 hb0 g hg F hF (by omega) w z
  rw [show min (min M N) (2 * M) = M by omega] at hp
  rw [← hp]
  unfold series
  apply Finset.sum_congr rfl
  intro m _
  congr 1
  apply Finset.sum_congr rfl
  intro i hi
  have hi' := Finset.mem_range.1 hi
  congr 1
  rw [matrix_backward_evaluates N M (by omega) a b a0 b0 (by linarith) (by linarith) ha0 hb0 g hg u i hi',
    matrix_backward_evaluates N M (by omega) a b a0 b0 (by linarith) (by linarith) ha0 hb0 g hg v i hi', show min M N = M by omega]
  exact hw' _

example : ∃ (g : Nat → ℝ) (F : Nat → Nat → ℝ), GridGuess 12 (-1 / 2) (-1 / 2) g ∧ forwardMatrix true 12 8 (3 / 2) (3 / 2) (-1 / 2) (-1 / 2) g = some F := by
  obtain ⟨g, hg⟩ := guess_exists 12 (-1 / 2) (-1 / 2) (by norm_num) (by norm_num)
  obtain ⟨F, hF⟩ := (matrix_forward_possible true 12 8 (3 / 2) (3 / 2) (-1 / 2) (-1 / 2) g).2 ⟨2, 2, by norm_num, by norm_num⟩
  exact ⟨g, F, hg, hF⟩

/-! ### Fast and matrix transforms agree -/

theorem dct2_congr (N : Nat) (u v : Nat → ℝ) (h : ∀ i, i < N → u i = v i) : Cosine.dct2 N u = Cosine.dct2 N v := by
  funext k
  unfold Cosine.dct2
  congr 1
  apply Finset.sum_congr rfl
  intro i hi
  rw [h i (Finset.mem_range.1 hi)]

/-- the fast transform of arbitrary values -/
theorem fast_base (N M : Nat) (hN : 1 < N) (hM : 0 < M) (g : Nat → ℝ) (hg : GridGuess N (-1 / 2) (-1 / 2) g) (u cdata : Nat → ℝ) :
    ∃ d out : Nat → ℝ, (∀ i, i < N → u i = ∑ k ∈ Finset.range N, d k * Q k (-1 / 2) (-1 / 2) (g i)) ∧
      Cosine.chebyshevForward N M u cdata = some out ∧ ∀ k, k < M → out k = if k < N then d k else 0 := by
  have hr := guess_roots N (-1 / 2) (-1 / 2) half_gt half_gt (by omega) g hg
  obtain ⟨d, hd⟩ := grid_interp N _ _ g half_gt half_gt hr (by omega) u
  have hg' := hg
  unfold GridGuess at hg'
  rw [if_neg (by omega), if_pos ⟨rfl, rfl⟩] at hg'
  obtain ⟨out, h1, h2⟩ := Cosine.chebyshev_forward_exact N M N (Or.inl hN) hM (by unfold Cosine.kmax; omega) d cdata
  refine ⟨d, out, hd, ?_, fun k hk => ?_⟩
  · rw [← h1]
    unfold Cosine.chebyshevForward
    rw [dct2_congr N u _ fun i hi => ?_]
    rw [hd i hi, hg' i hi]
    unfold Cosine.Spec.chebSeries
    apply Finset.sum_congr rfl
    intro k _
    rw [Q_unitT]
  · rw [h2 k hk]
    simp

/-- Without conversion the fast Chebyshev transform of any grid values is the matrix transform. -/
theorem fast_forward_is_matrix (before : Bool) (N M : Nat) (hN : 1 < N) (hM : 0 < M) (g : Nat → ℝ) (hg : GridGuess N (-1 / 2) (-1 / 2) g)
    (u cdata : Nat → ℝ) :
    ∃ F out, forwardMatrix before N M (-1 / 2) (-1 / 2) (-1 / 2) (-1 / 2) g = some F ∧ Cosine.chebyshevForward N M u cdata = some out ∧
      ∀ k, k < M → out k = ∑ i ∈ Finset.range N, F k i * u i := by
  obtain ⟨d, out, hd, h1, h2⟩ := fast_base N M hN hM g hg u cdata
  have hr := guess_roots N (-1 / 2) (-1 / 2) half_gt half_gt (by omega) g hg
  refine ⟨baseTransform N M (-1 / 2) (-1 / 2) g, out, by unfold forwardMatrix; simp, h1, fun k hk => ?_⟩
  rw [h2 k hk, base_apply N M _ _ g half_gt half_gt hr N k (by omega) (fun _ => by omega) d u hd]
  simp

/-- With conversion too, for both orders of truncation and conversion. -/
theorem fast_convert_is_matrix (before : Bool) (N M da db : Nat) (hN : 1 < N) (hM : 0 < M) (g : Nat → ℝ)
    (hg : GridGuess N (-1 / 2) (-1 / 2) g) (u : Nat → ℝ) :
    ∃ F out, forwardMatrix before N M (-1 / 2 + da) (-1 / 2 + db) (-1 / 2) (-1 / 2) g = some F ∧
      Cosine.chebyshevForwardConvert before N M (fun n => conversion n (-1 / 2) (-1 / 2) da db) u = some out ∧
      ∀ k, k < M → out k = ∑ i ∈ Finset.range N, F k i * u i := by
  obtain ⟨d, out, hd, h1, h2⟩ := fast_base N N hN (by omega) g hg u (Cosine.dct2 N u)
  have hr := guess_roots N (-1 / 2) (-1 / 2) half_gt half_gt (by omega) g hg
  obtain ⟨F, hF⟩ := (matrix_forward_possible before N M (-1 / 2 + da) (-1 / 2 + db) (-1 / 2) (-1 / 2) g).2 ⟨da, db, rfl, rfl⟩
  unfold Cosine.chebyshevForward at h1
  obtain ⟨e, he1, he2⟩ := Option.map_eq_some_iff.mp h1
  refine ⟨F, _, hF, by unfold Cosine.chebyshevForwardConvert; rw [he1]; rfl, fun k hk => ?_⟩
  simp only [he2]
  obtain ⟨da', db', f1, f2, hf⟩ := forward_apply before N M _ _ _ _ g half_gt half_gt hr F hF N (fun l hl _ => by omega) d u hd
  have g1 : da' = da := by
    have : (da' : ℝ) = da := by linarith
    exact_mod_cast this
  have g2 : db' = db := by
    have : (db' : ℝ) = db := by linarith
    exact_mod_cast this
  subst g1 g2
  rw [hf k (by split <;> omega)]
  simp only [and_self]
  unfold Cosine.matvec Cosine.forwardConversion
  by_cases hb : before = true ∧ M < N
  · have hM' := hb.2
    simp only [hb.1, hM', and_self, if_true]
    apply Finset.sum_congr rfl
    intro l hl
    have hl' := Finset.mem_range.1 hl
    rw [h2 l (by omega)]
  · have hR : N ≤ (if before then M else max M N) := by
      split
      · rename_i h; exact not_lt.1 fun h' => hb ⟨h, h'⟩
      · omega
    rw [conversion_short _ N hR _ _ half_gt half_gt]
    simp only [if_neg hb]
    split
    · apply Finset.sum_congr rfl
      intro l hl
      rw [h2 l (Finset.mem_range.1 hl), if_pos (Finset.mem_range.1 hl)]
    · simp

/-- The conversion matrices have the properties that the round trip of the fast transforms needs, so fast transforms of
ultraspherical bases keep resolved coefficients, if the triangular solver solves. -/
theorem fast_convert_round_trip (before : Bool) (N M da db : Nat) (hN : 0 < N) (hM : 1 < M) (solve : (Nat → ℝ) → Nat → ℝ)
    (hs : ∀ b i, i < M → ∑ j ∈ Finset.range M, conversion M (-1 / 2) (-1 / 2) da db i j * solve b j = b i) (c temp : Nat → ℝ) :
    ∃ u out, Cosine.chebyshevBackwardConvert N M solve c temp = some u ∧
      (∀ i, u i = series (min N M) c (-1 / 2 + da) (-1 / 2 + db) (Cosine.nativeGrid N i)) ∧
      Cosine.chebyshevForwardConvert before N M (fun n => conversion n (-1 / 2) (-1 / 2) da db) u = some out ∧
      ∀ k, k < M → out k = if k < N then c k else 0 := by
  have hC : ∀ i j, j < i → conversion (j + 1) (-1 / 2) (-1 / 2) da db i j = 0 := fun i j h =>
    conversion_low (j + 1) _ _ da db i j half_gt half_gt (by omega) h
  have hd : ∀ i, conversion (i + 1) (-1 / 2) (-1 / 2) da db i i ≠ 0 := fun i =>
    (conversion_pos (i + 1) _ _ da db i half_gt half_gt (by omega)).ne'
  have hQ : ∀ j z, Cosine.Spec.unitT j z = ∑ i ∈ Finset.range (j + 1), conversion (j + 1) (-1 / 2) (-1 / 2) da db i j * Q i (-1 / 2 + da) (-1 / 2 + db) z := by
    intro j z
    rw [← Q_unitT, rep_conversion _ _ half_gt half_gt da db (j + 1) j z (by omega)]
  have hconv : ∀ n i j, i < n → j < n → conversion n (-1 / 2) (-1 / 2) da db i j = conversion (j + 1) (-1 / 2) (-1 / 2) da db i j :=
    fun n i j _ hj => conversion_size n (j + 1) _ _ da db i j half_gt half_gt hj (by omega)
  have hs' : ∀ b i, i < M → ∑ j ∈ Finset.range M, conversion (j + 1) (-1 / 2) (-1 / 2) da db i j * solve b j = b i := by
    intro b i hi
    rw [← hs b i hi]
    apply Finset.sum_congr rfl
    intro j hj
    rw [hconv M i j hi (Finset.mem_range.1 hj)]
  obtain ⟨u, out, h1, h2, h3⟩ := Cosine.chebyshev_convert_round_trip before N M hN hM (fun i j => conversion (j + 1) (-1 / 2) (-1 / 2) da db i j)
    (fun i z => Q i (-1 / 2 + da) (-1 / 2 + db) z) hC hd hQ (fun n => conversion n (-1 / 2) (-1 / 2) da db) hconv solve hs' c temp
  obtain ⟨u', _, h1', _, _, h4'⟩ := Cosine.chebyshev_convert_backward_evaluates N M hN hM (fun i j => conversion (j + 1) (-1 / 2) (-1 / 2) da db i j)
    (fun i z => Q i (-1 / 2 + da) (-1 / 2 + db) z) hC hd hQ solve hs' c temp
  rw [h1] at h1'
  cases h1'
  exact ⟨u, out, h1, h4', h2, h3⟩

/-- Such a solver exists. -/
example (M da db : Nat) : ∃ solve : (Nat → ℝ) → Nat → ℝ, ∀ b i, i < M →
    ∑ j ∈ Finset.range M, conversion M (-1 / 2) (-1 / 2) da db i j * solve b j = b i := by
  choose solve h using upper_solvable (conversion M (-1 / 2) (-1 / 2) da db) M
    (fun i j h1 h2 => conversion_low M _ _ da db i j half_gt half_gt (by omega) h1)
    (fun j hj => (conversion_pos M _ _ da db j half_gt half_gt hj).ne')
  exact ⟨solve, h⟩

end Dedalus.Jacobi
