import Verif.Cosine.Lemmas

/-!
# Properties of the cosine and Chebyshev transforms
-/

namespace Dedalus.Cosine

open Spec

/-! ## C40: resizing -/

/-- Resizing for the forward transform keeps every resolved mode with its factor and clears the rest, whatever the output
held, if more than one mode is resolved or there is only one coefficient. Missing: one grid point with more than one
coefficient. -/
theorem cosine_resize_forward_partial (s : Scales) (N M : Nat) (hN : 0 < N) (hM : 0 < M) (h : 1 < N ∨ M = 1)
    (src dst : Nat → ℝ) :
    ∃ out, resizeForward s N M (kmax N M) src dst = some out ∧ out 0 = s.forwardZero * src 0 ∧
      (∀ k, 0 < k → k < N → k < M → out k = s.forwardPos * src k) ∧ ∀ k, N ≤ k → k < M → out k = 0 := by
  obtain ⟨out, h1, h2⟩ := resize_spec s.forwardZero s.forwardPos N M (M - 1) (kmax N M)
    (by unfold kmax; omega) (by unfold kmax; omega) src dst
  refine ⟨out, h1, ?_, ?_, ?_⟩
  · rw [h2 0 hM, if_pos rfl, mul_comm]
  · intro k k0 kN kM
    rw [h2 k kM, if_neg (by omega), if_pos (by unfold kmax; omega), mul_comm]
  · intro k kN kM
    rw [h2 k kM, if_neg (by omega), if_neg (by unfold kmax; omega), if_pos (by unfold kmax; omega)]

theorem cosine_resize_backward_partial (s : Scales) (N M : Nat) (hN : 0 < N) (hM : 0 < M) (h : 1 < M ∨ N = 1)
    (src dst : Nat → ℝ) :
    ∃ out, resizeBackward s M N (kmax N M) src dst = some out ∧ out 0 = s.backwardZero * src 0 ∧
      (∀ k, 0 < k → k < N → k < M → out k = s.backwardPos * src k) ∧ ∀ k, M ≤ k → k < N → out k = 0 := by
  obtain ⟨out, h1, h2⟩ := resize_spec s.backwardZero s.backwardPos M N (N - 1) (kmax N M)
    (by unfold kmax; omega) (by unfold kmax; omega) src dst
  refine ⟨out, h1, ?_, ?_, ?_⟩
  · rw [h2 0 hN, if_pos rfl, mul_comm]
  · intro k k0 kN kM
    rw [h2 k kN, if_neg (by omega), if_pos (by unfold kmax; omega), mul_comm]
  · intro k kM kN
    rw [h2 k kN, if_neg (by omega), if_neg (by unfold kmax; omega), if_pos (by unfold kmax; omega)]

/-- With one grid point, all coefficients but the mean keep what the array held before. -/
theorem cosine_resize_one_point_refuted (M : Nat) (hM : 0 < M) (g cdata : Nat → ℝ) :
    ∃ out, chebyshevForward 1 M g cdata = some out ∧ ∀ k, 0 < k → k < M → out k = cdata k := by
  obtain ⟨out, h1, h2⟩ := resize_spec (chebyshevScales 1).forwardZero (chebyshevScales 1).forwardPos 1 M (M - 1) (kmax 1 M)
    (by unfold kmax; omega) (by unfold kmax; omega) (dct2 1 g) cdata
  have hK : kmax 1 M = 0 := by unfold kmax; omega
  refine ⟨negateOdd M (kmax 1 M) out, ?_, ?_⟩
  · unfold chebyshevForward resizeForward
    rw [h1]; rfl
  · intro k k0 kM
    rw [negateOdd_spec M _ (by omega), if_neg (by omega), h2 k kM, if_neg (by omega), if_neg (by omega), if_neg (by omega)]

/-! ## C58: cosine and Chebyshev transforms -/

/-- The grid points are the zeros of the Chebyshev polynomial of degree `N`, in increasing order. -/
theorem chebyshev_grid (N : Nat) (hN : 0 < N) :
    (∀ x, x < N → (Polynomial.Chebyshev.T ℝ N).eval (nativeGrid N x) = 0) ∧
    ∀ x y, x < y → y < N → nativeGrid N x < nativeGrid N y := by
  have hN' : (0 : ℝ) < N := by exact_mod_cast hN
  constructor
  · intro x _
    rw [T_grid N x N hN]
    have : (N : ℝ) * angle N x = x * Real.pi + Real.pi / 2 := by
      unfold angle; field_simp
    rw [this, Real.cos_add, Real.cos_pi_div_two, Real.sin_nat_mul_pi]
    ring
  · intro x y hxy hy
    rw [native_cos N x hN, native_cos N y hN]
    have h1 : angle N x < angle N y := by
      unfold angle
      have : (x : ℝ) < y := by exact_mod_cast hxy
      have := Real.pi_pos
      apply div_lt_div_of_pos_right _ (by positivity)
      nlinarith
    have h2 : 0 ≤ angle N x := by unfold angle; have := Real.pi_pos; positivity
    have h3 : angle N y ≤ Real.pi := by
      unfold angle
      rw [div_le_iff₀ (by positivity)]
      have : (y : ℝ) + 1 ≤ N := by exact_mod_cast hy
      have := Real.pi_pos
      nlinarith
    exact Real.cos_lt_cos_of_nonneg_of_le_pi (by linarith) (by linarith) (by linarith)

/-- The backward cosine transform evaluates the resolved part of the series, whatever the temporary held. -/
theorem cosine_backward_evaluates (N M : Nat) (hN : 0 < N) (hM : 1 < M ∨ M = 1 ∧ N = 1) (c temp : Nat → ℝ) :
    ∃ out, cosineBackward N M c temp = some out ∧ ∀ x, out x = cosSeries (min N M) c (angle N x) := by
  obtain ⟨out, h1, h2, h3, h4⟩ := cosine_resize_backward_partial (cosineScales N) N M hN (by omega) (by omega) c temp
  refine ⟨dct3 N out, by unfold cosineBackward; rw [h1]; rfl, fun x => ?_⟩
  rw [dct3_series N (kmax N M) (by unfold kmax; omega) out (fun k hk hkN => h4 k (by unfold kmax at hk; omega) hkN),
    show kmax N M + 1 = min N M by unfold kmax; omega]
  unfold cosSeries
  refine Finset.sum_congr rfl (fun k hk => ?_)
  rw [Finset.mem_range] at hk
  by_cases k0 : k = 0
  · subst k0
    simp only [if_true, h2, cosineScales]
    ring
  · simp only [if_neg k0, h3 k (by omega) (by omega) (by omega), cosineScales]
    ring

/-- The forward cosine transform is exact on series of up to `2 N - K` terms. -/
theorem cosine_forward_exact (N M L : Nat) (hN : 1 < N ∨ N = 1 ∧ M = 1) (hM : 0 < M) (hL : L + kmax N M ≤ 2 * N)
    (c cdata : Nat → ℝ) :
    ∃ out, cosineForward N M (fun x => cosSeries L c (angle N x)) cdata = some out ∧
      ∀ k, k < M → out k = if k < N ∧ k < L then c k else 0 := by
  have hN0 : (N : ℝ) ≠ 0 := by exact_mod_cast (by omega : N ≠ 0)
  obtain ⟨out, h1, h2, h3, h4⟩ := cosine_resize_forward_partial (cosineScales N) N M (by omega) hM (by omega)
    (dct2 N (fun x => cosSeries L c (angle N x))) cdata
  refine ⟨out, h1, fun k hk => ?_⟩
  by_cases kN : k < N
  · have hd := dct2_series N L k (by unfold kmax at hL; omega) c
    by_cases k0 : k = 0
    · subst k0
      rw [h2, hd]
      by_cases kL : 0 < L
      · rw [if_pos kL, if_pos rfl, if_pos ⟨kN, kL⟩, cosineScales]
        field_simp
      · rw [if_neg kL, if_neg (fun e => kL e.2), mul_zero]
    · rw [h3 k (by omega) kN hk, hd]
      by_cases kL : k < L
      · rw [if_pos kL, if_neg k0, if_pos ⟨kN, kL⟩, cosineScales]
        field_simp
      · rw [if_neg kL, if_neg (fun e => kL e.2), mul_zero]
  · rw [h4 k (by omega) hk, if_neg (fun e => kN e.1)]

/-- Factors of the Chebyshev normalisation. -/
theorem sqrt_factor : √(Real.pi / 2) * √(2 / Real.pi) = 1 := by
  have := Real.pi_pos
  rw [← Real.sqrt_mul (by positivity)]
  have : Real.pi / 2 * (2 / Real.pi) = 1 := by field_simp
  rw [this, Real.sqrt_one]

theorem neg_one_sq (k : Nat) : ((-1 : ℝ) ^ k) * (-1) ^ k = 1 := by
  rw [← pow_add, Even.neg_one_pow ⟨k, rfl⟩]

/-- The backward Chebyshev transform evaluates the resolved part of the polynomial on the grid. -/
theorem chebyshev_backward_evaluates (N M : Nat) (hN : 0 < N) (hM : 1 < M ∨ M = 1 ∧ N = 1) (c temp : Nat → ℝ) :
    ∃ out, chebyshevBackward N M c temp = some out ∧ ∀ x, out x = chebSeries (min N M) c (nativeGrid N x) := by
  have hpi := Real.pi_pos
  have hK : kmax N M < M := by unfold kmax; omega
  obtain ⟨out, h1, h2, h3, h4⟩ := cosine_resize_backward_partial (chebyshevScales N) N M hN (by omega) (by omega)
    (negateOdd M (kmax N M) c) temp
  refine ⟨dct3 N out, by unfold chebyshevBackward; rw [h1]; rfl, fun x => ?_⟩
  rw [dct3_series N (kmax N M) (by unfold kmax; omega) out (fun k hk hkN => h4 k (by unfold kmax at hk; omega) hkN),
    show kmax N M + 1 = min N M by unfold kmax; omega, cheb_cos N _ x hN]
  unfold cosSeries
  refine Finset.sum_congr rfl (fun k hk => ?_)
  rw [Finset.mem_range] at hk
  congr 1
  have hneg := negateOdd_spec M (kmax N M) hK c k
  rw [if_pos (by unfold kmax; omega)] at hneg
  by_cases k0 : k = 0
  · subst k0
    simp only [if_true, h2, chebyshevScales, cosineScales, hneg]
    ring
  · simp only [if_neg k0, h3 k (by omega) (by omega) (by omega), chebyshevScales, cosineScales, hneg]
    have h5 : √(Real.pi / 2) ≠ 0 := (Real.sqrt_pos.mpr (by positivity)).ne'
    have h6 := sqrt_factor
    field_simp
    rw [mul_comm] at h6
    linear_combination (-(c k)) * h6

/-- The forward Chebyshev transform is exact on polynomials of degree below `2 N - K`. -/
theorem chebyshev_forward_exact (N M L : Nat) (hN : 1 < N ∨ N = 1 ∧ M = 1) (hM : 0 < M) (hL : L + kmax N M ≤ 2 * N)
    (c cdata : Nat → ℝ) :
    ∃ out, chebyshevForward N M (fun x => chebSeries L c (nativeGrid N x)) cdata = some out ∧
      ∀ k, k < M → out k = if k < N ∧ k < L then c k else 0 := by
  have hpi := Real.pi_pos
  have hN0 : (N : ℝ) ≠ 0 := by exact_mod_cast (by omega : N ≠ 0)
  have e : (fun x => chebSeries L c (nativeGrid N x)) = fun x => cosSeries L
      (fun k => (if k = 0 then 1 / √Real.pi else √(2 / Real.pi)) * ((-1) ^ k * c k)) (angle N x) := by
    funext x; exact cheb_cos N L x (by omega) c
  rw [e]
  obtain ⟨out, h1, h2, h3, h4⟩ := cosine_resize_forward_partial (chebyshevScales N) N M (by omega) hM (by omega)
    (dct2 N (fun x => cosSeries L (fun k => (if k = 0 then 1 / √Real.pi else √(2 / Real.pi)) * ((-1) ^ k * c k)) (angle N x)))
    cdata
  refine ⟨negateOdd M (kmax N M) out, by unfold chebyshevForward; rw [h1]; rfl, fun k hk => ?_⟩
  rw [negateOdd_spec M _ (by unfold kmax; omega)]
  by_cases kN : k < N
  · rw [if_pos (by unfold kmax; omega)]
    have hd := dct2_series N L k (by unfold kmax at hL; omega)
      (fun k => (if k = 0 then 1 / √Real.pi else √(2 / Real.pi)) * ((-1) ^ k * c k))
    by_cases k0 : k = 0
    · subst k0
      rw [h2, hd]
      by_cases kL : 0 < L
      · rw [if_pos kL, if_pos rfl, if_pos rfl, if_pos ⟨kN, kL⟩, chebyshevScales, cosineScales]
        have h5 : √Real.pi ≠ 0 := (Real.sqrt_pos.mpr hpi).ne'
        field_simp
      · rw [if_neg kL, if_neg (fun e => kL e.2), mul_zero, mul_zero]
    · rw [h3 k (by omega) kN hk, hd]
      by_cases kL : k < L
      · rw [if_pos kL, if_neg k0, if_neg k0, if_pos ⟨kN, kL⟩, chebyshevScales, cosineScales]
        have h6 := sqrt_factor
        have h7 := neg_one_sq k
        field_simp
        linear_combination (c k) * ((-1) ^ k * (-1) ^ k) * h6 + c k * h7
      · rw [if_neg kL, if_neg (fun e => kL e.2), mul_zero, mul_zero]
  · rw [if_neg (by unfold kmax; omega), h4 k (by omega) hk, if_neg (fun e => kN e.1)]

/-- From coefficients to the grid and back: resolved modes are kept, the others are zero. -/
theorem chebyshev_round_trip (N M : Nat) (hN : 1 < N) (hM : 1 < M) (c temp cdata : Nat → ℝ) :
    ∃ g out, chebyshevBackward N M c temp = some g ∧ chebyshevForward N M g cdata = some out ∧
      ∀ k, k < M → out k = if k < N then c k else 0 := by
  obtain ⟨g, hg, hg2⟩ := chebyshev_backward_evaluates N M (by omega) (Or.inl hM) c temp
  obtain ⟨out, ho, ho2⟩ := chebyshev_forward_exact N M (min N M) (Or.inl hN) (by omega) (by unfold kmax; omega) c cdata
  have : g = fun x => chebSeries (min N M) c (nativeGrid N x) := funext hg2
  rw [← this] at ho
  refine ⟨g, out, hg, ho, fun k hk => ?_⟩
  rw [ho2 k hk]
  by_cases h : k < N
  · rw [if_pos h, if_pos (by omega)]
  · rw [if_neg h, if_neg (fun e => h e.1)]

/-- The product of two Chebyshev series. -/
theorem cheb_product (M : Nat) (u v : Nat → ℝ) :
    ∃ w : Nat → ℝ, ∀ z, chebSeries M u z * chebSeries M v z = chebSeries (2 * M) w z := by
  have hpi := Real.pi_pos
  have hnorm : ∀ k : Nat, (if k = 0 then 1 / √Real.pi else √(2 / Real.pi)) ≠ 0 := by
    intro k
    have h1 : √Real.pi ≠ 0 := (Real.sqrt_pos.mpr hpi).ne'
    have h2 : √(2 / Real.pi) ≠ 0 := (Real.sqrt_pos.mpr (by positivity)).ne'
    split
    · positivity
    · exact h2
  refine ⟨fun k => (∑ i ∈ Finset.range M, ∑ j ∈ Finset.range M,
    u i * v j * (if i = 0 then 1 / √Real.pi else √(2 / Real.pi)) * (if j = 0 then 1 / √Real.pi else √(2 / Real.pi)) *
      ((if k = i + j then 1 / 2 else 0) + (if k = i - j + (j - i) then 1 / 2 else 0))) /
        (if k = 0 then 1 / √Real.pi else √(2 / Real.pi)), fun z => ?_⟩
  have hw : ∀ k (S : ℝ), S / (if k = 0 then 1 / √Real.pi else √(2 / Real.pi)) * unitT k z =
      S * (Polynomial.Chebyshev.T ℝ k).eval z := by
    intro k S
    unfold unitT
    rw [← mul_assoc, div_mul_cancel₀ _ (hnorm k)]
  unfold chebSeries
  simp only [hw, Finset.sum_mul]
  rw [Finset.sum_comm (s := Finset.range (2 * M))]
  refine Finset.sum_congr rfl (fun i hi => ?_)
  rw [Finset.sum_comm (s := Finset.range (2 * M)), Finset.mul_sum]
  refine Finset.sum_congr rfl (fun j hj => ?_)
  rw [Finset.mem_range] at hi hj
  have hprod : (Polynomial.Chebyshev.T ℝ i).eval z * (Polynomial.Chebyshev.T ℝ j).eval z =
      ((Polynomial.Chebyshev.T ℝ ((i + j : Nat) : Int)).eval z +
        (Polynomial.Chebyshev.T ℝ ((i - j + (j - i) : Nat) : Int)).eval z) / 2 := by
    have h2 := congrArg (Polynomial.eval z) (Polynomial.Chebyshev.T_mul_T ℝ (i : Int) (j : Int))
    have h3 : Polynomial.Chebyshev.T ℝ ((i : Int) - j) = Polynomial.Chebyshev.T ℝ ((i - j + (j - i) : Nat) : Int) := by
      by_cases hij : j ≤ i
      · congr 1; omega
      · rw [← Polynomial.Chebyshev.T_neg]; congr 1; omega
    rw [h3] at h2
    simp only [Polynomial.eval_mul, Polynomial.eval_add, Polynomial.eval_ofNat] at h2
    push_cast
    push_cast at h2
    linarith
  have hsum : ∀ n, n < 2 * M → ∑ k ∈ Finset.range (2 * M), (if k = n then (1 / 2 : ℝ) else 0) * (Polynomial.Chebyshev.T ℝ k).eval z =
      (1 / 2) * (Polynomial.Chebyshev.T ℝ n).eval z := by
    intro n hn
    rw [Finset.sum_eq_single n]
    · rw [if_pos rfl]
    · intro b _ hb; rw [if_neg hb, zero_mul]
    · intro hh; exact absurd (Finset.mem_range.mpr hn) hh
  have e1 : ∀ k ∈ Finset.range (2 * M), u i * v j * (if i = 0 then 1 / √Real.pi else √(2 / Real.pi)) *
      (if j = 0 then 1 / √Real.pi else √(2 / Real.pi)) *
      ((if k = i + j then (1 / 2 : ℝ) else 0) + (if k = i - j + (j - i) then 1 / 2 else 0)) * (Polynomial.Chebyshev.T ℝ k).eval z =
      (u i * v j * (if i = 0 then 1 / √Real.pi else √(2 / Real.pi)) * (if j = 0 then 1 / √Real.pi else √(2 / Real.pi))) *
      ((if k = i + j then (1 / 2 : ℝ) else 0) * (Polynomial.Chebyshev.T ℝ k).eval z +
        (if k = i - j + (j - i) then (1 / 2 : ℝ) else 0) * (Polynomial.Chebyshev.T ℝ k).eval z) := by
    intro k _; ring
  rw [Finset.sum_congr rfl e1, ← Finset.mul_sum, Finset.sum_add_distrib, hsum (i + j) (by omega),
    hsum (i - j + (j - i)) (by omega)]
  unfold unitT
  rw [show u i * ((if i = 0 then 1 / √Real.pi else √(2 / Real.pi)) * (Polynomial.Chebyshev.T ℝ i).eval z) *
      (v j * ((if j = 0 then 1 / √Real.pi else √(2 / Real.pi)) * (Polynomial.Chebyshev.T ℝ j).eval z)) =
      (u i * v j * (if i = 0 then 1 / √Real.pi else √(2 / Real.pi)) * (if j = 0 then 1 / √Real.pi else √(2 / Real.pi))) *
      ((Polynomial.Chebyshev.T ℝ i).eval z * (Polynomial.Chebyshev.T ℝ j).eval z) by ring, hprod]
  ring

/-- Products of Chebyshev fields on a grid of at least 3/2 the number of modes are exact. -/
theorem chebyshev_product_dealiased (N M : Nat) (hM : 1 < M) (h : 3 * M ≤ 2 * N) (u v tu tv cdata : Nat → ℝ) :
    ∃ gu gv out w, chebyshevBackward N M u tu = some gu ∧ chebyshevBackward N M v tv = some gv ∧
      chebyshevForward N M (fun x => gu x * gv x) cdata = some out ∧
      (∀ z, chebSeries M u z * chebSeries M v z = chebSeries (2 * M) w z) ∧ ∀ k, k < M → out k = w k := by
  obtain ⟨gu, hgu, hgu2⟩ := chebyshev_backward_evaluates N M (by omega) (Or.inl hM) u tu
  obtain ⟨gv, hgv, hgv2⟩ := chebyshev_backward_evaluates N M (by omega) (Or.inl hM) v tv
  obtain ⟨w, hw⟩ := cheb_product M u v
  obtain ⟨out, ho, ho2⟩ := chebyshev_forward_exact N M (2 * M) (by omega) (by omega) (by unfold kmax; omega) w cdata
  have : (fun x => gu x * gv x) = fun x => chebSeries (2 * M) w (nativeGrid N x) := by
    funext x
    rw [hgu2, hgv2, show min N M = M by omega, hw]
  rw [← this] at ho
  refine ⟨gu, gv, out, w, hgu, hgv, ho, hw, fun k hk => ?_⟩
  rw [ho2 k hk, if_pos (by omega)]

example : ∃ (N M : Nat), 1 < M ∧ 3 * M ≤ 2 * N ∧ 1 < N := ⟨6, 4, by decide⟩

/-! ### Conversion to other polynomials -/

/-- The solution of an upper triangular system has no entries beyond those of the right-hand side. -/
theorem upper_solution_zero (M m : Nat) (C : Nat → Nat → ℝ) (hC : ∀ i j, j < i → C i j = 0) (hd : ∀ i, C i i ≠ 0)
    (s b : Nat → ℝ) (hs : ∀ i, i < M → ∑ j ∈ Finset.range M, C i j * s j = b i) (hb : ∀ i, m ≤ i → i < M → b i = 0) :
    ∀ t j, j + t + 1 = M → m ≤ j → s j = 0 := by
  intro t
  induction t using Nat.strong_induction_on with
  | _ t ih =>
    intro j hj hm
    have h1 := hs j (by omega)
    rw [hb j hm (by omega), Finset.sum_eq_single j] at h1
    · exact (mul_eq_zero.mp h1).resolve_left (hd j)
    · intro i hi hne
      rw [Finset.mem_range] at hi
      by_cases hlt : i < j
      · rw [hC j i hlt, zero_mul]
      · rw [ih (M - 1 - i) (by omega) i (by omega) (by omega), mul_zero]
    · intro hn; exact absurd (Finset.mem_range.mpr (by omega)) hn

/-- The backward transform with conversion evaluates the resolved part of `∑ cᵢ Qᵢ`, if the matrix expresses Chebyshev
polynomials in terms of the polynomials `Q` and the triangular solver solves. -/
theorem chebyshev_convert_backward_evaluates (N M : Nat) (hN : 0 < N) (hM : 1 < M) (C : Nat → Nat → ℝ) (Q : Nat → ℝ → ℝ)
    (hC : ∀ i j, j < i → C i j = 0) (hd : ∀ i, C i i ≠ 0)
    (hQ : ∀ j z, unitT j z = ∑ i ∈ Finset.range (j + 1), C i j * Q i z)
    (solve : (Nat → ℝ) → Nat → ℝ) (hs : ∀ b i, i < M → ∑ j ∈ Finset.range M, C i j * solve b j = b i)
    (c temp : Nat → ℝ) :
    ∃ out s, chebyshevBackwardConvert N M solve c temp = some out ∧
      (∀ i, i < min N M → ∑ j ∈ Finset.range (min N M), C i j * s j = c i) ∧
      (∀ x, out x = chebSeries (min N M) s (nativeGrid N x)) ∧
      ∀ x, out x = ∑ i ∈ Finset.range (min N M), c i * Q i (nativeGrid N x) := by
  obtain ⟨c1, hc1⟩ : ∃ c1, c1 = if N < M then Fourier.fillSlice c (Fourier.slice M (kmax N M + 1 : Nat) none 1) 0 else c :=
    ⟨_, rfl⟩
  have hc2 : ∀ i, i < M → c1 i = if i < N then c i else 0 := by
    intro i hi
    rw [hc1]
    by_cases h : N < M
    · rw [if_pos h, Fourier.fillSlice, Fourier.slice_unit_none M _ (kmax N M + 1)
        (Fourier.bound_nat M (kmax N M + 1) (by unfold kmax; omega)), Fourier.put_unit]
      by_cases h2 : i < N
      · rw [if_neg (by unfold kmax; omega), if_pos h2]
      · rw [if_pos (by simp only; unfold kmax; omega), if_neg h2]
    · rw [if_neg h, if_pos (by omega)]
  have hz : ∀ j, min N M ≤ j → j < M → solve c1 j = 0 := by
    intro j h1 h2
    exact upper_solution_zero M (min N M) C hC hd (solve c1) c1 (hs c1)
      (fun i h3 h4 => by rw [hc2 i h4, if_neg (by omega)]) (M - 1 - j) j (by omega) h1
  have hrow : ∀ i, i < min N M → ∑ j ∈ Finset.range (min N M), C i j * solve c1 j = c i := by
    intro i hi
    have h1 := hs c1 i (by omega)
    rw [hc2 i (by omega), if_pos (by omega), show M = min N M + (M - min N M) by omega, Finset.sum_range_add] at h1
    rw [← h1, eq_comm, add_eq_left]
    exact Finset.sum_eq_zero (fun j hj => by
      rw [Finset.mem_range] at hj
      rw [hz _ (by omega) (by omega), mul_zero])
  obtain ⟨out, ho, ho2⟩ := chebyshev_backward_evaluates N M hN (Or.inl hM) (solve c1) temp
  have hout : chebyshevBackwardConvert N M solve c temp = some out := by
    unfold chebyshevBackwardConvert
    simp only [← hc1]
    exact ho
  refine ⟨out, solve c1, hout, hrow, ho2, fun x => ?_⟩
  rw [ho2 x]
  unfold chebSeries
  have h1 : ∀ j ∈ Finset.range (min N M), solve c1 j * unitT j (nativeGrid N x) =
      ∑ i ∈ Finset.range (min N M), C i j * solve c1 j * Q i (nativeGrid N x) := by
    intro j hj
    rw [Finset.mem_range] at hj
    rw [hQ j, show min N M = (j + 1) + (min N M - (j + 1)) by omega,
      Finset.sum_range_add _ (j + 1) (min N M - (j + 1)), Finset.mul_sum]
    have hz2 : ∑ i ∈ Finset.range (min N M - (j + 1)), C (j + 1 + i) j * solve c1 j * Q (j + 1 + i) (nativeGrid N x) = 0 :=
      Finset.sum_eq_zero (fun i _ => by rw [hC _ j (by omega)]; ring)
    rw [hz2, add_zero]
    exact Finset.sum_congr rfl (fun i _ => by ring)
  rw [Finset.sum_congr rfl h1, Finset.sum_comm]
  refine Finset.sum_congr rfl (fun i hi => ?_)
  rw [← Finset.sum_mul, hrow i (Finset.mem_range.mp hi)]

/-- From coefficients to the grid and back with conversion: resolved modes are kept, the others are zero, with and
without truncation before the conversion. -/
theorem chebyshev_convert_round_trip (dealias : Bool) (N M : Nat) (hN : 0 < N) (hM : 1 < M) (C : Nat → Nat → ℝ)
    (Q : Nat → ℝ → ℝ) (hC : ∀ i j, j < i → C i j = 0) (hd : ∀ i, C i i ≠ 0)
    (hQ : ∀ j z, unitT j z = ∑ i ∈ Finset.range (j + 1), C i j * Q i z)
    (conv : Nat → Nat → Nat → ℝ) (hconv : ∀ n i j, i < n → j < n → conv n i j = C i j)
    (solve : (Nat → ℝ) → Nat → ℝ) (hs : ∀ b i, i < M → ∑ j ∈ Finset.range M, C i j * solve b j = b i)
    (c temp : Nat → ℝ) :
    ∃ g out, chebyshevBackwardConvert N M solve c temp = some g ∧ chebyshevForwardConvert dealias N M conv g = some out ∧
      ∀ k, k < M → out k = if k < N then c k else 0 := by
  obtain ⟨g, s, hg, hrow, hg2, _⟩ := chebyshev_convert_backward_evaluates N M hN hM C Q hC hd hQ solve hs c temp
  have hgs : g = fun x => chebSeries (min N M) s (nativeGrid N x) := funext hg2
  obtain ⟨d, hd1, hd2⟩ := chebyshev_forward_exact N N (min N M) (by omega) hN (by unfold kmax; omega) s (dct2 N g)
  rw [← hgs] at hd1
  unfold chebyshevForward at hd1
  obtain ⟨e, he1, he2⟩ := Option.map_eq_some_iff.mp hd1
  refine ⟨g, _, hg, by unfold chebyshevForwardConvert; rw [he1]; rfl, fun k hk => ?_⟩
  simp only [he2]
  unfold matvec forwardConversion
  by_cases hc : dealias = true ∧ M < N
  · simp only [if_pos hc]
    rw [if_pos (by omega)]
    have := hrow k (by omega)
    rw [show min N M = M by omega] at this hd2
    rw [← this]
    refine Finset.sum_congr rfl (fun j hj => ?_)
    rw [Finset.mem_range] at hj
    rw [hconv M k j hk hj, hd2 j (by omega), if_pos (by omega)]
  · simp only [if_neg hc]
    by_cases hkN : k < N
    · simp only [if_pos hkN]
      rw [← hrow k (by omega), show N = min N M + (N - min N M) by omega, Finset.sum_range_add]
      have hz : ∑ j ∈ Finset.range (N - min N M), conv (min N M + (N - min N M)) k (min N M + j) * d (min N M + j) = 0 :=
        Finset.sum_eq_zero (fun j hj => by
          rw [Finset.mem_range] at hj
          rw [hd2 _ (by omega), if_neg (by omega), mul_zero])
      rw [hz, add_zero, show min N M + (N - min N M) = N by omega]
      refine Finset.sum_congr rfl (fun j hj => ?_)
      rw [Finset.mem_range] at hj
      rw [hconv N k j hkN (by omega), hd2 j (by omega), if_pos (by omega)]
    · simp only [if_neg hkN, zero_mul, Finset.sum_const_zero]

/-- The hypotheses are satisfiable: no conversion at all. -/
example : ∃ (C : Nat → Nat → ℝ) (Q : Nat → ℝ → ℝ), (∀ i j, j < i → C i j = 0) ∧ (∀ i, C i i ≠ 0) ∧
    (∀ j z, unitT j z = ∑ i ∈ Finset.range (j + 1), C i j * Q i z) ∧
    ∀ (b : Nat → ℝ) i, i < 3 → ∑ j ∈ Finset.range 3, C i j * b j = b i := by
  refine ⟨fun i j => if i = j then 1 else 0, unitT, ?_, ?_, ?_, ?_⟩
  · intro i j h; exact if_neg (by omega)
  · intro i; simp
  · intro j z; simp
  · intro b i hi; simp; omega

end Dedalus.Cosine
