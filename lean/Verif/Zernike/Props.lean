import Verif.Zernike.Transform
import Verif.Zernike.Ortho
import Verif.Regularity.Props

/-!
# Properties of disk and ball bases
-/

namespace Dedalus.Zernike

open Jacobi Jacobi.Spec Spec

/-! ## C69: radial transforms -/

/-- The radial functions are `r^l` times a polynomial in `r^2`, so that they are smooth at the centre, they are positive at `r = 1`
and they are orthonormal. -/
theorem zernike_functions (dim n l : Nat) (k : ℝ) (hd : 0 < dim) (hk : -1 < k) :
    (∃ p : Polynomial ℝ, p.natDegree ≤ n ∧ ∀ r, Z dim n k l r = r ^ l * p.eval (r ^ 2)) ∧ 0 < Z dim n k l 1 ∧
    ∀ n', ∫ r in (0 : ℝ)..1, Z dim n k l r * Z dim n' k l r * ((1 - r ^ 2) ^ k * r ^ (dim - 1)) = if n = n' then 1 else 0 := by
  refine ⟨⟨Polynomial.C (cst dim k l) * (polyQ n k (l + (dim : ℝ) / 2 - 1)).comp (Polynomial.C 2 * Polynomial.X - Polynomial.C 1), ?_, fun r => ?_⟩, ?_,
    fun n' => Z_orthonormal dim n n' l k hd hk⟩
  · refine (Polynomial.natDegree_C_mul_le _ _).trans (Polynomial.natDegree_comp_le.trans ?_)
    have h1 := polyQ_degree n k (l + (dim : ℝ) / 2 - 1)
    have h2 : (Polynomial.C (2 : ℝ) * Polynomial.X - Polynomial.C 1).natDegree ≤ 1 := by
      rw [Polynomial.natDegree_sub_C]
      exact (Polynomial.natDegree_C_mul_le _ _).trans Polynomial.natDegree_X_le
    calc _ ≤ n * 1 := Nat.mul_le_mul h1 h2
      _ = n := mul_one n
  · rw [Polynomial.eval_mul, Polynomial.eval_comp, Polynomial.eval_C, polyQ_eval, Z_eq]
    simp only [Polynomial.eval_sub, Polynomial.eval_mul, Polynomial.eval_C, Polynomial.eval_X]
    ring
  · rw [Z_eq]
    have hs := sq_pos n k _ hk (b_gt dim l hd)
    have hP : 0 < P n k ((l : ℝ) + (dim : ℝ) / 2 - 1) 1 := by
      unfold P
      rw [Finset.sum_eq_single 0]
      · unfold coef
        rw [if_pos (Nat.zero_le _)]
        have : 0 < poch (k + (0 : Nat) + 1) (n - 0) := poch_pos _ _ (Or.inl (by simp only [Nat.cast_zero]; linarith))
        have h1 : poch ((n : ℝ) + k + ((l : ℝ) + (dim : ℝ) / 2 - 1) + 1) 0 = 1 := by simp [poch]
        rw [h1]
        have h2 : (0 : ℝ) < (Nat.factorial 0) * (n - 0).factorial := by exact_mod_cast Nat.mul_pos (Nat.factorial_pos _) (Nat.factorial_pos _)
        simp only [pow_zero, mul_one, one_mul]
        exact div_pos this h2
      · intro m _ hm; simp [hm]
      · simp
    have hQ : 0 < Q n k ((l : ℝ) + (dim : ℝ) / 2 - 1) (2 * 1 ^ 2 - 1) := by
      rw [show (2 : ℝ) * 1 ^ 2 - 1 = 1 by norm_num]
      exact div_pos hP hs
    exact mul_pos (mul_pos (cst_pos dim k l) (by norm_num)) hQ

/-- The recursion of the code computes these functions. -/
theorem zernike_polynomials (dim n l : Nat) (k r : ℝ) (hd : 0 < dim) (hk : -1 < k) (hr : 0 < r) (j : Nat) (hj : j < n) :
    polynomials dim n k l (2 * r ^ 2 - 1) j = Z dim j k l r := polynomials_Z dim n k l r hd hk hr j hj.le

example (r : ℝ) (hr : 0 < r) := zernike_polynomials 3 4 2 0 r (by norm_num) (by norm_num) hr 3 (by norm_num)

theorem minDegree_eq (m : Int) : minDegree |m| = ((m.natAbs / 2 : Nat) : Int) := by
  unfold minDegree; rw [Int.abs_eq_natAbs]; omega

theorem minDegree_nat (l : Nat) : minDegree l = ((l / 2 : Nat) : Int) := by unfold minDegree; omega

section
variable {V : Type} [AddCommGroup V] [Module ℝ V]

/-- The grid of the disk is inside the disk, and the backward transform of a component of spin weight `s` evaluates the series with
the valid coefficients of order `m` that the grid resolves. -/
theorem disk_backward_evaluates (Ng Nc k : Nat) (alpha : ℝ) (m s : Int) (g : Nat → ℝ) (ha : -1 < alpha) (hN : 0 < Ng) (hg : GridGuess Ng alpha 0 g)
    (hm : m.natAbs + 2 ≤ 2 * Nc) (c : Nat → V) (i : Nat) (hi : i < Ng) :
    (0 < radiusGrid 2 Ng alpha g i ∧ radiusGrid 2 Ng alpha g i < 1) ∧
    diskBackward Ng Nc k alpha m s g c i =
      ∑ n ∈ Finset.range (min (Nc - m.natAbs / 2) (Ng - (m + s).natAbs / 2)), Z 2 n (alpha + k) (m + s).natAbs (radiusGrid 2 Ng alpha g i) • c n := by
  have hg' : GridGuess Ng alpha (((2 : Nat) : ℝ) / 2 - 1) g := by simpa using hg
  obtain ⟨h0, h1, -⟩ := grid_eq 2 Ng alpha g (by norm_num) ha hN hg' i hi
  refine ⟨⟨h0, h1⟩, ?_⟩
  unfold diskBackward
  rw [if_neg (by rw [Int.abs_eq_natAbs]; omega), minDegree_eq, Int.abs_eq_natAbs (m + s), kept_eq]
  exact backward_apply 2 Ng Nc _ k alpha _ g (by norm_num) ha hN hg' c i hi

/-- The forward transform returns the coefficients of every resolved series. -/
theorem disk_forward_exact (before : Bool) (Ng Nc k : Nat) (alpha : ℝ) (m s : Int) (g : Nat → ℝ) (ha : -1 < alpha) (hN : 0 < Ng) (hg : GridGuess Ng alpha 0 g)
    (hm : m.natAbs + 2 ≤ 2 * Nc) (L : Nat) (hL : L ≤ Nc - m.natAbs / 2) (hL' : L ≤ Ng - (m + s).natAbs / 2) (c gdata : Nat → V)
    (hdata : ∀ i, i < Ng → gdata i = ∑ n ∈ Finset.range L, Z 2 n (alpha + k) (m + s).natAbs (radiusGrid 2 Ng alpha g i) • c n)
    (row : Nat) (hrow : row < Nc - m.natAbs / 2) :
    diskForward before Ng Nc k alpha m s g gdata row = if row < L then c row else 0 := by
  have hg' : GridGuess Ng alpha (((2 : Nat) : ℝ) / 2 - 1) g := by simpa using hg
  unfold diskForward
  rw [if_pos (by rw [Int.abs_eq_natAbs]; omega), minDegree_eq, Int.abs_eq_natAbs (m + s)]
  exact forward_resolved 2 before Ng Nc _ k alpha _ g (by norm_num) ha hN hg' L hL' (by omega) (fun _ => hL) c gdata hdata row hrow

/-- Dealiasing: with `k = 0` the forward transform returns the resolved coefficients of a longer series `K`, for every coefficient
with `|m + s| + row + K ≤ 2 Ng`. -/
theorem disk_forward_dealiases (before : Bool) (Ng Nc : Nat) (alpha : ℝ) (m s : Int) (g : Nat → ℝ) (ha : -1 < alpha) (hN : 0 < Ng) (hg : GridGuess Ng alpha 0 g)
    (hm : m.natAbs + 2 ≤ 2 * Nc) (K : Nat) (c gdata : Nat → V)
    (hdata : ∀ i, i < Ng → gdata i = ∑ n ∈ Finset.range K, Z 2 n alpha (m + s).natAbs (radiusGrid 2 Ng alpha g i) • c n)
    (row : Nat) (hrow : row < Nc - m.natAbs / 2) (hr : row < Ng - (m + s).natAbs / 2) (hK : (m + s).natAbs + (row + K) ≤ 2 * Ng) :
    diskForward before Ng Nc 0 alpha m s g gdata row = if row < K then c row else 0 := by
  have hg' : GridGuess Ng alpha (((2 : Nat) : ℝ) / 2 - 1) g := by simpa using hg
  unfold diskForward
  rw [if_pos (by rw [Int.abs_eq_natAbs]; omega), minDegree_eq, Int.abs_eq_natAbs (m + s)]
  unfold forwardMatrix
  simp only [gt_iff_lt, lt_self_iff_false, if_false]
  rw [gauss_sum 2 Ng Nc _ alpha _ g (by norm_num) ha hN hg' K c gdata hdata row (by omega) (fun _ => hK)]
  by_cases h : row < K
  · rw [if_pos h, if_pos ⟨hr, h⟩]
  · rw [if_neg h, if_neg (fun hh => h hh.2)]

/-- Round trip: valid coefficients below the number `Ng - |m + s| // 2` of resolved functions return unchanged, the others are
dropped. What is missing is the round trip of the other valid coefficients, which is refuted below. -/
theorem disk_round_trip_partial (before : Bool) (Ng Nc k : Nat) (alpha : ℝ) (m s : Int) (g : Nat → ℝ) (ha : -1 < alpha) (hN : 0 < Ng) (hg : GridGuess Ng alpha 0 g)
    (hm : m.natAbs + 2 ≤ 2 * Nc) (c : Nat → V) (row : Nat) (hrow : row < Nc - m.natAbs / 2) :
    diskForward before Ng Nc k alpha m s g (diskBackward Ng Nc k alpha m s g c) row = if row < Ng - (m + s).natAbs / 2 then c row else 0 := by
  rw [disk_forward_exact before Ng Nc k alpha m s g ha hN hg hm (min (Nc - m.natAbs / 2) (Ng - (m + s).natAbs / 2)) (Nat.min_le_left _ _)
    (Nat.min_le_right _ _) c _ (fun i hi => (disk_backward_evaluates Ng Nc k alpha m s g ha hN hg hm c i hi).2) row hrow]
  by_cases h : row < Ng - (m + s).natAbs / 2
  · rw [if_pos h, if_pos (by omega)]
  · rw [if_neg h, if_neg (by omega)]

/-- All valid coefficients of scalars return unchanged without dealiasing, and those of tensors up to rank two if the grid has at
least one point more than there are coefficients. -/
theorem disk_round_trip_dealiased (before : Bool) (Ng Nc k : Nat) (alpha : ℝ) (m s : Int) (g : Nat → ℝ) (ha : -1 < alpha) (hN : 0 < Ng) (hg : GridGuess Ng alpha 0 g)
    (hm : m.natAbs + 2 ≤ 2 * Nc) (hs : s = 0 ∧ Nc ≤ Ng ∨ s.natAbs ≤ 2 ∧ Nc + 1 ≤ Ng) (c : Nat → V) (row : Nat) (hrow : row < Nc - m.natAbs / 2) :
    diskForward before Ng Nc k alpha m s g (diskBackward Ng Nc k alpha m s g c) row = c row := by
  rw [disk_round_trip_partial before Ng Nc k alpha m s g ha hN hg hm c row hrow, if_pos]
  rcases hs with ⟨rfl, h⟩ | ⟨h, h'⟩
  · rw [add_zero]; omega
  · omega

end

/-- Without dealiasing, the coefficient of order `m = 1`, spin weight `s = 1` and the highest radial index is valid and is lost in
every round trip. -/
theorem disk_round_trip_refuted (before : Bool) (N k : Nat) (hN : 2 ≤ N) (alpha : ℝ) (ha : -1 < alpha) (g : Nat → ℝ) (hg : GridGuess N alpha 0 g) :
    ((N : Int) - 1 < nSize N 1) ∧
    diskForward before N N k alpha 1 1 g (diskBackward N N k alpha 1 1 g (fun n => if n = N - 1 then (1 : ℝ) else 0)) (N - 1) ≠
      (if N - 1 = N - 1 then (1 : ℝ) else 0) := by
  refine ⟨by unfold nSize; norm_num, ?_⟩
  rw [disk_round_trip_partial before N N k alpha 1 1 g ha (by omega) hg (by norm_num; omega) _ (N - 1) (by norm_num; omega), if_neg (by norm_num), if_pos rfl]
  norm_num

/-- The order `|m| = 2 Nmax + 1` has one valid coefficient, which the backward transform ignores. -/
theorem disk_backward_evaluates_refuted (Ng Nc k : Nat) (hNc : 0 < Nc) (alpha : ℝ) (m s : Int) (hm : |m| = 2 * ((Nc : Int) - 1) + 1) (g : Nat → ℝ) (c : Nat → ℝ) (i : Nat) :
    nSize Nc m = 1 ∧ diskBackward Ng Nc k alpha m s g c i = 0 := by
  refine ⟨by unfold nSize; rw [hm]; omega, ?_⟩
  unfold diskBackward
  rw [if_pos (by omega)]

section
variable {V : Type} [AddCommGroup V] [Module ℝ V]

/-- The backward transform of the ball for the degree `ell` and a component with allowed regularities evaluates the series with the
valid coefficients that the grid resolves. -/
theorem ball_backward_evaluates (Ng Nc k : Nat) (alpha : ℝ) (ell rank : Nat) (reg : List Int) (hreg : Regularity.Spec.Component rank reg)
    (hallow : Regularity.Spec.Allowed ell reg) (g : Nat → ℝ) (ha : -1 < alpha) (hN : 0 < Ng) (hg : GridGuess Ng alpha (1 / 2) g)
    (c : Nat → V) (i : Nat) (hi : i < Ng) :
    (0 < radiusGrid 3 Ng alpha g i ∧ radiusGrid 3 Ng alpha g i < 1) ∧ ∃ l : Nat, (l : Int) = ell + reg.sum ∧
    ballBackward Ng Nc k alpha ell reg g c i =
      ∑ n ∈ Finset.range (min (Nc - ell / 2) (Ng - l / 2)), Z 3 n (alpha + k) l (radiusGrid 3 Ng alpha g i) • c n := by
  have hg' : GridGuess Ng alpha (((3 : Nat) : ℝ) / 2 - 1) g := by
    rw [show ((3 : Nat) : ℝ) / 2 - 1 = 1 / 2 by norm_num]; exact hg
  obtain ⟨h0, h1, -⟩ := grid_eq 3 Ng alpha g (by norm_num) ha hN hg' i hi
  have hf := (Regularity.forbidden_regularity_correct ell rank reg hreg).2 hallow
  have h2 := Regularity.allowed_sum ell reg ((Regularity.forbidden_iff ell reg hreg.2).1 hf)
  obtain ⟨l, hl⟩ := Int.eq_ofNat_of_zero_le h2
  refine ⟨⟨h0, h1⟩, l, hl.symm, ?_⟩
  unfold ballBackward
  rw [if_neg (by rw [hf]; simp), minDegree_nat, hl, kept_eq]
  exact backward_apply 3 Ng Nc _ k alpha _ g (by norm_num) ha hN hg' c i hi

/-- The forward transform returns the coefficients of every resolved series. -/
theorem ball_forward_exact (before : Bool) (Ng Nc k : Nat) (alpha : ℝ) (ell rank : Nat) (reg : List Int) (hreg : Regularity.Spec.Component rank reg)
    (hallow : Regularity.Spec.Allowed ell reg) (g : Nat → ℝ) (ha : -1 < alpha) (hN : 0 < Ng) (hg : GridGuess Ng alpha (1 / 2) g)
    (l : Nat) (hl : (l : Int) = ell + reg.sum) (L : Nat) (hL : L ≤ Nc - ell / 2) (hL' : L ≤ Ng - l / 2) (c gdata : Nat → V)
    (hdata : ∀ i, i < Ng → gdata i = ∑ n ∈ Finset.range L, Z 3 n (alpha + k) l (radiusGrid 3 Ng alpha g i) • c n)
    (row : Nat) (hrow : row < Nc - ell / 2) :
    ballForward before Ng Nc k alpha ell reg g gdata row = if row < L then c row else 0 := by
  have hg' : GridGuess Ng alpha (((3 : Nat) : ℝ) / 2 - 1) g := by
    rw [show ((3 : Nat) : ℝ) / 2 - 1 = 1 / 2 by norm_num]; exact hg
  have hf := (Regularity.forbidden_regularity_correct ell rank reg hreg).2 hallow
  unfold ballForward
  rw [if_neg (by rw [hf]; simp), minDegree_nat, ← hl]
  exact forward_resolved 3 before Ng Nc _ k alpha _ g (by norm_num) ha hN hg' L hL' (by omega) (fun _ => hL) c gdata hdata row hrow

/-- Round trip: allowed components keep the coefficients below `Ng - (ell + regtotal) // 2` and drop the others, forbidden components
become 0. -/
theorem ball_round_trip_partial (before : Bool) (Ng Nc k : Nat) (alpha : ℝ) (ell rank : Nat) (reg : List Int) (hreg : Regularity.Spec.Component rank reg)
    (g : Nat → ℝ) (ha : -1 < alpha) (hN : 0 < Ng) (hg : GridGuess Ng alpha (1 / 2) g) (c : Nat → V) (row : Nat) (hrow : row < Nc - ell / 2) :
    (Regularity.Spec.Allowed ell reg →
      ballForward before Ng Nc k alpha ell reg g (ballBackward Ng Nc k alpha ell reg g c) row =
        if (row : Int) < Ng - (ell + reg.sum) / 2 then c row else 0) ∧
    (¬Regularity.Spec.Allowed ell reg →
      (∀ i, ballBackward Ng Nc k alpha ell reg g c i = 0) ∧ ∀ gdata : Nat → V, ballForward before Ng Nc k alpha ell reg g gdata row = 0) := by
  constructor
  · intro hallow
    have hf := (Regularity.forbidden_regularity_correct ell rank reg hreg).2 hallow
    have h2 := Regularity.allowed_sum ell reg ((Regularity.forbidden_iff ell reg hreg.2).1 hf)
    obtain ⟨l, hl⟩ := Int.eq_ofNat_of_zero_le h2
    rw [ball_forward_exact before Ng Nc k alpha ell rank reg hreg hallow g ha hN hg l hl.symm (min (Nc - ell / 2) (Ng - l / 2)) (Nat.min_le_left _ _)
      (Nat.min_le_right _ _) c _ (fun i hi => by
        obtain ⟨-, l', hl', e⟩ := ball_backward_evaluates Ng Nc k alpha ell rank reg hreg hallow g ha hN hg c i hi
        obtain rfl : l' = l := by omega
        exact e) row hrow]
    rw [hl]
    by_cases h : row < Ng - l / 2
    · rw [if_pos (by omega), if_pos (by omega)]
    · rw [if_neg (by omega), if_neg (by omega)]
  · intro hn
    have hf : Regularity.forbiddenRegularity ell reg = true := by
      by_contra h
      exact hn ((Regularity.forbidden_regularity_correct ell rank reg hreg).1 (by simpa using h))
    have hne : reg ≠ [] := by
      rintro rfl
      simp [Regularity.forbiddenRegularity] at hf
    refine ⟨fun i => ?_, fun gdata => ?_⟩
    · unfold ballBackward; rw [if_pos ⟨hne, hf⟩]
    · unfold ballForward; rw [if_pos ⟨hne, hf⟩]

end

/-- Without dealiasing, the coefficient of degree `ell = 1`, regularity `+1` and the highest radial index is valid and is lost in every
round trip. -/
theorem ball_round_trip_refuted (before : Bool) (N k : Nat) (hN : 1 ≤ N) (alpha : ℝ) (ha : -1 < alpha) (g : Nat → ℝ) (hg : GridGuess N alpha (1 / 2) g) :
    Regularity.Spec.Allowed 1 [1] ∧
    ballForward before N N k alpha 1 [1] g (ballBackward N N k alpha 1 [1] g (fun n => if n = N - 1 then (1 : ℝ) else 0)) (N - 1) ≠
      (if N - 1 = N - 1 then (1 : ℝ) else 0) := by
  have hc : Regularity.Spec.Component 1 [1] := ⟨rfl, by intro x hx; simp at hx; omega⟩
  have hal : Regularity.Spec.Allowed 1 [1] := (Regularity.forbidden_regularity_correct 1 1 [1] hc).1 (by decide)
  refine ⟨hal, ?_⟩
  rw [(ball_round_trip_partial before N N k alpha 1 1 [1] hc g ha (by omega) hg _ (N - 1) (by omega)).1 hal, if_neg (by simp; omega), if_pos rfl]
  norm_num

/-! ## C50: unresolved modes of disk and ball -/

/-- Rows that the grid does not resolve are zero in the forward matrices. -/
theorem forward_unresolved (dim : Nat) (before : Bool) (Ng Nc Nmin k : Nat) (alpha : ℝ) (l : Nat) (g : Nat → ℝ) (hd : 0 < dim) (ha : -1 < alpha)
    (row i : Nat) (hrow : row < Nc - Nmin) (hu : Ng - l / 2 ≤ row) : forwardMatrix dim before Ng Nc Nmin k alpha l g row i = 0 := by
  have hz : ∀ j, Ng - l / 2 ≤ j → gaussMatrix dim Ng Nc Nmin alpha l g j i = 0 := by
    intro j hj
    unfold gaussMatrix
    rw [if_pos (by omega)]
  unfold forwardMatrix
  simp only [full_eq, kept_eq]
  split
  · set R := if before = true then Nc - Nmin else max Ng Nc - Nmin with hR
    have hRl : Ng - l / 2 ≤ R := by rw [hR]; split <;> omega
    have := zE_short dim k R (Ng - l / 2) hRl alpha l hd ha row (fun j => gaussMatrix dim Ng Nc Nmin alpha l g j i)
    rw [if_neg (by omega)] at this
    rw [← this]
    refine Finset.sum_congr rfl fun j _ => ?_
    by_cases h : j < Ng - l / 2
    · rw [if_pos h]
    · rw [if_neg h, hz j (by omega)]
  · exact hz row hu

section
variable {V : Type} [AddCommGroup V] [Module ℝ V]

/-- C50, disk: the coefficient `row` of order `m` and spin `s` belongs to a function of degree `|m + s| + 2 row` in the radius. If this degree is
not below twice the number of grid points, the forward transform of any data gives zero and the backward transform ignores the coefficient. -/
theorem disk_unresolved (before : Bool) (Ng Nc k : Nat) (alpha : ℝ) (m s : Int) (g : Nat → ℝ) (ha : -1 < alpha) (row : Nat)
    (hrow : row < Nc - m.natAbs / 2) (hu : 2 * Ng ≤ (m + s).natAbs + 2 * row) :
    (∀ gdata : Nat → V, diskForward before Ng Nc k alpha m s g gdata row = 0) ∧
      ∀ c c' : Nat → V, (∀ q, q ≠ row → c q = c' q) → ∀ i, diskBackward Ng Nc k alpha m s g c i = diskBackward Ng Nc k alpha m s g c' i := by
  constructor
  · intro gdata
    unfold diskForward
    split
    · refine Finset.sum_eq_zero fun i _ => ?_
      rw [minDegree_eq, Int.abs_eq_natAbs (m + s), forward_unresolved 2 before Ng Nc _ k alpha _ g (by norm_num) ha row i hrow (by omega), zero_smul]
    · rfl
  · intro c c' hc i
    unfold diskBackward
    split
    · rfl
    · refine Finset.sum_congr rfl fun r _ => ?_
      by_cases h : r = row
      · unfold backwardMatrix
        rw [if_pos (by rw [Int.abs_eq_natAbs (m + s)]; omega), zero_smul, zero_smul]
      · rw [hc r h]

/-- C50, ball: the same for the degree `ell` and a component with regularities `reg`, of degree `ell + sum + 2 row` in the radius. -/
theorem ball_unresolved (before : Bool) (Ng Nc k : Nat) (alpha : ℝ) (ell rank : Nat) (reg : List Int) (hreg : Regularity.Spec.Component rank reg)
    (g : Nat → ℝ) (ha : -1 < alpha) (row : Nat) (hrow : row < Nc - ell / 2) (hu : 2 * (Ng : Int) ≤ ell + reg.sum + 2 * row) :
    (∀ gdata : Nat → V, ballForward before Ng Nc k alpha ell reg g gdata row = 0) ∧
      ∀ c c' : Nat → V, (∀ q, q ≠ row → c q = c' q) → ∀ i, ballBackward Ng Nc k alpha ell reg g c i = ballBackward Ng Nc k alpha ell reg g c' i := by
  constructor
  · intro gdata
    unfold ballForward
    split
    · rfl
    · rename_i hf
      have h2 : 0 ≤ (ell : Int) + reg.sum := by
        by_cases hr : reg = []
        · subst hr; simp
        · exact Regularity.allowed_sum ell reg ((Regularity.forbidden_iff ell reg hreg.2).1 (by simpa [hr] using hf))
      obtain ⟨l, hl⟩ := Int.eq_ofNat_of_zero_le h2
      refine Finset.sum_eq_zero fun i _ => ?_
      have hm : minDegree (ell : Int) = ((ell / 2 : Nat) : Int) := by unfold minDegree; omega
      rw [hl, hm, forward_unresolved 3 before Ng Nc _ k alpha l g (by norm_num) ha row i hrow (by omega), zero_smul]
  · intro c c' hc i
    unfold ballBackward
    split
    · rfl
    · refine Finset.sum_congr rfl fun r _ => ?_
      by_cases h : r = row
      · unfold backwardMatrix
        rw [if_pos (by omega), zero_smul, zero_smul]
      · rw [hc r h]

end

example : (5 : Nat) < 8 - (3 : Int).natAbs / 2 ∧ 2 * 6 ≤ ((3 : Int) + -1).natAbs + 2 * 5 := by decide

example : ∃ g, GridGuess 12 0 0 g := guess_exists 12 0 0 (by norm_num) (by norm_num)
example : ∃ g, GridGuess 12 0 (1 / 2) g := guess_exists 12 0 (1 / 2) (by norm_num) (by norm_num)
example : (3 : Int).natAbs + 2 ≤ 2 * 8 ∧ 7 ≤ 8 - (3 : Int).natAbs / 2 ∧ 7 ≤ 12 - ((3 : Int) + -1).natAbs / 2 := by decide

end Dedalus.Zernike
