import Verif.Jacobi.Integral

namespace Dedalus.Jacobi

open Spec MeasureTheory

/-- powers are finite series -/
theorem power_series (a b : ℝ) (ha : -1 < a) (hb : -1 < b) (k : Nat) :
    ∃ c : Nat → ℝ, (∀ l, k + 1 ≤ l → c l = 0) ∧ ∀ z, z ^ k = ∑ l ∈ Finset.range (k + 1), c l * Q l a b z := by
  induction k with
  | zero =>
    refine ⟨fun l => if l = 0 then (Q 0 a b 0)⁻¹ else 0, fun l hl => if_neg (by omega), fun z => ?_⟩
    simp only [zero_add, Finset.sum_range_one, if_true]
    rw [Q_zero_const a b z 0, pow_zero]
    exact (inv_mul_cancel₀ (Q_zero_pos a b 0 ha hb).ne').symm
  | succ k ih =>
    obtain ⟨c, h1, h2⟩ := ih
    refine ⟨act a b c, fun l hl => act_zero a b c l (fun j hj => h1 j (by omega)) (h1 l (by omega)) (h1 (l + 1) (by omega)), fun z => ?_⟩
    rw [pow_succ, h2 z, mul_comm, act_series a b z ha hb c (k + 1) h1]

/-- every polynomial is a finite series -/
theorem poly_series (a b : ℝ) (ha : -1 < a) (hb : -1 < b) (p : Polynomial ℝ) (K : Nat) (hK : p.natDegree < K) :
    ∃ c : Nat → ℝ, ∀ z, p.eval z = ∑ l ∈ Finset.range K, c l * Q l a b z := by
  choose c h1 h2 using power_series a b ha hb
  refine ⟨fun l => ∑ k ∈ Finset.range K, p.coeff k * c k l, fun z => ?_⟩
  rw [Polynomial.eval_eq_sum_range' hK]
  have : ∀ k ∈ Finset.range K, p.coeff k * z ^ k = ∑ l ∈ Finset.range K, p.coeff k * c k l * Q l a b z := by
    intro k hk
    have hk' := Finset.mem_range.1 hk
    rw [h2 k z, series_ext a b z (c k) (k + 1) K (by omega) (h1 k), Finset.mul_sum]
    apply Finset.sum_congr rfl
    intro l _
    ring
  rw [Finset.sum_congr rfl this, Finset.sum_comm]
  apply Finset.sum_congr rfl
  intro l _
  rw [Finset.sum_mul]

/-- the polynomials as `Polynomial`s -/
noncomputable def polyQ (n : Nat) (a b : ℝ) : Polynomial ℝ :=
  Polynomial.C (1 / √(norm2 n a b)) * ∑ k ∈ Finset.range (n + 1), Polynomial.C (coef n k a b) *
    (Polynomial.C (1 / 2) * (Polynomial.X - Polynomial.C 1)) ^ k

theorem polyQ_eval (n : Nat) (a b z : ℝ) : (polyQ n a b).eval z = Q n a b z := by
  unfold polyQ Q P
  simp only [Polynomial.eval_mul, Polynomial.eval_C, Polynomial.eval_finset_sum, Polynomial.eval_pow, Polynomial.eval_sub, Polynomial.eval_X]
  rw [mul_comm, mul_one_div]
  congr 1
  apply Finset.sum_congr rfl
  intro k _
  congr 2
  ring

theorem polyQ_degree (n : Nat) (a b : ℝ) : (polyQ n a b).natDegree ≤ n := by
  unfold polyQ
  refine (Polynomial.natDegree_C_mul_le _ _).trans (Polynomial.natDegree_sum_le_of_forall_le _ _ fun k hk => ?_)
  refine (Polynomial.natDegree_C_mul_le _ _).trans (Polynomial.natDegree_pow_le.trans ?_)
  have h1 : (Polynomial.C (1 / 2 : ℝ) * (Polynomial.X - Polynomial.C 1)).natDegree ≤ 1 :=
    (Polynomial.natDegree_C_mul_le _ _).trans (Polynomial.natDegree_X_sub_C_le _)
  calc k * _ ≤ k * 1 := Nat.mul_le_mul_left k h1
    _ ≤ n := by have := Finset.mem_range.1 hk; omega

/-- Gauss sums of single polynomials -/
theorem gauss_Q (n : Nat) (a b : ℝ) (g : Nat → ℝ) (ha : -1 < a) (hb : -1 < b) (hn : 0 < n) (hg : Roots n a b g) (m : Nat) (hm : m < 2 * n) :
    ∑ i ∈ Finset.range n, (quadrature n a b g i).2 * Q m a b (g i) = if m = 0 then 1 / Q 0 a b 0 else 0 := by
  have q0 := (Q_zero_pos a b 0 ha hb).ne'
  have base : ∀ l, l < n → ∑ i ∈ Finset.range n, (quadrature n a b g i).2 * Q l a b (g i) = if l = 0 then 1 / Q 0 a b 0 else 0 := by
    intro l hl
    have h := quadrature_orthonormal n a b g ha hb hg 0 l hn hl
    have e : ∀ i ∈ Finset.range n, Q 0 a b (g i) * (quadrature n a b g i).2 * Q l a b (g i) =
        Q 0 a b 0 * ((quadrature n a b g i).2 * Q l a b (g i)) := by
      intro i _
      rw [Q_zero_const a b (g i) 0]; ring
    rw [Finset.sum_congr rfl e, ← Finset.mul_sum] at h
    apply mul_left_cancel₀ q0
    rw [h]
    by_cases h0 : l = 0
    · subst h0; simp; field_simp
    · rw [if_neg (fun h => h0 h.symm), if_neg h0, mul_zero]
  rcases Nat.lt_or_ge m n with h | h
  · exact base m h
  · obtain ⟨r, rfl⟩ : ∃ r, m = n + r := ⟨m - n, by omega⟩
    rw [if_neg (by omega)]
    obtain ⟨c, _, c2, c3⟩ := grid_alias n a b g ha hb hg hn r
    have e : ∀ i ∈ Finset.range n, (quadrature n a b g i).2 * Q (n + r) a b (g i) =
        ∑ l ∈ Finset.range n, c l * ((quadrature n a b g i).2 * Q l a b (g i)) := by
      intro i hi
      rw [c3 i (Finset.mem_range.1 hi), Finset.mul_sum]
      apply Finset.sum_congr rfl
      intro l _
      ring
    rw [Finset.sum_congr rfl e, Finset.sum_comm]
    apply Finset.sum_eq_zero
    intro l hl
    rw [← Finset.mul_sum, base l (Finset.mem_range.1 hl)]
    by_cases h0 : l = 0
    · rw [h0, c2 0 (by omega), zero_mul]
    · rw [if_neg h0, mul_zero]

/-- Gauss quadrature is exact -/
theorem gauss_exact (n : Nat) (a b : ℝ) (g : Nat → ℝ) (ha : -1 < a) (hb : -1 < b) (hn : 0 < n) (hg : Roots n a b g) (p : Polynomial ℝ)
    (hp : p.natDegree < 2 * n) :
    ∑ i ∈ Finset.range n, (quadrature n a b g i).2 * p.eval (quadrature n a b g i).1 = integ a b (fun z => p.eval z) := by
  obtain ⟨c, hc⟩ := poly_series a b ha hb p (2 * n) hp
  have e1 : (fun z => p.eval z) = fun z => ∑ l ∈ Finset.range (2 * n), c l * Q l a b z := funext hc
  rw [e1, integ_sum a b ha hb (2 * n) c (fun l => Q l a b) (fun l => Q_continuous l a b)]
  have e2 : ∀ i ∈ Finset.range n, (quadrature n a b g i).2 * p.eval (quadrature n a b g i).1 =
      ∑ l ∈ Finset.range (2 * n), c l * ((quadrature n a b g i).2 * Q l a b (g i)) := by
    intro i hi
    rw [quadrature_gauss n a b g i ha hb hg (Finset.mem_range.1 hi)]
    simp only
    rw [hc, Finset.mul_sum]
    apply Finset.sum_congr rfl
    intro l _
    ring
  rw [Finset.sum_congr rfl e2, Finset.sum_comm]
  apply Finset.sum_congr rfl
  intro l hl
  rw [← Finset.mul_sum, gauss_Q n a b g ha hb hn hg l (Finset.mem_range.1 hl), integ_Q l a b ha hb]

/-- the polynomials are orthonormal -/
theorem Q_orthonormal (j k : Nat) (a b : ℝ) (ha : -1 < a) (hb : -1 < b) :
    integ a b (fun z => Q j a b z * Q k a b z) = if j = k then 1 else 0 := by
  obtain ⟨g, hg⟩ := guess_exists (j + k + 1) a b ha hb
  have hr := guess_roots (j + k + 1) a b ha hb (by omega) g hg
  have h := gauss_exact (j + k + 1) a b g ha hb (by omega) hr (polyQ j a b * polyQ k a b) (by
    refine lt_of_le_of_lt Polynomial.natDegree_mul_le ?_
    have := polyQ_degree j a b
    have := polyQ_degree k a b
    omega)
  simp only [Polynomial.eval_mul, polyQ_eval] at h
  rw [← h, ← quadrature_orthonormal (j + k + 1) a b g ha hb hr j k (by omega) (by omega)]
  apply Finset.sum_congr rfl
  intro i hi
  rw [quadrature_gauss (j + k + 1) a b g i ha hb hr (Finset.mem_range.1 hi)]
  ring

theorem mass_legendre : mass 0 0 = 2 := by
  unfold mass
  norm_num [Real.Gamma_two]

/-- entries of the integration vector -/
theorem integrationVector_eq (N : Nat) (a b cutoff : ℝ) (g : Nat → ℝ) (ha : -1 < a) (hb : -1 < b) (hg : GridGuess N 0 0 g) (m : Nat) (hm : m < N) :
    integrationVector N a b cutoff g m =
      if |∫ z in (-1 : ℝ)..1, Q m a b z| ≤ cutoff then 0 else ∫ z in (-1 : ℝ)..1, Q m a b z := by
  have hr := guess_roots N 0 0 (by norm_num) (by norm_num) (by omega) g hg
  have h := gauss_exact N 0 0 g (by norm_num) (by norm_num) (by omega) hr (polyQ m a b) (by have := polyQ_degree m a b; omega)
  simp only [polyQ_eval] at h
  have e : integ 0 0 (fun z => Q m a b z) = ∫ z in (-1 : ℝ)..1, Q m a b z := by
    unfold integ
    simp only [Real.rpow_zero, one_mul]
  rw [e] at h
  unfold integrationVector
  simp only
  rw [mass_legendre]
  have : ∀ i ∈ Finset.range N, (quadrature N 0 0 g i).2 * polynomials N a b (quadrature N 0 0 g i).1 m =
      (quadrature N 0 0 g i).2 * Q m a b (quadrature N 0 0 g i).1 := by
    intro i _
    rw [polynomials_Q N a b _ ha hb m (by omega)]
  rw [Finset.sum_congr rfl this, h]
  norm_num

end Dedalus.Jacobi
