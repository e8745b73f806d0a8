import Verif.Jacobi.Operators

namespace Dedalus.Jacobi

open Spec

theorem comp_sum_zero (n : Nat) (hn : 0 < n) (L R : Nat → ℝ) (h : ∀ l, l ≠ 0 → R l = 0) :
    ∑ l ∈ Finset.range n, L l * R l = L 0 * R 0 := sum_one n 0 hn _ fun i hi => by rw [h i hi, mul_zero]

theorem comp_sum_succ (n j : Nat) (hn : j + 1 < n) (L R : Nat → ℝ) (h : ∀ l, l ≠ j → l ≠ j + 1 → R l = 0) :
    ∑ l ∈ Finset.range n, L l * R l = L j * R j + L (j + 1) * R (j + 1) :=
  sum_two n j hn _ fun i h1 h2 => by rw [h i h1 h2, mul_zero]

theorem compA_zero (n : Nat) (a b : ℝ) (i : Nat) (hn : 0 < n) : (opAm.comp opAp).entry n a b i 0 =
    opAm.entry n (a + 1) b i 0 * opAp.entry n a b 0 0 := by
  change ∑ l ∈ Finset.range n, opAm.entry n (a + 1) (b + 0) i l * opAp.entry n a b l 0 = _
  rw [add_zero, comp_sum_zero n hn _ _ fun l hl => opAp_zero _ _ _ _ _ hl (by omega)]

theorem compA_succ (n : Nat) (a b : ℝ) (i j : Nat) (hn : j + 1 < n) : (opAm.comp opAp).entry n a b i (j + 1) =
    opAm.entry n (a + 1) b i j * opAp.entry n a b j (j + 1) +
      opAm.entry n (a + 1) b i (j + 1) * opAp.entry n a b (j + 1) (j + 1) := by
  change ∑ l ∈ Finset.range n, opAm.entry n (a + 1) (b + 0) i l * opAp.entry n a b l (j + 1) = _
  rw [add_zero, comp_sum_succ n j hn _ _ fun l h1 h2 => opAp_zero _ _ _ _ _ h2 (by omega)]

theorem compB_zero (n : Nat) (a b : ℝ) (i : Nat) (hn : 0 < n) : (opBm.comp opBp).entry n a b i 0 =
    opBm.entry n a (b + 1) i 0 * opBp.entry n a b 0 0 := by
  change ∑ l ∈ Finset.range n, opBm.entry n (a + 0) (b + 1) i l * opBp.entry n a b l 0 = _
  rw [add_zero, comp_sum_zero n hn _ _ fun l hl => opBp_zero _ _ _ _ _ hl (by omega)]

theorem compB_succ (n : Nat) (a b : ℝ) (i j : Nat) (hn : j + 1 < n) : (opBm.comp opBp).entry n a b i (j + 1) =
    opBm.entry n a (b + 1) i j * opBp.entry n a b j (j + 1) +
      opBm.entry n a (b + 1) i (j + 1) * opBp.entry n a b (j + 1) (j + 1) := by
  change ∑ l ∈ Finset.range n, opBm.entry n (a + 0) (b + 1) i l * opBp.entry n a b l (j + 1) = _
  rw [add_zero, comp_sum_succ n j hn _ _ fun l h1 h2 => opBp_zero _ _ _ _ _ h2 (by omega)]

/-- the Jacobi matrix is tridiagonal -/
theorem opZ_far (n : Nat) (a b : ℝ) (i j : Nat) (hj : j < n) (h : i + 1 < j ∨ j + 1 < i) : opZ.entry n a b i j = 0 := by
  change ((opBm.comp opBp).entry n a b i j - (opAm.comp opAp).entry n a b i j) / 2 = 0
  rcases j with _ | j
  · rw [compA_zero _ _ _ _ hj, compB_zero _ _ _ _ hj, opAm_zero _ _ _ _ _ (by omega) (by omega),
      opBm_zero _ _ _ _ _ (by omega) (by omega)]
    ring
  · rw [compA_succ _ _ _ _ _ hj, compB_succ _ _ _ _ _ hj, opAm_zero _ _ _ i j (by omega) (by omega),
      opBm_zero _ _ _ i j (by omega) (by omega), opAm_zero _ _ _ i (j + 1) (by omega) (by omega),
      opBm_zero _ _ _ i (j + 1) (by omega) (by omega)]
    ring

/-- entries below the diagonal -/
noncomputable def offDiag (a b : ℝ) (j : Nat) : ℝ :=
  2 * (j + 1) / (2 * j + a + b + 2) * scaleBand a b j (j + (a + b + 1)) * (√(norm2 (j + 1) a b) / √(norm2 j a b))

theorem opZ_lower (n : Nat) (a b : ℝ) (j : Nat) (hj : j < n) (ha : -1 < a) (hb : -1 < b) :
    opZ.entry n a b (j + 1) j = offDiag a b j := by
  change ((opBm.comp opBp).entry n a b (j + 1) j - (opAm.comp opAp).entry n a b (j + 1) j) / 2 = _
  have s1 := (sq_pos j (a + 1) b (by linarith) hb).ne'
  have s2 := (sq_pos j a (b + 1) ha (by linarith)).ne'
  have eA : (opAm.comp opAp).entry n a b (j + 1) j = -offDiag a b j := by
    have : (opAm.comp opAp).entry n a b (j + 1) j = opAm.entry n (a + 1) b (j + 1) j * opAp.entry n a b j j := by
      rcases j with _ | j
      · rw [compA_zero _ _ _ _ hj]
      · rw [compA_succ _ _ _ _ _ hj, opAm_zero _ _ _ (j + 1 + 1) j (by omega) (by omega), zero_mul, zero_add]
    rw [this, opAm_lower _ _ _ _ ha hb, opAp_diag _ _ _ _ ha hb, offDiag]
    generalize (2 * (j : ℝ) + a + b + 2) = D
    field_simp
  have eB : (opBm.comp opBp).entry n a b (j + 1) j = offDiag a b j := by
    have : (opBm.comp opBp).entry n a b (j + 1) j = opBm.entry n a (b + 1) (j + 1) j * opBp.entry n a b j j := by
      rcases j with _ | j
      · rw [compB_zero _ _ _ _ hj]
      · rw [compB_succ _ _ _ _ _ hj, opBm_zero _ _ _ (j + 1 + 1) j (by omega) (by omega), zero_mul, zero_add]
    rw [this, opBm_lower _ _ _ _ ha hb, opBp_diag _ _ _ _ ha hb, offDiag]
    generalize (2 * (j : ℝ) + a + b + 2) = D
    field_simp
  rw [eA, eB]
  ring

theorem scaleBand_pos (a b : ℝ) (j : Nat) (ha : -1 < a) (hb : -1 < b) : 0 < scaleBand a b j (j + (a + b + 1)) := by
  rcases j with _ | j
  · rw [scaleBand_zero_one]; norm_num
  · have : (0 : ℝ) ≤ j := Nat.cast_nonneg j
    rw [scaleBand_succ]
    apply div_pos <;> push_cast <;> linarith

theorem offDiag_pos (a b : ℝ) (j : Nat) (ha : -1 < a) (hb : -1 < b) : 0 < offDiag a b j := by
  have hj : (0 : ℝ) ≤ j := Nat.cast_nonneg j
  have h1 := scaleBand_pos a b j ha hb
  have h2 := sq_pos j a b ha hb
  have h3 := sq_pos (j + 1) a b ha hb
  have : 0 < 2 * (j : ℝ) + a + b + 2 := by linarith
  unfold offDiag
  positivity

/-- the ratio of consecutive norms -/
theorem norm2_succ (a b : ℝ) (j : Nat) (ha : -1 < a) (hb : -1 < b) :
    norm2 (j + 1) a b = nRatioOne j a b * norm2 j a b := by
  rw [nRatioOne_norm j a b ha hb]
  have := (norm2_pos j a b ha hb).ne'
  field_simp

/-- entries above the diagonal: the Jacobi matrix is symmetric -/
theorem opZ_upper (n : Nat) (a b : ℝ) (j : Nat) (hj : j + 1 < n) (ha : -1 < a) (hb : -1 < b) :
    opZ.entry n a b j (j + 1) = offDiag a b j := by
  change ((opBm.comp opBp).entry n a b j (j + 1) - (opAm.comp opAp).entry n a b j (j + 1)) / 2 = _
  have hj0 : (0 : ℝ) ≤ j := Nat.cast_nonneg j
  have s1 := (sq_pos j (a + 1) b (by linarith) hb).ne'
  have s2 := (sq_pos j a (b + 1) ha (by linarith)).ne'
  have s3 := sq_pos j a b ha hb
  have s4 := sq_pos (j + 1) a b ha hb
  have hD : 2 * (j : ℝ) + a + b + 2 ≠ 0 := by linarith
  have hE : 2 * ((j + 1 : Nat) : ℝ) + a + b + 1 ≠ 0 := by push_cast; linarith
  -- the norms
  have key : 2 * ((j : ℝ) + 1) / (2 * j + a + b + 2) * scaleBand a b j (j + (a + b + 1)) * norm2 (j + 1) a b =
      2 * (j + a + 1) / (2 * j + a + b + 2) * ((j + 1 : Nat) + b) / (2 * (j + 1 : Nat) + a + b + 1) * norm2 j a b := by
    rw [norm2_succ a b j ha hb, nRatioOne, tricky_weight j a b ha hb]
    have hsw : scaleBand a b j (j + (a + b + 1)) * weight j a b = 1 := by
      rcases j with _ | j
      · rw [scaleBand_zero_one]; simp [weight]
      · have : (0 : ℝ) ≤ j := Nat.cast_nonneg j
        have h1 : 2 * ((j + 1 : Nat) : ℝ) + a + b + 1 ≠ 0 := by push_cast; linarith
        have h2 : ((j + 1 : Nat) : ℝ) + a + b + 1 ≠ 0 := by push_cast; linarith
        rw [scaleBand_succ, weight, if_neg (by omega), show ((j + 1 : Nat) : ℝ) + (a + b + 1) = (j + 1 : Nat) + a + b + 1 by ring]
        rw [div_mul_div_comm, div_eq_one_iff_eq (mul_ne_zero h1 h2)]
        ring
    have hj1 : (j : ℝ) + 1 ≠ 0 := by positivity
    have e : 2 * ((j + 1 : Nat) : ℝ) + a + b + 1 = 2 * j + a + b + 3 := by push_cast; ring
    have hE' : 2 * (j : ℝ) + a + b + 3 ≠ 0 := by linarith
    rw [e]
    push_cast
    generalize 2 * (j : ℝ) + a + b + 2 = D at *
    generalize 2 * (j : ℝ) + a + b + 3 = E at *
    generalize scaleBand a b j (j + (a + b + 1)) = S at *
    generalize weight j a b = W at *
    field_simp
    linear_combination (norm2 j a b * (j + a + 1) * (j + b + 1)) * hsw
  have q1 : √(norm2 (j + 1) a b) ^ 2 = norm2 (j + 1) a b := Real.sq_sqrt (norm2_pos _ _ _ ha hb).le
  have q0 : √(norm2 j a b) ^ 2 = norm2 j a b := Real.sq_sqrt (norm2_pos _ _ _ ha hb).le
  have key2 : 2 * (j + a + 1) / (2 * j + a + b + 2) * ((j + 1 : Nat) + b) / (2 * (j + 1 : Nat) + a + b + 1) *
      (√(norm2 j a b) / √(norm2 (j + 1) a b)) = offDiag a b j := by
    rw [offDiag]
    rw [← q1, ← q0] at key
    generalize 2 * (j : ℝ) + a + b + 2 = D at *
    generalize 2 * ((j + 1 : Nat) : ℝ) + a + b + 1 = E at *
    generalize scaleBand a b j (j + (a + b + 1)) = S at *
    generalize √(norm2 j a b) = x at *
    generalize √(norm2 (j + 1) a b) = y at *
    field_simp at key ⊢
    linear_combination (-1) * key
  have eA : (opAm.comp opAp).entry n a b j (j + 1) = -offDiag a b j := by
    rw [compA_succ _ _ _ _ _ hj, opAm_zero _ _ _ j (j + 1) (by omega) (by omega), zero_mul, add_zero,
      opAm_diag _ _ _ _ ha hb, opAp_upper _ _ _ _ ha hb, ← key2]
    generalize (2 * (j : ℝ) + a + b + 2) = D at *
    generalize 2 * ((j + 1 : Nat) : ℝ) + a + b + 1 = E at *
    field_simp
  have eB : (opBm.comp opBp).entry n a b j (j + 1) = offDiag a b j := by
    rw [compB_succ _ _ _ _ _ hj, opBm_zero _ _ _ j (j + 1) (by omega) (by omega), zero_mul, add_zero,
      opBm_diag _ _ _ _ ha hb, opBp_upper _ _ _ _ ha hb, ← key2]
    generalize (2 * (j : ℝ) + a + b + 2) = D at *
    generalize 2 * ((j + 1 : Nat) : ℝ) + a + b + 1 = E at *
    push_cast
    field_simp
    ring
  rw [eA, eB]
  ring

/-- the diagonal, which does not depend on the size -/
noncomputable def diagZ (a b : ℝ) (j : Nat) : ℝ := opZ.entry (j + 1) a b j j

theorem entry_size (n m : Nat) (a b : ℝ) (i j : Nat) :
    opAp.entry n a b i j = opAp.entry m a b i j ∧ opAm.entry n a b i j = opAm.entry m a b i j ∧
    opBp.entry n a b i j = opBp.entry m a b i j ∧ opBm.entry n a b i j = opBm.entry m a b i j := ⟨rfl, rfl, rfl, rfl⟩

theorem opZ_size (n m : Nat) (a b : ℝ) (i j : Nat) (hn : j < n) (hm : j < m) : opZ.entry n a b i j = opZ.entry m a b i j := by
  change ((opBm.comp opBp).entry n a b i j - (opAm.comp opAp).entry n a b i j) / 2 =
    ((opBm.comp opBp).entry m a b i j - (opAm.comp opAp).entry m a b i j) / 2
  rcases j with _ | j
  · rw [compA_zero n _ _ _ hn, compB_zero n _ _ _ hn, compA_zero m _ _ _ hm, compB_zero m _ _ _ hm]
    rfl
  · rw [compA_succ n _ _ _ _ hn, compB_succ n _ _ _ _ hn, compA_succ m _ _ _ _ hm, compB_succ m _ _ _ _ hm]
    rfl

theorem opZ_diag (n : Nat) (a b : ℝ) (j : Nat) (hn : j < n) : opZ.entry n a b j j = diagZ a b j :=
  opZ_size _ _ _ _ _ _ hn (by omega)

/-- three terms of a sum -/
theorem sum_three (n j : Nat) (hj : j + 2 < n) (f : Nat → ℝ) (h : ∀ i, i ≠ j → i ≠ j + 1 → i ≠ j + 2 → f i = 0) :
    ∑ i ∈ Finset.range n, f i = f j + f (j + 1) + f (j + 2) := by
  rw [← Finset.sum_subset (s₁ := {j, j + 1, j + 2})]
  · rw [Finset.sum_insert (by simp), Finset.sum_pair (by omega)]
    ring
  · intro x hx; simp at *; omega
  · intro x _ hx
    simp at hx
    exact h x hx.1 hx.2.1 hx.2.2

/-- the recurrence of the normalised polynomials -/
theorem Q_rec_zero (a b z : ℝ) (ha : -1 < a) (hb : -1 < b) :
    z * Q 0 a b z = diagZ a b 0 * Q 0 a b z + offDiag a b 0 * Q 1 a b z := by
  have := rep_Z a b ha hb 1 0 z (by omega)
  change _ = ∑ i ∈ Finset.range 2, opZ.entry 1 a b i 0 * Q i (a + 0) (b + 0) z at this
  rw [add_zero, add_zero, Finset.sum_range_succ, Finset.sum_range_one, opZ_diag _ _ _ _ (by omega), opZ_lower _ _ _ _ (by omega) ha hb] at this
  exact this

theorem Q_rec (a b z : ℝ) (k : Nat) (ha : -1 < a) (hb : -1 < b) :
    z * Q (k + 1) a b z = offDiag a b k * Q k a b z + diagZ a b (k + 1) * Q (k + 1) a b z + offDiag a b (k + 1) * Q (k + 2) a b z := by
  have := rep_Z a b ha hb (k + 2) (k + 1) z (by omega)
  change _ = ∑ i ∈ Finset.range (k + 3), opZ.entry (k + 2) a b i (k + 1) * Q i (a + 0) (b + 0) z at this
  rw [add_zero, add_zero, sum_three (k + 3) k (by omega) _ fun i h1 h2 h3 => by
    rw [opZ_far _ _ _ _ _ (by omega) (by omega), zero_mul]] at this
  rw [opZ_diag _ _ _ _ (by omega), opZ_upper _ _ _ _ (by omega) ha hb, opZ_lower _ _ _ (k + 1) (by omega) ha hb] at this
  exact this

/-- the recursion of the code computes the normalised polynomials -/
theorem polynomials_Q (n : Nat) (a b z : ℝ) (ha : -1 < a) (hb : -1 < b) : ∀ k, k ≤ n → polynomials n a b z k = Q k a b z
  | 0, _ => by rw [polynomials, mass_norm, Q, P_zero]
  | 1, h => by
    have h0 := Q_rec_zero a b z ha hb
    have hp := (offDiag_pos a b 0 ha hb).ne'
    rw [polynomials, mass_norm, opZ_diag _ _ _ _ (by omega), opZ_lower _ _ _ 0 (by omega) ha hb]
    have q0 : Q 0 a b z = 1 / √(norm2 0 a b) := by rw [Q, P_zero]
    rw [← q0, div_eq_iff hp]
    linear_combination h0
  | k + 2, h => by
    have h0 := Q_rec a b z k ha hb
    have hp := (offDiag_pos a b (k + 1) ha hb).ne'
    rw [polynomials, polynomials_Q n a b z ha hb (k + 1) (by omega), polynomials_Q n a b z ha hb k (by omega),
      opZ_diag _ _ _ _ (by omega), opZ_lower _ _ _ (k + 1) (by omega) ha hb, opZ_upper _ _ _ _ (by omega) ha hb, div_eq_iff hp]
    linear_combination h0

end Dedalus.Jacobi
