import Verif.Jacobi.Model
import Verif.Jacobi.Spec
import Mathlib.Tactic.FieldSimp
import Mathlib.Tactic.LinearCombination
import Mathlib.Tactic.Positivity

namespace Dedalus.Jacobi

open Spec

/-! ## Coefficients -/

theorem poch_zero (x : ℝ) : poch x 0 = 1 := by simp [poch]

theorem poch_succ (x : ℝ) (k : Nat) : poch x (k + 1) = poch x k * (x + k) := by simp [poch, Finset.prod_range_succ]

theorem poch_succ' (x : ℝ) (k : Nat) : poch x (k + 1) = x * poch (x + 1) k := by
  rw [poch, Finset.prod_range_succ', mul_comm]
  simp only [Nat.cast_zero, add_zero, poch]
  congr 1
  apply Finset.prod_congr rfl
  intro i _
  push_cast
  ring

theorem poch_shift (x : ℝ) (k : Nat) : x * poch (x + 1) k = poch x k * (x + k) := by rw [← poch_succ', poch_succ]

theorem coef_add (k m : Nat) (a b : ℝ) : coef (k + m) k a b =
    poch (k + m + a + b + 1) k * poch (a + k + 1) m / (k.factorial * m.factorial) := by
  simp [coef]

theorem coef_lt (n k : Nat) (a b : ℝ) (h : n < k) : coef n k a b = 0 := by
  simp [coef, Nat.not_le.2 h]

theorem P_ext (n K : Nat) (a b z : ℝ) (h : n < K) :
    P n a b z = ∑ k ∈ Finset.range K, coef n k a b * ((z - 1) / 2) ^ k := by
  unfold P
  apply Finset.sum_subset
  · intro x hx; simp at *; omega
  · intro x _ hx
    simp at hx
    rw [coef_lt n x a b (by omega), zero_mul]

theorem fac_ne (k : Nat) : (k.factorial : ℝ) ≠ 0 := by exact_mod_cast k.factorial_ne_zero

/-- `A(+1)` on coefficients -/
theorem coef_Ap (n k : Nat) (a b : ℝ) : (2 * (n + 1 : Nat) + a + b + 1) * coef (n + 1) k a b =
    ((n + 1 : Nat) + a + b + 1) * coef (n + 1) k (a + 1) b - ((n + 1 : Nat) + b) * coef n k (a + 1) b := by
  rcases Nat.lt_trichotomy k (n + 1) with h | h | h
  · obtain ⟨m, rfl⟩ := Nat.exists_eq_add_of_le (Nat.lt_succ_iff.1 h)
    rw [show k + m + 1 = k + (m + 1) by ring, coef_add, coef_add, coef_add]
    have e1 := poch_shift (k + (m + 1 : Nat) + a + b + 1) k
    have e2 : poch (a + k + 1) (m + 1) = (a + k + 1) * poch (a + k + 1 + 1) m := poch_succ' _ _
    have e3 : poch (a + 1 + k + 1) (m + 1) = poch (a + k + 1 + 1) m * (a + k + 1 + 1 + m) := by
      rw [show a + 1 + k + 1 = a + k + 1 + 1 by ring, poch_succ]
    rw [e2, e3, Nat.factorial_succ m]
    have h1 : (k : ℝ) + (m + 1 : Nat) + (a + 1) + b + 1 = k + (m + 1 : Nat) + a + b + 1 + 1 := by ring
    have h2 : (k : ℝ) + m + (a + 1) + b + 1 = k + (m + 1 : Nat) + a + b + 1 := by push_cast; ring
    have h3 : (a + 1 + k + 1 : ℝ) = a + k + 1 + 1 := by ring
    rw [h1, h2, h3]
    generalize poch (k + (m + 1 : Nat) + a + b + 1) k = X at *
    generalize poch (k + (m + 1 : Nat) + a + b + 1 + 1) k = X' at *
    generalize poch (a + k + 1 + 1) m = Y at *
    have := fac_ne k
    have := fac_ne m
    have : (m : ℝ) + 1 ≠ 0 := by positivity
    push_cast at *
    field_simp
    linear_combination (-(Y * (a + k + 1 + 1 + m))) * e1
  · subst h
    have := coef_add (n + 1) 0 a b
    have := coef_add (n + 1) 0 (a + 1) b
    simp only [add_zero] at *
    rw [‹coef (n + 1) (n + 1) a b = _›, ‹coef (n + 1) (n + 1) (a + 1) b = _›, coef_lt n (n + 1) _ _ (by omega)]
    have e1 := poch_shift ((n + 1 : Nat) + (0 : Nat) + a + b + 1) (n + 1)
    rw [show ((n + 1 : Nat) + (0 : Nat) + (a + 1) + b + 1 : ℝ) = (n + 1 : Nat) + (0 : Nat) + a + b + 1 + 1 by ring]
    rw [poch_zero, poch_zero]
    generalize poch ((n + 1 : Nat) + (0 : Nat) + a + b + 1) (n + 1) = X at *
    generalize poch ((n + 1 : Nat) + (0 : Nat) + a + b + 1 + 1) (n + 1) = X' at *
    have := fac_ne (n + 1)
    push_cast at *
    field_simp
    linear_combination (-1) * e1
  · rw [coef_lt _ _ _ _ h, coef_lt _ _ _ _ h, coef_lt _ _ _ _ (by omega)]
    ring

/-- `B(+1)` on coefficients -/
theorem coef_Bp (n k : Nat) (a b : ℝ) : (2 * (n + 1 : Nat) + a + b + 1) * coef (n + 1) k a b =
    ((n + 1 : Nat) + a + b + 1) * coef (n + 1) k a (b + 1) + ((n + 1 : Nat) + a) * coef n k a (b + 1) := by
  rcases Nat.lt_trichotomy k (n + 1) with h | h | h
  · obtain ⟨m, rfl⟩ := Nat.exists_eq_add_of_le (Nat.lt_succ_iff.1 h)
    rw [show k + m + 1 = k + (m + 1) by ring, coef_add, coef_add, coef_add]
    have e1 := poch_shift (k + (m + 1 : Nat) + a + b + 1) k
    rw [poch_succ, Nat.factorial_succ m]
    have h1 : (k : ℝ) + (m + 1 : Nat) + a + (b + 1) + 1 = k + (m + 1 : Nat) + a + b + 1 + 1 := by ring
    have h2 : (k : ℝ) + m + a + (b + 1) + 1 = k + (m + 1 : Nat) + a + b + 1 := by push_cast; ring
    rw [h1, h2]
    generalize poch (k + (m + 1 : Nat) + a + b + 1) k = X at *
    generalize poch (k + (m + 1 : Nat) + a + b + 1 + 1) k = X' at *
    generalize poch (a + k + 1) m = Y at *
    have := fac_ne k
    have := fac_ne m
    have : (m : ℝ) + 1 ≠ 0 := by positivity
    push_cast at *
    field_simp
    linear_combination (-(Y * (a + k + 1 + m))) * e1
  · subst h
    have := coef_add (n + 1) 0 a b
    have := coef_add (n + 1) 0 a (b + 1)
    simp only [add_zero] at *
    rw [‹coef (n + 1) (n + 1) a b = _›, ‹coef (n + 1) (n + 1) a (b + 1) = _›, coef_lt n (n + 1) _ _ (by omega)]
    have e1 := poch_shift ((n + 1 : Nat) + (0 : Nat) + a + b + 1) (n + 1)
    rw [show ((n + 1 : Nat) + (0 : Nat) + a + (b + 1) + 1 : ℝ) = (n + 1 : Nat) + (0 : Nat) + a + b + 1 + 1 by ring]
    rw [poch_zero]
    generalize poch ((n + 1 : Nat) + (0 : Nat) + a + b + 1) (n + 1) = X at *
    generalize poch ((n + 1 : Nat) + (0 : Nat) + a + b + 1 + 1) (n + 1) = X' at *
    have := fac_ne (n + 1)
    push_cast at *
    field_simp
    linear_combination (-1) * e1
  · rw [coef_lt _ _ _ _ h, coef_lt _ _ _ _ h, coef_lt _ _ _ _ (by omega)]
    ring

/-- `D(+1)` on coefficients -/
theorem coef_D (n k : Nat) (a b : ℝ) : (k + 1) * coef (n + 1) (k + 1) a b =
    ((n + 1 : Nat) + a + b + 1) * coef n k (a + 1) (b + 1) := by
  rcases Nat.lt_or_ge n k with h | h
  · rw [coef_lt _ _ _ _ h, coef_lt _ _ _ _ (by omega)]; ring
  · obtain ⟨m, rfl⟩ := Nat.exists_eq_add_of_le h
    rw [show k + m + 1 = (k + 1) + m by ring, coef_add, coef_add, poch_succ', Nat.factorial_succ k]
    have h1 : ((k + 1 : Nat) + m + a + b + 1 + 1 : ℝ) = k + m + (a + 1) + (b + 1) + 1 := by push_cast; ring
    have h2 : (a + (k + 1 : Nat) + 1 : ℝ) = a + 1 + k + 1 := by push_cast; ring
    rw [h1, h2]
    have := fac_ne k
    have := fac_ne m
    have : (k : ℝ) + 1 ≠ 0 := by positivity
    push_cast
    field_simp

/-- `A(-1)` on coefficients -/
theorem coef_Am (n k : Nat) (a b : ℝ) : (2 * n + a + b + 2) * coef n k (a + 1) b =
    (n + 1) * coef (n + 1) (k + 1) a b - (n + a + 1) * coef n (k + 1) a b := by
  rcases Nat.lt_trichotomy k n with h | h | h
  · obtain ⟨m, rfl⟩ := Nat.exists_eq_add_of_lt h
    rw [show k + m + 1 + 1 = (k + 1) + (m + 1) by ring, coef_add, show k + m + 1 = (k + 1) + m by ring, coef_add,
      show k + 1 + m = k + (m + 1) by ring, coef_add]
    have h1 : ((k + 1 : Nat) + (m + 1 : Nat) + a + b + 1 : ℝ) = k + m + a + b + 3 := by push_cast; ring
    have h2 : ((k + 1 : Nat) + m + a + b + 1 : ℝ) = k + m + a + b + 2 := by push_cast; ring
    have h3 : (k + (m + 1 : Nat) + (a + 1) + b + 1 : ℝ) = k + m + a + b + 3 := by push_cast; ring
    have h4 : (a + (k + 1 : Nat) + 1 : ℝ) = a + k + 2 := by push_cast; ring
    have h5 : (a + 1 + k + 1 : ℝ) = a + k + 2 := by ring
    rw [h1, h2, h3, h4, h5, poch_succ (k + m + a + b + 3) k, poch_succ' (k + m + a + b + 2) k, poch_succ (a + k + 2) m,
      Nat.factorial_succ k, Nat.factorial_succ m, show (k + m + a + b + 2 + 1 : ℝ) = k + m + a + b + 3 by ring]
    generalize poch (k + m + a + b + 3) k = X
    generalize poch (a + k + 2) m = Y
    have := fac_ne k
    have := fac_ne m
    have : (k : ℝ) + 1 ≠ 0 := by positivity
    have : (m : ℝ) + 1 ≠ 0 := by positivity
    push_cast
    field_simp
    ring
  · subst h
    have e1 := coef_add (k + 1) 0 a b
    have e2 := coef_add k 0 (a + 1) b
    simp only [add_zero] at e1 e2
    rw [e1, e2, coef_lt k (k + 1) _ _ (by omega), poch_zero, poch_zero, poch_succ, Nat.factorial_succ k]
    have h1 : ((k + 1 : Nat) + (0 : Nat) + a + b + 1 : ℝ) = k + a + b + 2 := by push_cast; ring
    have h3 : (k + (0 : Nat) + (a + 1) + b + 1 : ℝ) = k + a + b + 2 := by push_cast; ring
    rw [h1, h3]
    generalize poch (k + a + b + 2) k = X
    have := fac_ne k
    have : (k : ℝ) + 1 ≠ 0 := by positivity
    push_cast
    field_simp
    ring
  · rw [coef_lt _ _ _ _ h, coef_lt _ _ _ _ (by omega), coef_lt _ _ _ _ (by omega)]
    ring

theorem coef_zero (n : Nat) (a b : ℝ) : coef n 0 a b = poch (a + 1) n / n.factorial := by
  simp [coef, poch_zero]

theorem coef_Am_zero (n : Nat) (a b : ℝ) : (n + 1) * coef (n + 1) 0 a b = (n + a + 1) * coef n 0 a b := by
  rw [coef_zero, coef_zero, poch_succ, Nat.factorial_succ]
  have := fac_ne n
  have : (n : ℝ) + 1 ≠ 0 := by positivity
  push_cast
  field_simp
  ring

/-- `B(-1)` on coefficients -/
theorem coef_Bm (n k : Nat) (a b : ℝ) : (2 * n + a + b + 2) * (coef n (k + 1) a (b + 1) + coef n k a (b + 1)) =
    (n + b + 1) * coef n (k + 1) a b + (n + 1) * coef (n + 1) (k + 1) a b := by
  rcases Nat.lt_trichotomy k n with h | h | h
  · obtain ⟨m, rfl⟩ := Nat.exists_eq_add_of_lt h
    rw [show k + m + 1 + 1 = (k + 1) + (m + 1) by ring, coef_add, show k + m + 1 = (k + 1) + m by ring, coef_add, coef_add,
      show k + 1 + m = k + (m + 1) by ring, coef_add]
    have h1 : ((k + 1 : Nat) + (m + 1 : Nat) + a + b + 1 : ℝ) = k + m + a + b + 3 := by push_cast; ring
    have h2 : ((k + 1 : Nat) + m + a + b + 1 : ℝ) = k + m + a + b + 2 := by push_cast; ring
    have h3 : (k + (m + 1 : Nat) + a + (b + 1) + 1 : ℝ) = k + m + a + b + 3 := by push_cast; ring
    have h4 : (a + (k + 1 : Nat) + 1 : ℝ) = a + k + 2 := by push_cast; ring
    have h5 : ((k + 1 : Nat) + m + a + (b + 1) + 1 : ℝ) = k + m + a + b + 3 := by push_cast; ring
    rw [h1, h2, h3, h4, h5, poch_succ (k + m + a + b + 3) k, poch_succ' (k + m + a + b + 2) k, poch_succ (a + k + 2) m,
      poch_succ' (a + k + 1) m,
      Nat.factorial_succ k, Nat.factorial_succ m, show (k + m + a + b + 2 + 1 : ℝ) = k + m + a + b + 3 by ring,
      show (a + k + 1 + 1 : ℝ) = a + k + 2 by ring]
    generalize poch (k + m + a + b + 3) k = X
    generalize poch (a + k + 2) m = Y
    have := fac_ne k
    have := fac_ne m
    have : (k : ℝ) + 1 ≠ 0 := by positivity
    have : (m : ℝ) + 1 ≠ 0 := by positivity
    push_cast
    field_simp
    ring
  · subst h
    have e1 := coef_add (k + 1) 0 a b
    have e2 := coef_add k 0 a (b + 1)
    simp only [add_zero] at e1 e2
    rw [e1, e2, coef_lt k (k + 1) _ _ (by omega), coef_lt k (k + 1) _ _ (by omega), poch_zero, poch_zero, poch_succ,
      Nat.factorial_succ k]
    have h1 : ((k + 1 : Nat) + (0 : Nat) + a + b + 1 : ℝ) = k + a + b + 2 := by push_cast; ring
    have h3 : (k + (0 : Nat) + a + (b + 1) + 1 : ℝ) = k + a + b + 2 := by push_cast; ring
    rw [h1, h3]
    generalize poch (k + a + b + 2) k = X
    have := fac_ne k
    have : (k : ℝ) + 1 ≠ 0 := by positivity
    push_cast
    field_simp
    ring
  · rw [coef_lt n k _ _ h, coef_lt n _ _ _ (by omega), coef_lt n _ _ _ (by omega), coef_lt _ _ _ _ (by omega)]
    ring

theorem coef_Bm_zero (n : Nat) (a b : ℝ) : (2 * n + a + b + 2) * coef n 0 a (b + 1) =
    (n + b + 1) * coef n 0 a b + (n + 1) * coef (n + 1) 0 a b := by
  rw [coef_Am_zero, coef_zero, coef_zero]
  ring

/-! ## Classical polynomials -/

theorem P_Ap (n : Nat) (a b z : ℝ) : (2 * (n + 1 : Nat) + a + b + 1) * P (n + 1) a b z =
    ((n + 1 : Nat) + a + b + 1) * P (n + 1) (a + 1) b z - ((n + 1 : Nat) + b) * P n (a + 1) b z := by
  rw [P_ext (n + 1) (n + 2) a b z (by omega), P_ext (n + 1) (n + 2) (a + 1) b z (by omega), P_ext n (n + 2) (a + 1) b z (by omega),
    Finset.mul_sum, Finset.mul_sum, Finset.mul_sum, ← Finset.sum_sub_distrib]
  apply Finset.sum_congr rfl
  intro k _
  linear_combination ((z - 1) / 2) ^ k * coef_Ap n k a b

theorem P_Bp (n : Nat) (a b z : ℝ) : (2 * (n + 1 : Nat) + a + b + 1) * P (n + 1) a b z =
    ((n + 1 : Nat) + a + b + 1) * P (n + 1) a (b + 1) z + ((n + 1 : Nat) + a) * P n a (b + 1) z := by
  rw [P_ext (n + 1) (n + 2) a b z (by omega), P_ext (n + 1) (n + 2) a (b + 1) z (by omega), P_ext n (n + 2) a (b + 1) z (by omega),
    Finset.mul_sum, Finset.mul_sum, Finset.mul_sum, ← Finset.sum_add_distrib]
  apply Finset.sum_congr rfl
  intro k _
  linear_combination ((z - 1) / 2) ^ k * coef_Bp n k a b

theorem P_Am (n : Nat) (a b z : ℝ) : (2 * n + a + b + 2) * ((1 - z) * P n (a + 1) b z) =
    2 * (n + a + 1) * P n a b z - 2 * (n + 1) * P (n + 1) a b z := by
  rw [P_ext n (n + 1) (a + 1) b z (by omega), P_ext n (n + 2) a b z (by omega), P_ext (n + 1) (n + 2) a b z (by omega),
    Finset.sum_range_succ' _ (n + 1), Finset.sum_range_succ' _ (n + 1)]
  have h0 := coef_Am_zero n a b
  have : ∑ k ∈ Finset.range (n + 1), (2 * n + a + b + 2) * (coef n k (a + 1) b * ((z - 1) / 2) ^ (k + 1)) =
      ∑ k ∈ Finset.range (n + 1), ((n + 1) * (coef (n + 1) (k + 1) a b * ((z - 1) / 2) ^ (k + 1)) -
        (n + a + 1) * (coef n (k + 1) a b * ((z - 1) / 2) ^ (k + 1))) := by
    apply Finset.sum_congr rfl
    intro k _
    linear_combination ((z - 1) / 2) ^ (k + 1) * coef_Am n k a b
  rw [Finset.sum_sub_distrib, ← Finset.mul_sum, ← Finset.mul_sum, ← Finset.mul_sum] at this
  have e : ∑ k ∈ Finset.range (n + 1), coef n k (a + 1) b * ((z - 1) / 2) ^ (k + 1) =
      (z - 1) / 2 * ∑ k ∈ Finset.range (n + 1), coef n k (a + 1) b * ((z - 1) / 2) ^ k := by
    rw [Finset.mul_sum]
    apply Finset.sum_congr rfl
    intro k _
    ring
  rw [e] at this
  simp only [pow_zero]
  linear_combination (-2) * this + 2 * h0

theorem P_Bm (n : Nat) (a b z : ℝ) : (2 * n + a + b + 2) * ((1 + z) * P n a (b + 1) z) =
    2 * (n + b + 1) * P n a b z + 2 * (n + 1) * P (n + 1) a b z := by
  have q := P_ext n (n + 2) a (b + 1) z (by omega)
  rw [Finset.sum_range_succ' _ (n + 1)] at q
  have q' := P_ext n (n + 1) a (b + 1) z (by omega)
  rw [P_ext n (n + 2) a b z (by omega), P_ext (n + 1) (n + 2) a b z (by omega),
    Finset.sum_range_succ' _ (n + 1), Finset.sum_range_succ' _ (n + 1)]
  have h0 := coef_Bm_zero n a b
  have : ∑ k ∈ Finset.range (n + 1), (2 * n + a + b + 2) * (coef n (k + 1) a (b + 1) * ((z - 1) / 2) ^ (k + 1) +
        coef n k a (b + 1) * ((z - 1) / 2) ^ (k + 1)) =
      ∑ k ∈ Finset.range (n + 1), ((n + b + 1) * (coef n (k + 1) a b * ((z - 1) / 2) ^ (k + 1)) +
        (n + 1) * (coef (n + 1) (k + 1) a b * ((z - 1) / 2) ^ (k + 1))) := by
    apply Finset.sum_congr rfl
    intro k _
    linear_combination ((z - 1) / 2) ^ (k + 1) * coef_Bm n k a b
  rw [Finset.sum_add_distrib, ← Finset.mul_sum, ← Finset.mul_sum, ← Finset.mul_sum, Finset.sum_add_distrib] at this
  have e : ∑ k ∈ Finset.range (n + 1), coef n k a (b + 1) * ((z - 1) / 2) ^ (k + 1) = (z - 1) / 2 * P n a (b + 1) z := by
    rw [q', Finset.mul_sum]
    apply Finset.sum_congr rfl
    intro k _
    ring
  rw [e] at this
  simp only [pow_zero] at *
  linear_combination 2 * this + 2 * h0 + 2 * (2 * n + a + b + 2) * q

theorem P_zero (a b z : ℝ) : P 0 a b z = 1 := by
  simp [P, coef, poch_zero]

end Dedalus.Jacobi
