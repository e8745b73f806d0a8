import Verif.Jacobi.Gauss
import Verif.Sphere.Model
import Verif.Sphere.Spec

namespace Dedalus.Sphere

open Jacobi Jacobi.Spec

/-- the derivative of the classical polynomial -/
noncomputable def dP (n : Nat) (a b z : ℝ) : ℝ := if n = 0 then 0 else (n + a + b + 1) / 2 * P (n - 1) (a + 1) (b + 1) z

theorem dP_spec (n : Nat) (a b z : ℝ) : HasDerivAt (fun x => P n a b x) (dP n a b z) z := by
  rcases n with _ | n
  · simp only [P_zero, dP, if_true]
    exact hasDerivAt_const _ _
  · exact P_deriv n a b z

/-- `C(+1)` -/
theorem P_Cp (n : Nat) (a b z : ℝ) (ha : -1 < a) (hb : -1 < b) :
    (b + 1) * P n a (b + 1) z + (1 + z) * dP n a (b + 1) z = (n + b + 1) * P n (a + 1) b z := by
  rcases n with _ | n
  · simp [dP, P_zero]
  · have h1 := P_Ap n a (b + 1) z
    have h2 := P_Bp n (a + 1) b z
    have h3 := P_Bm n (a + 1) (b + 1) z
    have hD : (2 * (n : ℝ) + a + b + 4) ≠ 0 := by
      have : (0 : ℝ) ≤ n := Nat.cast_nonneg n
      linarith
    simp only [dP, Nat.add_eq_zero_iff, one_ne_zero, and_false, if_false, Nat.add_sub_cancel]
    apply mul_left_cancel₀ hD
    push_cast at *
    linear_combination (b + 1) * h1 - (n + b + 2) * h2 + (n + 1 + a + (b + 1) + 1) / 2 * h3

/-- `C(-1)` -/
theorem P_Cm (n : Nat) (a b z : ℝ) (ha : -1 < a) (hb : -1 < b) :
    (a + 1) * P n (a + 1) b z - (1 - z) * dP n (a + 1) b z = (n + a + 1) * P n a (b + 1) z := by
  rcases n with _ | n
  · simp [dP, P_zero]
  · have h1 := P_Bp n (a + 1) b z
    have h2 := P_Ap n a (b + 1) z
    have h3 := P_Am n (a + 1) (b + 1) z
    have hD : (2 * (n : ℝ) + a + b + 4) ≠ 0 := by
      have : (0 : ℝ) ≤ n := Nat.cast_nonneg n
      linarith
    simp only [dP, Nat.add_eq_zero_iff, one_ne_zero, and_false, if_false, Nat.add_sub_cancel]
    apply mul_left_cancel₀ hD
    push_cast at *
    linear_combination (a + 1) * h1 - (n + a + 2) * h2 - (n + 1 + (a + 1) + b + 1) / 2 * h3

/-- `D(-1)` -/
theorem P_Dm (n : Nat) (a b z : ℝ) (ha : -1 < a) (hb : -1 < b) :
    ((a + 1) * (1 + z) - (b + 1) * (1 - z)) * P n (a + 1) (b + 1) z - (1 - z) * (1 + z) * dP n (a + 1) (b + 1) z =
      2 * (n + 1) * P (n + 1) a b z := by
  have h0 := P_Cp n (a + 1) b z (by linarith) hb
  have h1 := P_Bm n (a + 1) b z
  have h2 := P_Am n (a + 1) b z
  have h3 := P_Ap n a b z
  have hD : (2 * (n : ℝ) + a + b + 3) ≠ 0 := by
    have : (0 : ℝ) ≤ n := Nat.cast_nonneg n
    linarith
  apply mul_left_cancel₀ hD
  push_cast at *
  linear_combination (-(2 * (n : ℝ) + a + b + 3) * (1 - z)) * h0 + (a + 1) * h1 - (n + b + 1) * h2 - 2 * (n + 1) * h3

/-! ## Norms -/

theorem norm2_C (n : Nat) (a b : ℝ) (ha : -1 < a) (hb : -1 < b) :
    norm2 n (a + 1) b * (n + b + 1) = norm2 n a (b + 1) * (n + a + 1) := by
  have hn : (0 : ℝ) ≤ n := Nat.cast_nonneg n
  have h1 := abRatioOne_norm n a b ha hb
  have h2 := abRatioOne_norm n b a hb ha
  rw [norm2_symm n (b + 1) a, norm2_symm n b a] at h2
  have p := (norm2_pos n a b ha hb).ne'
  rw [eq_div_iff p] at h1 h2
  rw [← h1, ← h2]
  unfold abRatioOne
  rw [tricky_weight n a b ha hb, tricky_weight n b a hb ha, weight_symm n b a, show 2 * ((n : Int) : ℝ) + b + a + 2 = 2 * (n : Int) + a + b + 2 by ring]
  push_cast
  ring

theorem norm2_D (n : Nat) (a b : ℝ) (ha : -1 < a) (hb : -1 < b) :
    norm2 n (a + 1) (b + 1) * (n + a + b + 2) = 4 * (n + 1) * norm2 (n + 1) a b := by
  have hn : (0 : ℝ) ≤ n := Nat.cast_nonneg n
  have h1 := abRatioOne_norm n a b ha hb
  have h2 := abRatioOne_norm n b (a + 1) hb (by linarith)
  have h3 := nRatioOne_norm n a b ha hb
  rw [norm2_symm n (b + 1) (a + 1), norm2_symm n b (a + 1)] at h2
  have p := (norm2_pos n a b ha hb).ne'
  have p' := (norm2_pos n (a + 1) b (by linarith) hb).ne'
  rw [eq_div_iff p] at h1 h3
  rw [eq_div_iff p'] at h2
  rw [← h2, ← h1, ← h3]
  unfold abRatioOne nRatioOne
  rw [tricky_weight n a b ha hb, tricky_weight n b (a + 1) hb (by linarith)]
  have hw : weight n b (a + 1) = (2 * n + a + b + 2) / (n + a + b + 2) := by
    unfold weight
    split
    · rename_i h
      subst h
      rw [eq_div_iff (by push_cast; linarith)]
      push_cast
      ring
    · congr 1 <;> ring
  rw [hw]
  have q1 : (2 * (n : ℝ) + a + b + 2) ≠ 0 := by linarith
  have q2 : ((n : ℝ) + a + b + 2) ≠ 0 := by linarith
  have q3 : (2 * (n : ℝ) + b + (a + 1) + 2) ≠ 0 := by linarith
  have q4 : (2 * (n : ℝ) + a + b + 3) ≠ 0 := by linarith
  have q5 : ((n : ℝ) + 1) ≠ 0 := by linarith
  push_cast
  field_simp
  ring

/-! ## Normalised polynomials -/

noncomputable def dQ (n : Nat) (a b z : ℝ) : ℝ := dP n a b z / √(norm2 n a b)

theorem dQ_spec (n : Nat) (a b z : ℝ) : HasDerivAt (fun x => Q n a b x) (dQ n a b z) z := (dP_spec n a b z).div_const _

/-- `x / √u = √(y) (t / √v)` from an identity without roots -/
theorem root_ratio (c d u v : ℝ) (hu : 0 < u) (hv : 0 < v) (hc : 0 ≤ c) (h : c ^ 2 * v = d * u) (hd : 0 ≤ d) : c / √u = √d / √v := by
  rw [div_eq_div_iff (Real.sqrt_pos.2 hu).ne' (Real.sqrt_pos.2 hv).ne', ← Real.sqrt_mul hd, ← h, Real.sqrt_mul (by positivity), Real.sqrt_sq hc]

theorem Q_Cp (n : Nat) (a b z : ℝ) (ha : -1 < a) (hb : -1 < b) :
    (b + 1) * Q n a (b + 1) z + (1 + z) * dQ n a (b + 1) z = √((n + b + 1) * (n + a + 1)) * Q n (a + 1) b z := by
  have hn : (0 : ℝ) ≤ n := Nat.cast_nonneg n
  have h := P_Cp n a b z ha hb
  have hr := root_ratio (n + b + 1) ((n + b + 1) * (n + a + 1)) (norm2 n a (b + 1)) (norm2 n (a + 1) b)
    (norm2_pos _ _ _ ha (by linarith)) (norm2_pos _ _ _ (by linarith) hb) (by linarith)
    (by linear_combination (n + b + 1) * norm2_C n a b ha hb) (mul_nonneg (by linarith) (by linarith))
  calc (b + 1) * Q n a (b + 1) z + (1 + z) * dQ n a (b + 1) z
      = ((b + 1) * P n a (b + 1) z + (1 + z) * dP n a (b + 1) z) / √(norm2 n a (b + 1)) := by rw [Q, dQ]; ring
    _ = (n + b + 1) / √(norm2 n a (b + 1)) * P n (a + 1) b z := by rw [h]; ring
    _ = _ := by rw [hr, Q]; ring

theorem Q_Cm (n : Nat) (a b z : ℝ) (ha : -1 < a) (hb : -1 < b) :
    (a + 1) * Q n (a + 1) b z - (1 - z) * dQ n (a + 1) b z = √((n + a + 1) * (n + b + 1)) * Q n a (b + 1) z := by
  have hn : (0 : ℝ) ≤ n := Nat.cast_nonneg n
  have h := P_Cm n a b z ha hb
  have hr := root_ratio (n + a + 1) ((n + a + 1) * (n + b + 1)) (norm2 n (a + 1) b) (norm2 n a (b + 1))
    (norm2_pos _ _ _ (by linarith) hb) (norm2_pos _ _ _ ha (by linarith)) (by linarith)
    (by linear_combination (-(n + a + 1)) * norm2_C n a b ha hb) (mul_nonneg (by linarith) (by linarith))
  calc (a + 1) * Q n (a + 1) b z - (1 - z) * dQ n (a + 1) b z
      = ((a + 1) * P n (a + 1) b z - (1 - z) * dP n (a + 1) b z) / √(norm2 n (a + 1) b) := by rw [Q, dQ]; ring
    _ = (n + a + 1) / √(norm2 n (a + 1) b) * P n a (b + 1) z := by rw [h]; ring
    _ = _ := by rw [hr, Q]; ring

theorem Q_Dp (n : Nat) (a b z : ℝ) (ha : -1 < a) (hb : -1 < b) :
    dQ (n + 1) a b z = √((n + 1) * (n + a + b + 2)) * Q n (a + 1) (b + 1) z := by
  have hn : (0 : ℝ) ≤ n := Nat.cast_nonneg n
  have hr := root_ratio ((n + a + b + 2) / 2) ((n + 1) * (n + a + b + 2)) (norm2 (n + 1) a b) (norm2 n (a + 1) (b + 1))
    (norm2_pos _ _ _ ha hb) (norm2_pos _ _ _ (by linarith) (by linarith)) (by linarith)
    (by linear_combination ((n + a + b + 2) / 4) * norm2_D n a b ha hb) (mul_nonneg (by linarith) (by linarith))
  rw [dQ, dP, if_neg (by omega), Nat.add_sub_cancel, Q]
  push_cast
  calc ((n : ℝ) + 1 + a + b + 1) / 2 * P n (a + 1) (b + 1) z / √(norm2 (n + 1) a b)
      = (n + a + b + 2) / 2 / √(norm2 (n + 1) a b) * P n (a + 1) (b + 1) z := by ring
    _ = _ := by rw [hr]; ring

theorem dQ_zero (a b z : ℝ) : dQ 0 a b z = 0 := by simp [dQ, dP]

theorem Q_Dm (n : Nat) (a b z : ℝ) (ha : -1 < a) (hb : -1 < b) :
    ((a + 1) * (1 + z) - (b + 1) * (1 - z)) * Q n (a + 1) (b + 1) z - (1 - z) * (1 + z) * dQ n (a + 1) (b + 1) z =
      √((n + 1) * (n + a + b + 2)) * Q (n + 1) a b z := by
  have hn : (0 : ℝ) ≤ n := Nat.cast_nonneg n
  have h := P_Dm n a b z ha hb
  have hr := root_ratio (2 * (n + 1)) ((n + 1) * (n + a + b + 2)) (norm2 n (a + 1) (b + 1)) (norm2 (n + 1) a b)
    (norm2_pos _ _ _ (by linarith) (by linarith)) (norm2_pos _ _ _ ha hb) (by linarith)
    (by linear_combination (-(n + 1)) * norm2_D n a b ha hb) (mul_nonneg (by linarith) (by linarith))
  calc ((a + 1) * (1 + z) - (b + 1) * (1 - z)) * Q n (a + 1) (b + 1) z - (1 - z) * (1 + z) * dQ n (a + 1) (b + 1) z
      = (((a + 1) * (1 + z) - (b + 1) * (1 - z)) * P n (a + 1) (b + 1) z - (1 - z) * (1 + z) * dP n (a + 1) (b + 1) z) / √(norm2 n (a + 1) (b + 1)) := by rw [Q, dQ]; ring
    _ = 2 * (n + 1) / √(norm2 n (a + 1) (b + 1)) * P (n + 1) a b z := by rw [h]; ring
    _ = _ := by rw [hr, Q]; ring

end Dedalus.Sphere
