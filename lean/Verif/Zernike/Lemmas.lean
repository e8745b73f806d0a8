import Verif.Zernike.Model
import Verif.Zernike.Spec
import Verif.Sphere.Transform

namespace Dedalus.Zernike

open Jacobi Jacobi.Spec Spec

theorem b_nat (dim l : Nat) : bParam dim l = l + (dim : ℝ) / 2 - 1 := by simp [bParam]

theorem b_gt (dim l : Nat) (hd : 0 < dim) : -1 < (l : ℝ) + (dim : ℝ) / 2 - 1 := by
  have h1 : (0 : ℝ) ≤ l := Nat.cast_nonneg l
  have h2 : (0 : ℝ) < dim := by exact_mod_cast hd
  linarith

theorem two_pow_pos (x : ℝ) : 0 < (2 : ℝ) ^ x := Real.rpow_pos_of_pos (by norm_num) x

/-- the factor in front of the functions -/
noncomputable def cst (dim : Nat) (k : ℝ) (l : Nat) : ℝ := √((2 : ℝ) ^ (k + l + (dim : ℝ) / 2 + 1))

theorem cst_pos (dim : Nat) (k : ℝ) (l : Nat) : 0 < cst dim k l := Real.sqrt_pos.2 (two_pow_pos _)

theorem cst_sq (dim : Nat) (k : ℝ) (l : Nat) : cst dim k l * cst dim k l = (2 : ℝ) ^ (k + l + (dim : ℝ) / 2 + 1) :=
  Real.mul_self_sqrt (two_pow_pos _).le

theorem Z_eq (dim n : Nat) (k : ℝ) (l : Nat) (r : ℝ) :
    Z dim n k l r = cst dim k l * r ^ l * Q n k (l + (dim : ℝ) / 2 - 1) (2 * r ^ 2 - 1) := rfl

/-- `k -> k + 1` multiplies the factor by `√2` -/
theorem cst_k (dim : Nat) (k : ℝ) (l : Nat) : cst dim (k + 1) l = √2 * cst dim k l := by
  unfold cst
  rw [show k + 1 + (l : ℝ) + (dim : ℝ) / 2 + 1 = 1 + (k + l + (dim : ℝ) / 2 + 1) by ring, Real.rpow_add (by norm_num), Real.rpow_one,
    Real.sqrt_mul (by norm_num)]

theorem cst_l (dim : Nat) (k : ℝ) (l : Nat) : cst dim k (l + 1) = √2 * cst dim k l := by
  rw [← cst_k]
  unfold cst
  push_cast
  congr 2
  ring

theorem sqrt_two_sq : √2 * √2 = (2 : ℝ) := Real.mul_self_sqrt (by norm_num)

theorem sqrt_half : √(1 / 2 : ℝ) * √2 = 1 := by
  rw [← Real.sqrt_mul (by norm_num)]; norm_num

/-- the recursion of the code computes the functions -/
theorem polynomials_Z (dim n : Nat) (k : ℝ) (l : Nat) (r : ℝ) (hd : 0 < dim) (hk : -1 < k) (hr : 0 < r) (j : Nat) (hj : j ≤ n) :
    polynomials dim n k l (2 * r ^ 2 - 1) j = Z dim j k l r := by
  have hb := b_gt dim l hd
  have hm : 0 < mass k ((l : ℝ) + (dim : ℝ) / 2 - 1) := by rw [mass_norm]; exact norm2_pos 0 _ _ hk hb
  unfold polynomials
  simp only [b_nat]
  rw [Sphere.polynomialsInit_eq _ _ _ _ _ hm, polynomials_Q _ _ _ _ hk hb j hj, Z_eq]
  congr 1
  have e : (if (l : Int) ≠ 0 then (((l : Int) : ℝ)) * Real.log (1 + (2 * r ^ 2 - 1)) else 0) = l * Real.log (2 * r ^ 2) := by
    rw [show 1 + (2 * r ^ 2 - 1) = 2 * r ^ 2 by ring]
    split
    · simp
    · rename_i h; rw [not_not] at h
      have : l = 0 := by exact_mod_cast h
      simp [this]
  rw [e]
  have hpos : 0 < Real.exp ((1 / 2) * (l * Real.log (2 * r ^ 2) - (Real.log (mass k ((l : ℝ) + (dim : ℝ) / 2 - 1)) - Real.log 2 * (k + (dim : ℝ) / 2 + 1)))) *
      √(mass k ((l : ℝ) + (dim : ℝ) / 2 - 1)) := mul_pos (Real.exp_pos _) (Real.sqrt_pos.2 hm)
  have hc : 0 < cst dim k l * r ^ l := mul_pos (cst_pos _ _ _) (pow_pos hr l)
  rw [← mul_self_inj hpos.le hc.le, mul_mul_mul_comm, Real.mul_self_sqrt hm.le, ← Real.exp_add, ← two_mul, ← mul_assoc,
    show (2 : ℝ) * (1 / 2) = 1 by norm_num, one_mul, mul_mul_mul_comm, cst_sq, Real.exp_sub, Real.exp_sub, Real.exp_log hm, Real.exp_nat_mul,
    Real.exp_log (by positivity), mul_comm (Real.log 2), ← Real.log_rpow (by norm_num), Real.exp_log (two_pow_pos _), mul_pow,
    show k + (l : ℝ) + (dim : ℝ) / 2 + 1 = l + (k + (dim : ℝ) / 2 + 1) by ring, Real.rpow_add (by norm_num) (l : ℝ), Real.rpow_natCast]
  generalize mass k ((l : ℝ) + (dim : ℝ) / 2 - 1) = M at hm
  have hT := (two_pow_pos (k + (dim : ℝ) / 2 + 1)).ne'
  generalize (2 : ℝ) ^ (k + (dim : ℝ) / 2 + 1) = T at hT
  rw [← pow_mul, mul_comm 2 l, pow_mul]
  have := hm.ne'
  field_simp

/-- `C(+1)` on classical polynomials -/
theorem P_C (n : Nat) (a b z D : ℝ) (hb : 0 < b) (ha : -1 < a) (hD : HasDerivAt (fun x => P n a b x) D z) :
    b * P n a b z + (1 + z) * D = (n + b) * P n (a + 1) (b - 1) z := by
  rcases n with _ | n
  · have : D = 0 := hD.unique (by simpa only [P_zero] using hasDerivAt_const z (1 : ℝ))
    rw [this, P_zero, P_zero]; simp
  · have h1 : D = ((n + 1 : Nat) + a + b + 1) / 2 * P n (a + 1) (b + 1) z := hD.unique (P_deriv n a b z)
    have h2 := P_Bm n (a + 1) b z
    have h3 := P_Ap n a b z
    have h4 := P_Bp n (a + 1) (b - 1) z
    rw [show b - 1 + 1 = b by ring] at h4
    have hn : (0 : ℝ) ≤ n := Nat.cast_nonneg n
    push_cast at *
    have n1 : 2 * (n : ℝ) + a + 1 + b + 2 ≠ 0 := by linarith
    have n2 : 2 * ((n : ℝ) + 1) + a + b + 1 ≠ 0 := by linarith
    have n3 : 2 * ((n : ℝ) + 1) + (a + 1) + (b - 1) + 1 ≠ 0 := by linarith
    rw [h1]
    have : (2 * (n : ℝ) + a + b + 3) * (b * P (n + 1) a b z + (1 + z) * ((n + 1 + a + b + 1) / 2 * P n (a + 1) (b + 1) z)) =
        (2 * (n : ℝ) + a + b + 3) * ((n + 1 + b) * P (n + 1) (a + 1) (b - 1) z) := by
      linear_combination b * h3 + ((n : ℝ) + a + b + 2) / 2 * h2 - ((n : ℝ) + 1 + b) * h4
    exact mul_left_cancel₀ (by linarith : (2 * (n : ℝ) + a + b + 3) ≠ 0) this

theorem opC_diag (n : Nat) (a b : ℝ) (j : Nat) (ha : -1 < a) (hb : 0 < b) : opC.entry n a b j j =
    (j + b) * (√(norm2 j (a + 1) (b - 1)) / √(norm2 j a b)) := by
  simp only [opC, if_true]
  rw [normRatio_norm 0 1 (-1) j j a b ha (by linarith) (by simp) (by push_cast; linarith) (by push_cast; linarith)]
  push_cast
  rw [← sub_eq_add_neg]

/-- `C(+1)` on normalised polynomials -/
theorem Q_C (n N : Nat) (a b z D : ℝ) (hb : 0 < b) (ha : -1 < a) (hD : HasDerivAt (fun x => Q n a b x) D z) :
    b * Q n a b z + (1 + z) * D = opC.entry N a b n n * Q n (a + 1) (b - 1) z := by
  have s1 := (sq_pos n a b ha (by linarith)).ne'
  have s2 := (sq_pos n (a + 1) (b - 1) (by linarith) (by linarith)).ne'
  have hP : HasDerivAt (fun x => P n a b x) (D * √(norm2 n a b)) z := by
    refine (hD.mul_const (√(norm2 n a b))).congr_of_eventuallyEq (Filter.Eventually.of_forall fun x => ?_)
    simp only [Q]; field_simp
  have h := P_C n a b z _ hb ha hP
  rw [opC_diag N a b n ha hb]
  unfold Q
  field_simp
  linear_combination h

theorem Q_differentiable (n : Nat) (a b z : ℝ) (ha : -1 < a) (hb : -1 < b) : ∃ D, HasDerivAt (fun x => Q n a b x) D z :=
  ⟨_, Q_deriv a b ha hb (n + 1) n (by omega) z⟩

/-- derivative of the functions from that of the polynomials -/
theorem Z_deriv (dim n : Nat) (k : ℝ) (l : Nat) (radius r D : ℝ) (hR : radius ≠ 0)
    (hD : HasDerivAt (fun x => Q n k (l + (dim : ℝ) / 2 - 1) x) D (2 * (r / radius) ^ 2 - 1)) :
    HasDerivAt (fun x => Z dim n k l (x / radius))
      (cst dim k l * (l * (r / radius) ^ (l - 1) / radius * Q n k (l + (dim : ℝ) / 2 - 1) (2 * (r / radius) ^ 2 - 1) +
        (r / radius) ^ l * (4 * (r / radius) / radius * D))) r := by
  have h1 : HasDerivAt (fun x : ℝ => x / radius) (1 / radius) r := (hasDerivAt_id r).div_const radius
  have h2 : HasDerivAt (fun x : ℝ => 2 * (x / radius) ^ 2 - 1) (4 * (r / radius) / radius) r := by
    have := ((h1.pow 2).const_mul 2).sub_const 1
    refine this.congr_deriv ?_
    push_cast
    ring
  have h3 := hD.comp r h2
  have h4 := ((h1.pow l).const_mul (cst dim k l)).mul h3
  refine (h4.congr_deriv ?_).congr_of_eventuallyEq (Filter.Eventually.of_forall fun x => ?_)
  · simp only [Function.comp, Pi.pow_apply]
    ring
  · simp only [Z_eq, Pi.mul_apply, Pi.pow_apply, Function.comp]

theorem Z_D_plus (dim n N : Nat) (k : ℝ) (l : Nat) (radius r : ℝ) (hd : 0 < dim) (hk : -1 < k) (hR : radius ≠ 0) (hr : r ≠ 0) (hn : n < N) :
    HasDerivAt (fun x => Z dim n k l (x / radius))
      (l / r * Z dim n k l (r / radius) + ∑ i ∈ Finset.range N, square dim (zD radius 1) N k l i n * Z dim i (k + 1) (l + 1) (r / radius)) r := by
  have hb := b_gt dim l hd
  have hq := Q_deriv k _ hk hb N n hn (2 * (r / radius) ^ 2 - 1)
  refine (Z_deriv dim n k l radius r _ hR hq).congr_deriv ?_
  have e : ∀ i ∈ Finset.range N, square dim (zD radius 1) N k l i n * Z dim i (k + 1) (l + 1) (r / radius) =
      cst dim k l * (r / radius) ^ l * (4 * (r / radius) / radius) *
        (differentiationMatrix N k (l + (dim : ℝ) / 2 - 1) i n * Q i (k + 1) (l + (dim : ℝ) / 2 - 1 + 1) (2 * (r / radius) ^ 2 - 1)) := by
    intro i _
    rw [Z_eq, cst_l, cst_k]
    simp only [square, zD, smul, at_, b_nat, differentiationMatrix, opD, if_pos (show (1 : Int) > 0 by norm_num)]
    rw [show (((l + 1 : Nat) : ℝ) + (dim : ℝ) / 2 - 1) = l + (dim : ℝ) / 2 - 1 + 1 by push_cast; ring]
    split
    · rw [pow_succ]
      linear_combination (2 / radius * (if i + 1 = n then ((n : ℝ) + (k + (l + (dim : ℝ) / 2 - 1) + 1)) * (2 : ℝ)⁻¹ *
        normRatio (-1) 1 1 n k (l + (dim : ℝ) / 2 - 1) else 0) * cst dim k l * (r / radius) ^ l * (r / radius) *
        Q i (k + 1) (l + (dim : ℝ) / 2 - 1 + 1) (2 * (r / radius) ^ 2 - 1)) * sqrt_two_sq
    · simp
  rw [Finset.sum_congr rfl e, ← Finset.mul_sum, mul_add]
  congr 1
  · rw [Z_eq]
    rcases l with _ | l
    · simp
    · obtain ⟨x, rfl⟩ : ∃ x, r = x * radius := ⟨r / radius, by field_simp⟩
      have hx : x ≠ 0 := fun h => hr (by rw [h, zero_mul])
      rw [mul_div_cancel_right₀ x hR, Nat.add_sub_cancel, pow_succ]
      generalize Q n k _ _ = q
      field_simp
      ring
  · ring

theorem Z_D_minus (dim n N : Nat) (k : ℝ) (l : Nat) (radius r : ℝ) (hd : 2 ≤ dim) (hk : -1 < k) (hR : radius ≠ 0) (hr : r ≠ 0) (hn : n < N) :
    HasDerivAt (fun x => Z dim n k (l + 1) (x / radius))
      (-((l : ℝ) + dim - 1) / r * Z dim n k (l + 1) (r / radius) +
        ∑ i ∈ Finset.range N, square dim (zD radius (-1)) N k (l + 1 : Nat) i n * Z dim i (k + 1) l (r / radius)) r := by
  have hb : 0 < ((l + 1 : Nat) : ℝ) + (dim : ℝ) / 2 - 1 := by
    have h1 : (0 : ℝ) ≤ l := Nat.cast_nonneg l
    have h2 : (2 : ℝ) ≤ dim := by exact_mod_cast hd
    push_cast; linarith
  obtain ⟨D, hq⟩ := Q_differentiable n k _ (2 * (r / radius) ^ 2 - 1) hk (by linarith : -1 < ((l + 1 : Nat) : ℝ) + (dim : ℝ) / 2 - 1)
  refine (Z_deriv dim n k (l + 1) radius r _ hR hq).congr_deriv ?_
  have hC := Q_C n N _ _ _ _ hb hk hq
  rw [Finset.sum_eq_single n]
  · rw [Z_eq, Z_eq, cst_l, cst_k]
    simp only [square, zD, smul, at_, b_nat, if_neg (show ¬ (-1 : Int) > 0 by norm_num)]
    rw [if_pos (show n < opC.rows N from hn)]
    rw [show ((l + 1 : Nat) : ℝ) + (dim : ℝ) / 2 - 1 - 1 = l + (dim : ℝ) / 2 - 1 by push_cast; ring] at hC
    rw [Nat.add_sub_cancel, pow_succ _ l]
    generalize Q n k (((l + 1 : Nat) : ℝ) + (dim : ℝ) / 2 - 1) (2 * (r / radius) ^ 2 - 1) = q at hC ⊢
    generalize Q n (k + 1) ((l : ℝ) + (dim : ℝ) / 2 - 1) (2 * (r / radius) ^ 2 - 1) = q' at hC ⊢
    generalize opC.entry N k (((l + 1 : Nat) : ℝ) + (dim : ℝ) / 2 - 1) n n = e at hC ⊢
    generalize cst dim k l = c at hC ⊢
    have hw := sqrt_two_sq
    generalize √2 = w at hw ⊢
    clear hq hb
    push_cast at *
    obtain ⟨x, rfl⟩ : ∃ x, r = x * radius := ⟨r / radius, by field_simp⟩
    have hx : x ≠ 0 := fun h => hr (by rw [h, zero_mul])
    rw [mul_div_cancel_right₀ x hR] at *
    field_simp
    linear_combination (2 * w * c) * hC
  · intro i _ hi
    simp only [square, zD, smul, at_, b_nat, if_neg (show ¬ (-1 : Int) > 0 by norm_num)]
    simp [opC, hi]
  · intro h; exact absurd (Finset.mem_range.2 hn) h

end Dedalus.Zernike
