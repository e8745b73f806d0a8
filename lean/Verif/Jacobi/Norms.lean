import Verif.Jacobi.Lemmas

namespace Dedalus.Jacobi

open Spec

theorem tricky_weight (n : Nat) (a b : ℝ) (ha : -1 < a) (hb : -1 < b) : tricky n a b = weight n a b := by
  unfold tricky weight
  rcases Nat.eq_zero_or_pos n with rfl | h
  · by_cases hab : a + b = -1
    · simp [hab]; norm_num
    · have : a + b + 1 ≠ 0 := fun h => hab (by linarith)
      simp [hab, this]
  · have hn : (1 : ℝ) ≤ n := by exact_mod_cast h
    have hn0 : n ≠ 0 := by omega
    by_cases hab : a + b = -1
    · have : (n : ℝ) ≠ 0 := by positivity
      simp only [hab, ne_eq, not_true_eq_false, if_false, hn0, Nat.cast_eq_zero, Int.natCast_eq_zero]
      rw [show (2 * (n : ℝ) + a + b + 1) = 2 * n by linarith, show ((n : ℝ) + a + b + 1) = n by linarith]
      field_simp
      ring
    · simp [hab, hn0]

theorem weight_pos (n : Nat) (a b : ℝ) (ha : -1 < a) (hb : -1 < b) : 0 < weight n a b := by
  unfold weight
  split
  · norm_num
  · rename_i h
    have hn : (1 : ℝ) ≤ n := by exact_mod_cast Nat.one_le_iff_ne_zero.2 h
    apply div_pos <;> linarith

theorem weight_symm (n : Nat) (a b : ℝ) : weight n a b = weight n b a := by
  unfold weight
  rw [show (2 * (n : ℝ) + a + b + 1) = 2 * n + b + a + 1 by ring, show ((n : ℝ) + a + b + 1) = n + b + a + 1 by ring]

theorem norm2_symm (n : Nat) (a b : ℝ) : norm2 n a b = norm2 n b a := by
  unfold norm2
  rw [weight_symm, show a + b + 1 = b + a + 1 by ring, show (n : ℝ) + a + b + 2 = n + b + a + 2 by ring,
    mul_comm (Real.Gamma (n + a + 1))]

theorem norm2_pos (n : Nat) (a b : ℝ) (ha : -1 < a) (hb : -1 < b) : 0 < norm2 n a b := by
  have hn : (0 : ℝ) ≤ n := Nat.cast_nonneg n
  unfold norm2
  have h1 : 0 < Real.Gamma (n + a + 1) := Real.Gamma_pos_of_pos (by linarith)
  have h2 : 0 < Real.Gamma (n + b + 1) := Real.Gamma_pos_of_pos (by linarith)
  have h3 : 0 < Real.Gamma (n + a + b + 2) := Real.Gamma_pos_of_pos (by linarith)
  have h4 := weight_pos n a b ha hb
  have h5 : (0 : ℝ) < (2 : ℝ) ^ (a + b + 1) := Real.rpow_pos_of_pos (by norm_num) _
  have : (0 : ℝ) < n.factorial := by exact_mod_cast n.factorial_pos
  positivity

/-- raising the degree -/
theorem nRatioOne_norm (n : Nat) (a b : ℝ) (ha : -1 < a) (hb : -1 < b) :
    nRatioOne n a b = norm2 (n + 1) a b / norm2 n a b := by
  have hn : (0 : ℝ) ≤ n := Nat.cast_nonneg n
  unfold nRatioOne
  rw [tricky_weight n a b ha hb]
  unfold norm2
  have w1 : weight (n + 1) a b = (2 * n + a + b + 3) / (n + a + b + 2) := by
    simp only [weight, Nat.add_eq_zero_iff, one_ne_zero, and_false, if_false]
    push_cast
    congr 1 <;> ring
  have w0 := (weight_pos n a b ha hb).ne'
  have p1 : (n : ℝ) + a + 1 ≠ 0 := by linarith
  have p2 : (n : ℝ) + b + 1 ≠ 0 := by linarith
  have p3 : (n : ℝ) + a + b + 2 ≠ 0 := by linarith
  have p4 : 2 * (n : ℝ) + a + b + 3 ≠ 0 := by linarith
  have p5 : (n : ℝ) + 1 ≠ 0 := by linarith
  have g1 : Real.Gamma (((n + 1 : Nat) : ℝ) + a + 1) = (n + a + 1) * Real.Gamma (n + a + 1) := by
    rw [← Real.Gamma_add_one p1]; congr 1; push_cast; ring
  have g2 : Real.Gamma (((n + 1 : Nat) : ℝ) + b + 1) = (n + b + 1) * Real.Gamma (n + b + 1) := by
    rw [← Real.Gamma_add_one p2]; congr 1; push_cast; ring
  have g3 : Real.Gamma (((n + 1 : Nat) : ℝ) + a + b + 2) = (n + a + b + 2) * Real.Gamma (n + a + b + 2) := by
    rw [← Real.Gamma_add_one p3]; congr 1; push_cast; ring
  rw [g1, g2, g3, w1, Nat.factorial_succ]
  have h1 : Real.Gamma (n + a + 1) ≠ 0 := (Real.Gamma_pos_of_pos (by linarith)).ne'
  have h2 : Real.Gamma (n + b + 1) ≠ 0 := (Real.Gamma_pos_of_pos (by linarith)).ne'
  have h3 : Real.Gamma (n + a + b + 2) ≠ 0 := (Real.Gamma_pos_of_pos (by linarith)).ne'
  have h5 : (2 : ℝ) ^ (a + b + 1) ≠ 0 := (Real.rpow_pos_of_pos (by norm_num) _).ne'
  have := fac_ne n
  generalize Real.Gamma (n + a + 1) = A at *
  generalize Real.Gamma (n + b + 1) = B at *
  generalize Real.Gamma (n + a + b + 2) = C at *
  generalize (2 : ℝ) ^ (a + b + 1) = E at *
  generalize weight n a b = W at *
  push_cast
  field_simp

/-- raising the first parameter -/
theorem abRatioOne_norm (n : Nat) (a b : ℝ) (ha : -1 < a) (hb : -1 < b) :
    abRatioOne n a b = norm2 n (a + 1) b / norm2 n a b := by
  have hn : (0 : ℝ) ≤ n := Nat.cast_nonneg n
  unfold abRatioOne
  rw [tricky_weight n a b ha hb]
  unfold norm2
  have p1 : (n : ℝ) + a + 1 ≠ 0 := by linarith
  have p3 : (n : ℝ) + a + b + 2 ≠ 0 := by linarith
  have p4 : 2 * (n : ℝ) + a + b + 2 ≠ 0 := by linarith
  have w1 : weight n (a + 1) b = (2 * n + a + b + 2) / (n + a + b + 2) := by
    unfold weight
    split
    · rename_i h
      subst h
      rw [eq_div_iff p3]
      simp
    · congr 1 <;> ring
  have w0 := (weight_pos n a b ha hb).ne'
  have g1 : Real.Gamma ((n : ℝ) + (a + 1) + 1) = (n + a + 1) * Real.Gamma (n + a + 1) := by
    rw [← Real.Gamma_add_one p1]; congr 1; ring
  have g3 : Real.Gamma ((n : ℝ) + (a + 1) + b + 2) = (n + a + b + 2) * Real.Gamma (n + a + b + 2) := by
    rw [← Real.Gamma_add_one p3]; congr 1; ring
  have e : (2 : ℝ) ^ (a + 1 + b + 1) = 2 ^ (a + b + 1) * 2 := by
    rw [show a + 1 + b + 1 = a + b + 1 + 1 by ring, Real.rpow_add_one (by norm_num)]
  rw [g1, g3, w1, e]
  have h1 : Real.Gamma (n + a + 1) ≠ 0 := (Real.Gamma_pos_of_pos (by linarith)).ne'
  have h2 : Real.Gamma (n + b + 1) ≠ 0 := (Real.Gamma_pos_of_pos (by linarith)).ne'
  have h3 : Real.Gamma (n + a + b + 2) ≠ 0 := (Real.Gamma_pos_of_pos (by linarith)).ne'
  have h5 : (2 : ℝ) ^ (a + b + 1) ≠ 0 := (Real.rpow_pos_of_pos (by norm_num) _).ne'
  have := fac_ne n
  generalize Real.Gamma (n + a + 1) = A at *
  generalize Real.Gamma (n + b + 1) = B at *
  generalize Real.Gamma (n + a + b + 2) = C at *
  generalize (2 : ℝ) ^ (a + b + 1) = E at *
  generalize weight n a b = W at *
  push_cast
  field_simp

theorem nRatioNat_norm (d n : Nat) (a b : ℝ) (ha : -1 < a) (hb : -1 < b) :
    nRatioNat d n a b = norm2 (n + d) a b / norm2 n a b := by
  have h0 := (norm2_pos n a b ha hb).ne'
  induction d with
  | zero => rw [nRatioNat, Nat.add_zero, div_self h0]
  | succ d ih =>
    have := (norm2_pos (n + d) a b ha hb).ne'
    rw [nRatioNat, ih, show (n : Int) + ((d : Int) + 1) - 1 = ((n + d : Nat) : Int) by push_cast; ring, nRatioOne_norm _ _ _ ha hb]
    rw [show n + (d + 1) = n + d + 1 by ring]
    field_simp

theorem abRatioNat_norm (d n : Nat) (a b : ℝ) (ha : -1 < a) (hb : -1 < b) :
    abRatioNat d n a b = norm2 n (a + d) b / norm2 n a b := by
  have h0 := (norm2_pos n a b ha hb).ne'
  induction d with
  | zero => rw [abRatioNat, Nat.cast_zero, add_zero, div_self h0]
  | succ d ih =>
    have hd : (0 : ℝ) ≤ d := Nat.cast_nonneg d
    have := (norm2_pos n (a + d) b (by linarith) hb).ne'
    rw [abRatioNat, ih, show a + ((d : ℝ) + 1) - 1 = a + d by ring, abRatioOne_norm _ _ _ (by linarith) hb]
    rw [show a + ((d + 1 : Nat) : ℝ) = a + d + 1 by push_cast; ring]
    field_simp

theorem nRatio_norm (d : Int) (n m : Nat) (a b : ℝ) (ha : -1 < a) (hb : -1 < b) (h : (m : Int) = n + d) :
    nRatio d n a b = norm2 m a b / norm2 n a b := by
  unfold nRatio
  split
  · rename_i hd
    rw [← h, nRatioNat_norm _ _ _ _ ha hb, show m + (-d).toNat = n by omega, one_div_div]
  · rename_i hd
    rw [nRatioNat_norm _ _ _ _ ha hb, show n + d.toNat = m by omega]

theorem abRatio_norm (d : Int) (n : Nat) (a b : ℝ) (ha : -1 < a) (hb : -1 < b) (h : -1 < a + d) :
    abRatio d n a b = norm2 n (a + d) b / norm2 n a b := by
  unfold abRatio
  split
  · rename_i hd
    obtain ⟨k, hk⟩ := Int.eq_ofNat_of_zero_le (show 0 ≤ -d by omega)
    have hk' : (-d).toNat = k := by omega
    have hd' : (d : ℝ) = -(k : ℝ) := by
      have : d = -(k : Int) := by omega
      rw [this]; push_cast; ring
    rw [abRatioNat_norm _ _ _ _ h hb, hk', show a + (d : ℝ) + (k : ℝ) = a by rw [hd']; ring, one_div_div]
  · rename_i hd
    obtain ⟨k, hk⟩ := Int.eq_ofNat_of_zero_le (show 0 ≤ d by omega)
    rw [abRatioNat_norm _ _ _ _ ha hb, hk]
    simp

theorem normRatio_norm (dn da db : Int) (n m : Nat) (a b : ℝ) (ha : -1 < a) (hb : -1 < b) (h : (m : Int) = n + dn)
    (ha' : -1 < a + da) (hb' : -1 < b + db) :
    normRatio dn da db n a b = √(norm2 m (a + da) (b + db)) / √(norm2 n a b) := by
  unfold normRatio
  rw [nRatio_norm dn n m _ _ ha' hb' h, abRatio_norm da n a (b + db) ha hb' ha', abRatio_norm db n b a hb ha hb',
    ← Real.sqrt_div (norm2_pos m _ _ ha' hb').le, norm2_symm n (b + db) a, norm2_symm n b a]
  congr 1
  have h1 := (norm2_pos n _ _ ha' hb').ne'
  have h2 := (norm2_pos n _ _ ha hb').ne'
  have h3 := (norm2_pos n _ _ ha hb).ne'
  field_simp

theorem mass_norm (a b : ℝ) : mass a b = norm2 0 a b := by
  unfold mass norm2
  simp only [weight, if_true, Nat.cast_zero, zero_add, Nat.factorial_zero, Nat.cast_one, mul_one, one_mul]
  rw [show a + 1 + (b + 1) = a + b + 2 by ring]
  ring

theorem sq_pos (n : Nat) (a b : ℝ) (ha : -1 < a) (hb : -1 < b) : 0 < √(norm2 n a b) := Real.sqrt_pos.2 (norm2_pos n a b ha hb)

end Dedalus.Jacobi
