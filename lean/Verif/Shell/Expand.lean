import Verif.Shell.Lemmas

namespace Dedalus.Shell

open Jacobi Jacobi.Spec Spec
open Zernike (apply)

theorem rep_E_pow (rin rout a b : ℝ) (ha : -1 < a) (hb : -1 < b) (dk : Nat) :
    RepAt ((opE rin rout).pow dk) (fun z => (0.5 * (z + (rout + rin) / (rout - rin))) ^ dk) a b := by
  induction dk with
  | zero =>
    simp only [pow_zero]
    exact RepAt.one a b
  | succ d ih =>
    have hs := pow_shift (opE rin rout) d
    have hd : (0 : ℝ) ≤ d := Nat.cast_nonneg d
    have := RepAt.comp (L := opE rin rout) (R := (opE rin rout).pow d) (a := a) (b := b)
      (by rw [hs.1, hs.2, (E_shift rin rout).1, (E_shift rin rout).2.1]; exact rep_E rin rout _ _ (by linarith) (by linarith)) ih
    have e : (fun z : ℝ => (0.5 * (z + (rout + rin) / (rout - rin))) ^ (d + 1)) =
        fun z => 0.5 * (z + (rout + rin) / (rout - rin)) * (0.5 * (z + (rout + rin) / (rout - rin))) ^ d := by
      funext z; ring
    rw [e]
    exact this

theorem E_pow_rows (rin rout : ℝ) (dk n : Nat) : ((opE rin rout).pow dk).rows n = n + dk := by
  induction dk with
  | zero => rfl
  | succ d ih =>
    change (opE rin rout).rows (((opE rin rout).pow d).rows n) = _
    rw [ih, (E_shift rin rout).2.2]
    omega

/-- the conversion of polynomials -/
theorem E_expand (rin rout a b : ℝ) (ha : -1 < a) (hb : -1 < b) (dk n j : Nat) (hj : j < n) (z : ℝ) :
    (0.5 * (z + (rout + rin) / (rout - rin))) ^ dk * Q j a b z =
      ∑ i ∈ Finset.range (n + dk), ((opE rin rout).pow dk).entry n a b i j * Q i (a + dk) (b + dk) z := by
  have h := rep_E_pow rin rout a b ha hb dk n j z hj
  have hs := pow_shift (opE rin rout) dk
  rw [hs.1, hs.2, (E_shift rin rout).1, (E_shift rin rout).2.1, E_pow_rows, mul_one] at h
  exact h

/-- the matrices of different sizes agree, and have no entries `dk` below the diagonal -/
theorem E_far (rin rout a b : ℝ) (ha : -1 < a) (hb : -1 < b) (dk n i j : Nat) (hj : j < n) (hi : i < n + dk) (h : j + dk < i) :
    ((opE rin rout).pow dk).entry n a b i j = 0 := by
  have hd : (0 : ℝ) ≤ dk := Nat.cast_nonneg dk
  have := Q_unique (a + dk) (b + dk) (by linarith) (by linarith) (n + dk)
    (fun i => ((opE rin rout).pow dk).entry n a b i j - if i < j + 1 + dk then ((opE rin rout).pow dk).entry (j + 1) a b i j else 0) (fun z => by
      simp only [sub_mul, Finset.sum_sub_distrib, ite_mul, zero_mul]
      rw [← E_expand rin rout a b ha hb dk n j hj z, ← Finset.sum_filter]
      rw [show (Finset.range (n + dk)).filter (fun i => i < j + 1 + dk) = Finset.range (j + 1 + dk) by
        ext x; simp only [Finset.mem_filter, Finset.mem_range]; omega]
      rw [← E_expand rin rout a b ha hb dk (j + 1) j (by omega) z, sub_self]) i hi
  rw [if_neg (by omega), sub_zero] at this
  exact this

/-- the basis functions of order `k` in terms of those of order `k + dk` -/
theorem phi_expand (rin rout : ℝ) (hw : rout - rin ≠ 0) (alpha : ℝ × ℝ) (ha : -1 < alpha.1) (hb : -1 < alpha.2) (k dk n j : Nat) (hj : j < n) (r : ℝ) (hr : r ≠ 0) :
    phi rin rout alpha k j r =
      ∑ i ∈ Finset.range (n + dk), ((opE rin rout).pow dk).entry n (k + alpha.1) (k + alpha.2) i j * phi rin rout alpha (k + dk) i r := by
  have h := E_expand rin rout (k + alpha.1) (k + alpha.2) (alpha_gt _ k ha) (alpha_gt _ k hb) dk n j hj (native rin rout r)
  rw [native_rho rin rout r hw] at h
  unfold phi
  have e : ∀ x : ℝ, x + ((k + dk : Nat) : ℝ) = k + x + dk := by intro x; push_cast; ring
  rw [e, e]
  have e2 : ∑ i ∈ Finset.range (n + dk), ((opE rin rout).pow dk).entry n (k + alpha.1) (k + alpha.2) i j *
        (((rout - rin) / r) ^ (k + dk) * Q i (k + alpha.1 + dk) (k + alpha.2 + dk) (native rin rout r)) =
      ((rout - rin) / r) ^ (k + dk) * ∑ i ∈ Finset.range (n + dk), ((opE rin rout).pow dk).entry n (k + alpha.1) (k + alpha.2) i j *
        Q i (k + alpha.1 + dk) (k + alpha.2 + dk) (native rin rout r) := by
    rw [Finset.mul_sum]; apply Finset.sum_congr rfl; intro i _; ring
  rw [e2, ← h, add_comm alpha.1, add_comm alpha.2, pow_add, mul_assoc, ← mul_assoc (((rout - rin) / r) ^ dk), ← mul_pow]
  rw [show (rout - rin) / r * (0.5 * (2 * r / (rout - rin))) = 1 by field_simp; norm_num, one_pow, one_mul]

/-- the exact expansion, of `dk` more coefficients -/
theorem radial_expand (rin rout : ℝ) (hw : rout - rin ≠ 0) (alpha : ℝ × ℝ) (ha : -1 < alpha.1) (hb : -1 < alpha.2) (N k dk : Nat) (c : Nat → ℂ) (r : ℝ) (hr : r ≠ 0) :
    radial rin rout alpha (N + dk) (k + dk)
      (fun i => ∑ j ∈ Finset.range N, (((opE rin rout).pow dk).entry N (k + alpha.1) (k + alpha.2) i j : ℂ) * c j) r = radial rin rout alpha N k c r := by
  rw [radial_phi, radial_phi]
  simp only [Finset.mul_sum]
  rw [Finset.sum_comm]
  apply Finset.sum_congr rfl
  intro j hj
  rw [phi_expand rin rout hw alpha ha hb k dk N j (Finset.mem_range.1 hj) r hr, Complex.ofReal_sum, Finset.sum_mul]
  apply Finset.sum_congr rfl
  intro i _
  push_cast
  ring

/-- the subdiagonal entry that is dropped does not vanish -/
theorem E_last (rin rout a b : ℝ) (ha : -1 < a) (hb : -1 < b) (n : Nat) (hn : 0 < n) : ((opE rin rout).pow 1).entry n a b n (n - 1) ≠ 0 := by
  intro h0
  obtain ⟨m, rfl⟩ : ∃ m, n = m + 1 := ⟨n - 1, by omega⟩
  rw [Nat.add_sub_cancel] at h0
  set rho := (rout + rin) / (rout - rin)
  have h := fun z => E_expand rin rout a b ha hb 1 (m + 1) m (by omega) z
  simp only [Finset.sum_range_succ _ (m + 1), h0, zero_mul, add_zero, pow_one] at h
  have hZ := fun z => rep_Z a b ha hb (m + 1) m z (by omega)
  have hrow : opZ.rows (m + 1) = m + 1 + 1 := rfl
  have hda : opZ.da = 0 := rfl
  have hdb : opZ.db = 0 := rfl
  simp only [hrow, hda, hdb, add_zero] at hZ
  have hlow : opZ.entry (m + 1) a b (m + 1) m = offDiag a b m := opZ_lower _ _ _ m (by omega) ha hb
  -- convert everything to the parameters `a + 1`, `b + 1` with `m + 2` terms
  have hc := fun i z (hi : i < m + 2) => rep_conversion a b ha hb 1 1 (m + 2) i z hi
  have hu := Q_unique (a + (1 : Nat)) (b + (1 : Nat)) (by push_cast; linarith) (by push_cast; linarith) (m + 2)
    (fun i => (∑ l ∈ Finset.range (m + 2), (0.5 * (opZ.entry (m + 1) a b l m + if l = m then rho else 0)) * conversion (m + 2) a b 1 1 i l) -
      if i < m + 1 then ((opE rin rout).pow 1).entry (m + 1) a b i m else 0) (fun z => by
      simp only [sub_mul, Finset.sum_sub_distrib, ite_mul, zero_mul]
      rw [← Finset.sum_filter, show (Finset.range (m + 2)).filter (fun i => i < m + 1) = Finset.range (m + 1) by
        ext x; simp only [Finset.mem_filter, Finset.mem_range]; omega, ← h z]
      simp only [Finset.sum_mul]
      rw [Finset.sum_comm]
      have : ∀ l ∈ Finset.range (m + 2), ∑ i ∈ Finset.range (m + 2), 0.5 * (opZ.entry (m + 1) a b l m + if l = m then rho else 0) *
          conversion (m + 2) a b 1 1 i l * Q i (a + (1 : Nat)) (b + (1 : Nat)) z =
          0.5 * (opZ.entry (m + 1) a b l m * Q l a b z) + 0.5 * (if l = m then rho * Q l a b z else 0) := by
        intro l hl
        rw [hc l z (Finset.mem_range.1 hl)]
        simp only [mul_assoc, ← Finset.mul_sum]
        split <;> ring
      rw [Finset.sum_congr rfl this, Finset.sum_add_distrib, ← Finset.mul_sum, ← Finset.mul_sum, ← hZ z, Finset.sum_ite_eq' _ _ _,
        if_pos (Finset.mem_range.2 (by omega))]
      ring) (m + 1) (by omega)
  rw [if_neg (by omega), sub_zero, Finset.sum_range_succ, Finset.sum_eq_zero, zero_add, if_neg (by omega), add_zero, hlow] at hu
  · have h1 := (offDiag_pos a b m ha hb).ne'
    have h2 := (conversion_pos (m + 2) a b 1 1 (m + 1) ha hb (by omega)).ne'
    simp only [mul_eq_zero, h1, h2, or_false] at hu
    norm_num at hu
  · intro l hl
    rw [conversion_low (m + 2) a b 1 1 (m + 1) l ha hb (by have := Finset.mem_range.1 hl; omega) (Finset.mem_range.1 hl), mul_zero]

/-- powers of `AB` are the conversion matrices -/
theorem AB_pow (a b : ℝ) (ha : -1 < a) (hb : -1 < b) (k M i j : Nat) (hi : i < M) (hj : j < M) :
    (opAB.pow k).entry M a b i j = conversion M a b k k i j := by
  have hd : (0 : ℝ) ≤ k := Nat.cast_nonneg k
  have hr : RepAt (opAB.pow k) (fun _ => 1) a b := rep_pow opAB a b (fun d => by
    have : (0 : ℝ) ≤ d := Nat.cast_nonneg d
    rw [AB_shift.1, AB_shift.2.1]
    exact rep_AB _ _ (by linarith) (by linarith)) k
  have hs := pow_shift opAB k
  have := Q_unique (a + k) (b + k) (by linarith) (by linarith) M (fun i => (opAB.pow k).entry M a b i j - conversion M a b k k i j) (fun z => by
    simp only [sub_mul, Finset.sum_sub_distrib]
    have h := hr M j z hj
    rw [hs.1, hs.2, AB_shift.1, AB_shift.2.1, pow_rows _ AB_shift.2.2, mul_one, one_mul] at h
    rw [← h, ← rep_conversion a b ha hb k k M j z hj, sub_self]) i hi
  linarith

end Dedalus.Shell
