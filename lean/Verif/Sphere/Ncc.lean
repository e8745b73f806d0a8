import Verif.Sphere.Sine
import Verif.Jacobi.Ncc
import Mathlib.Analysis.RCLike.Basic

namespace Dedalus.Sphere

open Jacobi Jacobi.Spec Spec

theorem trunc_rec_zero (M : Nat) (aN bN a b : ℝ) (haN : -1 < aN) (hbN : -1 < bN) (h : 1 < M) :
    jacobiMatrix M aN bN 0 0 • trunc M aN bN a b 0 + jacobiMatrix M aN bN 0 1 • trunc M aN bN a b 1 = XM M a b * trunc M aN bN a b 0 := by
  have hp := (offDiag_pos aN bN 0 haN hbN).ne'
  rw [jacobiMatrix_upper M aN bN 0 h haN hbN, show jacobiMatrix M aN bN 0 0 = diagZ aN bN 0 from opZ_diag _ _ _ _ (by omega)]
  have e1 : offDiag aN bN 0 • trunc M aN bN a b 1 = XM M a b * trunc M aN bN a b 0 - diagZ aN bN 0 • trunc M aN bN a b 0 := by
    rw [trunc.eq_2, smul_smul, mul_inv_cancel₀ hp, one_smul, trunc.eq_1]
  rw [e1]
  exact add_sub_cancel _ _

theorem trunc_rec (M : Nat) (aN bN a b : ℝ) (haN : -1 < aN) (hbN : -1 < bN) (n : Nat) (h : n + 2 < M) :
    jacobiMatrix M aN bN (n + 1) n • trunc M aN bN a b n + jacobiMatrix M aN bN (n + 1) (n + 1) • trunc M aN bN a b (n + 1) +
      jacobiMatrix M aN bN (n + 1) (n + 2) • trunc M aN bN a b (n + 2) = XM M a b * trunc M aN bN a b (n + 1) := by
  have hp := (offDiag_pos aN bN (n + 1) haN hbN).ne'
  rw [jacobiMatrix_upper M aN bN (n + 1) h haN hbN, show jacobiMatrix M aN bN (n + 1) (n + 1) = diagZ aN bN (n + 1) from opZ_diag _ _ _ _ (by omega),
    show jacobiMatrix M aN bN (n + 1) n = offDiag aN bN n from opZ_lower _ _ _ _ (by omega) haN hbN]
  rw [trunc.eq_3, smul_smul, mul_inv_cancel₀ hp, one_smul]
  abel

variable {K : Type} [RCLike K]

theorem map_smul_real (M : Nat) (r : ℝ) (A : Matrix (Fin M) (Fin M) ℝ) :
    (algebraMap ℝ K).mapMatrix (r • A) = (algebraMap ℝ K r) • (algebraMap ℝ K).mapMatrix A := by
  ext i j
  simp [RingHom.mapMatrix_apply, Matrix.map_apply]

theorem cos_jacobi (M : Nat) (m s : Int) (i j : Nat) :
    operatorCos ((M : Int) - 1 + max |m| |s|) m s i j = jacobiMatrix M (m + s).natAbs (m - s).natAbs i j := by
  unfold operatorCos spin2Jacobi jacobiMatrix
  simp only [Int.abs_eq_natAbs, Int.cast_natCast]
  congr 1
  omega

/-- Clenshaw summation for real or complex coefficients -/
theorem nccClenshaw_sum (M : Nat) (aN bN : ℝ) (m s : Int) (haN : -1 < aN) (hbN : -1 < bN) (c : List K) (cutoff : ℝ) (hc : c.length ≤ M) :
    nccClenshaw M aN bN m s c cutoff = (c.zipIdx.map fun p => if ‖p.1‖ > cutoff then
      p.1 • (algebraMap ℝ K).mapMatrix (trunc M aN bN (m + s).natAbs (m - s).natAbs p.2) else 0).sum := by
  unfold nccClenshaw
  simp only [cos_jacobi]
  have hX : (fun i j : Fin M => ((jacobiMatrix M (m + s).natAbs (m - s).natAbs i j : ℝ) : K)) =
      (algebraMap ℝ K).mapMatrix (XM M (m + s).natAbs (m - s).natAbs) := by
    ext i j
    simp [RingHom.mapMatrix_apply, XM]
  have f0 : ((polynomials 1 aN bN 1 0 : ℝ) : K) • (1 : Matrix (Fin M) (Fin M) K) =
      (algebraMap ℝ K).mapMatrix (trunc M aN bN (m + s).natAbs (m - s).natAbs 0) := by
    rw [trunc, polynomials_Q 1 aN bN 1 haN hbN 0 (by omega), map_smul_real, map_one, RCLike.algebraMap_eq_ofReal]
  rw [f0, hX]
  refine Clenshaw.jacobi_clenshaw_sum (fun x : K => ‖x‖) cutoff M (fun i j => ((jacobiMatrix M aN bN i j : ℝ) : K)) _
    (fun n => (algebraMap ℝ K).mapMatrix (trunc M aN bN (m + s).natAbs (m - s).natAbs n)) c hc ?_ ?_ ?_ ?_
  · intro n h
    rw [jacobiMatrix_upper M aN bN n h haN hbN]
    have := (offDiag_pos aN bN n haN hbN).ne'
    simpa using this
  · intro n
    exact (trunc_commute M aN bN _ _ n).map _
  · intro h
    have := congrArg ((algebraMap ℝ K).mapMatrix) (trunc_rec_zero M aN bN (m + s).natAbs (m - s).natAbs haN hbN h)
    rw [map_add, map_mul, map_smul_real, map_smul_real] at this
    simpa only [RCLike.algebraMap_eq_ofReal] using this
  · intro n h
    have := congrArg ((algebraMap ℝ K).mapMatrix) (trunc_rec M aN bN (m + s).natAbs (m - s).natAbs haN hbN n h)
    rw [map_add, map_add, map_mul, map_smul_real, map_smul_real, map_smul_real] at this
    simpa only [RCLike.algebraMap_eq_ofReal] using this

theorem zipIdx_drop_sum {M : Type} [AddCommMonoid M] (N k : Nat) (c : Nat → K) (g : K × Nat → M) :
    (((((List.range N).map c).drop k).zipIdx).map g).sum = ∑ n ∈ Finset.Ico k N, g (c n, n - k) := by
  have e : ((List.range N).map c).drop k = (List.range (N - k)).map fun n => c (k + n) := by
    apply List.ext_getElem
    · simp
    · intro i h1 h2
      simp
  have h : ∀ (L : Nat) (d : Nat → K), ((((List.range L).map d).zipIdx).map g).sum = ∑ n ∈ Finset.range L, g (d n, n) := by
    intro L d
    induction L with
    | zero => simp
    | succ L ih =>
      rw [List.range_succ, List.map_append, List.zipIdx_append, List.map_append, List.sum_append, ih, Finset.sum_range_succ]
      simp
  rw [e, h, Finset.sum_Ico_eq_sum_range]
  apply Finset.sum_congr rfl
  intro n _
  rw [show k + n - k = n by omega]

/-- the coefficient's polynomials times a harmonic -/
theorem poly_times (k n l : Nat) (m s : Int) (hl : max m.natAbs s.natAbs ≤ l) (z : ℝ) :
    Q n k k z * Y l m s z = ∑ r ∈ Finset.range (n + (l - max m.natAbs s.natAbs) + 1),
      full k k (m + s).natAbs (m - s).natAbs (l - max m.natAbs s.natAbs) n r * Y (max m.natAbs s.natAbs + r) m s z := by
  have hk : (-1 : ℝ) < k := by have : (0 : ℝ) ≤ k := Nat.cast_nonneg k; linarith
  have ha : (-1 : ℝ) < ((m + s).natAbs : ℝ) := by have : (0 : ℝ) ≤ ((m + s).natAbs : ℝ) := Nat.cast_nonneg _; linarith
  have hb : (-1 : ℝ) < ((m - s).natAbs : ℝ) := by have : (0 : ℝ) ≤ ((m - s).natAbs : ℝ) := Nat.cast_nonneg _; linarith
  unfold Y
  rw [mul_left_comm, full_product k k _ _ z hk hk ha hb, Finset.mul_sum]
  apply Finset.sum_congr rfl
  intro r _
  rw [show max m.natAbs s.natAbs + r - max m.natAbs s.natAbs = r by omega]
  ring

/-- the block of the matrix for one polynomial of the coefficient is the projected product -/
theorem block_entry (Lmax l l' n k : Nat) (m s ds : Int) (hds : ds = 1 ∨ ds = -1) (hl : max m.natAbs s.natAbs ≤ l) (hL : l ≤ Lmax)
    (hl' : max m.natAbs (s + k * ds).natAbs ≤ l') (hL' : l' ≤ Lmax) (hn : n + k ≤ Lmax) (hj : l - max m.natAbs s.natAbs < nccSize Lmax) :
    ∑ r : Fin (nccSize Lmax), sinPower ((nccSize Lmax : Int) - 1 + max |m| |s|) m s ds k (l' - max m.natAbs (s + k * ds).natAbs) r *
      trunc (nccSize Lmax) k k (m + s).natAbs (m - s).natAbs n r ⟨l - max m.natAbs s.natAbs, hj⟩ =
    ∫ z in (-1 : ℝ)..1, sn z ^ k * (Q n k k z * Y l m s z) * Y l' m (s + k * ds) z := by
  have ha : (-1 : ℝ) < ((m + s).natAbs : ℝ) := by have : (0 : ℝ) ≤ ((m + s).natAbs : ℝ) := Nat.cast_nonneg _; linarith
  have hb : (-1 : ℝ) < ((m - s).natAbs : ℝ) := by have : (0 : ℝ) ≤ ((m - s).natAbs : ℝ) := Nat.cast_nonneg _; linarith
  have hM : 2 * nccSize Lmax ≥ 3 * (Lmax + 1) := by unfold nccSize; omega
  generalize nccSize Lmax = M at *
  have hLM : (M : Int) - 1 + max |m| |s| = ((M - 1 + max m.natAbs s.natAbs : Nat) : Int) := by
    rw [Int.abs_eq_natAbs, Int.abs_eq_natAbs]; omega
  rw [hLM]
  -- the integral, expanded
  have e : (∫ z in (-1 : ℝ)..1, sn z ^ k * (Q n k k z * Y l m s z) * Y l' m (s + k * ds) z) =
      ∑ r ∈ Finset.range (n + (l - max m.natAbs s.natAbs) + 1), full k k (m + s).natAbs (m - s).natAbs (l - max m.natAbs s.natAbs) n r *
        sinInt k (max m.natAbs s.natAbs + r) l' m s (s + k * ds) := by
    have hint : ∀ r ∈ Finset.range (n + (l - max m.natAbs s.natAbs) + 1), IntervalIntegrable
        (fun z => full k k (m + s).natAbs (m - s).natAbs (l - max m.natAbs s.natAbs) n r *
          (sn z ^ k * Y (max m.natAbs s.natAbs + r) m s z * Y l' m (s + k * ds) z)) MeasureTheory.volume (-1) 1 :=
      fun r _ => Continuous.intervalIntegrable (continuous_const.mul (((sn_continuous.pow k).mul (Y_continuous _ m s)).mul (Y_continuous _ m _))) _ _
    have e1 : ∀ z, sn z ^ k * (Q n k k z * Y l m s z) * Y l' m (s + k * ds) z = ∑ r ∈ Finset.range (n + (l - max m.natAbs s.natAbs) + 1),
        full k k (m + s).natAbs (m - s).natAbs (l - max m.natAbs s.natAbs) n r *
          (sn z ^ k * Y (max m.natAbs s.natAbs + r) m s z * Y l' m (s + k * ds) z) := by
      intro z
      rw [poly_times k n l m s hl z, Finset.mul_sum, Finset.sum_mul]
      apply Finset.sum_congr rfl
      intro r _
      ring
    simp only [e1]
    rw [intervalIntegral.integral_finset_sum hint]
    simp only [intervalIntegral.integral_const_mul]
    rfl
  rw [e]
  -- both sums over a common range
  have hbig : ∑ r ∈ Finset.range (n + (l - max m.natAbs s.natAbs) + 1), full k k (m + s).natAbs (m - s).natAbs (l - max m.natAbs s.natAbs) n r *
        sinInt k (max m.natAbs s.natAbs + r) l' m s (s + k * ds) =
      ∑ r ∈ Finset.range M, full k k (m + s).natAbs (m - s).natAbs (l - max m.natAbs s.natAbs) n r *
        sinInt k (max m.natAbs s.natAbs + r) l' m s (s + k * ds) := by
    rcases Nat.le_total (n + (l - max m.natAbs s.natAbs) + 1) M with h | h
    · apply Finset.sum_subset
      · intro x hx; simp at *; omega
      · intro x _ hx
        simp at hx
        rw [full_far _ _ _ _ _ n x (by omega), zero_mul]
    · symm
      apply Finset.sum_subset
      · intro x hx; simp at *; omega
      · intro x hx hx'
        simp at hx hx'
        rw [sinInt_below _ l' m s ds hds k (by omega) hl' (by omega), mul_zero]
  rw [hbig, Finset.sum_range]
  apply Finset.sum_congr rfl
  intro r _
  have hr := r.2
  have hs := sinInt_expand (M - 1 + max m.natAbs s.natAbs) (max m.natAbs s.natAbs + r) l' m s ds hds k (by omega) (by omega) hl'
  rw [if_pos (by omega), show max m.natAbs s.natAbs + r.val - max m.natAbs s.natAbs = r.val by omega] at hs
  rw [← hs]
  by_cases h : l' + k < max m.natAbs s.natAbs + r.val
  · rw [sinInt_below _ l' m s ds hds k (by omega) hl' h, zero_mul, mul_zero]
  · rw [trunc_full M k k _ _ ha hb n r ⟨l - max m.natAbs s.natAbs, hj⟩ (by simp only; omega), mul_comm]

/-- an axisymmetric harmonic of spin weight `s` -/
theorem Y_axis (n : Nat) (s : Int) (z : ℝ) (h0 : -1 ≤ z) (h1 : z ≤ 1) :
    Y n 0 s z = (-1) ^ (max 0 (-s)) * (sn z ^ s.natAbs * Q (n - s.natAbs) s.natAbs s.natAbs z) := by
  rw [Y_uv n 0 s z h0 h1]
  simp only [zero_add, zero_sub, Int.natAbs_zero, Int.natAbs_neg, Nat.zero_max, sn, mul_pow]
  ring

theorem sine_eq (m s order : Int) (size : Nat) (i j : Nat) :
    sineMatrix m s order size i j = (-1) ^ (max 0 (-order)) * sinPower ((size : Int) - 1 + max |m| |s|) m s (if order < 0 then -1 else 1) order.natAbs i j := by
  unfold sineMatrix
  by_cases h0 : order = 0
  · subst h0
    simp [sinPower]
  · rw [if_neg h0]
    by_cases h : order < 0
    · rw [if_pos h, if_pos h]
    · rw [if_neg h, if_neg h]

/-- the block of the matrix -/
theorem nccBlock_eq (Lmax l l' : Nat) (m sA sN : Int) (c : Nat → K) (cutoff : ℝ) (hl : max m.natAbs sA.natAbs ≤ l) (hL : l ≤ Lmax)
    (hl' : max m.natAbs (sA + sN).natAbs ≤ l') (hL' : l' ≤ Lmax) :
    nccBlock Lmax m sA sN c cutoff (l' - max m.natAbs (sA + sN).natAbs) (l - max m.natAbs sA.natAbs) =
      ∑ n ∈ Finset.Ico sN.natAbs (Lmax + 1), (if ‖c n‖ > cutoff then c n else 0) * ((coupling n l l' m sA sN : ℝ) : K) := by
  have hj : l - max m.natAbs sA.natAbs < nccSize Lmax := by unfold nccSize; omega
  unfold nccBlock
  rw [dif_pos hj]
  have hk : (-1 : ℝ) < (sN.natAbs : ℝ) := by have : (0 : ℝ) ≤ (sN.natAbs : ℝ) := Nat.cast_nonneg _; linarith
  rw [nccClenshaw_sum _ _ _ m sA hk hk _ cutoff (by simp [nccSize]; omega), zipIdx_drop_sum]
  have hds : (if sN < 0 then (-1 : Int) else 1) = 1 ∨ (if sN < 0 then (-1 : Int) else 1) = -1 := by split <;> simp
  have hsN : sA + sN = sA + (sN.natAbs : Int) * (if sN < 0 then (-1 : Int) else 1) := by split <;> omega
  simp only [Matrix.sum_apply, Finset.mul_sum]
  rw [Finset.sum_comm]
  apply Finset.sum_congr rfl
  intro n hn
  obtain ⟨hn1, hn2⟩ := Finset.mem_Ico.1 hn
  by_cases hc : ‖c n‖ > cutoff
  · simp only [if_pos hc, Matrix.smul_apply, RingHom.mapMatrix_apply, Matrix.map_apply, sine_eq]
    have hb := block_entry Lmax l l' (n - sN.natAbs) sN.natAbs m sA _ hds hl hL (by rw [← hsN]; exact hl') hL' (by omega) hj
    rw [← hsN] at hb
    have hcp : coupling n l l' m sA sN = (-1) ^ (max 0 (-sN)) * ∑ r : Fin (nccSize Lmax),
        sinPower ((nccSize Lmax : Int) - 1 + max |m| |sA|) m sA (if sN < 0 then -1 else 1) sN.natAbs (l' - max m.natAbs (sA + sN).natAbs) r *
          trunc (nccSize Lmax) sN.natAbs sN.natAbs (m + sA).natAbs (m - sA).natAbs (n - sN.natAbs) r ⟨l - max m.natAbs sA.natAbs, hj⟩ := by
      rw [hb, ← intervalIntegral.integral_const_mul]
      unfold coupling
      apply intervalIntegral.integral_congr
      intro z hz
      rw [Set.uIcc_of_le (by norm_num)] at hz
      simp only
      rw [Y_axis n sN z hz.1 hz.2]
      ring
    rw [hcp, Finset.mul_sum]
    simp only [RCLike.algebraMap_eq_ofReal, smul_eq_mul]
    push_cast
    rw [Finset.mul_sum]
    apply Finset.sum_congr rfl
    intro r _
    ring
  · simp only [if_neg hc]
    simp

/-- the padded matrix -/
theorem nccPadded_eq (Lmax l l' : Nat) (m sA sN : Int) (c : Nat → K) (cutoff : ℝ) (hl : m.natAbs ≤ l) (hL : l ≤ Lmax)
    (hl' : m.natAbs ≤ l') (hL' : l' ≤ Lmax) :
    nccPadded Lmax m sA sN (sA + sN) c cutoff (l' - m.natAbs) (l - m.natAbs) = product Lmax m sA sN c cutoff l' l := by
  unfold nccPadded product
  simp only [Int.abs_eq_natAbs]
  by_cases h : sA.natAbs ≤ l ∧ (sA + sN).natAbs ≤ l'
  · rw [if_pos (by omega), if_pos h, ← nccBlock_eq Lmax l l' m sA sN c cutoff (by omega) hL (by omega) hL']
    congr 1 <;> omega
  · rw [if_neg (by omega), if_neg h]

theorem offDiag_sq (m j : Nat) : offDiag m m j ^ 2 = (j + 1) * (j + 2 * m + 1) / ((2 * j + 2 * m + 1) * (2 * j + 2 * m + 3)) := by
  have hm : (-1 : ℝ) < m := by have : (0 : ℝ) ≤ m := Nat.cast_nonneg m; linarith
  have h0 : (0 : ℝ) ≤ m := Nat.cast_nonneg m
  have hj : (0 : ℝ) ≤ j := Nat.cast_nonneg j
  have hab : (m : ℝ) + m ≠ -1 := by linarith
  have hr := nRatioOne_norm j m m hm hm
  unfold nRatioOne tricky at hr
  rw [if_pos hab] at hr
  unfold offDiag
  rw [mul_pow, div_pow, Real.sq_sqrt (norm2_pos _ _ _ hm hm).le, Real.sq_sqrt (norm2_pos _ _ _ hm hm).le, ← hr]
  have hs : scaleBand m m j (j + (m + m + 1)) = (j + 2 * m + 1) / (2 * j + 2 * m + 1) := by
    unfold scaleBand
    split
    · rename_i e; subst e; congr 1 <;> push_cast <;> ring
    · congr 1 <;> ring
  rw [hs]
  push_cast
  have p1 : (2 * j + m + m + 2 : ℝ) ≠ 0 := by positivity
  have p2 : (2 * j + 2 * m + 1 : ℝ) ≠ 0 := by positivity
  have p3 : (j + 1 : ℝ) ≠ 0 := by positivity
  have p4 : (2 * j + m + m + 3 : ℝ) ≠ 0 := by positivity
  have p5 : (j + m + m + 1 : ℝ) ≠ 0 := by positivity
  have p6 : (2 * j + 2 * m + 3 : ℝ) ≠ 0 := by positivity
  field_simp
  ring

theorem offDiag_ne (m j : Nat) (hj : 0 < j) : offDiag m m j ≠ offDiag m m 0 := by
  intro h
  have h2 := congrArg (fun x => x ^ 2) h
  simp only [offDiag_sq] at h2
  have h0 : (0 : ℝ) ≤ m := Nat.cast_nonneg m
  have hj' : (1 : ℝ) ≤ j := by exact_mod_cast hj
  rw [div_eq_div_iff (by positivity) (by positivity)] at h2
  have e : (2 * (m : ℝ) - 1) * (((j : ℝ) + 1 + m) ^ 2 - (m + 1) ^ 2) * (2 * m + 1) = 0 := by
    push_cast at h2
    linear_combination h2
  have h3 : (2 * (m : ℝ) - 1) ≠ 0 := by
    intro h4
    have : (2 * (m : ℝ)) = 1 := by linarith
    have : 2 * m = 1 := by exact_mod_cast this
    omega
  have h5 : ((j : ℝ) + 1 + m) ^ 2 - (m + 1) ^ 2 ≠ 0 := by nlinarith
  have h6 : (2 * (m : ℝ) + 1) ≠ 0 := by positivity
  exact mul_ne_zero (mul_ne_zero h3 h5) h6 e

theorem Y_one (z : ℝ) : Y 1 0 0 z = √(3 / 2) * z := by
  have e : Y 1 0 0 z = Q 1 0 0 z := by simp [Y]
  rw [e, Q, P, norm2, weight]
  have h1 : Real.Gamma (1 + 0 + 1) = 1 := by norm_num [Real.Gamma_two]
  have h2 : Real.Gamma (1 + 0 + 0 + 2) = 2 := by
    rw [show (1 : ℝ) + 0 + 0 + 2 = 2 + 1 by norm_num, Real.Gamma_add_one (by norm_num), Real.Gamma_two]; norm_num
  simp only [Finset.sum_range_succ, Finset.sum_range_zero, coef, poch, Nat.cast_one, h1, h2]
  norm_num
  have h3 : (0 : ℝ) < √3 := Real.sqrt_pos.2 (by norm_num)
  have h4 : (0 : ℝ) < √2 := Real.sqrt_pos.2 (by norm_num)
  field_simp
  ring

/-- the cosine couples neighbouring degrees -/
theorem coupling_cos (l m : Nat) (hl : m ≤ l) : coupling 1 l (l + 1) m 0 0 = √(3 / 2) * offDiag m m (l - m) := by
  have hm : (-1 : ℝ) < m := by have : (0 : ℝ) ≤ m := Nat.cast_nonneg m; linarith
  have h := cos_entry l l m 0 (by simpa using hl) le_rfl (l - m + 1) (by simp; omega)
  simp only [Int.natAbs_natCast, Int.natAbs_zero, Nat.max_zero] at h
  rw [show m + (l - m + 1) = l + 1 by omega] at h
  have e : operatorCos l m 0 (l - m + 1) (l - m) = offDiag m m (l - m) := by
    unfold operatorCos spin2Jacobi
    simp only [add_zero, sub_zero, abs_zero, Nat.abs_cast, Int.cast_natCast]
    exact opZ_lower _ _ _ _ (by omega) hm hm
  rw [← e, h, ← intervalIntegral.integral_const_mul]
  unfold coupling
  congr 1
  funext z
  rw [Y_one]
  simp only [add_zero]
  ring

theorem coupling_const (l m : Nat) (hl : m ≤ l) : coupling 0 l l m 0 0 = 1 / √2 := by
  have h := Y_orthonormal l l m 0 (by simpa using hl) (by simpa using hl)
  rw [if_pos rfl] at h
  unfold coupling
  simp only [Y_zero, add_zero, mul_assoc]
  rw [intervalIntegral.integral_const_mul, h, mul_one]

end Dedalus.Sphere
