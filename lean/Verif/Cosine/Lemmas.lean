import Verif.Cosine.Model
import Verif.Cosine.Spec
import Verif.Fourier.ComplexLemmas
import Mathlib.Algebra.BigOperators.Intervals
import Mathlib.Algebra.BigOperators.Ring.Finset

namespace Dedalus.Cosine

open Spec
open Dedalus.Fourier (Slice slice assign fillSlice put slice_unit slice_unit_none slice_two bound_nat put_unit put_two)

/-! ## Sums of cosines -/

theorem cos_sum (N m : Nat) (h0 : 0 < m) (h1 : m < 2 * N) : ∑ x ∈ Finset.range N, Real.cos (m * angle N x) = 0 := by
  have hN : (0 : ℝ) < N := by exact_mod_cast (by omega : 0 < N)
  have hm : (0 : ℝ) < m := by exact_mod_cast h0
  have hmN : (m : ℝ) < 2 * N := by exact_mod_cast h1
  have hs : Real.sin (Real.pi * m / (2 * N)) ≠ 0 := by
    apply ne_of_gt
    apply Real.sin_pos_of_pos_of_lt_pi
    · have := Real.pi_pos; positivity
    · rw [div_lt_iff₀ (by positivity)]
      exact mul_lt_mul_of_pos_left hmN Real.pi_pos
  have step : ∀ x : Nat, Real.cos (m * angle N x) * (2 * Real.sin (Real.pi * m / (2 * N))) =
      Real.sin (Real.pi * m / (2 * N) * (2 * (x + 1 : Nat))) - Real.sin (Real.pi * m / (2 * N) * (2 * x)) := by
    intro x
    rw [Real.sin_sub_sin]
    have e1 : (Real.pi * m / (2 * N) * (2 * (x + 1 : Nat)) - Real.pi * m / (2 * N) * (2 * x)) / 2 = Real.pi * m / (2 * N) := by
      push_cast; ring
    have e2 : (Real.pi * m / (2 * N) * (2 * (x + 1 : Nat)) + Real.pi * m / (2 * N) * (2 * x)) / 2 = m * angle N x := by
      unfold angle; push_cast; ring
    rw [e1, e2]; ring
  have tot : (∑ x ∈ Finset.range N, Real.cos (m * angle N x)) * (2 * Real.sin (Real.pi * m / (2 * N))) = 0 := by
    rw [Finset.sum_mul, Finset.sum_congr rfl (fun x _ => step x),
      Finset.sum_range_sub (fun x : Nat => Real.sin (Real.pi * m / (2 * N) * (2 * (x : ℝ))))]
    have : Real.pi * m / (2 * N) * (2 * N) = m * Real.pi := by field_simp
    rw [this, Real.sin_nat_mul_pi]
    simp
  rcases mul_eq_zero.mp tot with h | h
  · exact h
  · exact absurd h (mul_ne_zero two_ne_zero hs)

theorem cos_orth (N j k : Nat) (h : j + k < 2 * N) :
    ∑ x ∈ Finset.range N, Real.cos (j * angle N x) * Real.cos (k * angle N x) =
      if j = k then (if k = 0 then (N : ℝ) else N / 2) else 0 := by
  wlog hjk : k ≤ j generalizing j k
  · have := this k j (by omega) (by omega)
    rw [show (∑ x ∈ Finset.range N, Real.cos (j * angle N x) * Real.cos (k * angle N x)) =
      ∑ x ∈ Finset.range N, Real.cos (k * angle N x) * Real.cos (j * angle N x) from
        Finset.sum_congr rfl (fun x _ => mul_comm _ _), this]
    by_cases e : j = k
    · subst e; rfl
    · rw [if_neg (fun h => e h.symm), if_neg e]
  have step : ∀ x, Real.cos (j * angle N x) * Real.cos (k * angle N x) =
      (Real.cos ((j - k : Nat) * angle N x) + Real.cos ((j + k : Nat) * angle N x)) / 2 := by
    intro x
    rw [Nat.cast_sub hjk, Nat.cast_add, sub_mul, add_mul, Real.cos_sub, Real.cos_add]
    ring
  rw [Finset.sum_congr rfl (fun x _ => step x), ← Finset.sum_div, Finset.sum_add_distrib]
  have one : ∑ x ∈ Finset.range N, Real.cos ((0 : Nat) * angle N x) = N := by simp
  by_cases e : j = k
  · subst e
    rw [if_pos rfl, Nat.sub_self, one]
    by_cases e0 : j = 0
    · subst e0; rw [if_pos rfl]; simp
    · rw [if_neg e0, cos_sum N (j + j) (by omega) h]; ring
  · rw [if_neg e, cos_sum N (j - k) (by omega) (by omega), cos_sum N (j + k) (by omega) h]; simp

theorem dct2_series (N L k : Nat) (h : L + k ≤ 2 * N) (b : Nat → ℝ) :
    dct2 N (fun x => cosSeries L b (angle N x)) k = if k < L then (if k = 0 then 2 * (N : ℝ) else N) * b k else 0 := by
  unfold dct2 cosSeries
  have e : ∀ x ∈ Finset.range N, (∑ j ∈ Finset.range L, b j * Real.cos (j * angle N x)) *
      Real.cos (Real.pi * k * (2 * x + 1) / (2 * N)) =
      ∑ j ∈ Finset.range L, b j * (Real.cos (j * angle N x) * Real.cos (k * angle N x)) := by
    intro x _
    rw [Finset.sum_mul]
    refine Finset.sum_congr rfl (fun j _ => ?_)
    have : Real.pi * k * (2 * x + 1) / (2 * N) = k * angle N x := by unfold angle; ring
    rw [this]; ring
  rw [Finset.sum_congr rfl e, Finset.sum_comm]
  have e2 : ∀ j ∈ Finset.range L, ∑ x ∈ Finset.range N, b j * (Real.cos (j * angle N x) * Real.cos (k * angle N x)) =
      if j = k then b j * (if k = 0 then (N : ℝ) else N / 2) else 0 := by
    intro j hj
    rw [Finset.mem_range] at hj
    rw [← Finset.mul_sum, cos_orth N j k (by omega)]
    split <;> ring
  rw [Finset.sum_congr rfl e2, Finset.sum_ite_eq' (Finset.range L) k (fun j => b j * (if k = 0 then (N : ℝ) else N / 2))]
  simp only [Finset.mem_range]
  by_cases hk : k < L
  · rw [if_pos hk, if_pos hk]; split <;> ring
  · rw [if_neg hk, if_neg hk]; ring

theorem dct3_series (N K : Nat) (hK : K < N) (c : Nat → ℝ) (hc : ∀ k, K < k → k < N → c k = 0) (x : Nat) :
    dct3 N c x = cosSeries (K + 1) (fun k => (if k = 0 then 1 else 2) * c k) (angle N x) := by
  unfold dct3 cosSeries
  rw [Finset.sum_range_succ' _ K, Finset.mul_sum]
  have split : Finset.range (N - 1) = Finset.range (K + (N - 1 - K)) := by congr 1; omega
  rw [split, Finset.sum_range_add]
  have hz : ∑ i ∈ Finset.range (N - 1 - K), 2 * (c (K + i + 1) * Real.cos (Real.pi * (K + i + 1 : Nat) * (2 * x + 1) / (2 * N))) = 0 :=
    Finset.sum_eq_zero (fun i hi => by
      rw [Finset.mem_range] at hi
      rw [hc (K + i + 1) (by omega) (by omega)]; ring)
  rw [hz, add_zero, add_comm]
  congr 1
  · refine Finset.sum_congr rfl (fun k _ => ?_)
    simp only [if_neg (show ¬ k + 1 = 0 by omega)]
    have : Real.pi * (k + 1 : Nat) * (2 * x + 1) / (2 * N) = ((k + 1 : Nat) : ℝ) * angle N x := by unfold angle; ring
    rw [this]; ring
  · simp

/-! ## Resizing -/

theorem resize_spec (r0 r1 : ℝ) (P Q last K : Nat) (hP : K < P) (hQ : K < Q) (src dst : Nat → ℝ) :
    ∃ out, resize r0 r1 P Q last K src dst = some out ∧ ∀ k, k < Q →
      out k = if k = 0 then src 0 * r0 else if k ≤ K then src k * r1
        else if 0 < K ∧ K < last then 0 else dst k := by
  have s1 : slice P 0 (some 1) 1 = ⟨1, fun t => 0 + t * 1⟩ := slice_unit P 0 1 0 1 (bound_nat P 0 (by omega)) (bound_nat P 1 (by omega))
  have s2 : slice Q 0 (some 1) 1 = ⟨1, fun t => 0 + t * 1⟩ := slice_unit Q 0 1 0 1 (bound_nat Q 0 (by omega)) (bound_nat Q 1 (by omega))
  unfold resize
  simp only [s1, s2, assign, if_true, Option.bind_some]
  by_cases hK : 0 < K
  · have s3 : slice P 1 (some (K + 1 : Nat)) 1 = ⟨K + 1 - 1, fun t => 1 + t * 1⟩ :=
      slice_unit P 1 (K + 1 : Nat) 1 (K + 1) (bound_nat P 1 (by omega)) (bound_nat P (K + 1) (by omega))
    have s4 : slice Q 1 (some (K + 1 : Nat)) 1 = ⟨K + 1 - 1, fun t => 1 + t * 1⟩ :=
      slice_unit Q 1 (K + 1 : Nat) 1 (K + 1) (bound_nat Q 1 (by omega)) (bound_nat Q (K + 1) (by omega))
    have s5 : slice Q (K + 1 : Nat) none 1 = ⟨Q - (K + 1), fun t => (K + 1) + t * 1⟩ :=
      slice_unit_none Q (K + 1 : Nat) (K + 1) (bound_nat Q (K + 1) (by omega))
    rw [if_pos hK]
    simp only [s3, s4, s5, if_true, Option.map_some, fillSlice]
    refine ⟨_, rfl, fun k hk => ?_⟩
    by_cases hl : K < last
    · rw [if_pos hl, put_unit, put_unit, put_unit]
      by_cases h0 : k = 0
      · subst h0
        rw [if_neg (by omega), if_neg (by omega), if_pos (by omega), if_pos rfl]
      · rw [if_neg h0]
        by_cases h1 : k ≤ K
        · rw [if_neg (by omega), if_pos (by omega), if_pos h1]
          congr 2; omega
        · rw [if_pos (by omega), if_neg h1, if_pos ⟨hK, hl⟩]
    · rw [if_neg hl, put_unit, put_unit]
      by_cases h0 : k = 0
      · subst h0
        rw [if_neg (by omega), if_pos (by omega), if_pos rfl]
      · rw [if_neg h0]
        by_cases h1 : k ≤ K
        · rw [if_pos (by omega), if_pos h1]
          congr 2; omega
        · rw [if_neg (by omega), if_neg h1, if_neg (by omega), if_neg (fun e => hl e.2)]
  · rw [if_neg hK]
    refine ⟨_, rfl, fun k hk => ?_⟩
    rw [put_unit]
    by_cases h0 : k = 0
    · subst h0
      rw [if_pos (by omega), if_pos rfl]
    · rw [if_neg (by omega), if_neg h0, if_neg (by omega), if_neg (fun e => hK e.1)]

theorem negateOdd_spec (n K : Nat) (h : K < n) (d : Nat → ℝ) (i : Nat) :
    negateOdd n K d i = if i ≤ K then (-1) ^ i * d i else d i := by
  unfold negateOdd
  by_cases hK : 0 < K
  · have s : slice n 1 (some (K + 1 : Nat)) 2 = ⟨(K + 1 - 1 + (2 - 1)) / 2, fun t => 1 + t * 2⟩ :=
      slice_two n 1 (K + 1 : Nat) 1 (K + 1) (bound_nat n 1 (by omega)) (bound_nat n (K + 1) (by omega))
    rw [if_pos hK]
    simp only [s]
    rw [put_two]
    by_cases ho : i % 2 = 1
    · have hodd : (-1 : ℝ) ^ i = -1 := Odd.neg_one_pow (Nat.odd_iff.mpr ho)
      by_cases hi : i ≤ K
      · rw [if_pos (by omega), if_pos hi, hodd]
        have : 1 + (i - 1) / 2 * 2 = i := by omega
        rw [this]; ring
      · rw [if_neg (by omega), if_neg hi]
    · have heven : (-1 : ℝ) ^ i = 1 := Even.neg_one_pow (Nat.even_iff.mpr (by omega))
      rw [if_neg (by omega), heven, one_mul, ite_self]
  · rw [if_neg hK]
    by_cases hi : i ≤ K
    · have : i = 0 := by omega
      subst this
      rw [if_pos hi]; ring
    · rw [if_neg hi]

/-! ## The Chebyshev grid -/

theorem native_cos (N x : Nat) (hN : 0 < N) : nativeGrid N x = Real.cos (Real.pi - angle N x) := by
  have : (N : ℝ) ≠ 0 := by exact_mod_cast hN.ne'
  unfold nativeGrid angle
  congr 1
  field_simp
  ring

theorem T_grid (N x k : Nat) (hN : 0 < N) :
    (Polynomial.Chebyshev.T ℝ k).eval (nativeGrid N x) = (-1) ^ k * Real.cos (k * angle N x) := by
  rw [native_cos N x hN, Polynomial.Chebyshev.T_real_cos]
  push_cast
  rw [mul_sub, Real.cos_sub]
  rw [Real.cos_nat_mul_pi, Real.sin_nat_mul_pi]
  ring

theorem cheb_cos (N L x : Nat) (hN : 0 < N) (c : Nat → ℝ) : chebSeries L c (nativeGrid N x) =
    cosSeries L (fun k => (if k = 0 then 1 / √Real.pi else √(2 / Real.pi)) * ((-1) ^ k * c k)) (angle N x) := by
  unfold chebSeries cosSeries unitT
  refine Finset.sum_congr rfl (fun k _ => ?_)
  rw [T_grid N x k hN]; ring

end Dedalus.Cosine
