import Verif.Fourier.ComplexLemmas
import Mathlib.Algebra.BigOperators.Intervals

/-! The real Fourier transforms. -/

namespace Dedalus.Fourier

open Complex

noncomputable def cs (N : Nat) (k : Int) : ℝ := Real.cos (2 * Real.pi * k / N)
noncomputable def sn (N : Nat) (k : Int) : ℝ := Real.sin (2 * Real.pi * k / N)

theorem om_cs (N : Nat) (k : Int) : om N k = (cs N k : ℂ) + (sn N k : ℂ) * Complex.I := by
  unfold om cs sn
  have : (2 * Real.pi * Complex.I * (k : ℂ) / N : ℂ) = ((2 * Real.pi * k / N : ℝ) : ℂ) * Complex.I := by
    push_cast; ring
  rw [this, Complex.exp_mul_I]
  push_cast
  rfl

theorem om_re (N : Nat) (k : Int) : (om N k).re = cs N k := by simp [om_cs]

theorem om_im (N : Nat) (k : Int) : (om N k).im = sn N k := by simp [om_cs]

theorem cs_neg (N : Nat) (k : Int) : cs N (-k) = cs N k := by
  unfold cs
  rw [← Real.cos_neg]
  congr 1
  push_cast; ring

theorem sn_neg (N : Nat) (k : Int) : sn N (-k) = -sn N k := by
  unfold sn
  rw [← Real.sin_neg]
  congr 1
  push_cast; ring

theorem cs_zero (N : Nat) : cs N 0 = 1 := by simp [cs]
theorem sn_zero (N : Nat) : sn N 0 = 0 := by simp [sn]

theorem cs_add (N : Nat) (a b : Int) : cs N (a + b) = cs N a * cs N b - sn N a * sn N b := by
  unfold cs sn
  rw [← Real.cos_add]
  congr 1
  push_cast; ring

theorem sn_add (N : Nat) (a b : Int) : sn N (a + b) = sn N a * cs N b + cs N a * sn N b := by
  unfold cs sn
  rw [← Real.sin_add]
  congr 1
  push_cast; ring

theorem cs_mul_cs (N : Nat) (a b : Int) : cs N a * cs N b = (cs N (a - b) + cs N (a + b)) / 2 := by
  rw [sub_eq_add_neg, cs_add, cs_add, cs_neg, sn_neg]; ring

theorem sn_mul_sn (N : Nat) (a b : Int) : sn N a * sn N b = (cs N (a - b) - cs N (a + b)) / 2 := by
  rw [sub_eq_add_neg a b, cs_add, cs_add, cs_neg, sn_neg]; ring

theorem sn_mul_cs (N : Nat) (a b : Int) : sn N a * cs N b = (sn N (a + b) + sn N (a - b)) / 2 := by
  rw [sub_eq_add_neg a b, sn_add, sn_add, cs_neg, sn_neg]; ring

theorem cs_mul_sn (N : Nat) (a b : Int) : cs N a * sn N b = (sn N (a + b) - sn N (a - b)) / 2 := by
  rw [sub_eq_add_neg a b, sn_add, sn_add, cs_neg, sn_neg]; ring

theorem sum_cs (N : Nat) (hN : 0 < N) (k : Int) :
    ∑ x ∈ Finset.range N, cs N (k * x) = if (N : Int) ∣ k then (N : ℝ) else 0 := by
  have h := congrArg Complex.re (om_sum N hN k)
  rw [Complex.re_sum] at h
  simp only [om_re] at h
  rw [h]
  split <;> simp

theorem sum_sn (N : Nat) (hN : 0 < N) (k : Int) : ∑ x ∈ Finset.range N, sn N (k * x) = 0 := by
  have h := congrArg Complex.im (om_sum N hN k)
  rw [Complex.im_sum] at h
  simp only [om_im] at h
  rw [h]
  split <;> simp

theorem cosWave_cs (N K X : Nat) : cosWave N K X = cs N ((K : Int) * X) := by
  unfold cosWave cs
  congr 1
  by_cases h : (N : ℝ) = 0
  · simp [h]
  · have hp := Real.pi_ne_zero
    push_cast
    field_simp

theorem sinWave_sn (N K X : Nat) : sinWave N K X = sn N ((K : Int) * X) := by
  unfold sinWave sn
  congr 1
  by_cases h : (N : ℝ) = 0
  · simp [h]
  · have hp := Real.pi_ne_zero
    push_cast
    field_simp

theorem sum_cs_cs (N : Nat) (hN : 0 < N) (j k : Nat) (h : j + k < N) (hj : 0 < j) :
    ∑ x ∈ Finset.range N, cs N ((j : Int) * x) * cs N ((k : Int) * x) = if j = k then (N : ℝ) / 2 else 0 := by
  have e : ∀ x ∈ Finset.range N, cs N ((j : Int) * x) * cs N ((k : Int) * x) =
      (cs N (((j : Int) - k) * x) + cs N (((j : Int) + k) * x)) / 2 := by
    intro x _
    rw [cs_mul_cs]
    congr 2 <;> congr 1 <;> ring
  rw [Finset.sum_congr rfl e, ← Finset.sum_div, Finset.sum_add_distrib, sum_cs N hN, sum_cs N hN]
  have h2 : ¬ (N : Int) ∣ (j : Int) + k := fun hd => by
    have := dvd_small hd (by omega) (by omega); omega
  rw [if_neg h2, add_zero]
  by_cases e : j = k
  · rw [if_pos e, if_pos (by rw [e, sub_self]; exact dvd_zero _)]
  · rw [if_neg e, if_neg (fun hd => by have := dvd_small hd (by omega) (by omega); omega), zero_div]

theorem sum_sn_sn (N : Nat) (hN : 0 < N) (j k : Nat) (h : j + k < N) (hj : 0 < j) :
    ∑ x ∈ Finset.range N, sn N ((j : Int) * x) * sn N ((k : Int) * x) = if j = k then (N : ℝ) / 2 else 0 := by
  have e : ∀ x ∈ Finset.range N, sn N ((j : Int) * x) * sn N ((k : Int) * x) =
      (cs N (((j : Int) - k) * x) - cs N (((j : Int) + k) * x)) / 2 := by
    intro x _
    rw [sn_mul_sn]
    congr 2 <;> congr 1 <;> ring
  rw [Finset.sum_congr rfl e, ← Finset.sum_div, Finset.sum_sub_distrib, sum_cs N hN, sum_cs N hN]
  have h2 : ¬ (N : Int) ∣ (j : Int) + k := fun hd => by
    have := dvd_small hd (by omega) (by omega); omega
  rw [if_neg h2, sub_zero]
  by_cases e : j = k
  · rw [if_pos e, if_pos (by rw [e, sub_self]; exact dvd_zero _)]
  · rw [if_neg e, if_neg (fun hd => by have := dvd_small hd (by omega) (by omega); omega), zero_div]

theorem sum_sn_cs (N : Nat) (hN : 0 < N) (j k : Nat) :
    ∑ x ∈ Finset.range N, sn N ((j : Int) * x) * cs N ((k : Int) * x) = 0 := by
  have e : ∀ x ∈ Finset.range N, sn N ((j : Int) * x) * cs N ((k : Int) * x) =
      (sn N (((j : Int) + k) * x) + sn N (((j : Int) - k) * x)) / 2 := by
    intro x _
    rw [sn_mul_cs]
    congr 2 <;> congr 1 <;> ring
  rw [Finset.sum_congr rfl e, ← Finset.sum_div, Finset.sum_add_distrib, sum_sn N hN, sum_sn N hN]
  simp

/-- The forward transform of a cosine. -/
theorem forward_cos (N M : Nat) (hN : 0 < N) (m k : Nat) (h : m / 2 + k < N) :
    ∑ x ∈ Finset.range N, realForwardMatrix N M m x * cs N ((k : Int) * x) =
      if m / 2 ≤ kmax N M ∧ m % 2 = 0 ∧ k = m / 2 then 1 else 0 := by
  have hN' : (N : ℝ) ≠ 0 := by exact_mod_cast hN.ne'
  unfold realForwardMatrix
  by_cases h1 : m / 2 ≤ kmax N M
  · simp only [if_pos h1]
    by_cases h0 : m = 0
    · subst h0
      simp only [if_true]
      rw [← Finset.mul_sum, sum_cs N hN]
      by_cases hk : k = 0
      · subst hk
        rw [if_pos (by simp), if_pos (by simp)]
        field_simp
      · rw [if_neg (fun hd => by have := dvd_small hd (by omega) (by omega); omega), if_neg (by omega), mul_zero]
    · simp only [if_neg h0]
      by_cases h2 : m % 2 = 0
      · simp only [if_pos h2, mul_assoc, cosWave_cs]
        rw [← Finset.mul_sum, sum_cs_cs N hN _ _ h (by omega)]
        by_cases e : m / 2 = k
        · rw [if_pos e, if_pos ⟨h1, h2, e.symm⟩]; field_simp
        · rw [if_neg e, if_neg (fun h => e h.2.2.symm), mul_zero]
      · simp only [if_neg h2, mul_assoc, sinWave_sn]
        rw [← Finset.mul_sum, sum_sn_cs N hN, mul_zero, if_neg (fun h => h2 h.2.1)]
  · simp only [if_neg h1, zero_mul, Finset.sum_const_zero]
    rw [if_neg (fun h => h1 h.1)]

/-- The forward transform of a sine. -/
theorem forward_sin (N M : Nat) (hN : 0 < N) (m k : Nat) (h : m / 2 + k < N) :
    ∑ x ∈ Finset.range N, realForwardMatrix N M m x * sn N ((k : Int) * x) =
      if m / 2 ≤ kmax N M ∧ m % 2 = 1 ∧ 0 < k ∧ k = m / 2 then -1 else 0 := by
  have hN' : (N : ℝ) ≠ 0 := by exact_mod_cast hN.ne'
  unfold realForwardMatrix
  by_cases h1 : m / 2 ≤ kmax N M
  · simp only [if_pos h1]
    by_cases h0 : m = 0
    · subst h0
      simp only [if_true]
      rw [← Finset.mul_sum, sum_sn N hN, mul_zero, if_neg (by omega)]
    · simp only [if_neg h0]
      by_cases h2 : m % 2 = 0
      · simp only [if_pos h2, mul_assoc, cosWave_cs]
        have e : ∀ x ∈ Finset.range N, 2 / (N : ℝ) * (cs N (((m / 2 : Nat) : Int) * x) * sn N ((k : Int) * x)) =
            2 / (N : ℝ) * (sn N ((k : Int) * x) * cs N (((m / 2 : Nat) : Int) * x)) := by
          intro x _; rw [mul_comm (cs _ _)]
        rw [Finset.sum_congr rfl e, ← Finset.mul_sum, sum_sn_cs N hN, mul_zero, if_neg (by omega)]
      · simp only [if_neg h2, mul_assoc, sinWave_sn]
        rw [← Finset.mul_sum]
        by_cases hj : m / 2 = 0
        · rw [hj]
          simp only [Nat.cast_zero, zero_mul, sn_zero, Finset.sum_const_zero, mul_zero]
          rw [if_neg (by omega)]
        · rw [sum_sn_sn N hN _ _ h (by omega)]
          by_cases e : m / 2 = k
          · rw [if_pos e, if_pos ⟨h1, by omega, by omega, e.symm⟩]; field_simp
          · rw [if_neg e, if_neg (fun h => e h.2.2.2.symm), mul_zero]
  · simp only [if_neg h1, zero_mul, Finset.sum_const_zero]
    rw [if_neg (fun h => h1 h.1)]

/-- The forward transform of a trigonometric polynomial of degree `D < N - Kmax`. -/
theorem real_forward_poly {ι : Type} (s : Finset ι) (a b : ι → ℝ) (k : ι → Nat) (N M : Nat) (hN : 0 < N) (D : Nat)
    (hk : ∀ i ∈ s, k i ≤ D) (hD : D + kmax N M < N) (m : Nat) :
    realForwardMMT N M (fun x => ∑ i ∈ s, (a i * cs N ((k i : Int) * x) - b i * sn N ((k i : Int) * x))) m =
      if m / 2 ≤ kmax N M then
        if m % 2 = 0 then ∑ i ∈ s with k i = m / 2, a i
        else if m / 2 = 0 then 0 else ∑ i ∈ s with k i = m / 2, b i
      else 0 := by
  unfold realForwardMMT
  by_cases hm : m / 2 ≤ kmax N M
  · rw [if_pos hm]
    have h1 : ∀ x ∈ Finset.range N, realForwardMatrix N M m x *
        ∑ i ∈ s, (a i * cs N ((k i : Int) * x) - b i * sn N ((k i : Int) * x)) =
        ∑ i ∈ s, (a i * (realForwardMatrix N M m x * cs N ((k i : Int) * x)) -
          b i * (realForwardMatrix N M m x * sn N ((k i : Int) * x))) := by
      intro x _
      rw [Finset.mul_sum]
      exact Finset.sum_congr rfl (fun i _ => by ring)
    rw [Finset.sum_congr rfl h1, Finset.sum_comm]
    have h2 : ∀ i ∈ s, ∑ x ∈ Finset.range N, (a i * (realForwardMatrix N M m x * cs N ((k i : Int) * x)) -
          b i * (realForwardMatrix N M m x * sn N ((k i : Int) * x))) =
        if k i = m / 2 then (if m % 2 = 0 then a i else if m / 2 = 0 then 0 else b i) else 0 := by
      intro i hi
      have hki := hk i hi
      rw [Finset.sum_sub_distrib, ← Finset.mul_sum, ← Finset.mul_sum, forward_cos N M hN _ _ (by omega),
        forward_sin N M hN _ _ (by omega)]
      by_cases e : k i = m / 2
      · rw [if_pos e]
        by_cases h2 : m % 2 = 0
        · rw [if_pos ⟨hm, h2, e⟩, if_neg (by omega), if_pos h2]; ring
        · rw [if_neg (by omega), if_neg h2]
          by_cases h3 : m / 2 = 0
          · rw [if_neg (by omega), if_pos h3]; ring
          · rw [if_pos ⟨hm, by omega, by omega, e⟩, if_neg h3]; ring
      · rw [if_neg e, if_neg (by omega), if_neg (by omega)]; ring
    rw [Finset.sum_congr rfl h2, ← Finset.sum_filter]
    by_cases h2 : m % 2 = 0
    · simp only [if_pos h2]
    · simp only [if_neg h2]
      by_cases h3 : m / 2 = 0
      · simp only [if_pos h3, Finset.sum_const_zero]
      · simp only [if_neg h3]
  · rw [if_neg hm]
    apply Finset.sum_eq_zero
    intro x _
    unfold realForwardMatrix
    rw [if_neg hm, zero_mul]

theorem real_backward_eq (N M : Nat) (c : Nat → ℝ) (x : Nat) :
    realBackwardMMT N M c x = ∑ m ∈ Finset.range M with m / 2 ≤ kmax N M,
      ((if m % 2 = 0 then c m else 0) * cs N (((m / 2 : Nat) : Int) * x) -
        (if m % 2 = 0 then 0 else c m) * sn N (((m / 2 : Nat) : Int) * x)) := by
  unfold realBackwardMMT
  rw [Finset.sum_filter]
  refine Finset.sum_congr rfl (fun m _ => ?_)
  unfold realBackwardMatrix
  by_cases h1 : m / 2 ≤ kmax N M
  · rw [if_pos h1, if_pos h1]
    by_cases h2 : m % 2 = 0
    · rw [if_pos h2, if_pos h2, if_pos h2, cosWave_cs]; ring
    · rw [if_neg h2, if_neg h2, if_neg h2, sinWave_sn]; ring
  · rw [if_neg h1, if_neg h1, zero_mul]

theorem real_forward_backward (N M : Nat) (hN : 0 < N) (c : Nat → ℝ) (m : Nat) (hm : m < M) :
    realForwardMMT N M (realBackwardMMT N M c) m = if m / 2 ≤ kmax N M ∧ m ≠ 1 then c m else 0 := by
  have h : realBackwardMMT N M c = fun (x : Nat) => ∑ m ∈ Finset.range M with m / 2 ≤ kmax N M,
      ((if m % 2 = 0 then c m else 0) * cs N (((m / 2 : Nat) : Int) * x) -
        (if m % 2 = 0 then 0 else c m) * sn N (((m / 2 : Nat) : Int) * x)) := funext (real_backward_eq N M c)
  rw [h, real_forward_poly _ (fun m => if m % 2 = 0 then c m else 0) (fun m => if m % 2 = 0 then 0 else c m)
    (fun m => m / 2) N M hN (kmax N M)
    (fun i hi => (Finset.mem_filter.mp hi).2) (by have := kmax_lt N M hN; omega)]
  by_cases hk : m / 2 ≤ kmax N M
  · rw [if_pos hk]
    by_cases h2 : m % 2 = 0
    · rw [if_pos h2, if_pos ⟨hk, by omega⟩, Finset.sum_eq_single m]
      · rw [if_pos h2]
      · intro b hb hne
        simp only [Finset.mem_filter, Finset.mem_range] at hb
        rw [if_neg (by omega)]
      · intro h
        exact absurd (by simp [hm, hk]) h
    · rw [if_neg h2]
      by_cases h3 : m / 2 = 0
      · rw [if_pos h3, if_neg (by omega)]
      · rw [if_neg h3, if_pos ⟨hk, by omega⟩, Finset.sum_eq_single m]
        · rw [if_neg h2]
        · intro b hb hne
          simp only [Finset.mem_filter, Finset.mem_range] at hb
          rw [if_pos (by omega)]
        · intro h
          exact absurd (by simp [hm, hk]) h
  · rw [if_neg hk, if_neg (fun h => hk h.1)]

/-! ### Fast transforms -/

/-- The real and imaginary parts of the real DFT. -/
theorem rfft_re (N : Nat) (g : Nat → ℝ) (k : Nat) :
    (rfft N g k).re = ∑ x ∈ Finset.range N, g x * cs N ((k : Int) * x) := by
  rw [rfft, dft_om, Complex.re_sum]
  refine Finset.sum_congr rfl (fun x _ => ?_)
  rw [Complex.re_ofReal_mul, om_re, neg_mul, cs_neg]

theorem rfft_im (N : Nat) (g : Nat → ℝ) (k : Nat) :
    (rfft N g k).im = -∑ x ∈ Finset.range N, g x * sn N ((k : Int) * x) := by
  rw [rfft, dft_om, Complex.im_sum, ← Finset.sum_neg_distrib]
  refine Finset.sum_congr rfl (fun x _ => ?_)
  rw [Complex.im_ofReal_mul, om_im, neg_mul, sn_neg]
  ring

/-- The coefficients, in terms of the real DFT. -/
theorem realForward_rfft (N M : Nat) (g : Nat → ℝ) (m : Nat) :
    realForwardMMT N M g m = if m = 0 then (rfft N g 0).re * (1 / N) else if m = 1 then 0
      else if m / 2 ≤ kmax N M then
        (if m % 2 = 0 then (rfft N g (m / 2)).re * (2 * (1 / N)) else (rfft N g (m / 2)).im * (2 * (1 / N)))
      else 0 := by
  unfold realForwardMMT
  by_cases h0 : m = 0
  · subst h0
    rw [if_pos rfl, rfft_re, Finset.sum_mul]
    refine Finset.sum_congr rfl (fun x _ => ?_)
    unfold realForwardMatrix
    rw [if_pos (by omega), if_pos rfl]
    simp [cs_zero]
    ring
  · rw [if_neg h0]
    by_cases h1 : m = 1
    · subst h1
      rw [if_pos rfl]
      apply Finset.sum_eq_zero
      intro x _
      unfold realForwardMatrix
      simp [sinWave]
    · rw [if_neg h1]
      by_cases hk : m / 2 ≤ kmax N M
      · rw [if_pos hk]
        by_cases h2 : m % 2 = 0
        · rw [if_pos h2, rfft_re, Finset.sum_mul]
          refine Finset.sum_congr rfl (fun x _ => ?_)
          unfold realForwardMatrix
          rw [if_pos hk, if_neg h0, if_pos h2, cosWave_cs]
          ring
        · rw [if_neg h2, rfft_im, ← Finset.sum_neg_distrib, Finset.sum_mul]
          refine Finset.sum_congr rfl (fun x _ => ?_)
          unfold realForwardMatrix
          rw [if_pos hk, if_neg h0, if_neg h2, sinWave_sn]
          ring
      · rw [if_neg hk]
        apply Finset.sum_eq_zero
        intro x _
        unfold realForwardMatrix
        rw [if_neg hk, zero_mul]

theorem kmax_half (N H : Nat) : kmax N (2 * H) ≤ H - 1 := by unfold kmax halfSize; omega

theorem kmax_half' (N M : Nat) (hN : 0 < N) : kmax N M ≤ N / 2 ∧ kmax N M ≤ halfSize N := by
  unfold kmax halfSize; omega

theorem real_forward_fft (N H : Nat) (hN : 0 < N) (hH : 0 < H) (g cdata : Nat → ℝ) :
    ∃ out, realForwardFFT N (2 * H) g cdata = some out ∧ ∀ m, m < 2 * H → out m = realForwardMMT N (2 * H) g m := by
  have k1 := kmax_half N H
  have k2 := kmax_half' N (2 * H) hN
  unfold realForwardFFT unpack
  generalize hK : kmax N (2 * H) = K at *
  have s1 : slice (N / 2 + 1) 0 (some 1) 1 = ⟨1, fun t => 0 + t * 1⟩ := slice_head _ 1 (by omega)
  have s2 : slice (N / 2 + 1) 1 (some ((K + 1 : Nat) : Int)) 1 = ⟨K + 1 - 1, fun t => 1 + t * 1⟩ :=
    slice_unit _ _ _ _ _ (bound_nat _ 1 (by omega)) (bound_nat _ (K + 1) (by omega))
  have s3 : slice (2 * H) 0 (some 1) 1 = ⟨1, fun t => 0 + t * 1⟩ := slice_head _ 1 (by omega)
  have s4 : slice (2 * H) 1 (some 2) 1 = ⟨2 - 1, fun t => 1 + t * 1⟩ :=
    slice_unit _ _ _ _ _ (bound_nat _ 1 (by omega)) (bound_nat _ 2 (by omega))
  have s5 : slice (2 * H) 2 (some ((2 * (K + 1) : Nat) : Int)) 2 = ⟨(2 * (K + 1) - 2 + 1) / 2, fun t => 2 + t * 2⟩ :=
    slice_two _ _ _ _ _ (bound_nat _ 2 (by omega)) (bound_nat _ (2 * (K + 1)) (by omega))
  have s6 : slice (2 * H) 3 (some ((2 * (K + 1) : Nat) : Int)) 2 =
      ⟨(2 * (K + 1) - bound (2 * H) 3 + 1) / 2, fun t => bound (2 * H) 3 + t * 2⟩ :=
    slice_two _ _ _ _ _ rfl (bound_nat _ (2 * (K + 1)) (by omega))
  have s7 : slice (2 * H) ((2 * (K + 1) : Nat) : Int) none 1 = ⟨2 * H - 2 * (K + 1), fun t => 2 * (K + 1) + t * 1⟩ :=
    slice_unit_none _ _ _ (bound_nat _ _ (by omega))
  have b3 : bound (2 * H) 3 = min 3 (2 * H) := by unfold bound; simp
  have e5 : K + 1 - 1 = (2 * (K + 1) - 2 + 1) / 2 := by omega
  have e6 : K + 1 - 1 = (2 * (K + 1) - bound (2 * H) 3 + 1) / 2 := by rw [b3]; omega
  simp only [s1, s2, s3, s4, s5, s6, s7, assign, if_true, Option.bind_some, Option.map_some, ← e5, ← e6]
  refine ⟨_, rfl, ?_⟩
  intro m hm
  rw [realForward_rfft, hK]
  simp only [fillSlice, put_unit, put_two]
  by_cases h0 : m = 0
  · subst h0
    rw [if_neg (by omega), if_neg (by omega), if_neg (by omega), if_neg (by omega), if_pos (by omega), if_pos rfl]
  · rw [if_neg h0]
    by_cases h1 : m = 1
    · subst h1
      rw [if_neg (by omega), if_neg (by omega), if_neg (by omega), if_pos (by omega), if_pos rfl]
    · rw [if_neg h1]
      by_cases hk : m / 2 ≤ K
      · rw [if_pos hk]
        by_cases h2 : m % 2 = 0
        · rw [if_pos h2, if_neg (by omega), if_neg (by omega), if_pos (by omega)]
          congr 3
          omega
        · rw [if_neg h2, if_neg (by omega), if_pos (by omega)]
          congr 3
          omega
      · rw [if_neg hk, if_pos (by omega)]

/-- The backward transform by wavenumbers. -/
theorem real_backward_pairs (N H : Nat) (hN : 0 < N) (hH : 0 < H) (c : Nat → ℝ) (x : Nat) :
    realBackwardMMT N (2 * H) c x = c 0 + ∑ k ∈ Finset.range (kmax N (2 * H)),
      (c (2 * (k + 1)) * cs N (((k + 1 : Nat) : Int) * x) - c (2 * (k + 1) + 1) * sn N (((k + 1 : Nat) : Int) * x)) := by
  have k1 := kmax_half N H
  unfold realBackwardMMT
  have h : ∀ (f : Nat → ℝ) (H : Nat), ∑ m ∈ Finset.range (2 * H), f m = ∑ k ∈ Finset.range H, (f (2 * k) + f (2 * k + 1)) := by
    intro f H
    induction H with
    | zero => simp
    | succ H ih => rw [Finset.sum_range_succ, ← ih, show 2 * (H + 1) = 2 * H + 1 + 1 by ring, Finset.sum_range_succ,
        Finset.sum_range_succ, add_assoc]
  rw [h]
  obtain ⟨d, hd⟩ : ∃ d, H = (kmax N (2 * H) + 1) + d := ⟨H - (kmax N (2 * H) + 1), by omega⟩
  generalize hK : kmax N (2 * H) = K at *
  rw [show Finset.range H = Finset.range ((K + 1) + d) from by rw [← hd], Finset.sum_range_add]
  have hz : ∑ k ∈ Finset.range d, (realBackwardMatrix N (2 * H) x (2 * (K + 1 + k)) * c (2 * (K + 1 + k)) +
      realBackwardMatrix N (2 * H) x (2 * (K + 1 + k) + 1) * c (2 * (K + 1 + k) + 1)) = 0 := by
    apply Finset.sum_eq_zero
    intro k _
    unfold realBackwardMatrix
    rw [hK, if_neg (by omega), if_neg (by omega)]
    ring
  rw [hz, add_zero, Finset.sum_range_succ', add_comm]
  congr 1
  · unfold realBackwardMatrix
    rw [hK]
    simp [cosWave, sinWave]
  · refine Finset.sum_congr rfl (fun k hk => ?_)
    simp only [Finset.mem_range] at hk
    unfold realBackwardMatrix
    have d1 : 2 * (k + 1) / 2 = k + 1 := by omega
    have d2 : (2 * (k + 1) + 1) / 2 = k + 1 := by omega
    rw [hK, d1, d2, if_pos (by omega), if_pos (by omega), if_pos (by omega), if_neg (by omega), cosWave_cs, sinWave_sn]
    ring

/-- The inverse real DFT of an array without high modes. -/
theorem irdft_low (N K : Nat) (hN : 0 < N) (hK : K ≤ halfSize N) (t : Nat → ℂ)
    (hz : ∀ k, K < k → k ≤ halfSize N → t k = 0) (hy : N % 2 = 0 → (t (N / 2)).re = 0) (x : Nat) :
    irdft N t x = (t 0).re + ∑ k ∈ Finset.range K,
      2 * ((t (k + 1)).re * cs N (((k + 1 : Nat) : Int) * x) - (t (k + 1)).im * sn N (((k + 1 : Nat) : Int) * x)) := by
  have hh : halfSize N = (N - 1) / 2 := rfl
  unfold irdft
  have h1 : (if N % 2 = 0 then (t (N / 2)).re * Real.cos (Real.pi * x) else 0) = 0 := by
    split
    · rename_i h2
      rw [hy h2]; simp
    · rfl
  rw [h1, add_zero]
  congr 1
  obtain ⟨d, hd⟩ : ∃ d, halfSize N = K + d := ⟨halfSize N - K, by omega⟩
  rw [hd, Finset.sum_range_add]
  have h2 : ∑ k ∈ Finset.range d, 2 * ((t (K + k + 1)).re * Real.cos (2 * Real.pi * (K + k + 1 : Nat) * x / N) -
      (t (K + k + 1)).im * Real.sin (2 * Real.pi * (K + k + 1 : Nat) * x / N)) = 0 := by
    apply Finset.sum_eq_zero
    intro k hk
    simp only [Finset.mem_range] at hk
    rw [hz (K + k + 1) (by omega) (by omega)]
    simp
  rw [h2, add_zero]
  refine Finset.sum_congr rfl (fun k hk => ?_)
  unfold cs sn
  congr 4 <;> congr 1 <;> push_cast <;> ring

theorem repack_spec (N H : Nat) (hN : 0 < N) (hH : 0 < H) (r0 r1 : ℝ) (c : Nat → ℝ) (temp : Nat → ℂ) :
    ∃ t, repack (kmax N (2 * H)) N (2 * H) r0 r1 c temp = some t ∧ ∀ k, k < N / 2 + 1 →
      t k = if k = 0 then ((c 0 * r0 : ℝ) : ℂ) else
        if k ≤ kmax N (2 * H) then ⟨c (2 * k) * r1, c (2 * k + 1) * r1⟩ else 0 := by
  have k1 := kmax_half N H
  have k2 := kmax_half' N (2 * H) hN
  unfold repack
  generalize hK : kmax N (2 * H) = K at *
  have s1 : slice (N / 2 + 1) 0 (some 1) 1 = ⟨1, fun t => 0 + t * 1⟩ := slice_head _ 1 (by omega)
  have s2 : slice (N / 2 + 1) 1 (some ((K + 1 : Nat) : Int)) 1 = ⟨K + 1 - 1, fun t => 1 + t * 1⟩ :=
    slice_unit _ _ _ _ _ (bound_nat _ 1 (by omega)) (bound_nat _ (K + 1) (by omega))
  have s3 : slice (2 * H) 0 (some 1) 1 = ⟨1, fun t => 0 + t * 1⟩ := slice_head _ 1 (by omega)
  have s5 : slice (2 * H) 2 (some ((2 * (K + 1) : Nat) : Int)) 2 = ⟨(2 * (K + 1) - 2 + 1) / 2, fun t => 2 + t * 2⟩ :=
    slice_two _ _ _ _ _ (bound_nat _ 2 (by omega)) (bound_nat _ (2 * (K + 1)) (by omega))
  have s6 : slice (2 * H) 3 (some ((2 * (K + 1) : Nat) : Int)) 2 =
      ⟨(2 * (K + 1) - bound (2 * H) 3 + 1) / 2, fun t => bound (2 * H) 3 + t * 2⟩ :=
    slice_two _ _ _ _ _ rfl (bound_nat _ (2 * (K + 1)) (by omega))
  have s7 : slice (N / 2 + 1) ((K + 1 : Nat) : Int) none 1 = ⟨N / 2 + 1 - (K + 1), fun t => (K + 1) + t * 1⟩ :=
    slice_unit_none _ _ _ (bound_nat _ _ (by omega))
  have b3 : bound (2 * H) 3 = min 3 (2 * H) := by unfold bound; simp
  have e5 : (2 * (K + 1) - 2 + 1) / 2 = K + 1 - 1 := by omega
  have e6 : (2 * (K + 1) - bound (2 * H) 3 + 1) / 2 = K + 1 - 1 := by rw [b3]; omega
  simp only [s1, s2, s3, s5, s6, s7, assign, if_true, Option.bind_some, Option.map_some, e5, e6]
  refine ⟨_, rfl, ?_⟩
  intro k hk
  simp only [fillSlice, put_unit]
  by_cases h0 : k = 0
  · subst h0
    rw [if_neg (by omega), if_neg (by omega), if_neg (by omega), if_pos (by omega), if_pos rfl]
  · rw [if_neg h0]
    by_cases hk : k ≤ K
    · rw [if_neg (by omega), if_pos (by omega), if_pos (by omega), if_pos hk]
      have d1 : bound (2 * H) 3 + (k - 1) * 2 = 2 * k + 1 := by rw [b3]; omega
      have d2 : 2 + (1 + (k - 1) * 1 - 1) * 2 = 2 * k := by omega
      rw [d1, d2]
    · rw [if_pos (by omega), if_neg hk]

theorem real_backward_both (N H : Nat) (hN : 0 < N) (hH : 0 < H) (c : Nat → ℝ) (temp : Nat → ℂ) :
    (∃ out, realBackwardScipy N (2 * H) c temp = some out ∧ ∀ x, out x = realBackwardMMT N (2 * H) c x) ∧
    (∃ out, realBackwardFFTW N (2 * H) c temp = some out ∧ ∀ x, out x = realBackwardMMT N (2 * H) c x) := by
  have hN' : (N : ℝ) ≠ 0 := by exact_mod_cast hN.ne'
  have k2 := kmax_half' N (2 * H) hN
  have key : ∀ (r0 r1 : ℝ) (t : Nat → ℂ), (∀ k, k < N / 2 + 1 → t k = if k = 0 then ((c 0 * r0 : ℝ) : ℂ) else
        if k ≤ kmax N (2 * H) then ⟨c (2 * k) * r1, c (2 * k + 1) * r1⟩ else 0) → r0 = 2 * r1 →
      ∀ x, irdft N t x = realBackwardMMT N (2 * H) c x * r0 := by
    intro r0 r1 t ht hr x
    have hh : halfSize N = (N - 1) / 2 := rfl
    rw [irdft_low N (kmax N (2 * H)) hN k2.2 t
        (fun k h1 h2 => by rw [ht k (by omega), if_neg (by omega), if_neg (by omega)])
        (fun h2 => by rw [ht (N / 2) (by omega), if_neg (by omega), if_neg (by omega)]; rfl),
      real_backward_pairs N H hN hH, add_mul, Finset.sum_mul, ht 0 (by omega), if_pos rfl]
    congr 1
    refine Finset.sum_congr rfl (fun k hk => ?_)
    simp only [Finset.mem_range] at hk
    rw [ht (k + 1) (by omega), if_neg (by omega), if_pos (by omega), hr]
    ring
  constructor
  · obtain ⟨t, h1, h2⟩ := repack_spec N H hN hH N (N / 2) c temp
    refine ⟨irfft N t, by rw [realBackwardScipy, h1]; rfl, ?_⟩
    intro x
    rw [irfft, key _ _ t h2 (by ring) x, mul_div_cancel_right₀ _ hN']
  · obtain ⟨t, h1, h2⟩ := repack_spec N H hN hH 1 (1 / 2) c temp
    refine ⟨irdft N t, by rw [realBackwardFFTW, h1]; rfl, ?_⟩
    intro x
    rw [key _ _ t h2 (by ring) x, mul_one]

/-! ### FFTPACK -/

theorem forward_pack (N H : Nat) (hN : 0 < N) (hH : 0 < H) (g cdata : Nat → ℝ) :
    ∃ out, forwardPack N (2 * H) g cdata = some out ∧ ∀ m, m < 2 * H → out m = realForwardMMT N (2 * H) g m := by
  have k1 := kmax_half N H
  have k2 := kmax_half' N (2 * H) hN
  have k3 := kmax_lt N (2 * H) hN
  unfold forwardPack
  generalize hK : kmax N (2 * H) = K at *
  have s1 : slice N 0 (some 1) 1 = ⟨1, fun t => 0 + t * 1⟩ := slice_head _ 1 (by omega)
  have s2 : slice N 1 (some ((2 * (K + 1) - 1 : Nat) : Int)) 1 = ⟨2 * (K + 1) - 1 - 1, fun t => 1 + t * 1⟩ :=
    slice_unit _ _ _ _ _ (bound_nat _ 1 (by omega)) (bound_nat _ (2 * (K + 1) - 1) (by omega))
  have s3 : slice (2 * H) 0 (some 1) 1 = ⟨1, fun t => 0 + t * 1⟩ := slice_head _ 1 (by omega)
  have s4 : slice (2 * H) 1 (some 2) 1 = ⟨2 - 1, fun t => 1 + t * 1⟩ :=
    slice_unit _ _ _ _ _ (bound_nat _ 1 (by omega)) (bound_nat _ 2 (by omega))
  have s5 : slice (2 * H) 2 (some ((2 * (K + 1) : Nat) : Int)) 1 = ⟨2 * (K + 1) - 2, fun t => 2 + t * 1⟩ :=
    slice_unit _ _ _ _ _ (bound_nat _ 2 (by omega)) (bound_nat _ (2 * (K + 1)) (by omega))
  have s7 : slice (2 * H) ((2 * (K + 1) : Nat) : Int) none 1 = ⟨2 * H - 2 * (K + 1), fun t => 2 * (K + 1) + t * 1⟩ :=
    slice_unit_none _ _ _ (bound_nat _ _ (by omega))
  have e5 : 2 * (K + 1) - 1 - 1 = 2 * (K + 1) - 2 := by omega
  simp only [s1, s2, s3, s4, s5, s7, assign, if_true, Option.bind_some, Option.map_some, e5]
  refine ⟨_, rfl, ?_⟩
  intro m hm
  rw [realForward_rfft, hK]
  simp only [fillSlice, put_unit]
  by_cases h0 : m = 0
  · subst h0
    rw [if_neg (by omega), if_neg (by omega), if_neg (by omega), if_pos (by omega), if_pos rfl]
    simp [packedRfft]
  · rw [if_neg h0]
    by_cases h1 : m = 1
    · subst h1
      rw [if_neg (by omega), if_neg (by omega), if_pos (by omega), if_pos rfl]
    · rw [if_neg h1]
      by_cases hk : m / 2 ≤ K
      · rw [if_pos hk, if_neg (by omega), if_pos (by omega)]
        unfold packedRfft
        by_cases h2 : m % 2 = 0
        · rw [if_pos h2, if_pos (by omega)]
          have : (1 + (m - 2) * 1 + 1) / 2 = m / 2 := by omega
          rw [this]; ring
        · rw [if_neg h2, if_neg (by omega), if_neg (by omega)]
          have : (1 + (m - 2) * 1) / 2 = m / 2 := by omega
          rw [this]; ring
      · rw [if_neg hk, if_pos (by omega)]

theorem backward_pack (N H : Nat) (hN : 0 < N) (hH : 0 < H) (c temp : Nat → ℝ) :
    ∃ out, backwardPack N (2 * H) c temp = some out ∧ ∀ x, out x = realBackwardMMT N (2 * H) c x := by
  have hN' : (N : ℝ) ≠ 0 := by exact_mod_cast hN.ne'
  have k1 := kmax_half N H
  have k2 := kmax_half' N (2 * H) hN
  have k3 := kmax_lt N (2 * H) hN
  have hh : halfSize N = (N - 1) / 2 := rfl
  have hpairs := real_backward_pairs N H hN hH c
  unfold backwardPack
  generalize hK : kmax N (2 * H) = K at *
  have s1 : slice N 0 (some 1) 1 = ⟨1, fun t => 0 + t * 1⟩ := slice_head _ 1 (by omega)
  have s2 : slice N 1 (some ((2 * (K + 1) - 1 : Nat) : Int)) 1 = ⟨2 * (K + 1) - 1 - 1, fun t => 1 + t * 1⟩ :=
    slice_unit _ _ _ _ _ (bound_nat _ 1 (by omega)) (bound_nat _ (2 * (K + 1) - 1) (by omega))
  have s3 : slice (2 * H) 0 (some 1) 1 = ⟨1, fun t => 0 + t * 1⟩ := slice_head _ 1 (by omega)
  have s5 : slice (2 * H) 2 (some ((2 * (K + 1) : Nat) : Int)) 1 = ⟨2 * (K + 1) - 2, fun t => 2 + t * 1⟩ :=
    slice_unit _ _ _ _ _ (bound_nat _ 2 (by omega)) (bound_nat _ (2 * (K + 1)) (by omega))
  have s7 : slice N ((2 * (K + 1) - 1 : Nat) : Int) none 1 = ⟨N - (2 * (K + 1) - 1), fun t => (2 * (K + 1) - 1) + t * 1⟩ :=
    slice_unit_none _ _ _ (bound_nat _ _ (by omega))
  have e5 : 2 * (K + 1) - 1 - 1 = 2 * (K + 1) - 2 := by omega
  simp only [s1, s2, s3, s5, s7, assign, if_true, Option.bind_some, Option.map_some, e5]
  refine ⟨_, rfl, ?_⟩
  intro x
  rw [packedIrfft, irfft, div_eq_iff hN', hpairs, irdft_low N K hN k2.2, add_mul, Finset.sum_mul]
  · congr 1
    · simp only [fillSlice, put_unit, if_true, Complex.ofReal_re]
      rw [if_neg (by omega), if_neg (by omega), if_pos (by omega)]
    · refine Finset.sum_congr rfl (fun k hk => ?_)
      simp only [Finset.mem_range] at hk
      simp only [fillSlice, put_unit]
      rw [if_neg (by omega), if_neg (by omega), if_pos (by omega), if_neg (by omega), if_pos (by omega)]
      have d1 : 2 + (2 * (k + 1) - 1 - 1) * 1 = 2 * (k + 1) := by omega
      have d2 : 2 + (2 * (k + 1) - 1) * 1 = 2 * (k + 1) + 1 := by omega
      rw [d1, d2]; ring
  · intro k h1 h2
    simp only [fillSlice, put_unit]
    rw [if_neg (by omega), if_pos (by omega), if_pos (by omega)]
    rfl
  · intro h2
    simp only [fillSlice, put_unit]
    rw [if_neg (by omega)]
    simp only
    rw [if_pos (by omega)]

/-! ### Half-complex -/

theorem sliceDown_end (N K : Nat) (h : K + 1 ≤ N) :
    sliceDown N (-1) (-((K + 1 : Nat) : Int)) = ⟨K, fun t => ((N : Int) - 1 - t).toNat⟩ := by
  simp only [sliceDown]
  have e1 : max (-1 + (N : Int)) (-1) = N - 1 := by omega
  have e2 : max (-((K + 1 : Nat) : Int) + (N : Int)) (-1) = N - (K + 1) := by omega
  rw [e1, e2]
  congr 1
  omega

theorem forward_half (N H : Nat) (hN : 0 < N) (hH : 0 < H) (g cdata : Nat → ℝ) :
    ∃ out, forwardHalf N (2 * H) g cdata = some out ∧ ∀ m, m < 2 * H → out m = realForwardMMT N (2 * H) g m := by
  have k1 := kmax_half N H
  have k2 := kmax_half' N (2 * H) hN
  have k3 := kmax_lt N (2 * H) hN
  unfold forwardHalf
  generalize hK : kmax N (2 * H) = K at *
  have s1 : slice N 0 (some 1) 1 = ⟨1, fun t => 0 + t * 1⟩ := slice_head _ 1 (by omega)
  have s2 : slice N 1 (some ((K + 1 : Nat) : Int)) 1 = ⟨K + 1 - 1, fun t => 1 + t * 1⟩ :=
    slice_unit _ _ _ _ _ (bound_nat _ 1 (by omega)) (bound_nat _ (K + 1) (by omega))
  have s3 : slice (2 * H) 0 (some 1) 1 = ⟨1, fun t => 0 + t * 1⟩ := slice_head _ 1 (by omega)
  have s4 : slice (2 * H) 1 (some 2) 1 = ⟨2 - 1, fun t => 1 + t * 1⟩ :=
    slice_unit _ _ _ _ _ (bound_nat _ 1 (by omega)) (bound_nat _ 2 (by omega))
  have s5 : slice (2 * H) 2 (some ((2 * (K + 1) : Nat) : Int)) 2 = ⟨(2 * (K + 1) - 2 + 1) / 2, fun t => 2 + t * 2⟩ :=
    slice_two _ _ _ _ _ (bound_nat _ 2 (by omega)) (bound_nat _ (2 * (K + 1)) (by omega))
  have s6 : slice (2 * H) 3 (some ((2 * (K + 1) : Nat) : Int)) 2 =
      ⟨(2 * (K + 1) - bound (2 * H) 3 + 1) / 2, fun t => bound (2 * H) 3 + t * 2⟩ :=
    slice_two _ _ _ _ _ rfl (bound_nat _ (2 * (K + 1)) (by omega))
  have s7 : slice (2 * H) ((2 * (K + 1) : Nat) : Int) none 1 = ⟨2 * H - 2 * (K + 1), fun t => 2 * (K + 1) + t * 1⟩ :=
    slice_unit_none _ _ _ (bound_nat _ _ (by omega))
  have b3 : bound (2 * H) 3 = min 3 (2 * H) := by unfold bound; simp
  have e5 : (2 * (K + 1) - 2 + 1) / 2 = K := by omega
  have e6 : (2 * (K + 1) - bound (2 * H) 3 + 1) / 2 = K := by rw [b3]; omega
  have e7 : K + 1 - 1 = K := by omega
  simp only [s1, s2, s3, s4, s5, s6, s7, sliceDown_end N K (by omega), assign, if_true, Option.bind_some,
    Option.map_some, e5, e6, e7]
  refine ⟨_, rfl, ?_⟩
  intro m hm
  rw [realForward_rfft, hK]
  simp only [fillSlice, put_unit, put_two]
  by_cases h0 : m = 0
  · subst h0
    rw [if_neg (by omega), if_neg (by omega), if_neg (by omega), if_neg (by omega), if_pos (by omega), if_pos rfl]
    simp [r2hc]
  · rw [if_neg h0]
    by_cases h1 : m = 1
    · subst h1
      rw [if_neg (by omega), if_neg (by omega), if_neg (by omega), if_pos (by omega), if_pos rfl]
    · rw [if_neg h1]
      by_cases hk : m / 2 ≤ K
      · rw [if_pos hk]
        by_cases h2 : m % 2 = 0
        · rw [if_pos h2, if_neg (by omega), if_neg (by omega), if_pos (by omega), r2hc, if_pos (by omega)]
          congr 3
          omega
        · rw [if_neg h2, if_neg (by omega), if_pos (by omega), r2hc, if_neg (by omega)]
          congr 3
          omega
      · rw [if_neg hk, if_pos (by omega)]

theorem backward_half (N H : Nat) (hN : 0 < N) (hH : 0 < H) (hpos : 0 < kmax N (2 * H)) (c temp : Nat → ℝ) :
    ∃ out, backwardHalf N (2 * H) c temp = some out ∧ ∀ x, out x = realBackwardMMT N (2 * H) c x := by
  have k1 := kmax_half N H
  have k2 := kmax_half' N (2 * H) hN
  have k3 := kmax_lt N (2 * H) hN
  have hh : halfSize N = (N - 1) / 2 := rfl
  have hpairs := real_backward_pairs N H hN hH c
  unfold backwardHalf
  generalize hK : kmax N (2 * H) = K at *
  have s1 : slice N 0 (some 1) 1 = ⟨1, fun t => 0 + t * 1⟩ := slice_head _ 1 (by omega)
  have s2 : slice N 1 (some ((K + 1 : Nat) : Int)) 1 = ⟨K + 1 - 1, fun t => 1 + t * 1⟩ :=
    slice_unit _ _ _ _ _ (bound_nat _ 1 (by omega)) (bound_nat _ (K + 1) (by omega))
  have s3 : slice (2 * H) 0 (some 1) 1 = ⟨1, fun t => 0 + t * 1⟩ := slice_head _ 1 (by omega)
  have s5 : slice (2 * H) 2 (some ((2 * (K + 1) : Nat) : Int)) 2 = ⟨(2 * (K + 1) - 2 + 1) / 2, fun t => 2 + t * 2⟩ :=
    slice_two _ _ _ _ _ (bound_nat _ 2 (by omega)) (bound_nat _ (2 * (K + 1)) (by omega))
  have s6 : slice (2 * H) 3 (some ((2 * (K + 1) : Nat) : Int)) 2 = ⟨(2 * (K + 1) - 3 + 1) / 2, fun t => 3 + t * 2⟩ :=
    slice_two _ _ _ _ _ (bound_nat _ 3 (by omega)) (bound_nat _ (2 * (K + 1)) (by omega))
  have s7 : slice N ((K + 1 : Nat) : Int) (some (-(K : Int))) 1 = ⟨N - K - (K + 1), fun t => (K + 1) + t * 1⟩ :=
    slice_unit _ _ _ _ _ (bound_nat _ _ (by omega)) (bound_neg _ _ (by omega) (by omega))
  have e5 : (2 * (K + 1) - 2 + 1) / 2 = K := by omega
  have e6 : (2 * (K + 1) - 3 + 1) / 2 = K := by omega
  have e7 : K + 1 - 1 = K := by omega
  simp only [s1, s2, s3, s5, s6, s7, sliceDown_end N K (by omega), assign, if_true, Option.bind_some,
    Option.map_some, e5, e6, e7]
  refine ⟨_, rfl, ?_⟩
  intro x
  rw [hc2r, hpairs, irdft_low N K hN k2.2]
  · congr 1
    · simp only [fillSlice, put_unit, put_down _ N _ K _ (by omega : K ≤ N), if_true, Complex.ofReal_re]
      rw [if_neg (by omega), if_neg (by omega), if_neg (by omega), if_pos (by omega)]
    · refine Finset.sum_congr rfl (fun k hk => ?_)
      simp only [Finset.mem_range] at hk
      simp only [fillSlice, put_unit, put_down _ N _ K _ (by omega : K ≤ N)]
      rw [if_neg (by omega), if_neg (by omega), if_neg (by omega), if_pos (by omega), if_neg (by omega), if_pos (by omega)]
      have d1 : 2 + (k + 1 - 1) * 2 = 2 * (k + 1) := by omega
      have d2 : 3 + (N - 1 - (N - (k + 1))) * 2 = 2 * (k + 1) + 1 := by omega
      rw [d1, d2]; ring
  · intro k h1 h2
    simp only [fillSlice, put_unit]
    rw [if_neg (by omega), if_pos (by omega), if_pos (by omega)]
    rfl
  · intro h2
    simp only [fillSlice, put_unit]
    rw [if_neg (by omega)]
    simp only
    rw [if_pos (by omega)]

end Dedalus.Fourier
