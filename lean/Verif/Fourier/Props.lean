import Verif.Fourier.Calculus
import Mathlib.Data.Rat.Floor
import Mathlib.Algebra.Order.Floor.Semiring

/-!
# Properties of the Fourier transforms and operators

The meaning of coefficients is in `Spec.lean`: `series`, `realSeries`, `grid`, `freq`, `Resolved`.
-/

namespace Dedalus.Fourier

open Spec

/-! ## C37: complex Fourier transforms -/

/-- The backward transform evaluates the resolved part of the series on the grid. -/
theorem complex_backward_evaluates (N M : Nat) (hN : 0 < N) (hM : 0 < M) (c : Nat → ℂ) (x : Nat) :
    backwardMMT N M c x = series M (fun m => if Resolved N M (freq M m) then c m else 0) (grid N x) := by
  rw [backward_eq, series, Finset.sum_filter]
  refine Finset.sum_congr rfl (fun m hm => ?_)
  rw [mode_grid]
  have hw := freq_eq M m (Finset.mem_range.mp hm)
  by_cases h : |wavenumber M m| ≤ kmax N M
  · have h' : Resolved N M (freq M m) := by rw [resolved_iff N M hN hM, ← hw]; exact h
    rw [if_pos h, if_pos h', hw]
  · have h' : ¬ Resolved N M (freq M m) := by rw [resolved_iff N M hN hM, ← hw]; exact h
    rw [if_neg h, if_neg h', zero_mul]

example : Resolved 4 6 (freq 6 5) ∧ ¬ Resolved 4 6 (freq 6 2) := by decide

/-- From coefficients to the grid and back: resolved modes are kept, all others are zero. -/
theorem complex_round_trip (N M : Nat) (hN : 0 < N) (c : Nat → ℂ) (m : Nat) (hm : m < M) :
    forwardMMT N M (backwardMMT N M c) m = if Resolved N M (freq M m) then c m else 0 := by
  rw [forward_backward N M hN c m hm]
  have h := resolved_iff N M hN (by omega) (freq M m)
  rw [← freq_eq M m hm] at h
  rw [← freq_eq M m hm]
  by_cases h1 : |wavenumber M m| ≤ kmax N M
  · rw [if_pos h1, if_pos (h.mpr h1)]
  · rw [if_neg h1, if_neg (fun e => h1 (h.mp e))]

/-- On an odd grid with at least as many coefficients as points, from the grid to coefficients and back is the identity. -/
theorem complex_grid_round_trip (N M : Nat) (hodd : N % 2 = 1) (hNM : N ≤ M) (g : Nat → ℂ) (x : Nat) (hx : x < N) :
    backwardMMT N M (forwardMMT N M g) x = g x := by
  have hN : 0 < N := by omega
  have hN' : (N : ℂ) ≠ 0 := by exact_mod_cast hN.ne'
  have k1 : 2 * kmax N M + 1 = N := by unfold kmax halfSize; omega
  rw [backward_eq]
  have h1 : ∀ m ∈ (Finset.range M).filter (fun m => |wavenumber M m| ≤ kmax N M),
      forwardMMT N M g m * om N (wavenumber M m * x) =
      ∑ y ∈ Finset.range N, g y * (1 / N) * om N (wavenumber M m * ((x : Int) - y)) := by
    intro m hm
    rw [forwardMMT_eq N M g m (Finset.mem_filter.mp hm).2, Finset.sum_mul, Finset.sum_mul]
    refine Finset.sum_congr rfl (fun y _ => ?_)
    have : om N (wavenumber M m * ((x : Int) - y)) = om N (-wavenumber M m * y) * om N (wavenumber M m * x) := by
      rw [← om_add]; congr 1; ring
    rw [this]; ring
  rw [Finset.sum_congr rfl h1, Finset.sum_comm]
  have h2 : ∀ y ∈ Finset.range N, ∑ m ∈ (Finset.range M).filter (fun m => |wavenumber M m| ≤ kmax N M),
      g y * (1 / N) * om N (wavenumber M m * ((x : Int) - y)) = if y = x then g y else 0 := by
    intro y hy
    rw [Finset.mem_range] at hy
    rw [← Finset.mul_sum]
    have h3 : ∑ m ∈ (Finset.range M).filter (fun m => |wavenumber M m| ≤ kmax N M),
        om N (wavenumber M m * ((x : Int) - y)) = ∑ j ∈ Finset.range N, om N (((x : Int) - y) * j) := by
      have hall : ∑ j ∈ Finset.range N, om N (((x : Int) - y) * j) =
          ∑ j ∈ Finset.range N with |wavenumber N j| ≤ kmax N M, om N (((x : Int) - y) * j) := by
        rw [Finset.sum_filter]
        refine Finset.sum_congr rfl (fun j hj => ?_)
        rw [Finset.mem_range] at hj
        rw [if_pos ((abs_wavenumber_le N _ j (by omega) hj).mpr (by omega))]
      rw [hall, sum_ends N _ (by omega), sum_ends M _ (by omega)]
      congr 1
      · refine Finset.sum_congr rfl (fun t ht => ?_)
        rw [Finset.mem_range] at ht
        rw [wavenumber_of_le M (kmax N M) t (by omega) (by omega), mul_comm]
      · refine Finset.sum_congr rfl (fun t ht => ?_)
        rw [Finset.mem_range] at ht
        rw [wavenumber_of_ge M (kmax N M) (M - kmax N M + t) (by omega) (by omega) (by omega)]
        refine om_mod N hN _ _ ⟨-((x : Int) - y), ?_⟩
        have a1 : ((N - kmax N M + t : Nat) : Int) = (N : Int) - kmax N M + t := by omega
        have a2 : ((M - kmax N M + t : Nat) : Int) = (M : Int) - kmax N M + t := by omega
        rw [a1, a2]; ring
    rw [h3, om_sum N hN]
    by_cases e : y = x
    · subst e
      rw [if_pos (by simp), if_pos rfl]
      field_simp
    · rw [if_neg, if_neg e, mul_zero]
      intro hd
      have := dvd_small hd (by omega) (by omega)
      omega
  rw [Finset.sum_congr rfl h2, Finset.sum_ite_eq' (Finset.range N) x g, if_pos (Finset.mem_range.mpr hx)]

/-- The fast transforms compute the same coefficients and grid values as the matrices, whatever the buffers held. -/
theorem complex_libraries_agree (N M : Nat) (hN : 0 < N) (hM : 0 < M) (g c buffer : Nat → ℂ) :
    (∃ out, forwardFFT N M g buffer = some out ∧ ∀ m, m < M → out m = forwardMMT N M g m) ∧
    (∃ out, backwardScipy N M c buffer = some out ∧ ∀ x, out x = backwardMMT N M c x) ∧
    (∃ out, backwardFFTW N M c buffer = some out ∧ ∀ x, out x = backwardMMT N M c x) :=
  ⟨forward_fft N M hN hM g buffer, backward_scipy N M hN hM c buffer, backward_fftw N M hN hM c buffer⟩

/-- Truncation and padding keep each mode at its wavenumber and clear everything else. -/
theorem complex_resize_keeps_modes (K P Q : Nat) (hP : 2 * K < P) (hQ : 2 * K < Q) (f : ℂ → ℂ) (src buffer : Nat → ℂ) :
    ∃ out, resizeCoeffs K P Q f src buffer = some out ∧
      (∀ i j, i < Q → j < P → freq Q i = freq P j → |freq Q i| ≤ K → out i = f (src j)) ∧
      (∀ i, i < Q → (K : Int) < |freq Q i| → out i = 0) := by
  obtain ⟨out, h1, h2⟩ := resize_spec K P Q f src buffer hP hQ
  refine ⟨out, h1, ?_, ?_⟩
  · intro i j hi hj he hk
    have a1 := abs_wavenumber_le Q K i hQ hi
    have a2 := abs_wavenumber_le P K j hP hj
    rw [freq_eq Q i hi] at a1
    rw [freq_eq P j hj, ← he] at a2
    have b1 := a1.mp hk
    have b2 := a2.mp hk
    rw [h2 i hi]
    have he' := he
    unfold freq at he'
    by_cases c1 : i ≤ K
    · rw [if_pos c1]
      congr 2
      rw [if_pos (by omega)] at he'
      split at he' <;> omega
    · rw [if_neg c1, if_pos (by omega)]
      congr 2
      rw [if_neg (by omega)] at he'
      split at he' <;> omega
  · intro i hi hk
    have a1 := abs_wavenumber_le Q K i hQ hi
    rw [freq_eq Q i hi] at a1
    rw [h2 i hi, if_neg (by omega), if_neg (by omega)]

example : freq 8 7 = freq 5 4 ∧ |freq 8 7| ≤ (2 : Int) ∧ (2 : Int) < |freq 8 4| := by decide

/-! ## C38: real Fourier transforms -/

theorem real_backward_evaluates (N M : Nat) (hN : 0 < N) (hM : 0 < M) (c : Nat → ℝ) (x : Nat) :
    realBackwardMMT N M c x = realSeries M (fun m => if Resolved N M (m / 2 : Nat) then c m else 0) (grid N x) := by
  rw [realBackwardMMT, realSeries]
  refine Finset.sum_congr rfl (fun m hm => ?_)
  rw [realMode_grid, realBackwardMatrix]
  have h : Resolved N M ((m / 2 : Nat) : Int) ↔ m / 2 ≤ kmax N M := by
    rw [resolved_iff N M hN hM, abs_of_nonneg (by omega)]; omega
  by_cases h1 : m / 2 ≤ kmax N M
  · rw [if_pos h1, if_pos (h.mpr h1), cosWave_cs, sinWave_sn]
    split <;> ring
  · rw [if_neg h1, if_neg (fun e => h1 (h.mp e))]; ring

/-- Resolved modes are kept; the other modes and the `-sin 0θ` entry are zero. -/
theorem real_round_trip (N M : Nat) (hN : 0 < N) (c : Nat → ℝ) (m : Nat) (hm : m < M) :
    realForwardMMT N M (realBackwardMMT N M c) m =
      if Resolved N M ((m / 2 : Nat) : Int) ∧ m ≠ 1 then c m else 0 := by
  rw [real_forward_backward N M hN c m hm]
  have h : Resolved N M ((m / 2 : Nat) : Int) ↔ m / 2 ≤ kmax N M := by
    rw [resolved_iff N M hN (by omega), abs_of_nonneg (by omega)]; omega
  by_cases h1 : m / 2 ≤ kmax N M ∧ m ≠ 1
  · rw [if_pos h1, if_pos ⟨h.mpr h1.1, h1.2⟩]
  · rw [if_neg h1, if_neg (fun e => h1 ⟨h.mp e.1, e.2⟩)]

/-- All libraries compute the same coefficients, whatever the buffers held. -/
theorem real_forward_libraries_agree (N H : Nat) (hN : 0 < N) (hH : 0 < H) (g buffer : Nat → ℝ) :
    (∃ out, realForwardFFT N (2 * H) g buffer = some out ∧ ∀ m, m < 2 * H → out m = realForwardMMT N (2 * H) g m) ∧
    (∃ out, forwardPack N (2 * H) g buffer = some out ∧ ∀ m, m < 2 * H → out m = realForwardMMT N (2 * H) g m) ∧
    (∃ out, forwardHalf N (2 * H) g buffer = some out ∧ ∀ m, m < 2 * H → out m = realForwardMMT N (2 * H) g m) :=
  ⟨real_forward_fft N H hN hH g buffer, forward_pack N H hN hH g buffer, forward_half N H hN hH g buffer⟩

/-- The backward transforms of the libraries other than `fftw_hc` compute the same values, whatever the buffers held. -/
theorem real_backward_libraries_agree (N H : Nat) (hN : 0 < N) (hH : 0 < H) (c buffer : Nat → ℝ) (cbuffer : Nat → ℂ) :
    (∃ out, realBackwardScipy N (2 * H) c cbuffer = some out ∧ ∀ x, out x = realBackwardMMT N (2 * H) c x) ∧
    (∃ out, realBackwardFFTW N (2 * H) c cbuffer = some out ∧ ∀ x, out x = realBackwardMMT N (2 * H) c x) ∧
    (∃ out, backwardPack N (2 * H) c buffer = some out ∧ ∀ x, out x = realBackwardMMT N (2 * H) c x) :=
  ⟨(real_backward_both N H hN hH c cbuffer).1, (real_backward_both N H hN hH c cbuffer).2, backward_pack N H hN hH c buffer⟩

/-- `fftw_hc` too, if any mode other than the mean is resolved. Missing: grids or bases that resolve only the mean. -/
theorem real_halfcomplex_backward_partial (N H : Nat) (hN : 3 ≤ N) (hH : 2 ≤ H) (c buffer : Nat → ℝ) :
    ∃ out, backwardHalf N (2 * H) c buffer = some out ∧ ∀ x, out x = realBackwardMMT N (2 * H) c x :=
  backward_half N H (by omega) (by omega) (by unfold kmax halfSize; omega) c buffer

/-- When only the mean is resolved, `fftw_hc` mixes whatever the previous transform left in its buffer into the grid
values: here the forward transform of a delta function. -/
theorem real_halfcomplex_mean_refuted : ∃ (g c out : Nat → ℝ),
    backwardHalf 3 2 c (r2hc 3 g) = some out ∧ (∀ m, m < 2 → c m = 0) ∧ out 0 ≠ 0 ∧ realBackwardMMT 3 2 c 0 = 0 := by
  have hK : kmax 3 2 = 0 := by decide
  have s1 : slice 3 0 (some 1) 1 = ⟨1, fun t => 0 + t * 1⟩ := slice_head 3 1 (by omega)
  have s2 : slice 2 0 (some 1) 1 = ⟨1, fun t => 0 + t * 1⟩ := slice_head 2 1 (by omega)
  have s3 : (slice 2 2 (some 2) 2).count = 0 := by decide
  have s4 : (slice 2 3 (some 2) 2).count = 0 := by decide
  have s5 : (slice 3 1 (some 1) 1).count = 0 := by decide
  have s6 : (slice 3 1 (some 0) 1).count = 0 := by decide
  have s7 : (sliceDown 3 (-1) (-1)).count = 0 := by decide
  have key : ∀ temp : Nat → ℝ, backwardHalf 3 2 (fun _ => 0) temp =
      some (hc2r 3 (fun i => if i = 0 then 0 else temp i)) := by
    intro temp
    unfold backwardHalf
    simp only [hK, Nat.zero_add, Nat.mul_one, Nat.cast_ofNat, Nat.cast_one, Nat.cast_zero, neg_zero, s1, s2, assign,
      s3, s4, s5, s6, s7, if_true, Option.bind_some, Option.map_some, fillSlice, put]
  refine ⟨fun x => if x = 0 then 1 else 0, fun _ => 0, _, key _, fun _ _ => rfl, ?_, ?_⟩
  · have hr : r2hc 3 (fun x => if x = 0 then 1 else 0) 1 = 1 := by
      unfold r2hc
      rw [if_pos (by omega), rfft_re]
      simp [Finset.sum_range_succ, cs]
    unfold hc2r irdft
    have hh : halfSize 3 = 1 := by decide
    simp [hh, Finset.sum_range_succ, hr]
  · unfold realBackwardMMT
    simp

/-! ## C39: dealiasing -/

/-- A factor `3/2` makes the grid large enough (`Basis.grid_shape`). -/
theorem dealiased_grid_size (M : Nat) : 3 * M ≤ 2 * ⌈(3 / 2 : ℚ) * M⌉₊ := by
  have h := Nat.le_ceil ((3 / 2 : ℚ) * M)
  have : (3 * M : ℚ) ≤ ((2 * ⌈(3 / 2 : ℚ) * M⌉₊ : Nat) : ℚ) := by push_cast; linarith
  exact_mod_cast this

/-- Products on a dealiased grid: the coefficients are the truncated convolution. -/
theorem complex_product_dealiased (N M : Nat) (hM : 0 < M) (h : 3 * M ≤ 2 * N) (u v : Nat → ℂ) (m : Nat) (hm : m < M) :
    forwardMMT N M (fun x => backwardMMT N M u x * backwardMMT N M v x) m =
      if 2 * |freq M m| < M then
        ∑ p ∈ Finset.range M, ∑ q ∈ Finset.range M,
          if 2 * |freq M p| < M ∧ 2 * |freq M q| < M ∧ freq M p + freq M q = freq M m then u p * v q else 0
      else 0 := by
  have hN : 0 < N := by omega
  have hk : kmax N M = halfSize M := by unfold kmax halfSize; omega
  have hh : halfSize M = (M - 1) / 2 := rfl
  have hres : ∀ j, j < M → (2 * |freq M j| < M ↔ |wavenumber M j| ≤ kmax N M) := by
    intro j hj; rw [freq_eq M j hj, hk]; omega
  have hprod : (fun x => backwardMMT N M u x * backwardMMT N M v x) = fun (x : Nat) =>
      ∑ e ∈ ((Finset.range M).filter (fun m => |wavenumber M m| ≤ kmax N M)) ×ˢ
        ((Finset.range M).filter (fun m => |wavenumber M m| ≤ kmax N M)),
        (u e.1 * v e.2) * om N ((wavenumber M e.1 + wavenumber M e.2) * x) := by
    funext x
    rw [backward_eq, backward_eq, Finset.sum_mul_sum, Finset.sum_product]
    refine Finset.sum_congr rfl (fun p _ => Finset.sum_congr rfl (fun q _ => ?_))
    rw [add_mul, om_add]; ring
  rw [hprod, forward_poly _ _ _ N M hN (2 * kmax N M)]
  · by_cases h1 : 2 * |freq M m| < M
    · rw [if_pos h1, if_pos ((hres m hm).mp h1), Finset.sum_filter, Finset.sum_product, Finset.sum_filter]
      refine Finset.sum_congr rfl (fun p hp => ?_)
      rw [Finset.mem_range] at hp
      by_cases hp1 : |wavenumber M p| ≤ kmax N M
      · rw [if_pos hp1, Finset.sum_filter]
        refine Finset.sum_congr rfl (fun q hq => ?_)
        rw [Finset.mem_range] at hq
        simp only
        rw [← freq_eq M m hm, ← freq_eq M p hp, ← freq_eq M q hq]
        by_cases hq1 : |wavenumber M q| ≤ kmax N M
        · rw [if_pos hq1]
          refine if_congr ?_ rfl rfl
          have a1 := (hres p hp).mpr hp1
          have a2 := (hres q hq).mpr hq1
          rw [← freq_eq M p hp] at a1
          rw [← freq_eq M q hq] at a2
          exact ⟨fun e => ⟨a1, a2, e⟩, fun e => e.2.2⟩
        · rw [if_neg hq1, if_neg]
          intro e
          have := e.2.1
          rw [freq_eq M q hq, hres q hq] at this
          exact hq1 this
      · rw [if_neg hp1]
        symm
        apply Finset.sum_eq_zero
        intro q _
        rw [if_neg (fun e => hp1 ((hres p hp).mp e.1))]
    · rw [if_neg h1, if_neg (fun e => h1 ((hres m hm).mpr e))]
  · rintro ⟨p, q⟩ he
    simp only [Finset.mem_product, Finset.mem_filter] at he
    have := abs_add_le (wavenumber M p) (wavenumber M q)
    push_cast
    omega
  · omega

example : ∃ (N M : Nat), 0 < M ∧ 3 * M ≤ 2 * N ∧ 2 * |freq M 1| < M := ⟨6, 4, by decide⟩

/-- The coefficients of the product of two real series. -/
theorem real_series_product (H : Nat) (u v : Nat → ℝ) :
    ∃ w : Nat → ℝ, ∀ θ, realSeries (2 * H) u θ * realSeries (2 * H) v θ = realSeries (4 * H) w θ := by
  refine ⟨fun p => ∑ i ∈ Finset.range (2 * H), ∑ q ∈ Finset.range (2 * H), u i * v q * prodCoeff i p q, fun θ => ?_⟩
  unfold realSeries
  rw [Finset.sum_mul_sum]
  simp only [Finset.sum_mul]
  rw [Finset.sum_comm (s := Finset.range (4 * H))]
  refine Finset.sum_congr rfl (fun i hi => ?_)
  rw [Finset.sum_comm (s := Finset.range (4 * H))]
  refine Finset.sum_congr rfl (fun q hq => ?_)
  rw [Finset.mem_range] at hi hq
  have := mode_product (2 * H) i q (by omega) θ
  rw [show u i * realMode i θ * (v q * realMode q θ) = u i * v q * (realMode i θ * realMode q θ) by ring, ← this,
    Finset.mul_sum, show 2 * (2 * H) = 4 * H by ring]
  exact Finset.sum_congr rfl (fun p _ => by ring)

/-- The forward transform is exact on series of few enough modes for the grid. -/
theorem real_forward_exact (N M L : Nat) (hN : 0 < N) (hL : L + kmax N M ≤ N) (w : Nat → ℝ) (m : Nat)
    (hm : Resolved N M ((m / 2 : Nat) : Int)) (hM : 0 < M) (hm1 : m ≠ 1) :
    realForwardMMT N M (fun x => realSeries (2 * L) w (grid N x)) m = if m < 2 * L then w m else 0 := by
  have hk : m / 2 ≤ kmax N M := by
    rw [resolved_iff N M hN hM, abs_of_nonneg (by omega)] at hm; omega
  have e : (fun x => realSeries (2 * L) w (grid N x)) = fun (x : Nat) => ∑ i ∈ Finset.range (2 * L),
      ((if i % 2 = 0 then w i else 0) * cs N (((i / 2 : Nat) : Int) * x) -
        (if i % 2 = 0 then 0 else w i) * sn N (((i / 2 : Nat) : Int) * x)) := by
    funext x
    unfold realSeries
    refine Finset.sum_congr rfl (fun i _ => ?_)
    rw [realMode_grid]
    by_cases h2 : i % 2 = 0
    · rw [if_pos h2, if_pos h2, if_pos h2]; ring
    · rw [if_neg h2, if_neg h2, if_neg h2]; ring
  by_cases hL0 : L = 0
  · subst hL0
    have h0 : (fun x => realSeries (2 * 0) w (grid N x)) = fun _ => 0 := by funext x; simp [realSeries]
    rw [h0, if_neg (by omega)]
    simp [realForwardMMT]
  · rw [e, real_forward_poly _ (fun i => if i % 2 = 0 then w i else 0) (fun i => if i % 2 = 0 then 0 else w i)
      (fun i => i / 2) N M hN (L - 1) (fun i hi => by rw [Finset.mem_range] at hi; omega) (by omega), if_pos hk]
    by_cases hmL : m < 2 * L
    · rw [if_pos hmL]
      by_cases h2 : m % 2 = 0
      · rw [if_pos h2, Finset.sum_eq_single m]
        · rw [if_pos h2]
        · intro b hb hne
          simp only [Finset.mem_filter, Finset.mem_range] at hb
          rw [if_neg (by omega)]
        · intro hn; exact absurd (by simp [hmL]) hn
      · rw [if_neg h2, if_neg (by omega), Finset.sum_eq_single m]
        · rw [if_neg h2]
        · intro b hb hne
          simp only [Finset.mem_filter, Finset.mem_range] at hb
          rw [if_pos (by omega)]
        · intro hn; exact absurd (by simp [hmL]) hn
    · rw [if_neg hmL]
      have hempty : (Finset.range (2 * L)).filter (fun i => i / 2 = m / 2) = ∅ := by
        rw [Finset.filter_eq_empty_iff]
        intro i hi
        rw [Finset.mem_range] at hi
        omega
      rw [hempty]
      simp

/-- Products of real Fourier fields on a dealiased grid: the coefficients are those of the product of the two functions. -/
theorem real_product_dealiased (N H : Nat) (hH : 0 < H) (h : 3 * (2 * H) ≤ 2 * N) (u v : Nat → ℝ) :
    ∃ w : Nat → ℝ, (∀ θ, realSeries (2 * H) u θ * realSeries (2 * H) v θ = realSeries (4 * H) w θ) ∧
      ∀ m, m < 2 * H → m ≠ 1 →
        realForwardMMT N (2 * H) (fun x => realBackwardMMT N (2 * H) u x * realBackwardMMT N (2 * H) v x) m = w m := by
  obtain ⟨w, hw⟩ := real_series_product H u v
  refine ⟨w, hw, ?_⟩
  intro m hm hm1
  have hall : ∀ (c : Nat → ℝ) x, realBackwardMMT N (2 * H) c x = realSeries (2 * H) c (grid N x) := by
    intro c x
    rw [real_backward_evaluates N (2 * H) (by omega) (by omega)]
    unfold realSeries
    refine Finset.sum_congr rfl (fun i hi => ?_)
    rw [Finset.mem_range] at hi
    have hr : Resolved N (2 * H) ((i / 2 : Nat) : Int) := by
      unfold Resolved
      rw [abs_of_nonneg (by omega)]
      omega
    simp only [if_pos hr]
  have e : (fun x => realBackwardMMT N (2 * H) u x * realBackwardMMT N (2 * H) v x) =
      fun x => realSeries (2 * (2 * H)) w (grid N x) := by
    funext x
    rw [hall, hall, hw, show 2 * (2 * H) = 4 * H by ring]
  rw [e, real_forward_exact N (2 * H) (2 * H) (by omega) (by unfold kmax halfSize; omega) w m _ (by omega) hm1,
    if_pos (by omega)]
  unfold Resolved
  rw [abs_of_nonneg (by omega)]
  omega

example : ∃ (N H : Nat), 0 < H ∧ 3 * (2 * H) ≤ 2 * N ∧ 3 < 2 * H := ⟨6, 2, by decide⟩

/-! ## C41: multiplication matrices -/

/-- The matrix for multiplication by real mode `i`, applied to coefficients `c`, gives the coefficients of the product
function in every output mode. -/
theorem real_product_matrix (Hself Hout Harg i : Nat) (h : 2 ≤ Hself) (hi : i < 2 * Hself) :
    ∃ A, realProductMatrix Hself Hout (some Harg) i = some A ∧ ∀ c : Nat → ℝ, ∃ d : Nat → ℝ,
      (∀ θ, realMode i θ * realSeries (2 * Harg) c θ = realSeries (2 * (Hself + Harg)) d θ) ∧
      (∀ p, 2 * (Hself + Harg) ≤ p → d p = 0) ∧
      ∀ p, p < 2 * Hout → ∑ q ∈ Finset.range (2 * Harg), A p q * c q = d p := by
  unfold realProductMatrix
  rw [if_neg (by omega)]
  by_cases h0 : i / 2 = 0
  · rw [if_pos h0]
    by_cases hi2 : i % 2 = 0
    · have hi0 : i = 0 := by omega
      subst hi0
      rw [if_pos rfl]
      refine ⟨_, rfl, fun c => ⟨fun p => if p < 2 * Harg then c p else 0, ?_, ?_, ?_⟩⟩
      · intro θ
        have e1 : realMode 0 θ = 1 := by simp [realMode]
        rw [e1, one_mul]
        unfold realSeries
        rw [show 2 * (Hself + Harg) = 2 * Harg + 2 * Hself by ring, Finset.sum_range_add]
        have hz : ∑ x ∈ Finset.range (2 * Hself), (if 2 * Harg + x < 2 * Harg then c (2 * Harg + x) else 0) *
            realMode (2 * Harg + x) θ = 0 := Finset.sum_eq_zero (fun x _ => by rw [if_neg (by omega), zero_mul])
        rw [hz, add_zero]
        refine Finset.sum_congr rfl (fun m hm => ?_)
        rw [Finset.mem_range] at hm
        simp only [if_pos hm]
      · intro p hp; simp only [if_neg (show ¬ p < 2 * Harg by omega)]
      · intro p _
        simp only [ite_mul, one_mul, zero_mul]
        rw [Finset.sum_ite_eq (Finset.range (2 * Harg)) p c]
        simp only [Finset.mem_range]
    · have hi1 : i = 1 := by omega
      subst hi1
      rw [if_neg hi2]
      refine ⟨_, rfl, fun c => ⟨fun _ => 0, ?_, fun _ _ => rfl, ?_⟩⟩
      · intro θ
        simp [realMode, realSeries]
      · intro p _; simp
  · rw [if_neg h0]
    have hfit : columnsFit Hout (argHalf (some Harg)) (argSize (some Harg)) (i / 2) := by
      unfold columnsFit argHalf argSize
      rintro ⟨r, q⟩ he
      rw [pairsShift_eq] at he
      simp only [pairs, Finset.mem_union, Finset.mem_filter, Finset.mem_product, Finset.mem_range] at he
      show 2 * q + 1 < 2 * Harg
      omega
    rw [if_pos hfit]
    refine ⟨_, rfl, fun c => ⟨fun p => ∑ q ∈ Finset.range (2 * Harg), prodCoeff i p q * c q, ?_, ?_, ?_⟩⟩
    · intro θ
      unfold realSeries
      simp only [Finset.sum_mul]
      rw [Finset.mul_sum, Finset.sum_comm]
      refine Finset.sum_congr rfl (fun q hq => ?_)
      rw [Finset.mem_range] at hq
      rw [show realMode i θ * (c q * realMode q θ) = c q * (realMode i θ * realMode q θ) by ring,
        ← mode_product (Hself + Harg) i q (by omega) θ, Finset.mul_sum]
      exact Finset.sum_congr rfl (fun p _ => by ring)
    · intro p hp
      apply Finset.sum_eq_zero
      intro q hq
      rw [Finset.mem_range] at hq
      have : prodCoeff i p q = 0 := by
        unfold prodCoeff
        simp only
        rw [if_neg (show ¬ p = 2 * (i / 2 + q / 2) + (i + q) % 2 by omega),
          if_neg (show ¬ (q / 2 ≤ i / 2 ∧ p = 2 * (i / 2 - q / 2) + (i + q) % 2) by omega),
          if_neg (show ¬ (i / 2 < q / 2 ∧ p = 2 * (q / 2 - i / 2) + (i + q) % 2) by omega)]
        simp
      rw [this, zero_mul]
    · intro p hp
      refine Finset.sum_congr rfl (fun q hq => ?_)
      rw [Finset.mem_range] at hq
      rw [show argHalf (some Harg) = Harg from rfl, entries_eq Hout Harg i p q hp hq]

/-- The matrices agree with multiplication on a dealiased grid. -/
theorem real_product_matrix_matches_grid (N H i : Nat) (hH : 2 ≤ H) (hi : i < 2 * H) (h : 3 * (2 * H) ≤ 2 * N)
    (c : Nat → ℝ) :
    ∃ A, realProductMatrix H H (some H) i = some A ∧ ∀ m, m < 2 * H → m ≠ 1 →
      ∑ q ∈ Finset.range (2 * H), A m q * c q =
        realForwardMMT N (2 * H) (fun x => realMode i (grid N x) * realBackwardMMT N (2 * H) c x) m := by
  obtain ⟨A, hA, hprod⟩ := real_product_matrix H H H i hH hi
  obtain ⟨d, hd, _, hrow⟩ := hprod c
  refine ⟨A, hA, ?_⟩
  intro m hm hm1
  rw [hrow m hm]
  have hall : ∀ x, realBackwardMMT N (2 * H) c x = realSeries (2 * H) c (grid N x) := by
    intro x
    rw [real_backward_evaluates N (2 * H) (by omega) (by omega)]
    unfold realSeries
    refine Finset.sum_congr rfl (fun i hi => ?_)
    rw [Finset.mem_range] at hi
    have hr : Resolved N (2 * H) ((i / 2 : Nat) : Int) := by
      unfold Resolved
      rw [abs_of_nonneg (by omega)]
      omega
    simp only [if_pos hr]
  have e : (fun x => realMode i (grid N x) * realBackwardMMT N (2 * H) c x) =
      fun x => realSeries (2 * (H + H)) d (grid N x) := by
    funext x; rw [hall, hd]
  rw [e, real_forward_exact N (2 * H) (H + H) (by omega) (by unfold kmax halfSize; omega) d m _ (by omega) hm1,
    if_pos (by omega)]
  unfold Resolved
  rw [abs_of_nonneg (by omega)]
  omega

/-- Multiplying a constant by a non-constant real mode raises: the matrix is built for pairs of columns although the
operand has only one. -/
theorem real_product_constant_refuted (Hself Hout i : Nat) (hi : 2 ≤ i) (hout : i / 2 < Hout) :
    realProductMatrix Hself Hout none i = none := by
  unfold realProductMatrix
  by_cases h1 : 2 * Hself ≤ 2 ∨ 2 * Hself ≤ i
  · rw [if_pos h1]
  · rw [if_neg h1, if_neg (by omega), if_neg]
    intro hf
    have := hf (i / 2, 0) (by
      simp only [Finset.mem_union]
      left; left
      simp only [pairs, argHalf, Finset.mem_filter, Finset.mem_product, Finset.mem_range]
      exact ⟨⟨hout, by omega⟩, by omega⟩)
    simp [argSize] at this

/-- With a single wavenumber even the multiplication by the mean mode raises. -/
theorem product_single_wavenumber_refuted (out : Nat) (arg : Option Nat) (i : Nat) :
    realProductMatrix 1 out arg i = none ∧ complexProductMatrix 1 out arg i = none :=
  ⟨if_pos (Or.inl (by omega)), if_pos (Or.inl (by omega))⟩

/-- Complex modes: entry `p` of the matrix times `c` is the coefficient of the output wavenumber `k_p` in the product. The
operand may be a constant. -/
theorem complex_product_matrix (self out i : Nat) (arg : Option Nat) (h : 2 ≤ self) (hi : i < self) :
    ∃ A, complexProductMatrix self out arg i = some A ∧ ∀ c : Nat → ℂ, ∃ d : Int → ℂ, ∃ s : Finset Int,
      (∀ θ, mode (freq self i) θ * operand c θ arg =
        ∑ k ∈ s, d k * mode k θ) ∧
      (∀ k, k ∉ s → d k = 0) ∧
      ∀ p, p < out → ∑ q ∈ Finset.range (operandSize arg), A p q * c q = d (freq out p) := by
  unfold complexProductMatrix
  rw [if_neg (by omega)]
  refine ⟨_, rfl, fun c => ?_⟩
  have entry : ∀ p q, p < out → q < (complexArg arg).1 →
      (∑ t ∈ pairs out (complexArg arg).1 (nativeWavenumber out)
        (fun c => (complexArg arg).2 c + nativeWavenumber self i), if t.1 = p ∧ t.2 = q then (1 : ℂ) else 0) =
      if freq out p = (complexArg arg).2 q + freq self i then 1 else 0 := by
    intro p q hp hq
    rw [← native_eq out p hp, ← native_eq self i hi]
    by_cases e : nativeWavenumber out p = (complexArg arg).2 q + nativeWavenumber self i
    · rw [if_pos e, Finset.sum_eq_single (p, q)]
      · rw [if_pos ⟨rfl, rfl⟩]
      · rintro ⟨r, s⟩ _ hne
        rw [if_neg]
        rintro ⟨h1, h2⟩
        exact hne (Prod.ext h1 h2)
      · intro hn
        exfalso; apply hn
        simp only [pairs, Finset.mem_filter, Finset.mem_product, Finset.mem_range]
        exact ⟨⟨hp, hq⟩, e⟩
    · rw [if_neg e]
      apply Finset.sum_eq_zero
      rintro ⟨r, s⟩ ht
      simp only [pairs, Finset.mem_filter, Finset.mem_product, Finset.mem_range] at ht
      rw [if_neg]
      rintro ⟨h1, h2⟩
      simp only at h1 h2
      subst h1; subst h2
      exact e ht.2
  refine ⟨fun k => ∑ q ∈ Finset.range (complexArg arg).1, if k = (complexArg arg).2 q + freq self i then c q else 0,
    (Finset.range (complexArg arg).1).image (fun q => (complexArg arg).2 q + freq self i), ?_, ?_, ?_⟩
  · intro θ
    have h1 : mode (freq self i) θ * operand c θ arg =
        ∑ q ∈ Finset.range (complexArg arg).1, c q * mode ((complexArg arg).2 q + freq self i) θ := by
      cases arg with
      | none =>
        simp [complexArg, operand, mul_comm]
      | some n =>
        simp only [complexArg, operand, series]
        rw [Finset.mul_sum]
        refine Finset.sum_congr rfl (fun q hq => ?_)
        rw [native_eq n q (Finset.mem_range.mp hq), mode_add]
        ring
    rw [h1]
    simp only [Finset.sum_mul]
    rw [Finset.sum_comm]
    refine Finset.sum_congr rfl (fun q hq => ?_)
    rw [Finset.sum_eq_single ((complexArg arg).2 q + freq self i)]
    · rw [if_pos rfl]
    · intro b _ hb; rw [if_neg hb, zero_mul]
    · intro hn; exact absurd (Finset.mem_image_of_mem _ hq) hn
  · intro k hk
    apply Finset.sum_eq_zero
    intro q hq
    rw [if_neg]
    intro e
    exact hk (by rw [e]; exact Finset.mem_image_of_mem (fun q => (complexArg arg).2 q + freq self i) hq)
  · intro p hp
    have hn : operandSize arg = (complexArg arg).1 := by cases arg <;> rfl
    rw [hn]
    refine Finset.sum_congr rfl (fun q hq => ?_)
    rw [entry p q hp (Finset.mem_range.mp hq)]
    split <;> simp

/-! ## C42: change of variables -/

theorem cov_round_trip (v : Cov) (hn : v.nativeLeft ≠ v.nativeRight) (hp : v.problemLeft ≠ v.problemRight) (x : ℝ) :
    ((v.problemCoord (.num x)).bind fun y => v.nativeCoord (.num y)) = some x ∧
    ((v.nativeCoord (.num x)).bind fun y => v.problemCoord (.num y)) = some x := by
  have h1 : v.nativeLength ≠ 0 := sub_ne_zero.mpr hn.symm
  have h2 : v.problemLength ≠ 0 := sub_ne_zero.mpr hp.symm
  constructor
  · simp only [Cov.problemCoord, Cov.nativeCoord, Option.bind_some, Option.some.injEq]
    field_simp
    ring
  · simp only [Cov.problemCoord, Cov.nativeCoord, Option.bind_some, Option.some.injEq]
    field_simp
    ring

/-- Named positions are the numbers they name, in both directions. -/
theorem cov_names (v : Cov) (hn : v.nativeLeft ≠ v.nativeRight) (hp : v.problemLeft ≠ v.problemRight) :
    (∀ s ∈ ["left", "lower"], v.nativeCoord (.name s) = v.nativeCoord (.num v.problemLeft) ∧
      v.problemCoord (.name s) = v.problemCoord (.num v.nativeLeft)) ∧
    (∀ s ∈ ["right", "upper"], v.nativeCoord (.name s) = v.nativeCoord (.num v.problemRight) ∧
      v.problemCoord (.name s) = v.problemCoord (.num v.nativeRight)) ∧
    (∀ s ∈ ["center", "middle"],
      v.nativeCoord (.name s) = v.nativeCoord (.num ((v.problemLeft + v.problemRight) / 2)) ∧
      v.problemCoord (.name s) = v.problemCoord (.num ((v.nativeLeft + v.nativeRight) / 2))) ∧
    (∀ s ∉ ["left", "lower", "right", "upper", "center", "middle"],
      v.nativeCoord (.name s) = none ∧ v.problemCoord (.name s) = none) := by
  have h1 : v.nativeRight - v.nativeLeft ≠ 0 := sub_ne_zero.mpr hn.symm
  have h2 : v.problemRight - v.problemLeft ≠ 0 := sub_ne_zero.mpr hp.symm
  refine ⟨?_, ?_, ?_, ?_⟩
  · intro s hs
    simp only [List.mem_cons, List.not_mem_nil, or_false] at hs
    simp only [Cov.nativeCoord, Cov.problemCoord, if_pos hs]
    simp
  · intro s hs
    simp only [List.mem_cons, List.not_mem_nil, or_false] at hs
    have hne : ¬ (s = "left" ∨ s = "lower") := by rcases hs with rfl | rfl <;> decide
    simp only [Cov.nativeCoord, Cov.problemCoord, if_neg hne, if_pos hs, Option.some.injEq, Cov.nativeLength,
      Cov.problemLength]
    constructor <;> (field_simp; try ring)
  · intro s hs
    simp only [List.mem_cons, List.not_mem_nil, or_false] at hs
    have hne : ¬ (s = "left" ∨ s = "lower") := by rcases hs with rfl | rfl <;> decide
    have hne2 : ¬ (s = "right" ∨ s = "upper") := by rcases hs with rfl | rfl <;> decide
    simp only [Cov.nativeCoord, Cov.problemCoord, if_neg hne, if_neg hne2, if_pos hs, Option.some.injEq, Cov.nativeLength,
      Cov.problemLength, Cov.nativeCenter, Cov.problemCenter]
    constructor <;> (field_simp; try ring)
  · intro s hs
    simp only [List.mem_cons, List.not_mem_nil, or_false, not_or] at hs
    obtain ⟨a, b, c, d, e, f⟩ := hs
    simp [Cov.nativeCoord, Cov.problemCoord, a, b, c, d, e, f]

/-- The map is affine with slope `stretch`: distances and derivatives scale by it. -/
theorem cov_stretch (v : Cov) (hn : v.nativeLeft ≠ v.nativeRight) (x y px py : ℝ)
    (hx : v.problemCoord (.num x) = some px) (hy : v.problemCoord (.num y) = some py) :
    py - px = v.stretch * (y - x) := by
  have h1 : v.nativeLength ≠ 0 := sub_ne_zero.mpr hn.symm
  simp only [Cov.problemCoord, Option.some.injEq] at hx hy
  rw [← hx, ← hy, Cov.stretch]
  field_simp
  ring

example : ∃ v : Cov, v.nativeLeft ≠ v.nativeRight ∧ v.problemLeft ≠ v.problemRight ∧
    v.problemCoord (.num 1) = some 7 :=
  ⟨⟨-1, 1, 3, 7⟩, by norm_num, by norm_num, by
    simp only [Cov.problemCoord, Cov.nativeLength, Cov.problemLength]; norm_num⟩

/-! ## C49: calculus -/

/-- The coefficients of the derivative, on any interval: the represented function of the physical coordinate `x` is the
series at the angle `2π (x - left) / (right - left)`. -/
theorem complex_derivative (left right : ℝ) (M : Nat) (c : Nat → ℂ) (x : ℝ) :
    HasDerivAt (fun x : ℝ => series M c (2 * Real.pi * (x - left) / (right - left)))
      (series M (diffComplex (fourierCov left right) M c) (2 * Real.pi * (x - left) / (right - left))) x :=
  series_deriv left right M c x

theorem real_derivative (left right : ℝ) (H : Nat) (c : Nat → ℝ) (x : ℝ) :
    HasDerivAt (fun x : ℝ => realSeries (2 * H) c (2 * Real.pi * (x - left) / (right - left)))
      (realSeries (2 * H) (diffReal (fourierCov left right) c) (2 * Real.pi * (x - left) / (right - left))) x :=
  realSeries_deriv left right H c x

/-- Integrals and averages. -/
theorem complex_integral (left right : ℝ) (h : left ≠ right) (M : Nat) (hM : 0 < M) (c : Nat → ℂ) :
    integComplex (fourierCov left right) c =
      (∫ x in left..right, series M c (2 * Real.pi * (x - left) / (right - left))) ∧
    avgComplex c =
      (∫ x in left..right, series M c (2 * Real.pi * (x - left) / (right - left))) / ((right - left : ℝ) : ℂ) := by
  have e := series_integral left right h M hM c
  unfold angle at e
  rw [e]
  have hne : ((right - left : ℝ) : ℂ) ≠ 0 := by exact_mod_cast sub_ne_zero.mpr h.symm
  refine ⟨rfl, ?_⟩
  rw [mul_div_cancel_left₀ _ hne, avgComplex, one_mul]

theorem real_integral (left right : ℝ) (h : left ≠ right) (H : Nat) (hH : 0 < H) (c : Nat → ℝ) :
    integReal (fourierCov left right) c =
      (∫ x in left..right, realSeries (2 * H) c (2 * Real.pi * (x - left) / (right - left))) ∧
    avgReal c =
      (∫ x in left..right, realSeries (2 * H) c (2 * Real.pi * (x - left) / (right - left))) / (right - left) := by
  have e := realSeries_integral left right h H hH c
  unfold angle at e
  rw [e]
  have hne : right - left ≠ 0 := sub_ne_zero.mpr h.symm
  constructor
  · simp [integReal, Cov.problemLength, fourierCov]
  · rw [mul_div_cancel_left₀ _ hne, avgReal]; ring

/-- Interpolation evaluates the function. -/
theorem fourier_interpolation (left right : ℝ) (n : Nat) (c : Nat → ℂ) (r : Nat → ℝ) (x : ℝ) :
    interpComplex (fourierCov left right) n (.num x) c =
      some (series n c (2 * Real.pi * (x - left) / (right - left))) ∧
    interpReal (fourierCov left right) n (.num x) r =
      some (realSeries (2 * n) r (2 * Real.pi * (x - left) / (right - left))) := by
  have e : (0 : ℝ) + (x - left) / (right - left) * (2 * Real.pi - 0) = 2 * Real.pi * (x - left) / (right - left) := by
    ring
  constructor
  · simp only [interpComplex, Cov.nativeCoord, fourierCov, Cov.problemLength, Cov.nativeLength, Option.map_some, e]
    rw [Option.some.injEq]
    unfold series
    refine Finset.sum_congr rfl (fun m hm => ?_)
    rw [native_eq n m (Finset.mem_range.mp hm), mode, mul_comm]
    congr 2
    ring
  · simp only [interpReal, Cov.nativeCoord, fourierCov, Cov.problemLength, Cov.nativeLength, Option.map_some, e]
    congr 1
    unfold realSeries realMode
    exact Finset.sum_congr rfl (fun m _ => mul_comm _ _)

/-- Constants become series with the same value everywhere, and the unused `-sin 0θ` entry is zero. -/
theorem fourier_constants (M H : Nat) (hM : 0 < M) (hH : 0 < H) (u : ℂ) (w θ : ℝ) :
    series M (constComplex M u) θ = u ∧ realSeries (2 * H) (constReal w) θ = w ∧ constReal w 1 = 0 := by
  refine ⟨?_, ?_, by simp [constReal]⟩
  · unfold series
    rw [Finset.sum_eq_single 0]
    · rw [constComplex, native_eq M 0 hM, (freq_zero M 0 hM).mpr rfl]
      simp [mode]
    · intro m hm hne
      rw [Finset.mem_range] at hm
      rw [constComplex, native_eq M m hm, if_neg (fun e => hne ((freq_zero M m hm).mp e)), zero_mul]
    · intro hn; exact absurd (Finset.mem_range.mpr hM) hn
  · unfold realSeries
    rw [Finset.sum_eq_single 0]
    · simp [constReal, realMode]
    · intro m hm hne
      unfold constReal
      by_cases h : m / 2 = 0
      · rw [if_pos h, if_neg (by omega)]; ring
      · rw [if_neg h, zero_mul]
    · intro hn; exact absurd (Finset.mem_range.mpr (by omega)) hn

end Dedalus.Fourier
