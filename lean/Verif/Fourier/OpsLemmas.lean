import Verif.Fourier.OpsModel
import Verif.Fourier.Spec
import Verif.Fourier.RealLemmas

/-! Multiplication matrices and the meaning of coefficients. -/

namespace Dedalus.Fourier

open Spec

theorem freq_eq (M m : Nat) (hm : m < M) : wavenumber M m = freq M m := by
  have hh : halfSize M = (M - 1) / 2 := rfl
  unfold freq
  by_cases h : m + halfSize M < M
  · rw [wavenumber_low M m h]
    split
    · rfl
    · omega
  · rw [wavenumber_high M m (by omega) hm, if_neg (by omega)]

theorem native_eq (M m : Nat) (hm : m < M) : nativeWavenumber M m = freq M m := by
  unfold nativeWavenumber freq
  split
  · rw [if_pos (show 2 * m ≤ M by omega)]
  · rw [if_neg (show ¬ 2 * m ≤ M by omega)]
    split <;> omega

theorem freq_range (M m : Nat) (hm : m < M) : 2 * |freq M m| ≤ M := by
  unfold freq
  split
  · rw [abs_of_nonneg (by omega)]; omega
  · rw [abs_of_nonpos (by omega)]; omega

theorem freq_inj (M a b : Nat) (ha : a < M) (hb : b < M) (h : freq M a = freq M b) : a = b := by
  unfold freq at h
  split at h <;> split at h <;> omega

theorem resolved_iff (N M : Nat) (hN : 0 < N) (hM : 0 < M) (k : Int) : Resolved N M k ↔ |k| ≤ kmax N M := by
  unfold Resolved kmax halfSize
  omega

theorem mode_grid (N x : Nat) (k : Int) : mode k (grid N x) = om N (k * x) := by
  unfold mode grid om
  congr 1
  push_cast
  ring

theorem mode_add (a b : Int) (θ : ℝ) : mode (a + b) θ = mode a θ * mode b θ := by
  unfold mode
  rw [← Complex.exp_add]
  congr 1
  push_cast
  ring

theorem realMode_even (r : Nat) (θ : ℝ) : realMode (2 * r) θ = Real.cos (r * θ) := by
  unfold realMode
  rw [if_pos (by omega), show 2 * r / 2 = r by omega]

theorem realMode_odd (r : Nat) (θ : ℝ) : realMode (2 * r + 1) θ = -Real.sin (r * θ) := by
  unfold realMode
  rw [if_neg (by omega), show (2 * r + 1) / 2 = r by omega]

theorem realMode_grid (N x m : Nat) : realMode m (grid N x) =
    if m % 2 = 0 then cs N (((m / 2 : Nat) : Int) * x) else -sn N (((m / 2 : Nat) : Int) * x) := by
  unfold realMode grid cs sn
  have : ((m / 2 : Nat) : ℝ) * (2 * Real.pi * x / N) = 2 * Real.pi * ((((m / 2 : Nat) : Int) * x : Int) : ℝ) / N := by
    generalize m / 2 = k
    push_cast; ring
  rw [this]

/-! ### Blocks -/

theorem block_pairs (A B : Nat) (a b : Nat → Int) (d e : Nat) (hd : d < 2) (he : e < 2) (v : ℝ) (p q : Nat) :
    block (pairs A B a b) d e v p q =
      if p % 2 = d ∧ q % 2 = e ∧ p / 2 < A ∧ q / 2 < B ∧ a (p / 2) = b (q / 2) then v else 0 := by
  unfold block
  split
  · rename_i h
    rw [Finset.sum_eq_single (p / 2, q / 2)]
    · rw [if_pos ⟨by omega, by omega⟩]
    · rintro ⟨r, c⟩ _ hne
      rw [if_neg]
      rintro ⟨h1, h2⟩
      apply hne
      rw [Prod.mk.injEq]
      constructor
      · omega
      · omega
    · intro hn
      exfalso
      apply hn
      simp only [pairs, Finset.mem_filter, Finset.mem_product, Finset.mem_range]
      exact ⟨⟨h.2.2.1, h.2.2.2.1⟩, h.2.2.2.2⟩
  · rename_i h
    apply Finset.sum_eq_zero
    rintro ⟨r, c⟩ ht
    simp only [pairs, Finset.mem_filter, Finset.mem_product, Finset.mem_range] at ht
    rw [if_neg]
    rintro ⟨h1, h2⟩
    apply h
    simp only at h1 h2
    have e1 : p / 2 = r := by omega
    have e2 : q / 2 = c := by omega
    rw [e1, e2]
    exact ⟨by omega, by omega, ht.1.1, ht.1.2, ht.2⟩

theorem pairsShift_eq (A B : Nat) (m : Nat) :
    pairsShift A B m = (pairs A B (fun r => (r : Int)) (fun c => (c : Int) - m)).filter fun e => 1 ≤ e.1 := by
  ext ⟨r, c⟩
  simp only [pairsShift, pairs, Finset.mem_image, Finset.mem_filter, Finset.mem_product, Finset.mem_range,
    Prod.exists, Prod.mk.injEq]
  constructor
  · rintro ⟨x, y, ⟨⟨h1, h2⟩, h3⟩, rfl, rfl⟩
    exact ⟨⟨⟨by omega, h2⟩, h3⟩, by omega⟩
  · rintro ⟨⟨⟨h1, h2⟩, h3⟩, h4⟩
    exact ⟨r - 1, c, ⟨⟨by omega, h2⟩, by omega⟩, by omega, rfl⟩

theorem block_shift (A B m : Nat) (d e : Nat) (hd : d < 2) (he : e < 2) (v : ℝ) (p q : Nat) :
    block (pairsShift A B m) d e v p q =
      if p % 2 = d ∧ q % 2 = e ∧ p / 2 < A ∧ q / 2 < B ∧ 1 ≤ p / 2 ∧ ((p / 2 : Nat) : Int) = ((q / 2 : Nat) : Int) - m
      then v else 0 := by
  rw [pairsShift_eq]
  have h0 : block ((pairs A B (fun r => (r : Int)) (fun c => (c : Int) - m)).filter fun e => 1 ≤ e.1) d e v p q =
      if 1 ≤ p / 2 then block (pairs A B (fun r => (r : Int)) (fun c => (c : Int) - m)) d e v p q else 0 := by
    unfold block
    rw [Finset.sum_filter]
    split
    · refine Finset.sum_congr rfl (fun t _ => ?_)
      by_cases h : 2 * t.1 + d = p ∧ 2 * t.2 + e = q
      · rw [if_pos (by omega)]
      · simp [if_neg h]
    · apply Finset.sum_eq_zero
      intro t _
      split
      · rw [if_neg (by omega)]
      · rfl
  rw [h0, block_pairs _ _ _ _ _ _ hd he]
  by_cases h1 : 1 ≤ p / 2
  · rw [if_pos h1]
    by_cases h2 : p % 2 = d ∧ q % 2 = e ∧ p / 2 < A ∧ q / 2 < B ∧ ((p / 2 : Nat) : Int) = ((q / 2 : Nat) : Int) - m
    · rw [if_pos h2, if_pos ⟨h2.1, h2.2.1, h2.2.2.1, h2.2.2.2.1, h1, h2.2.2.2.2⟩]
    · rw [if_neg h2, if_neg (fun h => h2 ⟨h.1, h.2.1, h.2.2.1, h.2.2.2.1, h.2.2.2.2.2⟩)]
  · rw [if_neg h1, if_neg (fun h => h1 h.2.2.2.2.1)]

/-- The coefficient of mode `p` in the product of modes `i` and `q` (`i` not a constant). -/
noncomputable def prodCoeff (i p q : Nat) : ℝ :=
  let m := i / 2
  let n := q / 2
  let d := (i + q) % 2
  (if p = 2 * (m + n) + d then (if i % 2 = 1 ∧ q % 2 = 1 then -(1 / 2) else 1 / 2) else 0) +
  (if n ≤ m ∧ p = 2 * (m - n) + d then (if i % 2 = 0 ∧ q % 2 = 1 then -(1 / 2) else 1 / 2) else 0) +
  (if m < n ∧ p = 2 * (n - m) + d then (if i % 2 = 1 ∧ q % 2 = 0 then -(1 / 2) else 1 / 2) else 0)

theorem entries_eq (Hout Harg i : Nat) (p q : Nat) (hp : p < 2 * Hout) (hq : q < 2 * Harg) :
    realProductEntries Hout Harg (i / 2) i p q = prodCoeff i p q := by
  have hp2 : p / 2 < Hout := by omega
  have hq2 : q / 2 < Harg := by omega
  have P : ∀ (d e : Nat) (hd : d < 2) (he : e < 2) (v : ℝ),
      block (pairs Hout Harg (fun r => (r : Int)) (fun c => ((i / 2 : Nat) : Int) + c)) d e v p q =
      if q % 2 = e ∧ p = 2 * (i / 2 + q / 2) + d then v else 0 := by
    intro d e hd he v
    rw [block_pairs _ _ _ _ _ _ hd he]
    exact if_congr (by constructor <;> (intro h; omega)) rfl rfl
  have Q : ∀ (d e : Nat) (hd : d < 2) (he : e < 2) (v : ℝ),
      block (pairs Hout Harg (fun r => (r : Int)) (fun c => ((i / 2 : Nat) : Int) - c)) d e v p q =
      if q % 2 = e ∧ q / 2 ≤ i / 2 ∧ p = 2 * (i / 2 - q / 2) + d then v else 0 := by
    intro d e hd he v
    rw [block_pairs _ _ _ _ _ _ hd he]
    exact if_congr (by constructor <;> (intro h; omega)) rfl rfl
  have R : ∀ (d e : Nat) (hd : d < 2) (he : e < 2) (v : ℝ),
      block (pairsShift Hout Harg ((i / 2 : Nat) : Int)) d e v p q =
      if q % 2 = e ∧ i / 2 < q / 2 ∧ p = 2 * (q / 2 - i / 2) + d then v else 0 := by
    intro d e hd he v
    rw [block_shift _ _ _ _ _ hd he]
    exact if_congr (by constructor <;> (intro h; omega)) rfl rfl
  unfold realProductEntries prodCoeff
  simp only
  by_cases hi : i % 2 = 0
  · rw [if_pos hi]
    simp only [P _ _ (by omega : 0 < 2) (by omega : 0 < 2), P _ _ (by omega : 1 < 2) (by omega : 1 < 2),
      Q _ _ (by omega : 0 < 2) (by omega : 0 < 2), Q _ _ (by omega : 1 < 2) (by omega : 1 < 2),
      R _ _ (by omega : 0 < 2) (by omega : 0 < 2), R _ _ (by omega : 1 < 2) (by omega : 1 < 2)]
    by_cases hq' : q % 2 = 0
    · have hd : (i + q) % 2 = 0 := by omega
      simp [hi, hq', hd]
    · have hq1 : q % 2 = 1 := by omega
      have hd : (i + q) % 2 = 1 := by omega
      simp [hi, hq1, hd]
  · rw [if_neg hi]
    have hi1 : i % 2 = 1 := by omega
    simp only [P _ _ (by omega : 0 < 2) (by omega : 1 < 2), P _ _ (by omega : 1 < 2) (by omega : 0 < 2),
      Q _ _ (by omega : 0 < 2) (by omega : 1 < 2), Q _ _ (by omega : 1 < 2) (by omega : 0 < 2),
      R _ _ (by omega : 0 < 2) (by omega : 1 < 2), R _ _ (by omega : 1 < 2) (by omega : 0 < 2)]
    by_cases hq' : q % 2 = 0
    · have hd : (i + q) % 2 = 1 := by omega
      simp [hi1, hq', hd]
    · have hq1 : q % 2 = 1 := by omega
      have hd : (i + q) % 2 = 0 := by omega
      simp [hi1, hq1, hd]

/-- The product of two modes. -/
theorem mode_product (L i q : Nat) (hL : i / 2 + q / 2 < L) (θ : ℝ) :
    ∑ p ∈ Finset.range (2 * L), prodCoeff i p q * realMode p θ = realMode i θ * realMode q θ := by
  have single : ∀ (c : Prop) [Decidable c] (X : Nat) (v : ℝ), (c → X < 2 * L) →
      ∑ p ∈ Finset.range (2 * L), (if c ∧ p = X then v else 0) * realMode p θ = if c then v * realMode X θ else 0 := by
    intro c _ X v hX
    by_cases hc : c
    · rw [if_pos hc, Finset.sum_eq_single X]
      · simp [hc]
      · intro b _ hb; simp [hb]
      · intro hn; exact absurd (Finset.mem_range.mpr (hX hc)) hn
    · rw [if_neg hc]
      exact Finset.sum_eq_zero (fun p _ => by simp [hc])
  have s1 := single True (2 * (i / 2 + q / 2) + (i + q) % 2) (if i % 2 = 1 ∧ q % 2 = 1 then -(1 / 2) else 1 / 2) (by omega)
  have s2 := single (q / 2 ≤ i / 2) (2 * (i / 2 - q / 2) + (i + q) % 2) (if i % 2 = 0 ∧ q % 2 = 1 then -(1 / 2) else 1 / 2) (by omega)
  have s3 := single (i / 2 < q / 2) (2 * (q / 2 - i / 2) + (i + q) % 2) (if i % 2 = 1 ∧ q % 2 = 0 then -(1 / 2) else 1 / 2) (by omega)
  simp only [true_and, if_true] at s1
  unfold prodCoeff
  simp only [add_mul, Finset.sum_add_distrib]
  rw [s1, s2, s3]
  obtain ⟨m, hm⟩ : ∃ m, i / 2 = m := ⟨_, rfl⟩
  obtain ⟨n, hn⟩ : ∃ n, q / 2 = n := ⟨_, rfl⟩
  rw [hm, hn]
  by_cases hi : i % 2 = 0 <;> by_cases hq : q % 2 = 0
  · have ei : i = 2 * m := by omega
    have eq : q = 2 * n := by omega
    have hd : (i + q) % 2 = 0 := by omega
    rw [hd, add_zero, add_zero, add_zero, ei, eq]
    simp only [realMode_even]
    by_cases h : n ≤ m
    · rw [if_pos h, if_neg (show ¬ m < n by omega)]
      push_cast [h]
      rw [add_mul, sub_mul, Real.cos_add, Real.cos_sub]
      simp
      ring
    · rw [if_neg h, if_pos (show m < n by omega)]
      push_cast [(by omega : m ≤ n)]
      rw [add_mul, sub_mul, Real.cos_add, Real.cos_sub]
      simp
      ring
  · have ei : i = 2 * m := by omega
    have eq : q = 2 * n + 1 := by omega
    have hd : (i + q) % 2 = 1 := by omega
    rw [hd, ei, eq]
    simp only [realMode_even, realMode_odd]
    by_cases h : n ≤ m
    · rw [if_pos h, if_neg (show ¬ m < n by omega)]
      push_cast [h]
      rw [add_mul, sub_mul, Real.sin_add, Real.sin_sub]
      simp
      ring
    · rw [if_neg h, if_pos (show m < n by omega)]
      push_cast [(by omega : m ≤ n)]
      rw [add_mul, sub_mul, Real.sin_add, Real.sin_sub]
      simp
      ring
  · have ei : i = 2 * m + 1 := by omega
    have eq : q = 2 * n := by omega
    have hd : (i + q) % 2 = 1 := by omega
    rw [hd, ei, eq]
    simp only [realMode_even, realMode_odd]
    by_cases h : n ≤ m
    · rw [if_pos h, if_neg (show ¬ m < n by omega)]
      push_cast [h]
      rw [add_mul, sub_mul, Real.sin_add, Real.sin_sub]
      simp
      ring
    · rw [if_neg h, if_pos (show m < n by omega)]
      push_cast [(by omega : m ≤ n)]
      rw [add_mul, sub_mul, Real.sin_add, Real.sin_sub]
      simp
      ring
  · have ei : i = 2 * m + 1 := by omega
    have eq : q = 2 * n + 1 := by omega
    have hd : (i + q) % 2 = 0 := by omega
    rw [hd, ei, eq, add_zero, add_zero, add_zero]
    simp only [realMode_even, realMode_odd]
    by_cases h : n ≤ m
    · rw [if_pos h, if_neg (show ¬ m < n by omega)]
      push_cast [h]
      rw [add_mul, sub_mul, Real.cos_add, Real.cos_sub]
      simp
      ring
    · rw [if_neg h, if_pos (show m < n by omega)]
      push_cast [(by omega : m ≤ n)]
      rw [add_mul, sub_mul, Real.cos_add, Real.cos_sub]
      simp
      ring

end Dedalus.Fourier
