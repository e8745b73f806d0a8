import Verif.Fourier.Waves
import Mathlib.Algebra.BigOperators.Group.Finset.Sigma
import Mathlib.Algebra.BigOperators.Field

/-! The complex Fourier transforms. -/

namespace Dedalus.Fourier

open Complex

theorem sum_forward_wave (N M : Nat) (hN : 0 < N) (m : Nat) (k : Int) :
    ∑ x ∈ Finset.range N, forwardMatrix N M m x * om N (k * x) =
      if |wavenumber M m| ≤ kmax N M ∧ (N : Int) ∣ k - wavenumber M m then 1 else 0 := by
  have hN' : (N : ℂ) ≠ 0 := by exact_mod_cast hN.ne'
  by_cases h1 : |wavenumber M m| ≤ kmax N M
  · have : ∀ x ∈ Finset.range N, forwardMatrix N M m x * om N (k * x) =
        om N ((k - wavenumber M m) * x) / N := by
      intro x _
      unfold forwardMatrix
      rw [if_pos h1, wave_om, div_mul_eq_mul_div, ← om_add]
      congr 2
      ring
    rw [Finset.sum_congr rfl this, ← Finset.sum_div, om_sum N hN]
    by_cases h2 : (N : Int) ∣ k - wavenumber M m
    · rw [if_pos h2, if_pos ⟨h1, h2⟩, div_self hN']
    · rw [if_neg h2, if_neg (fun e => h2 e.2), zero_div]
  · rw [if_neg (fun e => h1 e.1)]
    apply Finset.sum_eq_zero
    intro x _
    unfold forwardMatrix
    rw [if_neg h1, zero_mul]

/-- The forward transform of a trigonometric polynomial of degree `D < N - Kmax`. -/
theorem forward_poly {ι : Type} (s : Finset ι) (a : ι → ℂ) (k : ι → Int) (N M : Nat) (hN : 0 < N) (D : Nat)
    (hk : ∀ i ∈ s, |k i| ≤ D) (hD : D + kmax N M < N) (m : Nat) :
    forwardMMT N M (fun x => ∑ i ∈ s, a i * om N (k i * x)) m =
      if |wavenumber M m| ≤ kmax N M then ∑ i ∈ s with k i = wavenumber M m, a i else 0 := by
  unfold forwardMMT
  have h1 : ∀ x ∈ Finset.range N, forwardMatrix N M m x * ∑ i ∈ s, a i * om N (k i * x) =
      ∑ i ∈ s, a i * (forwardMatrix N M m x * om N (k i * x)) := by
    intro x _
    rw [Finset.mul_sum]
    exact Finset.sum_congr rfl (fun i _ => by ring)
  rw [Finset.sum_congr rfl h1, Finset.sum_comm]
  have h2 : ∀ i ∈ s, ∑ x ∈ Finset.range N, a i * (forwardMatrix N M m x * om N (k i * x)) =
      if |wavenumber M m| ≤ kmax N M ∧ k i = wavenumber M m then a i else 0 := by
    intro i hi
    rw [← Finset.mul_sum, sum_forward_wave N M hN]
    by_cases hm : |wavenumber M m| ≤ kmax N M
    · by_cases e : k i = wavenumber M m
      · rw [if_pos ⟨hm, by rw [e, sub_self]; exact dvd_zero _⟩, if_pos ⟨hm, e⟩, mul_one]
      · rw [if_neg, if_neg (fun h => e h.2), mul_zero]
        rintro ⟨_, hd⟩
        have a1 := abs_le.mp (hk i hi)
        have a2 := abs_le.mp hm
        have := dvd_small hd (by omega) (by omega)
        omega
    · rw [if_neg (fun h => hm h.1), if_neg (fun h => hm h.1), mul_zero]
  rw [Finset.sum_congr rfl h2]
  by_cases hm : |wavenumber M m| ≤ kmax N M
  · rw [if_pos hm, Finset.sum_filter]
    exact Finset.sum_congr rfl (fun i _ => by simp [hm])
  · rw [if_neg hm]
    exact Finset.sum_eq_zero (fun i _ => if_neg (fun h => hm h.1))

theorem backward_eq (N M : Nat) (c : Nat → ℂ) (x : Nat) :
    backwardMMT N M c x =
      ∑ m ∈ Finset.range M with |wavenumber M m| ≤ kmax N M, c m * om N (wavenumber M m * x) := by
  unfold backwardMMT
  rw [Finset.sum_filter]
  refine Finset.sum_congr rfl (fun m _ => ?_)
  unfold backwardMatrix
  split
  · rw [wave_om, mul_comm]
  · rw [zero_mul]

theorem forward_backward (N M : Nat) (hN : 0 < N) (c : Nat → ℂ) (m : Nat) (hm : m < M) :
    forwardMMT N M (backwardMMT N M c) m = if |wavenumber M m| ≤ kmax N M then c m else 0 := by
  have h : backwardMMT N M c = fun (x : Nat) => ∑ m ∈ Finset.range M with |wavenumber M m| ≤ kmax N M,
      c m * om N (wavenumber M m * x) := funext (backward_eq N M c)
  rw [h, forward_poly _ _ _ N M hN (kmax N M) (fun i hi => (Finset.mem_filter.mp hi).2)
    (by have := kmax_lt N M hN; omega)]
  split
  · rename_i hk
    rw [Finset.sum_eq_single m]
    · intro b hb hne
      exfalso
      simp only [Finset.mem_filter, Finset.mem_range] at hb
      exact hne (wavenumber_inj M b m hb.1.1 hm hb.2)
    · intro h
      exact absurd (by simp [hm, hk]) h
  · rfl

/-! ### Resizing -/

theorem bound_nat (n k : Nat) (h : k ≤ n) : bound n (k : Int) = k := by
  unfold bound
  split
  · omega
  · omega

theorem slice_head (n k : Nat) (h : k ≤ n) : slice n 0 (some (k : Int)) 1 = ⟨k, fun t => 0 + t * 1⟩ := by
  simp only [slice, bound_nat n k h]
  have : bound n 0 = 0 := bound_nat n 0 (by omega)
  simp only [this]
  congr 1
  simp

theorem slice_unit (n : Nat) (s e : Int) (a b : Nat) (h1 : bound n s = a) (h2 : bound n e = b) :
    slice n s (some e) 1 = ⟨b - a, fun t => a + t * 1⟩ := by
  simp only [slice, h1, h2]
  congr 1
  simp

theorem slice_unit_none (n : Nat) (s : Int) (a : Nat) (h1 : bound n s = a) :
    slice n s none 1 = ⟨n - a, fun t => a + t * 1⟩ := by
  simp only [slice, h1]
  congr 1
  simp

theorem slice_two (n : Nat) (s e : Int) (a b : Nat) (h1 : bound n s = a) (h2 : bound n e = b) :
    slice n s (some e) 2 = ⟨(b - a + 1) / 2, fun t => a + t * 2⟩ := by
  simp only [slice, h1, h2]

theorem bound_neg (n k : Nat) (h : k ≤ n) (hk : 0 < k) : bound n (-(k : Int)) = n - k := by
  unfold bound
  split
  · omega
  · omega

theorem resize_spec (K P Q : Nat) (f : ℂ → ℂ) (src dst : Nat → ℂ) (hP : 2 * K < P) (hQ : 2 * K < Q) :
    ∃ out, resizeCoeffs K P Q f src dst = some out ∧ ∀ i, i < Q →
      out i = if i ≤ K then f (src i) else if Q - K ≤ i then f (src (P - (Q - i))) else 0 := by
  unfold resizeCoeffs
  by_cases hK : K = 0
  · subst hK
    rw [if_pos rfl]
    have s1 : slice P 0 (some 1) 1 = ⟨1, fun t => 0 + t * 1⟩ := slice_head P 1 (by omega)
    have s2 : slice Q 0 (some 1) 1 = ⟨1, fun t => 0 + t * 1⟩ := slice_head Q 1 (by omega)
    have s3 : slice Q 1 none 1 = ⟨Q - 1, fun t => 1 + t * 1⟩ := slice_unit_none Q 1 1 (bound_nat Q 1 (by omega))
    simp only [s1, s2, s3, assign, if_true, Option.map_some]
    refine ⟨_, rfl, ?_⟩
    intro i hi
    simp only [fillSlice, put_unit]
    by_cases h0 : i = 0
    · subst h0; simp
    · rw [if_pos (by omega), if_neg (by omega), if_neg (by omega)]
  · rw [if_neg hK]
    have s1 : slice P 0 (some ((K + 1 : Nat) : Int)) 1 = ⟨K + 1, fun t => 0 + t * 1⟩ := slice_head P (K + 1) (by omega)
    have s2 : slice Q 0 (some ((K + 1 : Nat) : Int)) 1 = ⟨K + 1, fun t => 0 + t * 1⟩ := slice_head Q (K + 1) (by omega)
    have s3 : slice Q ((K + 1 : Nat) : Int) (some (-(K : Int))) 1 = ⟨Q - K - (K + 1), fun t => (K + 1) + t * 1⟩ :=
      slice_unit Q _ _ _ _ (bound_nat Q (K + 1) (by omega)) (bound_neg Q K (by omega) (by omega))
    have s4 : slice P (-(K : Int)) none 1 = ⟨P - (P - K), fun t => (P - K) + t * 1⟩ :=
      slice_unit_none P _ _ (bound_neg P K (by omega) (by omega))
    have s5 : slice Q (-(K : Int)) none 1 = ⟨Q - (Q - K), fun t => (Q - K) + t * 1⟩ :=
      slice_unit_none Q _ _ (bound_neg Q K (by omega) (by omega))
    have e1 : P - (P - K) = Q - (Q - K) := by omega
    simp only [s1, s2, s3, s4, s5, assign, if_true, Option.bind_some, e1]
    refine ⟨_, rfl, ?_⟩
    intro i hi
    simp only [fillSlice, put_unit]
    by_cases h0 : i ≤ K
    · rw [if_neg (by omega), if_neg (by omega), if_pos (by omega), if_pos h0]
      congr 2
      omega
    · by_cases h1 : Q - K ≤ i
      · rw [if_pos (by omega), if_neg h0, if_pos h1]
        congr 2
        omega
      · rw [if_neg (by omega), if_pos (by omega), if_neg h0, if_neg h1]

/-- Which entries survive, by wavenumber. -/
theorem abs_wavenumber_le (M K m : Nat) (hK : 2 * K < M) (hm : m < M) :
    |wavenumber M m| ≤ K ↔ m ≤ K ∨ M - K ≤ m := by
  have hh : halfSize M = (M - 1) / 2 := rfl
  by_cases h : m + halfSize M < M
  · rw [wavenumber_low M m h, abs_le]
    omega
  · rw [wavenumber_high M m (by omega) hm, abs_le]
    omega

theorem wavenumber_of_le (M K m : Nat) (hK : 2 * K < M) (hm : m ≤ K) : wavenumber M m = m :=
  wavenumber_low M m (by unfold halfSize; omega)

theorem wavenumber_of_ge (M K m : Nat) (hK : 2 * K < M) (hm : m < M) (h : M - K ≤ m) : wavenumber M m = (m : Int) - M :=
  wavenumber_high M m (by unfold halfSize; omega) hm

theorem dft_om (N : Nat) (g : Nat → ℂ) (j : Nat) :
    dft N g j = ∑ x ∈ Finset.range N, g x * om N (-(j : Int) * x) := by
  unfold dft om
  refine Finset.sum_congr rfl (fun x _ => ?_)
  congr 2
  push_cast
  ring

theorem idft_om (N : Nat) (c : Nat → ℂ) (x : Nat) :
    idft N c x = ∑ j ∈ Finset.range N, c j * om N ((j : Int) * x) := by
  unfold idft om
  refine Finset.sum_congr rfl (fun x _ => ?_)
  congr 2
  push_cast
  ring

theorem forwardMMT_eq (N M : Nat) (g : Nat → ℂ) (m : Nat) (h : |wavenumber M m| ≤ kmax N M) :
    forwardMMT N M g m = (∑ x ∈ Finset.range N, g x * om N (-wavenumber M m * x)) * (1 / N) := by
  unfold forwardMMT
  rw [Finset.sum_mul]
  refine Finset.sum_congr rfl (fun x _ => ?_)
  unfold forwardMatrix
  rw [if_pos h, wave_om]
  ring

theorem forward_fft (N M : Nat) (hN : 0 < N) (hM : 0 < M) (g cdata : Nat → ℂ) :
    ∃ out, forwardFFT N M g cdata = some out ∧ ∀ m, m < M → out m = forwardMMT N M g m := by
  have k1 := kmax_lt N M hN
  have k2 := kmax_le N M
  obtain ⟨out, h1, h2⟩ := resize_spec (kmax N M) N M (fun v => v * (1 / N)) (dft N g) cdata (by omega) (by omega)
  refine ⟨out, h1, ?_⟩
  intro m hm
  rw [h2 m hm]
  have hab := abs_wavenumber_le M (kmax N M) m (by omega) hm
  by_cases c1 : m ≤ kmax N M
  · rw [if_pos c1, forwardMMT_eq N M g m (hab.mpr (Or.inl c1)), dft_om, wavenumber_of_le M _ m (by omega) c1]
  · rw [if_neg c1]
    by_cases c2 : M - kmax N M ≤ m
    · rw [if_pos c2, forwardMMT_eq N M g m (hab.mpr (Or.inr c2)), dft_om, wavenumber_of_ge M _ m (by omega) hm c2]
      congr 1
      refine Finset.sum_congr rfl (fun x _ => ?_)
      congr 1
      refine om_mod N hN _ _ ⟨-x, ?_⟩
      have : ((N - (M - m) : Nat) : Int) = (N : Int) - M + m := by omega
      rw [this]
      ring
    · rw [if_neg c2]
      have hn : ¬ |wavenumber M m| ≤ kmax N M := by rw [hab]; omega
      unfold forwardMMT
      rw [Finset.sum_eq_zero]
      intro x _
      unfold forwardMatrix
      rw [if_neg hn, zero_mul]

/-- A sum over the low modes: the modes of the two ends. -/
theorem sum_ends (M K : Nat) (hK : 2 * K < M) (f : Nat → ℂ) :
    ∑ m ∈ Finset.range M with |wavenumber M m| ≤ K, f m =
      ∑ t ∈ Finset.range (K + 1), f t + ∑ t ∈ Finset.range K, f (M - K + t) := by
  have e : (Finset.range M).filter (fun m => |wavenumber M m| ≤ K) =
      (Finset.range (K + 1)).disjUnion ((Finset.range K).map (addLeftEmbedding (M - K))) (by
        rw [Finset.disjoint_left]
        intro a h1 h2
        simp only [Finset.mem_range, Finset.mem_map, addLeftEmbedding_apply] at h1 h2
        obtain ⟨t, _, ht⟩ := h2
        omega) := by
    ext m
    simp only [Finset.mem_filter, Finset.mem_range, Finset.mem_disjUnion, Finset.mem_map, addLeftEmbedding_apply]
    constructor
    · rintro ⟨hm, h⟩
      rw [abs_wavenumber_le M K m hK hm] at h
      rcases h with h | h
      · left; omega
      · right; exact ⟨m - (M - K), by omega, by omega⟩
    · rintro (h | ⟨t, ht, rfl⟩)
      · exact ⟨by omega, (abs_wavenumber_le M K m hK (by omega)).mpr (by omega)⟩
      · exact ⟨by omega, (abs_wavenumber_le M K _ hK (by omega)).mpr (by omega)⟩
  rw [e, Finset.sum_disjUnion, Finset.sum_map]
  rfl

theorem idft_resized (N M : Nat) (hN : 0 < N) (hM : 0 < M) (c out : Nat → ℂ) (f : ℂ)
    (h : ∀ i, i < N → out i = if i ≤ kmax N M then c i * f else
      if N - kmax N M ≤ i then c (M - (N - i)) * f else 0) (x : Nat) :
    idft N out x = backwardMMT N M c x * f := by
  have k1 := kmax_lt N M hN
  have k2 := kmax_le N M
  rw [idft_om, backward_eq, sum_ends M _ (by omega)]
  have h0 : ∑ j ∈ Finset.range N, out j * om N ((j : Int) * x) =
      ∑ j ∈ Finset.range N with |wavenumber N j| ≤ kmax N M, out j * om N ((j : Int) * x) := by
    rw [Finset.sum_filter]
    refine Finset.sum_congr rfl (fun j hj => ?_)
    simp only [Finset.mem_range] at hj
    split
    · rfl
    · rename_i hn
      rw [abs_wavenumber_le N _ j (by omega) hj] at hn
      rw [h j hj, if_neg (by omega), if_neg (by omega), zero_mul]
  rw [h0, sum_ends N _ (by omega), add_mul, Finset.sum_mul, Finset.sum_mul]
  congr 1
  · refine Finset.sum_congr rfl (fun t ht => ?_)
    simp only [Finset.mem_range] at ht
    rw [h t (by omega), if_pos (by omega), wavenumber_of_le M (kmax N M) t (by omega) (by omega)]
    ring
  · refine Finset.sum_congr rfl (fun t ht => ?_)
    simp only [Finset.mem_range] at ht
    rw [h _ (by omega), if_neg (by omega), if_pos (by omega),
      wavenumber_of_ge M (kmax N M) (M - kmax N M + t) (by omega) (by omega) (by omega)]
    have e1 : M - (N - (N - kmax N M + t)) = M - kmax N M + t := by omega
    rw [e1, om_mod N hN (((N - kmax N M + t : Nat) : Int) * x) ((((M - kmax N M + t : Nat) : Int) - M) * x) ⟨x, by
      have a1 : ((N - kmax N M + t : Nat) : Int) = (N : Int) - kmax N M + t := by omega
      have a2 : ((M - kmax N M + t : Nat) : Int) = (M : Int) - kmax N M + t := by omega
      rw [a1, a2]; ring⟩]
    ring

theorem backward_scipy (N M : Nat) (hN : 0 < N) (hM : 0 < M) (c temp : Nat → ℂ) :
    ∃ out, backwardScipy N M c temp = some out ∧ ∀ x, out x = backwardMMT N M c x := by
  have k1 := kmax_lt N M hN
  have k2 := kmax_le N M
  have hN' : (N : ℂ) ≠ 0 := by exact_mod_cast hN.ne'
  obtain ⟨out, h1, h2⟩ := resize_spec (kmax N M) M N (fun v => v * N) c temp (by omega) (by omega)
  refine ⟨ifft N out, by rw [backwardScipy, h1]; rfl, ?_⟩
  intro x
  rw [ifft, idft_resized N M hN hM c out N h2 x, mul_div_cancel_right₀ _ hN']

theorem backward_fftw (N M : Nat) (hN : 0 < N) (hM : 0 < M) (c temp : Nat → ℂ) :
    ∃ out, backwardFFTW N M c temp = some out ∧ ∀ x, out x = backwardMMT N M c x := by
  have k1 := kmax_lt N M hN
  have k2 := kmax_le N M
  obtain ⟨out, h1, h2⟩ := resize_spec (kmax N M) M N id c temp (by omega) (by omega)
  refine ⟨idft N out, by rw [backwardFFTW, h1]; rfl, ?_⟩
  intro x
  rw [idft_resized N M hN hM c out 1 (fun i hi => by rw [h2 i hi]; simp) x, mul_one]

end Dedalus.Fourier
