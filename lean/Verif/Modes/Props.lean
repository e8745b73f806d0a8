import Verif.Modes.Read
import Verif.Fourier.Props
import Verif.Dist.BlockProps

/-! C103: valid modes. -/

namespace Dedalus.Modes
open Orders SphereField

/-! ## Intervals -/

/-- C103: real Fourier coefficients at invalid modes do not change grid values. `kept` tells that coefficients that are zero there come back unchanged. -/
theorem real_fourier_invalid_ignored (rank N M : Nat) (c c' : Nat → ℝ) (h : ∀ i, i < M → realFourier false rank Sphere.nativeReal i = true → c i = c' i) (x : Nat) :
    Fourier.realBackwardMMT N M c x = Fourier.realBackwardMMT N M c' x := by
  unfold Fourier.realBackwardMMT
  refine Finset.sum_congr rfl fun m hm => ?_
  by_cases h1 : m = 1
  · subst h1
    have : Fourier.realBackwardMatrix N M x 1 = 0 := by
      unfold Fourier.realBackwardMatrix
      simp [Fourier.sinWave]
    rw [this, zero_mul, zero_mul]
  · rw [h m (Finset.mem_range.1 hm)]
    unfold realFourier Sphere.nativeReal
    simp
    omega

/-- C103: on a grid with at least as many points as coefficients, real Fourier coefficients that vanish at invalid modes come back unchanged. -/
theorem real_fourier_valid_kept (rank N H : Nat) (hN : 2 * H ≤ N) (c : Nat → ℝ)
    (h : ∀ i, i < 2 * H → realFourier false rank Sphere.nativeReal i = false → c i = 0) (m : Nat) (hm : m < 2 * H) :
    Fourier.realForwardMMT N (2 * H) (Fourier.realBackwardMMT N (2 * H) c) m = c m := by
  rw [Fourier.real_round_trip N (2 * H) (by omega) c m hm]
  split
  · rfl
  · next hn =>
    have h1 : m = 1 := by
      by_contra h1
      refine hn ⟨(resolved_abs hN _).2 ?_, h1⟩
      omega
    subst h1
    exact (h 1 hm rfl).symm

/-- C103: complex Fourier coefficients at invalid modes do not change grid values. -/
theorem complex_fourier_invalid_ignored (tensorsig : List Nat) (N M : Nat) (c c' : Nat → ℂ) (h : ∀ i, i < M → complexFourier tensorsig i = true → c i = c' i)
    (x : Nat) : Fourier.backwardMMT N M c x = Fourier.backwardMMT N M c' x := by
  unfold Fourier.backwardMMT
  exact Finset.sum_congr rfl fun m hm => by rw [h m (Finset.mem_range.1 hm) rfl]

/-- C103: complex Fourier coefficients below the Nyquist wavenumber come back unchanged, all are marked valid. -/
theorem complex_fourier_valid_kept_partial (N M : Nat) (hM : 0 < M) (hN : M ≤ N) (c : Nat → ℂ) (h : ∀ i, i < M → 2 * (Fourier.Spec.freq M i).natAbs = M → c i = 0)
    (m : Nat) (hm : m < M) : Fourier.forwardMMT N M (Fourier.backwardMMT N M c) m = c m := by
  rw [Fourier.complex_round_trip N M (by omega) c m hm]
  split
  · rfl
  · next hn =>
    refine (h m hm ?_).symm
    have h1 : ¬2 * (Fourier.Spec.freq M m).natAbs < M := fun e => hn ((resolved_abs hN _).2 e)
    have h2 : 2 * (Fourier.Spec.freq M m).natAbs ≤ M := by
      unfold Fourier.Spec.freq
      split <;> omega
    omega

/-- C103: false of the code for an even number of complex Fourier modes: the Nyquist mode is marked valid, and its coefficient is lost on every grid. -/
theorem complex_fourier_nyquist_refuted (N M : Nat) (hM : 0 < M) (hN : 2 * M ≤ N) (tensorsig : List Nat) :
    complexFourier tensorsig M = true ∧ Fourier.forwardMMT N (2 * M) (Fourier.backwardMMT N (2 * M) fun i => if i = M then 1 else 0) M = 0 ∧
      ∀ x, Fourier.backwardMMT N (2 * M) (fun i => if i = M then 1 else 0) x = 0 := by
  have hr : ¬Fourier.Spec.Resolved N (2 * M) (Fourier.Spec.freq (2 * M) M) := by
    rw [resolved_abs hN]
    unfold Fourier.Spec.freq
    split <;> omega
  refine ⟨rfl, ?_, fun x => ?_⟩
  · rw [Fourier.complex_round_trip N (2 * M) (by omega) _ M (by omega), if_neg hr]
  · rw [Fourier.complex_backward_evaluates N (2 * M) (by omega) (by omega)]
    unfold Fourier.Spec.series
    refine Finset.sum_eq_zero fun i hi => ?_
    by_cases e : i = M
    · subst e
      simp [hr]
    · simp [e]

/-- C103: Jacobi coefficients at invalid modes do not change grid values. -/
theorem jacobi_invalid_ignored (tensorsig : List Nat) (N M : Nat) (a b a0 b0 : ℝ) (g : Nat → ℝ) (c c' : Nat → ℝ)
    (h : ∀ m, m < M → jacobi tensorsig m = true → c m = c' m) (x : Nat) :
    ∑ k ∈ Finset.range M, Jacobi.backwardMatrix N M a b a0 b0 g x k * c k = ∑ k ∈ Finset.range M, Jacobi.backwardMatrix N M a b a0 b0 g x k * c' k :=
  Finset.sum_congr rfl fun m hm => by rw [h m (Finset.mem_range.1 hm) rfl]

/-- C103: all Jacobi coefficients are valid and come back unchanged from a grid with at least as many points. -/
theorem jacobi_valid_kept (before : Bool) (tensorsig : List Nat) (N M : Nat) (hN : 0 < N) (hM : M ≤ N) (a b a0 b0 : ℝ) (ha0 : -1 < a0) (hb0 : -1 < b0)
    (g : Nat → ℝ) (hg : Jacobi.GridGuess N a0 b0 g) (F : Nat → Nat → ℝ) (hF : Jacobi.forwardMatrix before N M a b a0 b0 g = some F) (c : Nat → ℝ)
    (hz : ∀ m, m < M → jacobi tensorsig m = false → c m = 0) (m : Nat) (hm : m < M) :
    ∑ i ∈ Finset.range N, F m i * ∑ k ∈ Finset.range M, Jacobi.backwardMatrix N M a b a0 b0 g i k * c k = c m := by
  rw [Jacobi.matrix_round_trip before N M hN a b a0 b0 ha0 hb0 g hg F hF c m hm, if_pos (by omega)]

section
variable {coord0 coord1 : Spin.Coord} {sig : List Spin.Index}

theorem spinWeight_abs (coord1 : Spin.Coord) : ∀ (sig : List Spin.Index) (t : List Nat), (spinWeight coord1 sig t).natAbs ≤ sig.length
  | [], t => by simp [spinWeight]
  | ix :: sig, [] => by simp [spinWeight]
  | ix :: sig, x :: t => by
    have h := spinWeight_abs coord1 sig t
    have h1 : (indexSpin coord1 ix x).natAbs ≤ 1 := by
      unfold indexSpin
      split
      · split
        · simp
        · split <;> simp
      · simp
    simp only [spinWeight, List.length_cons]
    omega

/-! ## Sphere -/

/-- C103: coefficients of a real tensor field on the sphere at invalid modes do not change grid values. -/
theorem sphere_invalid_ignored_real (h : Spin.Spec.Suitable coord0 coord1 sig) (Nphi Ntheta N Ng : Nat) (hA : Spec.Allowed .real Nphi Ntheta)
    (hg : lmaxOf .real Ntheta < Ng) (hN : Nphi ≤ N) (q : Nat → ℝ) (hq : Jacobi.GridGuess Ng 0 0 q) (c c' : List Nat → Nat → Nat → ℝ)
    (hcc : ∀ t, Spin.Spec.Component sig t → ∀ i j, i < (sphereShape .real Nphi (lmaxOf .real Ntheta)).1 → j < (sphereShape .real Nphi (lmaxOf .real Ntheta)).2 →
      sphere .real Nphi (lmaxOf .real Ntheta) coord1 sig t i j = true → c t i j = c' t i j) :
    ∃ u u', toGridReal coord0 coord1 sig Nphi (lmaxOf .real Ntheta) N Ng q c = some u ∧
      toGridReal coord0 coord1 sig Nphi (lmaxOf .real Ntheta) N Ng q c' = some u' ∧
      ∀ t, Spin.Spec.Component sig t → ∀ j x, x < Ng → u t j x = u' t j x := by
  obtain ⟨fs, u, hf, hu, hv⟩ := sphere_values_real h Nphi Ntheta N Ng hA hg hN q hq (sphereReal Nphi (lmaxOf .real Ntheta) c) c
    (fun t _ i j m l hi hj e => sphere_real_entry hA (fun p => c t p.1 p.2) i j m l hi hj e)
  obtain ⟨fs', u', hf', hu', hv'⟩ := sphere_values_real h Nphi Ntheta N Ng hA hg hN q hq (sphereReal Nphi (lmaxOf .real Ntheta) c') c'
    (fun t _ i j m l hi hj e => sphere_real_entry hA (fun p => c' t p.1 p.2) i j m l hi hj e)
  rw [hf] at hf'
  cases hf'
  refine ⟨u, u', hu, hu', fun t ht j x hx => ?_⟩
  rw [hv t ht j x hx, hv' t ht j x hx]
  refine sphere_value_congr h hf _ _ _ _ (fun t ht m l _ hml hsl _ => ?_) _ _ t ht
  by_cases hd : l = 0 ∧ sig.length ≤ 1
  · refine Or.inr ⟨hd.2, by omega, hd.1, decodeReal_re fun p hp e e' => ?_⟩
    exact hcc t ht p.1 p.2 hp.1 hp.2 (sphere_valid_real e hml hsl fun _ h => by omega)
  · refine Or.inl (decodeReal_congr fun p hp e => ?_)
    exact hcc t ht p.1 p.2 hp.1 hp.2 (sphere_valid_real e hml hsl fun h _ => by omega)

/-- C103: the same for complex data. -/
theorem sphere_invalid_ignored_complex (h : Spin.Spec.Suitable coord0 coord1 sig) (Nphi Ntheta N Ng : Nat) (hA : Spec.Allowed .complex Nphi Ntheta)
    (hg : lmaxOf .complex Ntheta < Ng) (hN : Nphi ≤ N) (q : Nat → ℝ) (hq : Jacobi.GridGuess Ng 0 0 q) (c c' : List Nat → Nat → Nat → ℂ)
    (hcc : ∀ t, Spin.Spec.Component sig t → ∀ i j, i < (sphereShape .complex Nphi (lmaxOf .complex Ntheta)).1 →
      j < (sphereShape .complex Nphi (lmaxOf .complex Ntheta)).2 →
      sphere .complex Nphi (lmaxOf .complex Ntheta) coord1 sig t i j = true → c t i j = c' t i j) :
    ∃ u u', toGridComplex coord1 sig Nphi (lmaxOf .complex Ntheta) N Ng q c = some u ∧
      toGridComplex coord1 sig Nphi (lmaxOf .complex Ntheta) N Ng q c' = some u' ∧
      ∀ t, Spin.Spec.Component sig t → ∀ j x, x < Ng → u t j x = u' t j x := by
  obtain ⟨fs, u, hf, hu, hv⟩ := sphere_values_complex h Nphi Ntheta N Ng hA hg hN q hq (sphereComplex Nphi (lmaxOf .complex Ntheta) c) c
    (fun t _ i j m l hi hj e => sphere_complex_entry hA (fun p => c t p.1 p.2) i j m l hi hj e)
  obtain ⟨fs', u', hf', hu', hv'⟩ := sphere_values_complex h Nphi Ntheta N Ng hA hg hN q hq (sphereComplex Nphi (lmaxOf .complex Ntheta) c') c'
    (fun t _ i j m l hi hj e => sphere_complex_entry hA (fun p => c' t p.1 p.2) i j m l hi hj e)
  rw [hf] at hf'
  cases hf'
  refine ⟨u, u', hu, hu', fun t ht j x hx => ?_⟩
  rw [hv t ht j x hx, hv' t ht j x hx]
  refine sphere_value_congr_complex h hf _ _ _ _ (fun t ht m l _ hml hsl _ => ?_) _ _ t ht
  refine decode_congr fun p hp e => ?_
  exact hcc t ht p.1 p.2 hp.1 hp.2 (sphere_valid_complex e hml hsl)

/-- C103: coefficients of a real tensor field on the sphere that vanish at invalid modes, and whose part of order zero is real, come back unchanged. -/
theorem sphere_valid_kept_real_partial (h : Spin.Spec.Suitable coord0 coord1 sig) (Nphi Ntheta N Ng : Nat) (hA : Spec.Allowed .real Nphi Ntheta)
    (hg : lmaxOf .real Ntheta < Ng) (hN : Nphi ≤ N) (q : Nat → ℝ) (hq : Jacobi.GridGuess Ng 0 0 q) (a : List Nat → Int → Int → ℂ)
    (c : List Nat → Nat → Nat → ℝ) (hc : SphereField.Spec.HoldsReal sig Nphi (lmaxOf .real Ntheta) a c)
    (hz : ∀ t, Spin.Spec.Component sig t → ∀ i j, i < (sphereShape .real Nphi (lmaxOf .real Ntheta)).1 → j < (sphereShape .real Nphi (lmaxOf .real Ntheta)).2 →
      sphere .real Nphi (lmaxOf .real Ntheta) coord1 sig t i j = false → c t i j = 0)
    (hreal : ∀ fs, Spin.factors coord1 sig = some fs → ∀ t, Spin.Spec.Component sig t → ∀ z : ℝ, -1 < z → z < 1 →
      (SphereField.Spec.part fs (spinWeight coord1 sig) (lmaxOf .real Ntheta) a 0 z t).im = 0) :
    ∃ u c', toGridReal coord0 coord1 sig Nphi (lmaxOf .real Ntheta) N Ng q c = some u ∧
      toCoeffReal coord0 coord1 sig Nphi (lmaxOf .real Ntheta) N Ng q u = some c' ∧
      ∀ t, Spin.Spec.Component sig t → ∀ i j, i < (sphereShape .real Nphi (lmaxOf .real Ntheta)).1 → j < (sphereShape .real Nphi (lmaxOf .real Ntheta)).2 →
        c' t i j = c t i j := by
  obtain ⟨u, c', hu, hc', hv⟩ := sphere_round_trip_real h Nphi Ntheta N Ng hA hg hN q hq a c hc hreal
  refine ⟨u, c', hu, hc', fun t ht i j hi hj => ?_⟩
  obtain ⟨m, l, e, hval⟩ := hv t ht i j hi hj
  rw [hval]
  split
  · rfl
  · next hn =>
    refine (hz t ht i j hi hj ?_).symm
    unfold sphere
    simp only [group_eq e]
    have e2 : max |m| |spinWeight coord1 sig t| > l := by
      have := le_max_right |m| |spinWeight coord1 sig t|
      omega
    rw [if_neg (fun h0 => hn ?_), if_pos e2]
    · simp [dropSine]
    · have h3 := (slot_real hA).1 (i, j) ⟨hi, hj⟩
      simp only [group_eq e] at h3
      have := spinWeight_abs coord1 sig t
      rw [Int.abs_eq_natAbs]
      omega

/-- C103: complex data: in addition the coefficients of the Nyquist order must vanish, although they are marked valid. -/
theorem sphere_valid_kept_complex_partial (h : Spin.Spec.Suitable coord0 coord1 sig) (Nphi Ntheta N Ng : Nat) (hA : Spec.Allowed .complex Nphi Ntheta)
    (hg : lmaxOf .complex Ntheta < Ng) (hN : Nphi ≤ N) (q : Nat → ℝ) (hq : Jacobi.GridGuess Ng 0 0 q) (c : List Nat → Nat → Nat → ℂ)
    (hz : ∀ t, Spin.Spec.Component sig t → ∀ i j, i < (sphereShape .complex Nphi (lmaxOf .complex Ntheta)).1 →
      j < (sphereShape .complex Nphi (lmaxOf .complex Ntheta)).2 →
      sphere .complex Nphi (lmaxOf .complex Ntheta) coord1 sig t i j = false ∨
        (∃ m l, sphereGroup .complex Nphi (lmaxOf .complex Ntheta) i j = some (m, l) ∧ (Nphi : Int) ≤ 2 * |m|) → c t i j = 0) :
    ∃ u c', toGridComplex coord1 sig Nphi (lmaxOf .complex Ntheta) N Ng q c = some u ∧
      toCoeffComplex coord1 sig Nphi (lmaxOf .complex Ntheta) N Ng q u = some c' ∧
      ∀ t, Spin.Spec.Component sig t → ∀ i j, i < (sphereShape .complex Nphi (lmaxOf .complex Ntheta)).1 →
        j < (sphereShape .complex Nphi (lmaxOf .complex Ntheta)).2 → c' t i j = c t i j := by
  obtain ⟨u, c', hu, hc', hv⟩ := sphere_round_trip_complex h Nphi Ntheta N Ng hA hg hN q hq (sphereComplex Nphi (lmaxOf .complex Ntheta) c) c
    (fun t _ i j m l hi hj e => sphere_complex_entry hA (fun p => c t p.1 p.2) i j m l hi hj e)
  refine ⟨u, c', hu, hc', fun t ht i j hi hj => ?_⟩
  obtain ⟨m, l, e, hval⟩ := hv t ht i j hi hj
  rw [hval]
  split
  · rfl
  · next hn =>
    refine (hz t ht i j hi hj ?_).symm
    by_cases hm : 2 * |m| < (Nphi : Int)
    · refine Or.inl ?_
      have hs : ¬|spinWeight coord1 sig t| ≤ l := fun e => hn ⟨e, hm⟩
      unfold sphere
      simp only [group_eq e]
      have e2 : max |m| |spinWeight coord1 sig t| > l := by
        have := le_max_right |m| |spinWeight coord1 sig t|
        omega
      rw [if_neg (fun h0 => hs ?_), if_pos e2]
      · rfl
      · have h3 := (slot_complex hA).1 (i, j) ⟨hi, hj⟩
        simp only [group_eq e] at h3
        have := spinWeight_abs coord1 sig t
        have h4 := abs_nonneg m
        rw [Int.abs_eq_natAbs]
        omega
    · exact Or.inr ⟨m, l, e, by omega⟩

/-! ## Disk -/

theorem disk_low (Ng : Nat) (k : ℝ) (s m : Int) (n : Nat) (r : ℝ) (h : (n : Int) < nmin true m) : PolarField.Spec.diskMode Ng k s m n r = 0 := by
  unfold PolarField.Spec.diskMode
  unfold nmin at h
  rw [if_pos rfl, Int.abs_eq_natAbs] at h
  rw [if_neg (by omega)]

/-- C103: coefficients of a real tensor field in the disk at invalid modes do not change grid values. -/
theorem disk_invalid_ignored_real (h : Spin.Spec.Suitable coord0 coord1 sig) (Nphi Nr N Ng k : Nat) (alpha : ℝ) (hA : PolarField.Spec.Accepted .real Nphi)
    (hN : Nphi ≤ N) (hr : Nphi < 4 * Nr) (hg : 0 < Ng) (ha : -1 < alpha) (q : Nat → ℝ) (hq : Jacobi.GridGuess Ng alpha 0 q) (c c' : List Nat → Nat → Nat → ℝ)
    (hcc : ∀ t, Spin.Spec.Component sig t → ∀ i n, i < polarRows .real Nphi → n < Nr → polar true .real Nphi sig.length i n = true → c t i n = c' t i n) :
    ∃ u u', PolarField.diskToGridReal coord0 coord1 sig Nphi Nr k alpha N Ng q c = some u ∧
      PolarField.diskToGridReal coord0 coord1 sig Nphi Nr k alpha N Ng q c' = some u' ∧
      ∀ t, Spin.Spec.Component sig t → ∀ j x, x < Ng → u t j x = u' t j x := by
  obtain ⟨fs, u, hf, hu, hv⟩ := PolarField.disk_values_real_partial h Nphi Nr N Ng k alpha hA hN hr hg ha q hq _ c (polar_holds_real hA sig Nr c)
  obtain ⟨fs', u', hf', hu', hv'⟩ := PolarField.disk_values_real_partial h Nphi Nr N Ng k alpha hA hN hr hg ha q hq _ c' (polar_holds_real hA sig Nr c')
  rw [hf] at hf'
  cases hf'
  refine ⟨u, u', hu, hu', fun t ht j x hx => ?_⟩
  rw [hv t ht j x hx, hv' t ht j x hx]
  exact polar_real_ignored true h hf _ (disk_low Ng _) Nr _ c c' hcc _ _ t ht

/-- C103: the same for complex data. -/
theorem disk_invalid_ignored_complex (h : Spin.Spec.Suitable coord0 coord1 sig) (Nphi Nr N Ng k : Nat) (alpha : ℝ) (hA : PolarField.Spec.Accepted .complex Nphi)
    (hN : Nphi ≤ N) (hr : Nphi < 4 * Nr) (hg : 0 < Ng) (ha : -1 < alpha) (q : Nat → ℝ) (hq : Jacobi.GridGuess Ng alpha 0 q) (c c' : List Nat → Nat → Nat → ℂ)
    (hcc : ∀ t, Spin.Spec.Component sig t → ∀ i n, i < Nphi → n < Nr → polar true .complex Nphi sig.length i n = true → c t i n = c' t i n) :
    ∃ u u', PolarField.diskToGridComplex coord1 sig Nphi Nr k alpha N Ng q c = some u ∧
      PolarField.diskToGridComplex coord1 sig Nphi Nr k alpha N Ng q c' = some u' ∧
      ∀ t, Spin.Spec.Component sig t → ∀ j x, x < Ng → u t j x = u' t j x := by
  obtain ⟨fs, u, hf, hu, hv⟩ := PolarField.disk_values_complex_partial h Nphi Nr N Ng k alpha hA hN hr hg ha q hq _ c (polar_holds_complex hA sig Nr c)
  obtain ⟨fs', u', hf', hu', hv'⟩ := PolarField.disk_values_complex_partial h Nphi Nr N Ng k alpha hA hN hr hg ha q hq _ c' (polar_holds_complex hA sig Nr c')
  rw [hf] at hf'
  cases hf'
  refine ⟨u, u', hu, hu', fun t ht j x hx => ?_⟩
  rw [hv t ht j x hx, hv' t ht j x hx]
  exact polar_complex_ignored true h hf hA _ (disk_low Ng _) Nr _ c c' hcc _ _ t ht

theorem polar_low {d : Dtype} {Nphi rank i n : Nat} (h : (n : Int) < nmin true (wave d Nphi i)) : polar true d Nphi rank i n = false := by
  unfold polar
  simp only [show ¬nmin true (wave d Nphi i) ≤ (n : Int) by omega, decide_false, ite_self]

theorem disk_degree (sig : List Spin.Index) (t : List Nat) {m : Int} {n Nr Ng : Nat} (hn : n < Nr) (hNg : 2 * Nr + sig.length ≤ 2 * Ng) (hm : m.natAbs / 2 ≤ n) :
    (m + spinWeight coord1 sig t).natAbs + 2 * (n - m.natAbs / 2) < 2 * Ng := by
  have := spinWeight_abs coord1 sig t
  omega

/-- C103: coefficients of a real tensor field in the disk that vanish at invalid modes, and whose part of order zero is real, come back unchanged from a grid
with `Nr + rank / 2` radii. -/
theorem disk_valid_kept_real_partial (before : Bool) (h : Spin.Spec.Suitable coord0 coord1 sig) (Nphi Nr N Ng k : Nat) (alpha : ℝ)
    (hA : PolarField.Spec.Accepted .real Nphi) (hN : Nphi ≤ N) (hr : Nphi < 4 * Nr) (hNg : 2 * Nr + sig.length ≤ 2 * Ng) (ha : -1 < alpha) (q : Nat → ℝ)
    (hq : Jacobi.GridGuess Ng alpha 0 q) (a : List Nat → Int → Nat → ℂ) (c : List Nat → Nat → Nat → ℝ) (hc : PolarField.Spec.HoldsReal sig Nphi Nr a c)
    (hz : ∀ t, Spin.Spec.Component sig t → ∀ i n, i < polarRows .real Nphi → n < Nr → polar true .real Nphi sig.length i n = false → c t i n = 0)
    (hreal : ∀ fs, Spin.factors coord1 sig = some fs → ∀ t, Spin.Spec.Component sig t → ∀ r,
      (PolarField.Spec.part (PolarField.Spec.diskMode Ng (alpha + k)) fs (spinWeight coord1 sig) Nr a 0 r t).im = 0) :
    ∃ u c', PolarField.diskToGridReal coord0 coord1 sig Nphi Nr k alpha N Ng q c = some u ∧
      PolarField.diskToCoeffReal before coord0 coord1 sig Nphi Nr k alpha N Ng q u = some c' ∧
      ∀ t, Spin.Spec.Component sig t → ∀ i n, i < polarRows .real Nphi → n < Nr → c' t i n = c t i n := by
  obtain ⟨u, c', hu, hc', hv⟩ := PolarField.disk_round_trip_real_partial before h Nphi Nr N Ng k alpha hA hN hr (by omega) ha q hq a c hc hreal
  refine ⟨u, c', hu, hc', fun t ht i n hi hn => ?_⟩
  rw [hv t ht i n hi hn]
  split
  · rfl
  · next hne =>
    refine (hz t ht i n hi hn (polar_low ?_)).symm
    unfold nmin
    rw [if_pos rfl, Int.abs_eq_natAbs]
    by_contra hlt
    have hm : (wave .real Nphi i).natAbs / 2 ≤ n := by omega
    exact hne ⟨hm, disk_degree sig t hn hNg hm⟩

/-- C103: complex data: in addition the coefficients of the Nyquist order must vanish, although they are marked valid. -/
theorem disk_valid_kept_complex_partial (before : Bool) (h : Spin.Spec.Suitable coord0 coord1 sig) (Nphi Nr N Ng k : Nat) (alpha : ℝ)
    (hA : PolarField.Spec.Accepted .complex Nphi) (hN : Nphi ≤ N) (hr : Nphi < 4 * Nr) (hNg : 2 * Nr + sig.length ≤ 2 * Ng) (ha : -1 < alpha) (q : Nat → ℝ)
    (hq : Jacobi.GridGuess Ng alpha 0 q) (c : List Nat → Nat → Nat → ℂ)
    (hz : ∀ t, Spin.Spec.Component sig t → ∀ i n, i < Nphi → n < Nr →
      polar true .complex Nphi sig.length i n = false ∨ (Nphi : Int) ≤ 2 * |wave .complex Nphi i| → c t i n = 0) :
    ∃ u c', PolarField.diskToGridComplex coord1 sig Nphi Nr k alpha N Ng q c = some u ∧
      PolarField.diskToCoeffComplex before coord1 sig Nphi Nr k alpha N Ng q u = some c' ∧
      ∀ t, Spin.Spec.Component sig t → ∀ i n, i < Nphi → n < Nr → c' t i n = c t i n := by
  obtain ⟨u, c', hu, hc', hv⟩ := PolarField.disk_round_trip_complex_partial before h Nphi Nr N Ng k alpha hA hN hr (by omega) ha q hq c _
    (polar_holds_complex hA sig Nr c)
  refine ⟨u, c', hu, hc', fun t ht i n hi hn => ?_⟩
  rw [hv t ht i n hi hn]
  split
  · rfl
  · next hne =>
    refine (hz t ht i n hi hn ?_).symm
    by_cases h2 : 2 * |wave .complex Nphi i| < (Nphi : Int)
    · refine Or.inl (polar_low ?_)
      unfold nmin
      rw [if_pos rfl, Int.abs_eq_natAbs]
      by_contra hlt
      have hm : (wave .complex Nphi i).natAbs / 2 ≤ n := by omega
      exact hne ⟨⟨hm, disk_degree sig t hn hNg hm⟩, h2⟩
    · exact Or.inr (by omega)

/-! ## Annulus -/

/-- C103: coefficients of a real tensor field in the annulus at invalid modes do not change grid values. -/
theorem annulus_invalid_ignored_real (h : Spin.Spec.Suitable coord0 coord1 sig) (Nphi Nr N Ng k : Nat) (rin rout : ℝ) (h1 : rin < rout)
    (alpha : ℝ × ℝ) (hA : PolarField.Spec.Accepted .real Nphi) (hN : Nphi ≤ N) (ha : -1 < alpha.1) (hb : -1 < alpha.2) (q : Nat → ℝ)
    (hq : Jacobi.GridGuess Ng alpha.1 alpha.2 q) (c c' : List Nat → Nat → Nat → ℝ)
    (hcc : ∀ t, Spin.Spec.Component sig t → ∀ i n, i < polarRows .real Nphi → n < Nr → polar false .real Nphi sig.length i n = true → c t i n = c' t i n) :
    ∃ u u', PolarField.annulusToGridReal coord0 coord1 sig rin rout Nphi Nr k alpha N Ng q c = some u ∧
      PolarField.annulusToGridReal coord0 coord1 sig rin rout Nphi Nr k alpha N Ng q c' = some u' ∧
      ∀ t, Spin.Spec.Component sig t → ∀ j x, x < Ng → u t j x = u' t j x := by
  obtain ⟨fs, u, hf, hu, hv⟩ := PolarField.annulus_values_real_partial h Nphi Nr N Ng k rin rout h1 alpha hA hN ha hb q hq _ c (polar_holds_real hA sig Nr c)
  obtain ⟨fs', u', hf', hu', hv'⟩ := PolarField.annulus_values_real_partial h Nphi Nr N Ng k rin rout h1 alpha hA hN ha hb q hq _ c' (polar_holds_real hA sig Nr c')
  rw [hf] at hf'
  cases hf'
  refine ⟨u, u', hu, hu', fun t ht j x hx => ?_⟩
  rw [hv t ht j x hx, hv' t ht j x hx]
  refine polar_real_ignored false h hf _ (fun s m n r hlt => ?_) Nr _ c c' hcc _ _ t ht
  simp [nmin] at hlt
  omega

/-- C103: the same for complex data. -/
theorem annulus_invalid_ignored_complex (h : Spin.Spec.Suitable coord0 coord1 sig) (Nphi Nr N Ng k : Nat) (rin rout : ℝ) (h1 : rin < rout)
    (alpha : ℝ × ℝ) (hA : PolarField.Spec.Accepted .complex Nphi) (hN : Nphi ≤ N) (ha : -1 < alpha.1) (hb : -1 < alpha.2) (q : Nat → ℝ)
    (hq : Jacobi.GridGuess Ng alpha.1 alpha.2 q) (c c' : List Nat → Nat → Nat → ℂ)
    (hcc : ∀ t, Spin.Spec.Component sig t → ∀ i n, i < Nphi → n < Nr → polar false .complex Nphi sig.length i n = true → c t i n = c' t i n) :
    ∃ u u', PolarField.annulusToGridComplex coord1 sig rin rout Nphi Nr k alpha N Ng q c = some u ∧
      PolarField.annulusToGridComplex coord1 sig rin rout Nphi Nr k alpha N Ng q c' = some u' ∧
      ∀ t, Spin.Spec.Component sig t → ∀ j x, x < Ng → u t j x = u' t j x := by
  obtain ⟨fs, u, hf, hu, hv⟩ := PolarField.annulus_values_complex_partial h Nphi Nr N Ng k rin rout h1 alpha hA hN ha hb q hq _ c
    (polar_holds_complex hA sig Nr c)
  obtain ⟨fs', u', hf', hu', hv'⟩ := PolarField.annulus_values_complex_partial h Nphi Nr N Ng k rin rout h1 alpha hA hN ha hb q hq _ c'
    (polar_holds_complex hA sig Nr c')
  rw [hf] at hf'
  cases hf'
  refine ⟨u, u', hu, hu', fun t ht j x hx => ?_⟩
  rw [hv t ht j x hx, hv' t ht j x hx]
  refine polar_complex_ignored false h hf hA _ (fun s m n r hlt => ?_) Nr _ c c' hcc _ _ t ht
  simp [nmin] at hlt
  omega

/-- C103: coefficients of a real tensor field in the annulus whose part of order zero is real come back unchanged. -/
theorem annulus_valid_kept_real_partial (before : Bool) (h : Spin.Spec.Suitable coord0 coord1 sig) (Nphi Nr N Ng k : Nat) (rin rout : ℝ) (h0 : 0 < rin)
    (h1 : rin < rout) (alpha : ℝ × ℝ) (hA : PolarField.Spec.Accepted .real Nphi) (hN : Nphi ≤ N) (hr : 0 < Nr) (hg : Nr ≤ Ng) (ha : -1 < alpha.1)
    (hb : -1 < alpha.2) (q : Nat → ℝ) (hq : Jacobi.GridGuess Ng alpha.1 alpha.2 q) (a : List Nat → Int → Nat → ℂ) (c : List Nat → Nat → Nat → ℝ)
    (hc : PolarField.Spec.HoldsReal sig Nphi Nr a c)
    (hreal : ∀ fs, Spin.factors coord1 sig = some fs → ∀ t, Spin.Spec.Component sig t → ∀ r,
      (PolarField.Spec.part (fun _ _ => PolarField.Spec.annulusMode Ng rin rout alpha k) fs (spinWeight coord1 sig) Nr a 0 r t).im = 0) :
    ∃ u c', PolarField.annulusToGridReal coord0 coord1 sig rin rout Nphi Nr k alpha N Ng q c = some u ∧
      PolarField.annulusToCoeffReal before coord0 coord1 sig rin rout Nphi Nr k alpha N Ng q u = some c' ∧
      ∀ t, Spin.Spec.Component sig t → ∀ i n, i < polarRows .real Nphi → n < Nr → c' t i n = c t i n := by
  obtain ⟨u, c', hu, hc', hv⟩ := PolarField.annulus_round_trip_real_partial before h Nphi Nr N Ng k rin rout h0 h1 alpha hA hN (by omega) ha hb q hq a c hc hreal
  exact ⟨u, c', hu, hc', fun t ht i n hi hn => by rw [hv t ht i n hi hn, if_pos (by omega)]⟩

/-- C103: complex data: the coefficients of the Nyquist order must vanish, although they are marked valid. -/
theorem annulus_valid_kept_complex_partial (before : Bool) (h : Spin.Spec.Suitable coord0 coord1 sig) (Nphi Nr N Ng k : Nat) (rin rout : ℝ) (h0 : 0 < rin)
    (h1 : rin < rout) (alpha : ℝ × ℝ) (hA : PolarField.Spec.Accepted .complex Nphi) (hN : Nphi ≤ N) (hr : 0 < Nr) (hg : Nr ≤ Ng) (ha : -1 < alpha.1)
    (hb : -1 < alpha.2) (q : Nat → ℝ) (hq : Jacobi.GridGuess Ng alpha.1 alpha.2 q) (c : List Nat → Nat → Nat → ℂ)
    (hz : ∀ t, Spin.Spec.Component sig t → ∀ i n, i < Nphi → n < Nr → (Nphi : Int) ≤ 2 * |wave .complex Nphi i| → c t i n = 0) :
    ∃ u c', PolarField.annulusToGridComplex coord1 sig rin rout Nphi Nr k alpha N Ng q c = some u ∧
      PolarField.annulusToCoeffComplex before coord1 sig rin rout Nphi Nr k alpha N Ng q u = some c' ∧
      ∀ t, Spin.Spec.Component sig t → ∀ i n, i < Nphi → n < Nr → c' t i n = c t i n := by
  obtain ⟨u, c', hu, hc', hv⟩ := PolarField.annulus_round_trip_complex_partial before h Nphi Nr N Ng k rin rout h0 h1 alpha hA hN (by omega) ha hb q hq _ c
    (polar_holds_complex hA sig Nr c)
  refine ⟨u, c', hu, hc', fun t ht i n hi hn => ?_⟩
  rw [hv t ht i n hi hn]
  split
  · rfl
  · next hne => exact (hz t ht i n hi hn (by by_contra hlt; exact hne ⟨by omega, by omega⟩)).symm

end

/-! ## Ball and shell -/

section
variable {phi theta r : Spin.Coord} {sig : List Spin.Index}

theorem ball_low (Ng : Nat) (k : ℝ) (reg : List Int) (l n : Nat) (r : ℝ) (h : (n : Int) < radialMin true l) : VolumeField.Spec.ballMode Ng k reg l n r = 0 := by
  classical
  unfold VolumeField.Spec.ballMode
  unfold radialMin at h
  rw [if_pos rfl] at h
  rw [if_neg (fun e => by omega)]

/-- C103: coefficients of a real tensor field in the ball at invalid modes, or below `n = l / 2`, do not change grid values. -/
theorem ball_invalid_ignored_real (h0 : phi.azimuthal = true) (h1 : theta.azimuthal = false) (hsig : ∀ ix ∈ sig, ix = .single (.spherical phi theta r))
    (Nphi Ntheta Nr k : Nat) (alpha : ℝ) (N Nt Ng : Nat) (hA : Spec.Allowed .real Nphi Ntheta) (hs : VolumeField.Spec.Separated .real Nphi (lmaxOf .real Ntheta))
    (hrank : sig.length ≤ 2 * Nr + 2) (hNt : lmaxOf .real Ntheta < Nt) (hN : Nphi ≤ N) (q : Nat → ℝ) (hq : Jacobi.GridGuess Nt 0 0 q) (g : Nat → ℝ)
    (ha : -1 < alpha) (hNg : 0 < Ng) (hg : Jacobi.GridGuess Ng alpha (1 / 2) g) (c c' : List Nat → Nat → Nat → Nat → ℝ)
    (hcc : ∀ t, Spin.Spec.Component sig t → ∀ i j n, i < (sphereShape .real Nphi (lmaxOf .real Ntheta)).1 → j < (sphereShape .real Nphi (lmaxOf .real Ntheta)).2 →
      n < Nr → (group .real Nphi (lmaxOf .real Ntheta) i j).2 / 2 ≤ n → volume true .real Nphi (lmaxOf .real Ntheta) t i j n = true → c t i j n = c' t i j n) :
    ∃ u u', VolumeField.ballToGridReal phi theta r sig Nphi (lmaxOf .real Ntheta) Nr k alpha N Nt Ng q g c = some u ∧
      VolumeField.ballToGridReal phi theta r sig Nphi (lmaxOf .real Ntheta) Nr k alpha N Nt Ng q g c' = some u' ∧
      ∀ t, Spin.Spec.Component sig t → ∀ x j y, x < Ng → y < Nt → u x t j y = u' x t j y := by
  obtain ⟨fs, u, hf, hu, hv⟩ := VolumeField.ball_values_real_partial h0 h1 hsig Nphi Ntheta Nr k alpha N Nt Ng hA hs hrank hNt hN q hq g ha hNg hg
    (volumeReal Nphi (lmaxOf .real Ntheta) c) c (fun t _ i j m l n hi hj _ e => sphere_real_entry hA (fun p => c t p.1 p.2 n) i j m l hi hj e)
  obtain ⟨fs', u', hf', hu', hv'⟩ := VolumeField.ball_values_real_partial h0 h1 hsig Nphi Ntheta Nr k alpha N Nt Ng hA hs hrank hNt hN q hq g ha hNg hg
    (volumeReal Nphi (lmaxOf .real Ntheta) c') c' (fun t _ i j m l n hi hj _ e => sphere_real_entry hA (fun p => c' t p.1 p.2 n) i j m l hi hj e)
  rw [hf] at hf'
  cases hf'
  refine ⟨u, u', hu, hu', fun t ht x j y hx hy => ?_⟩
  rw [hv t ht x j y hx hy, hv' t ht x j y hx hy]
  exact volume_real_ignored true h0 h1 hsig hf _ (ball_low Ng _) _ c c' (fun t ht i j n hi hj hn hl => hcc t ht i j n hi hj hn hl) _ _ _ t ht

/-- C103: the same for complex data. -/
theorem ball_invalid_ignored_complex (h0 : phi.azimuthal = true) (h1 : theta.azimuthal = false) (hsig : ∀ ix ∈ sig, ix = .single (.spherical phi theta r))
    (Nphi Ntheta Nr k : Nat) (alpha : ℝ) (N Nt Ng : Nat) (hA : Spec.Allowed .complex Nphi Ntheta)
    (hs : VolumeField.Spec.Separated .complex Nphi (lmaxOf .complex Ntheta))
    (hrank : sig.length ≤ 2 * Nr + 2) (hNt : lmaxOf .complex Ntheta < Nt) (hN : Nphi ≤ N) (q : Nat → ℝ) (hq : Jacobi.GridGuess Nt 0 0 q) (g : Nat → ℝ)
    (ha : -1 < alpha) (hNg : 0 < Ng) (hg : Jacobi.GridGuess Ng alpha (1 / 2) g) (c c' : List Nat → Nat → Nat → Nat → ℂ)
    (hcc : ∀ t, Spin.Spec.Component sig t → ∀ i j n, i < (sphereShape .complex Nphi (lmaxOf .complex Ntheta)).1 →
      j < (sphereShape .complex Nphi (lmaxOf .complex Ntheta)).2 →
      n < Nr → (group .complex Nphi (lmaxOf .complex Ntheta) i j).2 / 2 ≤ n → volume true .complex Nphi (lmaxOf .complex Ntheta) t i j n = true →
      c t i j n = c' t i j n) :
    ∃ u u', VolumeField.ballToGridComplex phi theta r sig Nphi (lmaxOf .complex Ntheta) Nr k alpha N Nt Ng q g c = some u ∧
      VolumeField.ballToGridComplex phi theta r sig Nphi (lmaxOf .complex Ntheta) Nr k alpha N Nt Ng q g c' = some u' ∧
      ∀ t, Spin.Spec.Component sig t → ∀ x j y, x < Ng → y < Nt → u x t j y = u' x t j y := by
  obtain ⟨fs, u, hf, hu, hv⟩ := VolumeField.ball_values_complex_partial h0 h1 hsig Nphi Ntheta Nr k alpha N Nt Ng hA hs hrank hNt hN q hq g ha hNg hg
    (volumeComplex Nphi (lmaxOf .complex Ntheta) c) c (fun t _ i j m l n hi hj _ e => sphere_complex_entry hA (fun p => c t p.1 p.2 n) i j m l hi hj e)
  obtain ⟨fs', u', hf', hu', hv'⟩ := VolumeField.ball_values_complex_partial h0 h1 hsig Nphi Ntheta Nr k alpha N Nt Ng hA hs hrank hNt hN q hq g ha hNg hg
    (volumeComplex Nphi (lmaxOf .complex Ntheta) c') c' (fun t _ i j m l n hi hj _ e => sphere_complex_entry hA (fun p => c' t p.1 p.2 n) i j m l hi hj e)
  rw [hf] at hf'
  cases hf'
  refine ⟨u, u', hu, hu', fun t ht x j y hx hy => ?_⟩
  rw [hv t ht x j y hx hy, hv' t ht x j y hx hy]
  exact volume_complex_ignored true h0 h1 hsig hf _ (ball_low Ng _) _ c c' (fun t ht i j n hi hj hn hl => hcc t ht i j n hi hj hn hl) _ _ _ t ht

/-- C103: the same for real tensor fields in the shell. -/
theorem shell_invalid_ignored_real (h0 : phi.azimuthal = true) (h1 : theta.azimuthal = false) (hsig : ∀ ix ∈ sig, ix = .single (.spherical phi theta r))
    (rin rout : ℝ) (hr : rin < rout) (Nphi Ntheta Nr k : Nat) (alpha : ℝ × ℝ) (N Nt Ng : Nat) (hA : Spec.Allowed .real Nphi Ntheta)
    (hs : 0 < sig.length → VolumeField.Spec.Separated .real Nphi (lmaxOf .real Ntheta)) (hNt : lmaxOf .real Ntheta < Nt) (hN : Nphi ≤ N) (q : Nat → ℝ)
    (hq : Jacobi.GridGuess Nt 0 0 q) (g : Nat → ℝ) (ha : -1 < alpha.1) (hb : -1 < alpha.2) (hg : Jacobi.GridGuess Ng alpha.1 alpha.2 g)
    (c c' : List Nat → Nat → Nat → Nat → ℝ)
    (hcc : ∀ t, Spin.Spec.Component sig t → ∀ i j n, i < (sphereShape .real Nphi (lmaxOf .real Ntheta)).1 → j < (sphereShape .real Nphi (lmaxOf .real Ntheta)).2 →
      n < Nr → volume false .real Nphi (lmaxOf .real Ntheta) t i j n = true → c t i j n = c' t i j n) :
    ∃ u u', VolumeField.shellToGridReal phi theta r sig rin rout Nphi (lmaxOf .real Ntheta) Nr k alpha N Nt Ng q g c = some u ∧
      VolumeField.shellToGridReal phi theta r sig rin rout Nphi (lmaxOf .real Ntheta) Nr k alpha N Nt Ng q g c' = some u' ∧
      ∀ t, Spin.Spec.Component sig t → ∀ x j y, x < Ng → y < Nt → u x t j y = u' x t j y := by
  obtain ⟨fs, u, hf, hu, hv⟩ := VolumeField.shell_values_real_partial h0 h1 hsig rin rout hr Nphi Ntheta Nr k alpha N Nt Ng hA hs hNt hN q hq g ha hb hg
    (volumeReal Nphi (lmaxOf .real Ntheta) c) c (fun t _ i j m l n hi hj _ e => sphere_real_entry hA (fun p => c t p.1 p.2 n) i j m l hi hj e)
  obtain ⟨fs', u', hf', hu', hv'⟩ := VolumeField.shell_values_real_partial h0 h1 hsig rin rout hr Nphi Ntheta Nr k alpha N Nt Ng hA hs hNt hN q hq g ha hb hg
    (volumeReal Nphi (lmaxOf .real Ntheta) c') c' (fun t _ i j m l n hi hj _ e => sphere_real_entry hA (fun p => c' t p.1 p.2 n) i j m l hi hj e)
  rw [hf] at hf'
  cases hf'
  refine ⟨u, u', hu, hu', fun t ht x j y hx hy => ?_⟩
  rw [hv t ht x j y hx hy, hv' t ht x j y hx hy]
  refine volume_real_ignored false h0 h1 hsig hf _ (fun reg l n r hlt => ?_) _ c c' (fun t ht i j n hi hj hn _ => hcc t ht i j n hi hj hn) _ _ _ t ht
  simp [radialMin] at hlt
  omega

/-- C103: and for complex tensor fields in the shell. -/
theorem shell_invalid_ignored_complex (h0 : phi.azimuthal = true) (h1 : theta.azimuthal = false) (hsig : ∀ ix ∈ sig, ix = .single (.spherical phi theta r))
    (rin rout : ℝ) (hr : rin < rout) (Nphi Ntheta Nr k : Nat) (alpha : ℝ × ℝ) (N Nt Ng : Nat) (hA : Spec.Allowed .complex Nphi Ntheta)
    (hs : 0 < sig.length → VolumeField.Spec.Separated .complex Nphi (lmaxOf .complex Ntheta)) (hNt : lmaxOf .complex Ntheta < Nt) (hN : Nphi ≤ N) (q : Nat → ℝ)
    (hq : Jacobi.GridGuess Nt 0 0 q) (g : Nat → ℝ) (ha : -1 < alpha.1) (hb : -1 < alpha.2) (hg : Jacobi.GridGuess Ng alpha.1 alpha.2 g)
    (c c' : List Nat → Nat → Nat → Nat → ℂ)
    (hcc : ∀ t, Spin.Spec.Component sig t → ∀ i j n, i < (sphereShape .complex Nphi (lmaxOf .complex Ntheta)).1 →
      j < (sphereShape .complex Nphi (lmaxOf .complex Ntheta)).2 →
      n < Nr → volume false .complex Nphi (lmaxOf .complex Ntheta) t i j n = true → c t i j n = c' t i j n) :
    ∃ u u', VolumeField.shellToGridComplex phi theta r sig rin rout Nphi (lmaxOf .complex Ntheta) Nr k alpha N Nt Ng q g c = some u ∧
      VolumeField.shellToGridComplex phi theta r sig rin rout Nphi (lmaxOf .complex Ntheta) Nr k alpha N Nt Ng q g c' = some u' ∧
      ∀ t, Spin.Spec.Component sig t → ∀ x j y, x < Ng → y < Nt → u x t j y = u' x t j y := by
  obtain ⟨fs, u, hf, hu, hv⟩ := VolumeField.shell_values_complex_partial h0 h1 hsig rin rout hr Nphi Ntheta Nr k alpha N Nt Ng hA hs hNt hN q hq g ha hb hg
    (volumeComplex Nphi (lmaxOf .complex Ntheta) c) c (fun t _ i j m l n hi hj _ e => sphere_complex_entry hA (fun p => c t p.1 p.2 n) i j m l hi hj e)
  obtain ⟨fs', u', hf', hu', hv'⟩ := VolumeField.shell_values_complex_partial h0 h1 hsig rin rout hr Nphi Ntheta Nr k alpha N Nt Ng hA hs hNt hN q hq g ha hb hg
    (volumeComplex Nphi (lmaxOf .complex Ntheta) c') c' (fun t _ i j m l n hi hj _ e => sphere_complex_entry hA (fun p => c' t p.1 p.2 n) i j m l hi hj e)
  rw [hf] at hf'
  cases hf'
  refine ⟨u, u', hu, hu', fun t ht x j y hx hy => ?_⟩
  rw [hv t ht x j y hx hy, hv' t ht x j y hx hy]
  refine volume_complex_ignored false h0 h1 hsig hf _ (fun reg l n r hlt => ?_) _ c c' (fun t ht i j n hi hj hn _ => hcc t ht i j n hi hj hn) _ _ _ t ht
  simp [radialMin] at hlt
  omega

theorem numbers_sum : ∀ t : List Nat, (VolumeField.Spec.numbers t).sum ≤ t.length
  | [] => by simp [VolumeField.Spec.numbers]
  | x :: t => by
    have h := numbers_sum t
    unfold VolumeField.Spec.numbers at *
    simp only [List.map_cons, List.sum_cons, List.length_cons]
    split
    · omega
    · split <;> omega

theorem volume_forbidden {ball : Bool} {d : Dtype} {Nphi L rank i j n : Nat} {t : List Nat} (ht : VolumeField.Valid rank t) {m : Int} {l : Nat}
    (hg : group d Nphi L i j = (m, (l : Int))) (hn : radialMin ball l ≤ (n : Int)) (ha : ¬Regularity.Spec.Allowed l (VolumeField.Spec.numbers t)) :
    volume ball d Nphi L t i j n = false := by
  rw [← VolumeField.regs_numbers ht] at ha
  have hne : t ≠ [] := by
    rintro rfl
    exact ha fun b a e h => by simp [VolumeField.regs] at h
  have e1 : decide ((n : Int) < radialMin ball l) = false := by simp; omega
  have e2 : allowedLoop false l true (VolumeField.regs t).reverse = false := by
    rw [← Bool.not_eq_true]
    exact fun e => ha ((allowedLoop_iff l rank t ht).1 e)
  unfold volume dropSine
  simp only [hg, e1, e2, if_neg hne, ite_self]
  cases d <;> rfl

/-- C103: coefficients of a real tensor field in the ball that vanish at invalid modes and below `n = l / 2`, and whose part of order zero is real, come back
unchanged from a grid with `Nr + rank / 2` radii. -/
theorem ball_valid_kept_real_partial (before : Bool) (h0 : phi.azimuthal = true) (h1 : theta.azimuthal = false)
    (hsig : ∀ ix ∈ sig, ix = .single (.spherical phi theta r)) (Nphi Ntheta Nr k : Nat) (alpha : ℝ) (N Nt Ng : Nat)
    (hA : Spec.Allowed .real Nphi Ntheta) (hs : VolumeField.Spec.Separated .real Nphi (lmaxOf .real Ntheta))
    (hrank : sig.length ≤ 2 * Nr + 2) (hNt : lmaxOf .real Ntheta < Nt) (hN : Nphi ≤ N) (q : Nat → ℝ) (hq : Jacobi.GridGuess Nt 0 0 q) (g : Nat → ℝ)
    (ha : -1 < alpha) (hNg : 0 < Ng) (hNr : 2 * Nr + sig.length ≤ 2 * Ng) (hg : Jacobi.GridGuess Ng alpha (1 / 2) g) (A : List Nat → Int → Int → Nat → ℂ)
    (c : List Nat → Nat → Nat → Nat → ℝ) (hc : VolumeField.Spec.HoldsReal sig Nphi (lmaxOf .real Ntheta) Nr A c)
    (hz : ∀ t, Spin.Spec.Component sig t → ∀ i j n, i < (sphereShape .real Nphi (lmaxOf .real Ntheta)).1 → j < (sphereShape .real Nphi (lmaxOf .real Ntheta)).2 →
      n < Nr → volume true .real Nphi (lmaxOf .real Ntheta) t i j n = false ∨ (n : Int) < (group .real Nphi (lmaxOf .real Ntheta) i j).2 / 2 → c t i j n = 0)
    (hreal : ∀ fs, Spin.factors theta sig = some fs → ∀ t, Spin.Spec.Component sig t → ∀ rho z : ℝ, 0 < rho → rho < 1 → -1 < z → z < 1 →
      (SphereField.Spec.part fs (spinWeight theta sig) (lmaxOf .real Ntheta)
        (VolumeField.Spec.spinCoefficient (VolumeField.Spec.ballMode Ng (alpha + k)) sig.length Nr A rho) 0 z t).im = 0) :
    ∃ u c', VolumeField.ballToGridReal phi theta r sig Nphi (lmaxOf .real Ntheta) Nr k alpha N Nt Ng q g c = some u ∧
      VolumeField.ballToCoeffReal before phi theta r sig Nphi (lmaxOf .real Ntheta) Nr k alpha N Nt Ng q g u = some c' ∧
      ∀ t, Spin.Spec.Component sig t → ∀ i j n, i < (sphereShape .real Nphi (lmaxOf .real Ntheta)).1 → j < (sphereShape .real Nphi (lmaxOf .real Ntheta)).2 →
        n < Nr → c' t i j n = c t i j n := by
  classical
  obtain ⟨u, c', hu, hc', hv⟩ := VolumeField.ball_round_trip_real_partial before h0 h1 hsig Nphi Ntheta Nr k alpha N Nt Ng hA hs hrank hNt hN q hq g ha hNg hg
    A c hc hreal
  refine ⟨u, c', hu, hc', fun t ht i j n hi hj hn => ?_⟩
  obtain ⟨m, l, e, hval⟩ := hv t ht i j n hi hj hn
  rw [hval]
  split
  · rfl
  · next hne =>
    refine (hz t ht i j n hi hj hn ?_).symm
    have hvt := (VolumeField.component_iff hsig t).1 ht
    have hsum := numbers_sum t
    have hlen := hvt.1
    simp only [group_eq e]
    by_cases hlow : (n : Int) < (l : Int) / 2
    · exact Or.inr hlow
    · exact Or.inl (volume_forbidden hvt (group_eq e) (by unfold radialMin; rw [if_pos rfl]; omega) fun hal => hne ⟨hal, by omega, by omega⟩)

/-- C103: complex data: in addition the coefficients of the Nyquist order must vanish, although they are marked valid. -/
theorem ball_valid_kept_complex_partial (before : Bool) (h0 : phi.azimuthal = true) (h1 : theta.azimuthal = false)
    (hsig : ∀ ix ∈ sig, ix = .single (.spherical phi theta r)) (Nphi Ntheta Nr k : Nat) (alpha : ℝ) (N Nt Ng : Nat)
    (hA : Spec.Allowed .complex Nphi Ntheta) (hs : VolumeField.Spec.Separated .complex Nphi (lmaxOf .complex Ntheta))
    (hrank : sig.length ≤ 2 * Nr + 2) (hNt : lmaxOf .complex Ntheta < Nt) (hN : Nphi ≤ N) (q : Nat → ℝ) (hq : Jacobi.GridGuess Nt 0 0 q) (g : Nat → ℝ)
    (ha : -1 < alpha) (hNg : 0 < Ng) (hNr : 2 * Nr + sig.length ≤ 2 * Ng) (hg : Jacobi.GridGuess Ng alpha (1 / 2) g)
    (c : List Nat → Nat → Nat → Nat → ℂ)
    (hz : ∀ t, Spin.Spec.Component sig t → ∀ i j n, i < (sphereShape .complex Nphi (lmaxOf .complex Ntheta)).1 →
      j < (sphereShape .complex Nphi (lmaxOf .complex Ntheta)).2 →
      n < Nr → volume true .complex Nphi (lmaxOf .complex Ntheta) t i j n = false ∨ (n : Int) < (group .complex Nphi (lmaxOf .complex Ntheta) i j).2 / 2 ∨
        (Nphi : Int) ≤ 2 * |(group .complex Nphi (lmaxOf .complex Ntheta) i j).1| → c t i j n = 0) :
    ∃ u c', VolumeField.ballToGridComplex phi theta r sig Nphi (lmaxOf .complex Ntheta) Nr k alpha N Nt Ng q g c = some u ∧
      VolumeField.ballToCoeffComplex before phi theta r sig Nphi (lmaxOf .complex Ntheta) Nr k alpha N Nt Ng q g u = some c' ∧
      ∀ t, Spin.Spec.Component sig t → ∀ i j n, i < (sphereShape .complex Nphi (lmaxOf .complex Ntheta)).1 →
        j < (sphereShape .complex Nphi (lmaxOf .complex Ntheta)).2 → n < Nr → c' t i j n = c t i j n := by
  classical
  obtain ⟨u, c', hu, hc', hv⟩ := VolumeField.ball_round_trip_complex_partial before h0 h1 hsig Nphi Ntheta Nr k alpha N Nt Ng hA hs hrank hNt hN q hq g ha hNg
    hg (volumeComplex Nphi (lmaxOf .complex Ntheta) c) c (fun t _ i j m l n hi hj _ e => sphere_complex_entry hA (fun p => c t p.1 p.2 n) i j m l hi hj e)
  refine ⟨u, c', hu, hc', fun t ht i j n hi hj hn => ?_⟩
  obtain ⟨m, l, e, hval⟩ := hv t ht i j n hi hj hn
  rw [hval]
  split
  · rfl
  · next hne =>
    refine (hz t ht i j n hi hj hn ?_).symm
    have hvt := (VolumeField.component_iff hsig t).1 ht
    have hsum := numbers_sum t
    have hlen := hvt.1
    simp only [group_eq e]
    by_cases hlow : (n : Int) < (l : Int) / 2
    · exact Or.inr (Or.inl hlow)
    by_cases hm : 2 * |m| < (Nphi : Int)
    · exact Or.inl (volume_forbidden hvt (group_eq e) (by unfold radialMin; rw [if_pos rfl]; omega) fun hal => hne ⟨hal, ⟨by omega, by omega⟩, hm⟩)
    · exact Or.inr (Or.inr (by omega))

/-- C103: the same for real tensor fields in the shell, where there is no lowest radial mode. -/
theorem shell_valid_kept_real_partial (before : Bool) (h0 : phi.azimuthal = true) (h1 : theta.azimuthal = false)
    (hsig : ∀ ix ∈ sig, ix = .single (.spherical phi theta r)) (rin rout : ℝ) (hr0 : 0 < rin) (hr : rin < rout) (Nphi Ntheta Nr k : Nat) (alpha : ℝ × ℝ)
    (N Nt Ng : Nat) (hA : Spec.Allowed .real Nphi Ntheta) (hs : 0 < sig.length → VolumeField.Spec.Separated .real Nphi (lmaxOf .real Ntheta))
    (hNt : lmaxOf .real Ntheta < Nt) (hN : Nphi ≤ N) (hNg : 0 < Ng) (hNr : Nr ≤ Ng) (q : Nat → ℝ) (hq : Jacobi.GridGuess Nt 0 0 q) (g : Nat → ℝ)
    (ha : -1 < alpha.1) (hb : -1 < alpha.2) (hg : Jacobi.GridGuess Ng alpha.1 alpha.2 g) (A : List Nat → Int → Int → Nat → ℂ)
    (c : List Nat → Nat → Nat → Nat → ℝ) (hc : VolumeField.Spec.HoldsReal sig Nphi (lmaxOf .real Ntheta) Nr A c)
    (hz : ∀ t, Spin.Spec.Component sig t → ∀ i j n, i < (sphereShape .real Nphi (lmaxOf .real Ntheta)).1 → j < (sphereShape .real Nphi (lmaxOf .real Ntheta)).2 →
      n < Nr → volume false .real Nphi (lmaxOf .real Ntheta) t i j n = false → c t i j n = 0)
    (hreal : ∀ fs, Spin.factors theta sig = some fs → ∀ t, Spin.Spec.Component sig t → ∀ rho z : ℝ, rin < rho → rho < rout → -1 < z → z < 1 →
      (SphereField.Spec.part fs (spinWeight theta sig) (lmaxOf .real Ntheta)
        (VolumeField.Spec.spinCoefficient (VolumeField.Spec.shellMode Ng rin rout alpha k) sig.length Nr A rho) 0 z t).im = 0) :
    ∃ u c', VolumeField.shellToGridReal phi theta r sig rin rout Nphi (lmaxOf .real Ntheta) Nr k alpha N Nt Ng q g c = some u ∧
      VolumeField.shellToCoeffReal before phi theta r sig rin rout Nphi (lmaxOf .real Ntheta) Nr k alpha N Nt Ng q g u = some c' ∧
      ∀ t, Spin.Spec.Component sig t → ∀ i j n, i < (sphereShape .real Nphi (lmaxOf .real Ntheta)).1 → j < (sphereShape .real Nphi (lmaxOf .real Ntheta)).2 →
        n < Nr → c' t i j n = c t i j n := by
  classical
  obtain ⟨u, c', hu, hc', hv⟩ := VolumeField.shell_round_trip_real_partial before h0 h1 hsig rin rout hr0 hr Nphi Ntheta Nr k alpha N Nt Ng hA hs hNt hN hNg q hq
    g ha hb hg A c hc hreal
  refine ⟨u, c', hu, hc', fun t ht i j n hi hj hn => ?_⟩
  obtain ⟨m, l, e, hval⟩ := hv t ht i j n hi hj hn
  rw [hval]
  split
  · rfl
  · next hne =>
    refine (hz t ht i j n hi hj hn ?_).symm
    exact volume_forbidden ((VolumeField.component_iff hsig t).1 ht) (group_eq e) (by simp [radialMin]) fun hal => hne ⟨hal, by omega⟩

/-- C103: and for complex tensor fields in the shell. -/
theorem shell_valid_kept_complex_partial (before : Bool) (h0 : phi.azimuthal = true) (h1 : theta.azimuthal = false)
    (hsig : ∀ ix ∈ sig, ix = .single (.spherical phi theta r)) (rin rout : ℝ) (hr0 : 0 < rin) (hr : rin < rout) (Nphi Ntheta Nr k : Nat) (alpha : ℝ × ℝ)
    (N Nt Ng : Nat) (hA : Spec.Allowed .complex Nphi Ntheta) (hs : 0 < sig.length → VolumeField.Spec.Separated .complex Nphi (lmaxOf .complex Ntheta))
    (hNt : lmaxOf .complex Ntheta < Nt) (hN : Nphi ≤ N) (hNg : 0 < Ng) (hNr : Nr ≤ Ng) (q : Nat → ℝ) (hq : Jacobi.GridGuess Nt 0 0 q) (g : Nat → ℝ)
    (ha : -1 < alpha.1) (hb : -1 < alpha.2) (hg : Jacobi.GridGuess Ng alpha.1 alpha.2 g) (c : List Nat → Nat → Nat → Nat → ℂ)
    (hz : ∀ t, Spin.Spec.Component sig t → ∀ i j n, i < (sphereShape .complex Nphi (lmaxOf .complex Ntheta)).1 →
      j < (sphereShape .complex Nphi (lmaxOf .complex Ntheta)).2 →
      n < Nr → volume false .complex Nphi (lmaxOf .complex Ntheta) t i j n = false ∨
        (Nphi : Int) ≤ 2 * |(group .complex Nphi (lmaxOf .complex Ntheta) i j).1| → c t i j n = 0) :
    ∃ u c', VolumeField.shellToGridComplex phi theta r sig rin rout Nphi (lmaxOf .complex Ntheta) Nr k alpha N Nt Ng q g c = some u ∧
      VolumeField.shellToCoeffComplex before phi theta r sig rin rout Nphi (lmaxOf .complex Ntheta) Nr k alpha N Nt Ng q g u = some c' ∧
      ∀ t, Spin.Spec.Component sig t → ∀ i j n, i < (sphereShape .complex Nphi (lmaxOf .complex Ntheta)).1 →
        j < (sphereShape .complex Nphi (lmaxOf .complex Ntheta)).2 → n < Nr → c' t i j n = c t i j n := by
  classical
  obtain ⟨u, c', hu, hc', hv⟩ := VolumeField.shell_round_trip_complex_partial before h0 h1 hsig rin rout hr0 hr Nphi Ntheta Nr k alpha N Nt Ng hA hs hNt hN hNg q
    hq g ha hb hg (volumeComplex Nphi (lmaxOf .complex Ntheta) c) c
    (fun t _ i j m l n hi hj _ e => sphere_complex_entry hA (fun p => c t p.1 p.2 n) i j m l hi hj e)
  refine ⟨u, c', hu, hc', fun t ht i j n hi hj hn => ?_⟩
  obtain ⟨m, l, e, hval⟩ := hv t ht i j n hi hj hn
  rw [hval]
  split
  · rfl
  · next hne =>
    refine (hz t ht i j n hi hj hn ?_).symm
    simp only [group_eq e]
    by_cases hm : 2 * |m| < (Nphi : Int)
    · exact Or.inl (volume_forbidden ((VolumeField.component_iff hsig t).1 ht) (group_eq e) (by simp [radialMin]) fun hal => hne ⟨hal, by omega, hm⟩)
    · exact Or.inr (by omega)

end

/-- C103: false of the code in the ball: every mode below `n = l / 2` is marked valid, even of forbidden regularity components, although no grid value
depends on it (`ball_invalid_ignored_real`, `ball_invalid_ignored_complex`). -/
theorem ball_low_modes_refuted (d : Dtype) (Nphi L : Nat) (t : List Nat) (i j n : Nat) (h : (n : Int) < (group d Nphi L i j).2 / 2) :
    volume true d Nphi L t i j n = true := by
  have h0 : 0 ≤ (group d Nphi L i j).2 := by omega
  have e1 : decide ((n : Int) < radialMin true (group d Nphi L i j).2) = true := by simp [radialMin]; omega
  unfold volume dropSine
  simp only [e1, allowedLoop_masked _ h0, ite_self, Bool.not_true, Bool.and_false, Bool.false_and, Bool.false_eq_true, if_false]
  cases d <;> rfl

/-- Such modes exist: in a ball with 8 azimuthal and 4 colatitude points, the coefficient 0 of degree 2. -/
example : group .real 8 2 0 2 = (0, 2) ∧ ((0 : Nat) : Int) < (group .real 8 2 0 2).2 / 2 ∧ ¬Regularity.Spec.Allowed 0 (VolumeField.Spec.numbers [2]) ∧
    volume true .real 8 2 [0, 0, 0] 0 2 0 = true ∧ ¬Regularity.Spec.Allowed 2 (VolumeField.Spec.numbers [0, 0, 0]) := by
  refine ⟨by decide, by decide, fun h => ?_, by decide, fun h => ?_⟩
  · exact (h [] 0 [] rfl).2 (by simp) rfl
  · have := (h [] (-1) [-1, -1] rfl).1
    simp at this

/-- C103: false of the code for real scalar fields on the sphere: the sine part of order zero is marked valid for every degree from 1 on, and no grid value
depends on it. -/
theorem sphere_sine_refuted (coord0 coord1 : Spin.Coord) (h0 : coord0.azimuthal = true) (h1 : coord1.azimuthal = false) (Nphi Ntheta N Ng : Nat)
    (hA : Spec.Allowed .real Nphi Ntheta) (hg : lmaxOf .real Ntheta < Ng) (hN : Nphi ≤ N) (q : Nat → ℝ) (hq : Jacobi.GridGuess Ng 0 0 q) (l : Nat) (hl : 0 < l)
    (hl' : l ≤ lmaxOf .real Ntheta) (c c' : List Nat → Nat → Nat → ℝ) (hcc : ∀ i j, ¬(i = 1 ∧ j = l) → c [] i j = c' [] i j) :
    group .real Nphi (lmaxOf .real Ntheta) 1 l = (0, (l : Int)) ∧ sphere .real Nphi (lmaxOf .real Ntheta) coord1 [] [] 1 l = true ∧
    ∃ u u', toGridReal coord0 coord1 [] Nphi (lmaxOf .real Ntheta) N Ng q c = some u ∧ toGridReal coord0 coord1 [] Nphi (lmaxOf .real Ntheta) N Ng q c' = some u' ∧
      ∀ j x, x < Ng → u [] j x = u' [] j x := by
  have h : Spin.Spec.Suitable coord0 coord1 [] := ⟨h0, h1, by simp⟩
  have hgr : group .real Nphi (lmaxOf .real Ntheta) 1 l = (0, (l : Int)) := by
    unfold group Sphere.groupReal
    simp only [if_pos (show (1 : Nat) < 2 by omega)]
    rw [if_neg (by omega)]
  refine ⟨hgr, sphere_valid_real (m := 0) (l := l) hgr (by omega) (by simp [spinWeight]) (fun e => by omega), ?_⟩
  obtain ⟨fs, u, hf, hu, hv⟩ := sphere_values_real h Nphi Ntheta N Ng hA hg hN q hq (sphereReal Nphi (lmaxOf .real Ntheta) c) c
    (fun t _ i j m l hi hj e => sphere_real_entry hA (fun p => c t p.1 p.2) i j m l hi hj e)
  obtain ⟨fs', u', hf', hu', hv'⟩ := sphere_values_real h Nphi Ntheta N Ng hA hg hN q hq (sphereReal Nphi (lmaxOf .real Ntheta) c') c'
    (fun t _ i j m l hi hj e => sphere_real_entry hA (fun p => c' t p.1 p.2) i j m l hi hj e)
  rw [hf] at hf'
  cases hf'
  cases hf
  refine ⟨u, u', hu, hu', fun j x hx => ?_⟩
  rw [hv [] .nil j x hx, hv' [] .nil j x hx]
  unfold SphereField.Spec.realValue SphereField.Spec.part SphereField.Spec.spinPart
  simp only [Spin.backwardComplex]
  refine Finset.sum_congr rfl fun m _ => ?_
  by_cases hm : m = 0
  · subst hm
    rw [zero_mode, one_mul, one_mul, Complex.re_sum, Complex.re_sum]
    refine Finset.sum_congr rfl fun l' _ => ?_
    rw [Complex.re_ofReal_mul, Complex.re_ofReal_mul]
    refine congrArg _ (decodeReal_re fun p hp e e' => hcc p.1 p.2 fun e'' => ?_)
    omega
  · congr 2
    refine Finset.sum_congr rfl fun l' _ => ?_
    refine congrArg _ (decodeReal_congr fun p hp e => hcc p.1 p.2 fun e'' => ?_)
    rw [e''.1, e''.2] at e
    simp only [hgr, Prod.mk.injEq] at e
    omega

/-! ## Real scalar fields -/

theorem decode_zero {α κ V : Type} [Zero V] {D : α → Prop} {name : α → κ} {c : α → V} {k : κ} (h : ∀ x, D x → name x = k → c x = 0) : decode D name c k = 0 := by
  unfold decode
  split
  · next e => exact h _ e.choose_spec.1 e.choose_spec.2
  · rfl

theorem decodeReal_im {α κ : Type} {D : α → Prop} {row : α → Nat} {name : α → κ} {c : α → ℝ} {k : κ}
    (h : ∀ x, D x → name x = k → row x % 2 = 1 → c x = 0) : (decodeReal D row name c k).im = 0 :=
  decode_zero fun x hx e => h x hx (congrArg Prod.fst e) (congrArg Prod.snd e)

section
variable {coord0 coord1 : Spin.Coord}

/-- C103: coefficients of a real scalar field in the disk that vanish at invalid modes come back unchanged. -/
theorem disk_valid_kept_scalar (before : Bool) (h0 : coord0.azimuthal = true) (h1 : coord1.azimuthal = false) (Nphi Nr N Ng k : Nat) (alpha : ℝ)
    (hA : PolarField.Spec.Accepted .real Nphi) (hN : Nphi ≤ N) (hr : Nphi < 4 * Nr) (hNg : Nr ≤ Ng) (ha : -1 < alpha) (q : Nat → ℝ)
    (hq : Jacobi.GridGuess Ng alpha 0 q) (c : List Nat → Nat → Nat → ℝ)
    (hz : ∀ i n, i < polarRows .real Nphi → n < Nr → polar true .real Nphi 0 i n = false → c [] i n = 0) :
    ∃ u c', PolarField.diskToGridReal coord0 coord1 [] Nphi Nr k alpha N Ng q c = some u ∧
      PolarField.diskToCoeffReal before coord0 coord1 [] Nphi Nr k alpha N Ng q u = some c' ∧
      ∀ i n, i < polarRows .real Nphi → n < Nr → c' [] i n = c [] i n := by
  obtain ⟨u, c', hu, hc', hv⟩ := disk_valid_kept_real_partial (sig := []) before ⟨h0, h1, by simp⟩ Nphi Nr N Ng k alpha hA hN hr (by simp; omega) ha q hq _ c
    (polar_holds_real hA [] Nr c) (fun t ht i n hi hn hp => by cases ht; exact hz i n hi hn hp) (fun fs hf t ht r => by
      cases ht
      cases hf
      unfold PolarField.Spec.part PolarField.Spec.spinPart
      simp only [Spin.backwardComplex]
      rw [Complex.im_sum]
      refine Finset.sum_eq_zero fun n hn => ?_
      rw [Complex.im_ofReal_mul]
      have : (polarReal Nphi c [] 0 n).im = 0 := decodeReal_im fun i hi e e' => hz i n hi (Finset.mem_range.1 hn) (by
        unfold polar
        rw [if_pos rfl, if_pos ⟨e, e'⟩])
      rw [this, mul_zero])
  exact ⟨u, c', hu, hc', fun i n hi hn => hv [] .nil i n hi hn⟩

/-- C103: the same in the annulus. -/
theorem annulus_valid_kept_scalar (before : Bool) (h0 : coord0.azimuthal = true) (h1 : coord1.azimuthal = false) (Nphi Nr N Ng k : Nat) (rin rout : ℝ)
    (hrin : 0 < rin) (hrout : rin < rout) (alpha : ℝ × ℝ) (hA : PolarField.Spec.Accepted .real Nphi) (hN : Nphi ≤ N) (hr : 0 < Nr) (hg : Nr ≤ Ng)
    (ha : -1 < alpha.1) (hb : -1 < alpha.2) (q : Nat → ℝ) (hq : Jacobi.GridGuess Ng alpha.1 alpha.2 q) (c : List Nat → Nat → Nat → ℝ)
    (hz : ∀ i n, i < polarRows .real Nphi → n < Nr → polar false .real Nphi 0 i n = false → c [] i n = 0) :
    ∃ u c', PolarField.annulusToGridReal coord0 coord1 [] rin rout Nphi Nr k alpha N Ng q c = some u ∧
      PolarField.annulusToCoeffReal before coord0 coord1 [] rin rout Nphi Nr k alpha N Ng q u = some c' ∧
      ∀ i n, i < polarRows .real Nphi → n < Nr → c' [] i n = c [] i n := by
  obtain ⟨u, c', hu, hc', hv⟩ := annulus_valid_kept_real_partial (sig := []) before ⟨h0, h1, by simp⟩ Nphi Nr N Ng k rin rout hrin hrout alpha hA hN hr hg ha hb
    q hq _ c (polar_holds_real hA [] Nr c) (fun fs hf t ht r => by
      cases ht
      cases hf
      unfold PolarField.Spec.part PolarField.Spec.spinPart
      simp only [Spin.backwardComplex]
      rw [Complex.im_sum]
      refine Finset.sum_eq_zero fun n hn => ?_
      rw [Complex.im_ofReal_mul]
      have : (polarReal Nphi c [] 0 n).im = 0 := decodeReal_im fun i hi e e' => hz i n hi (Finset.mem_range.1 hn) (by
        unfold polar
        rw [if_pos rfl, if_pos ⟨e, e'⟩])
      rw [this, mul_zero])
  exact ⟨u, c', hu, hc', fun i n hi hn => hv [] .nil i n hi hn⟩

/-- C103: coefficients of a real scalar field on the sphere that vanish at invalid modes, and at the sine parts of order zero and positive degree that the code
leaves valid, come back unchanged. -/
theorem sphere_valid_kept_scalar_partial (h0 : coord0.azimuthal = true) (h1 : coord1.azimuthal = false) (Nphi Ntheta N Ng : Nat)
    (hA : Spec.Allowed .real Nphi Ntheta) (hg : lmaxOf .real Ntheta < Ng) (hN : Nphi ≤ N) (q : Nat → ℝ) (hq : Jacobi.GridGuess Ng 0 0 q)
    (c : List Nat → Nat → Nat → ℝ)
    (hz : ∀ i j, i < (sphereShape .real Nphi (lmaxOf .real Ntheta)).1 → j < (sphereShape .real Nphi (lmaxOf .real Ntheta)).2 →
      sphere .real Nphi (lmaxOf .real Ntheta) coord1 [] [] i j = false ∨
        (i % 2 = 1 ∧ (group .real Nphi (lmaxOf .real Ntheta) i j).1 = 0 ∧ 0 < (group .real Nphi (lmaxOf .real Ntheta) i j).2) → c [] i j = 0) :
    ∃ u c', toGridReal coord0 coord1 [] Nphi (lmaxOf .real Ntheta) N Ng q c = some u ∧
      toCoeffReal coord0 coord1 [] Nphi (lmaxOf .real Ntheta) N Ng q u = some c' ∧
      ∀ i j, i < (sphereShape .real Nphi (lmaxOf .real Ntheta)).1 → j < (sphereShape .real Nphi (lmaxOf .real Ntheta)).2 → c' [] i j = c [] i j := by
  obtain ⟨u, c', hu, hc', hv⟩ := sphere_valid_kept_real_partial (sig := []) ⟨h0, h1, by simp⟩ Nphi Ntheta N Ng hA hg hN q hq
    (sphereReal Nphi (lmaxOf .real Ntheta) c) c (fun t _ i j m l hi hj e => sphere_real_entry hA (fun p => c t p.1 p.2) i j m l hi hj e)
    (fun t ht i j hi hj hp => by cases ht; exact hz i j hi hj (Or.inl hp)) (fun fs hf t ht z _ _ => by
      cases ht
      cases hf
      unfold SphereField.Spec.part SphereField.Spec.spinPart
      simp only [Spin.backwardComplex]
      rw [Complex.im_sum]
      refine Finset.sum_eq_zero fun l _ => ?_
      rw [Complex.im_ofReal_mul]
      have : (sphereReal Nphi (lmaxOf .real Ntheta) c [] 0 l).im = 0 := decodeReal_im fun p hp e e' => hz p.1 p.2 hp.1 hp.2 (by
        by_cases hl : l = 0
        · refine Or.inl ?_
          unfold sphere dropSine
          simp [e, e', hl]
        · refine Or.inr ⟨e', by rw [e], by rw [e]; simp; omega⟩)
      rw [this, mul_zero])
  exact ⟨u, c', hu, hc', fun i j hi hj => hv [] .nil i j hi hj⟩

end

section
variable {phi theta r : Spin.Coord}

theorem scalar_im (theta : Spin.Coord) {Nphi L : Nat} (R : List Int → Nat → Nat → ℝ → ℝ) (Nr : Nat) (c : List Nat → Nat → Nat → Nat → ℝ)
    (hz : ∀ i j n, i < (sphereShape .real Nphi L).1 → j < (sphereShape .real Nphi L).2 → n < Nr → i % 2 = 1 → (group .real Nphi L i j).1 = 0 → c [] i j n = 0)
    (fs : List (Option Spin.Mat)) (hf : Spin.factors theta [] = some fs) (rho z : ℝ) :
    (SphereField.Spec.part fs (spinWeight theta []) L (VolumeField.Spec.spinCoefficient R 0 Nr (volumeReal Nphi L c) rho) 0 z []).im = 0 := by
  cases hf
  unfold SphereField.Spec.part SphereField.Spec.spinPart
  simp only [Spin.backwardComplex]
  rw [Complex.im_sum]
  refine Finset.sum_eq_zero fun l _ => ?_
  rw [Complex.im_ofReal_mul]
  unfold VolumeField.Spec.spinCoefficient
  simp only [VolumeField.indices, List.map_cons, List.map_nil, List.sum_cons, List.sum_nil, add_zero]
  rw [Complex.im_ofReal_mul, Complex.im_sum]
  rw [Finset.sum_eq_zero, mul_zero, mul_zero]
  intro n hn
  rw [Complex.im_ofReal_mul]
  have : (volumeReal Nphi L c [] 0 l n).im = 0 := decodeReal_im fun p hp e e' => hz p.1 p.2 n hp.1 hp.2 (Finset.mem_range.1 hn) e' (by rw [e])
  rw [this, mul_zero]

theorem volume_sine {ball : Bool} {Nphi L i j n : Nat} (h : (group .real Nphi L i j).2 = 0) (hi : i % 2 = 1) : volume ball .real Nphi L [] i j n = false := by
  unfold volume dropSine
  have : decide ((n : Int) < radialMin ball 0) = false := by
    unfold radialMin
    split <;> simp
  simp [h, hi, this]

/-- C103: coefficients of a real scalar field in the ball that vanish at invalid modes, below `n = l / 2` and at the sine parts of order zero and positive
degree that the code leaves valid, come back unchanged. -/
theorem ball_valid_kept_scalar_partial (before : Bool) (h0 : phi.azimuthal = true) (h1 : theta.azimuthal = false) (Nphi Ntheta Nr k : Nat) (alpha : ℝ)
    (N Nt Ng : Nat) (hA : Spec.Allowed .real Nphi Ntheta) (hs : VolumeField.Spec.Separated .real Nphi (lmaxOf .real Ntheta))
    (hNt : lmaxOf .real Ntheta < Nt) (hN : Nphi ≤ N) (q : Nat → ℝ) (hq : Jacobi.GridGuess Nt 0 0 q) (g : Nat → ℝ)
    (ha : -1 < alpha) (hNg : 0 < Ng) (hNr : Nr ≤ Ng) (hg : Jacobi.GridGuess Ng alpha (1 / 2) g) (c : List Nat → Nat → Nat → Nat → ℝ)
    (hz : ∀ i j n, i < (sphereShape .real Nphi (lmaxOf .real Ntheta)).1 → j < (sphereShape .real Nphi (lmaxOf .real Ntheta)).2 →
      n < Nr → volume true .real Nphi (lmaxOf .real Ntheta) [] i j n = false ∨ (n : Int) < (group .real Nphi (lmaxOf .real Ntheta) i j).2 / 2 ∨
        (i % 2 = 1 ∧ (group .real Nphi (lmaxOf .real Ntheta) i j).1 = 0 ∧ (group .real Nphi (lmaxOf .real Ntheta) i j).2 ≠ 0) → c [] i j n = 0) :
    ∃ u c', VolumeField.ballToGridReal phi theta r [] Nphi (lmaxOf .real Ntheta) Nr k alpha N Nt Ng q g c = some u ∧
      VolumeField.ballToCoeffReal before phi theta r [] Nphi (lmaxOf .real Ntheta) Nr k alpha N Nt Ng q g u = some c' ∧
      ∀ i j n, i < (sphereShape .real Nphi (lmaxOf .real Ntheta)).1 → j < (sphereShape .real Nphi (lmaxOf .real Ntheta)).2 →
        n < Nr → c' [] i j n = c [] i j n := by
  obtain ⟨u, c', hu, hc', hv⟩ := ball_valid_kept_real_partial (phi := phi) (theta := theta) (r := r) (sig := []) before h0 h1 (by simp) Nphi Ntheta Nr k alpha N
    Nt Ng hA hs (by simp) hNt hN q hq g ha hNg (by simp; omega) hg (volumeReal Nphi (lmaxOf .real Ntheta) c) c
    (fun t _ i j m l n hi hj _ e => sphere_real_entry hA (fun p => c t p.1 p.2 n) i j m l hi hj e)
    (fun t ht i j n hi hj hn hp => by
      cases ht
      refine hz i j n hi hj hn ?_
      rcases hp with hp | hp
      · exact Or.inl hp
      · exact Or.inr (Or.inl hp))
    (fun fs hf t ht rho z _ _ _ _ => by
      cases ht
      refine scalar_im theta _ Nr c (fun i j n hi hj hn e e' => hz i j n hi hj hn ?_) fs hf rho z
      by_cases hl : (group .real Nphi (lmaxOf .real Ntheta) i j).2 = 0
      · exact Or.inl (volume_sine hl e)
      · exact Or.inr (Or.inr ⟨e, e', hl⟩))
  exact ⟨u, c', hu, hc', fun i j n hi hj hn => hv [] .nil i j n hi hj hn⟩

/-- C103: the same in the shell. -/
theorem shell_valid_kept_scalar_partial (before : Bool) (h0 : phi.azimuthal = true) (h1 : theta.azimuthal = false)
    (rin rout : ℝ) (hr0 : 0 < rin) (hr : rin < rout) (Nphi Ntheta Nr k : Nat) (alpha : ℝ × ℝ)
    (N Nt Ng : Nat) (hA : Spec.Allowed .real Nphi Ntheta)
    (hNt : lmaxOf .real Ntheta < Nt) (hN : Nphi ≤ N) (hNg : 0 < Ng) (hNr : Nr ≤ Ng) (q : Nat → ℝ) (hq : Jacobi.GridGuess Nt 0 0 q) (g : Nat → ℝ)
    (ha : -1 < alpha.1) (hb : -1 < alpha.2) (hg : Jacobi.GridGuess Ng alpha.1 alpha.2 g) (c : List Nat → Nat → Nat → Nat → ℝ)
    (hz : ∀ i j n, i < (sphereShape .real Nphi (lmaxOf .real Ntheta)).1 → j < (sphereShape .real Nphi (lmaxOf .real Ntheta)).2 →
      n < Nr → volume false .real Nphi (lmaxOf .real Ntheta) [] i j n = false ∨
        (i % 2 = 1 ∧ (group .real Nphi (lmaxOf .real Ntheta) i j).1 = 0 ∧ (group .real Nphi (lmaxOf .real Ntheta) i j).2 ≠ 0) → c [] i j n = 0) :
    ∃ u c', VolumeField.shellToGridReal phi theta r [] rin rout Nphi (lmaxOf .real Ntheta) Nr k alpha N Nt Ng q g c = some u ∧
      VolumeField.shellToCoeffReal before phi theta r [] rin rout Nphi (lmaxOf .real Ntheta) Nr k alpha N Nt Ng q g u = some c' ∧
      ∀ i j n, i < (sphereShape .real Nphi (lmaxOf .real Ntheta)).1 → j < (sphereShape .real Nphi (lmaxOf .real Ntheta)).2 →
        n < Nr → c' [] i j n = c [] i j n := by
  obtain ⟨u, c', hu, hc', hv⟩ := shell_valid_kept_real_partial (phi := phi) (theta := theta) (r := r) (sig := []) before h0 h1 (by simp) rin rout hr0 hr Nphi
    Ntheta Nr k alpha N Nt Ng hA (by simp) hNt hN hNg hNr q hq g ha hb hg (volumeReal Nphi (lmaxOf .real Ntheta) c) c
    (fun t _ i j m l n hi hj _ e => sphere_real_entry hA (fun p => c t p.1 p.2 n) i j m l hi hj e)
    (fun t ht i j n hi hj hn hp => by cases ht; exact hz i j n hi hj hn (Or.inl hp))
    (fun fs hf t ht rho z _ _ _ _ => by
      cases ht
      refine scalar_im theta _ Nr c (fun i j n hi hj hn e e' => hz i j n hi hj hn ?_) fs hf rho z
      by_cases hl : (group .real Nphi (lmaxOf .real Ntheta) i j).2 = 0
      · exact Or.inl (volume_sine hl e)
      · exact Or.inr ⟨e, e', hl⟩)
  exact ⟨u, c', hu, hc', fun i j n hi hj hn => hv [] .nil i j n hi hj hn⟩

end

/-- Admissible sizes and grids exist, and the masks are neither empty nor full. -/
example : PolarField.Spec.Accepted .real 16 ∧ 16 ≤ 24 ∧ 16 < 4 * 8 ∧ (∃ q, Jacobi.GridGuess 12 0 0 q) ∧ Orders.Spec.Allowed .real 16 8 ∧
    VolumeField.Spec.Separated .real 16 (lmaxOf .real 8) ∧ lmaxOf .real 8 < 8 ∧ (∃ q, Jacobi.GridGuess 10 0 (1 / 2) q) ∧
    polar true .real 16 0 5 0 = true ∧ polar true .real 16 0 3 0 = false ∧ polar true .real 16 0 1 2 = false ∧ polar true .real 16 1 1 2 = true ∧
    volume true .real 16 6 [0] 0 0 1 = false ∧ volume true .real 16 6 [1] 0 0 1 = true ∧ volume true .real 16 6 [1] 1 0 1 = false := by
  refine ⟨Or.inr ⟨by decide, by decide⟩, by decide, by decide, Jacobi.guess_exists 12 0 0 (by norm_num) (by norm_num),
    ⟨by decide, .inr ⟨by decide, by decide, by decide⟩⟩, .inr (.inr (.inr (by decide))), by decide, Jacobi.guess_exists 10 0 (1 / 2) (by norm_num) (by norm_num),
    ?_⟩
  decide +kernel

/-! ## Several bases and processes -/

theorem globalIndex_mem : ∀ (els : List (List Nat)) (idx : List Nat), List.Forall₂ (· ∈ ·) idx els ↔ ∃ pos, globalIndex els pos = some idx
  | [], idx => by
    constructor
    · intro h; cases h; exact ⟨[], rfl⟩
    · rintro ⟨pos, h⟩
      cases pos with
      | nil => cases h; exact .nil
      | cons _ _ => cases h
  | es :: els, idx => by
    constructor
    · intro h
      cases h with
      | cons hm hr =>
        obtain ⟨p, hp, e⟩ := List.getElem_of_mem hm
        obtain ⟨pos, hpos⟩ := (globalIndex_mem els _).1 hr
        refine ⟨p :: pos, ?_⟩
        simp only [globalIndex, List.getElem?_eq_getElem hp, Option.bind_some, hpos, Option.map_some, e]
    · rintro ⟨pos, h⟩
      cases pos with
      | nil => cases h
      | cons p pos =>
        simp only [globalIndex] at h
        obtain ⟨g, hg, h⟩ := Option.bind_eq_some_iff.1 h
        obtain ⟨rest, hr, rfl⟩ := Option.map_eq_some_iff.1 h
        exact .cons (List.mem_of_getElem? hg) ((globalIndex_mem els rest).2 ⟨pos, hr⟩)

/-- C103: whatever the process mesh, every coefficient is held by exactly one process, and there it is marked valid if and only if all bases of the field accept
it at its global indices. -/
theorem valid_on_processes (bases : List Piece) (loc constant : List Bool) (mesh shape chunks : List Nat) (hk : constant.length = loc.length)
    (hmesh : mesh.length = loc.count false) (hpos : ∀ m ∈ mesh, 0 < m) (hlen : shape.length = loc.length)
    (hch : List.Forall₂ (fun c n => 0 < c ∧ c ∣ n) chunks shape) (t idx : List Nat) (hidx : List.Forall₂ (· < ·) idx shape) :
    (∃! coords, List.Forall₂ (· < ·) coords mesh ∧ ∃ els pos, Dist.layoutElements loc mesh shape chunks constant false coords = some els ∧
      globalIndex els pos = some idx) ∧
    ∀ coords els pos, Dist.layoutElements loc mesh shape chunks constant false coords = some els → globalIndex els pos = some idx →
      ∃ valid, layoutValid bases els t pos = some valid ∧ (valid = true ↔ ∀ b ∈ bases, b.mask t ((idx.drop b.first).take b.dim) = true) := by
  refine ⟨?_, fun coords els pos _ hg => ?_⟩
  · obtain ⟨coords, ⟨h1, els, h2, h3⟩, hu⟩ := Dist.owned_by_one_process loc constant mesh shape chunks idx hk hmesh hpos hlen hch hidx
    obtain ⟨pos, hp⟩ := (globalIndex_mem els idx).1 h3
    refine ⟨coords, ⟨h1, els, pos, h2, hp⟩, ?_⟩
    rintro coords' ⟨h1', els', pos', h2', hp'⟩
    exact hu coords' ⟨h1', els', h2', (globalIndex_mem els' idx).2 ⟨pos', hp'⟩⟩
  · unfold layoutValid
    rw [hg]
    refine ⟨_, rfl, ?_⟩
    have key : ∀ (l : List Piece) (v : Bool), (l.foldl (fun valid b => valid && b.mask t ((idx.drop b.first).take b.dim)) v = true ↔
        v = true ∧ ∀ b ∈ l, b.mask t ((idx.drop b.first).take b.dim) = true) := by
      intro l
      induction l with
      | nil => intro v; simp
      | cons b l ih =>
        intro v
        rw [List.foldl_cons, ih]
        simp only [Bool.and_eq_true, List.mem_cons, forall_eq_or_imp, and_assoc]
    rw [key]
    simp

/-- A real Fourier axis of 4 modes over two processes and a Chebyshev axis: the sine part of wavenumber zero is the only invalid mode. -/
example : let bases : List Piece := [⟨0, 1, fun t g => match g with | [i] => realFourier false t.length Sphere.nativeReal i | _ => false⟩,
      ⟨1, 1, fun t g => match g with | [i] => jacobi t i | _ => false⟩]
    Dist.layoutElements [false, true] [2] [4, 2] [2, 1] [false, false] false [0] = some [[0, 1], [0, 1]] ∧
    Dist.layoutElements [false, true] [2] [4, 2] [2, 1] [false, false] false [1] = some [[2, 3], [0, 1]] ∧
    layoutValid bases [[0, 1], [0, 1]] [] [1, 0] = some false ∧ layoutValid bases [[2, 3], [0, 1]] [] [1, 0] = some true := by decide +kernel

end Dedalus.Modes
