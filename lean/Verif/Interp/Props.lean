import Verif.Interp.Lemmas
import Verif.Interp.Spec
import Verif.PolarField.Props
import Verif.VolumeField.Props

/-! C100: interpolation of tensor fields in azimuth and colatitude. -/

namespace Dedalus.Interp
open Orders Orders.Spec SphereField

theorem azimuth_coord {pos : Fourier.Position} {φ : ℝ} (h : Spec.Azimuth pos φ) : azimuthCov.nativeCoord pos = some φ := by
  have hpi : Real.pi ≠ 0 := Real.pi_ne_zero
  cases h with
  | num =>
    simp only [Fourier.Cov.nativeCoord, azimuthCov, Fourier.fourierCov, Fourier.Cov.problemLength, Fourier.Cov.nativeLength, sub_zero, zero_add]
    rw [div_mul_cancel₀ _ (by positivity)]
  | left => simp [Fourier.Cov.nativeCoord, azimuthCov, Fourier.fourierCov]
  | right => simp [Fourier.Cov.nativeCoord, azimuthCov, Fourier.fourierCov]
  | center => simp [Fourier.Cov.nativeCoord, azimuthCov, Fourier.fourierCov, Fourier.Cov.nativeCenter]

/-! ## Azimuth -/

section
variable {coord0 coord1 : Spin.Coord} {sig : List Spin.Index}

/-- C100, real tensor fields on the sphere: interpolation in azimuth gives the values of the field at that azimuth and all colatitudes of the grid. -/
theorem sphere_azimuth_real (h : Spin.Spec.Suitable coord0 coord1 sig) (Nphi Ntheta Ng : Nat) (hA : Allowed .real Nphi Ntheta)
    (hP : PolarField.Spec.Accepted .real Nphi) (dealias : ℚ) (hd : 1 ≤ dealias) (hg : lmaxOf .real Ntheta < Ng) (q : Nat → ℝ) (hq : Jacobi.GridGuess Ng 0 0 q)
    (a : List Nat → Int → Int → ℂ) (c : List Nat → Nat → Nat → ℝ) (hc : SphereField.Spec.HoldsReal sig Nphi (lmaxOf .real Ntheta) a c)
    (pos : Fourier.Position) (φ : ℝ) (hφ : Spec.Azimuth pos φ) :
    ∃ fs u, Spin.factors coord1 sig = some fs ∧ toGridReal coord0 coord1 sig Nphi (lmaxOf .real Ntheta) (gridSize dealias Nphi) Ng q c = some u ∧
      ∀ t, Spin.Spec.Component sig t → ∀ x, x < Ng → azimuthReal dealias Nphi pos (fun j => u t j x) =
        some (SphereField.Spec.realValue fs (spinWeight coord1 sig) (lmaxOf .real Ntheta) (mmax Nphi) a (Sphere.grid Ng q x).1 φ t) := by
  obtain ⟨fs, u, h1, h2, h3⟩ := sphere_values_real h Nphi Ntheta (gridSize dealias Nphi) Ng hA hg (gridSize_le hd Nphi) q hq a c hc
  exact ⟨fs, u, h1, h2, fun t ht x hx => azimuth_interp_real hP hd (azimuth_coord hφ)
    (fun m => SphereField.Spec.part fs (spinWeight coord1 sig) (lmaxOf .real Ntheta) a m (Sphere.grid Ng q x).1 t) _ fun j => h3 t ht j x hx⟩

/-- C100, complex tensor fields on the sphere. -/
theorem sphere_azimuth_complex_partial (h : Spin.Spec.Suitable coord0 coord1 sig) (Nphi Ntheta Ng : Nat) (hA : Allowed .complex Nphi Ntheta)
    (hP : PolarField.Spec.Accepted .complex Nphi) (dealias : ℚ) (hd : 1 ≤ dealias) (hg : lmaxOf .complex Ntheta < Ng) (q : Nat → ℝ)
    (hq : Jacobi.GridGuess Ng 0 0 q)
    (a : List Nat → Int → Int → ℂ) (c : List Nat → Nat → Nat → ℂ) (hc : SphereField.Spec.HoldsComplex sig Nphi (lmaxOf .complex Ntheta) a c)
    (pos : Fourier.Position) (φ : ℝ) (hφ : Spec.Azimuth pos φ) :
    ∃ fs u, Spin.factors coord1 sig = some fs ∧ toGridComplex coord1 sig Nphi (lmaxOf .complex Ntheta) (gridSize dealias Nphi) Ng q c = some u ∧
      ∀ t, Spin.Spec.Component sig t → ∀ x, x < Ng → azimuthComplex dealias Nphi pos (fun j => u t j x) =
        some (SphereField.Spec.complexValue fs (spinWeight coord1 sig) (lmaxOf .complex Ntheta) (mmax Nphi) a (Sphere.grid Ng q x).1 φ t) := by
  obtain ⟨fs, u, h1, h2, h3⟩ := sphere_values_complex h Nphi Ntheta (gridSize dealias Nphi) Ng hA hg (gridSize_le hd Nphi) q hq a c hc
  exact ⟨fs, u, h1, h2, fun t ht x hx => azimuth_interp_complex hP hd (azimuth_coord hφ)
    (fun m => SphereField.Spec.part fs (spinWeight coord1 sig) (lmaxOf .complex Ntheta) a m (Sphere.grid Ng q x).1 t) _ fun j => h3 t ht j x hx⟩

/-- C100 is false for complex data with two azimuthal points: the data have one row, the vector has more columns, and interpolation is an error. -/
theorem azimuth_interpolation_refuted (dealias : ℚ) (hd : 1 ≤ dealias) (pos : Fourier.Position) (u : Nat → ℂ) : azimuthComplex dealias 2 pos u = none := by
  unfold azimuthComplex
  have h1 : gridRows dealias 2 = 1 := rfl
  have h2 := gridSize_le hd 2
  rw [if_neg (by omega)]

/-- C100, real tensor fields in the disk. -/
theorem disk_azimuth_real_partial (h : Spin.Spec.Suitable coord0 coord1 sig) (Nphi Nr Ng k : Nat) (alpha : ℝ) (hA : PolarField.Spec.Accepted .real Nphi)
    (dealias : ℚ) (hd : 1 ≤ dealias) (hr : Nphi < 4 * Nr) (hg : 0 < Ng) (ha : -1 < alpha) (q : Nat → ℝ) (hq : Jacobi.GridGuess Ng alpha 0 q)
    (a : List Nat → Int → Nat → ℂ) (c : List Nat → Nat → Nat → ℝ) (hc : PolarField.Spec.HoldsReal sig Nphi Nr a c)
    (pos : Fourier.Position) (φ : ℝ) (hφ : Spec.Azimuth pos φ) :
    ∃ fs u, Spin.factors coord1 sig = some fs ∧ PolarField.diskToGridReal coord0 coord1 sig Nphi Nr k alpha (gridSize dealias Nphi) Ng q c = some u ∧
      ∀ t, Spin.Spec.Component sig t → ∀ x, x < Ng → azimuthReal dealias Nphi pos (fun j => u t j x) =
        some (PolarField.Spec.realValue (PolarField.Spec.diskMode Ng (alpha + k)) fs (spinWeight coord1 sig) Nr (mmax Nphi) a
          (Zernike.radiusGrid 2 Ng alpha q x) φ t) := by
  obtain ⟨fs, u, h1, h2, h3⟩ := PolarField.disk_values_real_partial h Nphi Nr (gridSize dealias Nphi) Ng k alpha hA (gridSize_le hd Nphi) hr hg ha q hq a c hc
  exact ⟨fs, u, h1, h2, fun t ht x hx => azimuth_interp_real hA hd (azimuth_coord hφ)
    (fun m => PolarField.Spec.part (PolarField.Spec.diskMode Ng (alpha + k)) fs (spinWeight coord1 sig) Nr a m (Zernike.radiusGrid 2 Ng alpha q x) t) _
    fun j => h3 t ht j x hx⟩

/-- C100, complex tensor fields in the disk. -/
theorem disk_azimuth_complex_partial (h : Spin.Spec.Suitable coord0 coord1 sig) (Nphi Nr Ng k : Nat) (alpha : ℝ) (hA : PolarField.Spec.Accepted .complex Nphi)
    (dealias : ℚ) (hd : 1 ≤ dealias) (hr : Nphi < 4 * Nr) (hg : 0 < Ng) (ha : -1 < alpha) (q : Nat → ℝ) (hq : Jacobi.GridGuess Ng alpha 0 q)
    (a : List Nat → Int → Nat → ℂ) (c : List Nat → Nat → Nat → ℂ) (hc : PolarField.Spec.HoldsComplex sig Nphi Nr a c)
    (pos : Fourier.Position) (φ : ℝ) (hφ : Spec.Azimuth pos φ) :
    ∃ fs u, Spin.factors coord1 sig = some fs ∧ PolarField.diskToGridComplex coord1 sig Nphi Nr k alpha (gridSize dealias Nphi) Ng q c = some u ∧
      ∀ t, Spin.Spec.Component sig t → ∀ x, x < Ng → azimuthComplex dealias Nphi pos (fun j => u t j x) =
        some (PolarField.Spec.complexValue (PolarField.Spec.diskMode Ng (alpha + k)) fs (spinWeight coord1 sig) Nr (mmax Nphi) a
          (Zernike.radiusGrid 2 Ng alpha q x) φ t) := by
  obtain ⟨fs, u, h1, h2, h3⟩ := PolarField.disk_values_complex_partial h Nphi Nr (gridSize dealias Nphi) Ng k alpha hA (gridSize_le hd Nphi) hr hg ha q hq a c hc
  exact ⟨fs, u, h1, h2, fun t ht x hx => azimuth_interp_complex hA hd (azimuth_coord hφ)
    (fun m => PolarField.Spec.part (PolarField.Spec.diskMode Ng (alpha + k)) fs (spinWeight coord1 sig) Nr a m (Zernike.radiusGrid 2 Ng alpha q x) t) _
    fun j => h3 t ht j x hx⟩

/-- C100, real tensor fields in the annulus. -/
theorem annulus_azimuth_real_partial (h : Spin.Spec.Suitable coord0 coord1 sig) (Nphi Nr Ng k : Nat) (rin rout : ℝ) (h1 : rin < rout)
    (alpha : ℝ × ℝ) (hA : PolarField.Spec.Accepted .real Nphi) (dealias : ℚ) (hd : 1 ≤ dealias) (ha : -1 < alpha.1) (hb : -1 < alpha.2) (q : Nat → ℝ)
    (hq : Jacobi.GridGuess Ng alpha.1 alpha.2 q) (a : List Nat → Int → Nat → ℂ) (c : List Nat → Nat → Nat → ℝ)
    (hc : PolarField.Spec.HoldsReal sig Nphi Nr a c) (pos : Fourier.Position) (φ : ℝ) (hφ : Spec.Azimuth pos φ) :
    ∃ fs u, Spin.factors coord1 sig = some fs ∧
      PolarField.annulusToGridReal coord0 coord1 sig rin rout Nphi Nr k alpha (gridSize dealias Nphi) Ng q c = some u ∧
      ∀ t, Spin.Spec.Component sig t → ∀ x, x < Ng → azimuthReal dealias Nphi pos (fun j => u t j x) =
        some (PolarField.Spec.realValue (fun _ _ => PolarField.Spec.annulusMode Ng rin rout alpha k) fs (spinWeight coord1 sig) Nr (mmax Nphi) a
          (Shell.radiusGrid rin rout alpha Ng q x) φ t) := by
  obtain ⟨fs, u, e1, e2, e3⟩ := PolarField.annulus_values_real_partial h Nphi Nr (gridSize dealias Nphi) Ng k rin rout h1 alpha hA (gridSize_le hd Nphi) ha hb q hq a c hc
  exact ⟨fs, u, e1, e2, fun t ht x hx => azimuth_interp_real hA hd (azimuth_coord hφ)
    (fun m => PolarField.Spec.part (fun _ _ => PolarField.Spec.annulusMode Ng rin rout alpha k) fs (spinWeight coord1 sig) Nr a m
      (Shell.radiusGrid rin rout alpha Ng q x) t) _ fun j => e3 t ht j x hx⟩

/-- C100, complex tensor fields in the annulus. -/
theorem annulus_azimuth_complex_partial (h : Spin.Spec.Suitable coord0 coord1 sig) (Nphi Nr Ng k : Nat) (rin rout : ℝ) (h1 : rin < rout)
    (alpha : ℝ × ℝ) (hA : PolarField.Spec.Accepted .complex Nphi) (dealias : ℚ) (hd : 1 ≤ dealias) (ha : -1 < alpha.1) (hb : -1 < alpha.2) (q : Nat → ℝ)
    (hq : Jacobi.GridGuess Ng alpha.1 alpha.2 q) (a : List Nat → Int → Nat → ℂ) (c : List Nat → Nat → Nat → ℂ)
    (hc : PolarField.Spec.HoldsComplex sig Nphi Nr a c) (pos : Fourier.Position) (φ : ℝ) (hφ : Spec.Azimuth pos φ) :
    ∃ fs u, Spin.factors coord1 sig = some fs ∧
      PolarField.annulusToGridComplex coord1 sig rin rout Nphi Nr k alpha (gridSize dealias Nphi) Ng q c = some u ∧
      ∀ t, Spin.Spec.Component sig t → ∀ x, x < Ng → azimuthComplex dealias Nphi pos (fun j => u t j x) =
        some (PolarField.Spec.complexValue (fun _ _ => PolarField.Spec.annulusMode Ng rin rout alpha k) fs (spinWeight coord1 sig) Nr (mmax Nphi) a
          (Shell.radiusGrid rin rout alpha Ng q x) φ t) := by
  obtain ⟨fs, u, e1, e2, e3⟩ := PolarField.annulus_values_complex_partial h Nphi Nr (gridSize dealias Nphi) Ng k rin rout h1 alpha hA (gridSize_le hd Nphi) ha hb q hq a c hc
  exact ⟨fs, u, e1, e2, fun t ht x hx => azimuth_interp_complex hA hd (azimuth_coord hφ)
    (fun m => PolarField.Spec.part (fun _ _ => PolarField.Spec.annulusMode Ng rin rout alpha k) fs (spinWeight coord1 sig) Nr a m
      (Shell.radiusGrid rin rout alpha Ng q x) t) _ fun j => e3 t ht j x hx⟩

/-! ## Colatitude -/

/-- C100, real tensor fields on the sphere: interpolation in colatitude gives the values of the field at that colatitude and all azimuths of the grid, for
tensors none of whose spins exceeds the largest degree. If the basis has no orders above zero, the part of order zero has to be real, as for a real field. -/
theorem sphere_colatitude_real_partial (h : Spin.Spec.Suitable coord0 coord1 sig) (Nphi Ntheta N Ng : Nat) (hA : Allowed .real Nphi Ntheta)
    (hs : ∀ t, Spin.Spec.Component sig t → |spinWeight coord1 sig t| ≤ (lmaxOf .real Ntheta : Int))
    (hg : lmaxOf .real Ntheta < Ng) (hN : Nphi ≤ N) (q : Nat → ℝ) (hq : Jacobi.GridGuess Ng 0 0 q) (a : List Nat → Int → Int → ℂ)
    (c : List Nat → Nat → Nat → ℝ) (hc : SphereField.Spec.HoldsReal sig Nphi (lmaxOf .real Ntheta) a c)
    (hreal : mmax Nphi = 0 → ∀ fs, Spin.factors coord1 sig = some fs → ∀ t, Spin.Spec.Component sig t → ∀ z : ℝ, -1 < z → z < 1 →
      (SphereField.Spec.part fs (spinWeight coord1 sig) (lmaxOf .real Ntheta) a 0 z t).im = 0)
    (θ : ℝ) (h0 : 0 < θ) (h1 : θ < Real.pi) :
    ∃ fs u, Spin.factors coord1 sig = some fs ∧ sphereColatitudeReal coord0 coord1 sig Nphi (lmaxOf .real Ntheta) N Ng q θ c = some u ∧
      ∀ t, Spin.Spec.Component sig t → ∀ j, u t j =
        SphereField.Spec.realValue fs (spinWeight coord1 sig) (lmaxOf .real Ntheta) (mmax Nphi) a (Real.cos θ) (Fourier.Spec.grid N j) t := by
  obtain ⟨fs, hf, -⟩ := Spin.spin_round_trip_complex coord0 coord1 sig h
  obtain ⟨maps, hm, -⟩ := sphere_order_maps .real Nphi Ntheta Ng 1 0 hA (by omega)
  obtain ⟨g, hg1, hg2⟩ := colat_real h hf Nphi Ntheta Ng hA hg q hq maps hm a c hc
  have hv := vectors_exist (coord1 := coord1) (sig := sig) .real Nphi Ntheta Ng 1 0 hA (by omega) maps hm hs
  have hcos : -1 < Real.cos θ ∧ Real.cos θ < 1 := by
    have e1 := Real.strictAntiOn_cos (Set.mem_Icc.2 ⟨h0.le, h1.le⟩) (Set.mem_Icc.2 ⟨Real.pi_pos.le, le_rfl⟩) h1
    have e2 := Real.strictAntiOn_cos (Set.mem_Icc.2 ⟨le_rfl, Real.pi_pos.le⟩) (Set.mem_Icc.2 ⟨h0.le, h1.le⟩) h0
    rw [Real.cos_pi] at e1
    rw [Real.cos_zero] at e2
    exact ⟨e1, e2⟩
  unfold sphereColatitudeReal
  rw [hf, hm]
  simp only [Option.bind_some, hg1]
  by_cases hz : mmax Nphi = 0
  · have h2 : sphereGridRows .real Nphi = 2 := by unfold sphereGridRows; rw [if_neg (by omega)]; rfl
    obtain ⟨o, ho, hov⟩ := colatitude_real h hf Nphi Ntheta Ng hA hg q hq θ h0 h1 maps hm hv a (1 + Complex.I) g (fun t ht r x hr hx => by
      obtain ⟨z1, z2⟩ := Sphere.grid_interior Ng (by omega) q hq x hx
      rw [hg2 t ht r x hr hx, if_pos hz, wave_zero_real Nphi hz r (by omega)]
      have hi := hreal hz fs hf t ht _ z1 z2
      have : r = 0 ∨ r = 1 := by omega
      rcases this with rfl | rfl <;> simp [SphereField.Spec.rowPart, hi])
    rw [ho]
    refine ⟨fs, _, rfl, rfl, fun t ht j => ?_⟩
    beta_reduce
    unfold azimuthBackwardReal SphereField.Spec.realValue
    rw [if_pos hz]
    beta_reduce
    have hi := hreal hz fs hf t ht _ hcos.1 hcos.2
    rw [hov t ht 0 (by omega), wave_zero_real Nphi hz 0 (by omega), hz, Finset.sum_range_one, zero_mode, one_mul]
    simp [SphereField.Spec.rowPart, hi]
  · have hgr : sphereGridRows .real Nphi = Nphi := by unfold sphereGridRows; rw [if_pos (by omega)]
    obtain ⟨o, ho, hov⟩ := colatitude_real h hf Nphi Ntheta Ng hA hg q hq θ h0 h1 maps hm hv a 1 g (fun t ht r x hr hx => by
      rw [hg2 t ht r x hr hx, if_neg hz, one_mul])
    rw [ho]
    refine ⟨fs, _, rfl, rfl, fun t ht j => ?_⟩
    beta_reduce
    unfold SphereField.Spec.realValue
    rw [azimuth_real Nphi Ntheta N hA hz hN (fun m => SphereField.Spec.part fs (spinWeight coord1 sig) (lmaxOf .real Ntheta) a m (Real.cos θ) t)
      (fun i => o t i 0) (fun r hr => by rw [hov t ht r (by omega), one_mul]) j]

/-- C100, complex tensor fields on the sphere. -/
theorem sphere_colatitude_complex_partial (h : Spin.Spec.Suitable coord0 coord1 sig) (Nphi Ntheta N Ng : Nat) (hA : Allowed .complex Nphi Ntheta)
    (hs : ∀ t, Spin.Spec.Component sig t → |spinWeight coord1 sig t| ≤ (lmaxOf .complex Ntheta : Int))
    (hg : lmaxOf .complex Ntheta < Ng) (hN : Nphi ≤ N) (q : Nat → ℝ) (hq : Jacobi.GridGuess Ng 0 0 q) (a : List Nat → Int → Int → ℂ)
    (c : List Nat → Nat → Nat → ℂ) (hc : SphereField.Spec.HoldsComplex sig Nphi (lmaxOf .complex Ntheta) a c)
    (θ : ℝ) (h0 : 0 < θ) (h1 : θ < Real.pi) :
    ∃ fs u, Spin.factors coord1 sig = some fs ∧ sphereColatitudeComplex coord1 sig Nphi (lmaxOf .complex Ntheta) N Ng q θ c = some u ∧
      ∀ t, Spin.Spec.Component sig t → ∀ j, u t j =
        SphereField.Spec.complexValue fs (spinWeight coord1 sig) (lmaxOf .complex Ntheta) (mmax Nphi) a (Real.cos θ) (Fourier.Spec.grid N j) t := by
  obtain ⟨fs, hf, -⟩ := Spin.spin_round_trip_complex coord0 coord1 sig h
  obtain ⟨maps, hm, -⟩ := sphere_order_maps .complex Nphi Ntheta Ng 1 0 hA (by omega)
  have hv := vectors_exist (coord1 := coord1) (sig := sig) .complex Nphi Ntheta Ng 1 0 hA (by omega) maps hm hs
  obtain ⟨o, ho, hov⟩ := colatitude_complex h hf Nphi Ntheta Ng hA hg q hq θ h0 h1 maps hm hv a
    (colatBackwardComplex coord1 sig fs maps (lmaxOf .complex Ntheta) Ng q c)
    (fun t ht r x hr hx => colat_complex h hf Nphi Ntheta Ng hA hg q hq maps hm a c hc t ht r x hr hx)
  unfold sphereColatitudeComplex
  rw [hf, hm]
  simp only [Option.bind_some, ho]
  refine ⟨fs, _, rfl, rfl, fun t ht j => ?_⟩
  beta_reduce
  unfold SphereField.Spec.complexValue
  by_cases hz : mmax Nphi = 0
  · have h1 : sphereGridRows .complex Nphi = 1 := by unfold sphereGridRows; rw [if_neg (by omega)]; rfl
    unfold azimuthBackwardComplex
    rw [if_pos hz]
    beta_reduce
    rw [hov t ht 0 (by omega), wave_zero_complex Nphi hz, hz]
    simp [Fourier.Spec.mode]
  · have h1 : sphereGridRows .complex Nphi = Nphi := by unfold sphereGridRows; rw [if_pos (by omega)]
    exact azimuth_complex Nphi Ntheta N hA hz hN
      (fun m => SphereField.Spec.part fs (spinWeight coord1 sig) (lmaxOf .complex Ntheta) a m (Real.cos θ) t) _
      (fun r hr => hov t ht r (by omega)) j

/-- C100 is false for tensors with a component whose spin exceeds the largest degree: interpolation in colatitude is an error, although the transforms of such
tensors are defined. -/
theorem colatitude_interpolation_refuted (h : Spin.Spec.Suitable coord0 coord1 sig) (Nphi Ntheta N Ng : Nat) (hA : Allowed .complex Nphi Ntheta)
    (t : List Nat) (ht : Spin.Spec.Component sig t) (hs : (lmaxOf .complex Ntheta : Int) < |spinWeight coord1 sig t|) (hg : 0 < Ng)
    (q : Nat → ℝ) (θ : ℝ) (c : List Nat → Nat → Nat → ℂ) :
    (∃ u, toGridComplex coord1 sig Nphi (lmaxOf .complex Ntheta) N Ng q c = some u) ∧
      sphereColatitudeComplex coord1 sig Nphi (lmaxOf .complex Ntheta) N Ng q θ c = none := by
  obtain ⟨fs, hf, -⟩ := Spin.spin_round_trip_complex coord0 coord1 sig h
  obtain ⟨maps, hm, -⟩ := sphere_order_maps .complex Nphi Ntheta Ng 1 0 hA hg
  have hv := vectors_missing (coord1 := coord1) (sig := sig) Nphi Ntheta Ng .complex hA hg maps hm t ht hs
  unfold toGridComplex sphereColatitudeComplex colatitudeComplex
  rw [hf, hm]
  refine ⟨⟨_, rfl⟩, ?_⟩
  simp [hv]

end

/-! ## Balls and shells -/

section
variable {phi theta r : Spin.Coord} {sig : List Spin.Index}

/-- C100, real tensor fields in the ball: interpolation in azimuth. -/
theorem ball_azimuth_real_partial (h0 : phi.azimuthal = true) (h1 : theta.azimuthal = false) (hsig : ∀ ix ∈ sig, ix = .single (.spherical phi theta r))
    (Nphi Ntheta Nr k : Nat) (alpha : ℝ) (Nt Ng : Nat) (hA : Allowed .real Nphi Ntheta) (hP : PolarField.Spec.Accepted .real Nphi)
    (hs : VolumeField.Spec.Separated .real Nphi (lmaxOf .real Ntheta)) (dealias : ℚ) (hd : 1 ≤ dealias)
    (hrank : sig.length ≤ 2 * Nr + 2) (hNt : lmaxOf .real Ntheta < Nt) (q : Nat → ℝ) (hq : Jacobi.GridGuess Nt 0 0 q) (g : Nat → ℝ)
    (ha : -1 < alpha) (hNg : 0 < Ng) (hg : Jacobi.GridGuess Ng alpha (1 / 2) g) (A : List Nat → Int → Int → Nat → ℂ) (c : List Nat → Nat → Nat → Nat → ℝ)
    (hc : VolumeField.Spec.HoldsReal sig Nphi (lmaxOf .real Ntheta) Nr A c) (pos : Fourier.Position) (φ : ℝ) (hφ : Spec.Azimuth pos φ) :
    ∃ fs u, Spin.factors theta sig = some fs ∧
      VolumeField.ballToGridReal phi theta r sig Nphi (lmaxOf .real Ntheta) Nr k alpha (gridSize dealias Nphi) Nt Ng q g c = some u ∧
      ∀ t, Spin.Spec.Component sig t → ∀ x y, x < Ng → y < Nt → azimuthReal dealias Nphi pos (fun j => u x t j y) =
        some (SphereField.Spec.realValue fs (spinWeight theta sig) (lmaxOf .real Ntheta) (mmax Nphi)
          (VolumeField.Spec.spinCoefficient (VolumeField.Spec.ballMode Ng (alpha + k)) sig.length Nr A (Zernike.radiusGrid 3 Ng alpha g x))
          (Sphere.grid Nt q y).1 φ t) := by
  obtain ⟨fs, u, e1, e2, e3⟩ := VolumeField.ball_values_real_partial h0 h1 hsig Nphi Ntheta Nr k alpha (gridSize dealias Nphi) Nt Ng hA hs hrank hNt
    (gridSize_le hd Nphi) q hq g ha hNg hg A c hc
  exact ⟨fs, u, e1, e2, fun t ht x y hx hy => azimuth_interp_real hP hd (azimuth_coord hφ) (fun m => SphereField.Spec.part fs (spinWeight theta sig)
    (lmaxOf .real Ntheta) (VolumeField.Spec.spinCoefficient (VolumeField.Spec.ballMode Ng (alpha + k)) sig.length Nr A (Zernike.radiusGrid 3 Ng alpha g x)) m
    (Sphere.grid Nt q y).1 t) _ fun j => e3 t ht x j y hx hy⟩

/-- C100, complex tensor fields in the ball. -/
theorem ball_azimuth_complex_partial (h0 : phi.azimuthal = true) (h1 : theta.azimuthal = false) (hsig : ∀ ix ∈ sig, ix = .single (.spherical phi theta r))
    (Nphi Ntheta Nr k : Nat) (alpha : ℝ) (Nt Ng : Nat) (hA : Allowed .complex Nphi Ntheta) (hP : PolarField.Spec.Accepted .complex Nphi)
    (hs : VolumeField.Spec.Separated .complex Nphi (lmaxOf .complex Ntheta)) (dealias : ℚ) (hd : 1 ≤ dealias)
    (hrank : sig.length ≤ 2 * Nr + 2) (hNt : lmaxOf .complex Ntheta < Nt) (q : Nat → ℝ) (hq : Jacobi.GridGuess Nt 0 0 q) (g : Nat → ℝ)
    (ha : -1 < alpha) (hNg : 0 < Ng) (hg : Jacobi.GridGuess Ng alpha (1 / 2) g) (A : List Nat → Int → Int → Nat → ℂ) (c : List Nat → Nat → Nat → Nat → ℂ)
    (hc : VolumeField.Spec.HoldsComplex sig Nphi (lmaxOf .complex Ntheta) Nr A c) (pos : Fourier.Position) (φ : ℝ) (hφ : Spec.Azimuth pos φ) :
    ∃ fs u, Spin.factors theta sig = some fs ∧
      VolumeField.ballToGridComplex phi theta r sig Nphi (lmaxOf .complex Ntheta) Nr k alpha (gridSize dealias Nphi) Nt Ng q g c = some u ∧
      ∀ t, Spin.Spec.Component sig t → ∀ x y, x < Ng → y < Nt → azimuthComplex dealias Nphi pos (fun j => u x t j y) =
        some (SphereField.Spec.complexValue fs (spinWeight theta sig) (lmaxOf .complex Ntheta) (mmax Nphi)
          (VolumeField.Spec.spinCoefficient (VolumeField.Spec.ballMode Ng (alpha + k)) sig.length Nr A (Zernike.radiusGrid 3 Ng alpha g x))
          (Sphere.grid Nt q y).1 φ t) := by
  obtain ⟨fs, u, e1, e2, e3⟩ := VolumeField.ball_values_complex_partial h0 h1 hsig Nphi Ntheta Nr k alpha (gridSize dealias Nphi) Nt Ng hA hs hrank hNt
    (gridSize_le hd Nphi) q hq g ha hNg hg A c hc
  exact ⟨fs, u, e1, e2, fun t ht x y hx hy => azimuth_interp_complex hP hd (azimuth_coord hφ) (fun m => SphereField.Spec.part fs (spinWeight theta sig)
    (lmaxOf .complex Ntheta) (VolumeField.Spec.spinCoefficient (VolumeField.Spec.ballMode Ng (alpha + k)) sig.length Nr A (Zernike.radiusGrid 3 Ng alpha g x)) m
    (Sphere.grid Nt q y).1 t) _ fun j => e3 t ht x j y hx hy⟩

/-- C100, real tensor fields in the shell. -/
theorem shell_azimuth_real_partial (h0 : phi.azimuthal = true) (h1 : theta.azimuthal = false) (hsig : ∀ ix ∈ sig, ix = .single (.spherical phi theta r))
    (rin rout : ℝ) (hr : rin < rout) (Nphi Ntheta Nr k : Nat) (alpha : ℝ × ℝ) (Nt Ng : Nat) (hA : Allowed .real Nphi Ntheta)
    (hP : PolarField.Spec.Accepted .real Nphi) (hs : 0 < sig.length → VolumeField.Spec.Separated .real Nphi (lmaxOf .real Ntheta)) (dealias : ℚ)
    (hd : 1 ≤ dealias) (hNt : lmaxOf .real Ntheta < Nt) (q : Nat → ℝ)
    (hq : Jacobi.GridGuess Nt 0 0 q) (g : Nat → ℝ) (ha : -1 < alpha.1) (hb : -1 < alpha.2) (hg : Jacobi.GridGuess Ng alpha.1 alpha.2 g)
    (A : List Nat → Int → Int → Nat → ℂ) (c : List Nat → Nat → Nat → Nat → ℝ) (hc : VolumeField.Spec.HoldsReal sig Nphi (lmaxOf .real Ntheta) Nr A c)
    (pos : Fourier.Position) (φ : ℝ) (hφ : Spec.Azimuth pos φ) :
    ∃ fs u, Spin.factors theta sig = some fs ∧
      VolumeField.shellToGridReal phi theta r sig rin rout Nphi (lmaxOf .real Ntheta) Nr k alpha (gridSize dealias Nphi) Nt Ng q g c = some u ∧
      ∀ t, Spin.Spec.Component sig t → ∀ x y, x < Ng → y < Nt → azimuthReal dealias Nphi pos (fun j => u x t j y) =
        some (SphereField.Spec.realValue fs (spinWeight theta sig) (lmaxOf .real Ntheta) (mmax Nphi)
          (VolumeField.Spec.spinCoefficient (VolumeField.Spec.shellMode Ng rin rout alpha k) sig.length Nr A (Shell.radiusGrid rin rout alpha Ng g x))
          (Sphere.grid Nt q y).1 φ t) := by
  obtain ⟨fs, u, e1, e2, e3⟩ := VolumeField.shell_values_real_partial h0 h1 hsig rin rout hr Nphi Ntheta Nr k alpha (gridSize dealias Nphi) Nt Ng hA hs hNt
    (gridSize_le hd Nphi) q hq g ha hb hg A c hc
  exact ⟨fs, u, e1, e2, fun t ht x y hx hy => azimuth_interp_real hP hd (azimuth_coord hφ) (fun m => SphereField.Spec.part fs (spinWeight theta sig)
    (lmaxOf .real Ntheta) (VolumeField.Spec.spinCoefficient (VolumeField.Spec.shellMode Ng rin rout alpha k) sig.length Nr A
    (Shell.radiusGrid rin rout alpha Ng g x)) m (Sphere.grid Nt q y).1 t) _ fun j => e3 t ht x j y hx hy⟩

/-- C100, complex tensor fields in the shell. -/
theorem shell_azimuth_complex_partial (h0 : phi.azimuthal = true) (h1 : theta.azimuthal = false) (hsig : ∀ ix ∈ sig, ix = .single (.spherical phi theta r))
    (rin rout : ℝ) (hr : rin < rout) (Nphi Ntheta Nr k : Nat) (alpha : ℝ × ℝ) (Nt Ng : Nat) (hA : Allowed .complex Nphi Ntheta)
    (hP : PolarField.Spec.Accepted .complex Nphi) (hs : 0 < sig.length → VolumeField.Spec.Separated .complex Nphi (lmaxOf .complex Ntheta)) (dealias : ℚ)
    (hd : 1 ≤ dealias) (hNt : lmaxOf .complex Ntheta < Nt) (q : Nat → ℝ)
    (hq : Jacobi.GridGuess Nt 0 0 q) (g : Nat → ℝ) (ha : -1 < alpha.1) (hb : -1 < alpha.2) (hg : Jacobi.GridGuess Ng alpha.1 alpha.2 g)
    (A : List Nat → Int → Int → Nat → ℂ) (c : List Nat → Nat → Nat → Nat → ℂ) (hc : VolumeField.Spec.HoldsComplex sig Nphi (lmaxOf .complex Ntheta) Nr A c)
    (pos : Fourier.Position) (φ : ℝ) (hφ : Spec.Azimuth pos φ) :
    ∃ fs u, Spin.factors theta sig = some fs ∧
      VolumeField.shellToGridComplex phi theta r sig rin rout Nphi (lmaxOf .complex Ntheta) Nr k alpha (gridSize dealias Nphi) Nt Ng q g c = some u ∧
      ∀ t, Spin.Spec.Component sig t → ∀ x y, x < Ng → y < Nt → azimuthComplex dealias Nphi pos (fun j => u x t j y) =
        some (SphereField.Spec.complexValue fs (spinWeight theta sig) (lmaxOf .complex Ntheta) (mmax Nphi)
          (VolumeField.Spec.spinCoefficient (VolumeField.Spec.shellMode Ng rin rout alpha k) sig.length Nr A (Shell.radiusGrid rin rout alpha Ng g x))
          (Sphere.grid Nt q y).1 φ t) := by
  obtain ⟨fs, u, e1, e2, e3⟩ := VolumeField.shell_values_complex_partial h0 h1 hsig rin rout hr Nphi Ntheta Nr k alpha (gridSize dealias Nphi) Nt Ng hA hs hNt
    (gridSize_le hd Nphi) q hq g ha hb hg A c hc
  exact ⟨fs, u, e1, e2, fun t ht x y hx hy => azimuth_interp_complex hP hd (azimuth_coord hφ) (fun m => SphereField.Spec.part fs (spinWeight theta sig)
    (lmaxOf .complex Ntheta) (VolumeField.Spec.spinCoefficient (VolumeField.Spec.shellMode Ng rin rout alpha k) sig.length Nr A
    (Shell.radiusGrid rin rout alpha Ng g x)) m (Sphere.grid Nt q y).1 t) _ fun j => e3 t ht x j y hx hy⟩

end

/-! ## The hypotheses are met -/

/-- A sphere of 8 by 4 points with dealiasing 3/2 and a vector field on it. -/
example : Allowed .real 8 4 ∧ PolarField.Spec.Accepted .real 8 ∧ lmaxOf .real 4 < 6 ∧ gridSize (3 / 2) 8 = 12 := by
  refine ⟨⟨by omega, .inr ⟨by omega, ⟨2, rfl⟩, by omega⟩⟩, .inr ⟨by omega, ⟨2, rfl⟩⟩, by decide, ?_⟩
  unfold gridSize
  norm_num

/-- The spins of tangent vectors on this sphere are at most its largest degree. -/
example : ∀ t, Spin.Spec.Component [.single (.s2 ⟨true, "phi", 0⟩ ⟨false, "theta", 1⟩)] t →
    |spinWeight ⟨false, "theta", 1⟩ [.single (.s2 ⟨true, "phi", 0⟩ ⟨false, "theta", 1⟩)] t| ≤ (lmaxOf .real 4 : Int) := by
  intro t ht
  rw [← mem_components] at ht
  revert t
  decide

/-- A vector on a sphere with one colatitude, which has only degree zero. -/
example : Allowed .complex 1 1 ∧ Spin.Spec.Component [.single (.s2 ⟨true, "phi", 0⟩ ⟨false, "theta", 1⟩)] [0] ∧
    (lmaxOf .complex 1 : Int) < |spinWeight ⟨false, "theta", 1⟩ [.single (.s2 ⟨true, "phi", 0⟩ ⟨false, "theta", 1⟩)] [0]| := by
  refine ⟨⟨by omega, .inl rfl⟩, ?_, by decide⟩
  rw [← mem_components]
  decide

end Dedalus.Interp
