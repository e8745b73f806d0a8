import Verif.Integral.Lemmas

/-! C99: integrals and averages of scalar fields over disks, annuli, balls and shells are the Riemann integrals, on any number of processes. -/

namespace Dedalus.Integral
open Orders Average Jacobi

theorem sizes {disk : Bool} {d : Dtype} {Nphi Nr : Nat} (h : Nphi = 1 ∧ 0 < Nr ∨ Orders.Spec.PolarAllowed disk d Nphi Nr) :
    0 < Nr ∧ (Nphi = 1 ∨ (0 < Nphi ∧ 2 * d.parts ∣ Nphi)) := by
  rcases h with h | ⟨h0, h | h, -⟩
  exacts [⟨h.2, .inl h.1⟩, ⟨h0, .inl h.2⟩, ⟨h0, .inr h⟩]

/-- The integral of the values over a disk, in polar coordinates. -/
theorem disk_values (d : Dtype) (radius k : ℝ) (Nphi Nr : Nat) (h : Nphi = 1 ∨ (0 < Nphi ∧ 2 * d.parts ∣ Nphi)) (c : Nat → Nat → ℂ) :
    ∫ r in (0 : ℝ)..radius, (∫ φ in (0 : ℝ)..2 * Real.pi, Spec.diskValue d radius k Nphi Nr c r φ) * r =
      2 * Real.pi * ∫ r in (0 : ℝ)..radius, Zernike.Spec.radial 2 Nr radius k 0 (c 0) r * r := by
  unfold Spec.diskValue
  simp only [azimuth_integral true d Nphi Nr h c]
  rw [← intervalIntegral.integral_const_mul]
  refine intervalIntegral.integral_congr fun r _ => ?_
  simp only [Zernike.Spec.radial, Int.natAbs_zero, Nat.zero_div, Nat.sub_zero]
  push_cast
  ring

theorem annulus_values (d : Dtype) (rin rout : ℝ) (alpha : ℝ × ℝ) (k Nphi Nr : Nat) (h : Nphi = 1 ∨ (0 < Nphi ∧ 2 * d.parts ∣ Nphi)) (c : Nat → Nat → ℂ) :
    ∫ r in rin..rout, (∫ φ in (0 : ℝ)..2 * Real.pi, Spec.annulusValue d rin rout alpha k Nphi Nr c r φ) * r =
      2 * Real.pi * ∫ r in rin..rout, (r : ℂ) * Shell.Spec.radial rin rout alpha Nr k (c 0) r := by
  unfold Spec.annulusValue
  simp only [azimuth_integral false d Nphi Nr h c]
  rw [← intervalIntegral.integral_const_mul]
  refine intervalIntegral.integral_congr fun r _ => ?_
  simp only [Shell.Spec.radial, Spec.radialMode, Finset.mul_sum, Finset.sum_mul]
  refine Finset.sum_congr rfl fun n _ => ?_
  push_cast
  ring

/-- C99 for disks: on every process, `integ` and `ave` of a scalar give the integral of its values and the integral divided by the area. The result has one
element, on process 0. -/
theorem disk_field_integral (d : Dtype) (radius : ℝ) (hR : 0 < radius) (Nphi Nr k Ng P p : Nat) (h : Nphi = 1 ∧ 0 < Nr ∨ Orders.Spec.PolarAllowed true d Nphi Nr) (hg : 0 < Ng)
    (hp : p < P) (alpha : ℝ) (ha : -1 < alpha) (g : Nat → ℝ) (hg0 : GridGuess Nr 0 0 g) (c x : Nat → Nat → ℂ)
    (hx : ∀ i r, (polarCoeff d Nphi P p)[i]? = some r → x i = c r) :
    outSize P p = (if p = 0 then 1 else 0) ∧
    (∃ out, disk d radius Nphi Nr k alpha g Ng P p x = some out ∧ ∀ i, i < outSize P p →
      out i = ∫ r in (0 : ℝ)..radius, (∫ φ in (0 : ℝ)..2 * Real.pi, Spec.diskValue d radius (alpha + k) Nphi Nr c r φ) * r) ∧
    ∃ out, diskAverage d Nphi Nr k alpha g Ng P p x = some out ∧ ∀ i, i < outSize P p →
      out i = (∫ r in (0 : ℝ)..radius, (∫ φ in (0 : ℝ)..2 * Real.pi, Spec.diskValue d radius (alpha + k) Nphi Nr c r φ) * r) / (Real.pi * radius ^ 2 : ℝ) := by
  obtain ⟨hN, h'⟩ := sizes h
  obtain ⟨i1, i2⟩ := Zernike.disk_integral radius hR Nr k hN alpha ha g hg0 (c 0)
  rw [disk_values d radius (alpha + k) Nphi Nr h' c]
  refine ⟨outSize_eq hp, ?_, ?_⟩
  · obtain ⟨out, o1, o2⟩ := polar_result true d Nphi Nr Ng P p h hg hp (Zernike.integrate radius Nr k alpha g) c x hx
    exact ⟨out, o1, fun i hi => by rw [(o2 i hi).2.2, i1]⟩
  · obtain ⟨out, o1, o2⟩ := polar_result true d Nphi Nr Ng P p h hg hp (Zernike.average Nr k alpha g) c x hx
    exact ⟨out, o1, fun i hi => by rw [(o2 i hi).2.2, i2]; push_cast; rfl⟩

/-- C99 for annuli of order at most 1. Missing: for order 2 it is false, see `annulus_field_integral_refuted`. -/
theorem annulus_field_integral_partial (d : Dtype) (rin rout : ℝ) (h0 : 0 < rin) (h1 : rin < rout) (Nphi Nr k Ng P p : Nat)
    (h : Nphi = 1 ∧ 0 < Nr ∨ Orders.Spec.PolarAllowed false d Nphi Nr) (hg : 0 < Ng) (hp : p < P) (hk : k ≤ 1) (alpha : ℝ × ℝ) (ha : -1 < alpha.1) (hb : -1 < alpha.2)
    (g : Nat → ℝ) (hg0 : GridGuess (2 * Nr) 0 0 g) (c x : Nat → Nat → ℂ) (hx : ∀ i r, (polarCoeff d Nphi P p)[i]? = some r → x i = c r) :
    outSize P p = (if p = 0 then 1 else 0) ∧
    (∃ out, annulus d rin rout Nphi Nr k alpha g Ng P p x = some out ∧ ∀ i, i < outSize P p →
      out i = ∫ r in rin..rout, (∫ φ in (0 : ℝ)..2 * Real.pi, Spec.annulusValue d rin rout alpha k Nphi Nr c r φ) * r) ∧
    ∃ out, annulusAverage d rin rout Nphi Nr k alpha g Ng P p x = some out ∧ ∀ i, i < outSize P p →
      out i = (∫ r in rin..rout, (∫ φ in (0 : ℝ)..2 * Real.pi, Spec.annulusValue d rin rout alpha k Nphi Nr c r φ) * r) / (Real.pi * (rout ^ 2 - rin ^ 2) : ℝ) := by
  obtain ⟨hN, h'⟩ := sizes h
  have i1 := Shell.annulus_integral_partial rin rout h0 h1 alpha ha hb Nr k hk hN g hg0 (c 0)
  have i2 := Shell.annulus_average_partial rin rout h0 h1 alpha ha hb Nr k hk hN g hg0 (c 0)
  rw [annulus_values d rin rout alpha k Nphi Nr h' c]
  have hi : ∫ r in rin..rout, (r : ℂ) = (((rout ^ 2 - rin ^ 2) / 2 : ℝ) : ℂ) := by
    rw [intervalIntegral.integral_ofReal, integral_id]
  refine ⟨outSize_eq hp, ?_, ?_⟩
  · obtain ⟨out, o1, o2⟩ := polar_result false d Nphi Nr Ng P p h hg hp (Shell.annulusIntegrate rin rout alpha Nr k g) c x hx
    exact ⟨out, o1, fun i hi => by rw [(o2 i hi).2.2, i1]⟩
  · obtain ⟨out, o1, o2⟩ := polar_result false d Nphi Nr Ng P p h hg hp (Shell.annulusAverage rin rout alpha Nr k g) c x hx
    refine ⟨out, o1, fun i hi' => ?_⟩
    rw [(o2 i hi').2.2, i2, hi]
    congr 1
    push_cast
    ring

/-- C99 is false of annuli of order 2: some field has another integral. -/
theorem annulus_field_integral_refuted (d : Dtype) (rin rout : ℝ) (h0 : 0 < rin) (h1 : rin < rout) (Nphi Nr Ng P : Nat)
    (h : Nphi = 1 ∧ 0 < Nr ∨ Orders.Spec.PolarAllowed false d Nphi Nr) (hg : 0 < Ng) (hP : 0 < P) (alpha : ℝ × ℝ) (ha : -1 < alpha.1) (hb : -1 < alpha.2)
    (g : Nat → ℝ) (hg0 : GridGuess (2 * Nr) 0 0 g) : ∃ c x : Nat → Nat → ℂ, (∀ i r, (polarCoeff d Nphi P 0)[i]? = some r → x i = c r) ∧
      ∃ out, annulus d rin rout Nphi Nr 2 alpha g Ng P 0 x = some out ∧ 
        out 0 ≠ ∫ r in rin..rout, (∫ φ in (0 : ℝ)..2 * Real.pi, Spec.annulusValue d rin rout alpha 2 Nphi Nr c r φ) * r := by
  obtain ⟨hN, h'⟩ := sizes h
  obtain ⟨c, hc⟩ := Shell.annulus_integral_refuted rin rout h0 h1 alpha ha hb Nr hN g hg0
  have hx : ∀ i r, (polarCoeff d Nphi P 0)[i]? = some r → (fun _ => c : Nat → Nat → ℂ) i = (fun _ => c : Nat → Nat → ℂ) r := fun _ _ _ => rfl
  refine ⟨fun _ => c, fun _ => c, hx, ?_⟩
  obtain ⟨out, o1, o2⟩ := polar_result false d Nphi Nr Ng P 0 h hg hP (Shell.annulusIntegrate rin rout alpha Nr 2 g) (fun _ => c) (fun _ => c) hx
  refine ⟨out, o1, ?_⟩
  rw [annulus_values d rin rout alpha 2 Nphi Nr h' _, (o2 0 (by rw [outSize_eq hP]; simp)).2.2]
  exact hc

/-- The integral of the values over a ball, in spherical coordinates. -/
theorem ball_field_values (d : Dtype) (radius k : ℝ) (Nphi Ntheta Nr : Nat) (h : Orders.Spec.Allowed d Nphi Ntheta) (c : Cell → ℂ) :
    ∫ r in (0 : ℝ)..radius, (∫ θ in (0 : ℝ)..Real.pi, (∫ φ in (0 : ℝ)..2 * Real.pi, Spec.ballValue d radius k Nphi (lmaxOf d Ntheta) Nr c r θ φ) * Real.sin θ) * r ^ 2 =
      (4 * Real.pi / √2 : ℝ) * ∫ r in (0 : ℝ)..radius, Zernike.Spec.radial 3 Nr radius k 0 (fun n => c (0, 0, n)) r * (r : ℂ) ^ 2 := by
  unfold Spec.ballValue
  have := fun r : ℝ => angle_integral d Nphi Ntheta Nr h (fun l => l.natAbs / 2) (fun l n => (Zernike.Spec.Z 3 (n - l.natAbs / 2) k l.natAbs (r / radius) : ℝ)) c
  simp only [this]
  rw [← intervalIntegral.integral_const_mul]
  refine intervalIntegral.integral_congr fun r _ => ?_
  simp only [Zernike.Spec.radial, Int.natAbs_zero, Nat.zero_div, Nat.sub_zero, Nat.zero_le, if_true]
  ring

theorem shell_field_values (d : Dtype) (rin rout : ℝ) (alpha : ℝ × ℝ) (k Nphi Ntheta Nr : Nat) (h : Orders.Spec.Allowed d Nphi Ntheta) (c : Cell → ℂ) :
    ∫ r in rin..rout, (∫ θ in (0 : ℝ)..Real.pi, (∫ φ in (0 : ℝ)..2 * Real.pi, Spec.shellValue d rin rout alpha k Nphi (lmaxOf d Ntheta) Nr c r θ φ) * Real.sin θ) * r ^ 2 =
      4 * Real.pi * ∫ r in rin..rout, ((r ^ 2 : ℝ) : ℂ) * Shell.Spec.radial rin rout alpha Nr k (fun n => (Sphere.Spec.Y 0 0 0 (Real.cos 0) : ℂ) * c (0, 0, n)) r := by
  unfold Spec.shellValue
  have := fun r : ℝ => angle_integral d Nphi Ntheta Nr h (fun _ => 0) (fun _ n => (Spec.radialMode rin rout alpha k n r : ℝ)) c
  simp only [this]
  rw [← intervalIntegral.integral_const_mul, Ball.Y_zero]
  refine intervalIntegral.integral_congr fun r _ => ?_
  simp only [Shell.Spec.radial, Spec.radialMode, Finset.mul_sum, Finset.sum_mul, Nat.zero_le, if_true]
  refine Finset.sum_congr rfl fun n _ => ?_
  push_cast
  ring

/-- C99 for balls. The result has one element, on process `(0, 0)`. -/
theorem ball_field_integral (d : Dtype) (radius : ℝ) (hR : 0 < radius) (Nphi Ntheta Nr k P0 P1 p0 p1 : Nat) (h : Orders.Spec.Allowed d Nphi Ntheta) (hN : 0 < Nr)
    (hp0 : p0 < P0) (hp1 : p1 < P1) (alpha : ℝ) (ha : -1 < alpha) (g : Nat → ℝ) (hg : GridGuess Nr 0 (1 / 2) g) (c : Cell → ℂ) (x : Nat → Nat → Nat → ℂ)
    (hx : ∀ i r j s n, (sphereRows d Nphi (lmaxOf d Ntheta) P0 p0)[i]? = some r → (sphereCols d Nphi (lmaxOf d Ntheta) P1 p1)[j]? = some s → x i j n = c (r, s, n)) :
    outSize P0 p0 = (if p0 = 0 then 1 else 0) ∧ outSize P1 p1 = (if p1 = 0 then 1 else 0) ∧ ∀ i j, i < outSize P0 p0 → j < outSize P1 p1 →
      ball d radius Nphi (lmaxOf d Ntheta) Nr k alpha g P0 P1 p0 p1 x i j = ∫ r in (0 : ℝ)..radius, (∫ θ in (0 : ℝ)..Real.pi, (∫ φ in (0 : ℝ)..2 * Real.pi,
        Spec.ballValue d radius (alpha + k) Nphi (lmaxOf d Ntheta) Nr c r θ φ) * Real.sin θ) * r ^ 2 := by
  refine ⟨outSize_eq hp0, outSize_eq hp1, fun i j hi hj => ?_⟩
  obtain ⟨-, -, -, -, e⟩ := spherical_result d Nphi Ntheta Nr P0 P1 p0 p1 h hp0 hp1 (Ball.integrate radius Nr k alpha g) c x hx i j hi hj
  unfold ball
  rw [e, ball_field_values d radius (alpha + k) Nphi Ntheta Nr h c, Zernike.radial_integral 3 Nr 2 radius (alpha + k) hR 0, Finset.mul_sum]
  refine Finset.sum_congr rfl fun n hn => ?_
  unfold Ball.integrate
  rw [Ball.integral_vector Nr k hN alpha ha g hg n (Finset.mem_range.1 hn)]
  push_cast
  ring

/-- C99 for shells of order at most 2. Missing: for order 3 it is false, see `shell_field_integral_refuted`. -/
theorem shell_field_integral_partial (d : Dtype) (rin rout : ℝ) (h0 : 0 < rin) (h1 : rin < rout) (Nphi Ntheta Nr k P0 P1 p0 p1 : Nat) (h : Orders.Spec.Allowed d Nphi Ntheta)
    (hN : 0 < Nr) (hk : k ≤ 2) (hp0 : p0 < P0) (hp1 : p1 < P1) (alpha : ℝ × ℝ) (ha : -1 < alpha.1) (hb : -1 < alpha.2) (g : Nat → ℝ) (hg : GridGuess (2 * Nr) 0 0 g)
    (c : Cell → ℂ) (x : Nat → Nat → Nat → ℂ)
    (hx : ∀ i r j s n, (sphereRows d Nphi (lmaxOf d Ntheta) P0 p0)[i]? = some r → (sphereCols d Nphi (lmaxOf d Ntheta) P1 p1)[j]? = some s → x i j n = c (r, s, n)) :
    outSize P0 p0 = (if p0 = 0 then 1 else 0) ∧ outSize P1 p1 = (if p1 = 0 then 1 else 0) ∧ ∀ i j, i < outSize P0 p0 → j < outSize P1 p1 →
      shell d rin rout Nphi (lmaxOf d Ntheta) Nr k alpha g P0 P1 p0 p1 x i j = ∫ r in rin..rout, (∫ θ in (0 : ℝ)..Real.pi, (∫ φ in (0 : ℝ)..2 * Real.pi,
        Spec.shellValue d rin rout alpha k Nphi (lmaxOf d Ntheta) Nr c r θ φ) * Real.sin θ) * r ^ 2 := by
  refine ⟨outSize_eq hp0, outSize_eq hp1, fun i j hi hj => ?_⟩
  obtain ⟨-, -, -, -, e⟩ := spherical_result d Nphi Ntheta Nr P0 P1 p0 p1 h hp0 hp1 (Shell.shellIntegrate rin rout alpha Nr k g) c x hx i j hi hj
  unfold shell
  rw [e, shell_field_values d rin rout alpha k Nphi Ntheta Nr h c]
  exact Shell.shell_integral_partial rin rout h0 h1 alpha ha hb Nr k hk hN g hg (fun n => c (0, 0, n)) 0

/-- C99 is false of shells of order 3: some field has another integral. -/
theorem shell_field_integral_refuted (d : Dtype) (rin rout : ℝ) (h0 : 0 < rin) (h1 : rin < rout) (Nphi Ntheta Nr P0 P1 : Nat) (h : Orders.Spec.Allowed d Nphi Ntheta)
    (hN : 0 < Nr) (hP0 : 0 < P0) (hP1 : 0 < P1) (alpha : ℝ × ℝ) (ha : -1 < alpha.1) (hb : -1 < alpha.2) (g : Nat → ℝ) (hg : GridGuess (2 * Nr) 0 0 g) :
    ∃ (c : Cell → ℂ) (x : Nat → Nat → Nat → ℂ),
      (∀ i r j s n, (sphereRows d Nphi (lmaxOf d Ntheta) P0 0)[i]? = some r → (sphereCols d Nphi (lmaxOf d Ntheta) P1 0)[j]? = some s → x i j n = c (r, s, n)) ∧
      shell d rin rout Nphi (lmaxOf d Ntheta) Nr 3 alpha g P0 P1 0 0 x 0 0 ≠ ∫ r in rin..rout, (∫ θ in (0 : ℝ)..Real.pi, (∫ φ in (0 : ℝ)..2 * Real.pi,
        Spec.shellValue d rin rout alpha 3 Nphi (lmaxOf d Ntheta) Nr c r θ φ) * Real.sin θ) * r ^ 2 := by
  obtain ⟨c, hc⟩ := Shell.shell_integral_refuted rin rout h0 h1 alpha ha hb Nr hN g hg 0
  refine ⟨fun k => c k.2.2, fun _ _ n => c n, fun _ _ _ _ _ _ _ => rfl, ?_⟩
  obtain ⟨-, -, -, -, e⟩ := spherical_result d Nphi Ntheta Nr P0 P1 0 0 h hP0 hP1 (Shell.shellIntegrate rin rout alpha Nr 3 g) (fun k => c k.2.2) (fun _ _ n => c n)
    (fun _ _ _ _ _ _ _ => rfl) 0 0 (by rw [outSize_eq hP0]; simp) (by rw [outSize_eq hP1]; simp)
  unfold shell
  rw [e, shell_field_values d rin rout alpha 3 Nphi Ntheta Nr h _]
  exact hc

/-! The sizes of the theorems: 8 by 4 coefficients on 2 processes, 8 by 6 by 5 on 2 by 2, and axisymmetric fields. -/
example : Orders.Spec.PolarAllowed true .real 8 4 ∧ Orders.Spec.PolarAllowed false .complex 8 4 := by
  refine ⟨⟨by decide, .inr ⟨by decide, by decide⟩, by decide⟩, ⟨by decide, .inr ⟨by decide, by decide⟩, by decide⟩⟩
example : Orders.Spec.Allowed .real 8 6 ∧ Orders.Spec.Allowed .complex 8 6 ∧ Orders.Spec.Allowed .real 1 6 :=
  ⟨⟨by decide, .inr ⟨by decide, by decide, by decide⟩⟩, ⟨by decide, .inr ⟨by decide, by decide, by decide⟩⟩, by decide, .inl rfl⟩
example : (∃ g, GridGuess 4 0 0 g) ∧ (∃ g, GridGuess 5 0 (1 / 2) g) ∧ ∃ g, GridGuess (2 * 5) 0 0 g :=
  ⟨guess_exists _ _ _ (by norm_num) (by norm_num), guess_exists _ _ _ (by norm_num) (by norm_num), guess_exists _ _ _ (by norm_num) (by norm_num)⟩
example (x : Nat → Nat → ℂ) (c : Nat → Nat → ℂ) (hx : ∀ i r, (polarCoeff .real 8 2 0)[i]? = some r → x i = c r) (g : Nat → ℝ) (hg : GridGuess 4 0 0 g) :=
  disk_field_integral .real 2 (by norm_num) 8 4 1 6 2 0 (.inr ⟨by decide, .inr ⟨by decide, by decide⟩, by decide⟩) (by decide) (by decide) 0 (by norm_num) g hg c x hx

end Dedalus.Integral
