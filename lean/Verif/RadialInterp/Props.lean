import Verif.RadialInterp.Lemmas

/-! C101: tensor fields interpolated at a radius. -/

namespace Dedalus.RadialInterp
open Orders SphereField

/-! ## Ball -/

section
variable {phi theta r : Spin.Coord} {sig : List Spin.Index}

theorem vectors_exist {d : Dtype} {Nphi Ntheta : Nat} (hA : Orders.Spec.Allowed d Nphi Ntheta) (rank Nr : Nat) (hN : lmaxOf d Ntheta < 2 * Nr) :
    ballVectors (VolumeField.ellMaps d Nphi (lmaxOf d Ntheta)) rank Nr = true := by
  unfold ballVectors
  rw [List.all_eq_true]
  intro t _
  rw [List.all_eq_true]
  intro e he
  unfold VolumeField.ellMaps at he
  rw [Maps.ellMaps_eq, List.mem_flatMap] at he
  obtain ⟨ell, h1, h2⟩ := he
  obtain ⟨i, j, hi, hj, hd⟩ := (Maps.mem_degrees _ _ _ _ _ _).1 h1
  obtain ⟨k, -, hk⟩ := List.mem_filterMap.1 h2
  have he : e.ell = ell := (Maps.entryOf_ell _ _ _ _ _ hk).1
  have := (VolumeField.degree_range hA i j hi hj).2
  unfold Maps.deg at hd
  simp only [Nat.zero_add] at hd
  rw [hd] at this
  rw [Bool.or_eq_true]
  right
  rw [decide_eq_true_eq, he]
  unfold Zernike.minDegree
  omega

/-- C101, ball, real data: a tensor field interpolated at a positive radius is the tensor field on the sphere with the values of the field there, whatever the
buffer of the output holds. Only for truncations in which every degree has radial coefficients and whose slices hold one degree. -/
theorem ball_radius_real_partial (h0 : phi.azimuthal = true) (h1 : theta.azimuthal = false) (hsig : ∀ ix ∈ sig, ix = .single (.spherical phi theta r))
    (Nphi Ntheta Nr k : Nat) (radius alpha : ℝ) (N Nt : Nat) (hA : Orders.Spec.Allowed .real Nphi Ntheta)
    (hs : VolumeField.Spec.Separated .real Nphi (lmaxOf .real Ntheta)) (hNr : lmaxOf .real Ntheta < 2 * Nr) (hNt : lmaxOf .real Ntheta < Nt) (hN : Nphi ≤ N)
    (q : Nat → ℝ) (hq : Jacobi.GridGuess Nt 0 0 q) (ha : -1 < alpha) (hr : 0 < radius) (p : ℝ) (hp : 0 < p) (old : List Nat → Nat → Nat → ℝ)
    (A : List Nat → Int → Int → Nat → ℂ) (c : List Nat → Nat → Nat → Nat → ℝ) (hc : VolumeField.Spec.HoldsReal sig Nphi (lmaxOf .real Ntheta) Nr A c) :
    ∃ fs b u, Spin.factors theta sig = some fs ∧
      ball .real phi theta r sig radius Nphi (lmaxOf .real Ntheta) Nr k alpha (.num p) old c = some b ∧
      toGridReal phi theta sig Nphi (lmaxOf .real Ntheta) N Nt q b = some u ∧
      ∀ t, Spin.Spec.Component sig t → ∀ j y, y < Nt → u t j y =
        SphereField.Spec.realValue fs (spinWeight theta sig) (lmaxOf .real Ntheta) (mmax Nphi)
          (VolumeField.Spec.spinCoefficient (Spec.ballRadial radius (alpha + k)) sig.length Nr A p) (Sphere.grid Nt q y).1 (Fourier.Spec.grid N j) t := by
  have hb := holds_real hsig hA hs Nr p (Spec.ballRadial radius (alpha + k)) A c hc
    (fun t => ballRows (VolumeField.ellMaps .real Nphi (lmaxOf .real Ntheta)) radius Nr k alpha p t (c t) (old t))
    (fun t ht i j hi hj hal => ball_rows (VolumeField.degrees hA hs) radius Nr k alpha p ha hr hp ht (c t) (old t) i j hi hj hal)
  obtain ⟨fs, u, hf, hu, hv⟩ := sphere_values_real (VolumeField.suitable h0 h1 hsig) Nphi Ntheta N Nt hA hNt hN q hq _ _ hb
  refine ⟨fs, _, u, hf, ?_, hu, hv⟩
  unfold ball sphereRadius
  simp only [if_neg (not_lt.2 hp.le), Option.bind_some, VolumeField.check_some hsig, vectors_exist hA sig.length Nr hNr, if_true]

/-- C101, ball, complex data. -/
theorem ball_radius_complex_partial (h0 : phi.azimuthal = true) (h1 : theta.azimuthal = false) (hsig : ∀ ix ∈ sig, ix = .single (.spherical phi theta r))
    (Nphi Ntheta Nr k : Nat) (radius alpha : ℝ) (N Nt : Nat) (hA : Orders.Spec.Allowed .complex Nphi Ntheta)
    (hs : VolumeField.Spec.Separated .complex Nphi (lmaxOf .complex Ntheta)) (hNr : lmaxOf .complex Ntheta < 2 * Nr) (hNt : lmaxOf .complex Ntheta < Nt)
    (hN : Nphi ≤ N) (q : Nat → ℝ) (hq : Jacobi.GridGuess Nt 0 0 q) (ha : -1 < alpha) (hr : 0 < radius) (p : ℝ) (hp : 0 < p) (old : List Nat → Nat → Nat → ℂ)
    (A : List Nat → Int → Int → Nat → ℂ) (c : List Nat → Nat → Nat → Nat → ℂ) (hc : VolumeField.Spec.HoldsComplex sig Nphi (lmaxOf .complex Ntheta) Nr A c) :
    ∃ fs b u, Spin.factors theta sig = some fs ∧
      ball .complex phi theta r sig radius Nphi (lmaxOf .complex Ntheta) Nr k alpha (.num p) old c = some b ∧
      toGridComplex theta sig Nphi (lmaxOf .complex Ntheta) N Nt q b = some u ∧
      ∀ t, Spin.Spec.Component sig t → ∀ j y, y < Nt → u t j y =
        SphereField.Spec.complexValue fs (spinWeight theta sig) (lmaxOf .complex Ntheta) (mmax Nphi)
          (VolumeField.Spec.spinCoefficient (Spec.ballRadial radius (alpha + k)) sig.length Nr A p) (Sphere.grid Nt q y).1 (Fourier.Spec.grid N j) t := by
  have hb := holds_complex hsig hA hs Nr p (Spec.ballRadial radius (alpha + k)) A c hc
    (fun t => ballRows (VolumeField.ellMaps .complex Nphi (lmaxOf .complex Ntheta)) radius Nr k alpha p t (c t) (old t))
    (fun t ht i j hi hj hal => ball_rows (VolumeField.degrees hA hs) radius Nr k alpha p ha hr hp ht (c t) (old t) i j hi hj hal)
  obtain ⟨fs, u, hf, hu, hv⟩ := sphere_values_complex (VolumeField.suitable h0 h1 hsig) Nphi Ntheta N Nt hA hNt hN q hq _ _ hb
  refine ⟨fs, _, u, hf, ?_, hu, hv⟩
  unfold ball sphereRadius
  simp only [if_neg (not_lt.2 hp.le), Option.bind_some, VolumeField.check_some hsig, vectors_exist hA sig.length Nr hNr, if_true]

/-- Interpolating a ball at a radius of its grid gives what the transform to a large enough grid gives there: the radial functions are the same. -/
theorem ball_mode_grid (Ng : Nat) (radius k : ℝ) (hr : radius ≠ 0) (reg : List Int) (l n : Nat) (x : ℝ)
    (h : (l : Int) + reg.sum + 2 * (n : Int) < 2 * Ng + 2 * (l / 2 : Nat)) :
    Spec.ballRadial radius k reg l n (radius * x) = VolumeField.Spec.ballMode Ng k reg l n x := by
  classical
  unfold Spec.ballRadial VolumeField.Spec.ballMode
  rw [mul_div_cancel_left₀ x hr]
  by_cases h1 : Regularity.Spec.Allowed l reg ∧ l / 2 ≤ n
  · rw [if_pos h1, if_pos ⟨h1.1, h1.2, by omega⟩]
  · rw [if_neg h1, if_neg (fun e => h1 ⟨e.1, e.2.1⟩)]

/-! ## Shell -/

/-- C101, shell, real data. Only for truncations whose slices hold one degree. -/
theorem shell_radius_real_partial (h0 : phi.azimuthal = true) (h1 : theta.azimuthal = false) (hsig : ∀ ix ∈ sig, ix = .single (.spherical phi theta r))
    (Nphi Ntheta Nr k : Nat) (rin rout : ℝ) (alpha : ℝ × ℝ) (N Nt : Nat) (hA : Orders.Spec.Allowed .real Nphi Ntheta)
    (hs : VolumeField.Spec.Separated .real Nphi (lmaxOf .real Ntheta)) (hNt : lmaxOf .real Ntheta < Nt) (hN : Nphi ≤ N)
    (q : Nat → ℝ) (hq : Jacobi.GridGuess Nt 0 0 q) (ha : -1 < alpha.1) (hb : -1 < alpha.2) (hr : rin < rout) (p : ℝ) (hp : 0 < p)
    (A : List Nat → Int → Int → Nat → ℂ) (c : List Nat → Nat → Nat → Nat → ℝ) (hc : VolumeField.Spec.HoldsReal sig Nphi (lmaxOf .real Ntheta) Nr A c) :
    ∃ fs b u, Spin.factors theta sig = some fs ∧
      shell .real phi theta r sig rin rout Nphi (lmaxOf .real Ntheta) Nr k alpha (.num p) c = some b ∧
      toGridReal phi theta sig Nphi (lmaxOf .real Ntheta) N Nt q b = some u ∧
      ∀ t, Spin.Spec.Component sig t → ∀ j y, y < Nt → u t j y =
        SphereField.Spec.realValue fs (spinWeight theta sig) (lmaxOf .real Ntheta) (mmax Nphi)
          (VolumeField.Spec.spinCoefficient (fun _ _ => Spec.shellRadial rin rout alpha k) sig.length Nr A p)
          (Sphere.grid Nt q y).1 (Fourier.Spec.grid N j) t := by
  have hb := holds_real hsig hA hs Nr p (fun _ _ => Spec.shellRadial rin rout alpha k) A c hc
    (fun t => shellRows (VolumeField.ellMaps .real Nphi (lmaxOf .real Ntheta)) rin rout alpha Nr k p t (c t))
    (fun t ht i j hi hj hal => shell_rows (VolumeField.degrees hA hs) rin rout alpha Nr k p hr ha hb ht (c t) i j hi hj hal)
  obtain ⟨fs, u, hf, hu, hv⟩ := sphere_values_real (VolumeField.suitable h0 h1 hsig) Nphi Ntheta N Nt hA hNt hN q hq _ _ hb
  refine ⟨fs, _, u, hf, ?_, hu, hv⟩
  unfold shell sphereRadius
  simp only [if_neg (not_lt.2 hp.le), Option.bind_some, VolumeField.check_some hsig]

/-- C101, shell, complex data. -/
theorem shell_radius_complex_partial (h0 : phi.azimuthal = true) (h1 : theta.azimuthal = false) (hsig : ∀ ix ∈ sig, ix = .single (.spherical phi theta r))
    (Nphi Ntheta Nr k : Nat) (rin rout : ℝ) (alpha : ℝ × ℝ) (N Nt : Nat) (hA : Orders.Spec.Allowed .complex Nphi Ntheta)
    (hs : VolumeField.Spec.Separated .complex Nphi (lmaxOf .complex Ntheta)) (hNt : lmaxOf .complex Ntheta < Nt) (hN : Nphi ≤ N)
    (q : Nat → ℝ) (hq : Jacobi.GridGuess Nt 0 0 q) (ha : -1 < alpha.1) (hb : -1 < alpha.2) (hr : rin < rout) (p : ℝ) (hp : 0 < p)
    (A : List Nat → Int → Int → Nat → ℂ) (c : List Nat → Nat → Nat → Nat → ℂ) (hc : VolumeField.Spec.HoldsComplex sig Nphi (lmaxOf .complex Ntheta) Nr A c) :
    ∃ fs b u, Spin.factors theta sig = some fs ∧
      shell .complex phi theta r sig rin rout Nphi (lmaxOf .complex Ntheta) Nr k alpha (.num p) c = some b ∧
      toGridComplex theta sig Nphi (lmaxOf .complex Ntheta) N Nt q b = some u ∧
      ∀ t, Spin.Spec.Component sig t → ∀ j y, y < Nt → u t j y =
        SphereField.Spec.complexValue fs (spinWeight theta sig) (lmaxOf .complex Ntheta) (mmax Nphi)
          (VolumeField.Spec.spinCoefficient (fun _ _ => Spec.shellRadial rin rout alpha k) sig.length Nr A p)
          (Sphere.grid Nt q y).1 (Fourier.Spec.grid N j) t := by
  have hb := holds_complex hsig hA hs Nr p (fun _ _ => Spec.shellRadial rin rout alpha k) A c hc
    (fun t => shellRows (VolumeField.ellMaps .complex Nphi (lmaxOf .complex Ntheta)) rin rout alpha Nr k p t (c t))
    (fun t ht i j hi hj hal => shell_rows (VolumeField.degrees hA hs) rin rout alpha Nr k p hr ha hb ht (c t) i j hi hj hal)
  obtain ⟨fs, u, hf, hu, hv⟩ := sphere_values_complex (VolumeField.suitable h0 h1 hsig) Nphi Ntheta N Nt hA hNt hN q hq _ _ hb
  refine ⟨fs, _, u, hf, ?_, hu, hv⟩
  unfold shell sphereRadius
  simp only [if_neg (not_lt.2 hp.le), Option.bind_some, VolumeField.check_some hsig]

end

/-! ## Disk and annulus -/

section
variable {coord0 coord1 : Spin.Coord} {sig : List Spin.Index}

theorem disk_position {radius : ℝ} (hr : 0 < radius) {position : Fourier.Position} {p : ℝ} (hp : Spec.At radius position p) :
    diskNative radius position = some (p / radius) := by
  have hne := hr.ne'
  cases position with
  | num x =>
    have e : p = x := hp
    subst e
    simp only [diskNative, Fourier.Cov.nativeCoord, Fourier.Cov.problemLength, Fourier.Cov.nativeLength]
    congr 1
    ring
  | name s =>
    rcases hp with ⟨rfl, rfl⟩ | ⟨rfl, rfl⟩
    · simp [diskNative, Fourier.Cov.nativeCoord, div_self hne]
    · simp only [diskNative, Fourier.Cov.nativeCoord, Fourier.Cov.nativeCenter]
      rw [if_neg (by decide), if_neg (by decide), if_pos (Or.inl trivial)]
      congr 1
      field_simp
      norm_num

theorem disk_sum {V : Type} [AddCommGroup V] [Module ℝ V] (radius : ℝ) (Nr k : Nat) (alpha p : ℝ) (ha : -1 < alpha) (hr : 0 < radius) (hp : 0 < p) (s m : Int)
    (v : Nat → V) : ∑ n ∈ Finset.range (Nr - (nmin true m).toNat), diskVector Nr k alpha (p / radius) s m n • v ((nmin true m).toNat + n) =
      ∑ n ∈ Finset.range Nr, Spec.diskRadial radius (alpha + k) s m n p • v n := by
  have e : (nmin true m).toNat = m.natAbs / 2 := by
    unfold nmin
    rw [if_pos rfl, Int.abs_eq_natAbs]
    omega
  rw [e, PolarField.sum_shift Nr (m.natAbs / 2)]
  · refine Finset.sum_congr rfl fun n hn => ?_
    have hn' := Finset.mem_range.1 hn
    unfold Spec.diskRadial diskVector
    have hk : -1 < alpha + (k : ℝ) := by
      have : (0 : ℝ) ≤ k := Nat.cast_nonneg k
      linarith
    rw [if_pos (by omega), e, Int.abs_eq_natAbs, Zernike.polynomials_Z 2 _ _ _ _ (by norm_num) hk (div_pos hp hr) n (by omega),
      show m.natAbs / 2 + n - m.natAbs / 2 = n by omega]
  · intro n hn
    unfold Spec.diskRadial
    rw [if_neg (by omega), zero_smul]

theorem disk_exist (maps : List Orders.Entry) (Nr : Nat) (h : ∀ e ∈ maps, (nmin true e.m).toNat < Nr ∧ e.cols = ((nmin true e.m).toNat, Nr)) :
    diskVectors maps Nr = true := by
  unfold diskVectors
  rw [List.all_eq_true]
  intro e he
  rw [decide_eq_true_eq]
  have := (h e he).1
  omega

/-- Grid values on the circle, real data. -/
theorem circle_real (h : Spin.Spec.Suitable coord0 coord1 sig) {Nphi : Nat} (hA : PolarField.Spec.Accepted .real Nphi) (h1 : 2 < Nphi) (N Nr : Nat) (hN : Nphi ≤ N)
    (p : ℝ) (R : Int → Int → Nat → ℝ → ℝ) (s : List Nat → Int) (a : List Nat → Int → Nat → ℂ) (c : List Nat → Nat → Nat → ℝ)
    (hc : PolarField.Spec.HoldsReal sig Nphi Nr a c) (out : List Nat → Nat → ℝ)
    (hout : ∀ t, Spin.Spec.Component sig t → ∀ i, i < Nphi → out t i = ∑ n ∈ Finset.range Nr, R (s t) (wave .real Nphi i) n p • c t i n) :
    ∃ fs b, Spin.factors coord1 sig = some fs ∧ polarReal coord0 coord1 sig (polarRows .real Nphi) out = some b ∧
      ∀ t, Spin.Spec.Component sig t → ∀ j, azimuthBackwardReal Nphi N (b t) j =
        PolarField.Spec.realValue R fs s Nr (mmax Nphi) a p (Fourier.Spec.grid N j) t := by
  have hrow : polarRows .real Nphi = Nphi := by unfold polarRows; exact if_pos (by omega)
  obtain ⟨fs, hf, -⟩ := Spin.spin_round_trip_complex coord0 coord1 sig h
  obtain ⟨g, hg1, hg2⟩ := polar_real h hf hA Nr p R s a c hc out (fun t ht i hi => by rw [hrow] at hi; simpa using hout t ht i hi)
  refine ⟨fs, g, hf, hg1, fun t ht j => ?_⟩
  exact azimuth_real Nphi Nphi N hA.allowed (by unfold mmax; omega) hN (fun m => PolarField.Spec.part R fs s Nr a m p t) (g t)
    (fun i hi => hg2 t ht i (by omega)) j

/-- Grid values on the circle, complex data. -/
theorem circle_complex (h : Spin.Spec.Suitable coord0 coord1 sig) {Nphi : Nat} (hA : PolarField.Spec.Accepted .complex Nphi) (h1 : 2 < Nphi) (N Nr : Nat)
    (hN : Nphi ≤ N) (p : ℝ) (R : Int → Int → Nat → ℝ → ℝ) (s : List Nat → Int) (a : List Nat → Int → Nat → ℂ) (c : List Nat → Nat → Nat → ℂ)
    (hc : PolarField.Spec.HoldsComplex sig Nphi Nr a c) (out : List Nat → Nat → ℂ)
    (hout : ∀ t, Spin.Spec.Component sig t → ∀ i, i < Nphi → out t i = ∑ n ∈ Finset.range Nr, R (s t) (wave .complex Nphi i) n p • c t i n) :
    ∃ fs b, Spin.factors coord1 sig = some fs ∧ polarComplex coord1 sig out = some b ∧
      ∀ t, Spin.Spec.Component sig t → ∀ j, azimuthBackwardComplex Nphi N (b t) j =
        PolarField.Spec.complexValue R fs s Nr (mmax Nphi) a p (Fourier.Spec.grid N j) t := by
  obtain ⟨fs, hf, -⟩ := Spin.spin_round_trip_complex coord0 coord1 sig h
  refine ⟨fs, _, hf, by unfold polarComplex; rw [hf]; rfl, fun t ht j => ?_⟩
  refine azimuth_complex Nphi Nphi N hA.allowed (by unfold mmax; omega) hN (fun m => PolarField.Spec.part R fs s Nr a m p t) _ (fun i hi => ?_) j
  beta_reduce
  unfold PolarField.Spec.part
  refine backward_congr h hf _ _ (fun t ht => ?_) t ht
  rw [hout t ht i hi]
  unfold PolarField.Spec.spinPart
  refine Finset.sum_congr rfl fun n hn => ?_
  rw [hc t ht i n hi (Finset.mem_range.1 hn), Complex.real_smul]

/-- C101, disk, real data: a tensor field interpolated at a radius, given by a positive number or by name, is the tensor field on the circle with the values of
the field there, whatever the buffer of the output holds. Only for more than two azimuthal points and truncations in which every order has radial coefficients. -/
theorem disk_radius_real_partial (h : Spin.Spec.Suitable coord0 coord1 sig) (Nphi Nr k : Nat) (radius alpha : ℝ) (N Ng : Nat)
    (hP : Orders.Spec.PolarAllowed true .real Nphi Nr) (h1 : 2 < Nphi) (hN : Nphi ≤ N) (hg : 0 < Ng) (ha : -1 < alpha) (hr : 0 < radius)
    (position : Fourier.Position) (p : ℝ) (hpos : Spec.At radius position p) (hp : 0 < p) (old : List Nat → Nat → ℝ)
    (a : List Nat → Int → Nat → ℂ) (c : List Nat → Nat → Nat → ℝ) (hc : PolarField.Spec.HoldsReal sig Nphi Nr a c) :
    ∃ fs b, Spin.factors coord1 sig = some fs ∧ diskReal coord0 coord1 sig radius Nphi Nr k alpha Ng position old c = some b ∧
      ∀ t, Spin.Spec.Component sig t → ∀ j, azimuthBackwardReal Nphi N (b t) j =
        PolarField.Spec.realValue (Spec.diskRadial radius (alpha + k)) fs (spinWeight coord1 sig) Nr (mmax Nphi) a p (Fourier.Spec.grid N j) t := by
  have hA : PolarField.Spec.Accepted .real Nphi := Or.inr ⟨h1, (hP.2.1.resolve_left (fun e => by cases e.1)).2⟩
  obtain ⟨maps, hm, e1, e2⟩ := polar_entries true .real Nphi Nr Ng hP h1 hg
  obtain ⟨fs, b, hf, hb, hv⟩ := circle_real h hA h1 N Nr hN p (Spec.diskRadial radius (alpha + k)) (spinWeight coord1 sig) a c hc
    (fun t => polarLoop maps (diskVector Nr k alpha (p / radius) (spinWeight coord1 sig t)) (c t) (old t))
    (fun t ht i hi => by rw [polar_loop true .real Nphi Nr maps e1 e2 _ _ _ i hi, disk_sum radius Nr k alpha p ha hr hp])
  refine ⟨fs, b, hf, ?_, hv⟩
  unfold diskReal
  rw [hm, Option.bind_some, disk_position hr hpos, Option.bind_some, if_pos (disk_exist maps Nr e1)]
  exact hb

/-- C101, disk, complex data. -/
theorem disk_radius_complex_partial (h : Spin.Spec.Suitable coord0 coord1 sig) (Nphi Nr k : Nat) (radius alpha : ℝ) (N Ng : Nat)
    (hP : Orders.Spec.PolarAllowed true .complex Nphi Nr) (h1 : 2 < Nphi) (hN : Nphi ≤ N) (hg : 0 < Ng) (ha : -1 < alpha) (hr : 0 < radius)
    (position : Fourier.Position) (p : ℝ) (hpos : Spec.At radius position p) (hp : 0 < p) (old : List Nat → Nat → ℂ)
    (a : List Nat → Int → Nat → ℂ) (c : List Nat → Nat → Nat → ℂ) (hc : PolarField.Spec.HoldsComplex sig Nphi Nr a c) :
    ∃ fs b, Spin.factors coord1 sig = some fs ∧ diskComplex coord1 sig radius Nphi Nr k alpha Ng position old c = some b ∧
      ∀ t, Spin.Spec.Component sig t → ∀ j, azimuthBackwardComplex Nphi N (b t) j =
        PolarField.Spec.complexValue (Spec.diskRadial radius (alpha + k)) fs (spinWeight coord1 sig) Nr (mmax Nphi) a p (Fourier.Spec.grid N j) t := by
  have hA : PolarField.Spec.Accepted .complex Nphi := Or.inr ⟨h1, (hP.2.1.resolve_left (fun e => by have := e.2; omega)).2⟩
  obtain ⟨maps, hm, e1, e2⟩ := polar_entries true .complex Nphi Nr Ng hP h1 hg
  obtain ⟨fs, b, hf, hb, hv⟩ := circle_complex h hA h1 N Nr hN p (Spec.diskRadial radius (alpha + k)) (spinWeight coord1 sig) a c hc
    (fun t => polarLoop maps (diskVector Nr k alpha (p / radius) (spinWeight coord1 sig t)) (c t) (old t))
    (fun t ht i hi => by rw [polar_loop true .complex Nphi Nr maps e1 e2 _ _ _ i hi, disk_sum radius Nr k alpha p ha hr hp])
  refine ⟨fs, b, hf, ?_, hv⟩
  unfold diskComplex
  rw [hm, Option.bind_some, disk_position hr hpos, Option.bind_some, if_pos (disk_exist maps Nr e1)]
  exact hb

theorem annulus_sum {V : Type} [AddCommGroup V] [Module ℝ V] (rin rout : ℝ) (alpha : ℝ × ℝ) (Nr k : Nat) (p : ℝ) (hR : rin < rout) (ha : -1 < alpha.1)
    (hb : -1 < alpha.2) (m : Int) (v : Nat → V) :
    ∑ n ∈ Finset.range (Nr - (nmin false m).toNat), Shell.interpolation rin rout alpha Nr k p n • v ((nmin false m).toNat + n) =
      ∑ n ∈ Finset.range Nr, Spec.shellRadial rin rout alpha k n p • v n := by
  have e : (nmin false m).toNat = 0 := rfl
  rw [e, Nat.sub_zero]
  refine Finset.sum_congr rfl fun n hn => ?_
  rw [Nat.zero_add, shell_vector rin rout alpha Nr k p hR ha hb n (Finset.mem_range.1 hn)]

/-- C101, annulus, real data. Only for positions given by a number and more than two azimuthal points. -/
theorem annulus_radius_real_partial (h : Spin.Spec.Suitable coord0 coord1 sig) (Nphi Nr k : Nat) (rin rout : ℝ) (alpha : ℝ × ℝ) (N Ng : Nat)
    (hP : Orders.Spec.PolarAllowed false .real Nphi Nr) (h1 : 2 < Nphi) (hN : Nphi ≤ N) (hg : 0 < Ng) (ha : -1 < alpha.1) (hb : -1 < alpha.2) (hR : rin < rout)
    (p : ℝ) (old : List Nat → Nat → ℝ) (a : List Nat → Int → Nat → ℂ) (c : List Nat → Nat → Nat → ℝ) (hc : PolarField.Spec.HoldsReal sig Nphi Nr a c) :
    ∃ fs b, Spin.factors coord1 sig = some fs ∧ annulusReal coord0 coord1 sig rin rout Nphi Nr k alpha Ng (.num p) old c = some b ∧
      ∀ t, Spin.Spec.Component sig t → ∀ j, azimuthBackwardReal Nphi N (b t) j =
        PolarField.Spec.realValue (fun _ _ => Spec.shellRadial rin rout alpha k) fs (spinWeight coord1 sig) Nr (mmax Nphi) a p (Fourier.Spec.grid N j) t := by
  have hA : PolarField.Spec.Accepted .real Nphi := Or.inr ⟨h1, (hP.2.1.resolve_left (fun e => by cases e.1)).2⟩
  obtain ⟨maps, hm, e1, e2⟩ := polar_entries false .real Nphi Nr Ng hP h1 hg
  obtain ⟨fs, b, hf, hb, hv⟩ := circle_real h hA h1 N Nr hN p (fun _ _ => Spec.shellRadial rin rout alpha k) (spinWeight coord1 sig) a c hc
    (fun t => polarLoop maps (fun _ => Shell.interpolation rin rout alpha Nr k p) (c t) (old t))
    (fun t ht i hi => by rw [polar_loop false .real Nphi Nr maps e1 e2 _ _ _ i hi, annulus_sum rin rout alpha Nr k p hR ha hb])
  refine ⟨fs, b, hf, ?_, hv⟩
  unfold annulusReal
  rw [hm, Option.bind_some]
  exact hb

/-- C101, annulus, complex data. -/
theorem annulus_radius_complex_partial (h : Spin.Spec.Suitable coord0 coord1 sig) (Nphi Nr k : Nat) (rin rout : ℝ) (alpha : ℝ × ℝ) (N Ng : Nat)
    (hP : Orders.Spec.PolarAllowed false .complex Nphi Nr) (h1 : 2 < Nphi) (hN : Nphi ≤ N) (hg : 0 < Ng) (ha : -1 < alpha.1) (hb : -1 < alpha.2) (hR : rin < rout)
    (p : ℝ) (old : List Nat → Nat → ℂ) (a : List Nat → Int → Nat → ℂ) (c : List Nat → Nat → Nat → ℂ) (hc : PolarField.Spec.HoldsComplex sig Nphi Nr a c) :
    ∃ fs b, Spin.factors coord1 sig = some fs ∧ annulusComplex coord1 sig rin rout Nphi Nr k alpha Ng (.num p) old c = some b ∧
      ∀ t, Spin.Spec.Component sig t → ∀ j, azimuthBackwardComplex Nphi N (b t) j =
        PolarField.Spec.complexValue (fun _ _ => Spec.shellRadial rin rout alpha k) fs (spinWeight coord1 sig) Nr (mmax Nphi) a p (Fourier.Spec.grid N j) t := by
  have hA : PolarField.Spec.Accepted .complex Nphi := Or.inr ⟨h1, (hP.2.1.resolve_left (fun e => by have := e.2; omega)).2⟩
  obtain ⟨maps, hm, e1, e2⟩ := polar_entries false .complex Nphi Nr Ng hP h1 hg
  obtain ⟨fs, b, hf, hb, hv⟩ := circle_complex h hA h1 N Nr hN p (fun _ _ => Spec.shellRadial rin rout alpha k) (spinWeight coord1 sig) a c hc
    (fun t => polarLoop maps (fun _ => Shell.interpolation rin rout alpha Nr k p) (c t) (old t))
    (fun t ht i hi => by rw [polar_loop false .complex Nphi Nr maps e1 e2 _ _ _ i hi, annulus_sum rin rout alpha Nr k p hR ha hb])
  refine ⟨fs, b, hf, ?_, hv⟩
  unfold annulusComplex
  rw [hm, Option.bind_some]
  exact hb

end

/-! ## What is false -/

/-- Names of positions do not work in the ball, the shell and the annulus: `f(r='right')` raises for every field. -/
theorem radius_name_refuted {V : Type} [AddCommGroup V] [Module ℝ V] (s : String) (d : Dtype) (phi theta r : Spin.Coord) (sig : List Spin.Index) (radius rin rout : ℝ)
    (Nphi L Nr k Ng : Nat) (alpha : ℝ) (beta : ℝ × ℝ) (old : List Nat → Nat → Nat → V) (c : List Nat → Nat → Nat → Nat → V) (old' : List Nat → Nat → ℝ)
    (c' : List Nat → Nat → Nat → ℝ) :
    ball d phi theta r sig radius Nphi L Nr k alpha (.name s) old c = none ∧ shell d phi theta r sig rin rout Nphi L Nr k beta (.name s) c = none ∧
      annulusReal phi r sig rin rout Nphi Nr k beta Ng (.name s) old' c' = none := by
  refine ⟨rfl, rfl, ?_⟩
  unfold annulusReal
  cases polarMaps false .real Nphi Nr Ng 1 0 <;> rfl

/-- Interpolation in a ball with a degree that has no radial coefficients raises at every radius, although the coefficients and the grid data of such fields are
those of C98: here axisymmetric scalar fields of degree up to `2 Nr`. -/
theorem ball_radius_refuted (phi theta r : Spin.Coord) (radius : ℝ) (Nr k : Nat) (alpha p : ℝ) (old : List Nat → Nat → Nat → ℂ) (c : List Nat → Nat → Nat → Nat → ℂ) :
    Orders.Spec.Allowed .complex 1 (2 * Nr + 1) ∧ VolumeField.Spec.Separated .complex 1 (lmaxOf .complex (2 * Nr + 1)) ∧
      ball .complex phi theta r [] radius 1 (lmaxOf .complex (2 * Nr + 1)) Nr k alpha (.num p) old c = none := by
  have hA : Orders.Spec.Allowed .complex 1 (2 * Nr + 1) := ⟨by omega, Or.inl rfl⟩
  have hs : VolumeField.Spec.Separated .complex 1 (lmaxOf .complex (2 * Nr + 1)) := Or.inl rfl
  refine ⟨hA, hs, ?_⟩
  have hv : ballVectors (VolumeField.ellMaps .complex 1 (lmaxOf .complex (2 * Nr + 1))) 0 Nr = false := by
    have hL : lmaxOf .complex (2 * Nr + 1) = 2 * Nr := rfl
    have hsh : sphereShape .complex 1 (2 * Nr) = (1, 2 * Nr + 1) := rfl
    have hp := (VolumeField.degrees hA hs).1 0 (2 * Nr) (by rw [hL, hsh]; omega) (by rw [hL, hsh]; omega)
    have hdeg : (VolumeField.group .complex 1 (lmaxOf .complex (2 * Nr + 1)) 0 (2 * Nr)).2 = 2 * Nr := by
      rw [hL]
      unfold VolumeField.group Sphere.groupComplex
      simp
    beta_reduce at hp
    rw [hdeg] at hp
    have hmem : ((2 * Nr : Nat) : Int) ∈ Maps.visits (VolumeField.ellMaps .complex 1 (lmaxOf .complex (2 * Nr + 1))) 0 (2 * Nr) := by
      rw [hp]; simp
    unfold Maps.visits at hmem
    obtain ⟨e, he, hell⟩ := List.mem_map.1 hmem
    have he := (List.mem_filter.1 he).1
    unfold ballVectors
    rw [Bool.eq_false_iff]
    intro h
    rw [List.all_eq_true] at h
    have := List.all_eq_true.1 (h [] (by simp [VolumeField.indices])) e he
    rw [Bool.or_eq_true] at this
    rcases this with h | h
    · simp [VolumeField.regs, Ball.allowed] at h
    · rw [decide_eq_true_eq, hell] at h
      unfold Zernike.minDegree at h
      omega
  unfold ball
  cases sphereRadius (.num p) with
  | none => rfl
  | some x => simp [VolumeField.checkSignature, hv]

/-! ## The hypotheses are met -/

example : Orders.Spec.Allowed .real 8 6 ∧ VolumeField.Spec.Separated .real 8 (lmaxOf .real 6) ∧ lmaxOf .real 6 < 2 * 3 :=
  ⟨⟨by decide, Or.inr ⟨by decide, by decide, by decide⟩⟩, Or.inr (Or.inr (Or.inl (by decide))), by decide⟩

example : Orders.Spec.PolarAllowed true .real 8 4 ∧ Orders.Spec.PolarAllowed false .complex 8 2 ∧ Spec.At 2 (.name "right") 2 :=
  ⟨⟨by decide, Or.inr ⟨by decide, by decide⟩, fun _ => by decide⟩, ⟨by decide, Or.inr ⟨by decide, by decide⟩, fun h => by cases h⟩, Or.inl ⟨rfl, rfl⟩⟩

end Dedalus.RadialInterp
