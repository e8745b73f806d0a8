import Verif.SphereField.Lemmas

/-! C95: transforms of tensor fields on the sphere. -/

namespace Dedalus.SphereField
open Orders Orders.Spec

theorem rows_one' (d : Dtype) (Nphi Ntheta : Nat) (h : Allowed d Nphi Ntheta) :
    sphereRows d Nphi (lmaxOf d Ntheta) 1 0 = List.range (sphereShape d Nphi (lmaxOf d Ntheta)).1 := by
  unfold sphereRows
  have hdvd : ∃ C, (sphereShape d Nphi (lmaxOf d Ntheta)).1 = d.parts * C := by
    unfold sphereShape
    split
    · rcases h.2 with rfl | ⟨_, ⟨C, rfl⟩, _⟩
      · rename_i hm; exact absurd hm (by decide)
      · cases d
        · exact ⟨C, by simp only [Sphere.shapeReal, Dtype.parts]; omega⟩
        · exact ⟨C, by simp only [Sphere.shapeComplex, Dtype.parts]; omega⟩
    · exact ⟨1, by simp⟩
  obtain ⟨C, hC⟩ := hdvd
  rw [hC, rows_eq 1 _ C 0 (by cases d <;> decide), List.range_eq_range']
  simp [lo, hi]

theorem range_get {n i r : Nat} : (List.range n)[i]? = some r ↔ i < n ∧ r = i := by
  rw [List.range_eq_range', range'_get]
  simp

/-! ## Real data -/

section
variable {coord0 coord1 : Spin.Coord} {sig : List Spin.Index} {fs : List (Option Spin.Mat)}

/-- Real rows: orders, parts and pairs. -/
theorem real_rows (Nphi Ntheta : Nat) (h : Allowed .real Nphi Ntheta) :
    sphereGridRows .real Nphi % 2 = 0 ∧ (∀ r, r < sphereGridRows .real Nphi → perm .real Nphi r % 2 = r % 2) ∧
      ∀ l, 2 * l < sphereGridRows .real Nphi → wave .real Nphi (2 * l + 1) = wave .real Nphi (2 * l) := by
  rcases h.2 with rfl | ⟨h0, ⟨C, rfl⟩, _⟩
  · refine ⟨by decide, fun r _ => rfl, fun l hl => ?_⟩
    have : l = 0 := by have : sphereGridRows .real 1 = 2 := rfl; omega
    subst this
    rfl
  · simp only [Dtype.parts] at *
    rw [show 2 * 2 * C = 4 * C by ring] at *
    have hr : sphereGridRows .real (4 * C) = 4 * C := by unfold sphereGridRows; rw [if_pos (by unfold mmax; omega)]
    rw [hr]
    refine ⟨by omega, fun r hr => perm_real_part C r (by omega) hr, fun l hl => ?_⟩
    rw [wave_real C _ (by omega) (by omega), wave_real C _ (by omega) (by omega), show (2 * l + 1) / 2 = 2 * l / 2 by omega]

theorem temp_real (Nphi Ntheta Ng : Nat) (h : Allowed .real Nphi Ntheta) (hg : lmaxOf .real Ntheta < Ng) (q : Nat → ℝ)
    (hq : Jacobi.GridGuess Ng 0 0 q) (maps : List Entry) (hm : sphereMaps .real Nphi (lmaxOf .real Ntheta) Ng 1 0 = some maps)
    (a : List Nat → Int → Int → ℂ) (c : List Nat → Nat → Nat → ℝ) (hc : Spec.HoldsReal sig Nphi (lmaxOf .real Ntheta) a c)
    (t : List Nat) (ht : Spin.Spec.Component sig t) (r x : Nat) (hr : r < sphereGridRows .real Nphi) (hx : x < Ng) :
    Orders.backward maps (lmaxOf .real Ntheta) (planBackward Ng (lmaxOf .real Ntheta) (spinWeight coord1 sig t) q) (c t) r x =
      Spec.rowPart (Spec.spinPart (spinWeight coord1 sig) (lmaxOf .real Ntheta) a (wave .real Nphi r) (Sphere.grid Ng q x).1 t) r := by
  obtain ⟨maps', hm', hb, -⟩ := distributed_swsh .real Nphi Ntheta Ng 1 0 h hg (spinWeight coord1 sig t) q hq ℝ (fun m l p => Spec.rowPart (a t m l) p) (c t)
    (fun i r j m l hr hj e => by
      rw [rows_one' _ _ _ h, range_get] at hr
      rw [hr.2] at e ⊢
      rw [hc t ht i j m l hr.1 hj e]
      simp [Spec.rowPart, Dtype.parts])
  rw [hm] at hm'
  cases hm'
  have := hb r r x (by rw [grid_one _ _ _ h, range_get]; exact ⟨hr, rfl⟩) hx
  unfold swshBackward at this
  unfold planBackward
  rw [this]
  simp only [Dtype.parts, (real_rows Nphi Ntheta h).2.1 r hr]
  unfold Spec.spinPart Spec.rowPart
  simp only [Nat.mod_mod]
  split
  · rw [Complex.re_sum]
    exact Finset.sum_congr rfl fun l _ => by rw [Complex.re_ofReal_mul, smul_eq_mul]
  · rw [Complex.im_sum]
    exact Finset.sum_congr rfl fun l _ => by rw [Complex.im_ofReal_mul, smul_eq_mul]

theorem row_pair (z : ℂ) (l : Nat) : ((Spec.rowPart z (2 * l) : ℝ) : ℂ) + Complex.I * (Spec.rowPart z (2 * l + 1) : ℝ) = z := by
  unfold Spec.rowPart
  rw [if_pos (by omega), if_neg (by omega), mul_comm]
  exact Complex.re_add_im z

theorem pair_row {y : Nat → ℝ} {z : ℂ} {l : Nat} (h : ((y (2 * l) : ℝ) : ℂ) + Complex.I * (y (2 * l + 1) : ℝ) = z) (r : Nat) (hr : r / 2 = l) : y r = Spec.rowPart z r := by
  subst h
  unfold Spec.rowPart
  have : r = 2 * l ∨ r = 2 * l + 1 := by omega
  rcases this with rfl | rfl
  · rw [if_pos (by omega)]; simp
  · rw [if_neg (by omega)]; simp

/-- Coefficients to coefficient-grid data: every row has the coordinate components of its order, except that without orders above zero both rows
have the real parts. -/
theorem colat_real (h : Spin.Spec.Suitable coord0 coord1 sig) (hf : Spin.factors coord1 sig = some fs) (Nphi Ntheta Ng : Nat)
    (hA : Allowed .real Nphi Ntheta) (hg : lmaxOf .real Ntheta < Ng) (q : Nat → ℝ)
    (hq : Jacobi.GridGuess Ng 0 0 q) (maps : List Entry) (hm : sphereMaps .real Nphi (lmaxOf .real Ntheta) Ng 1 0 = some maps)
    (a : List Nat → Int → Int → ℂ) (c : List Nat → Nat → Nat → ℝ) (hc : Spec.HoldsReal sig Nphi (lmaxOf .real Ntheta) a c) :
    ∃ g, colatBackwardReal (decide (mmax Nphi = 0)) coord0 coord1 sig fs maps (lmaxOf .real Ntheta) Ng (sphereGridRows .real Nphi) q c = some g ∧
      ∀ t, Spin.Spec.Component sig t → ∀ r x, r < sphereGridRows .real Nphi → x < Ng → g t r x =
        Spec.rowPart (Spec.part fs (spinWeight coord1 sig) (lmaxOf .real Ntheta) a (wave .real Nphi r) (Sphere.grid Ng q x).1 t)
          (if mmax Nphi = 0 then 0 else r) := by
  have hrows := real_rows Nphi Ntheta hA
  have hM : (if decide (mmax Nphi = 0) = true then 2 else sphereGridRows .real Nphi) = sphereGridRows .real Nphi := by
    split
    · rename_i hz
      unfold sphereGridRows
      rw [if_neg (by simpa using hz)]
      rfl
    · rfl
  unfold colatBackwardReal
  simp only [hM]
  obtain ⟨o, ho, hov⟩ := real_backward h hf Ng hrows.1 (fun t => Orders.backward maps (lmaxOf .real Ntheta)
    (planBackward Ng (lmaxOf .real Ntheta) (spinWeight coord1 sig t) q) (c t))
  rw [ho]
  refine ⟨_, rfl, fun t ht r x hr hx => ?_⟩
  have key : ∀ r, r < sphereGridRows .real Nphi → unflatten (sphereGridRows .real Nphi) o t r x =
      Spec.rowPart (Spec.part fs (spinWeight coord1 sig) (lmaxOf .real Ntheta) a (wave .real Nphi r) (Sphere.grid Ng q x).1 t) r := by
    intro r hr
    have e := hov t ht (r / 2) x (by omega) hx
    rw [backward_congr h hf _ (Spec.spinPart (spinWeight coord1 sig) (lmaxOf .real Ntheta) a (wave .real Nphi (2 * (r / 2))) (Sphere.grid Ng q x).1)
      (fun t ht => by
        rw [temp_real Nphi Ntheta Ng hA hg q hq maps hm a c hc t ht _ x (by omega) hx,
          temp_real Nphi Ntheta Ng hA hg q hq maps hm a c hc t ht _ x (by omega) hx, hrows.2.2 _ (by omega), row_pair]) t ht] at e
    rw [pair_row (y := fun r => unflatten (sphereGridRows .real Nphi) o t r x) e r rfl]
    have hw : wave .real Nphi (2 * (r / 2)) = wave .real Nphi r := by
      have : r = 2 * (r / 2) ∨ r = 2 * (r / 2) + 1 := by omega
      rcases this with hr2 | hr2
      · rw [← hr2]
      · conv_rhs => rw [hr2]
        exact (hrows.2.2 _ (by omega)).symm
    rw [hw]
    rfl
  by_cases hz : mmax Nphi = 0
  · simp only [hz, decide_true, if_true]
    have h2 : sphereGridRows .real Nphi = 2 := by unfold sphereGridRows; rw [if_neg (by omega)]; rfl
    rw [key 0 (by omega)]
    have : r = 2 * 0 ∨ r = 2 * 0 + 1 := by omega
    rcases this with rfl | rfl
    · rfl
    · rw [hrows.2.2 0 (by omega)]
  · simp only [hz, decide_false, if_false, Bool.false_eq_true]
    exact key r hr

/-- Coefficient-grid data to coefficients, for data with two rows per order whose spin components are sums of harmonics. -/
theorem colat_real_forward (h : Spin.Spec.Suitable coord0 coord1 sig) (hf : Spin.factors coord1 sig = some fs) (Nphi Ntheta Ng : Nat)
    (hA : Allowed .real Nphi Ntheta) (hg : lmaxOf .real Ntheta < Ng) (q : Nat → ℝ)
    (hq : Jacobi.GridGuess Ng 0 0 q) (maps : List Entry) (hm : sphereMaps .real Nphi (lmaxOf .real Ntheta) Ng 1 0 = some maps)
    (a : List Nat → Int → Int → ℂ) (z : ℂ) (g : List Nat → Nat → Nat → ℝ)
    (hgd : ∀ t, Spin.Spec.Component sig t → ∀ r x, r < sphereGridRows .real Nphi → x < Ng → g t r x =
        Spec.rowPart (z * Spec.part fs (spinWeight coord1 sig) (lmaxOf .real Ntheta) a (wave .real Nphi r) (Sphere.grid Ng q x).1 t) r) :
    ∃ out, colatForwardReal (decide (mmax Nphi = 0)) coord0 coord1 sig fs maps (lmaxOf .real Ntheta) Ng (sphereGridRows .real Nphi) q g = some out ∧
      ∀ t, Spin.Spec.Component sig t → ∀ i j, i < (sphereShape .real Nphi (lmaxOf .real Ntheta)).1 → j < (sphereShape .real Nphi (lmaxOf .real Ntheta)).2 →
        ∃ m l, sphereGroup .real Nphi (lmaxOf .real Ntheta) i j = some (m, l) ∧
          out t i j = if |spinWeight coord1 sig t| ≤ l then Spec.rowPart (z * a t m l) i else 0 := by
  have hrows := real_rows Nphi Ntheta hA
  unfold colatForwardReal
  simp only
  generalize hM' : (if decide (mmax Nphi = 0) = true then sphereGridRows .real Nphi + sphereGridRows .real Nphi else sphereGridRows .real Nphi) = M'
  have hMM : sphereGridRows .real Nphi ≤ M' ∧ M' % 2 = 0 := by
    rw [← hM']
    split <;> omega
  obtain ⟨o, ho, hov⟩ := real_forward h hf Ng hMM.2 (if decide (mmax Nphi = 0) = true then
    fun t i x => if i < sphereGridRows .real Nphi then g t i x else 0 else g)
  rw [ho]
  refine ⟨_, rfl, fun t ht i j hi hj => ?_⟩
  have key : ∀ r x, r < sphereGridRows .real Nphi → x < Ng → unflatten M' o t r x =
      Spec.rowPart (z * Spec.spinPart (spinWeight coord1 sig) (lmaxOf .real Ntheta) a (wave .real Nphi r) (Sphere.grid Ng q x).1 t) r := by
    intro r x hr hx
    have e := hov t ht (r / 2) x (by omega) hx
    have hw : wave .real Nphi (2 * (r / 2)) = wave .real Nphi r := by
      have : r = 2 * (r / 2) ∨ r = 2 * (r / 2) + 1 := by omega
      rcases this with hr2 | hr2
      · rw [← hr2]
      · conv_rhs => rw [hr2]
        exact (hrows.2.2 _ (by omega)).symm
    have hin : ∀ t b, b < 2 → (if decide (mmax Nphi = 0) = true then
        fun t i x => if i < sphereGridRows .real Nphi then g t i x else 0 else g) t (2 * (r / 2) + b) x = g t (2 * (r / 2) + b) x := by
      intro t b hb
      split
      · beta_reduce; rw [if_pos (by omega)]
      · rfl
    rw [forward_congr h hf _ (fun t => z * Spin.backwardComplex 0 fs (Spec.spinPart (spinWeight coord1 sig) (lmaxOf .real Ntheta) a
        (wave .real Nphi r) (Sphere.grid Ng q x).1) t)
      (fun t ht => by
        have h0 := hin t 0 (by omega)
        rw [Nat.add_zero] at h0
        rw [h0, hin t 1 (by omega), hgd t ht _ x (by omega) hx, hgd t ht _ x (by omega) hx, hrows.2.2 _ (by omega), row_pair, hw]
        rfl) t ht, forward_smul, forward_backward h hf _ t ht] at e
    exact pair_row (y := fun r => unflatten M' o t r x) e r rfl
  have := colat_forward .real Nphi Ntheta Ng 1 0 hA hg (spinWeight coord1 sig t) q hq maps hm (fun m l p => Spec.rowPart (z * a t m l) p)
    (unflatten M' o t) (fun i r x hr hx => by
      rw [grid_one _ _ _ hA, range_get] at hr
      obtain ⟨hr, rfl⟩ := hr
      rw [key r x hr hx]
      simp only [Dtype.parts, hrows.2.1 r hr]
      unfold Spec.spinPart
      rw [Finset.mul_sum]
      unfold Spec.rowPart
      simp only [Nat.mod_mod]
      split
      · rw [Complex.re_sum]
        exact Finset.sum_congr rfl fun l _ => by rw [mul_left_comm, Complex.re_ofReal_mul, smul_eq_mul]
      · rw [Complex.im_sum]
        exact Finset.sum_congr rfl fun l _ => by rw [mul_left_comm, Complex.im_ofReal_mul, smul_eq_mul]) i i j
    (by rw [rows_one' _ _ _ hA, range_get]; exact ⟨hi, rfl⟩) hj
  obtain ⟨m, l, e1, e2⟩ := this
  refine ⟨m, l, e1, ?_⟩
  beta_reduce
  rw [e2]
  simp [Spec.rowPart, Dtype.parts]

/-- Real Fourier modes of one order are real parts of complex modes. -/
theorem mode_re (m : Nat) (φ : ℝ) (z : ℂ) :
    (Fourier.Spec.mode m φ * z).re = z.re * Fourier.Spec.realMode (2 * m) φ + z.im * Fourier.Spec.realMode (2 * m + 1) φ := by
  have e : Fourier.Spec.mode m φ = (Real.cos (m * φ) : ℝ) + (Real.sin (m * φ) : ℝ) * Complex.I := by
    unfold Fourier.Spec.mode
    rw [show ((m : Int) : ℂ) * (φ : ℂ) * Complex.I = (((m : ℝ) * φ : ℝ) : ℂ) * Complex.I by push_cast; ring, Complex.exp_mul_I, ← Complex.ofReal_cos,
      ← Complex.ofReal_sin]
  unfold Fourier.Spec.realMode
  rw [if_pos (by omega), if_neg (by omega), show 2 * m / 2 = m by omega, show (2 * m + 1) / 2 = m by omega, e, Complex.mul_re]
  simp only [Complex.add_re, Complex.add_im, Complex.ofReal_re, Complex.ofReal_im, Complex.mul_re, Complex.mul_im, Complex.I_re, Complex.I_im]
  ring

theorem real_wave_perm (Nphi : Nat) (r : Nat) : wave .real Nphi r = ((perm .real Nphi r / 2 : Nat) : Int) := rfl

/-- The azimuthal transform of rows of the real and imaginary parts of `w m`. -/
theorem azimuth_real (Nphi Ntheta N : Nat) (h : Allowed .real Nphi Ntheta) (hm : mmax Nphi ≠ 0) (hN : Nphi ≤ N) (w : Int → ℂ) (c : Nat → ℝ)
    (hc : ∀ r, r < Nphi → c r = Spec.rowPart (w (wave .real Nphi r)) r) (j : Nat) :
    azimuthBackwardReal Nphi N c j = ∑ m ∈ Finset.range (mmax Nphi + 1), (Fourier.Spec.mode m (Fourier.Spec.grid N j) * w m).re := by
  have hpos : 0 < Nphi := by
    rcases Nat.eq_zero_or_pos Nphi with rfl | hp
    · exact absurd rfl hm
    · exact hp
  have heven : Nphi = 2 * (mmax Nphi + 1) := by
    rcases h.2 with rfl | ⟨_, ⟨C, rfl⟩, _⟩
    · exact absurd rfl hm
    · simp only [Dtype.parts, mmax] at *; omega
  have hrows := real_rows Nphi Ntheta h
  have hgr : sphereGridRows .real Nphi = Nphi := by unfold sphereGridRows; rw [if_pos (by omega)]
  rw [hgr] at hrows
  unfold azimuthBackwardReal
  rw [if_neg hm, Fourier.real_backward_evaluates N Nphi (by omega) hpos]
  unfold Fourier.Spec.realSeries
  have e : ∀ k, k < Nphi → (if Fourier.Spec.Resolved N Nphi ((k / 2 : Nat) : Int) then c (backPerm .real Nphi k) else 0) =
      Spec.rowPart (w ((k / 2 : Nat) : Int)) k := by
    intro k hk
    obtain ⟨h1, h2⟩ := backPerm_spec .real Nphi Ntheta h hm k hk
    rw [if_pos (by unfold Fourier.Spec.Resolved; rw [abs_of_nonneg (by omega)]; omega), hc _ h1, real_wave_perm, h2]
    have := hrows.2.1 _ h1
    rw [h2] at this
    unfold Spec.rowPart
    rw [this]
  rw [Finset.sum_congr rfl (g := fun k => Spec.rowPart (w ((k / 2 : Nat) : Int)) k * Fourier.Spec.realMode k (Fourier.Spec.grid N j))
    (fun k hk => by beta_reduce; rw [e k (Finset.mem_range.1 hk)])]
  conv_lhs => rw [heven]
  rw [Spin.sum_two]
  refine Finset.sum_congr rfl fun m _ => ?_
  rw [mode_re]
  unfold Spec.rowPart
  rw [if_pos (by omega), if_neg (by omega), show 2 * m / 2 = m by omega, show (2 * m + 1) / 2 = m by omega]

/-- From the grid back: all rows but the sine part of order zero. -/
theorem azimuth_real_forward (Nphi Ntheta N : Nat) (h : Allowed .real Nphi Ntheta) (hm : mmax Nphi ≠ 0) (hN : Nphi ≤ N) (c : Nat → ℝ)
    (hz : c 1 = 0) (i : Nat) (hi : i < Nphi) : azimuthForwardReal Nphi N (azimuthBackwardReal Nphi N c) i = c i := by
  have heven : Nphi = 2 * (mmax Nphi + 1) := by
    rcases h.2 with rfl | ⟨_, ⟨C, rfl⟩, _⟩
    · exact absurd rfl hm
    · simp only [Dtype.parts, mmax] at *; omega
  unfold azimuthForwardReal azimuthBackwardReal
  rw [if_neg hm, if_neg hm, Fourier.real_round_trip N Nphi (by omega) _ _ (perm_lt .real Nphi Ntheta h hm i hi), backPerm_perm .real Nphi Ntheta h hm i hi]
  have hp := perm_lt .real Nphi Ntheta h hm i hi
  have hres : Fourier.Spec.Resolved N Nphi ((perm .real Nphi i / 2 : Nat) : Int) := by
    unfold Fourier.Spec.Resolved
    rw [abs_of_nonneg (by omega)]
    omega
  by_cases h1 : perm .real Nphi i = 1
  · have hone : perm .real Nphi 1 = 1 := by
      rcases h.2 with rfl | ⟨_, ⟨C, rfl⟩, _⟩
      · exact absurd rfl hm
      · simp only [Dtype.parts] at *
        unfold perm
        rw [if_neg hm]
        simp only
        rw [show 2 * 2 * C = 4 * C by ring, permReal_eq C 1 (by omega)]
        rfl
    have : i = 1 := perm_inj .real Nphi Ntheta h hm i 1 hi (by omega) (by rw [h1, hone])
    subst this
    rw [if_neg (fun e => e.2 h1), hz]
  · rw [if_pos ⟨hres, h1⟩]

theorem zero_mode (φ : ℝ) : Fourier.Spec.mode ((0 : Nat) : Int) φ = 1 := by simp [Fourier.Spec.mode]

theorem wave_zero_real (Nphi : Nat) (h : mmax Nphi = 0) (r : Nat) (hr : r < 2) : wave .real Nphi r = 0 := by
  rw [real_wave_perm]
  unfold perm
  rw [if_pos h]
  omega

/-- C95, real data: the grid values of a tensor of any rank are the values of the real field with the given coefficients at the grid points. -/
theorem sphere_values_real (h : Spin.Spec.Suitable coord0 coord1 sig) (Nphi Ntheta N Ng : Nat) (hA : Allowed .real Nphi Ntheta)
    (hg : lmaxOf .real Ntheta < Ng) (hN : Nphi ≤ N) (q : Nat → ℝ) (hq : Jacobi.GridGuess Ng 0 0 q) (a : List Nat → Int → Int → ℂ)
    (c : List Nat → Nat → Nat → ℝ) (hc : Spec.HoldsReal sig Nphi (lmaxOf .real Ntheta) a c) :
    ∃ fs u, Spin.factors coord1 sig = some fs ∧ toGridReal coord0 coord1 sig Nphi (lmaxOf .real Ntheta) N Ng q c = some u ∧
      ∀ t, Spin.Spec.Component sig t → ∀ j x, x < Ng → u t j x =
        Spec.realValue fs (spinWeight coord1 sig) (lmaxOf .real Ntheta) (mmax Nphi) a (Sphere.grid Ng q x).1 (Fourier.Spec.grid N j) t := by
  obtain ⟨fs, hf, -⟩ := Spin.spin_round_trip_complex coord0 coord1 sig h
  obtain ⟨maps, hm, -⟩ := sphere_order_maps .real Nphi Ntheta Ng 1 0 hA (by omega)
  obtain ⟨g, hg1, hg2⟩ := colat_real h hf Nphi Ntheta Ng hA hg q hq maps hm a c hc
  unfold toGridReal
  rw [hf, hm]
  simp only [Option.bind_some, hg1]
  refine ⟨fs, _, rfl, rfl, fun t ht j x hx => ?_⟩
  beta_reduce
  unfold Spec.realValue
  by_cases hz : mmax Nphi = 0
  · have h2 : sphereGridRows .real Nphi = 2 := by unfold sphereGridRows; rw [if_neg (by omega)]; rfl
    unfold azimuthBackwardReal
    rw [if_pos hz]
    beta_reduce
    rw [hg2 t ht 0 x (by omega) hx, if_pos hz, wave_zero_real Nphi hz 0 (by omega), hz, Finset.sum_range_one, zero_mode, one_mul]
    rfl
  · have hgr : sphereGridRows .real Nphi = Nphi := by unfold sphereGridRows; rw [if_pos (by omega)]
    rw [azimuth_real Nphi Ntheta N hA hz hN (fun m => Spec.part fs (spinWeight coord1 sig) (lmaxOf .real Ntheta) a m (Sphere.grid Ng q x).1 t)
      (fun i => g t i x) (fun r hr => by rw [hg2 t ht r x (by omega) hx, if_neg hz]) j]

/-- C95, real data: from coefficients to the grid and back. If the part of order zero is real on the grid, as for the coefficients of a real field,
the coefficients of all existing harmonics are returned and the others are zero. -/
theorem sphere_round_trip_real (h : Spin.Spec.Suitable coord0 coord1 sig) (Nphi Ntheta N Ng : Nat) (hA : Allowed .real Nphi Ntheta)
    (hg : lmaxOf .real Ntheta < Ng) (hN : Nphi ≤ N) (q : Nat → ℝ) (hq : Jacobi.GridGuess Ng 0 0 q) (a : List Nat → Int → Int → ℂ)
    (c : List Nat → Nat → Nat → ℝ) (hc : Spec.HoldsReal sig Nphi (lmaxOf .real Ntheta) a c)
    (hreal : ∀ fs, Spin.factors coord1 sig = some fs → ∀ t, Spin.Spec.Component sig t → ∀ z : ℝ, -1 < z → z < 1 →
      (Spec.part fs (spinWeight coord1 sig) (lmaxOf .real Ntheta) a 0 z t).im = 0) :
    ∃ u c', toGridReal coord0 coord1 sig Nphi (lmaxOf .real Ntheta) N Ng q c = some u ∧
      toCoeffReal coord0 coord1 sig Nphi (lmaxOf .real Ntheta) N Ng q u = some c' ∧
      ∀ t, Spin.Spec.Component sig t → ∀ i j, i < (sphereShape .real Nphi (lmaxOf .real Ntheta)).1 → j < (sphereShape .real Nphi (lmaxOf .real Ntheta)).2 →
        ∃ m l, sphereGroup .real Nphi (lmaxOf .real Ntheta) i j = some (m, l) ∧
          c' t i j = if |spinWeight coord1 sig t| ≤ l then c t i j else 0 := by
  obtain ⟨fs, hf, -⟩ := Spin.spin_round_trip_complex coord0 coord1 sig h
  obtain ⟨maps, hm, -⟩ := sphere_order_maps .real Nphi Ntheta Ng 1 0 hA (by omega)
  obtain ⟨g, hg1, hg2⟩ := colat_real h hf Nphi Ntheta Ng hA hg q hq maps hm a c hc
  have him : ∀ t, Spin.Spec.Component sig t → ∀ x, x < Ng →
      (Spec.part fs (spinWeight coord1 sig) (lmaxOf .real Ntheta) a 0 (Sphere.grid Ng q x).1 t).im = 0 := by
    intro t ht x hx
    obtain ⟨h1, h2⟩ := Sphere.grid_interior Ng (by omega) q hq x hx
    exact hreal fs hf t ht _ h1 h2
  have hgd : ∀ t, Spin.Spec.Component sig t → ∀ r x, r < sphereGridRows .real Nphi → x < Ng →
      azimuthForwardReal Nphi N (fun j => azimuthBackwardReal Nphi N (fun i => g t i x) j) r =
        Spec.rowPart (1 * Spec.part fs (spinWeight coord1 sig) (lmaxOf .real Ntheta) a (wave .real Nphi r) (Sphere.grid Ng q x).1 t) r := by
    intro t ht r x hr hx
    rw [one_mul]
    by_cases hz : mmax Nphi = 0
    · have h2 : sphereGridRows .real Nphi = 2 := by unfold sphereGridRows; rw [if_neg (by omega)]; rfl
      unfold azimuthForwardReal azimuthBackwardReal
      rw [if_pos hz, if_pos hz, wave_zero_real Nphi hz r (by omega)]
      have : r = 0 ∨ r = 1 := by omega
      rcases this with rfl | rfl
      · rw [if_pos (by omega)]
        beta_reduce
        rw [hg2 t ht 0 x hr hx, if_pos hz, wave_zero_real Nphi hz 0 (by omega)]
      · rw [if_neg (by omega)]
        exact (him t ht x hx).symm
    · have hgr : sphereGridRows .real Nphi = Nphi := by unfold sphereGridRows; rw [if_pos (by omega)]
      have hwave1 : wave .real Nphi 1 = 0 := by
        have := (real_rows Nphi Ntheta hA).2.2 0 (by omega)
        rw [Nat.mul_zero, Nat.zero_add] at this
        rw [this, real_wave_perm]
        unfold perm
        rw [if_neg hz]
        simp [Sphere.permReal]
      have hc1 : g t 1 x = 0 := by
        rw [hg2 t ht 1 x (by have := hr; unfold mmax at hz; omega) hx, if_neg hz, hwave1]
        exact him t ht x hx
      rw [azimuth_real_forward Nphi Ntheta N hA hz hN (fun i => g t i x) hc1 r (by omega), hg2 t ht r x hr hx, if_neg hz]
  obtain ⟨out, ho1, ho2⟩ := colat_real_forward h hf Nphi Ntheta Ng hA hg q hq maps hm a 1
    (fun t i x => azimuthForwardReal Nphi N (fun j => azimuthBackwardReal Nphi N (fun i => g t i x) j) i) hgd
  unfold toGridReal toCoeffReal
  rw [hf, hm]
  simp only [Option.bind_some, hg1, Option.map_some]
  refine ⟨_, out, rfl, ho1, fun t ht i j hi hj => ?_⟩
  obtain ⟨m, l, e1, e2⟩ := ho2 t ht i j hi hj
  refine ⟨m, l, e1, ?_⟩
  rw [e2, one_mul, hc t ht i j m l hi hj e1]

/-- C95, real data with orders above zero: the transforms between coefficients and coefficient-grid data, on their own, return the coefficients too. -/
theorem sphere_colatitude_round_trip_partial (h : Spin.Spec.Suitable coord0 coord1 sig) (hf : Spin.factors coord1 sig = some fs) (Nphi Ntheta Ng : Nat)
    (hA : Allowed .real Nphi Ntheta) (hz : mmax Nphi ≠ 0) (hg : lmaxOf .real Ntheta < Ng) (q : Nat → ℝ) (hq : Jacobi.GridGuess Ng 0 0 q)
    (a : List Nat → Int → Int → ℂ) (c : List Nat → Nat → Nat → ℝ) (hc : Spec.HoldsReal sig Nphi (lmaxOf .real Ntheta) a c) :
    ∃ maps g c', sphereMaps .real Nphi (lmaxOf .real Ntheta) Ng 1 0 = some maps ∧
      colatBackwardReal (decide (mmax Nphi = 0)) coord0 coord1 sig fs maps (lmaxOf .real Ntheta) Ng (sphereGridRows .real Nphi) q c = some g ∧
      colatForwardReal (decide (mmax Nphi = 0)) coord0 coord1 sig fs maps (lmaxOf .real Ntheta) Ng (sphereGridRows .real Nphi) q g = some c' ∧
      ∀ t, Spin.Spec.Component sig t → ∀ i j, i < (sphereShape .real Nphi (lmaxOf .real Ntheta)).1 → j < (sphereShape .real Nphi (lmaxOf .real Ntheta)).2 →
        ∃ m l, sphereGroup .real Nphi (lmaxOf .real Ntheta) i j = some (m, l) ∧
          c' t i j = if |spinWeight coord1 sig t| ≤ l then c t i j else 0 := by
  obtain ⟨maps, hm, -⟩ := sphere_order_maps .real Nphi Ntheta Ng 1 0 hA (by omega)
  obtain ⟨g, hg1, hg2⟩ := colat_real h hf Nphi Ntheta Ng hA hg q hq maps hm a c hc
  obtain ⟨out, ho1, ho2⟩ := colat_real_forward h hf Nphi Ntheta Ng hA hg q hq maps hm a 1 g (fun t ht r x hr hx => by
    rw [hg2 t ht r x hr hx, if_neg hz, one_mul])
  refine ⟨maps, g, out, hm, hg1, ho1, fun t ht i j hi hj => ?_⟩
  obtain ⟨m, l, e1, e2⟩ := ho2 t ht i j hi hj
  refine ⟨m, l, e1, ?_⟩
  rw [e2, one_mul, hc t ht i j m l hi hj e1]

/-- C95 is false without orders above zero: for the coefficients of any real tensor field, going to coefficient-grid data and back multiplies the
complex numbers that the coefficients encode with `1 + i`. The data change unless they are zero. -/
theorem sphere_colatitude_round_trip_refuted (h : Spin.Spec.Suitable coord0 coord1 sig) (hf : Spin.factors coord1 sig = some fs) (Ntheta Ng : Nat)
    (hNt : 0 < Ntheta) (hg : lmaxOf .real Ntheta < Ng) (q : Nat → ℝ) (hq : Jacobi.GridGuess Ng 0 0 q)
    (a : List Nat → Int → Int → ℂ) (c : List Nat → Nat → Nat → ℝ) (hc : Spec.HoldsReal sig 1 (lmaxOf .real Ntheta) a c)
    (hreal : ∀ t, Spin.Spec.Component sig t → ∀ z : ℝ, -1 < z → z < 1 →
      (Spec.part fs (spinWeight coord1 sig) (lmaxOf .real Ntheta) a 0 z t).im = 0) :
    ∃ maps g c', sphereMaps .real 1 (lmaxOf .real Ntheta) Ng 1 0 = some maps ∧
      colatBackwardReal (decide (mmax 1 = 0)) coord0 coord1 sig fs maps (lmaxOf .real Ntheta) Ng (sphereGridRows .real 1) q c = some g ∧
      colatForwardReal (decide (mmax 1 = 0)) coord0 coord1 sig fs maps (lmaxOf .real Ntheta) Ng (sphereGridRows .real 1) q g = some c' ∧
      ∀ t, Spin.Spec.Component sig t → ∀ l, l ≤ lmaxOf .real Ntheta → |spinWeight coord1 sig t| ≤ l →
        c' t 0 l = c t 0 l - c t 1 l ∧ c' t 1 l = c t 1 l + c t 0 l ∧ (c t 0 l ≠ 0 ∨ c t 1 l ≠ 0 → (c' t 0 l, c' t 1 l) ≠ (c t 0 l, c t 1 l)) := by
  have hA : Allowed .real 1 Ntheta := ⟨hNt, Or.inl rfl⟩
  obtain ⟨maps, hm, -⟩ := sphere_order_maps .real 1 Ntheta Ng 1 0 hA (by omega)
  obtain ⟨g, hg1, hg2⟩ := colat_real h hf 1 Ntheta Ng hA hg q hq maps hm a c hc
  have h2 : sphereGridRows .real 1 = 2 := rfl
  obtain ⟨out, ho1, ho2⟩ := colat_real_forward h hf 1 Ntheta Ng hA hg q hq maps hm a (1 + Complex.I) g (fun t ht r x hr hx => by
    obtain ⟨z1, z2⟩ := Sphere.grid_interior Ng (by omega) q hq x hx
    rw [hg2 t ht r x hr hx, if_pos (show mmax 1 = 0 from rfl), wave_zero_real 1 rfl r (by omega)]
    have hi := hreal t ht _ z1 z2
    have : r = 0 ∨ r = 1 := by omega
    rcases this with rfl | rfl <;> simp [Spec.rowPart, hi])
  refine ⟨maps, g, out, hm, hg1, ho1, fun t ht l hl hs => ?_⟩
  have hshape : sphereShape .real 1 (lmaxOf .real Ntheta) = (2, lmaxOf .real Ntheta + 1) := rfl
  have hgroup : ∀ i, i < 2 → sphereGroup .real 1 (lmaxOf .real Ntheta) i l = some (0, (l : Int)) := by
    intro i hi
    unfold sphereGroup Sphere.groupReal
    simp only
    rw [if_neg (by omega), if_pos (by omega)]
  have key : ∀ i, i < 2 → out t i l = Spec.rowPart ((1 + Complex.I) * a t 0 l) i ∧ c t i l = Spec.rowPart (a t 0 l) i := by
    intro i hi
    obtain ⟨m, l', e1, e2⟩ := ho2 t ht i l (by rw [hshape]; exact hi) (by rw [hshape]; omega)
    rw [hgroup i hi] at e1
    cases e1
    rw [e2, if_pos hs]
    exact ⟨rfl, hc t ht i l 0 l (by rw [hshape]; exact hi) (by rw [hshape]; omega) (hgroup i hi)⟩
  obtain ⟨k1, k2⟩ := key 0 (by omega)
  obtain ⟨k3, k4⟩ := key 1 (by omega)
  have f1 : out t 0 l = c t 0 l - c t 1 l := by rw [k1, k2, k4]; simp [Spec.rowPart]
  have f2 : out t 1 l = c t 1 l + c t 0 l := by rw [k3, k2, k4]; simp [Spec.rowPart]
  refine ⟨f1, f2, fun hne e => ?_⟩
  rw [Prod.mk.injEq, f1, f2] at e
  rcases hne with hne | hne
  · exact hne (by linarith [e.2])
  · exact hne (by linarith [e.1])

/-! ## Complex data -/

theorem complex_rows (Nphi Ntheta : Nat) (hA : Allowed .complex Nphi Ntheta) (hz : mmax Nphi ≠ 0) : Nphi % 2 = 0 := by
  rcases hA.2 with rfl | ⟨_, ⟨C, rfl⟩, _⟩
  · exact absurd rfl hz
  · simp only [Dtype.parts]; omega

theorem native_freq (Nphi k : Nat) (he : Nphi % 2 = 0) (hk : k < Nphi) : native .complex Nphi k = Fourier.Spec.freq Nphi k := by
  unfold native Sphere.nativeComplex Fourier.Spec.freq
  simp only [he, Nat.zero_ne_one, if_false]
  split <;> split <;> push_cast <;> omega

theorem resolved_abs {N M : Nat} (hN : M ≤ N) (k : Int) : Fourier.Spec.Resolved N M k ↔ 2 * k.natAbs < M := by
  unfold Fourier.Spec.Resolved
  rw [Int.abs_eq_natAbs]
  omega

theorem wave_zero_complex (Nphi : Nat) (hz : mmax Nphi = 0) : wave .complex Nphi 0 = 0 := by
  unfold wave native perm
  simp only [if_pos hz]
  unfold Sphere.nativeComplex
  simp

theorem temp_complex (Nphi Ntheta Ng : Nat) (h : Allowed .complex Nphi Ntheta) (hg : lmaxOf .complex Ntheta < Ng) (q : Nat → ℝ)
    (hq : Jacobi.GridGuess Ng 0 0 q) (maps : List Entry) (hm : sphereMaps .complex Nphi (lmaxOf .complex Ntheta) Ng 1 0 = some maps)
    (a : List Nat → Int → Int → ℂ) (c : List Nat → Nat → Nat → ℂ) (hc : Spec.HoldsComplex sig Nphi (lmaxOf .complex Ntheta) a c)
    (t : List Nat) (ht : Spin.Spec.Component sig t) (r x : Nat) (hr : r < sphereGridRows .complex Nphi) (hx : x < Ng) :
    Orders.backward maps (lmaxOf .complex Ntheta) (planBackward Ng (lmaxOf .complex Ntheta) (spinWeight coord1 sig t) q) (c t) r x =
      Spec.spinPart (spinWeight coord1 sig) (lmaxOf .complex Ntheta) a (wave .complex Nphi r) (Sphere.grid Ng q x).1 t := by
  obtain ⟨maps', hm', hb, -⟩ := distributed_swsh .complex Nphi Ntheta Ng 1 0 h hg (spinWeight coord1 sig t) q hq ℂ (fun m l _ => a t m l) (c t)
    (fun i r j m l hr hj e => by
      rw [rows_one' _ _ _ h, range_get] at hr
      rw [hr.2] at e
      exact hc t ht i j m l hr.1 hj e)
  rw [hm] at hm'
  cases hm'
  have := hb r r x (by rw [grid_one _ _ _ h, range_get]; exact ⟨hr, rfl⟩) hx
  unfold swshBackward at this
  unfold planBackward
  rw [this]
  unfold Spec.spinPart
  exact Finset.sum_congr rfl fun l _ => by rw [Complex.real_smul]

theorem colat_complex (h : Spin.Spec.Suitable coord0 coord1 sig) (hf : Spin.factors coord1 sig = some fs) (Nphi Ntheta Ng : Nat)
    (hA : Allowed .complex Nphi Ntheta) (hg : lmaxOf .complex Ntheta < Ng) (q : Nat → ℝ)
    (hq : Jacobi.GridGuess Ng 0 0 q) (maps : List Entry) (hm : sphereMaps .complex Nphi (lmaxOf .complex Ntheta) Ng 1 0 = some maps)
    (a : List Nat → Int → Int → ℂ) (c : List Nat → Nat → Nat → ℂ) (hc : Spec.HoldsComplex sig Nphi (lmaxOf .complex Ntheta) a c)
    (t : List Nat) (ht : Spin.Spec.Component sig t) (r x : Nat) (hr : r < sphereGridRows .complex Nphi) (hx : x < Ng) :
    colatBackwardComplex coord1 sig fs maps (lmaxOf .complex Ntheta) Ng q c t r x =
      Spec.part fs (spinWeight coord1 sig) (lmaxOf .complex Ntheta) a (wave .complex Nphi r) (Sphere.grid Ng q x).1 t := by
  unfold colatBackwardComplex Spec.part
  exact backward_congr h hf _ _ (fun t ht => temp_complex Nphi Ntheta Ng hA hg q hq maps hm a c hc t ht r x hr hx) t ht

theorem colat_complex_forward (h : Spin.Spec.Suitable coord0 coord1 sig) (hf : Spin.factors coord1 sig = some fs) (Nphi Ntheta Ng : Nat)
    (hA : Allowed .complex Nphi Ntheta) (hg : lmaxOf .complex Ntheta < Ng) (q : Nat → ℝ)
    (hq : Jacobi.GridGuess Ng 0 0 q) (maps : List Entry) (hm : sphereMaps .complex Nphi (lmaxOf .complex Ntheta) Ng 1 0 = some maps)
    (a : List Nat → Int → Int → ℂ) (g : List Nat → Nat → Nat → ℂ)
    (hgd : ∀ t, Spin.Spec.Component sig t → ∀ r x, r < sphereGridRows .complex Nphi → x < Ng →
      g t r x = Spec.part fs (spinWeight coord1 sig) (lmaxOf .complex Ntheta) a (wave .complex Nphi r) (Sphere.grid Ng q x).1 t)
    (t : List Nat) (ht : Spin.Spec.Component sig t) (i j : Nat) (hi : i < (sphereShape .complex Nphi (lmaxOf .complex Ntheta)).1)
    (hj : j < (sphereShape .complex Nphi (lmaxOf .complex Ntheta)).2) :
    ∃ m l, sphereGroup .complex Nphi (lmaxOf .complex Ntheta) i j = some (m, l) ∧
      colatForwardComplex coord1 sig fs maps (lmaxOf .complex Ntheta) Ng q g t i j = if |spinWeight coord1 sig t| ≤ l then a t m l else 0 := by
  unfold colatForwardComplex
  refine colat_forward .complex Nphi Ntheta Ng 1 0 hA hg _ q hq maps hm (fun m l _ => a t m l) _ ?_ i i j
    (by rw [rows_one' _ _ _ hA, range_get]; exact ⟨hi, rfl⟩) hj
  intro r r' x hr hx
  rw [grid_one _ _ _ hA, range_get] at hr
  obtain ⟨hr, rfl⟩ := hr
  rw [forward_congr h hf _ (Spin.backwardComplex 0 fs (Spec.spinPart (spinWeight coord1 sig) (lmaxOf .complex Ntheta) a (wave .complex Nphi r')
    (Sphere.grid Ng q x).1)) (fun t ht => hgd t ht r' x hr hx) t ht, forward_backward h hf _ t ht]
  unfold Spec.spinPart
  exact Finset.sum_congr rfl fun l _ => by rw [Complex.real_smul]

/-- The azimuthal transform of complex data adds the modes of all orders below the Nyquist order. -/
theorem azimuth_complex (Nphi Ntheta N : Nat) (hA : Allowed .complex Nphi Ntheta) (hz : mmax Nphi ≠ 0) (hN : Nphi ≤ N) (w : Int → ℂ) (c : Nat → ℂ)
    (hc : ∀ r, r < Nphi → c r = w (wave .complex Nphi r)) (j : Nat) :
    azimuthBackwardComplex Nphi N c j = ∑ m ∈ Finset.Icc (-(mmax Nphi : Int)) (mmax Nphi), Fourier.Spec.mode m (Fourier.Spec.grid N j) * w m := by
  have he := complex_rows Nphi Ntheta hA hz
  have hm : mmax Nphi = (Nphi - 1) / 2 := rfl
  unfold azimuthBackwardComplex
  rw [if_neg hz, Fourier.complex_backward_evaluates N Nphi (by omega) (by omega)]
  unfold Fourier.Spec.series
  have e : ∀ k ∈ Finset.range Nphi, (if Fourier.Spec.Resolved N Nphi (Fourier.Spec.freq Nphi k) then c (backPerm .complex Nphi k) else 0) *
      Fourier.Spec.mode (Fourier.Spec.freq Nphi k) (Fourier.Spec.grid N j) =
      if 2 * (Fourier.Spec.freq Nphi k).natAbs < Nphi then
        Fourier.Spec.mode (Fourier.Spec.freq Nphi k) (Fourier.Spec.grid N j) * w (Fourier.Spec.freq Nphi k) else 0 := by
    intro k hk
    have hk := Finset.mem_range.1 hk
    obtain ⟨b1, b2⟩ := backPerm_spec .complex Nphi Ntheta hA hz k hk
    have hw : wave .complex Nphi (backPerm .complex Nphi k) = Fourier.Spec.freq Nphi k := by
      unfold wave
      rw [b2, native_freq Nphi k he hk]
    rw [hc _ b1, hw]
    have hres := resolved_abs hN (Fourier.Spec.freq Nphi k)
    by_cases h1 : 2 * (Fourier.Spec.freq Nphi k).natAbs < Nphi
    · rw [if_pos (hres.2 (by omega)), if_pos h1, mul_comm]
    · rw [if_neg (fun e => h1 (hres.1 e)), if_neg h1, zero_mul]
  rw [Finset.sum_congr rfl e, ← Finset.sum_filter]
  refine Finset.sum_nbij' (fun k => Fourier.Spec.freq Nphi k) (fun m => if 0 ≤ m then m.toNat else (m + Nphi).toNat) ?_ ?_ ?_ ?_ ?_
  · intro k hk
    rw [Finset.mem_filter, Finset.mem_range] at hk
    rw [Finset.mem_Icc]
    omega
  · intro m hm'
    rw [Finset.mem_Icc] at hm'
    rw [Finset.mem_filter, Finset.mem_range]
    unfold Fourier.Spec.freq
    split
    · rw [if_pos (by omega)]; omega
    · rw [if_neg (by omega)]; omega
  · intro k hk
    rw [Finset.mem_filter, Finset.mem_range] at hk
    unfold Fourier.Spec.freq at *
    split at hk
    · rename_i h1
      rw [if_pos h1, if_pos (by omega)]; omega
    · rename_i h1
      rw [if_neg h1, if_neg (by omega)]; omega
  · intro m hm'
    rw [Finset.mem_Icc] at hm'
    unfold Fourier.Spec.freq
    split
    · rw [if_pos (by omega)]; omega
    · rw [if_neg (by omega)]; omega
  · intro k _
    rfl

/-- From rows to the azimuthal grid and back: the Nyquist order is dropped. -/
theorem azimuth_complex_forward (Nphi Ntheta N : Nat) (hA : Allowed .complex Nphi Ntheta) (hz : mmax Nphi ≠ 0) (hN : Nphi ≤ N) (c : Nat → ℂ)
    (r : Nat) (hr : r < Nphi) : azimuthForwardComplex Nphi N (azimuthBackwardComplex Nphi N c) r =
      if 2 * |wave .complex Nphi r| < Nphi then c r else 0 := by
  have he := complex_rows Nphi Ntheta hA hz
  have hp := perm_lt .complex Nphi Ntheta hA hz r hr
  unfold azimuthForwardComplex azimuthBackwardComplex
  rw [if_neg hz, if_neg hz]
  rw [Fourier.complex_round_trip N Nphi (by omega) _ _ hp, backPerm_perm .complex Nphi Ntheta hA hz r hr]
  unfold wave
  rw [native_freq Nphi _ he hp]
  have hres := resolved_abs hN (Fourier.Spec.freq Nphi (perm .complex Nphi r))
  have hab := Int.abs_eq_natAbs (Fourier.Spec.freq Nphi (perm .complex Nphi r))
  by_cases h1 : 2 * |Fourier.Spec.freq Nphi (perm .complex Nphi r)| < Nphi
  · rw [if_pos (hres.2 (by omega)), if_pos h1]
  · rw [if_neg (fun e => h1 (by have := hres.1 e; omega)), if_neg h1]

theorem backward_zero : ∀ (fs : List (Option Spin.Mat)) (i : Nat) (t : List Nat), Spin.backwardComplex i fs (fun _ => 0) t = 0
  | [], _, _ => rfl
  | none :: fs, i, t => by simp only [Spin.backwardComplex]; exact backward_zero fs (i + 1) t
  | some A :: fs, i, t => by
    simp only [Spin.backwardComplex]
    rw [show Spin.applyAxis A.dag i (fun _ => 0) = fun _ => 0 by funext t; simp [Spin.applyAxis]]
    exact backward_zero fs (i + 1) t

/-- C95, complex data: the grid values of a tensor of any rank are the values of the complex field with the given coefficients; the Nyquist order
does not contribute. -/
theorem sphere_values_complex (h : Spin.Spec.Suitable coord0 coord1 sig) (Nphi Ntheta N Ng : Nat) (hA : Allowed .complex Nphi Ntheta)
    (hg : lmaxOf .complex Ntheta < Ng) (hN : Nphi ≤ N) (q : Nat → ℝ) (hq : Jacobi.GridGuess Ng 0 0 q) (a : List Nat → Int → Int → ℂ)
    (c : List Nat → Nat → Nat → ℂ) (hc : Spec.HoldsComplex sig Nphi (lmaxOf .complex Ntheta) a c) :
    ∃ fs u, Spin.factors coord1 sig = some fs ∧ toGridComplex coord1 sig Nphi (lmaxOf .complex Ntheta) N Ng q c = some u ∧
      ∀ t, Spin.Spec.Component sig t → ∀ j x, x < Ng → u t j x =
        Spec.complexValue fs (spinWeight coord1 sig) (lmaxOf .complex Ntheta) (mmax Nphi) a (Sphere.grid Ng q x).1 (Fourier.Spec.grid N j) t := by
  obtain ⟨fs, hf, -⟩ := Spin.spin_round_trip_complex coord0 coord1 sig h
  obtain ⟨maps, hm, -⟩ := sphere_order_maps .complex Nphi Ntheta Ng 1 0 hA (by omega)
  unfold toGridComplex
  rw [hf, hm]
  refine ⟨fs, _, rfl, rfl, fun t ht j x hx => ?_⟩
  beta_reduce
  unfold Spec.complexValue
  by_cases hz : mmax Nphi = 0
  · have h1 : sphereGridRows .complex Nphi = 1 := by unfold sphereGridRows; rw [if_neg (by omega)]; rfl
    unfold azimuthBackwardComplex
    rw [if_pos hz]
    beta_reduce
    rw [colat_complex h hf Nphi Ntheta Ng hA hg q hq maps hm a c hc t ht 0 x (by omega) hx, wave_zero_complex Nphi hz, hz]
    simp [Fourier.Spec.mode]
  · have h1 : sphereGridRows .complex Nphi = Nphi := by unfold sphereGridRows; rw [if_pos (by omega)]
    exact azimuth_complex Nphi Ntheta N hA hz hN
      (fun m => Spec.part fs (spinWeight coord1 sig) (lmaxOf .complex Ntheta) a m (Sphere.grid Ng q x).1 t) _
      (fun r hr => colat_complex h hf Nphi Ntheta Ng hA hg q hq maps hm a c hc t ht r x (by omega) hx) j

/-- C95, complex data: from coefficients to the grid and back. The coefficients of all existing harmonics of orders below the Nyquist order are
returned and the others are zero. -/
theorem sphere_round_trip_complex (h : Spin.Spec.Suitable coord0 coord1 sig) (Nphi Ntheta N Ng : Nat) (hA : Allowed .complex Nphi Ntheta)
    (hg : lmaxOf .complex Ntheta < Ng) (hN : Nphi ≤ N) (q : Nat → ℝ) (hq : Jacobi.GridGuess Ng 0 0 q) (a : List Nat → Int → Int → ℂ)
    (c : List Nat → Nat → Nat → ℂ) (hc : Spec.HoldsComplex sig Nphi (lmaxOf .complex Ntheta) a c) :
    ∃ u c', toGridComplex coord1 sig Nphi (lmaxOf .complex Ntheta) N Ng q c = some u ∧
      toCoeffComplex coord1 sig Nphi (lmaxOf .complex Ntheta) N Ng q u = some c' ∧
      ∀ t, Spin.Spec.Component sig t → ∀ i j, i < (sphereShape .complex Nphi (lmaxOf .complex Ntheta)).1 →
        j < (sphereShape .complex Nphi (lmaxOf .complex Ntheta)).2 →
        ∃ m l, sphereGroup .complex Nphi (lmaxOf .complex Ntheta) i j = some (m, l) ∧
          c' t i j = if |spinWeight coord1 sig t| ≤ l ∧ 2 * |m| < Nphi then c t i j else 0 := by
  obtain ⟨fs, hf, -⟩ := Spin.spin_round_trip_complex coord0 coord1 sig h
  obtain ⟨maps, hm, -⟩ := sphere_order_maps .complex Nphi Ntheta Ng 1 0 hA (by omega)
  have hNphi : 0 < Nphi := by rcases hA.2 with rfl | ⟨h0, _, _⟩ <;> omega
  unfold toGridComplex toCoeffComplex
  rw [hf, hm]
  refine ⟨_, _, rfl, rfl, fun t ht i j hi hj => ?_⟩
  let a' : List Nat → Int → Int → ℂ := fun t m l => if 2 * |m| < Nphi then a t m l else 0
  have hpart : ∀ m z t, Spec.part fs (spinWeight coord1 sig) (lmaxOf .complex Ntheta) a' m z t =
      if 2 * |m| < Nphi then Spec.part fs (spinWeight coord1 sig) (lmaxOf .complex Ntheta) a m z t else 0 := by
    intro m z t
    unfold Spec.part
    by_cases h1 : 2 * |m| < (Nphi : Int)
    · rw [if_pos h1]
      congr 1
      funext t
      simp only [Spec.spinPart, a', if_pos h1]
    · rw [if_neg h1]
      rw [show Spec.spinPart (spinWeight coord1 sig) (lmaxOf .complex Ntheta) a' m z = fun _ => 0 by
        funext t
        simp only [Spec.spinPart, a', if_neg h1, mul_zero, Finset.sum_const_zero]]
      exact backward_zero fs 0 t
  have hgd : ∀ t, Spin.Spec.Component sig t → ∀ r x, r < sphereGridRows .complex Nphi → x < Ng →
      azimuthForwardComplex Nphi N (fun j => azimuthBackwardComplex Nphi N
        (fun i => colatBackwardComplex coord1 sig fs maps (lmaxOf .complex Ntheta) Ng q c t i x) j) r =
        Spec.part fs (spinWeight coord1 sig) (lmaxOf .complex Ntheta) a' (wave .complex Nphi r) (Sphere.grid Ng q x).1 t := by
    intro t ht r x hr hx
    rw [hpart]
    by_cases hz : mmax Nphi = 0
    · have h1 : sphereGridRows .complex Nphi = 1 := by unfold sphereGridRows; rw [if_neg (by omega)]; rfl
      have : r = 0 := by omega
      subst this
      unfold azimuthForwardComplex azimuthBackwardComplex
      rw [if_pos hz, if_pos hz, if_pos (by omega), wave_zero_complex Nphi hz, if_pos (by simp; omega)]
      beta_reduce
      rw [colat_complex h hf Nphi Ntheta Ng hA hg q hq maps hm a c hc t ht 0 x hr hx, wave_zero_complex Nphi hz]
    · have h1 : sphereGridRows .complex Nphi = Nphi := by unfold sphereGridRows; rw [if_pos (by omega)]
      rw [azimuth_complex_forward Nphi Ntheta N hA hz hN _ r (by omega),
        colat_complex h hf Nphi Ntheta Ng hA hg q hq maps hm a c hc t ht r x hr hx]
  obtain ⟨m, l, e1, e2⟩ := colat_complex_forward h hf Nphi Ntheta Ng hA hg q hq maps hm a' _ hgd t ht i j hi hj
  refine ⟨m, l, e1, ?_⟩
  beta_reduce
  rw [e2, hc t ht i j m l hi hj e1]
  simp only [a']
  by_cases h1 : |spinWeight coord1 sig t| ≤ l <;> by_cases h2 : 2 * |m| < (Nphi : Int) <;> simp [h1, h2]

end

/-! ## Spins -/

/-- C95: the spin weights by which the transforms of the components are chosen. -/
theorem spin_weights {coord0 coord1 : Spin.Coord} {sig : List Spin.Index} (h : Spin.Spec.Suitable coord0 coord1 sig) (t : List Nat) :
    spinWeight coord1 sig t = Spec.spin coord0 coord1 sig t := by
  obtain ⟨h0, h1, h2⟩ := h
  unfold Spec.spin
  induction sig generalizing t with
  | nil => rfl
  | cons ix sig ih =>
    cases t with
    | nil => rfl
    | cons x t =>
      rw [spinWeight, ih t (fun i hi => h2 i (List.mem_cons_of_mem _ hi)), List.zip_cons_cons, List.map_cons, List.sum_cons]
      congr 1
      unfold indexSpin Spec.indexSpin
      rcases h2 ix List.mem_cons_self with hn | hc
      · simp only [hn, if_true]
      · obtain ⟨s, -, i0, i1, -⟩ := Spin.carries_index h0 h1 hc
        simp only [i0, i1, reduceCtorEq, if_false, Option.some.injEq]
        split_ifs <;> omega

/-! ## Scalars and vectors -/

/-- The part of order `m` of a scalar. -/
theorem sphere_scalar_part (coord1 : Spin.Coord) (L : Nat) (a : List Nat → Int → Int → ℂ) (m : Int) (z : ℝ) :
    Spin.factors coord1 [] = some [] ∧ Spec.part [] (spinWeight coord1 []) L a m z [] =
      ∑ l ∈ Finset.Ico m.natAbs (L + 1), (Sphere.Spec.Y l m 0 z : ℝ) * a [] m l := by
  refine ⟨rfl, ?_⟩
  show ∑ l ∈ Finset.Ico (max m.natAbs 0) (L + 1), ((Sphere.Spec.Y l m 0 z : ℝ) : ℂ) * a [] m l = _
  rw [Nat.max_zero]

/-- The part of order `m` of a tangent vector: the coefficients of the first component belong to harmonics of spin -1, those of the second to spin +1;
with `u∓` these sums, the azimuthal component is `i (u- - u+) / √2` and the colatitudinal one `(u- + u+) / √2`. -/
theorem sphere_vector_part (phi theta : Spin.Coord) (h0 : phi.azimuthal = true) (h1 : theta.azimuthal = false) (L : Nat)
    (a : List Nat → Int → Int → ℂ) (m : Int) (z : ℝ) :
    let sig := [Spin.Index.single (.s2 phi theta)]
    ∃ fs, Spin.factors theta sig = some fs ∧
      ∃ um up : ℂ, um = ∑ l ∈ Finset.Ico (max m.natAbs 1) (L + 1), (Sphere.Spec.Y l m (-1) z : ℝ) * a [0] m l ∧
        up = ∑ l ∈ Finset.Ico (max m.natAbs 1) (L + 1), (Sphere.Spec.Y l m 1 z : ℝ) * a [1] m l ∧
        Spec.part fs (spinWeight theta sig) L a m z [0] = Complex.I * (um - up) / (√2 : ℝ) ∧
        Spec.part fs (spinWeight theta sig) L a m z [1] = (um + up) / (√2 : ℝ) := by
  intro sig
  have hne : phi ≠ theta := by intro e; rw [e, h1] at h0; exact absurd h0 (by simp)
  have hix : Spin.indexOf theta (Spin.Index.single (.s2 phi theta)).coords = some 1 := by
    simp [Spin.indexOf, Spin.Index.coords, Spin.Cs.coords, Spin.Coord.eq, List.findIdx?_cons, h0, h1]
  have hf : Spin.factors theta sig = some [some Spin.uForward] := by
    simp only [sig, Spin.factors, hix]
    rfl
  have w0 : spinWeight theta sig [0] = -1 := by simp [sig, spinWeight, indexSpin, hix]
  have w1 : spinWeight theta sig [1] = 1 := by simp [sig, spinWeight, indexSpin, hix]
  refine ⟨_, hf, _, _, rfl, rfl, ?_, ?_⟩
  · unfold Spec.part
    simp only [Spin.backwardComplex, Spin.applyAxis, Spin.Mat.dag, Spin.uForward, Finset.sum_range_succ, Finset.sum_range_zero]
    simp [Spec.spinPart, w0, w1]
    ring
  · unfold Spec.part
    simp only [Spin.backwardComplex, Spin.applyAxis, Spin.Mat.dag, Spin.uForward, Finset.sum_range_succ, Finset.sum_range_zero]
    simp [Spec.spinPart, w0, w1]
    ring

/-! ## The hypotheses are met -/

/-- Tensors over the sphere, over a space around it and over other systems are suitable. -/
example : Spin.Spec.Suitable ⟨true, "phi", 0⟩ ⟨false, "theta", 1⟩ [.single (.s2 ⟨true, "phi", 0⟩ ⟨false, "theta", 1⟩),
    .single (.spherical ⟨true, "phi", 0⟩ ⟨false, "theta", 1⟩ ⟨false, "r", 2⟩), .single (.cartesian [⟨false, "x", 3⟩, ⟨false, "y", 4⟩])] := by
  refine ⟨rfl, rfl, fun ix hix => ?_⟩
  simp only [List.mem_cons, List.not_mem_nil, or_false] at hix
  rcases hix with rfl | rfl | rfl
  · exact .inr (.pair _ ⟨rfl, rfl⟩)
  · exact .inr (.spherical _ _ _ rfl rfl)
  · exact .inl rfl

/-- Any coefficients can be stored. -/
example (sig : List Spin.Index) (Nphi L : Nat) (a : List Nat → Int → Int → ℂ) : ∃ c, Spec.HoldsReal sig Nphi L a c :=
  ⟨fun t i j => ((sphereGroup .real Nphi L i j).map fun g => Spec.rowPart (a t g.1 g.2) i).getD 0, fun t _ i j m l _ _ e => by beta_reduce; rw [e]; rfl⟩

example (sig : List Spin.Index) (Nphi L : Nat) (a : List Nat → Int → Int → ℂ) : ∃ c, Spec.HoldsComplex sig Nphi L a c :=
  ⟨fun t i j => ((sphereGroup .complex Nphi L i j).map fun g => a t g.1 g.2).getD 0, fun t _ i j m l _ _ e => by beta_reduce; rw [e]; rfl⟩

/-- The part of order zero is real for every scalar whose coefficients of order zero are. -/
example (coord1 : Spin.Coord) (L : Nat) (x : List Nat → Int → Int → ℂ) (z : ℝ) :
    (Spec.part [] (spinWeight coord1 []) L (fun t m l => if m = 0 then ((x t m l).re : ℂ) else x t m l) 0 z []).im = 0 := by
  rw [(sphere_scalar_part coord1 L _ 0 z).2, Complex.im_sum]
  refine Finset.sum_eq_zero fun l _ => ?_
  rw [Complex.im_ofReal_mul, if_pos rfl, Complex.ofReal_im, mul_zero]

example : Allowed .real 16 8 ∧ lmaxOf .real 8 < 12 ∧ 16 ≤ 24 ∧ (∃ q, Jacobi.GridGuess 12 0 0 q) :=
  ⟨⟨by decide, Or.inr ⟨by decide, by decide, by decide⟩⟩, by decide, by decide, Jacobi.guess_exists 12 0 0 (by norm_num) (by norm_num)⟩

end Dedalus.SphereField
