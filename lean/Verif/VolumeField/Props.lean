import Verif.VolumeField.Plans
import Verif.Zernike.Props

/-! Properties of the transforms of tensor fields in the ball and the shell. -/

namespace Dedalus.VolumeField
open Orders SphereField

/-! ## Plans of the ball -/

section
variable {V : Type} [AddCommGroup V] [Module ℝ V]

theorem forward_loop (before : Bool) (maps : List Maps.Entry) (Ng Nr k : Nat) (alpha : ℝ) (g : Nat → ℝ) (t : List Nat) (u : Nat → Nat → Nat → V) (i j : Nat)
    (out : Nat → Nat → Nat → V) :
    maps.foldl (fun out e => fun i j =>
      if e.covers i j then fun n =>
        if (Zernike.minDegree e.ell).toNat ≤ n then
          Zernike.ballForward before Ng Nr k alpha e.ell.toNat (regs t) g (u i j) (n - (Zernike.minDegree e.ell).toNat)
        else out i j n
      else out i j) out i j =
      (Maps.visits maps i j).foldl (fun old ell n => if (Zernike.minDegree ell).toNat ≤ n then
          Zernike.ballForward before Ng Nr k alpha ell.toNat (regs t) g (u i j) (n - (Zernike.minDegree ell).toNat) else old n) (out i j) := by
  unfold Maps.visits
  induction maps generalizing out with
  | nil => rfl
  | cons e l ih =>
    rw [List.foldl_cons, ih]
    by_cases hc : e.covers i j = true
    · rw [if_pos hc, List.filter_cons, if_pos hc]; rfl
    · rw [if_neg hc, List.filter_cons, if_neg hc]

theorem minDegree_toNat (ell : Int) : (Zernike.minDegree ell).toNat = ell.toNat / 2 := by unfold Zernike.minDegree; omega

theorem ball_back (maps : List Maps.Entry) (deg : Nat → Nat → Int) (R C : Nat) (hp : Maps.Partition maps deg R C) (rank Nr Ng k : Nat) (alpha : ℝ)
    (g : Nat → ℝ) (ha : -1 < alpha) (hN : 0 < Ng) (hg : Jacobi.GridGuess Ng alpha (1 / 2) g) (t : List Nat) (ht : Valid rank t) (c : Nat → Nat → Nat → V)
    (i j x : Nat) (hi : i < R) (hj : j < C) (hx : x < Ng) :
    ballBackward maps Ng Nr k alpha g t c i j x =
      series (Spec.ballMode Ng (alpha + k)) Nr (deg i j).toNat (Zernike.radiusGrid 3 Ng alpha g x) t (c i j) := by
  classical
  unfold ballBackward
  rw [(Maps.own_degree maps deg R C hp (V := Nat → V) (W := Nat → V) (fun _ v => v)
    (fun ell v => Zernike.ballBackward Ng Nr k alpha ell.toNat (regs t) g fun n => v ((Zernike.minDegree ell).toNat + n)) c (fun _ _ _ => 0) i j hi hj).2.2]
  simp only [minDegree_toNat]
  generalize (deg i j).toNat = l
  unfold series
  by_cases hal : Regularity.Spec.Allowed l (regs t)
  · obtain ⟨-, l', hl', e⟩ := Zernike.ball_backward_evaluates Ng Nr k alpha l rank (regs t) (regs_component ht) hal g ha hN hg (fun n => c i j (l / 2 + n)) x hx
    rw [e, PolarField.sum_min, PolarField.sum_shift Nr (l / 2)]
    · refine Finset.sum_congr rfl fun n _ => ?_
      unfold Spec.ballMode
      have e1 : l / 2 + n - l / 2 = n := by omega
      have e2 : ((l : Int) + (regs t).sum).toNat = l' := by omega
      by_cases h1 : n < Ng - l' / 2
      · rw [if_pos h1, if_pos ⟨hal, by omega, by push_cast; omega⟩, e1, e2]
      · rw [if_neg h1, if_neg (fun e => h1 (by have := e.2.2; push_cast at this; omega)), zero_smul]
    · intro n hn
      unfold Spec.ballMode
      rw [if_neg (fun e => by have := e.2.1; omega), zero_smul]
  · have hf : Regularity.forbiddenRegularity l (regs t) = true := by
      by_contra hcon
      exact hal ((Regularity.forbidden_regularity_correct l rank (regs t) (regs_component ht)).1 (by simpa using hcon))
    have hne : regs t ≠ [] := by
      intro e
      rw [e] at hal
      exact hal ((Regularity.allowed_spec l []).1 rfl)
    unfold Zernike.ballBackward
    rw [if_pos ⟨hne, hf⟩]
    refine (Finset.sum_eq_zero fun n _ => ?_).symm
    unfold Spec.ballMode
    rw [if_neg (fun e => hal e.1), zero_smul]

/-- the coefficients that the radial transforms keep -/
def ballKept (Ng : Nat) (reg : List Int) (l n : Nat) : Prop :=
  Regularity.Spec.Allowed l reg ∧ l / 2 ≤ n ∧ (l : Int) + reg.sum + 2 * ((n : Int) - (l / 2 : Nat)) < 2 * (Ng : Int)

theorem ball_forw (before : Bool) (maps : List Maps.Entry) (deg : Nat → Nat → Int) (R C : Nat) (hp : Maps.Partition maps deg R C) (rank Nr Ng k : Nat)
    (alpha : ℝ) (g : Nat → ℝ) (ha : -1 < alpha) (hN : 0 < Ng) (hg : Jacobi.GridGuess Ng alpha (1 / 2) g) (t : List Nat) (ht : Valid rank t)
    (u b : Nat → Nat → Nat → V) (i j n : Nat) (hi : i < R) (hj : j < C) (hn : n < Nr)
    (hu : ∀ x, x < Ng → u i j x = series (Spec.ballMode Ng (alpha + k)) Nr (deg i j).toNat (Zernike.radiusGrid 3 Ng alpha g x) t (b i j)) :
    open Classical in
    ballForward before maps Ng Nr k alpha g t u i j n = if ballKept Ng (regs t) (deg i j).toNat n then b i j n else 0 := by
  classical
  unfold ballForward
  rw [forward_loop, hp.1 i j hi hj]
  simp only [List.foldl_cons, List.foldl_nil, minDegree_toNat]
  generalize hl : (deg i j).toNat = l at hu ⊢
  unfold ballKept
  by_cases hal : Regularity.Spec.Allowed l (regs t)
  · by_cases h1 : l / 2 ≤ n
    · rw [if_pos h1]
      have h2 := Regularity.allowed_sum l (regs t) ((Regularity.forbidden_iff l (regs t) (regs_component ht).2).1
        ((Regularity.forbidden_regularity_correct l rank (regs t) (regs_component ht)).2 hal))
      obtain ⟨l', hl'⟩ := Int.eq_ofNat_of_zero_le h2
      rw [Zernike.ball_forward_exact before Ng Nr k alpha l rank (regs t) (regs_component ht) hal g ha hN hg l' hl'.symm (min (Nr - l / 2) (Ng - l' / 2))
        (Nat.min_le_left _ _) (Nat.min_le_right _ _) (fun n => b i j (l / 2 + n)) (u i j) (fun x hx => ?_) (n - l / 2) (by omega)]
      · have e1 : l / 2 + (n - l / 2) = n := by omega
        rw [e1]
        by_cases h3 : n - l / 2 < min (Nr - l / 2) (Ng - l' / 2)
        · rw [if_pos h3, if_pos ⟨hal, h1, by omega⟩]
        · rw [if_neg h3, if_neg (fun e => h3 (by have := e.2.2; omega))]
      · rw [hu x hx]
        unfold series
        rw [PolarField.sum_min, PolarField.sum_shift Nr (l / 2)]
        · refine Finset.sum_congr rfl fun n _ => ?_
          unfold Spec.ballMode
          have e1 : l / 2 + n - l / 2 = n := by omega
          have e2 : ((l : Int) + (regs t).sum).toNat = l' := by omega
          by_cases h1 : n < Ng - l' / 2
          · rw [if_pos h1, if_pos ⟨hal, by omega, by push_cast; omega⟩, e1, e2]
          · rw [if_neg h1, if_neg (fun e => h1 (by have := e.2.2; push_cast at this; omega)), zero_smul]
        · intro n hn
          unfold Spec.ballMode
          rw [if_neg (fun e => by have := e.2.1; omega), zero_smul]
    · rw [if_neg h1, if_neg (fun e => h1 e.2.1)]
  · have hf : Regularity.forbiddenRegularity l (regs t) = true := by
      by_contra hcon
      exact hal ((Regularity.forbidden_regularity_correct l rank (regs t) (regs_component ht)).1 (by simpa using hcon))
    have hne : regs t ≠ [] := by
      intro e
      rw [e] at hal
      exact hal ((Regularity.allowed_spec l []).1 rfl)
    rw [if_neg (show ¬(Regularity.Spec.Allowed l (regs t) ∧ _ ∧ _) from fun e => hal e.1)]
    unfold Zernike.ballForward
    split
    · rw [if_pos ⟨hne, hf⟩]
    · rfl

theorem ball_ready (d : Dtype) (rank Nphi L Nr : Nat) (h : rank ≤ 2 * Nr + 2) : ballReady d rank Nphi L Nr = some () := by
  unfold ballReady
  rw [if_pos]
  rw [List.all_eq_true]
  intro t ht
  have htv := (mem_indices rank t).1 ht
  unfold ballBuilds
  rw [List.all_eq_true]
  intro e _
  by_cases h1 : Regularity.forbiddenRegularity e.ell.toNat (regs t) = true
  · have : e.ell.toNat < rank := by
      unfold Regularity.forbiddenRegularity at h1
      by_contra hcon
      rw [if_pos (by have := (regs_component htv).1; omega)] at h1
      exact absurd h1 (by simp)
    have h2 : Zernike.minDegree e.ell ≤ (Nr : Int) := by unfold Zernike.minDegree; omega
    simp [h2]
  · simp [h1]

end

section
variable {phi theta r : Spin.Coord} {sig : List Spin.Index}

/-- C98: the grid values of a real tensor field in the ball. -/
theorem ball_values_real_partial (h0 : phi.azimuthal = true) (h1 : theta.azimuthal = false) (hsig : ∀ ix ∈ sig, ix = .single (.spherical phi theta r))
    (Nphi Ntheta Nr k : Nat) (alpha : ℝ) (N Nt Ng : Nat) (hA : Orders.Spec.Allowed .real Nphi Ntheta) (hs : Spec.Separated .real Nphi (lmaxOf .real Ntheta))
    (hrank : sig.length ≤ 2 * Nr + 2) (hNt : lmaxOf .real Ntheta < Nt) (hN : Nphi ≤ N) (q : Nat → ℝ) (hq : Jacobi.GridGuess Nt 0 0 q) (g : Nat → ℝ)
    (ha : -1 < alpha) (hNg : 0 < Ng) (hg : Jacobi.GridGuess Ng alpha (1 / 2) g) (A : List Nat → Int → Int → Nat → ℂ) (c : List Nat → Nat → Nat → Nat → ℝ)
    (hc : Spec.HoldsReal sig Nphi (lmaxOf .real Ntheta) Nr A c) :
    ∃ fs u, Spin.factors theta sig = some fs ∧ ballToGridReal phi theta r sig Nphi (lmaxOf .real Ntheta) Nr k alpha N Nt Ng q g c = some u ∧
      ∀ t, Spin.Spec.Component sig t → ∀ x j y, x < Ng → y < Nt → u x t j y =
        SphereField.Spec.realValue fs (spinWeight theta sig) (lmaxOf .real Ntheta) (mmax Nphi)
          (Spec.spinCoefficient (Spec.ballMode Ng (alpha + k)) sig.length Nr A (Zernike.radiusGrid 3 Ng alpha g x))
          (Sphere.grid Nt q y).1 (Fourier.Spec.grid N j) t := by
  unfold ballToGridReal
  rw [ball_ready _ _ _ _ _ hrank]
  refine values_real h0 h1 hsig hA (fun _ => hs) N Nt Nr Ng hNt hN q hq _ _ _ _ A c hc (fun t ht i j x hi hj hx => ?_)
  rw [one_smul]
  exact ball_back _ _ _ _ (degrees hA hs) sig.length Nr Ng k alpha g ha hNg hg t ht (c t) i j x hi hj hx

/-- C98: the grid values of a complex tensor field in the ball. -/
theorem ball_values_complex_partial (h0 : phi.azimuthal = true) (h1 : theta.azimuthal = false) (hsig : ∀ ix ∈ sig, ix = .single (.spherical phi theta r))
    (Nphi Ntheta Nr k : Nat) (alpha : ℝ) (N Nt Ng : Nat) (hA : Orders.Spec.Allowed .complex Nphi Ntheta)
    (hs : Spec.Separated .complex Nphi (lmaxOf .complex Ntheta))
    (hrank : sig.length ≤ 2 * Nr + 2) (hNt : lmaxOf .complex Ntheta < Nt) (hN : Nphi ≤ N) (q : Nat → ℝ) (hq : Jacobi.GridGuess Nt 0 0 q) (g : Nat → ℝ)
    (ha : -1 < alpha) (hNg : 0 < Ng) (hg : Jacobi.GridGuess Ng alpha (1 / 2) g) (A : List Nat → Int → Int → Nat → ℂ) (c : List Nat → Nat → Nat → Nat → ℂ)
    (hc : Spec.HoldsComplex sig Nphi (lmaxOf .complex Ntheta) Nr A c) :
    ∃ fs u, Spin.factors theta sig = some fs ∧ ballToGridComplex phi theta r sig Nphi (lmaxOf .complex Ntheta) Nr k alpha N Nt Ng q g c = some u ∧
      ∀ t, Spin.Spec.Component sig t → ∀ x j y, x < Ng → y < Nt → u x t j y =
        SphereField.Spec.complexValue fs (spinWeight theta sig) (lmaxOf .complex Ntheta) (mmax Nphi)
          (Spec.spinCoefficient (Spec.ballMode Ng (alpha + k)) sig.length Nr A (Zernike.radiusGrid 3 Ng alpha g x))
          (Sphere.grid Nt q y).1 (Fourier.Spec.grid N j) t := by
  unfold ballToGridComplex
  rw [ball_ready _ _ _ _ _ hrank]
  refine values_complex h0 h1 hsig hA (fun _ => hs) N Nt Nr Ng hNt hN q hq _ _ _ _ A c hc (fun t ht i j x hi hj hx => ?_)
  rw [one_smul]
  exact ball_back _ _ _ _ (degrees hA hs) sig.length Nr Ng k alpha g ha hNg hg t ht (c t) i j x hi hj hx

/-- C98: coefficients of a real tensor field in the ball, to the grid and back. Those of allowed regularities, from `n = l / 2` on and of radial degrees
below twice the number of radii are unchanged, the others become zero. -/
theorem ball_round_trip_real_partial (before : Bool) (h0 : phi.azimuthal = true) (h1 : theta.azimuthal = false)
    (hsig : ∀ ix ∈ sig, ix = .single (.spherical phi theta r)) (Nphi Ntheta Nr k : Nat) (alpha : ℝ) (N Nt Ng : Nat)
    (hA : Orders.Spec.Allowed .real Nphi Ntheta) (hs : Spec.Separated .real Nphi (lmaxOf .real Ntheta))
    (hrank : sig.length ≤ 2 * Nr + 2) (hNt : lmaxOf .real Ntheta < Nt) (hN : Nphi ≤ N) (q : Nat → ℝ) (hq : Jacobi.GridGuess Nt 0 0 q) (g : Nat → ℝ)
    (ha : -1 < alpha) (hNg : 0 < Ng) (hg : Jacobi.GridGuess Ng alpha (1 / 2) g) (A : List Nat → Int → Int → Nat → ℂ) (c : List Nat → Nat → Nat → Nat → ℝ)
    (hc : Spec.HoldsReal sig Nphi (lmaxOf .real Ntheta) Nr A c)
    (hreal : ∀ fs, Spin.factors theta sig = some fs → ∀ t, Spin.Spec.Component sig t → ∀ rho z : ℝ, 0 < rho → rho < 1 → -1 < z → z < 1 →
      (SphereField.Spec.part fs (spinWeight theta sig) (lmaxOf .real Ntheta)
        (Spec.spinCoefficient (Spec.ballMode Ng (alpha + k)) sig.length Nr A rho) 0 z t).im = 0) :
    ∃ u c', ballToGridReal phi theta r sig Nphi (lmaxOf .real Ntheta) Nr k alpha N Nt Ng q g c = some u ∧
      ballToCoeffReal before phi theta r sig Nphi (lmaxOf .real Ntheta) Nr k alpha N Nt Ng q g u = some c' ∧
      ∀ t, Spin.Spec.Component sig t → ∀ i j n, i < (sphereShape .real Nphi (lmaxOf .real Ntheta)).1 → j < (sphereShape .real Nphi (lmaxOf .real Ntheta)).2 →
        n < Nr → ∃ (m : Int) (l : Nat), sphereGroup .real Nphi (lmaxOf .real Ntheta) i j = some (m, (l : Int)) ∧
          open Classical in
          c' t i j n = if Regularity.Spec.Allowed l (Spec.numbers t) ∧ l / 2 ≤ n ∧
            (l : Int) + (Spec.numbers t).sum + 2 * ((n : Int) - (l / 2 : Nat)) < 2 * (Ng : Int) then c t i j n else 0 := by
  classical
  unfold ballToGridReal ballToCoeffReal
  rw [ball_ready _ _ _ _ _ hrank]
  obtain ⟨u, c', hu, hc', h⟩ := round_trip_real h0 h1 hsig hA (fun _ => hs) N Nt Nr Ng hNt hN q hq
    (ballBackward (ellMaps .real Nphi (lmaxOf .real Ntheta)) Ng Nr k alpha g) (ballForward before (ellMaps .real Nphi (lmaxOf .real Ntheta)) Ng Nr k alpha g)
    (fun _ => 1) (fun _ => 1) (Zernike.radiusGrid 3 Ng alpha g) (Spec.ballMode Ng (alpha + k)) (ballKept Ng) A c hc
    (fun t ht i j x hi hj hx => by
      rw [one_smul]
      exact ball_back _ _ _ _ (degrees hA hs) sig.length Nr Ng k alpha g ha hNg hg t ht (c t) i j x hi hj hx)
    (fun t ht u b hu i j n hi hj hn => by
      exact ball_forw before _ _ _ _ (degrees hA hs) sig.length Nr Ng k alpha g ha hNg hg t ht u b i j n hi hj hn
        (fun x hx => by rw [hu i j x hi hj hx, one_smul]))
    (fun fs hfs t ht x z hx hz hz' => by
      have hg' : Jacobi.GridGuess Ng alpha (((3 : Nat) : ℝ) / 2 - 1) g := by
        rw [show ((3 : Nat) : ℝ) / 2 - 1 = 1 / 2 by norm_num]; exact hg
      obtain ⟨hr1, hr2, -⟩ := Zernike.grid_eq 3 Ng alpha g (by norm_num) ha hNg hg' x hx
      exact hreal fs hfs t ht _ z hr1 hr2 hz hz')
  refine ⟨u, c', hu, hc', fun t ht i j n hi hj hn => ?_⟩
  obtain ⟨m, l, e1, e2⟩ := h t ht i j n hi hj hn
  refine ⟨m, l, e1, ?_⟩
  rw [e2]
  unfold ballKept
  simp only [← and_assoc, and_self]

/-- C98: the same for complex tensor fields; the order `Nphi / 2`, which the azimuthal grid does not resolve, is dropped too. -/
theorem ball_round_trip_complex_partial (before : Bool) (h0 : phi.azimuthal = true) (h1 : theta.azimuthal = false)
    (hsig : ∀ ix ∈ sig, ix = .single (.spherical phi theta r)) (Nphi Ntheta Nr k : Nat) (alpha : ℝ) (N Nt Ng : Nat)
    (hA : Orders.Spec.Allowed .complex Nphi Ntheta) (hs : Spec.Separated .complex Nphi (lmaxOf .complex Ntheta))
    (hrank : sig.length ≤ 2 * Nr + 2) (hNt : lmaxOf .complex Ntheta < Nt) (hN : Nphi ≤ N) (q : Nat → ℝ) (hq : Jacobi.GridGuess Nt 0 0 q) (g : Nat → ℝ)
    (ha : -1 < alpha) (hNg : 0 < Ng) (hg : Jacobi.GridGuess Ng alpha (1 / 2) g) (A : List Nat → Int → Int → Nat → ℂ) (c : List Nat → Nat → Nat → Nat → ℂ)
    (hc : Spec.HoldsComplex sig Nphi (lmaxOf .complex Ntheta) Nr A c) :
    ∃ u c', ballToGridComplex phi theta r sig Nphi (lmaxOf .complex Ntheta) Nr k alpha N Nt Ng q g c = some u ∧
      ballToCoeffComplex before phi theta r sig Nphi (lmaxOf .complex Ntheta) Nr k alpha N Nt Ng q g u = some c' ∧
      ∀ t, Spin.Spec.Component sig t → ∀ i j n, i < (sphereShape .complex Nphi (lmaxOf .complex Ntheta)).1 →
        j < (sphereShape .complex Nphi (lmaxOf .complex Ntheta)).2 →
        n < Nr → ∃ (m : Int) (l : Nat), sphereGroup .complex Nphi (lmaxOf .complex Ntheta) i j = some (m, (l : Int)) ∧
          open Classical in
          c' t i j n = if Regularity.Spec.Allowed l (Spec.numbers t) ∧ (l / 2 ≤ n ∧
            (l : Int) + (Spec.numbers t).sum + 2 * ((n : Int) - (l / 2 : Nat)) < 2 * (Ng : Int)) ∧ 2 * |m| < Nphi then c t i j n else 0 := by
  classical
  unfold ballToGridComplex ballToCoeffComplex
  rw [ball_ready _ _ _ _ _ hrank]
  obtain ⟨u, c', hu, hc', h⟩ := round_trip_complex h0 h1 hsig hA (fun _ => hs) N Nt Nr Ng hNt hN q hq
    (ballBackward (ellMaps .complex Nphi (lmaxOf .complex Ntheta)) Ng Nr k alpha g)
    (ballForward before (ellMaps .complex Nphi (lmaxOf .complex Ntheta)) Ng Nr k alpha g)
    (fun _ => 1) (fun _ => 1) (Zernike.radiusGrid 3 Ng alpha g) (Spec.ballMode Ng (alpha + k)) (ballKept Ng) A c hc
    (fun t ht i j x hi hj hx => by
      rw [one_smul]
      exact ball_back _ _ _ _ (degrees hA hs) sig.length Nr Ng k alpha g ha hNg hg t ht (c t) i j x hi hj hx)
    (fun t ht u b hu i j n hi hj hn => by
      exact ball_forw before _ _ _ _ (degrees hA hs) sig.length Nr Ng k alpha g ha hNg hg t ht u b i j n hi hj hn
        (fun x hx => by rw [hu i j x hi hj hx, one_smul]))
  refine ⟨u, c', hu, hc', fun t ht i j n hi hj hn => ?_⟩
  obtain ⟨m, l, e1, e2⟩ := h t ht i j n hi hj hn
  refine ⟨m, l, e1, ?_⟩
  rw [e2]
  unfold ballKept
  simp only [← and_assoc, and_self]

/-! ## Shell -/

/-- C98: the grid values of a real tensor field in the shell. -/
theorem shell_values_real_partial (h0 : phi.azimuthal = true) (h1 : theta.azimuthal = false) (hsig : ∀ ix ∈ sig, ix = .single (.spherical phi theta r))
    (rin rout : ℝ) (hr : rin < rout) (Nphi Ntheta Nr k : Nat) (alpha : ℝ × ℝ) (N Nt Ng : Nat) (hA : Orders.Spec.Allowed .real Nphi Ntheta)
    (hs : 0 < sig.length → Spec.Separated .real Nphi (lmaxOf .real Ntheta)) (hNt : lmaxOf .real Ntheta < Nt) (hN : Nphi ≤ N) (q : Nat → ℝ)
    (hq : Jacobi.GridGuess Nt 0 0 q) (g : Nat → ℝ) (ha : -1 < alpha.1) (hb : -1 < alpha.2) (hg : Jacobi.GridGuess Ng alpha.1 alpha.2 g)
    (A : List Nat → Int → Int → Nat → ℂ) (c : List Nat → Nat → Nat → Nat → ℝ) (hc : Spec.HoldsReal sig Nphi (lmaxOf .real Ntheta) Nr A c) :
    ∃ fs u, Spin.factors theta sig = some fs ∧ shellToGridReal phi theta r sig rin rout Nphi (lmaxOf .real Ntheta) Nr k alpha N Nt Ng q g c = some u ∧
      ∀ t, Spin.Spec.Component sig t → ∀ x j y, x < Ng → y < Nt → u x t j y =
        SphereField.Spec.realValue fs (spinWeight theta sig) (lmaxOf .real Ntheta) (mmax Nphi)
          (Spec.spinCoefficient (Spec.shellMode Ng rin rout alpha k) sig.length Nr A (Shell.radiusGrid rin rout alpha Ng g x))
          (Sphere.grid Nt q y).1 (Fourier.Spec.grid N j) t :=
  values_real h0 h1 hsig hA hs N Nt Nr Ng hNt hN q hq _ _ _ _ A c hc fun t _ i j x _ _ hx =>
    PolarField.annulus_back rin rout hr alpha ha hb Ng Nr k g hg (c t i) j x hx

/-- C98: the grid values of a complex tensor field in the shell. -/
theorem shell_values_complex_partial (h0 : phi.azimuthal = true) (h1 : theta.azimuthal = false) (hsig : ∀ ix ∈ sig, ix = .single (.spherical phi theta r))
    (rin rout : ℝ) (hr : rin < rout) (Nphi Ntheta Nr k : Nat) (alpha : ℝ × ℝ) (N Nt Ng : Nat) (hA : Orders.Spec.Allowed .complex Nphi Ntheta)
    (hs : 0 < sig.length → Spec.Separated .complex Nphi (lmaxOf .complex Ntheta)) (hNt : lmaxOf .complex Ntheta < Nt) (hN : Nphi ≤ N) (q : Nat → ℝ)
    (hq : Jacobi.GridGuess Nt 0 0 q) (g : Nat → ℝ) (ha : -1 < alpha.1) (hb : -1 < alpha.2) (hg : Jacobi.GridGuess Ng alpha.1 alpha.2 g)
    (A : List Nat → Int → Int → Nat → ℂ) (c : List Nat → Nat → Nat → Nat → ℂ) (hc : Spec.HoldsComplex sig Nphi (lmaxOf .complex Ntheta) Nr A c) :
    ∃ fs u, Spin.factors theta sig = some fs ∧ shellToGridComplex phi theta r sig rin rout Nphi (lmaxOf .complex Ntheta) Nr k alpha N Nt Ng q g c = some u ∧
      ∀ t, Spin.Spec.Component sig t → ∀ x j y, x < Ng → y < Nt → u x t j y =
        SphereField.Spec.complexValue fs (spinWeight theta sig) (lmaxOf .complex Ntheta) (mmax Nphi)
          (Spec.spinCoefficient (Spec.shellMode Ng rin rout alpha k) sig.length Nr A (Shell.radiusGrid rin rout alpha Ng g x))
          (Sphere.grid Nt q y).1 (Fourier.Spec.grid N j) t :=
  values_complex h0 h1 hsig hA hs N Nt Nr Ng hNt hN q hq _ _ _ _ A c hc fun t _ i j x _ _ hx =>
    PolarField.annulus_back rin rout hr alpha ha hb Ng Nr k g hg (c t i) j x hx

/-- C98: coefficients of a real tensor field in the shell, to the grid and back. -/
theorem shell_round_trip_real_partial (before : Bool) (h0 : phi.azimuthal = true) (h1 : theta.azimuthal = false)
    (hsig : ∀ ix ∈ sig, ix = .single (.spherical phi theta r)) (rin rout : ℝ) (hr0 : 0 < rin) (hr : rin < rout) (Nphi Ntheta Nr k : Nat) (alpha : ℝ × ℝ)
    (N Nt Ng : Nat) (hA : Orders.Spec.Allowed .real Nphi Ntheta) (hs : 0 < sig.length → Spec.Separated .real Nphi (lmaxOf .real Ntheta))
    (hNt : lmaxOf .real Ntheta < Nt) (hN : Nphi ≤ N) (hNg : 0 < Ng) (q : Nat → ℝ) (hq : Jacobi.GridGuess Nt 0 0 q) (g : Nat → ℝ) (ha : -1 < alpha.1)
    (hb : -1 < alpha.2) (hg : Jacobi.GridGuess Ng alpha.1 alpha.2 g) (A : List Nat → Int → Int → Nat → ℂ) (c : List Nat → Nat → Nat → Nat → ℝ)
    (hc : Spec.HoldsReal sig Nphi (lmaxOf .real Ntheta) Nr A c)
    (hreal : ∀ fs, Spin.factors theta sig = some fs → ∀ t, Spin.Spec.Component sig t → ∀ rho z : ℝ, rin < rho → rho < rout → -1 < z → z < 1 →
      (SphereField.Spec.part fs (spinWeight theta sig) (lmaxOf .real Ntheta)
        (Spec.spinCoefficient (Spec.shellMode Ng rin rout alpha k) sig.length Nr A rho) 0 z t).im = 0) :
    ∃ u c', shellToGridReal phi theta r sig rin rout Nphi (lmaxOf .real Ntheta) Nr k alpha N Nt Ng q g c = some u ∧
      shellToCoeffReal before phi theta r sig rin rout Nphi (lmaxOf .real Ntheta) Nr k alpha N Nt Ng q g u = some c' ∧
      ∀ t, Spin.Spec.Component sig t → ∀ i j n, i < (sphereShape .real Nphi (lmaxOf .real Ntheta)).1 → j < (sphereShape .real Nphi (lmaxOf .real Ntheta)).2 →
        n < Nr → ∃ (m : Int) (l : Nat), sphereGroup .real Nphi (lmaxOf .real Ntheta) i j = some (m, (l : Int)) ∧
          open Classical in
          c' t i j n = if Regularity.Spec.Allowed l (Spec.numbers t) ∧ n < Ng then c t i j n else 0 := by
  obtain ⟨F, hF⟩ := (Jacobi.matrix_forward_possible before Ng Nr (alpha.1 + k) (alpha.2 + k) alpha.1 alpha.2 g).2 ⟨k, k, rfl, rfl⟩
  obtain ⟨u, c', hu, hc', h⟩ := round_trip_real h0 h1 hsig hA hs N Nt Nr Ng hNt hN q hq
    (fun _ => shellBackward Ng Nr k alpha g) (fun _ => shellForward Ng F)
    (PolarField.factor rin rout alpha Ng k g k) (PolarField.factor rin rout alpha Ng k g (-k)) (Shell.radiusGrid rin rout alpha Ng g)
    (Spec.shellMode Ng rin rout alpha k) (fun _ _ n => n < Ng) A c hc
    (fun t _ i j x _ _ hx => PolarField.annulus_back rin rout hr alpha ha hb Ng Nr k g hg (c t i) j x hx)
    (fun t ht u b hu i j n hi hj hn => by
      have := PolarField.annulus_forw before rin rout hr0 hr alpha ha hb Ng Nr k hNg g hg F hF (u i) (b i) j (fun x hx => hu i j x hi hj hx) n hn
      by_cases h2 : n < Ng
      · rw [if_pos h2] at this ⊢; exact this
      · rw [if_neg h2] at this ⊢; exact this)
    (fun fs hfs t ht x z hx hz hz' => by
      obtain ⟨hr1, hr2⟩ := Shell.grid_inside rin rout hr0 hr alpha ha hb Ng g hg x hx
      exact hreal fs hfs t ht _ z hr1 hr2 hz hz')
  refine ⟨u, c', hu, ?_, fun t ht i j n hi hj hn => ?_⟩
  rotate_left
  · obtain ⟨m, l, e, h⟩ := h t ht i j n hi hj hn
    refine ⟨m, l, e, ?_⟩
    rw [h]
    congr
  unfold shellToCoeffReal
  rw [hF]
  exact hc'

/-- C98: the same for complex tensor fields. -/
theorem shell_round_trip_complex_partial (before : Bool) (h0 : phi.azimuthal = true) (h1 : theta.azimuthal = false)
    (hsig : ∀ ix ∈ sig, ix = .single (.spherical phi theta r)) (rin rout : ℝ) (hr0 : 0 < rin) (hr : rin < rout) (Nphi Ntheta Nr k : Nat) (alpha : ℝ × ℝ)
    (N Nt Ng : Nat) (hA : Orders.Spec.Allowed .complex Nphi Ntheta) (hs : 0 < sig.length → Spec.Separated .complex Nphi (lmaxOf .complex Ntheta))
    (hNt : lmaxOf .complex Ntheta < Nt) (hN : Nphi ≤ N) (hNg : 0 < Ng) (q : Nat → ℝ) (hq : Jacobi.GridGuess Nt 0 0 q) (g : Nat → ℝ) (ha : -1 < alpha.1)
    (hb : -1 < alpha.2) (hg : Jacobi.GridGuess Ng alpha.1 alpha.2 g) (A : List Nat → Int → Int → Nat → ℂ) (c : List Nat → Nat → Nat → Nat → ℂ)
    (hc : Spec.HoldsComplex sig Nphi (lmaxOf .complex Ntheta) Nr A c) :
    ∃ u c', shellToGridComplex phi theta r sig rin rout Nphi (lmaxOf .complex Ntheta) Nr k alpha N Nt Ng q g c = some u ∧
      shellToCoeffComplex before phi theta r sig rin rout Nphi (lmaxOf .complex Ntheta) Nr k alpha N Nt Ng q g u = some c' ∧
      ∀ t, Spin.Spec.Component sig t → ∀ i j n, i < (sphereShape .complex Nphi (lmaxOf .complex Ntheta)).1 →
        j < (sphereShape .complex Nphi (lmaxOf .complex Ntheta)).2 →
        n < Nr → ∃ (m : Int) (l : Nat), sphereGroup .complex Nphi (lmaxOf .complex Ntheta) i j = some (m, (l : Int)) ∧
          open Classical in
          c' t i j n = if Regularity.Spec.Allowed l (Spec.numbers t) ∧ n < Ng ∧ 2 * |m| < Nphi then c t i j n else 0 := by
  obtain ⟨F, hF⟩ := (Jacobi.matrix_forward_possible before Ng Nr (alpha.1 + k) (alpha.2 + k) alpha.1 alpha.2 g).2 ⟨k, k, rfl, rfl⟩
  obtain ⟨u, c', hu, hc', h⟩ := round_trip_complex h0 h1 hsig hA hs N Nt Nr Ng hNt hN q hq
    (fun _ => shellBackward Ng Nr k alpha g) (fun _ => shellForward Ng F)
    (PolarField.factor rin rout alpha Ng k g k) (PolarField.factor rin rout alpha Ng k g (-k)) (Shell.radiusGrid rin rout alpha Ng g)
    (Spec.shellMode Ng rin rout alpha k) (fun _ _ n => n < Ng) A c hc
    (fun t _ i j x _ _ hx => PolarField.annulus_back rin rout hr alpha ha hb Ng Nr k g hg (c t i) j x hx)
    (fun t ht u b hu i j n hi hj hn => by
      have := PolarField.annulus_forw before rin rout hr0 hr alpha ha hb Ng Nr k hNg g hg F hF (u i) (b i) j (fun x hx => hu i j x hi hj hx) n hn
      by_cases h2 : n < Ng
      · rw [if_pos h2] at this ⊢; exact this
      · rw [if_neg h2] at this ⊢; exact this)
  refine ⟨u, c', hu, ?_, fun t ht i j n hi hj hn => ?_⟩
  rotate_left
  · obtain ⟨m, l, e, h⟩ := h t ht i j n hi hj hn
    refine ⟨m, l, e, ?_⟩
    rw [h]
    congr
  unfold shellToCoeffComplex
  rw [hF]
  exact hc'

/-! ## Signatures -/

/-- C98: tensors with an index over another coordinate system are rejected. -/
theorem other_signature_rejected (phi theta r : Spin.Coord) (sig : List Spin.Index) (ix : Spin.Index) (hix : ix ∈ sig)
    (hne : ix ≠ .single (.spherical phi theta r)) (Nphi L N Nt Ng : Nat) (q : Nat → ℝ) (f : Nat → ℝ) :
    (∀ plan c, toGridReal phi theta r sig Nphi L N Nt Ng q plan f c = none) ∧ (∀ plan u, toCoeffReal phi theta r sig Nphi L N Nt Ng q plan f u = none) ∧
      (∀ plan c, toGridComplex phi theta r sig Nphi L N Nt Ng q plan f c = none) ∧
      ∀ plan u, toCoeffComplex phi theta r sig Nphi L N Nt Ng q plan f u = none := by
  have h : checkSignature (.spherical phi theta r) sig = none := by
    unfold checkSignature
    rw [if_neg]
    intro h
    exact hne (of_decide_eq_true (List.all_eq_true.1 h ix hix))
  unfold toGridReal toCoeffReal toGridComplex toCoeffComplex
  rw [h]
  exact ⟨fun _ _ => rfl, fun _ _ => rfl, fun _ _ => rfl, fun _ _ => rfl⟩

/-! ## Sizes for which degrees are mixed -/

/-- C98 is false for every size that is accepted: in a complex ball of shape `(8, 5, Nr)` the coefficient of order 1, degree 1 and lowest radial function
has no effect on the grid values, although it is named and within all limits. -/
theorem ball_degree_refuted (phi theta r : Spin.Coord) (Nr k : Nat) (alpha : ℝ) (N Nt Ng : Nat) (q g : Nat → ℝ) (c c' : List Nat → Nat → Nat → Nat → ℂ)
    (h : ∀ t i j n, ¬(i = 1 ∧ j = 2 ∧ n = 0) → c t i j n = c' t i j n) :
    Orders.Spec.Allowed .complex 8 5 ∧ sphereGroup .complex 8 (lmaxOf .complex 5) 1 2 = some (1, 1) ∧ Regularity.Spec.Allowed 1 [] ∧
      ballToGridComplex phi theta r [] 8 (lmaxOf .complex 5) Nr k alpha N Nt Ng q g c =
        ballToGridComplex phi theta r [] 8 (lmaxOf .complex 5) Nr k alpha N Nt Ng q g c' := by
  refine ⟨⟨by decide, .inr ⟨by decide, by decide, by decide⟩⟩, rfl, (Regularity.allowed_spec 1 []).1 rfl, ?_⟩
  have e : ∀ t, ballBackward (ellMaps .complex 8 (lmaxOf .complex 5)) Ng Nr k alpha g t (c t) =
      ballBackward (ellMaps .complex 8 (lmaxOf .complex 5)) Ng Nr k alpha g t (c' t) := by
    intro t
    funext i j
    unfold ballBackward
    rw [Maps.assign_eq, Maps.assign_eq]
    by_cases hij : i = 1 ∧ j = 2
    · obtain ⟨rfl, rfl⟩ := hij
      have hv : Maps.visits (ellMaps .complex 8 (lmaxOf .complex 5)) 1 2 = [1, 2] := by decide +kernel
      rw [hv]
      simp only [List.foldl_cons, List.foldl_nil]
      congr 1
      funext n
      refine h t 1 2 _ ?_
      have : (Zernike.minDegree 2).toNat = 1 := by decide
      omega
    · rw [show c t i j = c' t i j from funext fun n => h t i j n fun e => hij ⟨e.1, e.2.1⟩]
  unfold ballToGridComplex toGridComplex radiusBackward
  simp only [e]

end

/-! ## Readings -/

/-- A scalar has one component, and its coefficients are the radial sums. -/
theorem scalar_coefficient (R : List Int → Nat → Nat → ℝ → ℝ) (Nr : Nat) (A : List Nat → Int → Int → Nat → ℂ) (r : ℝ) (m l : Int) :
    Spec.spinCoefficient R 0 Nr A r [] m l = ∑ n ∈ Finset.range Nr, (R [] l.toNat n r : ℝ) * A [] m l n := by
  unfold Spec.spinCoefficient indices
  simp only [List.map_cons, List.map_nil, List.sum_cons, List.sum_nil, add_zero]
  rw [show Spec.numbers [] = [] from rfl, intertwiner_nil, Complex.ofReal_one, one_mul]

/-- The spin components of a vector of degree `l > 0` at radius `r` from the regularity components `a -`, `a +` and `a 0`: spin 0 is the radial direction. -/
theorem vector_coefficient (R : List Int → Nat → Nat → ℝ → ℝ) (Nr : Nat) (A : List Nat → Int → Int → Nat → ℂ) (r : ℝ) (m : Int) (l : Nat) (hl : 0 < l) :
    let a := fun (x : Nat) (reg : Int) => ∑ n ∈ Finset.range Nr, (R [reg] l n r : ℝ) * A [x] m l n
    Spec.spinCoefficient R 1 Nr A r [2] m l = (√(l / (2 * l + 1)) : ℝ) * a 0 (-1) + (√((l + 1) / (2 * l + 1)) : ℝ) * a 1 1 := by
  intro a
  have hl' : (0 : ℝ) < l := by exact_mod_cast hl
  have q1 : Regularity.intertwiner l [-1] [0] = √(l / (2 * l + 1)) := by
    rw [Regularity.intertwiner, if_neg (by
      simp [Regularity.forbiddenSpin, Regularity.forbiddenRegularity]; omega)]
    simp [Regularity.k, Regularity.intertwiner]
    rw [div_mul_eq_div_div, Real.div_sqrt]
  have q2 : Regularity.intertwiner l [1] [0] = √((l + 1) / (2 * l + 1)) := by
    rw [Regularity.intertwiner, if_neg (by
      simp [Regularity.forbiddenSpin, Regularity.forbiddenRegularity]; omega)]
    simp [Regularity.k, Regularity.intertwiner]
    rw [Real.sqrt_mul (by positivity), div_mul_eq_div_div, Real.div_sqrt, Real.sqrt_div (by positivity)]
  have q3 : Regularity.intertwiner l [0] [0] = 0 := by
    rw [Regularity.intertwiner]
    simp
  unfold Spec.spinCoefficient indices indices
  simp only [List.flatMap_cons, List.flatMap_nil, List.map_cons, List.map_nil, List.append_nil, List.cons_append, List.nil_append, List.sum_cons,
    List.sum_nil, add_zero, Int.toNat_natCast]
  rw [show Spec.numbers [0] = [-1] from rfl, show Spec.numbers [1] = [1] from rfl, show Spec.numbers [2] = [0] from rfl, q1, q2, q3]
  simp [a]

example : Orders.Spec.Allowed .real 16 8 ∧ Spec.Separated .real 16 (lmaxOf .real 8) ∧ lmaxOf .real 8 < 8 ∧ Orders.Spec.Allowed .complex 12 8 ∧
    Spec.Separated .complex 12 (lmaxOf .complex 8) ∧ (∃ q, Jacobi.GridGuess 12 0 0 q) ∧ (∃ q, Jacobi.GridGuess 10 0 (1 / 2) q) := by
  refine ⟨⟨by decide, .inr ⟨by decide, by decide, by decide⟩⟩, .inr (.inr (.inr (by decide))), by decide,
    ⟨by decide, .inr ⟨by decide, by decide, by decide⟩⟩, .inr (.inl (by decide)), Jacobi.guess_exists 12 0 0 (by norm_num) (by norm_num),
    Jacobi.guess_exists 10 0 (1 / 2) (by norm_num) (by norm_num)⟩

/-- Any coefficients can be stored. -/
example (sig : List Spin.Index) (Nphi L Nr : Nat) (A : List Nat → Int → Int → Nat → ℂ) : ∃ c, Spec.HoldsReal sig Nphi L Nr A c :=
  ⟨fun t i j n => SphereField.Spec.rowPart (A t (group .real Nphi L i j).1 (group .real Nphi L i j).2 n) i, fun t _ i j m l n _ _ _ e => by
    rw [own_group, Option.some.injEq] at e
    simp only [e]⟩

example (sig : List Spin.Index) (Nphi L Nr : Nat) (A : List Nat → Int → Int → Nat → ℂ) : ∃ c, Spec.HoldsComplex sig Nphi L Nr A c :=
  ⟨fun t i j n => A t (group .complex Nphi L i j).1 (group .complex Nphi L i j).2 n, fun t _ i j m l n _ _ _ e => by
    rw [own_group, Option.some.injEq] at e
    simp only [e]⟩

/-- The part of order zero of a scalar is real at every radius if its coefficients of order zero are. -/
example (coord1 : Spin.Coord) (L Nr : Nat) (R : List Int → Nat → Nat → ℝ → ℝ) (x : List Nat → Int → Int → Nat → ℂ) (rho z : ℝ) :
    (SphereField.Spec.part [] (spinWeight coord1 []) L
      (Spec.spinCoefficient R 0 Nr (fun t m l n => if m = 0 then ((x t m l n).re : ℂ) else x t m l n) rho) 0 z []).im = 0 := by
  rw [(SphereField.sphere_scalar_part coord1 L _ 0 z).2, Complex.im_sum]
  refine Finset.sum_eq_zero fun l _ => ?_
  rw [Complex.im_ofReal_mul, scalar_coefficient, Complex.im_sum, Finset.sum_eq_zero, mul_zero]
  intro n _
  rw [if_pos rfl, Complex.im_ofReal_mul, Complex.ofReal_im, mul_zero]

/-- A tensor of rank 2. -/
example (cs : Spin.Cs) : ∀ ix ∈ [Spin.Index.single cs, .single cs], ix = .single cs := by simp

end Dedalus.VolumeField
