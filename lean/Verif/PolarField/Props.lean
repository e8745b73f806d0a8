import Verif.PolarField.Plans

namespace Dedalus.PolarField
open Orders Orders.Spec SphereField
open Spec (Accepted)

theorem part_congr {R R' : Int → Int → Nat → ℝ → ℝ} {m : Int} (h : ∀ s n r, R s m n r = R' s m n r) (fs : List (Option Spin.Mat)) (s : List Nat → Int) (Nr : Nat)
    (a : List Nat → Int → Nat → ℂ) (r : ℝ) (t : List Nat) : Spec.part R fs s Nr a m r t = Spec.part R' fs s Nr a m r t := by
  unfold Spec.part
  congr 1
  funext t
  unfold Spec.spinPart
  exact Finset.sum_congr rfl fun n _ => by rw [h]

theorem mmax_le {d : Dtype} {Nphi Nr : Nat} (hA : Accepted d Nphi) (hN : Nphi < 4 * Nr) : mmax Nphi ≤ 2 * (Nr - 1) := by
  have : Nphi = 1 ∨ 2 ∣ Nphi := by
    rcases hA with h | ⟨_, h⟩
    · exact Or.inl h
    · exact Or.inr ((Dvd.intro _ rfl).trans h)
  unfold mmax
  omega

theorem low_eq {Nr Ng : Nat} {m : Int} (hm : |m| ≤ ((2 * (Nr - 1) : Nat) : Int)) (k : ℝ) (s : Int) (n : Nat) (r : ℝ) :
    lowMode Nr Ng k s m n r = Spec.diskMode Ng k s m n r := by
  unfold lowMode
  rw [if_pos hm]

section
variable {coord0 coord1 : Spin.Coord} {sig : List Spin.Index}

/-! ## Disk -/

/-- C97: the grid values of a real tensor field in the disk are those of the field that its coefficients describe, at every radius and azimuth of the grid. -/
theorem disk_values_real_partial (h : Spin.Spec.Suitable coord0 coord1 sig) (Nphi Nr N Ng k : Nat) (alpha : ℝ) (hA : Accepted .real Nphi) (hN : Nphi ≤ N)
    (hr : Nphi < 4 * Nr) (hg : 0 < Ng) (ha : -1 < alpha) (q : Nat → ℝ) (hq : Jacobi.GridGuess Ng alpha 0 q) (a : List Nat → Int → Nat → ℂ)
    (c : List Nat → Nat → Nat → ℝ) (hc : Spec.HoldsReal sig Nphi Nr a c) :
    ∃ fs u, Spin.factors coord1 sig = some fs ∧ diskToGridReal coord0 coord1 sig Nphi Nr k alpha N Ng q c = some u ∧
      ∀ t, Spin.Spec.Component sig t → ∀ j x, x < Ng → u t j x =
        Spec.realValue (Spec.diskMode Ng (alpha + k)) fs (spinWeight coord1 sig) Nr (mmax Nphi) a (Zernike.radiusGrid 2 Ng alpha q x) (Fourier.Spec.grid N j) t := by
  obtain ⟨maps, hm, -⟩ := disk_rows hA Nr Ng hr hg
  obtain ⟨fs, u, hf, hu, hv⟩ := values_real h hA N Nr Ng hN (fun t => diskBackward maps Ng Nr k alpha q (spinWeight coord1 sig t)) (fun _ => 1)
    (Zernike.radiusGrid 2 Ng alpha q) (lowMode Nr Ng (alpha + k)) (spinWeight coord1 sig) a c hc (fun t _ i x hi hx => by
      rw [mul_one, disk_back hA Nr Ng hr hg maps hm k alpha ha q hq _ _ i x hi hx]
      rfl)
  refine ⟨fs, u, hf, ?_, fun t ht j x hx => ?_⟩
  · unfold diskToGridReal
    rw [hm]
    exact hu
  · rw [hv t ht j x hx]
    unfold Spec.realValue
    refine Finset.sum_congr rfl fun m hm => ?_
    have h1 := mmax_le hA hr
    have h2 := Finset.mem_range.1 hm
    rw [part_congr fun s n r => low_eq (by rw [Int.abs_eq_natAbs]; omega) _ s n r]

/-- C97: transforming a real tensor field in the disk to the grid and back keeps every coefficient of a radial function that the grid keeps and clears the
others. -/
theorem disk_round_trip_real_partial (before : Bool) (h : Spin.Spec.Suitable coord0 coord1 sig) (Nphi Nr N Ng k : Nat) (alpha : ℝ) (hA : Accepted .real Nphi)
    (hN : Nphi ≤ N) (hr : Nphi < 4 * Nr) (hg : 0 < Ng) (ha : -1 < alpha) (q : Nat → ℝ) (hq : Jacobi.GridGuess Ng alpha 0 q) (a : List Nat → Int → Nat → ℂ)
    (c : List Nat → Nat → Nat → ℝ) (hc : Spec.HoldsReal sig Nphi Nr a c)
    (hreal : ∀ fs, Spin.factors coord1 sig = some fs → ∀ t, Spin.Spec.Component sig t → ∀ r,
      (Spec.part (Spec.diskMode Ng (alpha + k)) fs (spinWeight coord1 sig) Nr a 0 r t).im = 0) :
    ∃ u c', diskToGridReal coord0 coord1 sig Nphi Nr k alpha N Ng q c = some u ∧ diskToCoeffReal before coord0 coord1 sig Nphi Nr k alpha N Ng q u = some c' ∧
      ∀ t, Spin.Spec.Component sig t → ∀ i n, i < polarRows .real Nphi → n < Nr →
        c' t i n = if (wave .real Nphi i).natAbs / 2 ≤ n ∧
            (wave .real Nphi i + spinWeight coord1 sig t).natAbs + 2 * (n - (wave .real Nphi i).natAbs / 2) < 2 * Ng then c t i n else 0 := by
  obtain ⟨maps, hm, -⟩ := disk_rows hA Nr Ng hr hg
  obtain ⟨u, c', hu, hc', hv⟩ := round_trip_real h hA N Nr Ng hN (fun t => diskBackward maps Ng Nr k alpha q (spinWeight coord1 sig t))
    (fun t => diskForward before maps Ng Nr k alpha q (spinWeight coord1 sig t)) (fun _ => 1) (fun _ => 1)
    (Zernike.radiusGrid 2 Ng alpha q) (lowMode Nr Ng (alpha + k)) (spinWeight coord1 sig) (kept Nr Ng) a c hc (fun t _ i x hi hx => by
      rw [mul_one, disk_back hA Nr Ng hr hg maps hm k alpha ha q hq _ _ i x hi hx]
      rfl)
    (fun t _ u b hub i n hi hn => disk_forw before hA Nr Ng hr hg maps hm k alpha ha q hq _ u b i hi (fun x hx => by
      rw [hub i x hi hx, mul_one]
      rfl) n hn)
    (fun fs hf t ht x hx => by
      rw [part_congr fun s n r => low_eq (by simp) _ s n r]
      exact hreal fs hf t ht _)
  refine ⟨u, c', ?_, ?_, fun t ht i n hi hn => ?_⟩
  · unfold diskToGridReal
    rw [hm]
    exact hu
  · unfold diskToCoeffReal
    rw [hm]
    exact hc'
  · rw [hv t ht i n hi hn]
    have hw : |wave .real Nphi i| ≤ ((2 * (Nr - 1) : Nat) : Int) := by
      by_cases hz : mmax Nphi = 0
      · have h1 : Nphi = 1 := by
          unfold mmax at hz
          rcases hA with h1 | ⟨h1, _⟩ <;> omega
        subst h1
        rw [wave_zero_real 1 rfl i (by exact hi)]
        simp
      · have hi' : i < Nphi := by
          unfold mmax at hz
          have : polarRows .real Nphi = if Nphi > 1 then Nphi else 2 := rfl
          rw [if_pos (by omega)] at this
          omega
        have h1 := mmax_le hA hr
        have h2 := perm_lt .real Nphi Nphi hA.allowed hz i hi'
        unfold mmax at h1
        rw [real_wave_perm, Int.abs_eq_natAbs]
        omega
    refine if_congr ⟨fun e => e.2, fun e => ⟨hw, e⟩⟩ rfl rfl

/-- C97: the grid values of a complex tensor field in the disk. -/
theorem disk_values_complex_partial (h : Spin.Spec.Suitable coord0 coord1 sig) (Nphi Nr N Ng k : Nat) (alpha : ℝ) (hA : Accepted .complex Nphi) (hN : Nphi ≤ N)
    (hr : Nphi < 4 * Nr) (hg : 0 < Ng) (ha : -1 < alpha) (q : Nat → ℝ) (hq : Jacobi.GridGuess Ng alpha 0 q) (a : List Nat → Int → Nat → ℂ)
    (c : List Nat → Nat → Nat → ℂ) (hc : Spec.HoldsComplex sig Nphi Nr a c) :
    ∃ fs u, Spin.factors coord1 sig = some fs ∧ diskToGridComplex coord1 sig Nphi Nr k alpha N Ng q c = some u ∧
      ∀ t, Spin.Spec.Component sig t → ∀ j x, x < Ng → u t j x =
        Spec.complexValue (Spec.diskMode Ng (alpha + k)) fs (spinWeight coord1 sig) Nr (mmax Nphi) a (Zernike.radiusGrid 2 Ng alpha q x) (Fourier.Spec.grid N j) t := by
  obtain ⟨maps, hm, -⟩ := disk_rows hA Nr Ng hr hg
  obtain ⟨fs, u, hf, hu, hv⟩ := values_complex h hA N Nr Ng hN (fun t => diskBackward maps Ng Nr k alpha q (spinWeight coord1 sig t)) (fun _ => 1)
    (Zernike.radiusGrid 2 Ng alpha q) (lowMode Nr Ng (alpha + k)) (spinWeight coord1 sig) a c hc (fun t _ i x hi hx => by
      rw [Complex.ofReal_one, mul_one, disk_back hA Nr Ng hr hg maps hm k alpha ha q hq _ _ i x hi hx]
      rfl)
  refine ⟨fs, u, hf, ?_, fun t ht j x hx => ?_⟩
  · unfold diskToGridComplex
    rw [hm]
    exact hu
  · rw [hv t ht j x hx]
    unfold Spec.complexValue
    refine Finset.sum_congr rfl fun m hm => ?_
    have h1 := mmax_le hA hr
    have h2 := Finset.mem_Icc.1 hm
    rw [part_congr fun s n r => low_eq (by rw [Int.abs_eq_natAbs]; omega) _ s n r]

/-- C97: round trips of complex tensor fields in the disk. The order `Nphi / 2`, that the azimuthal grid does not resolve, is cleared too. -/
theorem disk_round_trip_complex_partial (before : Bool) (h : Spin.Spec.Suitable coord0 coord1 sig) (Nphi Nr N Ng k : Nat) (alpha : ℝ)
    (hA : Accepted .complex Nphi) (hN : Nphi ≤ N) (hr : Nphi < 4 * Nr) (hg : 0 < Ng) (ha : -1 < alpha) (q : Nat → ℝ) (hq : Jacobi.GridGuess Ng alpha 0 q)
    (c : List Nat → Nat → Nat → ℂ) (a : List Nat → Int → Nat → ℂ) (hc : Spec.HoldsComplex sig Nphi Nr a c) :
    ∃ u c', diskToGridComplex coord1 sig Nphi Nr k alpha N Ng q c = some u ∧ diskToCoeffComplex before coord1 sig Nphi Nr k alpha N Ng q u = some c' ∧
      ∀ t, Spin.Spec.Component sig t → ∀ i n, i < Nphi → n < Nr →
        c' t i n = if ((wave .complex Nphi i).natAbs / 2 ≤ n ∧
            (wave .complex Nphi i + spinWeight coord1 sig t).natAbs + 2 * (n - (wave .complex Nphi i).natAbs / 2) < 2 * Ng) ∧
            2 * |wave .complex Nphi i| < Nphi then c t i n else 0 := by
  obtain ⟨maps, hm, -⟩ := disk_rows hA Nr Ng hr hg
  obtain ⟨u, c', hu, hc', hv⟩ := round_trip_complex h hA N Nr Ng hN (fun t => diskBackward maps Ng Nr k alpha q (spinWeight coord1 sig t))
    (fun t => diskForward before maps Ng Nr k alpha q (spinWeight coord1 sig t)) (fun _ => 1) (fun _ => 1)
    (Zernike.radiusGrid 2 Ng alpha q) (lowMode Nr Ng (alpha + k)) (spinWeight coord1 sig) (kept Nr Ng) a c hc (fun t _ i x hi hx => by
      rw [Complex.ofReal_one, mul_one, disk_back hA Nr Ng hr hg maps hm k alpha ha q hq _ _ i x (by exact hi) hx]
      rfl)
    (fun t _ u b hub i n hi hn => disk_forw before hA Nr Ng hr hg maps hm k alpha ha q hq _ u b i (by exact hi) (fun x hx => by
      rw [hub i x hi hx, Complex.ofReal_one, mul_one]
      rfl) n hn)
  refine ⟨u, c', ?_, ?_, fun t ht i n hi hn => ?_⟩
  · unfold diskToGridComplex
    rw [hm]
    exact hu
  · unfold diskToCoeffComplex
    rw [hm]
    exact hc'
  · rw [hv t ht i n hi hn]
    have h1 := mmax_le hA hr
    refine if_congr ⟨fun e => ⟨e.1.2, e.2⟩, fun e => ⟨⟨?_, e.1⟩, e.2⟩⟩ rfl rfl
    have h2 := e.2
    unfold mmax at h1
    rw [Int.abs_eq_natAbs] at h2 ⊢
    omega

/-! ## Annulus -/

/-- C97: the grid values of a real tensor field in the annulus. -/
theorem annulus_values_real_partial (h : Spin.Spec.Suitable coord0 coord1 sig) (Nphi Nr N Ng k : Nat) (rin rout : ℝ) (h1 : rin < rout)
    (alpha : ℝ × ℝ) (hA : Accepted .real Nphi) (hN : Nphi ≤ N) (ha : -1 < alpha.1) (hb : -1 < alpha.2) (q : Nat → ℝ)
    (hq : Jacobi.GridGuess Ng alpha.1 alpha.2 q) (a : List Nat → Int → Nat → ℂ) (c : List Nat → Nat → Nat → ℝ) (hc : Spec.HoldsReal sig Nphi Nr a c) :
    ∃ fs u, Spin.factors coord1 sig = some fs ∧ annulusToGridReal coord0 coord1 sig rin rout Nphi Nr k alpha N Ng q c = some u ∧
      ∀ t, Spin.Spec.Component sig t → ∀ j x, x < Ng → u t j x =
        Spec.realValue (fun _ _ => Spec.annulusMode Ng rin rout alpha k) fs (spinWeight coord1 sig) Nr (mmax Nphi) a (Shell.radiusGrid rin rout alpha Ng q x)
          (Fourier.Spec.grid N j) t :=
  values_real h hA N Nr Ng hN (fun _ => annulusBackward Ng Nr k alpha q) (factor rin rout alpha Ng k q k) (Shell.radiusGrid rin rout alpha Ng q)
    (fun _ _ => Spec.annulusMode Ng rin rout alpha k) (spinWeight coord1 sig) a c hc (fun t _ i x hi hx => by
      rw [mul_comm]
      exact annulus_back rin rout h1 alpha ha hb Ng Nr k q hq (c t) i x hx)

/-- C97: transforming a real tensor field in the annulus to the grid and back keeps the coefficients of the first `Ng` radial functions and clears the
others. -/
theorem annulus_round_trip_real_partial (before : Bool) (h : Spin.Spec.Suitable coord0 coord1 sig) (Nphi Nr N Ng k : Nat) (rin rout : ℝ) (h0 : 0 < rin)
    (h1 : rin < rout) (alpha : ℝ × ℝ) (hA : Accepted .real Nphi) (hN : Nphi ≤ N) (hg : 0 < Ng) (ha : -1 < alpha.1) (hb : -1 < alpha.2) (q : Nat → ℝ)
    (hq : Jacobi.GridGuess Ng alpha.1 alpha.2 q) (a : List Nat → Int → Nat → ℂ) (c : List Nat → Nat → Nat → ℝ) (hc : Spec.HoldsReal sig Nphi Nr a c)
    (hreal : ∀ fs, Spin.factors coord1 sig = some fs → ∀ t, Spin.Spec.Component sig t → ∀ r,
      (Spec.part (fun _ _ => Spec.annulusMode Ng rin rout alpha k) fs (spinWeight coord1 sig) Nr a 0 r t).im = 0) :
    ∃ u c', annulusToGridReal coord0 coord1 sig rin rout Nphi Nr k alpha N Ng q c = some u ∧
      annulusToCoeffReal before coord0 coord1 sig rin rout Nphi Nr k alpha N Ng q u = some c' ∧
      ∀ t, Spin.Spec.Component sig t → ∀ i n, i < polarRows .real Nphi → n < Nr → c' t i n = if n < Ng then c t i n else 0 := by
  obtain ⟨F, hF⟩ := (Jacobi.matrix_forward_possible before Ng Nr (alpha.1 + k) (alpha.2 + k) alpha.1 alpha.2 q).2 ⟨k, k, rfl, rfl⟩
  obtain ⟨u, c', hu, hc', hv⟩ := round_trip_real h hA N Nr Ng hN (fun _ => annulusBackward Ng Nr k alpha q) (fun _ => annulusForward Ng F)
    (factor rin rout alpha Ng k q k) (factor rin rout alpha Ng k q (-k)) (Shell.radiusGrid rin rout alpha Ng q)
    (fun _ _ => Spec.annulusMode Ng rin rout alpha k) (spinWeight coord1 sig) (fun _ _ n => n < Ng) a c hc (fun t _ i x hi hx => by
      rw [mul_comm]
      exact annulus_back rin rout h1 alpha ha hb Ng Nr k q hq (c t) i x hx)
    (fun t _ u b hub i n hi hn => annulus_forw before rin rout h0 h1 alpha ha hb Ng Nr k hg q hq F hF u b i (fun x hx => by
      rw [hub i x hi hx, mul_comm]
      rfl) n hn)
    (fun fs hf t ht x hx => hreal fs hf t ht _)
  refine ⟨u, c', hu, ?_, hv⟩
  unfold annulusToCoeffReal
  rw [hF]
  exact hc'

/-- C97: the grid values of a complex tensor field in the annulus. -/
theorem annulus_values_complex_partial (h : Spin.Spec.Suitable coord0 coord1 sig) (Nphi Nr N Ng k : Nat) (rin rout : ℝ) (h1 : rin < rout)
    (alpha : ℝ × ℝ) (hA : Accepted .complex Nphi) (hN : Nphi ≤ N) (ha : -1 < alpha.1) (hb : -1 < alpha.2) (q : Nat → ℝ)
    (hq : Jacobi.GridGuess Ng alpha.1 alpha.2 q) (a : List Nat → Int → Nat → ℂ) (c : List Nat → Nat → Nat → ℂ) (hc : Spec.HoldsComplex sig Nphi Nr a c) :
    ∃ fs u, Spin.factors coord1 sig = some fs ∧ annulusToGridComplex coord1 sig rin rout Nphi Nr k alpha N Ng q c = some u ∧
      ∀ t, Spin.Spec.Component sig t → ∀ j x, x < Ng → u t j x =
        Spec.complexValue (fun _ _ => Spec.annulusMode Ng rin rout alpha k) fs (spinWeight coord1 sig) Nr (mmax Nphi) a (Shell.radiusGrid rin rout alpha Ng q x)
          (Fourier.Spec.grid N j) t :=
  values_complex h hA N Nr Ng hN (fun _ => annulusBackward Ng Nr k alpha q) (factor rin rout alpha Ng k q k) (Shell.radiusGrid rin rout alpha Ng q)
    (fun _ _ => Spec.annulusMode Ng rin rout alpha k) (spinWeight coord1 sig) a c hc (fun t _ i x hi hx => by
      rw [mul_comm, ← Complex.real_smul, annulus_back rin rout h1 alpha ha hb Ng Nr k q hq (c t) i x hx]
      rfl)

/-- C97: round trips of complex tensor fields in the annulus. -/
theorem annulus_round_trip_complex_partial (before : Bool) (h : Spin.Spec.Suitable coord0 coord1 sig) (Nphi Nr N Ng k : Nat) (rin rout : ℝ) (h0 : 0 < rin)
    (h1 : rin < rout) (alpha : ℝ × ℝ) (hA : Accepted .complex Nphi) (hN : Nphi ≤ N) (hg : 0 < Ng) (ha : -1 < alpha.1) (hb : -1 < alpha.2) (q : Nat → ℝ)
    (hq : Jacobi.GridGuess Ng alpha.1 alpha.2 q) (a : List Nat → Int → Nat → ℂ) (c : List Nat → Nat → Nat → ℂ) (hc : Spec.HoldsComplex sig Nphi Nr a c) :
    ∃ u c', annulusToGridComplex coord1 sig rin rout Nphi Nr k alpha N Ng q c = some u ∧
      annulusToCoeffComplex before coord1 sig rin rout Nphi Nr k alpha N Ng q u = some c' ∧
      ∀ t, Spin.Spec.Component sig t → ∀ i n, i < Nphi → n < Nr →
        c' t i n = if n < Ng ∧ 2 * |wave .complex Nphi i| < Nphi then c t i n else 0 := by
  obtain ⟨F, hF⟩ := (Jacobi.matrix_forward_possible before Ng Nr (alpha.1 + k) (alpha.2 + k) alpha.1 alpha.2 q).2 ⟨k, k, rfl, rfl⟩
  obtain ⟨u, c', hu, hc', hv⟩ := round_trip_complex h hA N Nr Ng hN (fun _ => annulusBackward Ng Nr k alpha q) (fun _ => annulusForward Ng F)
    (factor rin rout alpha Ng k q k) (factor rin rout alpha Ng k q (-k)) (Shell.radiusGrid rin rout alpha Ng q)
    (fun _ _ => Spec.annulusMode Ng rin rout alpha k) (spinWeight coord1 sig) (fun _ _ n => n < Ng) a c hc (fun t _ i x hi hx => by
      rw [mul_comm, ← Complex.real_smul, annulus_back rin rout h1 alpha ha hb Ng Nr k q hq (c t) i x hx]
      rfl)
    (fun t _ u b hub i n hi hn => annulus_forw before rin rout h0 h1 alpha ha hb Ng Nr k hg q hq F hF u b i (fun x hx => by
      rw [hub i x hi hx, mul_comm, ← Complex.real_smul]
      rfl) n hn)
  refine ⟨u, c', hu, ?_, hv⟩
  unfold annulusToCoeffComplex
  rw [hF]
  exact hc'

end

/-! ## What the coefficients mean -/

/-- A scalar has no factors and its part of order `m` is the sum of the radial functions. -/
theorem polar_scalar_part (coord1 : Spin.Coord) (R : Int → Int → Nat → ℝ → ℝ) (Nr : Nat) (a : List Nat → Int → Nat → ℂ) (m : Int) (r : ℝ) :
    Spin.factors coord1 [] = some [] ∧
      Spec.part R [] (spinWeight coord1 []) Nr a m r [] = ∑ n ∈ Finset.range Nr, (R 0 m n r : ℝ) * a [] m n := ⟨rfl, rfl⟩

/-- The part of order `m` of a vector: the coefficients of the first component belong to radial functions of spin -1, those of the second to spin +1;
with `u∓` these sums, the azimuthal component is `i (u- - u+) / √2` and the radial one `(u- + u+) / √2`. -/
theorem polar_vector_part (phi rad : Spin.Coord) (h0 : phi.azimuthal = true) (h1 : rad.azimuthal = false) (R : Int → Int → Nat → ℝ → ℝ) (Nr : Nat)
    (a : List Nat → Int → Nat → ℂ) (m : Int) (r : ℝ) :
    let sig := [Spin.Index.single (.polar phi rad)]
    ∃ fs, Spin.factors rad sig = some fs ∧
      ∃ um up : ℂ, um = ∑ n ∈ Finset.range Nr, (R (-1) m n r : ℝ) * a [0] m n ∧ up = ∑ n ∈ Finset.range Nr, (R 1 m n r : ℝ) * a [1] m n ∧
        Spec.part R fs (spinWeight rad sig) Nr a m r [0] = Complex.I * (um - up) / (√2 : ℝ) ∧
        Spec.part R fs (spinWeight rad sig) Nr a m r [1] = (um + up) / (√2 : ℝ) := by
  intro sig
  have hix : Spin.indexOf rad (Spin.Index.single (.polar phi rad)).coords = some 1 := by
    simp [Spin.indexOf, Spin.Index.coords, Spin.Cs.coords, Spin.Coord.eq, List.findIdx?_cons, h0, h1]
  have hf : Spin.factors rad sig = some [some Spin.uForward] := by
    simp only [sig, Spin.factors, hix]
    rfl
  have w0 : spinWeight rad sig [0] = -1 := by simp [sig, spinWeight, indexSpin, hix]
  have w1 : spinWeight rad sig [1] = 1 := by simp [sig, spinWeight, indexSpin, hix]
  refine ⟨_, hf, _, _, rfl, rfl, ?_, ?_⟩
  · unfold Spec.part
    simp only [Spin.backwardComplex, Spin.applyAxis, Spin.Mat.dag, Spin.uForward, Finset.sum_range_succ, Finset.sum_range_zero]
    simp [Spec.spinPart, w0, w1]
    ring
  · unfold Spec.part
    simp only [Spin.backwardComplex, Spin.applyAxis, Spin.Mat.dag, Spin.uForward, Finset.sum_range_succ, Finset.sum_range_zero]
    simp [Spec.spinPart, w0, w1]
    ring

/-- C97: on a grid of as many radii as coefficients a scalar in the disk keeps every coefficient of a radial function. -/
theorem disk_scalar_kept (Nr Ng : Nat) (h : Nr ≤ Ng) (m : Int) (n : Nat) (hn : n < Nr) (hm : m.natAbs / 2 ≤ n) :
    (m + 0).natAbs + 2 * (n - m.natAbs / 2) < 2 * Ng := by
  rw [add_zero]
  omega

/-- C97 fails for vectors on that grid: whatever the last coefficient of the component of spin +1 is for a positive odd order, it is cleared. -/
theorem disk_vector_kept_refuted (before : Bool) (phi rad : Spin.Coord) (h0 : phi.azimuthal = true) (h1 : rad.azimuthal = false) (Nphi Nr N k : Nat)
    (alpha : ℝ) (hA : Accepted .complex Nphi) (hN : Nphi ≤ N) (hr : Nphi < 4 * Nr) (ha : -1 < alpha) (q : Nat → ℝ) (hq : Jacobi.GridGuess Nr alpha 0 q)
    (a : List Nat → Int → Nat → ℂ) (c : List Nat → Nat → Nat → ℂ) (hc : Spec.HoldsComplex [.single (.polar phi rad)] Nphi Nr a c) :
    ∃ u c', diskToGridComplex rad [.single (.polar phi rad)] Nphi Nr k alpha N Nr q c = some u ∧
      diskToCoeffComplex before rad [.single (.polar phi rad)] Nphi Nr k alpha N Nr q u = some c' ∧
      ∀ i, i < Nphi → 0 < wave .complex Nphi i → wave .complex Nphi i % 2 = 1 → c' [1] i (Nr - 1) = 0 := by
  have hs : Spin.Spec.Suitable phi rad [.single (.polar phi rad)] :=
    ⟨h0, h1, fun ix hix => by rw [List.mem_singleton.1 hix]; exact .inr (.pair _ ⟨by simp [Spin.Coord.eq], by simp [Spin.Coord.eq]⟩)⟩
  obtain ⟨u, c', hu, hc', hv⟩ := disk_round_trip_complex_partial before hs Nphi Nr N Nr k alpha hA hN hr (by omega) ha q hq c a hc
  refine ⟨u, c', hu, hc', fun i hi hp ho => ?_⟩
  have hix : Spin.indexOf rad (Spin.Index.single (.polar phi rad)).coords = some 1 := by
    simp [Spin.indexOf, Spin.Index.coords, Spin.Cs.coords, Spin.Coord.eq, List.findIdx?_cons, h0, h1]
  have w1 : spinWeight rad [.single (.polar phi rad)] [1] = 1 := by simp [spinWeight, indexSpin, hix]
  rw [hv [1] (List.Forall₂.cons (show 1 < 2 by decide) .nil) i (Nr - 1) hi (by omega), w1, if_neg]
  rintro ⟨⟨e1, e2⟩, -⟩
  omega

/-! ## Position of the annulus among the axes -/

/-- C97: if the radius is the last axis of the data, the data are multiplied with the factor of their radius. -/
theorem annulus_factor_last (shape : List Nat) (n : Nat) (hs : shape ≠ []) (v : Nat → ℝ) (data : List Nat → ℝ) :
    ∃ out, timesRadius (shape ++ [n]) shape.length n v data = some out ∧
      ∀ idx i, idx.length = shape.length → out (idx ++ [i]) = data (idx ++ [i]) * v i := by
  have hl := List.length_pos_iff.2 hs
  unfold timesRadius timesVector
  rw [if_pos ⟨by simp, by omega⟩]
  have hax : (shape ++ [n]).length - shape.length + (shape.length - 1) = shape.length := by
    rw [List.length_append, List.length_singleton]
    omega
  simp only [hax]
  rw [List.getElem?_append_right (Nat.le_refl _), Nat.sub_self]
  simp only [List.getElem?_cons_zero, Option.bind_some, if_true]
  refine ⟨_, rfl, fun idx i hi => ?_⟩
  beta_reduce
  rw [List.getD_eq_getElem?_getD, ← hi, List.getElem?_append_right (Nat.le_refl _), Nat.sub_self]
  rfl

/-- C97 fails if another axis follows the radius: the transform raises an error unless that axis has as many points, and if it has, the data are multiplied
with the factor of their position along that axis. -/
theorem annulus_factor_axis_refuted (shape : List Nat) (n nz : Nat) (hs : shape ≠ []) (hn : n ≠ 1) (v : Nat → ℝ) (data : List Nat → ℝ) :
    (nz ≠ n → timesRadius (shape ++ [n, nz]) shape.length n v data = none) ∧
      (nz = n → ∃ out, timesRadius (shape ++ [n, nz]) shape.length n v data = some out ∧
        ∀ idx i z, idx.length = shape.length → out (idx ++ [i, z]) = data (idx ++ [i, z]) * v z ∧
          (v i ≠ v z → data (idx ++ [i, z]) ≠ 0 → out (idx ++ [i, z]) ≠ data (idx ++ [i, z]) * v i)) := by
  have hl := List.length_pos_iff.2 hs
  unfold timesRadius timesVector
  rw [if_pos ⟨by simp, by omega⟩]
  have hax : (shape ++ [n, nz]).length - shape.length + (shape.length - 1) = shape.length + 1 := by
    rw [List.length_append, List.length_cons, List.length_singleton]
    omega
  simp only [hax]
  rw [List.getElem?_append_right (Nat.le_add_right _ 1), Nat.add_sub_cancel_left]
  simp only [List.getElem?_cons_succ, List.getElem?_cons_zero, Option.bind_some]
  constructor
  · intro h
    rw [if_neg (fun e => h e.symm), if_neg hn]
  · rintro rfl
    rw [if_pos rfl]
    refine ⟨_, rfl, fun idx i z hi => ?_⟩
    have hz : (idx ++ [i, z]).getD (shape.length + 1) 0 = z := by
      rw [List.getD_eq_getElem?_getD, ← hi, List.getElem?_append_right (Nat.le_add_right _ 1), Nat.add_sub_cancel_left]
      rfl
    beta_reduce
    rw [hz]
    exact ⟨rfl, fun h1 h2 e => h1 (mul_left_cancel₀ h2 e).symm⟩

/-! ## The hypotheses are met -/

example : Spin.Spec.Suitable ⟨true, "phi", 0⟩ ⟨false, "r", 1⟩ [.single (.polar ⟨true, "phi", 0⟩ ⟨false, "r", 1⟩),
    .single (.polar ⟨true, "phi", 0⟩ ⟨false, "r", 1⟩), .single (.cartesian [⟨false, "x", 3⟩, ⟨false, "y", 4⟩])] := by
  refine ⟨rfl, rfl, fun ix hix => ?_⟩
  simp only [List.mem_cons, List.not_mem_nil, or_false] at hix
  rcases hix with rfl | rfl | rfl
  · exact .inr (.pair _ ⟨rfl, rfl⟩)
  · exact .inr (.pair _ ⟨rfl, rfl⟩)
  · exact .inl rfl

/-- Any coefficients can be stored. -/
example (sig : List Spin.Index) (Nphi Nr : Nat) (a : List Nat → Int → Nat → ℂ) : ∃ c, Spec.HoldsReal sig Nphi Nr a c :=
  ⟨fun t i n => SphereField.Spec.rowPart (a t (wave .real Nphi i) n) i, fun _ _ _ _ _ _ => rfl⟩

example (sig : List Spin.Index) (Nphi Nr : Nat) (a : List Nat → Int → Nat → ℂ) : ∃ c, Spec.HoldsComplex sig Nphi Nr a c :=
  ⟨fun t i n => a t (wave .complex Nphi i) n, fun _ _ _ _ _ _ => rfl⟩

/-- The part of order zero is real for every scalar whose coefficients of order zero are. -/
example (coord1 : Spin.Coord) (R : Int → Int → Nat → ℝ → ℝ) (Nr : Nat) (x : List Nat → Int → Nat → ℂ) (r : ℝ) :
    (Spec.part R [] (spinWeight coord1 []) Nr (fun t m n => if m = 0 then ((x t m n).re : ℂ) else x t m n) 0 r []).im = 0 := by
  rw [(polar_scalar_part coord1 R Nr _ 0 r).2, Complex.im_sum]
  refine Finset.sum_eq_zero fun n _ => ?_
  rw [Complex.im_ofReal_mul, if_pos rfl, Complex.ofReal_im, mul_zero]

example : Accepted .real 16 ∧ 16 ≤ 24 ∧ 16 < 4 * 8 ∧ (∃ q, Jacobi.GridGuess 12 0 0 q) ∧ Accepted .complex 6 ∧ 6 < 4 * 2 :=
  ⟨Or.inr ⟨by decide, by decide⟩, by decide, by decide, Jacobi.guess_exists 12 0 0 (by norm_num) (by norm_num), Or.inr ⟨by decide, by decide⟩, by decide⟩

/-- Two radii with different factors. -/
example : ∃ data : List Nat → ℝ, ∃ v : Nat → ℝ, data ([0, 0] ++ [0, 1]) ≠ 0 ∧ v 0 ≠ v 1 := ⟨fun _ => 1, fun i => i, by norm_num, by norm_num⟩

end Dedalus.PolarField
