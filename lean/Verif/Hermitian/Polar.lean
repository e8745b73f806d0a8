import Verif.Hermitian.Lemmas
import Verif.Modes.Read

/-! Enforcing Hermitian symmetry in disks and annuli, for any radial plan. -/

namespace Dedalus.Hermitian
open Orders Orders.Spec SphereField
open PolarField.Spec (Accepted)

theorem perm_one {Nphi Ntheta : Nat} (h : Allowed .real Nphi Ntheta) (hm : mmax Nphi ≠ 0) : perm .real Nphi 1 = 1 := by
  rcases h.2 with rfl | ⟨_, ⟨C, rfl⟩, _⟩
  · exact absurd rfl hm
  · simp only [Dtype.parts] at *
    unfold perm
    rw [if_neg hm]
    simp only
    rw [show 2 * 2 * C = 4 * C by ring, permReal_eq C 1 (by omega)]
    rfl

/-- All rows come back but the sine part of order zero. -/
theorem azimuth_project {Nphi Ntheta : Nat} (N : Nat) (h : Allowed .real Nphi Ntheta) (hm : mmax Nphi ≠ 0) (hN : Nphi ≤ N) (c : Nat → ℝ) (i : Nat) (hi : i < Nphi) :
    azimuthForwardReal Nphi N (azimuthBackwardReal Nphi N c) i = if i = 1 then 0 else c i := by
  have heven : Nphi = 2 * (mmax Nphi + 1) := by
    rcases h.2 with rfl | ⟨_, ⟨C, rfl⟩, _⟩
    · exact absurd rfl hm
    · simp only [Dtype.parts, mmax] at *; omega
  unfold azimuthForwardReal azimuthBackwardReal
  rw [if_neg hm, if_neg hm, Fourier.real_round_trip N Nphi (by omega) _ _ (perm_lt .real Nphi Ntheta h hm i hi), backPerm_perm .real Nphi Ntheta h hm i hi]
  have hp := perm_lt .real Nphi Ntheta h hm i hi
  have hres : Fourier.Spec.Resolved N Nphi ((perm .real Nphi i / 2 : Nat) : Int) := by
    unfold Fourier.Spec.Resolved
    rw [abs_of_nonneg (by omega)]
    omega
  by_cases h1 : perm .real Nphi i = 1
  · have : i = 1 := perm_inj .real Nphi Ntheta h hm i 1 hi (by omega) (by rw [h1, perm_one h hm])
    subst this
    rw [if_neg (fun e => e.2 h1), if_pos rfl]
  · rw [if_pos ⟨hres, h1⟩, if_neg]
    rintro rfl
    exact h1 (perm_one h hm)

theorem wave_one {Nphi Ntheta : Nat} (h : Allowed .real Nphi Ntheta) (hm : mmax Nphi ≠ 0) : wave .real Nphi 1 = 0 := by
  rw [real_wave_perm, perm_one h hm]
  rfl

theorem rowPart_real (x : ℝ) (i : Nat) : Spec.rowPart (x : ℂ) i = if i % 2 = 0 then x else 0 := by
  unfold SphereField.Spec.rowPart
  split <;> simp

/-- row 1 is the only odd row of order zero -/
theorem odd_zero {Nphi Ntheta : Nat} (h : Allowed .real Nphi Ntheta) (hm : mmax Nphi ≠ 0) {i : Nat} (hi : i < Nphi) (hw : wave .real Nphi i = 0)
    (ho : i % 2 = 1) : i = 1 := by
  have hN : 2 < Nphi := by unfold mmax at hm; omega
  have hp := (real_rows Nphi Ntheta h).2.1 i (by unfold sphereGridRows; rw [if_pos (by omega)]; exact hi)
  rw [real_wave_perm] at hw
  refine perm_inj .real Nphi Ntheta h hm i 1 hi (by omega) ?_
  rw [perm_one h hm]
  omega

section
variable {coord0 coord1 : Spin.Coord} {sig : List Spin.Index}

/-- The Hermitian part of coefficients. -/
noncomputable def polarPart (coord0 coord1 : Spin.Coord) (sig : List Spin.Index) (a : List Nat → Int → Nat → ℂ) (t : List Nat) (m : Int) (n : Nat) : ℂ :=
  if m = 0 then (a t 0 n + (starRingEnd ℂ) (a (Spec.partner coord0 coord1 sig t) 0 n)) * (1 / 2) else a t m n

theorem part_zero (h : Spin.Spec.Suitable coord0 coord1 sig) {fs : List (Option Spin.Mat)} (hf : Spin.factors coord1 sig = some fs) (Nr : Nat)
    (R : Int → Int → Nat → ℝ → ℝ) (hR : ∀ s n r, R (-s) 0 n r = R s 0 n r) (a : List Nat → Int → Nat → ℂ) (r : ℝ) (t : List Nat)
    (ht : Spin.Spec.Component sig t) :
    PolarField.Spec.part R fs (spinWeight coord1 sig) Nr (polarPart coord0 coord1 sig a) 0 r t =
      ((PolarField.Spec.part R fs (spinWeight coord1 sig) Nr a 0 r t).re : ℂ) := by
  unfold PolarField.Spec.part
  refine backward_hermitian h hf _ _ (fun t ht => ?_) t ht
  unfold PolarField.Spec.spinPart
  rw [map_sum, ← Finset.sum_add_distrib, Finset.sum_mul]
  refine Finset.sum_congr rfl fun n _ => ?_
  unfold polarPart
  rw [if_pos rfl, (partner_component h ht).2.2, hR, map_mul, Complex.conj_ofReal]
  ring

theorem part_other (Nr : Nat) (R : Int → Int → Nat → ℝ → ℝ) (fs : List (Option Spin.Mat)) (a : List Nat → Int → Nat → ℂ) (m : Int) (hm : m ≠ 0) (r : ℝ)
    (t : List Nat) :
    PolarField.Spec.part R fs (spinWeight coord1 sig) Nr (polarPart coord0 coord1 sig a) m r t =
      PolarField.Spec.part R fs (spinWeight coord1 sig) Nr a m r t := by
  unfold PolarField.Spec.part PolarField.Spec.spinPart polarPart
  simp only [if_neg hm]

theorem rowPart_polar (h : Spin.Spec.Suitable coord0 coord1 sig) {Nphi Nr : Nat} (a : List Nat → Int → Nat → ℂ) (c : List Nat → Nat → Nat → ℝ)
    (hc : PolarField.Spec.HoldsReal sig Nphi Nr a c) (t : List Nat) (ht : Spin.Spec.Component sig t) (i n : Nat) (hi : i < polarRows .real Nphi) (hn : n < Nr) :
    SphereField.Spec.rowPart (polarPart coord0 coord1 sig a t (wave .real Nphi i) n) i =
      if wave .real Nphi i = 0 then Spec.hermitian coord0 coord1 sig 1 (fun t i => c t i n) t i else c t i n := by
  unfold polarPart Spec.hermitian
  by_cases hw : wave .real Nphi i = 0
  · rw [if_pos hw, if_pos hw]
    beta_reduce
    rw [hc t ht i n hi hn, hc _ (partner_component h ht).1 i n hi hn, hw]
    unfold SphereField.Spec.rowPart
    split
    · simp [Complex.add_re, Complex.mul_re]
      ring
    · simp [Complex.add_im, Complex.mul_im]
      ring
  · rw [if_neg hw, if_neg hw, hc t ht i n hi hn]

theorem polar_project (h : Spin.Spec.Suitable coord0 coord1 sig) {Nphi : Nat} (hA : Accepted .real Nphi) (N Nr Ng : Nat) (hN : Nphi ≤ N)
    (planB planF : List Nat → (Nat → Nat → ℝ) → Nat → Nat → ℝ) (f f' rad : Nat → ℝ) (R : Int → Int → Nat → ℝ → ℝ) (hR : ∀ s n r, R (-s) 0 n r = R s 0 n r)
    (kept : Int → Int → Nat → Prop) [∀ s m n, Decidable (kept s m n)]
    (hB : ∀ t, Spin.Spec.Component sig t → ∀ (c : List Nat → Nat → Nat → ℝ) i x, i < polarRows .real Nphi → x < Ng →
      planB t (c t) i x * f x = ∑ n ∈ Finset.range Nr, R (spinWeight coord1 sig t) (wave .real Nphi i) n (rad x) * c t i n)
    (hF : ∀ t, Spin.Spec.Component sig t → ∀ (u b : Nat → Nat → ℝ), (∀ i x, i < polarRows .real Nphi → x < Ng →
      u i x = (∑ n ∈ Finset.range Nr, R (spinWeight coord1 sig t) (wave .real Nphi i) n (rad x) * b i n) * f' x) → ∀ i n, i < polarRows .real Nphi → n < Nr →
        planF t u i n = if kept (spinWeight coord1 sig t) (wave .real Nphi i) n then b i n else 0)
    (hK : ∀ s m n r, ¬kept s m n → R s m n r = 0)
    (c : List Nat → Nat → Nat → ℝ) :
    ∃ u c' u', PolarField.toGridReal coord0 coord1 sig Nphi N Ng planB f c = some u ∧ PolarField.toCoeffReal coord0 coord1 sig Nphi N Ng planF f' u = some c' ∧
      (∀ t, Spin.Spec.Component sig t → ∀ i n, i < polarRows .real Nphi → n < Nr → c' t i n = if kept (spinWeight coord1 sig t) (wave .real Nphi i) n then
        (if wave .real Nphi i = 0 then Spec.hermitian coord0 coord1 sig 1 (fun t i => c t i n) t i else c t i n) else 0) ∧
      PolarField.toGridReal coord0 coord1 sig Nphi N Ng planB f c' = some u' ∧
      ∀ t, Spin.Spec.Component sig t → ∀ j x, x < Ng → u' t j x = u t j x := by
  obtain ⟨a, hc⟩ : ∃ a, PolarField.Spec.HoldsReal sig Nphi Nr a c := ⟨_, Modes.polar_holds_real hA sig Nr c⟩
  obtain ⟨fs, hf, -⟩ := Spin.spin_round_trip_complex coord0 coord1 sig h
  obtain ⟨fs1, u1, hf1, hu1, hv1⟩ := PolarField.values_real h hA N Nr Ng hN planB f rad R (spinWeight coord1 sig) a c hc
    (fun t ht i x hi hx => hB t ht c i x hi hx)
  rw [hf] at hf1
  cases hf1
  obtain ⟨g, hg1, hg2⟩ := PolarField.radius_real h hf hA Nr Ng planB f rad R (spinWeight coord1 sig) a c hc (fun t ht i x hi hx => hB t ht c i x hi hx)
  have hgd : ∀ t, Spin.Spec.Component sig t → ∀ r x, r < Nphi → x < Ng →
      azimuthForwardReal Nphi N (fun j => azimuthBackwardReal Nphi N (fun i => g t i x) j) r =
        SphereField.Spec.rowPart (PolarField.Spec.part R fs (spinWeight coord1 sig) Nr (polarPart coord0 coord1 sig a) (wave .real Nphi r) (rad x) t) r := by
    intro t ht r x hr hx
    by_cases hz : mmax Nphi = 0
    · have h1 := (PolarField.axisymmetric_real hA).1 hz
      have : r = 0 := by omega
      subst this
      unfold azimuthForwardReal azimuthBackwardReal
      rw [if_pos hz, if_pos hz, if_pos (by omega)]
      beta_reduce
      rw [hg2 t ht 0 x hr hx, wave_zero_real Nphi hz 0 (by omega), part_zero h hf Nr R hR a _ t ht, rowPart_real, if_pos rfl]
      rfl
    · rw [azimuth_project N hA.allowed hz hN (fun i => g t i x) r hr]
      by_cases hw : wave .real Nphi r = 0
      · rw [hw, part_zero h hf Nr R hR a _ t ht, rowPart_real]
        by_cases he : r % 2 = 0
        · rw [if_pos he, if_neg (by omega), hg2 t ht r x hr hx, hw]
          unfold SphereField.Spec.rowPart
          rw [if_pos he]
        · rw [if_neg he, if_pos (odd_zero hA.allowed hz hr hw (by omega))]
      · rw [part_other Nr R fs a _ hw, hg2 t ht r x hr hx, if_neg]
        rintro rfl
        exact hw (wave_one hA.allowed hz)
  obtain ⟨out, ho1, ho2⟩ := PolarField.radius_real_forward h hf hA Nr Ng planF f' rad R (spinWeight coord1 sig) kept (polarPart coord0 coord1 sig a)
    (fun t i x => azimuthForwardReal Nphi N (fun j => azimuthBackwardReal Nphi N (fun i => g t i x) j) i) hF hgd
    (fun _ t ht x _ => by rw [part_zero h hf Nr R hR a _ t ht, Complex.ofReal_im])
  -- the new coefficients
  have hc' : PolarField.Spec.HoldsReal sig Nphi Nr (fun t m n => if kept (spinWeight coord1 sig t) m n then polarPart coord0 coord1 sig a t m n else 0) out := by
    intro t ht i n hi hn
    rw [ho2 t ht i n hi hn]
    beta_reduce
    split
    · rfl
    · unfold SphereField.Spec.rowPart
      split <;> rfl
  obtain ⟨fs2, u2, hf2, hu2, hv2⟩ := PolarField.values_real h hA N Nr Ng hN planB f rad R (spinWeight coord1 sig) _ out hc'
    (fun t ht i x hi hx => hB t ht out i x hi hx)
  rw [hf] at hf2
  cases hf2
  have hgrid : PolarField.toGridReal coord0 coord1 sig Nphi N Ng planB f c = some fun t j x => azimuthBackwardReal Nphi N (fun i => g t i x) j := by
    unfold PolarField.toGridReal
    rw [hf]
    simp only [Option.bind_some, hg1, Option.map_some]
  refine ⟨_, out, u2, hgrid, ?_, fun t ht i n hi hn => ?_, hu2, fun t ht j x hx => ?_⟩
  · unfold PolarField.toCoeffReal
    rw [hf]
    exact ho1
  · rw [ho2 t ht i n hi hn, rowPart_polar h a c hc t ht i n hi hn]
  · rw [hgrid] at hu1
    cases hu1
    refine (hv2 t ht j x hx).trans (Eq.trans ?_ (hv1 t ht j x hx).symm)
    unfold PolarField.Spec.realValue
    refine Finset.sum_congr rfl fun m hm => ?_
    have e : PolarField.Spec.part R fs (spinWeight coord1 sig) Nr (fun t m n => if kept (spinWeight coord1 sig t) m n then polarPart coord0 coord1 sig a t m n else 0) m (rad x) t =
        PolarField.Spec.part R fs (spinWeight coord1 sig) Nr (polarPart coord0 coord1 sig a) m (rad x) t := by
      unfold PolarField.Spec.part
      refine SphereField.backward_congr h hf _ _ (fun t ht => ?_) t ht
      unfold PolarField.Spec.spinPart
      refine Finset.sum_congr rfl fun n hn => ?_
      beta_reduce
      by_cases hk : kept (spinWeight coord1 sig t) m n
      · rw [if_pos hk]
      · rw [if_neg hk, hK _ _ n _ hk]
        simp
    rw [e]
    by_cases hm0 : (m : Int) = 0
    · rw [hm0, part_zero h hf Nr R hR a _ t ht]
      have : Fourier.Spec.mode (0 : Int) (Fourier.Spec.grid N j) = 1 := zero_mode _
      rw [this, one_mul, one_mul, Complex.ofReal_re]
    · rw [part_other Nr R fs a _ hm0]

end

end Dedalus.Hermitian
