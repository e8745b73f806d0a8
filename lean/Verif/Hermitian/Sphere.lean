import Verif.Hermitian.Polar

/-! Enforcing Hermitian symmetry on the sphere. -/

namespace Dedalus.Hermitian
open Orders Orders.Spec SphereField

theorem sign_neg (s : Int) : Spec.sign (-s) = Spec.sign s := by
  unfold Spec.sign
  rcases Int.emod_two_eq_zero_or_one s with h | h
  · rw [if_pos h, if_pos (by omega)]
  · rw [if_neg (by omega), if_neg (by omega)]

theorem sign_add (s t : Int) : Spec.sign (s + t) = Spec.sign s * Spec.sign t := by
  unfold Spec.sign
  rcases Int.emod_two_eq_zero_or_one s with h | h <;> rcases Int.emod_two_eq_zero_or_one t with h' | h'
  · have e : (s + t) % 2 = 0 := by omega
    simp [h, h', e]
  · have e : (s + t) % 2 = 1 := by omega
    simp [h, h', e]
  · have e : (s + t) % 2 = 1 := by omega
    simp [h, h', e]
  · have e : (s + t) % 2 = 0 := by omega
    simp [h, h', e]

theorem sign_mul_self (s : Int) : Spec.sign s * Spec.sign s = 1 := by
  unfold Spec.sign
  split <;> norm_num

theorem neg_one_zpow (s : Int) : (-1 : ℝ) ^ s = Spec.sign s := by
  unfold Spec.sign
  rcases Int.emod_two_eq_zero_or_one s with h | h
  · rw [if_pos h, Even.neg_one_zpow (Int.even_iff.2 h)]
  · rw [if_neg (by omega), Odd.neg_one_zpow (Int.odd_iff.2 h)]

theorem harmonic_neg (l : Nat) (s : Int) (z : ℝ) : Sphere.Spec.Y l 0 (-s) z = Spec.sign s * Sphere.Spec.Y l 0 s z := by
  unfold Sphere.Spec.Y
  have e1 : ((0 : Int) + -s).natAbs = s.natAbs := by omega
  have e2 : ((0 : Int) - -s).natAbs = s.natAbs := by omega
  have e3 : ((0 : Int) + s).natAbs = s.natAbs := by omega
  have e4 : ((0 : Int) - s).natAbs = s.natAbs := by omega
  have e5 : (-s).natAbs = s.natAbs := by omega
  rw [e1, e2, e3, e4, e5, neg_one_zpow, neg_one_zpow]
  have e : Spec.sign (max 0 (- -s)) = Spec.sign s * Spec.sign (max 0 (-s)) := by
    rcases le_total 0 s with h | h
    · rw [max_eq_right (by omega), max_eq_left (by omega), neg_neg]
      simp [Spec.sign]
    · rw [max_eq_left (by omega), max_eq_right (by omega), sign_neg, sign_mul_self]
      simp [Spec.sign]
  rw [e]
  ring

section
variable {coord0 coord1 : Spin.Coord} {sig : List Spin.Index}

/-- The Hermitian part of coefficients. -/
noncomputable def spherePart (coord0 coord1 : Spin.Coord) (sig : List Spin.Index) (a : List Nat → Int → Int → ℂ) (t : List Nat) (m l : Int) : ℂ :=
  if m = 0 then (a t 0 l + (Spec.sign (spinWeight coord1 sig t) : ℝ) * (starRingEnd ℂ) (a (Spec.partner coord0 coord1 sig t) 0 l)) * (1 / 2) else a t m l

theorem sphere_part_zero (h : Spin.Spec.Suitable coord0 coord1 sig) {fs : List (Option Spin.Mat)} (hf : Spin.factors coord1 sig = some fs) (L : Nat)
    (a : List Nat → Int → Int → ℂ) (z : ℝ) (t : List Nat) (ht : Spin.Spec.Component sig t) :
    SphereField.Spec.part fs (spinWeight coord1 sig) L (spherePart coord0 coord1 sig a) 0 z t =
      ((SphereField.Spec.part fs (spinWeight coord1 sig) L a 0 z t).re : ℂ) := by
  unfold SphereField.Spec.part
  refine backward_hermitian h hf _ _ (fun t ht => ?_) t ht
  unfold SphereField.Spec.spinPart
  have hp := (partner_component h ht).2.2
  rw [hp, Int.natAbs_neg, map_sum, ← Finset.sum_add_distrib, Finset.sum_mul]
  refine Finset.sum_congr rfl fun l _ => ?_
  unfold spherePart
  rw [if_pos rfl, harmonic_neg, map_mul, Complex.conj_ofReal, Complex.ofReal_mul]
  ring

theorem sphere_part_other (L : Nat) (fs : List (Option Spin.Mat)) (a : List Nat → Int → Int → ℂ) (m : Int) (hm : m ≠ 0) (z : ℝ) (t : List Nat) :
    SphereField.Spec.part fs (spinWeight coord1 sig) L (spherePart coord0 coord1 sig a) m z t =
      SphereField.Spec.part fs (spinWeight coord1 sig) L a m z t := by
  unfold SphereField.Spec.part SphereField.Spec.spinPart spherePart
  simp only [if_neg hm]

theorem sphere_project (h : Spin.Spec.Suitable coord0 coord1 sig) (Nphi Ntheta N Ng : Nat) (hA : Allowed .real Nphi Ntheta)
    (hg : lmaxOf .real Ntheta < Ng) (hN : Nphi ≤ N) (q : Nat → ℝ) (hq : Jacobi.GridGuess Ng 0 0 q) (a : List Nat → Int → Int → ℂ)
    (c : List Nat → Nat → Nat → ℝ) (hc : SphereField.Spec.HoldsReal sig Nphi (lmaxOf .real Ntheta) a c) :
    ∃ fs u c', Spin.factors coord1 sig = some fs ∧ toGridReal coord0 coord1 sig Nphi (lmaxOf .real Ntheta) N Ng q c = some u ∧
      toCoeffReal coord0 coord1 sig Nphi (lmaxOf .real Ntheta) N Ng q u = some c' ∧
      (∀ t, Spin.Spec.Component sig t → ∀ i j, i < (sphereShape .real Nphi (lmaxOf .real Ntheta)).1 → j < (sphereShape .real Nphi (lmaxOf .real Ntheta)).2 →
        ∃ m l, sphereGroup .real Nphi (lmaxOf .real Ntheta) i j = some (m, l) ∧
          c' t i j = if |spinWeight coord1 sig t| ≤ l then SphereField.Spec.rowPart (spherePart coord0 coord1 sig a t m l) i else 0) ∧
      ∀ t, Spin.Spec.Component sig t → ∀ j x, x < Ng → u t j x = SphereField.Spec.realValue fs (spinWeight coord1 sig) (lmaxOf .real Ntheta) (mmax Nphi)
        (spherePart coord0 coord1 sig a) (Sphere.grid Ng q x).1 (Fourier.Spec.grid N j) t := by
  obtain ⟨fs, u, hf, hu, hv⟩ := sphere_values_real h Nphi Ntheta N Ng hA hg hN q hq a c hc
  obtain ⟨maps, hm, -⟩ := sphere_order_maps .real Nphi Ntheta Ng 1 0 hA (by omega)
  obtain ⟨g, hg1, hg2⟩ := colat_real h hf Nphi Ntheta Ng hA hg q hq maps hm a c hc
  have hgd : ∀ t, Spin.Spec.Component sig t → ∀ r x, r < sphereGridRows .real Nphi → x < Ng →
      azimuthForwardReal Nphi N (fun j => azimuthBackwardReal Nphi N (fun i => g t i x) j) r =
        SphereField.Spec.rowPart (1 * SphereField.Spec.part fs (spinWeight coord1 sig) (lmaxOf .real Ntheta) (spherePart coord0 coord1 sig a)
          (wave .real Nphi r) (Sphere.grid Ng q x).1 t) r := by
    intro t ht r x hr hx
    rw [one_mul]
    by_cases hz : mmax Nphi = 0
    · have h2 : sphereGridRows .real Nphi = 2 := by unfold sphereGridRows; rw [if_neg (by omega)]; rfl
      unfold azimuthForwardReal azimuthBackwardReal
      rw [if_pos hz, if_pos hz, wave_zero_real Nphi hz r (by omega), sphere_part_zero h hf _ a _ t ht, rowPart_real]
      have : r = 0 ∨ r = 1 := by omega
      rcases this with rfl | rfl
      · rw [if_pos (by omega)]
        beta_reduce
        rw [hg2 t ht 0 x hr hx, if_pos hz, wave_zero_real Nphi hz 0 (by omega), if_pos rfl]
        rfl
      · rw [if_neg (by omega), if_neg (by omega)]
    · have hgr : sphereGridRows .real Nphi = Nphi := by unfold sphereGridRows; rw [if_pos (by omega)]
      rw [azimuth_project N hA hz hN (fun i => g t i x) r (by omega)]
      by_cases hw : wave .real Nphi r = 0
      · rw [hw, sphere_part_zero h hf _ a _ t ht, rowPart_real]
        by_cases he : r % 2 = 0
        · rw [if_pos he, if_neg (by omega), hg2 t ht r x hr hx, if_neg hz, hw]
          unfold SphereField.Spec.rowPart
          rw [if_pos he]
        · rw [if_neg he, if_pos (odd_zero hA hz (by omega) hw (by omega))]
      · rw [sphere_part_other _ fs a _ hw, hg2 t ht r x hr hx, if_neg hz, if_neg]
        rintro rfl
        exact hw (wave_one hA hz)
  obtain ⟨out, ho1, ho2⟩ := colat_real_forward h hf Nphi Ntheta Ng hA hg q hq maps hm (spherePart coord0 coord1 sig a) 1
    (fun t i x => azimuthForwardReal Nphi N (fun j => azimuthBackwardReal Nphi N (fun i => g t i x) j) i) hgd
  have hgrid : toGridReal coord0 coord1 sig Nphi (lmaxOf .real Ntheta) N Ng q c = some fun t j x => azimuthBackwardReal Nphi N (fun i => g t i x) j := by
    unfold toGridReal
    rw [hf, hm]
    simp only [Option.bind_some, hg1, Option.map_some]
  refine ⟨fs, u, out, hf, hu, ?_, fun t ht i j hi hj => ?_, fun t ht j x hx => ?_⟩
  · rw [hgrid] at hu
    cases hu
    unfold toCoeffReal
    rw [hf, hm]
    exact ho1
  · obtain ⟨m, l, e1, e2⟩ := ho2 t ht i j hi hj
    exact ⟨m, l, e1, by rw [e2, one_mul]⟩
  · rw [hv t ht j x hx]
    unfold SphereField.Spec.realValue
    refine Finset.sum_congr rfl fun m hm => ?_
    by_cases hm0 : (m : Int) = 0
    · rw [hm0, sphere_part_zero h hf _ a _ t ht]
      have : Fourier.Spec.mode (0 : Int) (Fourier.Spec.grid N j) = 1 := zero_mode _
      rw [this, one_mul, one_mul, Complex.ofReal_re]
    · rw [sphere_part_other _ fs a _ hm0]

end

end Dedalus.Hermitian
