import Verif.Shell.Lemmas
import Verif.Ball.Props

/-!
# Properties of the operators of the annulus and the shell
-/

namespace Dedalus.Shell

open Jacobi Jacobi.Spec Spec
open Zernike (apply derivativeK)
open Zernike.Spec (HasPlaneDeriv HasPlaneLaplacian spinOf)

/-! ## C73: calculus on the annulus -/

theorem annulus_ladder (rin rout : ℝ) (hw : rin ≠ rout) (alpha : ℝ × ℝ) (ha : -1 < alpha.1) (hb : -1 < alpha.2) (N k : Nat) (mu m s : Int) (hmu : mu = 1 ∨ mu = -1)
    (c : Nat → ℂ) (r : ℝ) (hr : 0 < r) :
    HasDerivAt (radial rin rout alpha N k c) (((mu * (m + s) / r : ℝ) : ℂ) * radial rin rout alpha N k c r +
      radial rin rout alpha N (k + 1) (apply N (annulusLadder rin rout alpha N k mu m s) c) r) r := by
  have hw' : rout - rin ≠ 0 := sub_ne_zero.2 hw.symm
  have key : ∀ dl l : Int, dl * l = mu * (m + s) → annulusLadder rin rout alpha N k mu m s = square alpha (opDr 2 rin rout alpha.1 dl l) N k →
      HasDerivAt (radial rin rout alpha N k c) (((mu * (m + s) / r : ℝ) : ℂ) * radial rin rout alpha N k c r +
        radial rin rout alpha N (k + 1) (apply N (annulusLadder rin rout alpha N k mu m s) c) r) r := by
    intro dl l h1 h2
    have := radial_deriv 2 rin rout alpha hw' ha hb N k dl l c r hr.ne'
    have h3 : (dl : ℝ) * l = mu * (m + s) := by exact_mod_cast h1
    rw [h2]
    rw [h3] at this
    simpa using this
  unfold annulusLadder at key ⊢
  simp only at key ⊢
  by_cases h0 : m + s = 0
  · exact key 1 (m + s) (by rw [h0]; ring) (by rw [if_pos h0])
  · by_cases h1 : m + s < 0
    · exact key (-mu) (-(m + s)) (by ring) (by rw [if_neg h0, if_pos h1])
    · exact key mu (m + s) rfl (by rw [if_neg h0, if_neg h1])

theorem annulus_step (rin rout : ℝ) (hw : rin ≠ rout) (alpha : ℝ × ℝ) (ha : -1 < alpha.1) (hb : -1 < alpha.2) (N k : Nat) (mu m s : Int) (hmu : mu = 1 ∨ mu = -1)
    (c : Nat → ℂ) (r : ℝ) (hr : 0 < r) :
    HasPlaneDeriv mu m s (radial rin rout alpha N k c)
      (radial rin rout alpha N (k + 1) (apply N (fun i j => 1 / √2 * annulusLadder rin rout alpha N k mu m s i j) c) r) r := by
  refine ⟨_, annulus_ladder rin rout hw alpha ha hb N k mu m s hmu c r hr, ?_⟩
  rw [radial_mul]
  push_cast
  ring

/-- The gradient of a component of any spin weight `s`: its components are the derivatives along `(e_r ± i e_φ) / √2`. -/
theorem annulus_gradient_spin (rin rout : ℝ) (hw : rin ≠ rout) (alpha : ℝ × ℝ) (ha : -1 < alpha.1) (hb : -1 < alpha.2) (N k : Nat) (m s : Int) (comp : Nat)
    (hc : comp < 2) (c : Nat → ℂ) (r : ℝ) (hr : 0 < r) : ∃ A, gradientMatrix rin rout alpha N k comp m s = some A ∧
    HasPlaneDeriv (spinOf comp) m s (radial rin rout alpha N k c) (radial rin rout alpha N (derivativeK k 1) (apply N A c) r) r := by
  unfold gradientMatrix spinOf derivativeK
  rcases (by omega : comp = 0 ∨ comp = 1) with rfl | rfl
  · exact ⟨_, rfl, annulus_step rin rout hw alpha ha hb N k (-1) m s (Or.inr rfl) c r hr⟩
  · exact ⟨_, rfl, annulus_step rin rout hw alpha ha hb N k 1 m s (Or.inl rfl) c r hr⟩

/-- The divergence matrices are the derivatives along the direction opposite to that of the component they contract. -/
theorem annulus_divergence_spin (rin rout : ℝ) (hw : rin ≠ rout) (alpha : ℝ × ℝ) (ha : -1 < alpha.1) (hb : -1 < alpha.2) (N k : Nat) (m s : Int) (comp : Nat)
    (hc : comp < 2) (c : Nat → ℂ) (r : ℝ) (hr : 0 < r) : ∃ A, divergenceMatrix rin rout alpha N k comp m s = some A ∧
    HasPlaneDeriv (-spinOf comp) m s (radial rin rout alpha N k c) (radial rin rout alpha N (derivativeK k 1) (apply N A c) r) r := by
  unfold divergenceMatrix spinOf derivativeK
  rcases (by omega : comp = 0 ∨ comp = 1) with rfl | rfl
  · exact ⟨_, rfl, annulus_step rin rout hw alpha ha hb N k 1 m s (Or.inl rfl) c r hr⟩
  · exact ⟨_, rfl, annulus_step rin rout hw alpha ha hb N k (-1) m s (Or.inr rfl) c r hr⟩

/-- The gradient of a scalar `F(r) exp(i m φ)`, transformed back to azimuthal and radial components, is `(i m F / r, F')`. -/
theorem annulus_gradient (rin rout : ℝ) (hw : rin ≠ rout) (alpha : ℝ × ℝ) (ha : -1 < alpha.1) (hb : -1 < alpha.2) (N k : Nat) (m : Int) (c : Nat → ℂ) (r : ℝ) (hr : 0 < r) :
    ∃ Am Ap F', gradientMatrix rin rout alpha N k 0 m 0 = some Am ∧ gradientMatrix rin rout alpha N k 1 m 0 = some Ap ∧
      HasDerivAt (radial rin rout alpha N k c) F' r ∧
      Sphere.Spec.component (radial rin rout alpha N (derivativeK k 1) (apply N Am c) r)
        (radial rin rout alpha N (derivativeK k 1) (apply N Ap c) r) 0 = Complex.I * m * radial rin rout alpha N k c r / r ∧
      Sphere.Spec.component (radial rin rout alpha N (derivativeK k 1) (apply N Am c) r)
        (radial rin rout alpha N (derivativeK k 1) (apply N Ap c) r) 1 = F' := by
  obtain ⟨Am, hAm, F1, d1, e1⟩ := annulus_gradient_spin rin rout hw alpha ha hb N k m 0 0 (by norm_num) c r hr
  obtain ⟨Ap, hAp, F2, d2, e2⟩ := annulus_gradient_spin rin rout hw alpha ha hb N k m 0 1 (by norm_num) c r hr
  obtain rfl := d1.unique d2
  refine ⟨Am, Ap, F1, hAm, hAp, d1, ?_⟩
  rw [Zernike.plane_coef] at e1 e2
  rw [Sphere.component_azimuth, Sphere.component_colatitude, e1, e2]
  have hrc : (r : ℂ) ≠ 0 := by exact_mod_cast hr.ne'
  have h2 := Spin.sqrt2_mul
  have h2n := Spin.sqrt2_ne
  generalize radial rin rout alpha N k c r = F
  generalize ((√2 : ℝ) : ℂ) = t at *
  simp only [spinOf, if_pos, if_neg one_ne_zero]
  constructor
  · push_cast
    field_simp
    linear_combination (-(m : ℂ) * F) * h2
  · push_cast
    field_simp
    linear_combination (-F1 * r) * h2

/-- The divergence of a vector with components `(Vφ, Vr) exp(i m φ)` is `((r Vr)' + i m Vφ) / r`. -/
theorem annulus_divergence (rin rout : ℝ) (hw : rin ≠ rout) (alpha : ℝ × ℝ) (ha : -1 < alpha.1) (hb : -1 < alpha.2) (N k : Nat) (m : Int) (cm cp : Nat → ℂ) (r : ℝ)
    (hr : 0 < r) : ∃ Am Ap D, divergenceMatrix rin rout alpha N k 0 m (-1) = some Am ∧ divergenceMatrix rin rout alpha N k 1 m 1 = some Ap ∧
      HasDerivAt (fun x : ℝ => (x : ℂ) * Sphere.Spec.component (radial rin rout alpha N k cm x) (radial rin rout alpha N k cp x) 1) D r ∧
      radial rin rout alpha N (derivativeK k 1) (fun n => apply N Am cm n + apply N Ap cp n) r =
        (D + Complex.I * m * Sphere.Spec.component (radial rin rout alpha N k cm r) (radial rin rout alpha N k cp r) 0) / r := by
  obtain ⟨Am, hAm, F1, d1, e1⟩ := annulus_divergence_spin rin rout hw alpha ha hb N k m (-1) 0 (by norm_num) cm r hr
  obtain ⟨Ap, hAp, F2, d2, e2⟩ := annulus_divergence_spin rin rout hw alpha ha hb N k m 1 1 (by norm_num) cp r hr
  have hid : HasDerivAt (fun x : ℝ => (x : ℂ)) 1 r := by simpa using (hasDerivAt_id r).ofReal_comp
  have hd := hid.mul ((d1.add d2).div_const ((√2 : ℝ) : ℂ))
  refine ⟨Am, Ap, _, hAm, hAp, hd.congr_of_eventuallyEq (Filter.Eventually.of_forall fun x => by
    simp only [Sphere.component_colatitude, Pi.mul_apply, Pi.add_apply]), ?_⟩
  rw [Zernike.plane_coef] at e1 e2
  rw [radial_add, e1, e2, Sphere.component_azimuth]
  have hrc : (r : ℂ) ≠ 0 := by exact_mod_cast hr.ne'
  have h2n := Spin.sqrt2_ne
  simp only [Pi.add_apply]
  generalize radial rin rout alpha N k cm r = um
  generalize radial rin rout alpha N k cp r = up
  generalize ((√2 : ℝ) : ℂ) = t at *
  simp only [spinOf, if_pos, if_neg one_ne_zero]
  have hI := Complex.I_mul_I
  push_cast
  field_simp
  linear_combination -(m : ℂ) * (um - up) * hI

/-- The Laplacian of a component of any spin weight. -/
theorem annulus_laplacian (rin rout : ℝ) (hw : rin ≠ rout) (alpha : ℝ × ℝ) (ha : -1 < alpha.1) (hb : -1 < alpha.2) (N k : Nat) (m s : Int) (c : Nat → ℂ) (r : ℝ) (hr : 0 < r) :
    HasPlaneLaplacian m s (radial rin rout alpha N k c)
      (radial rin rout alpha N (derivativeK k 2) (apply N (annulusLaplacian rin rout alpha N k m s) c) r) r := by
  have hw' : rout - rin ≠ 0 := sub_ne_zero.2 hw.symm
  have hrc : (r : ℂ) ≠ 0 := by exact_mod_cast hr.ne'
  have key : ∀ dl l dl' l' : Int, (dl : ℝ) * l + (if dl = -1 then 1 else 0) * (2 - (2 : Nat)) = dl * l →
      (dl' : ℝ) * l' + (if dl' = -1 then 1 else 0) * (2 - (2 : Nat)) = dl' * l' → (dl * l) * (dl * l) = (m + s) * (m + s) → dl' * l' = -(dl * l) - 1 →
      annulusLaplacian rin rout alpha N k m s = square alpha ((opDr 2 rin rout alpha.1 dl' l').comp (opDr 2 rin rout alpha.1 dl l)) N k →
      HasPlaneLaplacian m s (radial rin rout alpha N k c)
        (radial rin rout alpha N (derivativeK k 2) (apply N (annulusLaplacian rin rout alpha N k m s) c) r) r := by
    intro dl l dl' l' h1 h2 h3 h4 h5
    have hF := fun x (hx : 0 < x) => radial_deriv 2 rin rout alpha hw' ha hb N k dl l c x hx.ne'
    have hH := radial_deriv 2 rin rout alpha hw' ha hb N (k + 1) dl' l' (apply N (square alpha (opDr 2 rin rout alpha.1 dl l) N k) c) r hr.ne'
    simp only [h1] at hF
    rw [h2] at hH
    have hS := Zernike.second_deriv (G := fun _ => 0) ((dl : ℝ) * l) r hr hF (fun x _ => rfl) hH
    refine ⟨_, _, hF, hS, ?_⟩
    rw [h5, radial_comp]
    unfold derivativeK
    generalize radial rin rout alpha N k c r = F at *
    generalize radial rin rout alpha N (k + 1) (apply N (square alpha (opDr 2 rin rout alpha.1 dl l) N k) c) r = H at *
    generalize radial rin rout alpha N (k + 2) _ r = G at *
    have h3' : ((dl : ℂ) * l) * (dl * l) = ((m + s : Int) : ℂ) * ((m + s : Int) : ℂ) := by exact_mod_cast h3
    have h4' : ((dl' : ℂ) * l') = -(dl * l) - 1 := by exact_mod_cast h4
    push_cast at *
    rw [h4']
    generalize (dl : ℂ) * l = p at *
    generalize (m : ℂ) + s = q at *
    field_simp
    linear_combination (-F) * h3'
  unfold annulusLaplacian at key ⊢
  simp only at key ⊢
  by_cases h : m + s < 0
  · refine key (-1) (m + s) 1 (m + s - 1) (by simp) (by simp) (by ring) (by ring) (by rw [if_pos h])
  · refine key 1 (m + s) (-1) (m + s + 1) (by simp) (by simp) (by ring) (by ring) (by rw [if_neg h])

example (r : ℝ) (hr : 0 < r) := annulus_gradient 1 3 (by norm_num) (-1 / 2, -1 / 2) (by norm_num) (by norm_num) 5 1 3 (fun n => if n = 2 then 1 else 0) r hr

/-! ## C73: tensor calculus in the shell -/

/-- The spin component `τ` at radius `r` of the tensor field of degree `ell` with the coefficients `c`: what the backward transform
evaluates. -/
noncomputable def Spec.field (ell rank : Nat) (rin rout : ℝ) (alpha : ℝ × ℝ) (N k : Nat) (c : List Int → Nat → ℂ) (τ : List Int) (r : ℝ) : ℂ :=
  Ball.spinComponent ell rank (fun reg => radial rin rout alpha N k (c reg) r) τ

theorem shell_ladder (rin rout : ℝ) (hw : rin ≠ rout) (alpha : ℝ × ℝ) (ha : -1 < alpha.1) (hb : -1 < alpha.2) (N k ell : Nat) (r : ℝ) (hr : 0 < r) :
    Ball.Ladder N ell (shellLadder rin rout alpha N k (-1) ell) (shellLadder rin rout alpha N k 1 ell)
      (fun _ c => radial rin rout alpha N k c) (fun _ c => radial rin rout alpha N (derivativeK k 1) c) r := by
  have hw' : rout - rin ≠ 0 := sub_ne_zero.2 hw.symm
  refine ⟨fun _ x y c d => ?_, fun _ c d h => radial_congr _ _ _ _ _ _ _ _ h, fun deg c => ?_, fun deg h c => ?_, fun deg h c => ?_⟩
  · rw [radial_add, radial_smul, radial_smul]
  · exact ⟨_, radial_deriv 3 rin rout alpha hw' ha hb N k 1 0 c r hr.ne'⟩
  · have := radial_deriv 3 rin rout alpha hw' ha hb N k 1 (ell + deg) c r hr.ne'
    refine this.congr_deriv ?_
    rw [if_neg (by omega)]
    unfold shellLadder derivativeK
    push_cast
    ring
  · have := radial_deriv 3 rin rout alpha hw' ha hb N k (-1) (ell + deg) c r hr.ne'
    refine this.congr_deriv ?_
    rw [if_pos rfl]
    unfold shellLadder derivativeK
    push_cast
    ring

/-- The gradient of a tensor field of any rank: the coefficients computed in the basis of order `k + 1` are those of the gradient. -/
theorem shell_gradient (rin rout : ℝ) (hw : rin ≠ rout) (alpha : ℝ × ℝ) (ha : -1 < alpha.1) (hb : -1 < alpha.2) (N k ell rank : Nat) (c : List Int → Nat → ℂ) (r : ℝ) (hr : 0 < r) :
    Regularity.Spec.IsGradient ell rank (Spec.field ell rank rin rout alpha N k c)
      (fun τ => Spec.field ell (rank + 1) rin rout alpha N (derivativeK k 1)
        (Ball.operate N ell (Ball.gradientTerms ell (shellLadder rin rout alpha N k (-1) ell) (shellLadder rin rout alpha N k 1 ell)) rank c) τ r) r :=
  (shell_ladder rin rout hw alpha ha hb N k ell r hr).gradient hr.ne' rank c

/-- The divergence of a tensor field of any rank, over its first index. -/
theorem shell_divergence (rin rout : ℝ) (hw : rin ≠ rout) (alpha : ℝ × ℝ) (ha : -1 < alpha.1) (hb : -1 < alpha.2) (N k ell rank : Nat) (c : List Int → Nat → ℂ) (r : ℝ) (hr : 0 < r) :
    Regularity.Spec.IsDivergence ell rank (Spec.field ell (rank + 1) rin rout alpha N k c)
      (fun τ => Spec.field ell rank rin rout alpha N (derivativeK k 1)
        (Ball.operate N ell (Ball.divergenceTerms ell (shellLadder rin rout alpha N k (-1) ell) (shellLadder rin rout alpha N k 1 ell)) (rank + 1) c) τ r) r :=
  (shell_ladder rin rout hw alpha ha hb N k ell r hr).divergence rank c

/-- The curl of a tensor field of any rank, over its first index. -/
theorem shell_curl (rin rout : ℝ) (hw : rin ≠ rout) (alpha : ℝ × ℝ) (ha : -1 < alpha.1) (hb : -1 < alpha.2) (N k ell rank : Nat) (c : List Int → Nat → ℂ) (r : ℝ) (hr : 0 < r) :
    Regularity.Spec.IsCurl ell rank (Spec.field ell (rank + 1) rin rout alpha N k c)
      (fun τ => Spec.field ell (rank + 1) rin rout alpha N (derivativeK k 1)
        (Ball.operate N ell (Ball.curlTerms ell (shellLadder rin rout alpha N k (-1) ell) (shellLadder rin rout alpha N k 1 ell)) (rank + 1) c) τ r) r :=
  (shell_ladder rin rout hw alpha ha hb N k ell r hr).curl hr.ne' rank c

/-- The Laplacian of a tensor field of any rank. -/
theorem shell_laplacian (rin rout : ℝ) (hw : rin ≠ rout) (alpha : ℝ × ℝ) (ha : -1 < alpha.1) (hb : -1 < alpha.2) (N k ell rank : Nat) (c : List Int → Nat → ℂ) (r : ℝ) (hr : 0 < r) :
    Regularity.Spec.IsLaplacian ell rank (Spec.field ell rank rin rout alpha N k c)
      (fun τ => Spec.field ell rank rin rout alpha N (derivativeK k 2)
        (Ball.operate N ell (Ball.diagonalTerms (shellLaplacian rin rout alpha N k ell)) rank c) τ r) r := by
  refine Ball.ladder_laplacian hr (fun x hx => shell_ladder rin rout hw alpha ha hb N k ell x hx) (shell_ladder rin rout hw alpha ha hb N (k + 1) ell r hr) ?_ rank c
  intro deg h c
  unfold shellLaplacian shellLadder
  rw [radial_comp]
  simp only [add_assoc]

example (r : ℝ) (hr : 0 < r) :=
  shell_gradient 1 3 (by norm_num) (-1 / 2, -1 / 2) (by norm_num) (by norm_num) 5 1 3 1 (fun reg n => if n = 2 ∧ reg = [1] then 1 else 0) r hr

end Dedalus.Shell
