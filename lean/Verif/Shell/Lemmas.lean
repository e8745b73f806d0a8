import Verif.Shell.Model
import Verif.Shell.Spec
import Verif.Zernike.Calculus
import Verif.Jacobi.Props

namespace Dedalus.Shell

open Jacobi Jacobi.Spec Spec
open Zernike (apply)

theorem rep_Zr (rin rout a b : ℝ) (ha : -1 < a) (hb : -1 < b) : RepAt (opZr rin rout) (fun z => z + (rout + rin) / (rout - rin)) a b := by
  intro n j z hj
  have h := rep_Z a b ha hb n j z hj
  have hr : opZ.rows n = n + 1 := rfl
  rw [hr] at h
  change _ = ∑ i ∈ Finset.range (n + 1), (opZ.entry n a b i j + if i = j then (rout + rin) / (rout - rin) else 0) * Q i (a + 0) (b + 0) z
  have h' : z * Q j a b z = ∑ i ∈ Finset.range (n + 1), opZ.entry n a b i j * Q i (a + 0) (b + 0) z := h
  simp only [add_mul, Finset.sum_add_distrib, ite_mul, zero_mul]
  rw [Finset.sum_ite_eq' _ _ _, if_pos (Finset.mem_range.2 (by omega)), ← h', add_zero, add_zero]

theorem rep_AB (a b : ℝ) (ha : -1 < a) (hb : -1 < b) : RepAt opAB (fun _ => 1) a b := by
  have h := RepAt.comp (L := opAp) (R := opBp) (a := a) (b := b) (mL := fun _ => 1) (mR := fun _ => 1)
    (by change RepAt opAp _ (a + 0) (b + 1); exact rep_Ap _ _ (by linarith) (by linarith)) (rep_Bp a b ha hb)
  simp only [mul_one] at h
  exact h

theorem rep_smul {A : Op} {m : ℝ → ℝ} {a b : ℝ} (q : ℝ) (h : RepAt A m a b) : RepAt (Zernike.smul q A) (fun z => q * m z) a b := by
  intro n j z hj
  have := h n j z hj
  simp only [Zernike.smul, mul_assoc, ← Finset.mul_sum]
  rw [this]

theorem rep_E (rin rout a b : ℝ) (ha : -1 < a) (hb : -1 < b) : RepAt (opE rin rout) (fun z => 0.5 * (z + (rout + rin) / (rout - rin))) a b := by
  have h := RepAt.comp (L := opAB) (R := opZr rin rout) (a := a) (b := b) (mL := fun _ => 1)
    (by change RepAt opAB _ (a + 0) (b + 0); rw [add_zero, add_zero]; exact rep_AB a b ha hb) (rep_Zr rin rout a b ha hb)
  have := rep_smul 0.5 h
  simp only [one_mul] at this
  exact this

theorem E_shift (rin rout : ℝ) : (opE rin rout).da = 1 ∧ (opE rin rout).db = 1 ∧ ∀ n, (opE rin rout).rows n = n + 1 := by
  refine ⟨?_, ?_, fun n => rfl⟩
  · change (0 : ℝ) + (0 + 1) = 1; norm_num
  · change (0 : ℝ) + (1 + 0) = 1; norm_num

theorem AB_shift : opAB.da = 1 ∧ opAB.db = 1 ∧ ∀ n, opAB.rows n = n := by
  refine ⟨?_, ?_, fun n => rfl⟩
  · change (0 : ℝ) + 1 = 1; norm_num
  · change (1 : ℝ) + 0 = 1; norm_num

/-- derivative of the polynomials, by the matrix -/
theorem rep_D (a b : ℝ) (ha : -1 < a) (hb : -1 < b) (n j : Nat) (hj : j < n) (z : ℝ) :
    HasDerivAt (fun x => Q j a b x) (∑ i ∈ Finset.range (n - 1), opD.entry n a b i j * Q i (a + 1) (b + 1) z) z := by
  have := Q_deriv a b ha hb n j hj z
  refine this.congr_deriv ?_
  unfold differentiationMatrix
  symm
  apply Finset.sum_subset_zero_on_sdiff
  · intro x hx; simp at *; omega
  · intro x hx
    simp at hx
    rw [if_neg (by omega), zero_mul]
  · intro x hx
    rw [if_pos (Finset.mem_range.1 hx)]

/-- derivative of `(z + rho) Q` -/
theorem rep_DZ (rin rout a b : ℝ) (ha : -1 < a) (hb : -1 < b) (n j : Nat) (hj : j < n) (z : ℝ) :
    HasDerivAt (fun x => (x + (rout + rin) / (rout - rin)) * Q j a b x)
      (∑ i ∈ Finset.range n, (opD.comp (opZr rin rout)).entry n a b i j * Q i (a + 1) (b + 1) z) z := by
  have hz := fun x => rep_Zr rin rout a b ha hb n j x hj
  have hrow : (opZr rin rout).rows n = n + 1 := rfl
  have h0 : ∀ x, (x + (rout + rin) / (rout - rin)) * Q j a b x = ∑ i ∈ Finset.range (n + 1), (opZr rin rout).entry n a b i j * Q i a b x := by
    intro x
    have := hz x
    rw [hrow] at this
    change _ = ∑ i ∈ Finset.range (n + 1), (opZr rin rout).entry n a b i j * Q i (a + 0) (b + 0) x at this
    rw [add_zero, add_zero] at this
    exact this
  have h1 : HasDerivAt (fun x => ∑ i ∈ Finset.range (n + 1), (opZr rin rout).entry n a b i j * Q i a b x)
      (∑ i ∈ Finset.range (n + 1), (opZr rin rout).entry n a b i j * ∑ t ∈ Finset.range n, opD.entry (n + 1) a b t i * Q t (a + 1) (b + 1) z) z := by
    have := HasDerivAt.sum (u := Finset.range (n + 1)) (A := fun i x => (opZr rin rout).entry n a b i j * Q i a b x)
      (A' := fun i => (opZr rin rout).entry n a b i j * ∑ t ∈ Finset.range n, opD.entry (n + 1) a b t i * Q t (a + 1) (b + 1) z) (x := z)
      (fun i hi => (rep_D a b ha hb (n + 1) i (Finset.mem_range.1 hi) z).const_mul _)
    refine this.congr_of_eventuallyEq (Filter.Eventually.of_forall fun x => ?_)
    simp only [Finset.sum_apply]
  refine (h1.congr_deriv ?_).congr_of_eventuallyEq (Filter.Eventually.of_forall fun x => h0 x)
  simp only [Finset.mul_sum]
  rw [Finset.sum_comm]
  apply Finset.sum_congr rfl
  intro t _
  change _ = (∑ l ∈ Finset.range (n + 1), opD.entry (n + 1) (a + 0) (b + 0) t l * (opZr rin rout).entry n a b l j) * _
  rw [add_zero, add_zero, Finset.sum_mul]
  apply Finset.sum_congr rfl
  intro l _
  ring

theorem K_entry (dim : Nat) (alpha : ℝ) (dl l : Int) (n : Nat) (a b : ℝ) (i j : Nat) (hi : i < n) : ((opK dim alpha dl l).comp opAB).entry n a b i j =
    (a + 1 - alpha + (dl * l + (if dl = -1 then 1 else 0) * (2 - dim))) * opAB.entry n a b i j := by
  change ∑ t ∈ Finset.range n, (if i = t then a + (0 + 1) - alpha + (dl * l + (if dl = -1 then 1 else 0) * (2 - (dim : ℝ))) else 0) * opAB.entry n a b t j = _
  simp only [ite_mul, zero_mul]
  rw [Finset.sum_ite_eq _ _ _, if_pos (Finset.mem_range.2 hi), zero_add]

/-- The radial operator: `(2 / dR) (d/dz) ((z + rho) Q) / 2 - K Q / dR`. -/
theorem rep_Dr (dim : Nat) (rin rout alpha : ℝ) (dl l : Int) (a b : ℝ) (ha : -1 < a) (hb : -1 < b) (n j : Nat) (hj : j < n) (z : ℝ) :
    HasDerivAt (fun x => (x + (rout + rin) / (rout - rin)) * Q j a b x)
      ((a + 1 - alpha + (dl * l + (if dl = -1 then 1 else 0) * (2 - dim))) * Q j a b z +
        (rout - rin) * ∑ i ∈ Finset.range n, (opDr dim rin rout alpha dl l).entry n a b i j * Q i (a + 1) (b + 1) z) z ∨ rout = rin := by
  by_cases h : rout = rin
  · exact Or.inr h
  left
  have hw : rout - rin ≠ 0 := sub_ne_zero.2 h
  refine (rep_DZ rin rout a b ha hb n j hj z).congr_deriv ?_
  have hAB := rep_AB a b ha hb n j z hj
  rw [one_mul, AB_shift.1, AB_shift.2.1, AB_shift.2.2] at hAB
  rw [hAB, Finset.mul_sum, Finset.mul_sum, ← Finset.sum_add_distrib]
  apply Finset.sum_congr rfl
  intro i hi
  have hi' := Finset.mem_range.1 hi
  have e : (opDr dim rin rout alpha dl l).entry n a b i j = ((if i < (opD.comp (opZr rin rout)).rows n then (opD.comp (opZr rin rout)).entry n a b i j else 0) -
      ((opK dim alpha dl l).comp opAB).entry n a b i j) / (rout - rin) := rfl
  rw [e, K_entry dim alpha dl l n a b i j hi', if_pos (show i < (opD.comp (opZr rin rout)).rows n from (show i < n + 1 - 1 by omega))]
  field_simp
  ring

theorem alpha_gt (x : ℝ) (k : Nat) (h : -1 < x) : -1 < (k : ℝ) + x := by
  have : (0 : ℝ) ≤ k := Nat.cast_nonneg k
  linarith

/-- The basis function of index `n`. -/
noncomputable def phi (rin rout : ℝ) (alpha : ℝ × ℝ) (k n : Nat) (r : ℝ) : ℝ :=
  ((rout - rin) / r) ^ k * Q n (alpha.1 + k) (alpha.2 + k) (native rin rout r)

theorem radial_phi (rin rout : ℝ) (alpha : ℝ × ℝ) (N k : Nat) (c : Nat → ℂ) (r : ℝ) :
    radial rin rout alpha N k c r = ∑ n ∈ Finset.range N, (phi rin rout alpha k n r : ℂ) * c n := by
  unfold radial phi
  rw [Finset.mul_sum]
  apply Finset.sum_congr rfl
  intro n _
  push_cast
  ring

theorem native_rho (rin rout r : ℝ) (h : rout - rin ≠ 0) : native rin rout r + (rout + rin) / (rout - rin) = 2 * r / (rout - rin) := by
  unfold native
  field_simp
  ring

theorem phi_deriv (dim : Nat) (rin rout : ℝ) (alpha : ℝ × ℝ) (hw : rout - rin ≠ 0) (ha : -1 < alpha.1) (hb : -1 < alpha.2) (N k n : Nat) (hn : n < N) (dl l : Int)
    (r : ℝ) (hr : r ≠ 0) :
    HasDerivAt (phi rin rout alpha k n) ((dl * l + (if dl = -1 then 1 else 0) * (2 - dim)) / r * phi rin rout alpha k n r +
      ∑ i ∈ Finset.range N, square alpha (opDr dim rin rout alpha.1 dl l) N k i n * phi rin rout alpha (k + 1) i r) r := by
  have hD := (rep_Dr dim rin rout alpha.1 dl l (k + alpha.1) (k + alpha.2) (alpha_gt _ k ha) (alpha_gt _ k hb) N n hn (native rin rout r)).resolve_right
    (fun h => hw (by rw [h, sub_self]))
  have hnat : HasDerivAt (native rin rout) (2 / (rout - rin)) r := by
    have := (((hasDerivAt_id r).sub_const rin).const_mul 2).div_const (rout - rin)
    refine ((this.sub_const 1).congr_deriv (by ring)).congr_of_eventuallyEq (Filter.Eventually.of_forall fun x => rfl)
  have hc := hD.comp r hnat
  have hf : HasDerivAt (fun x : ℝ => ((rout - rin) / x) ^ (k + 1) / 2) (-((k + 1 : Nat) : ℝ) * ((rout - rin) / r) ^ (k + 1) / r / 2) r := by
    have h1 : HasDerivAt (fun x : ℝ => (rout - rin) / x) (-(rout - rin) / r ^ 2) r := by
      have := (hasDerivAt_inv hr).const_mul (rout - rin)
      refine (this.congr_deriv (by ring)).congr_of_eventuallyEq (Filter.Eventually.of_forall fun x => ?_)
      simp only [div_eq_mul_inv]
    have := (h1.pow (k + 1)).div_const 2
    refine (this.congr_deriv ?_).congr_of_eventuallyEq (Filter.Eventually.of_forall fun x => ?_)
    · rw [Nat.add_sub_cancel, pow_succ ((rout - rin) / r) k]
      field_simp
    · simp only [Pi.pow_apply]
  have hp := hf.mul hc
  refine (hp.congr_deriv ?_).congr_of_eventuallyEq ?_
  · simp only [Function.comp_apply]
    rw [native_rho rin rout r hw]
    have es : ∑ i ∈ Finset.range N, square alpha (opDr dim rin rout alpha.1 dl l) N k i n * phi rin rout alpha (k + 1) i r =
        ((rout - rin) / r) ^ (k + 1) * ∑ i ∈ Finset.range N, (opDr dim rin rout alpha.1 dl l).entry N (k + alpha.1) (k + alpha.2) i n *
          Q i (k + alpha.1 + 1) (k + alpha.2 + 1) (native rin rout r) := by
      rw [Finset.mul_sum]
      apply Finset.sum_congr rfl
      intro i hi
      unfold square phi
      rw [if_pos (show i < (opDr dim rin rout alpha.1 dl l).rows N from Finset.mem_range.1 hi), show alpha.1 + ((k + 1 : Nat) : ℝ) = k + alpha.1 + 1 by push_cast; ring,
        show alpha.2 + ((k + 1 : Nat) : ℝ) = k + alpha.2 + 1 by push_cast; ring]
      ring
    rw [es]
    unfold phi
    rw [add_comm alpha.1, add_comm alpha.2]
    generalize ∑ i ∈ Finset.range N, (opDr dim rin rout alpha.1 dl l).entry N (k + alpha.1) (k + alpha.2) i n *
      Q i (k + alpha.1 + 1) (k + alpha.2 + 1) (native rin rout r) = S
    generalize Q n (k + alpha.1) (k + alpha.2) (native rin rout r) = q
    rw [pow_succ ((rout - rin) / r) k]
    generalize ((rout - rin) / r) ^ k = t
    generalize (if dl = -1 then (1 : ℝ) else 0) * (2 - dim) = e
    push_cast
    field_simp
    ring
  · filter_upwards [isOpen_ne.mem_nhds hr] with x hx
    have hx' : x ≠ 0 := hx
    simp only [Pi.mul_apply, Function.comp_apply]
    rw [native_rho rin rout x hw]
    unfold phi
    rw [add_comm alpha.1, add_comm alpha.2, pow_succ ((rout - rin) / x) k]
    field_simp

theorem radial_apply (rin rout : ℝ) (alpha : ℝ × ℝ) (N k : Nat) (A : Nat → Nat → ℝ) (c : Nat → ℂ) (r : ℝ) :
    radial rin rout alpha N k (apply N A c) r = ∑ n ∈ Finset.range N, ((∑ i ∈ Finset.range N, A i n * phi rin rout alpha k i r : ℝ) : ℂ) * c n := by
  rw [radial_phi]
  unfold apply
  simp only [Finset.mul_sum]
  rw [Finset.sum_comm]
  apply Finset.sum_congr rfl
  intro n _
  rw [Complex.ofReal_sum, Finset.sum_mul]
  apply Finset.sum_congr rfl
  intro i _
  push_cast
  ring

/-- The ladder: `D` is `d/dr` minus a multiple of `1/r`. -/
theorem radial_deriv (dim : Nat) (rin rout : ℝ) (alpha : ℝ × ℝ) (hw : rout - rin ≠ 0) (ha : -1 < alpha.1) (hb : -1 < alpha.2) (N k : Nat) (dl l : Int)
    (c : Nat → ℂ) (r : ℝ) (hr : r ≠ 0) :
    HasDerivAt (radial rin rout alpha N k c) ((((dl * l + (if dl = -1 then 1 else 0) * (2 - dim)) / r : ℝ) : ℂ) * radial rin rout alpha N k c r +
      radial rin rout alpha N (k + 1) (apply N (square alpha (opDr dim rin rout alpha.1 dl l) N k) c) r) r := by
  have h1 := HasDerivAt.sum (u := Finset.range N) (A := fun n x => (phi rin rout alpha k n x : ℂ) * c n)
    (A' := fun n => (((dl * l + (if dl = -1 then 1 else 0) * (2 - dim)) / r * phi rin rout alpha k n r +
      ∑ i ∈ Finset.range N, square alpha (opDr dim rin rout alpha.1 dl l) N k i n * phi rin rout alpha (k + 1) i r : ℝ) : ℂ) * c n) (x := r)
    (fun n hn => ((phi_deriv dim rin rout alpha hw ha hb N k n (Finset.mem_range.1 hn) dl l r hr).ofReal_comp).mul_const (c n))
  refine (h1.congr_deriv ?_).congr_of_eventuallyEq (Filter.Eventually.of_forall fun x => ?_)
  · rw [radial_phi, radial_apply, Finset.mul_sum, ← Finset.sum_add_distrib]
    apply Finset.sum_congr rfl
    intro n _
    rw [Complex.ofReal_add, Complex.ofReal_mul]
    ring
  · rw [radial_phi]
    simp only [Finset.sum_apply]

theorem radial_congr (rin rout : ℝ) (alpha : ℝ × ℝ) (N k : Nat) (c c' : Nat → ℂ) (r : ℝ) (h : ∀ n, n < N → c n = c' n) :
    radial rin rout alpha N k c r = radial rin rout alpha N k c' r := by
  unfold radial
  congr 1
  apply Finset.sum_congr rfl
  intro n hn
  rw [h n (Finset.mem_range.1 hn)]

theorem radial_add (rin rout : ℝ) (alpha : ℝ × ℝ) (N k : Nat) (c c' : Nat → ℂ) (r : ℝ) :
    radial rin rout alpha N k (fun n => c n + c' n) r = radial rin rout alpha N k c r + radial rin rout alpha N k c' r := by
  unfold radial
  rw [← mul_add, ← Finset.sum_add_distrib]
  congr 1
  apply Finset.sum_congr rfl
  intro n _
  ring

theorem radial_smul (rin rout : ℝ) (alpha : ℝ × ℝ) (N k : Nat) (q : ℂ) (c : Nat → ℂ) (r : ℝ) :
    radial rin rout alpha N k (fun n => q * c n) r = q * radial rin rout alpha N k c r := by
  unfold radial
  rw [mul_left_comm]
  congr 1
  rw [Finset.mul_sum]
  apply Finset.sum_congr rfl
  intro n _
  ring

theorem radial_mul (rin rout : ℝ) (alpha : ℝ × ℝ) (N k : Nat) (q : ℝ) (A : Nat → Nat → ℝ) (c : Nat → ℂ) (r : ℝ) :
    radial rin rout alpha N k (apply N (fun i j => q * A i j) c) r = (q : ℂ) * radial rin rout alpha N k (apply N A c) r := by
  rw [← radial_smul]
  apply radial_congr
  intro n _
  unfold apply
  rw [Finset.mul_sum]
  apply Finset.sum_congr rfl
  intro i _
  push_cast
  ring

theorem square_comp (dim : Nat) (rin rout : ℝ) (alpha : ℝ × ℝ) (N k : Nat) (dl l dl' l' : Int) (i j : Nat) (hi : i < N) :
    square alpha ((opDr dim rin rout alpha.1 dl' l').comp (opDr dim rin rout alpha.1 dl l)) N k i j =
      ∑ t ∈ Finset.range N, square alpha (opDr dim rin rout alpha.1 dl' l') N (k + 1) i t * square alpha (opDr dim rin rout alpha.1 dl l) N k t j := by
  unfold square
  rw [if_pos (show i < ((opDr dim rin rout alpha.1 dl' l').comp (opDr dim rin rout alpha.1 dl l)).rows N from hi)]
  change ∑ t ∈ Finset.range N, (opDr dim rin rout alpha.1 dl' l').entry N (k + alpha.1 + 1) (k + alpha.2 + 1) i t * (opDr dim rin rout alpha.1 dl l).entry N (k + alpha.1) (k + alpha.2) t j = _
  apply Finset.sum_congr rfl
  intro t ht
  rw [if_pos (show i < (opDr dim rin rout alpha.1 dl' l').rows N from hi), if_pos (show t < (opDr dim rin rout alpha.1 dl l).rows N from Finset.mem_range.1 ht)]
  push_cast
  rw [show (k : ℝ) + 1 + alpha.1 = k + alpha.1 + 1 by ring, show (k : ℝ) + 1 + alpha.2 = k + alpha.2 + 1 by ring]

theorem radial_comp (dim : Nat) (rin rout : ℝ) (alpha : ℝ × ℝ) (N k k' : Nat) (dl l dl' l' : Int) (c : Nat → ℂ) (r : ℝ) :
    radial rin rout alpha N k' (apply N (square alpha ((opDr dim rin rout alpha.1 dl' l').comp (opDr dim rin rout alpha.1 dl l)) N k) c) r =
      radial rin rout alpha N k' (apply N (square alpha (opDr dim rin rout alpha.1 dl' l') N (k + 1))
        (apply N (square alpha (opDr dim rin rout alpha.1 dl l) N k) c)) r := by
  apply radial_congr
  intro n hn
  rw [Zernike.apply_apply]
  unfold apply
  simp only [square_comp dim rin rout alpha N k dl l dl' l' n _ hn]

end Dedalus.Shell
