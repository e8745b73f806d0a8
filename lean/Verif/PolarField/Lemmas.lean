import Verif.PolarField.Model
import Verif.PolarField.Spec
import Verif.SphereField.Props
import Verif.Zernike.Props
import Verif.Shell.Radial

namespace Dedalus.PolarField
open Orders Orders.Spec SphereField

open Spec (Accepted)

theorem Spec.Accepted.pos {d : Dtype} {Nphi : Nat} (h : Accepted d Nphi) : 0 < Nphi := by
  rcases h with rfl | ⟨h, _⟩ <;> omega

theorem Spec.Accepted.allowed {d : Dtype} {Nphi : Nat} (h : Accepted d Nphi) : Allowed d Nphi Nphi :=
  ⟨h.pos, h.imp id fun ⟨a, b⟩ => ⟨by omega, b, by omega⟩⟩

theorem rows_real {Nphi : Nat} (h : Accepted .real Nphi) : polarRows .real Nphi = sphereGridRows .real Nphi := by
  unfold polarRows sphereGridRows mmax
  rcases h with rfl | ⟨h0, ⟨C, rfl⟩⟩
  · rfl
  · have h0' : 2 < 2 * 2 * C := h0
    show (if 2 * 2 * C > 1 then 2 * 2 * C else 2) = if (2 * 2 * C - 1) / 2 > 0 then 2 * 2 * C else 2
    rw [if_pos (by omega), if_pos (by omega)]

theorem axisymmetric_real {Nphi : Nat} (h : Accepted .real Nphi) : mmax Nphi = 0 ↔ Nphi = 1 := by
  unfold mmax
  rcases h with rfl | ⟨h0, ⟨C, rfl⟩⟩
  · simp
  · simp only [Dtype.parts] at *; omega

theorem backward_smul (z : ℂ) : ∀ (fs : List (Option Spin.Mat)) (i : Nat) (u : Spin.Comps) (t : List Nat),
    Spin.backwardComplex i fs (fun t => u t * z) t = Spin.backwardComplex i fs u t * z
  | [], _, _, _ => rfl
  | none :: fs, i, u, t => by simp only [Spin.backwardComplex]; exact backward_smul z fs (i + 1) u t
  | some A :: fs, i, u, t => by
    simp only [Spin.backwardComplex]
    rw [← backward_smul z fs (i + 1)]
    congr 1
    funext t
    unfold Spin.applyAxis
    rw [Finset.sum_mul]
    exact Finset.sum_congr rfl fun j _ => by ring

theorem rowPart_sum (N : Nat) (R : Nat → ℝ) (a : Nat → ℂ) (r : Nat) :
    ∑ n ∈ Finset.range N, R n * SphereField.Spec.rowPart (a n) r = SphereField.Spec.rowPart (∑ n ∈ Finset.range N, (R n : ℂ) * a n) r := by
  unfold SphereField.Spec.rowPart
  split
  · rw [Complex.re_sum]; exact Finset.sum_congr rfl fun n _ => by rw [Complex.re_ofReal_mul]
  · rw [Complex.im_sum]; exact Finset.sum_congr rfl fun n _ => by rw [Complex.im_ofReal_mul]

theorem rowPart_mul (x : ℝ) (z : ℂ) (r : Nat) : SphereField.Spec.rowPart (z * x) r = SphereField.Spec.rowPart z r * x := by
  unfold SphereField.Spec.rowPart
  split
  · rw [mul_comm, Complex.re_ofReal_mul, mul_comm]
  · rw [mul_comm, Complex.im_ofReal_mul, mul_comm]

theorem wave_pair {Nphi : Nat} (h : Accepted .real Nphi) (r : Nat) (hr : r < polarRows .real Nphi) :
    wave .real Nphi (2 * (r / 2)) = wave .real Nphi r := by
  have hrows := real_rows Nphi Nphi h.allowed
  rw [← rows_real h] at hrows
  have : r = 2 * (r / 2) ∨ r = 2 * (r / 2) + 1 := by omega
  rcases this with hr2 | hr2
  · rw [← hr2]
  · conv_rhs => rw [hr2]
    exact (hrows.2.2 _ (by omega)).symm

section
variable {coord0 coord1 : Spin.Coord} {sig : List Spin.Index} {fs : List (Option Spin.Mat)}

/-- Coefficients to coefficient-grid data, real. -/
theorem radius_real (h : Spin.Spec.Suitable coord0 coord1 sig) (hf : Spin.factors coord1 sig = some fs) {Nphi : Nat} (hA : Accepted .real Nphi) (Nr Ng : Nat)
    (plan : List Nat → (Nat → Nat → ℝ) → Nat → Nat → ℝ) (f rad : Nat → ℝ) (R : Int → Int → Nat → ℝ → ℝ) (s : List Nat → Int)
    (a : List Nat → Int → Nat → ℂ) (c : List Nat → Nat → Nat → ℝ) (hc : Spec.HoldsReal sig Nphi Nr a c)
    (hplan : ∀ t, Spin.Spec.Component sig t → ∀ i x, i < polarRows .real Nphi → x < Ng →
      plan t (c t) i x * f x = ∑ n ∈ Finset.range Nr, R (s t) (wave .real Nphi i) n (rad x) * c t i n) :
    ∃ g, radiusBackwardReal (decide (mmax Nphi = 0)) coord0 sig fs Ng Nphi plan f c = some g ∧
      ∀ t, Spin.Spec.Component sig t → ∀ r x, r < Nphi → x < Ng → g t r x =
        SphereField.Spec.rowPart (Spec.part R fs s Nr a (wave .real Nphi r) (rad x) t) r := by
  have hrows := real_rows Nphi Nphi hA.allowed
  rw [← rows_real hA] at hrows
  have hM : (if decide (mmax Nphi = 0) = true then 2 else Nphi) = polarRows .real Nphi := by
    by_cases h1 : Nphi = 1
    · subst h1; rfl
    · rw [if_neg (by simpa using fun e => h1 ((axisymmetric_real hA).1 e))]
      unfold polarRows
      have := hA.pos
      rw [if_pos (by omega)]
  unfold radiusBackwardReal
  simp only [hM]
  obtain ⟨o, ho, hov⟩ := real_backward h hf Ng hrows.1 (fun t => plan t (c t))
  rw [ho]
  refine ⟨_, rfl, fun t ht r x hr hx => ?_⟩
  have key : ∀ r, r < polarRows .real Nphi → unflatten (polarRows .real Nphi) o t r x * f x =
      SphereField.Spec.rowPart (Spec.part R fs s Nr a (wave .real Nphi r) (rad x) t) r := by
    intro r hr
    have e := hov t ht (r / 2) x (by omega) hx
    have e' : (((unflatten (polarRows .real Nphi) o t (2 * (r / 2)) x * f x : ℝ) : ℂ) +
        Complex.I * ((unflatten (polarRows .real Nphi) o t (2 * (r / 2) + 1) x * f x : ℝ) : ℂ)) =
        Spec.part R fs s Nr a (wave .real Nphi r) (rad x) t := by
      have : (((unflatten (polarRows .real Nphi) o t (2 * (r / 2)) x * f x : ℝ) : ℂ) +
        Complex.I * ((unflatten (polarRows .real Nphi) o t (2 * (r / 2) + 1) x * f x : ℝ) : ℂ)) =
        (((unflatten (polarRows .real Nphi) o t (2 * (r / 2)) x : ℝ) : ℂ) +
          Complex.I * ((unflatten (polarRows .real Nphi) o t (2 * (r / 2) + 1) x : ℝ) : ℂ)) * (f x : ℂ) := by push_cast; ring
      rw [this, e, ← backward_smul]
      refine backward_congr h hf _ _ (fun t ht => ?_) t ht
      have hw1 := hrows.2.2 (r / 2) (by omega)
      have p0 : ((plan t (c t) (2 * (r / 2)) x : ℝ) : ℂ) * (f x : ℂ) + Complex.I * ((plan t (c t) (2 * (r / 2) + 1) x : ℝ) * (f x : ℂ)) =
          Spec.spinPart R s Nr a (wave .real Nphi r) (rad x) t := by
        rw [← Complex.ofReal_mul, ← Complex.ofReal_mul, hplan t ht _ x (by omega) hx, hplan t ht _ x (by omega) hx, hw1, wave_pair hA r hr]
        rw [Finset.sum_congr rfl fun n hn => by rw [hc t ht _ n (by omega) (Finset.mem_range.1 hn)],
          Finset.sum_congr (s₁ := Finset.range Nr) (f := fun n => R (s t) (wave .real Nphi r) n (rad x) * c t (2 * (r / 2) + 1) n) rfl fun n hn => by
            rw [hc t ht _ n (by omega) (Finset.mem_range.1 hn)], hw1, wave_pair hA r hr, rowPart_sum, rowPart_sum, row_pair]
        rfl
      rw [← p0]
      ring
    exact pair_row (y := fun r => unflatten (polarRows .real Nphi) o t r x * f x) e' r rfl
  have hle : Nphi ≤ polarRows .real Nphi := by
    show Nphi ≤ if Nphi > 1 then Nphi else 2
    split <;> omega
  by_cases hz : mmax Nphi = 0
  · simp only [hz, decide_true, if_true]
    have h1 := (axisymmetric_real hA).1 hz
    have : r = 0 := by omega
    subst this
    exact key 0 (by omega)
  · simp only [hz, decide_false, if_false, Bool.false_eq_true]
    exact key r (by omega)

/-- Coefficient-grid data to coefficients, real. -/
theorem radius_real_forward (h : Spin.Spec.Suitable coord0 coord1 sig) (hf : Spin.factors coord1 sig = some fs) {Nphi : Nat} (hA : Accepted .real Nphi)
    (Nr Ng : Nat) (plan : List Nat → (Nat → Nat → ℝ) → Nat → Nat → ℝ) (f rad : Nat → ℝ) (R : Int → Int → Nat → ℝ → ℝ) (s : List Nat → Int)
    (kept : Int → Int → Nat → Prop) [∀ s m n, Decidable (kept s m n)]
    (a : List Nat → Int → Nat → ℂ) (g : List Nat → Nat → Nat → ℝ)
    (hplan : ∀ t, Spin.Spec.Component sig t → ∀ (u b : Nat → Nat → ℝ), (∀ i x, i < polarRows .real Nphi → x < Ng →
      u i x = (∑ n ∈ Finset.range Nr, R (s t) (wave .real Nphi i) n (rad x) * b i n) * f x) → ∀ i n, i < polarRows .real Nphi → n < Nr →
        plan t u i n = if kept (s t) (wave .real Nphi i) n then b i n else 0)
    (hgd : ∀ t, Spin.Spec.Component sig t → ∀ r x, r < Nphi → x < Ng → g t r x =
        SphereField.Spec.rowPart (Spec.part R fs s Nr a (wave .real Nphi r) (rad x) t) r)
    (hreal : mmax Nphi = 0 → ∀ t, Spin.Spec.Component sig t → ∀ x, x < Ng → (Spec.part R fs s Nr a 0 (rad x) t).im = 0) :
    ∃ out, radiusForwardReal (decide (mmax Nphi = 0)) coord0 sig fs Ng Nphi plan f g = some out ∧
      ∀ t, Spin.Spec.Component sig t → ∀ i n, i < polarRows .real Nphi → n < Nr →
        out t i n = if kept (s t) (wave .real Nphi i) n then SphereField.Spec.rowPart (a t (wave .real Nphi i) n) i else 0 := by
  have hrows := real_rows Nphi Nphi hA.allowed
  rw [← rows_real hA] at hrows
  have hM : (if decide (mmax Nphi = 0) = true then Nphi + Nphi else Nphi) = polarRows .real Nphi := by
    by_cases h1 : Nphi = 1
    · subst h1; rfl
    · rw [if_neg (by simpa using fun e => h1 ((axisymmetric_real hA).1 e))]
      unfold polarRows
      have := hA.pos
      rw [if_pos (by omega)]
  unfold radiusForwardReal
  simp only [hM]
  obtain ⟨o, ho, hov⟩ := real_forward h hf Ng hrows.1 (if decide (mmax Nphi = 0) = true then
    fun t i x => if i < Nphi then g t i x * f x else 0 else fun t i x => g t i x * f x)
  rw [ho]
  refine ⟨_, rfl, fun t ht i n hi hn => ?_⟩
  have hin : ∀ t, Spin.Spec.Component sig t → ∀ i x, i < polarRows .real Nphi → x < Ng → (if decide (mmax Nphi = 0) = true then
      fun t i x => if i < Nphi then g t i x * f x else 0 else fun t i x => g t i x * f x) t i x =
        SphereField.Spec.rowPart (Spec.part R fs s Nr a (wave .real Nphi i) (rad x) t) i * f x := by
    intro t ht i x hi hx
    by_cases hz : mmax Nphi = 0
    · have h1 := (axisymmetric_real hA).1 hz
      subst h1
      have hi2 : i < 2 := hi
      simp only [hz, decide_true, if_true]
      have : i = 0 ∨ i = 1 := by omega
      rcases this with rfl | rfl
      · rw [if_pos (by omega), hgd t ht 0 x (by omega) hx]
      · rw [if_neg (by omega)]
        have e1 : wave .real 1 1 = 0 := rfl
        rw [e1]
        unfold SphereField.Spec.rowPart
        rw [if_neg (by omega), hreal hz t ht x hx, zero_mul]
    · simp only [hz, decide_false, if_false, Bool.false_eq_true]
      have h1 : Nphi ≠ 1 := fun e => hz ((axisymmetric_real hA).2 e)
      rw [hgd t ht i x (by have := hA.pos; unfold polarRows at hi; rw [if_pos (by omega)] at hi; exact hi) hx]
  have key : ∀ r x, r < polarRows .real Nphi → x < Ng → unflatten (polarRows .real Nphi) o t r x =
      SphereField.Spec.rowPart (Spec.spinPart R s Nr a (wave .real Nphi r) (rad x) t) r * f x := by
    intro r x hr hx
    have e := hov t ht (r / 2) x (by omega) hx
    have hw1 := hrows.2.2 (r / 2) (by omega)
    rw [SphereField.forward_congr h hf _ (fun t => (f x : ℂ) * Spin.backwardComplex 0 fs (Spec.spinPart R s Nr a (wave .real Nphi r) (rad x)) t)
      (fun t ht => by
        rw [hin t ht _ x (by omega) hx, hin t ht _ x (by omega) hx, hw1, wave_pair hA r hr]
        have := row_pair (Spec.part R fs s Nr a (wave .real Nphi r) (rad x) t) (r / 2)
        push_cast
        rw [show ∀ p q y : ℂ, p * y + Complex.I * (q * y) = y * (p + Complex.I * q) from fun p q y => by ring, this]
        rfl) t ht, forward_smul, forward_backward h hf _ t ht] at e
    have := pair_row (y := fun r => unflatten (polarRows .real Nphi) o t r x) e r rfl
    rw [mul_comm, rowPart_mul] at this
    exact this
  beta_reduce
  rw [hplan t ht (unflatten (polarRows .real Nphi) o t) (fun i n => SphereField.Spec.rowPart (a t (wave .real Nphi i) n) i)
    (fun i x hi hx => by
      rw [key i x hi hx, rowPart_sum]
      rfl) i n hi hn]

/-- Coefficients to coefficient-grid data, complex. -/
theorem radius_complex (h : Spin.Spec.Suitable coord0 coord1 sig) (hf : Spin.factors coord1 sig = some fs) {Nphi : Nat} (Nr Ng : Nat)
    (plan : List Nat → (Nat → Nat → ℂ) → Nat → Nat → ℂ) (f rad : Nat → ℝ) (R : Int → Int → Nat → ℝ → ℝ) (s : List Nat → Int)
    (a : List Nat → Int → Nat → ℂ) (c : List Nat → Nat → Nat → ℂ) (hc : Spec.HoldsComplex sig Nphi Nr a c)
    (hplan : ∀ t, Spin.Spec.Component sig t → ∀ i x, i < Nphi → x < Ng →
      plan t (c t) i x * f x = ∑ n ∈ Finset.range Nr, (R (s t) (wave .complex Nphi i) n (rad x) : ℂ) * c t i n)
    (t : List Nat) (ht : Spin.Spec.Component sig t) (r x : Nat) (hr : r < Nphi) (hx : x < Ng) :
    radiusBackwardComplex fs plan f c t r x = Spec.part R fs s Nr a (wave .complex Nphi r) (rad x) t := by
  unfold radiusBackwardComplex
  simp only
  rw [← backward_smul]
  refine backward_congr h hf _ _ (fun t ht => ?_) t ht
  rw [hplan t ht r x hr hx]
  exact Finset.sum_congr rfl fun n hn => by rw [hc t ht r n hr (Finset.mem_range.1 hn)]

/-- Coefficient-grid data to coefficients, complex. -/
theorem radius_complex_forward (h : Spin.Spec.Suitable coord0 coord1 sig) (hf : Spin.factors coord1 sig = some fs) {Nphi : Nat} (Nr Ng : Nat)
    (plan : List Nat → (Nat → Nat → ℂ) → Nat → Nat → ℂ) (f rad : Nat → ℝ) (R : Int → Int → Nat → ℝ → ℝ) (s : List Nat → Int)
    (kept : Int → Int → Nat → Prop) [∀ s m n, Decidable (kept s m n)] (a : List Nat → Int → Nat → ℂ) (g : List Nat → Nat → Nat → ℂ)
    (hplan : ∀ t, Spin.Spec.Component sig t → ∀ (u b : Nat → Nat → ℂ), (∀ i x, i < Nphi → x < Ng →
      u i x = (∑ n ∈ Finset.range Nr, (R (s t) (wave .complex Nphi i) n (rad x) : ℂ) * b i n) * f x) → ∀ i n, i < Nphi → n < Nr →
        plan t u i n = if kept (s t) (wave .complex Nphi i) n then b i n else 0)
    (hgd : ∀ t, Spin.Spec.Component sig t → ∀ r x, r < Nphi → x < Ng → g t r x = Spec.part R fs s Nr a (wave .complex Nphi r) (rad x) t)
    (t : List Nat) (ht : Spin.Spec.Component sig t) (i n : Nat) (hi : i < Nphi) (hn : n < Nr) :
    radiusForwardComplex fs plan f g t i n = if kept (s t) (wave .complex Nphi i) n then a t (wave .complex Nphi i) n else 0 := by
  unfold radiusForwardComplex
  simp only
  rw [hplan t ht _ (fun i n => a t (wave .complex Nphi i) n) (fun i x hi hx => ?_) i n hi hn]
  rw [SphereField.forward_congr h hf _ (fun t => (f x : ℂ) * Spin.backwardComplex 0 fs (Spec.spinPart R s Nr a (wave .complex Nphi i) (rad x)) t)
    (fun t ht => by rw [hgd t ht i x hi hx, mul_comm]; rfl) t ht, forward_smul, forward_backward h hf _ t ht, mul_comm]
  rfl

end

end Dedalus.PolarField
