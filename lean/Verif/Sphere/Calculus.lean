import Verif.Sphere.Harmonic

namespace Dedalus.Sphere

open Jacobi Jacobi.Spec Spec

theorem k_out (l : Nat) (s mu : Int) (hmu : mu = 1 ∨ mu = -1) (hs : s.natAbs ≤ l) (h : l < (s + mu).natAbs) : k l s mu = 0 := by
  have : (l : Int) - mu * s = 0 := by rcases hmu with rfl | rfl <;> omega
  have h2 : (l : ℝ) - mu * s = 0 := by exact_mod_cast this
  rw [k, h2, zero_mul, zero_div, max_self, Real.sqrt_zero, mul_zero]

theorem symbol_in (l : Nat) (s mu : Int) (R : ℝ) (hmu : mu = 1 ∨ mu = -1) (hs : s.natAbs ≤ l) :
    gradientSymbol s (s + mu) l R = k l s mu / R := by
  unfold gradientSymbol
  simp only [Int.abs_eq_natAbs, show s + mu - s = mu by omega]
  by_cases h : l < (s + mu).natAbs
  · rw [if_pos (by omega), k_out l s mu hmu hs h]
  · rw [if_neg (by omega), if_neg (by omega)]

theorem symbol_out (l : Nat) (s s' : Int) (R : ℝ) (hs : l < s.natAbs) : gradientSymbol s s' l R = 0 := by
  unfold gradientSymbol
  simp only [Int.abs_eq_natAbs]
  rw [if_pos (show (s.natAbs : Int) > l by omega), ite_self, zero_div]

/-- components of the gradient of a field of any spin weight -/
theorem gradient_step (Lmax : Nat) (m s mu : Int) (hmu : mu = 1 ∨ mu = -1) (R : ℝ) (hR : R ≠ 0) (c : Nat → ℂ) (θ : ℝ) (h0 : 0 < θ) (h1 : θ < Real.pi) :
    HasSpinDeriv mu m s (field Lmax m s c) (R * field Lmax m (s + mu) (fun l => (gradientSymbol s (s + mu) l R : ℂ) * c l) θ) θ := by
  have hY : ∀ l ∈ Finset.Ico (max m.natAbs s.natAbs) (Lmax + 1), RealDeriv mu m s (fun x => Y l m s (Real.cos x)) (k l s mu * Y l m (s + mu) (Real.cos θ)) θ := by
    intro l hl
    have := Finset.mem_Ico.1 hl
    exact Y_ladder l m s mu hmu (by omega) (by omega) θ h0 h1
  choose! F' hF' using hY
  refine ⟨∑ l ∈ Finset.Ico (max m.natAbs s.natAbs) (Lmax + 1), (F' l : ℂ) * c l, ?_, ?_⟩
  · unfold field
    refine HasDerivAt.fun_sum fun l hl => ?_
    exact ((hF' l hl).1.ofReal_comp).mul_const (c l)
  · have e1 : R * field Lmax m (s + mu) (fun l => (gradientSymbol s (s + mu) l R : ℂ) * c l) θ =
        ∑ l ∈ Finset.Ico (max m.natAbs s.natAbs) (Lmax + 1), ((k l s mu * Y l m (s + mu) (Real.cos θ) : ℝ) : ℂ) * c l := by
      unfold field
      rw [Finset.mul_sum]
      have ha : ∀ l ∈ Finset.Ico (max m.natAbs (s + mu).natAbs) (Lmax + 1),
          R * ((Y l m (s + mu) (Real.cos θ) : ℂ) * ((gradientSymbol s (s + mu) l R : ℂ) * c l)) =
          if s.natAbs ≤ l then ((k l s mu * Y l m (s + mu) (Real.cos θ) : ℝ) : ℂ) * c l else 0 := by
        intro l hl
        split
        · rename_i h
          rw [symbol_in l s mu R hmu h]
          have : (R : ℂ) ≠ 0 := by exact_mod_cast hR
          push_cast
          field_simp
        · rw [symbol_out l s _ R (by omega)]
          push_cast
          ring
      have hb : ∀ l ∈ Finset.Ico (max m.natAbs s.natAbs) (Lmax + 1), ((k l s mu * Y l m (s + mu) (Real.cos θ) : ℝ) : ℂ) * c l =
          if (s + mu).natAbs ≤ l then ((k l s mu * Y l m (s + mu) (Real.cos θ) : ℝ) : ℂ) * c l else 0 := by
        intro l hl
        split
        · rfl
        · have := Finset.mem_Ico.1 hl
          rw [k_out l s mu hmu (by omega) (by omega), zero_mul, Complex.ofReal_zero, zero_mul]
      rw [Finset.sum_congr rfl ha, Finset.sum_congr rfl hb, ← Finset.sum_filter, ← Finset.sum_filter]
      apply Finset.sum_congr _ fun _ _ => rfl
      ext l
      simp only [Finset.mem_filter, Finset.mem_Ico]
      omega
    rw [e1]
    unfold field
    rw [Finset.mul_sum, ← Finset.sum_sub_distrib, Finset.sum_div]
    apply Finset.sum_congr rfl
    intro l hl
    rw [(hF' l hl).2]
    push_cast
    ring

theorem k_prod (l : Nat) (s : Int) (hs : s.natAbs ≤ l) :
    k l (s + 1) (-1) * k l s 1 = -((l - s) * (l + s + 1) / 2) ∧ k l (s - 1) 1 * k l s (-1) = -((l + s) * (l - s + 1) / 2) := by
  have h3 : |(s : ℝ)| ≤ l := by
    rw [← Int.cast_abs, Int.abs_eq_natAbs]; exact_mod_cast hs
  obtain ⟨h4, h5⟩ := abs_le.1 h3
  have p1 : 0 ≤ ((l : ℝ) - s) * (l + s + 1) / 2 := by
    apply div_nonneg (mul_nonneg (by linarith) (by linarith)) (by norm_num)
  have p2 : 0 ≤ ((l : ℝ) + s) * (l - s + 1) / 2 := by
    apply div_nonneg (mul_nonneg (by linarith) (by linarith)) (by norm_num)
  unfold k
  push_cast
  constructor
  · rw [show ((l : ℝ) - -1 * (s + 1)) * (l + -1 * (s + 1) + 1) / 2 = (l - s) * (l + s + 1) / 2 by ring,
      show ((l : ℝ) - 1 * s) * (l + 1 * s + 1) / 2 = (l - s) * (l + s + 1) / 2 by ring, max_eq_right p1]
    have := Real.mul_self_sqrt p1
    linear_combination -this
  · rw [show ((l : ℝ) - 1 * (s - 1)) * (l + 1 * (s - 1) + 1) / 2 = (l + s) * (l - s + 1) / 2 by ring,
      show ((l : ℝ) - -1 * s) * (l + -1 * s + 1) / 2 = (l + s) * (l - s + 1) / 2 by ring, max_eq_right p2]
    have := Real.mul_self_sqrt p2
    linear_combination -this

theorem laplacian_symbol_eq (l : Nat) (s : Int) (R : ℝ) : laplacianSymbol s s l R =
    gradientSymbol (s + 1) s l R * gradientSymbol s (s + 1) l R + gradientSymbol (s - 1) s l R * gradientSymbol s (s - 1) l R := by
  by_cases hs : s.natAbs ≤ l
  · unfold laplacianSymbol
    simp only [Int.abs_eq_natAbs]
    rw [if_neg (by omega), if_neg (by omega), symbol_in l s 1 R (Or.inl rfl) hs, show s - 1 = s + -1 by ring, symbol_in l s (-1) R (Or.inr rfl) hs]
    have e1 : gradientSymbol (s + 1) s l R * (k l s 1 / R) = k l (s + 1) (-1) / R * (k l s 1 / R) := by
      by_cases h : (s + 1).natAbs ≤ l
      · have := symbol_in l (s + 1) (-1) R (Or.inr rfl) h
        rw [show s + 1 + -1 = s by ring] at this
        rw [this]
      · rw [k_out l s 1 (Or.inl rfl) hs (by omega)]; simp
    have e2 : gradientSymbol (s + -1) s l R * (k l s (-1) / R) = k l (s + -1) 1 / R * (k l s (-1) / R) := by
      by_cases h : (s + -1).natAbs ≤ l
      · have := symbol_in l (s + -1) 1 R (Or.inl rfl) h
        rw [show s + -1 + 1 = s by ring] at this
        rw [this]
      · rw [k_out l s (-1) (Or.inr rfl) hs (by omega)]; simp
    rw [e1, e2]
    ring
  · rw [symbol_out l s (s + 1) R (by omega), symbol_out l s (s - 1) R (by omega)]
    unfold laplacianSymbol
    simp only [Int.abs_eq_natAbs]
    rw [if_pos (by omega)]
    ring

theorem field_add (Lmax : Nat) (m s : Int) (c d : Nat → ℂ) (θ : ℝ) : field Lmax m s (fun l => c l + d l) θ = field Lmax m s c θ + field Lmax m s d θ := by
  unfold field
  rw [← Finset.sum_add_distrib]
  apply Finset.sum_congr rfl
  intro l _
  ring

theorem field_congr (Lmax : Nat) (m s : Int) (c d : Nat → ℂ) (θ : ℝ) (h : ∀ l, c l = d l) : field Lmax m s c θ = field Lmax m s d θ := by
  rw [show c = d from funext h]

end Dedalus.Sphere
