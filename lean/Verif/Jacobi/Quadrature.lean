import Verif.Jacobi.Ncc
import Mathlib.Algebra.Polynomial.Eval.Defs
import Mathlib.Algebra.Polynomial.Roots
import Mathlib.LinearAlgebra.Matrix.NonsingularInverse

namespace Dedalus.Jacobi

open Spec

/-! ### Coefficients are unique -/

theorem power_unique (K : Nat) (e : Nat → ℝ) (h : ∀ w : ℝ, ∑ k ∈ Finset.range K, e k * w ^ k = 0) : ∀ k, k < K → e k = 0 := by
  let p : Polynomial ℝ := ∑ k ∈ Finset.range K, Polynomial.monomial k (e k)
  have hp : p = 0 := by
    apply Polynomial.funext
    intro w
    simp only [p, Polynomial.eval_finset_sum, Polynomial.eval_monomial, Polynomial.eval_zero]
    exact h w
  intro k hk
  have : p.coeff k = e k := by
    simp only [p, Polynomial.finset_sum_coeff, Polynomial.coeff_monomial]
    rw [Finset.sum_ite_eq' _ _ _, if_pos (Finset.mem_range.2 hk)]
  rw [← this, hp, Polynomial.coeff_zero]

theorem poch_pos (x : ℝ) (k : Nat) (h : 0 < x ∨ k = 0) : 0 < poch x k := by
  unfold poch
  apply Finset.prod_pos
  intro i hi
  have := Finset.mem_range.1 hi
  have : (0 : ℝ) ≤ i := Nat.cast_nonneg i
  rcases h with h | h
  · linarith
  · omega

theorem coef_diag_pos (n : Nat) (a b : ℝ) (ha : -1 < a) (hb : -1 < b) : 0 < coef n n a b := by
  have := coef_add n 0 a b
  simp only [add_zero] at this
  rw [this, poch_zero]
  have : 0 < poch ((n : ℝ) + (0 : Nat) + a + b + 1) n := by
    apply poch_pos
    rcases Nat.eq_zero_or_pos n with h | h
    · exact Or.inr h
    · left
      have : (1 : ℝ) ≤ n := by exact_mod_cast h
      push_cast; linarith
  have h2 : (0 : ℝ) < n.factorial := by exact_mod_cast n.factorial_pos
  simp only [Nat.factorial_zero, Nat.cast_one]
  positivity

theorem Q_unique (a b : ℝ) (ha : -1 < a) (hb : -1 < b) (K : Nat) (e : Nat → ℝ)
    (h : ∀ z : ℝ, ∑ i ∈ Finset.range K, e i * Q i a b z = 0) : ∀ i, i < K → e i = 0 := by
  have hw : ∀ w : ℝ, ∑ k ∈ Finset.range K, (∑ i ∈ Finset.range K, e i / √(norm2 i a b) * coef i k a b) * w ^ k = 0 := by
    intro w
    have := h (2 * w + 1)
    rw [← this]
    have : ∀ i ∈ Finset.range K, e i * Q i a b (2 * w + 1) = ∑ k ∈ Finset.range K, e i / √(norm2 i a b) * coef i k a b * w ^ k := by
      intro i hi
      rw [Q, P_ext i K a b _ (Finset.mem_range.1 hi), show (2 * w + 1 - 1) / 2 = w by ring, mul_div_assoc', mul_comm (e i), mul_div_assoc,
        Finset.sum_mul]
      apply Finset.sum_congr rfl
      intro k _
      ring
    rw [Finset.sum_congr rfl this, Finset.sum_comm]
    apply Finset.sum_congr rfl
    intro k _
    rw [Finset.sum_mul]
  have hk := power_unique K _ hw
  have main : ∀ m i, i < K → K ≤ i + m → e i = 0 := by
    intro m
    induction m with
    | zero => intro i h1 h2; omega
    | succ m ih =>
      intro i h1 h2
      have := hk i h1
      rw [Finset.sum_eq_single_of_mem i (Finset.mem_range.2 h1) fun l hl hli => by
        rcases Nat.lt_or_ge l i with h' | h'
        · rw [coef_lt l i a b h', mul_zero]
        · rw [ih l (Finset.mem_range.1 hl) (by omega)]; simp] at this
      have c := (coef_diag_pos i a b ha hb).ne'
      have s := (sq_pos i a b ha hb).ne'
      rcases mul_eq_zero.1 this with h' | h'
      · rcases div_eq_zero_iff.1 h' with h'' | h''
        · exact h''
        · exact absurd h'' s
      · exact absurd h' c
  intro i hi
  exact main K i hi (by omega)

/-! ### Gauss quadrature -/

/-- Christoffel-Darboux -/
theorem darboux (a b x y : ℝ) (ha : -1 < a) (hb : -1 < b) (n : Nat) :
    (x - y) * ∑ l ∈ Finset.range (n + 1), Q l a b x * Q l a b y =
      offDiag a b n * (Q (n + 1) a b x * Q n a b y - Q n a b x * Q (n + 1) a b y) := by
  have h := act_sum a b x ha hb (fun l => Q l a b y) n
  have e : ∀ l, act a b (fun l => Q l a b y) l = y * Q l a b y := by
    intro l
    rcases l with _ | l
    · rw [act]; exact (Q_rec_zero a b y ha hb).symm
    · rw [act]; exact (Q_rec a b y l ha hb).symm
  simp only [e] at h
  have e1 : ∑ l ∈ Finset.range (n + 1), Q l a b y * (x * Q l a b x) = x * ∑ l ∈ Finset.range (n + 1), Q l a b x * Q l a b y := by
    rw [Finset.mul_sum]; apply Finset.sum_congr rfl; intro l _; ring
  have e2 : ∑ l ∈ Finset.range (n + 1), y * Q l a b y * Q l a b x = y * ∑ l ∈ Finset.range (n + 1), Q l a b x * Q l a b y := by
    rw [Finset.mul_sum]; apply Finset.sum_congr rfl; intro l _; ring
  rw [e1, e2] at h
  linear_combination h

/-- the sum of squares at a point -/
noncomputable def kernel (n : Nat) (a b x : ℝ) : ℝ := ∑ k ∈ Finset.range n, Q k a b x ^ 2

theorem Q_zero_pos (a b x : ℝ) (ha : -1 < a) (hb : -1 < b) : 0 < Q 0 a b x := by
  rw [Q, P_zero]
  exact div_pos one_pos (sq_pos 0 a b ha hb)

theorem kernel_pos (n : Nat) (a b x : ℝ) (ha : -1 < a) (hb : -1 < b) (hn : 0 < n) : 0 < kernel n a b x := by
  unfold kernel
  apply Finset.sum_pos'
  · intro k _; positivity
  · exact ⟨0, Finset.mem_range.2 hn, by have := Q_zero_pos a b x ha hb; positivity⟩

/-- distinct roots of the polynomial of degree `n` -/
def Roots (n : Nat) (a b : ℝ) (z : Nat → ℝ) : Prop :=
  (∀ i, i < n → Q n a b (z i) = 0) ∧ ∀ i j, i < n → j < n → z i = z j → i = j

/-- values of the polynomials on the grid -/
noncomputable def gridV (n : Nat) (a b : ℝ) (z : Nat → ℝ) : Matrix (Fin n) (Fin n) ℝ := fun i k => Q k a b (z i)

/-- weighted values -/
noncomputable def gridW (n : Nat) (a b : ℝ) (z : Nat → ℝ) : Matrix (Fin n) (Fin n) ℝ := fun k i => Q k a b (z i) * (kernel n a b (z i))⁻¹

theorem grid_inverse (n : Nat) (a b : ℝ) (z : Nat → ℝ) (ha : -1 < a) (hb : -1 < b) (hz : Roots n a b z) (hn : 0 < n) :
    gridV n a b z * gridW n a b z = 1 := by
  ext i m
  rw [Matrix.mul_apply, Matrix.one_apply]
  change ∑ k : Fin n, Q k a b (z i) * (Q k a b (z m) * (kernel n a b (z m))⁻¹) = _
  rw [← Finset.sum_range fun k => Q k a b (z i) * (Q k a b (z m) * (kernel n a b (z m))⁻¹)]
  simp only [← mul_assoc]
  rw [← Finset.sum_mul]
  by_cases h : i = m
  · subst h
    rw [if_pos rfl]
    have : ∑ k ∈ Finset.range n, Q k a b (z i) * Q k a b (z i) = kernel n a b (z i) := by
      unfold kernel; apply Finset.sum_congr rfl; intro k _; ring
    rw [this, mul_inv_cancel₀ (kernel_pos n a b _ ha hb hn).ne']
  · rw [if_neg h]
    obtain ⟨p, rfl⟩ : ∃ p, n = p + 1 := ⟨n - 1, by omega⟩
    have hd := darboux a b (z i) (z m) ha hb p
    rw [hz.1 i i.2, hz.1 m m.2] at hd
    have hne : z i - z m ≠ 0 := fun e => h (Fin.ext (hz.2 i m i.2 m.2 (by linarith)))
    have : ∑ l ∈ Finset.range (p + 1), Q l a b (z i) * Q l a b (z m) = 0 := by
      rcases mul_eq_zero.1 (hd.trans (by ring)) with h' | h'
      · exact absurd h' hne
      · exact h'
    rw [this, zero_mul]

/-- values on the grid are those of a polynomial -/
theorem grid_interp (n : Nat) (a b : ℝ) (z : Nat → ℝ) (ha : -1 < a) (hb : -1 < b) (hz : Roots n a b z) (hn : 0 < n) (u : Nat → ℝ) :
    ∃ d : Nat → ℝ, ∀ i, i < n → u i = ∑ k ∈ Finset.range n, d k * Q k a b (z i) := by
  refine ⟨fun k => ∑ m : Fin n, Q k a b (z m) * (kernel n a b (z m))⁻¹ * u m, fun i hi => ?_⟩
  have h := grid_inverse n a b z ha hb hz hn
  have h' := congrArg (fun A => Matrix.mulVec A (fun m : Fin n => u m) ⟨i, hi⟩) h
  simp only [Matrix.one_mulVec] at h'
  rw [← h', ← Matrix.mulVec_mulVec, Finset.sum_range]
  change ∑ k : Fin n, Q k a b (z i) * ∑ m : Fin n, (Q k a b (z m) * (kernel n a b (z m))⁻¹) * u m = _
  apply Finset.sum_congr rfl
  intro k _
  ring

/-- discrete orthonormality on Gauss nodes -/
theorem gauss_orthonormal (n : Nat) (a b : ℝ) (z : Nat → ℝ) (ha : -1 < a) (hb : -1 < b) (hz : Roots n a b z) (j k : Nat) (hj : j < n) (hk : k < n) :
    ∑ i ∈ Finset.range n, Q j a b (z i) * (Q k a b (z i) * (kernel n a b (z i))⁻¹) = if j = k then 1 else 0 := by
  have h1 := grid_inverse n a b z ha hb hz (by omega)
  have h2 : gridW n a b z * gridV n a b z = 1 := mul_eq_one_comm.1 h1
  have h3 := congrFun (congrFun h2 ⟨k, hk⟩) ⟨j, hj⟩
  rw [Matrix.mul_apply, Matrix.one_apply] at h3
  change ∑ i : Fin n, (Q k a b (z i) * (kernel n a b (z i))⁻¹) * Q j a b (z i) = _ at h3
  rw [← Finset.sum_range fun i => (Q k a b (z i) * (kernel n a b (z i))⁻¹) * Q j a b (z i)] at h3
  simp only [Fin.mk.injEq] at h3
  rw [show (if j = k then (1 : ℝ) else 0) = if k = j then 1 else 0 by simp only [eq_comm], ← h3]
  apply Finset.sum_congr rfl
  intro i _
  ring

/-- the weights of the code -/
theorem weights_kernel (n : Nat) (a b z : ℝ) (ha : -1 < a) (hb : -1 < b) (hn : 0 < n) :
    weights n a b z = (kernel n a b z)⁻¹ := by
  unfold weights
  rw [polynomials_Q (n + 1) a b z ha hb 0 (by omega)]
  have : ∑ k ∈ Finset.range n, polynomials (n + 1) a b z k ^ 2 = kernel n a b z := by
    unfold kernel
    apply Finset.sum_congr rfl
    intro k hk
    rw [polynomials_Q (n + 1) a b z ha hb k (by have := Finset.mem_range.1 hk; omega)]
  rw [this, div_pow, Real.sq_sqrt (kernel_pos n a b _ ha hb hn).le, Q, P_zero, mass_norm, div_pow, Real.sq_sqrt (norm2_pos 0 a b ha hb).le]
  have := (norm2_pos 0 a b ha hb).ne'
  have := (kernel_pos n a b z ha hb hn).ne'
  field_simp

/-- polynomials of higher degree on the grid -/
theorem grid_alias (n : Nat) (a b : ℝ) (z : Nat → ℝ) (ha : -1 < a) (hb : -1 < b) (hz : Roots n a b z) (hn : 0 < n) : ∀ r, ∃ g : Nat → ℝ,
    (∀ l, n ≤ l → g l = 0) ∧ (∀ l, l + r < n → g l = 0) ∧
    ∀ i, i < n → Q (n + r) a b (z i) = ∑ l ∈ Finset.range n, g l * Q l a b (z i)
  | 0 => ⟨fun _ => 0, fun _ _ => rfl, fun _ _ => rfl, fun i hi => by rw [Nat.add_zero, hz.1 i hi]; simp⟩
  | 1 => by
    obtain ⟨p, rfl⟩ : ∃ p, n = p + 1 := ⟨n - 1, by omega⟩
    have hp := (offDiag_pos a b (p + 1) ha hb).ne'
    refine ⟨fun l => if l = p then -offDiag a b p / offDiag a b (p + 1) else 0, fun l hl => if_neg (by omega), fun l hl => if_neg (by omega), fun i hi => ?_⟩
    have hr := Q_rec a b (z i) p ha hb
    rw [hz.1 i hi] at hr
    rw [sum_one (p + 1) p (by omega) _ fun l hl => by simp only [if_neg hl, zero_mul], show p + 1 + 1 = p + 2 by ring]
    simp only [if_true]
    field_simp
    linear_combination (-1) * hr
  | r + 2 => by
    obtain ⟨p, rfl⟩ : ∃ p, n = p + 1 := ⟨n - 1, by omega⟩
    obtain ⟨g0, a0, b0, c0⟩ := grid_alias (p + 1) a b z ha hb hz hn r
    obtain ⟨g1, a1, b1, c1⟩ := grid_alias (p + 1) a b z ha hb hz hn (r + 1)
    have hp := (offDiag_pos a b (p + 1 + r + 1) ha hb).ne'
    refine ⟨fun l => if l < p + 1 then (act a b g1 l - diagZ a b (p + 1 + r + 1) * g1 l - offDiag a b (p + 1 + r) * g0 l) / offDiag a b (p + 1 + r + 1) else 0,
      fun l hl => if_neg (by omega), fun l hl => ?_, fun i hi => ?_⟩
    · simp only [if_pos (show l < p + 1 by omega)]
      rw [act_zero a b g1 l (fun k hk => b1 k (by omega)) (b1 l (by omega)) (b1 (l + 1) (by omega)), b1 l (by omega), b0 l (by omega)]
      simp
    · have hr := Q_rec a b (z i) (p + 1 + r) ha hb
      have e1 := c1 i hi
      have e0 := c0 i hi
      have ha1 := act_sum a b (z i) ha hb g1 p
      rw [hz.1 i hi, a1 (p + 1) (by omega)] at ha1
      simp only [mul_zero, zero_mul, sub_zero, add_zero] at ha1
      have : ∀ l ∈ Finset.range (p + 1), (if l < p + 1 then (act a b g1 l - diagZ a b (p + 1 + r + 1) * g1 l - offDiag a b (p + 1 + r) * g0 l) /
          offDiag a b (p + 1 + r + 1) else 0) * Q l a b (z i) = (1 / offDiag a b (p + 1 + r + 1)) * (g1 l * (z i * Q l a b (z i)) -
            diagZ a b (p + 1 + r + 1) * (g1 l * Q l a b (z i)) - offDiag a b (p + 1 + r) * (g0 l * Q l a b (z i))) +
          (1 / offDiag a b (p + 1 + r + 1)) * (act a b g1 l * Q l a b (z i) - g1 l * (z i * Q l a b (z i))) := by
        intro l hl
        rw [if_pos (Finset.mem_range.1 hl)]
        ring
      rw [Finset.sum_congr rfl this, Finset.sum_add_distrib, ← Finset.mul_sum, ← Finset.mul_sum, Finset.sum_sub_distrib, Finset.sum_sub_distrib,
        Finset.sum_sub_distrib, ← Finset.mul_sum, ← Finset.mul_sum, ← e0, ha1, sub_self, mul_zero, add_zero]
      have e1' : ∑ l ∈ Finset.range (p + 1), act a b g1 l * Q l a b (z i) = z i * Q (p + 1 + (r + 1)) a b (z i) := by
        rw [← ha1, e1, Finset.mul_sum]
        apply Finset.sum_congr rfl
        intro l _
        ring
      rw [e1', ← e1]
      rw [show p + 1 + (r + 2) = p + 1 + r + 2 by ring, show p + 1 + (r + 1) = p + 1 + r + 1 by ring]
      field_simp
      linear_combination (-1) * hr

end Dedalus.Jacobi
