import Verif.Jacobi.Gauss

namespace Dedalus.Jacobi

open Spec MeasureTheory

/-- coefficients by quadrature -/
theorem base_coeff (N : Nat) (a b : ℝ) (g : Nat → ℝ) (ha : -1 < a) (hb : -1 < b) (hr : Roots N a b g) (L l : Nat) (hl : l < N)
    (h : l + L ≤ 2 * N) (d : Nat → ℝ) :
    ∑ i ∈ Finset.range N, Q l a b (g i) * (quadrature N a b g i).2 * ∑ k ∈ Finset.range L, d k * Q k a b (g i) =
      if l < L then d l else 0 := by
  have e : ∀ k ∈ Finset.range L, ∑ i ∈ Finset.range N, Q l a b (g i) * (quadrature N a b g i).2 * (d k * Q k a b (g i)) =
      d k * if l = k then 1 else 0 := by
    intro k hk
    have hk' := Finset.mem_range.1 hk
    have hx := gauss_exact N a b g ha hb (by omega) hr (polyQ l a b * polyQ k a b) (by
      refine lt_of_le_of_lt Polynomial.natDegree_mul_le ?_
      have := polyQ_degree l a b
      have := polyQ_degree k a b
      omega)
    simp only [Polynomial.eval_mul, polyQ_eval] at hx
    rw [Q_orthonormal l k a b ha hb] at hx
    rw [← hx, Finset.mul_sum]
    apply Finset.sum_congr rfl
    intro i hi
    rw [quadrature_gauss N a b g i ha hb hr (Finset.mem_range.1 hi)]
    ring
  have e2 : ∀ i ∈ Finset.range N, Q l a b (g i) * (quadrature N a b g i).2 * ∑ k ∈ Finset.range L, d k * Q k a b (g i) =
      ∑ k ∈ Finset.range L, Q l a b (g i) * (quadrature N a b g i).2 * (d k * Q k a b (g i)) := fun i _ => Finset.mul_sum _ _ _
  rw [Finset.sum_congr rfl e2, Finset.sum_comm, Finset.sum_congr rfl e]
  simp only [mul_ite, mul_one, mul_zero]
  rw [Finset.sum_ite_eq]
  simp

/-- the transform to the base polynomials -/
theorem base_apply (N M : Nat) (a b : ℝ) (g : Nat → ℝ) (ha : -1 < a) (hb : -1 < b) (hr : Roots N a b g) (L l : Nat)
    (hl : l < max M N) (h : l < N → l + L ≤ 2 * N) (d : Nat → ℝ) (u : Nat → ℝ) (hu : ∀ i, i < N → u i = ∑ k ∈ Finset.range L, d k * Q k a b (g i)) :
    ∑ i ∈ Finset.range N, baseTransform N M a b g l i * u i = if l < N ∧ l < L then d l else 0 := by
  by_cases hlN : l < N
  · have hb' := base_coeff N a b g ha hb hr L l hlN (h hlN) d
    have e : ∀ i ∈ Finset.range N, baseTransform N M a b g l i * u i =
        Q l a b (g i) * (quadrature N a b g i).2 * ∑ k ∈ Finset.range L, d k * Q k a b (g i) := by
      intro i hi
      have hi' := Finset.mem_range.1 hi
      rw [hu i hi', baseTransform, if_pos hlN, quadrature_gauss N a b g i ha hb hr hi', polynomials_Q (max M N) a b (g i) ha hb l hl.le]
    rw [Finset.sum_congr rfl e, hb']
    by_cases h2 : l < L
    · rw [if_pos h2, if_pos ⟨hlN, h2⟩]
    · rw [if_neg h2, if_neg (fun e => h2 e.2)]
  · rw [if_neg (fun e => hlN e.1)]
    apply Finset.sum_eq_zero
    intro i _
    rw [baseTransform, if_neg hlN, zero_mul]

/-- all cases of the forward matrix at once -/
theorem forward_cases (before : Bool) (N M : Nat) (a b a0 b0 : ℝ) (g : Nat → ℝ) (F : Nat → Nat → ℝ)
    (hF : forwardMatrix before N M a b a0 b0 g = some F) :
    ∃ da db : Nat, a = a0 + da ∧ b = b0 + db ∧ ((da = 0 ∧ db = 0 ∧ F = baseTransform N M a0 b0 g) ∨
      F = fun m i => ∑ l ∈ Finset.range (if before then M else max M N),
        conversion (if before then M else max M N) a0 b0 da db m l * baseTransform N M a0 b0 g l i) := by
  unfold forwardMatrix at hF
  simp only at hF
  by_cases h : a = a0 ∧ b = b0
  · rw [if_pos h] at hF
    cases hF
    exact ⟨0, 0, by simp [h.1], by simp [h.2], Or.inl ⟨rfl, rfl, rfl⟩⟩
  · rw [if_neg h] at hF
    obtain ⟨C, hC, hC2⟩ := Option.map_eq_some_iff.1 hF
    obtain ⟨da, db, e1, e2, e3⟩ := conversionMatrix_cases _ _ _ _ _ _ hC
    exact ⟨da, db, e1, e2, Or.inr (by rw [← hC2, e3])⟩

theorem conversion_zero (N : Nat) (a b : ℝ) (ha : -1 < a) (hb : -1 < b) (i j : Nat) (hj : j < N) :
    conversion N a b 0 0 i j = if i = j then 1 else 0 := by
  unfold conversion
  change ∑ l ∈ Finset.range N, (if i = l then (1 : ℝ) else 0) * (if l = j then 1 else 0) = _
  rw [Finset.sum_eq_single j]
  · simp
  · intro l _ hl; rw [if_neg hl, mul_zero]
  · intro h; exact absurd (Finset.mem_range.2 hj) h

/-- the forward matrix applied to a series in the base polynomials -/
theorem forward_apply (before : Bool) (N M : Nat) (a b a0 b0 : ℝ) (g : Nat → ℝ) (ha : -1 < a0) (hb : -1 < b0) (hr : Roots N a0 b0 g)
    (F : Nat → Nat → ℝ) (hF : forwardMatrix before N M a b a0 b0 g = some F) (L : Nat)
    (h : ∀ l, l < N → l < (if before then M else max M N) → l + L ≤ 2 * N) (d u : Nat → ℝ)
    (hu : ∀ i, i < N → u i = ∑ k ∈ Finset.range L, d k * Q k a0 b0 (g i)) :
    ∃ da db : Nat, a = a0 + da ∧ b = b0 + db ∧ ∀ m, m < (if before then M else max M N) → ∑ i ∈ Finset.range N, F m i * u i =
      ∑ l ∈ Finset.range (if before then M else max M N), conversion (if before then M else max M N) a0 b0 da db m l *
        if l < N ∧ l < L then d l else 0 := by
  obtain ⟨da, db, e1, e2, hc⟩ := forward_cases before N M a b a0 b0 g F hF
  refine ⟨da, db, e1, e2, fun m hm => ?_⟩
  have hR : (if before then M else max M N) ≤ max M N := by split <;> omega
  rcases hc with ⟨rfl, rfl, rfl⟩ | rfl
  · rw [base_apply N M a0 b0 g ha hb hr L m (by omega) (fun hl => h m hl hm) d u hu]
    rw [Finset.sum_eq_single_of_mem m (Finset.mem_range.2 hm)]
    · rw [conversion_zero _ a0 b0 ha hb m m hm, if_pos rfl, one_mul]
    · intro l hl hne
      rw [conversion_zero _ a0 b0 ha hb m l (Finset.mem_range.1 hl), if_neg (fun e => hne e.symm), zero_mul]
  · simp only [Finset.sum_mul]
    rw [Finset.sum_comm]
    apply Finset.sum_congr rfl
    intro l hl
    have hl' := Finset.mem_range.1 hl
    rw [← base_apply N M a0 b0 g ha hb hr L l (by omega) (fun hlN => h l hlN hl') d u hu, Finset.mul_sum]
    apply Finset.sum_congr rfl
    intro i _
    ring

/-- coefficients in the base polynomials -/
theorem base_series (a b : ℝ) (ha : -1 < a) (hb : -1 < b) (da db L : Nat) (c : Nat → ℝ) :
    ∃ d : Nat → ℝ, (∀ m, m < L → ∑ l ∈ Finset.range L, conversion L a b da db m l * d l = c m) ∧
      ∀ z, ∑ m ∈ Finset.range L, c m * Q m (a + da) (b + db) z = ∑ l ∈ Finset.range L, d l * Q l a b z := by
  obtain ⟨d, hd⟩ := upper_solvable (conversion L a b da db) L (fun i j h1 h2 => conversion_low L a b da db i j ha hb (by omega) h1)
    (fun j hj => (conversion_pos L a b da db j ha hb hj).ne') c
  refine ⟨d, hd, fun z => ?_⟩
  rw [series_convert a b z ha hb da db L d]
  apply Finset.sum_congr rfl
  intro m hm
  rw [hd m (Finset.mem_range.1 hm)]

/-- conversion of a short series in a large matrix -/
theorem conversion_short (R L : Nat) (hL : L ≤ R) (a b : ℝ) (ha : -1 < a) (hb : -1 < b) (da db m : Nat) (d : Nat → ℝ) :
    ∑ l ∈ Finset.range R, conversion R a b da db m l * (if l < L then d l else 0) =
      if m < L then ∑ l ∈ Finset.range L, conversion L a b da db m l * d l else 0 := by
  have e : ∑ l ∈ Finset.range R, conversion R a b da db m l * (if l < L then d l else 0) =
      ∑ l ∈ Finset.range L, conversion R a b da db m l * d l := by
    symm
    rw [← Finset.sum_subset (s₁ := Finset.range L) (s₂ := Finset.range R)]
    · apply Finset.sum_congr rfl
      intro l hl
      rw [if_pos (Finset.mem_range.1 hl)]
    · intro x hx; simp at *; omega
    · intro x _ hx
      simp at hx
      rw [if_neg (by omega), mul_zero]
  rw [e]
  split
  · apply Finset.sum_congr rfl
    intro l hl
    have := Finset.mem_range.1 hl
    rw [conversion_size R L a b da db m l ha hb (by omega) this]
  · apply Finset.sum_eq_zero
    intro l hl
    have := Finset.mem_range.1 hl
    rw [conversion_low R a b da db m l ha hb (by omega) (by omega), zero_mul]

/-- the forward transform recovers resolved series -/
theorem forward_resolved (before : Bool) (N M : Nat) (a b a0 b0 : ℝ) (g : Nat → ℝ) (ha : -1 < a0) (hb : -1 < b0) (hr : Roots N a0 b0 g)
    (F : Nat → Nat → ℝ) (hF : forwardMatrix before N M a b a0 b0 g = some F) (L : Nat) (hL : L ≤ N) (hM : before = true → L ≤ M) (c u : Nat → ℝ)
    (hu : ∀ i, i < N → u i = ∑ k ∈ Finset.range L, c k * Q k a b (g i)) (m : Nat) (hm : m < M) :
    ∑ i ∈ Finset.range N, F m i * u i = if m < L then c m else 0 := by
  obtain ⟨da0, db0, e1, e2, -⟩ := forward_cases before N M a b a0 b0 g F hF
  obtain ⟨d, hd, hs⟩ := base_series a0 b0 ha hb da0 db0 L c
  have hmR : m < (if before then M else max M N) := by split <;> omega
  obtain ⟨da, db, f1, f2, hf⟩ := forward_apply before N M a b a0 b0 g ha hb hr F hF L (fun l hl _ => by omega) d u (fun i hi => by
    rw [hu i hi, ← hs, e1, e2])
  have g1 : da = da0 := by
    have : (da : ℝ) = da0 := by linarith
    exact_mod_cast this
  have g2 : db = db0 := by
    have : (db : ℝ) = db0 := by linarith
    exact_mod_cast this
  subst g1 g2
  rw [hf m hmR]
  have : ∀ l, (if l < N ∧ l < L then d l else 0) = if l < L then d l else 0 := by
    intro l
    by_cases h : l < L
    · rw [if_pos h, if_pos ⟨by omega, h⟩]
    · rw [if_neg h, if_neg (fun e => h e.2)]
  simp only [this]
  rw [conversion_short _ L (by split <;> [exact hM ‹_›; omega]) a0 b0 ha hb]
  split
  · exact hd m ‹_›
  · rfl

/-- the backward matrix evaluates -/
theorem backward_apply (N M : Nat) (a b a0 b0 : ℝ) (g : Nat → ℝ) (ha : -1 < a) (hb : -1 < b) (ha0 : -1 < a0) (hb0 : -1 < b0) (hr : Roots N a0 b0 g)
    (c : Nat → ℝ) (i : Nat) (hi : i < N) :
    ∑ m ∈ Finset.range M, backwardMatrix N M a b a0 b0 g i m * c m = ∑ m ∈ Finset.range (min M N), c m * Q m a b (g i) := by
  symm
  rw [← Finset.sum_subset (s₁ := Finset.range (min M N)) (s₂ := Finset.range M)]
  · apply Finset.sum_congr rfl
    intro m hm
    have hm' := Finset.mem_range.1 hm
    rw [backwardMatrix, if_pos (by omega), quadrature_gauss N a0 b0 g i ha0 hb0 hr hi, polynomials_Q M a b (g i) ha hb m (by omega), mul_comm]
  · intro x hx; simp at *; omega
  · intro x hx hx'
    simp at hx hx'
    rw [backwardMatrix, if_neg (by omega), zero_mul]

end Dedalus.Jacobi
