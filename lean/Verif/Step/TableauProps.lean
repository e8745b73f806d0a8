import Verif.Step.RKSpec
import Mathlib.Tactic.Abel
import Mathlib.Tactic.FinCases
import Mathlib.Tactic.FieldSimp
import Mathlib.Tactic.Ring
import Mathlib.Tactic.NormNum
import Mathlib.Tactic.Positivity
import Mathlib.Tactic.LinearCombination
import Mathlib.Tactic.Linarith

/-!
# C13: order of the Runge-Kutta tableaus
-/

namespace Dedalus.Step

section Tableaus
variable {F : Type} [Field F] [CharZero F]

/-- C13. RK111 is consistent and first order. -/
theorem rk111_order : (rk111 (F := F)).Consistent ∧ (rk111 (F := F)).HasOrder 1 := by
  refine ⟨⟨?_, ?_, rfl, rfl, ?_⟩, ⟨?_, by omega, by omega⟩⟩
  · intro i j h; fin_cases i <;> fin_cases j <;> first | rfl | simp at h
  · intro i j h; fin_cases i <;> fin_cases j <;> first | rfl | simp at h
  · intro X i; cases X <;> fin_cases i <;> simp [Tableau.mat, rk111, Fin.sum_univ_succ]
  · intro _ X; cases X <;> simp [Tableau.Order1, Tableau.mat, rk111, Fin.sum_univ_succ]

theorem rk443_rows : ∀ X i, ∑ j, (rk443 (F := F)).mat X i j = (rk443 (F := F)).c i := by
  intro X i; cases X <;> fin_cases i <;> simp [Tableau.mat, rk443, Fin.sum_univ_succ] <;> norm_num

/-- C13. RK443 is consistent and third order including the coupling conditions. -/
theorem rk443_order : (rk443 (F := F)).Consistent ∧ (rk443 (F := F)).HasOrder 3 := by
  refine ⟨⟨?_, ?_, rfl, rfl, ?_⟩, ⟨?_, ?_, ?_⟩⟩
  · intro i j h; fin_cases i <;> fin_cases j <;> first | rfl | simp at h
  · intro i j h; fin_cases i <;> fin_cases j <;> first | rfl | simp at h
  · exact rk443_rows
  · intro _ X; cases X <;> simp [Tableau.Order1, Tableau.mat, rk443, Fin.sum_univ_succ, Fin.last] <;> norm_num
  · intro _ X Y
    simp only [Tableau.Order2, rk443_rows]
    cases X <;> simp [Tableau.mat, rk443, Fin.sum_univ_succ, Fin.last] <;> norm_num
  · intro _ X Y Z
    simp only [Tableau.Order3, rk443_rows]
    constructor
    · cases X <;> simp [Tableau.mat, rk443, Fin.sum_univ_succ, Fin.last] <;> norm_num
    · cases X <;> cases Y <;> simp [Tableau.mat, rk443, Fin.sum_univ_succ, Fin.last] <;> norm_num

theorem rkgfy_rows : ∀ X i, ∑ j, (rkgfy (F := F)).mat X i j = (rkgfy (F := F)).c i := by
  intro X i; cases X <;> fin_cases i <;> simp [Tableau.mat, rkgfy, Fin.sum_univ_succ] <;> norm_num

/-- C13. RKGFY is consistent and second order. -/
theorem rkgfy_order : (rkgfy (F := F)).Consistent ∧ (rkgfy (F := F)).HasOrder 2 := by
  refine ⟨⟨?_, ?_, rfl, rfl, ?_⟩, ⟨?_, ?_, by omega⟩⟩
  · intro i j h; fin_cases i <;> fin_cases j <;> first | rfl | simp at h
  · intro i j h; fin_cases i <;> fin_cases j <;> first | rfl | simp at h
  · exact rkgfy_rows
  · intro _ X; cases X <;> simp [Tableau.Order1, Tableau.mat, rkgfy, Fin.sum_univ_succ, Fin.last] <;> norm_num
  · intro _ X Y
    simp only [Tableau.Order2, rkgfy_rows]
    cases X <;> simp [Tableau.mat, rkgfy, Fin.sum_univ_succ, Fin.last] <;> norm_num

theorem rksmr_rows : ∀ X i, ∑ j, (rksmr (F := F)).mat X i j = (rksmr (F := F)).c i := by
  intro X i; cases X <;> fin_cases i <;> simp [Tableau.mat, rksmr, Fin.sum_univ_succ] <;> norm_num

/-- C13. RKSMR (documented as "(3-ε)-order") is consistent, second order including coupling, and its
explicit part is third order, also for the coupled trees whose root is explicit. -/
theorem rksmr_order : (rksmr (F := F)).Consistent ∧ (rksmr (F := F)).HasOrder 2 ∧
    ∀ Y Z, (rksmr (F := F)).Order3 .E Y Z := by
  refine ⟨⟨?_, ?_, rfl, rfl, ?_⟩, ⟨?_, ?_, by omega⟩, ?_⟩
  · intro i j h; fin_cases i <;> fin_cases j <;> first | rfl | simp at h
  · intro i j h; fin_cases i <;> fin_cases j <;> first | rfl | simp at h
  · exact rksmr_rows
  · intro _ X; cases X <;> simp [Tableau.Order1, Tableau.mat, rksmr, Fin.sum_univ_succ, Fin.last] <;> norm_num
  · intro _ X Y
    simp only [Tableau.Order2, rksmr_rows]
    cases X <;> simp [Tableau.mat, rksmr, Fin.sum_univ_succ, Fin.last] <;> norm_num
  · intro Y Z
    simp only [Tableau.Order3, rksmr_rows]
    constructor
    · simp [Tableau.mat, rksmr, Fin.sum_univ_succ, Fin.last]; norm_num
    · cases Y <;> simp [Tableau.mat, rksmr, Fin.sum_univ_succ, Fin.last] <;> norm_num

/-- RKSMR is not of full third order: the documented ε is not zero. -/
theorem rksmr_third_order_refuted : ¬ (rksmr (F := ℚ)).HasOrder 3 := by
  intro h
  have := (h.2.2 (by omega) .I .E .E).1
  simp only [rksmr_rows] at this
  simp [Tableau.mat, rksmr, Fin.sum_univ_succ, Fin.last] at this
  norm_num at this

end Tableaus

/-- C13. RK222 is consistent and second order including the coupling conditions. -/
theorem rk222_order : rk222.Consistent ∧ rk222.HasOrder 2 := by
  have hs : Real.sqrt 2 * Real.sqrt 2 = 2 := Real.mul_self_sqrt (by norm_num)
  have hs1 : Real.sqrt 2 < 2 := by
    nlinarith [Real.sqrt_nonneg 2]
  have hγ : ∃ γ : ℝ, γ = (2 - Real.sqrt 2) / 2 := ⟨_, rfl⟩
  obtain ⟨γ, hγ⟩ := hγ
  have hg0 : γ ≠ 0 := by rw [hγ]; intro h; linarith
  have hq : γ * γ = 2 * γ - 1 / 2 := by rw [hγ]; linear_combination hs / 4
  have hdef : rk222 = ⟨![0, γ, 1], ![![0, 0, 0], ![γ, 0, 0], ![1 - 1 / γ / 2, 1 - (1 - 1 / γ / 2), 0]],
      ![![0, 0, 0], ![0, γ, 0], ![0, 1 - γ, γ]]⟩ := by
    rw [rk222, hγ]
  rw [hdef]
  refine ⟨⟨?_, ?_, rfl, rfl, ?_⟩, ⟨?_, ?_, by omega⟩⟩
  · intro i j h; fin_cases i <;> fin_cases j <;> first | rfl | simp at h
  · intro i j h; fin_cases i <;> fin_cases j <;> first | rfl | simp at h
  · intro X i; cases X <;> fin_cases i <;> simp [Tableau.mat, Fin.sum_univ_succ]
  · intro _ X; cases X <;> simp [Tableau.Order1, Tableau.mat, Fin.sum_univ_succ, Fin.last]
  · intro _ X Y; cases X <;> cases Y <;> simp [Tableau.Order2, Tableau.mat, Fin.sum_univ_succ, Fin.last]
    · field_simp
    · field_simp
    · linear_combination -hq
    · linear_combination -hq

end Dedalus.Step
