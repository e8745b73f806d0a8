import Mathlib.Data.Rat.Defs
import Mathlib.Tactic.IntervalCases
import Verif.Csr.Lemmas

/-!
# C32: sparse triangular solves and products
-/

namespace Dedalus.Csr

variable {K : Type} [Field K]

/-- C32. For a canonical upper triangular matrix with a nonzero diagonal, the solve along any axis of an array leaves a
solution of `U x = b` on every line of the array, whatever the order of the parallel iterations. -/
theorem solve_upper_solves (A : Csr K) (N1 N2 N3 : Nat) (order : List Nat) (hv : Valid A N2 N2)
    (hc : Canonical A N2) (hu : Upper A N2) (ho : Schedule order N1) (b : Nat → Nat → Nat → K)
    (h i k : Nat) (hh : h < N1) (hi : i < N2) (hk : k < N3) :
    ∑ j ∈ Finset.range N2, entry A i j * solveUpper A N1 N2 N3 order b h j k = b h i k := by
  have e : ∀ j, solveUpper A N1 N2 N3 order b h j k = solveVec A N2 (fun i => b h i k) j :=
    fun j => solveUpper_lines hc hu ho b hh hk
  simp only [e]
  rw [entry_sum hv hi, solveVec_spec hv hc hu N2 (le_refl _) _ i hi]

/-- C32. The product routine computes the matrix product along any axis, for any valid CSR matrix (duplicates included),
any previous contents of the output and any order of the parallel iterations. `iters` is the number of parallel
iterations: rows, or rows times the number of leading lines. -/
theorem apply_csr_applies (A : Csr K) (N1 N2 M2 N3 : Nat) (order : List Nat) (hv : Valid A N2 M2)
    (ho : Schedule order (if N1 = 1 then N2 else N1 * N2)) (x y : Nat → Nat → Nat → K)
    (h i k : Nat) (hh : h < N1) (hi : i < N2) (hk : k < N3) :
    applyCsr A N1 N2 N3 order x y h i k = ∑ j ∈ Finset.range M2, entry A i j * x h j k := by
  rw [entry_sum hv hi]
  have hr := fun f => row_sum A hv hi (f := f)
  have fused : ∀ n : Nat, order.Perm (List.range (N1 * n)) → n = N2 →
      ∃ hi' ∈ order, hi' / N2 = h ∧ hi' % N2 = i := by
    rintro n hp rfl
    refine ⟨h * n + i, ?_, ?_, ?_⟩
    · rw [hp.mem_iff, List.mem_range]
      calc h * n + i < h * n + n := by omega
        _ = (h + 1) * n := by ring
        _ ≤ N1 * n := Nat.mul_le_mul_right _ hh
    · rw [Nat.add_comm, Nat.add_mul_div_right _ _ (by omega), Nat.div_eq_of_lt hi, Nat.zero_add]
    · rw [Nat.add_comm, Nat.add_mul_mod_self_right, Nat.mod_eq_of_lt hi]
  unfold applyCsr
  split
  · rename_i h1
    rw [if_pos h1] at ho
    have hm : i ∈ order := (ho.mem_iff).mpr (List.mem_range.mpr hi)
    have e : h = 0 := by omega
    subst e
    split
    · have e : k = 0 := by omega
      subst e
      simp only [and_self, if_true]
      rw [applyVec_spec, if_pos hm, hr]
    · simp only [if_true]
      rw [applyFirst_spec, if_pos ⟨hm, hk⟩, hr]
  · rename_i h1
    rw [if_neg h1] at ho
    have hf := fused N2 ho rfl
    split
    · have e : k = 0 := by omega
      subst e
      simp only [if_true]
      rw [applyLast_spec, if_pos hf, hr]
    · rw [applyMid_spec, if_pos ⟨hf, hk⟩, hr]

/-- C32, the wrapper with an output array. The solution is in the output array, which may be the right-hand side itself;
a separate right-hand side is unchanged. Missing: without an output array the call returns nothing
(`solve_upper_returns_refuted`). -/
theorem solve_upper_sparse_partial (A : Csr K) (N1 N2 N3 : Nat) (order : List Nat) (hv : Valid A N2 N2)
    (hc : Canonical A N2) (hu : Upper A N2) (ho : Schedule order N1) (b : Nat → Nat → Nat → K) (inplace : Bool) :
    (∃ out, (solveUpperSparse A N1 N2 N3 order b (some inplace)).2.2 = some out ∧
      ∀ h i k, h < N1 → i < N2 → k < N3 → ∑ j ∈ Finset.range N2, entry A i j * out h j k = b h i k) ∧
    (inplace = false → (solveUpperSparse A N1 N2 N3 order b (some inplace)).2.1 = b) := by
  cases inplace
  · exact ⟨⟨_, rfl, fun h i k hh hi hk => solve_upper_solves A N1 N2 N3 order hv hc hu ho b h i k hh hi hk⟩,
      fun _ => rfl⟩
  · exact ⟨⟨_, rfl, fun h i k hh hi hk => solve_upper_solves A N1 N2 N3 order hv hc hu ho b h i k hh hi hk⟩,
      fun h => by cases h⟩

/-- The matrix with rows `(2, 1)` and `(0, 3)`. -/
def exA : Csr ℚ where
  Ap := fun i => if i = 0 then 0 else if i = 1 then 2 else 3
  Aj := fun p => if p = 0 then 0 else 1
  Ax := fun p => if p = 0 then 2 else if p = 1 then 1 else 3

theorem exA_valid : Valid exA 2 2 where
  ptr := by intro i hi; interval_cases i <;> decide
  col := by
    intro i hi p hp hp'
    simp only [exA]
    split <;> omega

theorem exA_canonical : Canonical exA 2 := by
  intro i hi p q hp hpq hq
  interval_cases i
  · have h : p = 0 ∧ q = 1 := by simp [exA] at hp hq; omega
    rw [h.1, h.2]; decide
  · exfalso; simp [exA] at hp hq; omega

theorem exA_upper : Upper exA 2 where
  upper := by
    intro i hi p hp hp'
    interval_cases i
    · omega
    · have h : p = 2 := by simp [exA] at hp hp'; omega
      rw [h]; decide
  diag := by
    intro i hi
    interval_cases i <;> decide +kernel

example : Valid exA 2 2 ∧ Canonical exA 2 ∧ Upper exA 2 ∧ Schedule [1, 0] 2 :=
  ⟨exA_valid, exA_canonical, exA_upper, by unfold Schedule; decide⟩

/-- C32 fails when no output array is given, as the signature allows: the right-hand side is unchanged and
nothing is returned, so the solution is lost. -/
theorem solve_upper_returns_refuted :
    ¬ ∀ (A : Csr ℚ) (N1 N2 N3 : Nat) (order : List Nat) (b : Nat → Nat → Nat → ℚ), Valid A N2 N2 → Canonical A N2 →
      Upper A N2 → Schedule order N1 → ∃ x, (solveUpperSparse A N1 N2 N3 order b none).1 = some x ∧
        ∀ h i k, h < N1 → i < N2 → k < N3 → ∑ j ∈ Finset.range N2, entry A i j * x h j k = b h i k := by
  intro H
  obtain ⟨x, hx, _⟩ := H exA 1 2 1 [0] (fun _ _ _ => 1) exA_valid exA_canonical exA_upper (by unfold Schedule; decide)
  cases hx

end Dedalus.Csr
