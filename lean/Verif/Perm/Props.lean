import Verif.Perm.Lemmas
import Mathlib.LinearAlgebra.Matrix.Notation
import Mathlib.Data.Matrix.Mul

/-!
# C17: the reordering of equations and variables is a permutation and preserves the system
-/

namespace Dedalus.Perm

/-- C17. The index vector lists every row exactly once, ordered by dimension at the configured end, then
by mode, then by component and equation: its `r`-th entry is the input position of the `r`-th row. -/
theorem permutation_order (bs : List Block) (first interleave : Bool) :
    ∃ rows : List Row, rows.Perm (inputRows 0 bs) ∧ rows.Pairwise (before first interleave) ∧
      permutation bs first interleave = rows.map fun r => (inputRows 0 bs).idxOf r :=
  ⟨outRows bs first interleave,
    (List.perm_ext_iff_of_nodup (outRows_nodup _ _ _) (inputRows_nodup _ _)).2 fun _ => mem_outRows,
    outRows_pairwise _ _ _, permutation_eq _ _ _⟩

/-- C17. The index vector is a permutation of all row numbers, whatever the equations and options. -/
theorem permutation_perm (bs : List Block) (first interleave : Bool) :
    (permutation bs first interleave).Perm (List.range (inputRows 0 bs).length) := by
  obtain ⟨rows, h, _, e⟩ := permutation_order bs first interleave
  rw [e, ← map_idxOf_self _ (inputRows_nodup bs 0)]
  exact h.map _

/-- Total number of rows, as the code counts it (`sum(eqn_sizes)`). -/
theorem inputRows_length (bs : List Block) : ∀ k, (inputRows k bs).length = (bs.map fun b => b.comps * b.modes).sum := by
  induction bs with
  | nil => intro k; simp [inputRows]
  | cons b bs ih => intro k; rw [inputRows_cons, List.length_append, length_compRows, ih]; simp

/-- C17. A row that belongs to a lower-dimensional equation (a boundary condition) is placed after all rows of
higher-dimensional equations, or before them with `bc_top` / `tau_left`. -/
theorem lower_dims_at_end (bs : List Block) (first interleave : Bool) :
    ∃ dims : List Nat, dims.length = (permutation bs first interleave).length ∧
      (∀ r i : Nat, (permutation bs first interleave)[r]? = some i → dims[r]? = ((inputRows 0 bs)[i]?).map Row.dim) ∧
      dims.Pairwise (fun a b => if first then a ≤ b else b ≤ a) := by
  obtain ⟨rows, h, hp, e⟩ := permutation_order bs first interleave
  refine ⟨rows.map Row.dim, by simp [e], ?_, ?_⟩
  · intro r i hr
    rw [e, List.getElem?_map] at hr
    obtain ⟨x, hx, rfl⟩ := Option.map_eq_some_iff.1 hr
    rw [List.getElem?_map, hx, List.getElem?_idxOf (h.mem_iff.1 (List.mem_of_getElem? hx))]
  · rw [List.pairwise_map]
    refine hp.imp fun {a b} hab => ?_
    rcases hab with hab | hab
    · cases first
      · simp at hab ⊢; omega
      · simp at hab ⊢; omega
    · cases first <;> simp [hab.1]

/-- Two equations of dimension 2 and one boundary condition, as in a real problem. -/
example : permutation [⟨1, 1, 1⟩, ⟨2, 2, 2⟩, ⟨2, 1, 2⟩] false true = [1, 5, 3, 2, 6, 4, 0] ∧
    permutation [⟨1, 1, 1⟩, ⟨2, 2, 2⟩, ⟨2, 1, 2⟩] true false = [0, 1, 3, 5, 2, 4, 6] := by
  constructor <;> decide

/-! ## Preconditioners -/

variable {R : Type} [CommRing R]

/-- Valid rows in the output of `precond`. -/
theorem mem_precond {bs first il valid i} : i ∈ precond (permutation bs first il) valid ↔
    i < (inputRows 0 bs).length ∧ valid i = true := by
  simp [precond, (permutation_perm bs first il).mem_iff]

theorem precond_nodup (bs first il valid) : (precond (permutation bs first il) valid).Nodup :=
  ((permutation_perm bs first il).nodup_iff.2 List.nodup_range).filter _

theorem rowMatrix_mul_transpose {src : List Nat} {n : Nat} (hn : src.Nodup) (hlt : ∀ i ∈ src, i < n) :
    rowMatrix R src n * (rowMatrix R src n).transpose = 1 := by
  ext i j
  rw [Matrix.mul_apply]
  have hi : src[i.val] < n := hlt _ (List.getElem_mem _)
  rw [Finset.sum_eq_single ⟨src[i.val], hi⟩]
  · simp only [rowMatrix, Matrix.transpose_apply, if_true, one_mul, Matrix.one_apply]
    by_cases h : i = j
    · subst h; simp
    · have : src[j.val] ≠ src[i.val] := fun e => h (Fin.ext ((hn.getElem_inj_iff).1 e)).symm
      simp [h, this]
  · intro b _ hb
    have : src[i.val] ≠ b.val := fun e => hb (Fin.ext e.symm)
    simp [rowMatrix, this]
  · simp

theorem rowMatrix_transpose_mul {src : List Nat} {n : Nat} (hn : src.Nodup) :
    (rowMatrix R src n).transpose * rowMatrix R src n =
      Matrix.diagonal fun c : Fin n => if c.val ∈ src then 1 else 0 := by
  ext a b
  rw [Matrix.mul_apply, Matrix.diagonal_apply]
  by_cases hab : a = b
  · subst hab
    by_cases hm : a.val ∈ src
    · obtain ⟨k, hk, e⟩ := List.getElem_of_mem hm
      rw [Finset.sum_eq_single ⟨k, hk⟩]
      · simp [rowMatrix, e, hm]
      · intro c _ hc
        have : src[c.val] ≠ a.val := fun e' => hc (Fin.ext ((hn.getElem_inj_iff).1 (e'.trans e.symm)))
        simp [rowMatrix, this]
      · simp
    · rw [Finset.sum_eq_zero]
      · simp [hm]
      · intro c _
        have : src[c.val] ≠ a.val := fun e => hm (e ▸ List.getElem_mem _)
        simp [rowMatrix, this]
  · rw [if_neg hab, Finset.sum_eq_zero]
    intro c _
    by_cases h1 : src[c.val] = a.val
    · have : src[c.val] ≠ b.val := fun e => hab (Fin.ext (h1.symm.trans e))
      simp [rowMatrix, this]
    · simp [rowMatrix, h1]

/-- C17. The preconditioner and its transpose are a pseudoinverse pair (the assertion in the code never fails): the
product one way is the identity on the kept rows, the other way it is the filter of valid modes. -/
theorem precond_pinv (bs : List Block) (first interleave : Bool) (valid : Nat → Bool) :
    let n := (inputRows 0 bs).length
    let P := rowMatrix R (precond (permutation bs first interleave) valid) n
    P * P.transpose = 1 ∧ P.transpose * P = Matrix.diagonal fun c : Fin n => if valid c then 1 else 0 := by
  intro n P
  refine ⟨rowMatrix_mul_transpose (precond_nodup _ _ _ _) fun i hi => (mem_precond.1 hi).1, ?_⟩
  rw [rowMatrix_transpose_mul (precond_nodup _ _ _ _)]
  congr 1
  funext c
  have : c.val ∈ precond (permutation bs first interleave) valid ↔ valid c = true := by
    rw [mem_precond]; exact ⟨fun h => h.2, fun h => ⟨c.2, h⟩⟩
  simp [this]

/-- C17. Number of rows kept is the number of valid modes, so the restricted system is square exactly when
the numbers of valid equation and variable modes agree, the condition the code checks. -/
theorem precond_length (bs : List Block) (first interleave : Bool) (valid : Nat → Bool) :
    (precond (permutation bs first interleave) valid).length =
      ((List.range (inputRows 0 bs).length).filter valid).length :=
  ((permutation_perm bs first interleave).filter _).length_eq

open Matrix in
/-- C17. Solving the reordered, restricted system is solving the original one: `y` solves
`(pre_left M pre_right) y = pre_left f` exactly if `x = pre_right y` satisfies every valid equation of `M x = f`;
these `x` vanish on the invalid modes, and every such vector is reached. Nothing depends on the ordering options. -/
theorem restricted_system (eqs vars : List Block) (bcTop il tauLeft il' : Bool) (veq vvar : Nat → Bool)
    (M : Matrix (Fin (inputRows 0 eqs).length) (Fin (inputRows 0 vars).length) R)
    (f : Fin (inputRows 0 eqs).length → R) :
    let L := rowMatrix R (precond (permutation eqs bcTop il) veq) (inputRows 0 eqs).length
    let Q := rowMatrix R (precond (permutation vars tauLeft il') vvar) (inputRows 0 vars).length
    (∀ y, (L * M * Q.transpose) *ᵥ y = L *ᵥ f ↔ ∀ i : Fin _, veq i = true → (M *ᵥ (Q.transpose *ᵥ y)) i = f i) ∧
    (∀ y, ∀ j : Fin _, vvar j = false → (Q.transpose *ᵥ y) j = 0) ∧
    (∀ x : Fin (inputRows 0 vars).length → R, (∀ j : Fin _, vvar j = false → x j = 0) → Q.transpose *ᵥ (Q *ᵥ x) = x) := by
  intro L Q
  have hL := precond_pinv (R := R) eqs bcTop il veq
  have hQ := precond_pinv (R := R) vars tauLeft il' vvar
  simp only at hL hQ
  have key : ∀ g : Fin (inputRows 0 eqs).length → R, L *ᵥ g = 0 ↔ ∀ i : Fin _, veq i = true → g i = 0 := by
    intro g
    constructor
    · intro h i hi
      have := congrFun (congrArg (fun v => L.transpose *ᵥ v) h) i
      simp only [mulVec_mulVec, L, hL.2, mulVec_diagonal, hi, if_true, one_mul, mulVec_zero, Pi.zero_apply] at this
      exact this
    · intro h
      have h0 : L.transpose *ᵥ (L *ᵥ g) = 0 := by
        funext i
        simp only [mulVec_mulVec, L, hL.2, mulVec_diagonal, Pi.zero_apply]
        by_cases hi : veq i = true
        · simp [h i hi]
        · simp [hi]
      have := congrArg (fun v => L *ᵥ v) h0
      simpa only [mulVec_mulVec, ← Matrix.mul_assoc, L, hL.1, one_mul, mulVec_zero, Matrix.one_mul] using this
  refine ⟨fun y => ?_, fun y j hj => ?_, fun x hx => ?_⟩
  · have := key (M *ᵥ (Q.transpose *ᵥ y) - f)
    rw [mulVec_sub, sub_eq_zero] at this
    simp only [Pi.sub_apply, sub_eq_zero] at this
    rw [← this]
    simp only [mulVec_mulVec, Matrix.mul_assoc]
  · have h : Q.transpose = (Q.transpose * Q) * Q.transpose := by rw [Matrix.mul_assoc, hQ.1, Matrix.mul_one]
    rw [h, ← mulVec_mulVec]
    simp only [Q, hQ.2, mulVec_diagonal, hj]
    simp
  · rw [mulVec_mulVec]
    funext j
    simp only [Q, hQ.2, mulVec_diagonal]
    by_cases hj : vvar j = true
    · simp [hj]
    · simp [hj, hx j (by simpa using hj)]

end Dedalus.Perm
