import Mathlib.Algebra.BigOperators.Ring.Finset
import Mathlib.Algebra.BigOperators.Group.Finset.Sigma
import Mathlib.Algebra.BigOperators.Intervals
import Mathlib.Algebra.Order.Field.Basic
import Mathlib.Algebra.Order.Field.Rat
import Mathlib.Tactic.Ring
import Mathlib.Tactic.Linarith
import Verif.Mats.Model

/-!
# Kronecker structure of operator and coefficient matrices

Model of `SpectralOperator1D.subproblem_matrix` (`dedalus/core/operators.py` L925-947) and of
`Product.build_cartesian_ncc_matrix`, `cartesian_mode_matrix` (`dedalus/core/arithmetic.py` L418-460).
-/

namespace Dedalus.Mats

variable {K : Type} [Field K] [DecidableEq K]

/-- `sparse.kron(A, B)`. -/
def Mat.kron (A B : Mat K) : Mat K :=
  ⟨A.rows * B.rows, A.cols * B.cols, fun i j => A.e (i / B.rows) (j / B.cols) * B.e (i % B.rows) (j % B.cols)⟩

/-- `SpectralOperator1D.subproblem_matrix`, `dedalus/core/operators.py` L925-947, given the matrix along the
operator's axis and the sizes before (components and earlier axes) and after that axis. -/
def subproblemMatrix (before after : Nat) (m : Mat K) : Mat K :=
  let m := if before > 1 then (Mat.ident before).kron m else m
  if after > 1 then m.kron (Mat.ident after) else m

/-- `cartesian_mode_matrix`, `dedalus/core/arithmetic.py` L446-460: one factor per axis, the product matrix of
the coefficient's basis or the identity if the coefficient is constant along the axis. -/
def modeMatrix : List (Mat K) → Option (Mat K)
  | [] => none
  | m :: ms => some (ms.foldl Mat.kron m)

/-- `np.dot(Gamma, ncc_coeffs.ravel())` for the transposed array, L425-430, L442: output component by argument
component. `gamma A B C` is the array `GammaCoord` with the components of first factor, second factor, output. -/
def gammaDot (gamma : Nat → Nat → Nat → K) (nccFirst : Bool) (nccDim argDim outDim : Nat) (coeffs : Nat → K) : Mat K :=
  ⟨outDim, argDim, fun c b => ∑ n ∈ Finset.range nccDim, (if nccFirst then gamma n b c else gamma b n c) * coeffs n⟩

/-- `build_cartesian_ncc_matrix`, L431-444: sum over the coefficient's modes of the Kronecker products, skipping
modes with all coefficients below the cutoff (`nrm` is `np.abs`). `modes` lists the modes with their coefficient
components and their mode matrix. -/
def cartesianNcc {R : Type} [LinearOrder R] (nrm : K → R) (cutoff : R) (gamma : Nat → Nat → Nat → K) (nccFirst : Bool)
    (nccDim argDim outDim outModes argModes : Nat) (modes : List ((Nat → K) × Mat K)) : Option (Mat K) :=
  modes.foldlM (fun acc mode =>
    if (List.range nccDim).any (fun n => decide (nrm (mode.1 n) > cutoff)) then
      acc.add ((gammaDot gamma nccFirst nccDim argDim outDim mode.1).kron mode.2)
    else some acc) (Mat.zeros (outDim * outModes) (argDim * argModes))

/-! ### Lemmas -/

omit [DecidableEq K] in
theorem sum_range_mul (f : Nat → K) (m n : Nat) :
    ∑ k ∈ Finset.range (m * n), f k = ∑ i ∈ Finset.range m, ∑ j ∈ Finset.range n, f (i * n + j) := by
  induction m with
  | zero => simp
  | succ m ih => rw [Nat.succ_mul, Finset.sum_range_add, ih, Finset.sum_range_succ]

omit [DecidableEq K] in
theorem kron_apply (A B : Mat K) (v : Nat → K) (p q : Nat) (hq : q < B.rows) :
    ∑ j ∈ Finset.range (A.kron B).cols, (A.kron B).e (p * B.rows + q) j * v j =
      ∑ s ∈ Finset.range A.cols, ∑ t ∈ Finset.range B.cols, A.e p s * B.e q t * v (s * B.cols + t) := by
  simp only [Mat.kron]
  rw [sum_range_mul]
  refine Finset.sum_congr rfl fun s _ => Finset.sum_congr rfl fun t ht => ?_
  have ht := Finset.mem_range.1 ht
  have hB : 0 < B.cols := by omega
  rw [Nat.mul_comm p, Nat.mul_comm s, Nat.mul_add_div (by omega), Nat.div_eq_of_lt hq, Nat.mul_add_mod, Nat.mod_eq_of_lt hq,
    Nat.mul_add_div hB, Nat.div_eq_of_lt ht, Nat.mul_add_mod, Nat.mod_eq_of_lt ht]
  simp

/-- C25. The matrix of an operator along one axis applies the axis matrix to every line of the array along that
axis: entry (b, r, a) of the result is row r of the axis matrix times the line (b, ·, a). The sizes before and
after the axis are nonzero whenever the operand has data in the subproblem (`expression_matrices` does not call
`subproblem_matrix` otherwise). -/
theorem operator_matrix_acts_along_axis (before after : Nat) (hb : before ≠ 0) (ha : after ≠ 0) (m : Mat K) :
    (subproblemMatrix before after m).rows = before * m.rows * after ∧
    (subproblemMatrix before after m).cols = before * m.cols * after ∧
    ∀ (v : Nat → K) b r a, b < before → r < m.rows → a < after →
      ∑ j ∈ Finset.range (before * m.cols * after), (subproblemMatrix before after m).e ((b * m.rows + r) * after + a) j * v j =
        ∑ c ∈ Finset.range m.cols, m.e r c * v ((b * m.cols + c) * after + a) := by
  have step : ∃ m1 : Mat K, (if before > 1 then (Mat.ident before).kron m else m) = m1 ∧
      m1.rows = before * m.rows ∧ m1.cols = before * m.cols ∧
      ∀ (v : Nat → K) b r, b < before → r < m.rows →
        ∑ j ∈ Finset.range m1.cols, m1.e (b * m.rows + r) j * v j = ∑ c ∈ Finset.range m.cols, m.e r c * v (b * m.cols + c) := by
    refine ⟨_, rfl, ?_⟩
    split
    · refine ⟨rfl, rfl, fun v b r hb' hr => ?_⟩
      rw [kron_apply _ _ _ _ _ hr]
      simp only [Mat.ident, ite_mul, one_mul, zero_mul]
      rw [Finset.sum_eq_single b]
      · simp
      · intro s _ hs; simp [Ne.symm hs]
      · intro h; simp [hb'] at h
    · have : before = 1 := by omega
      subst this
      refine ⟨by simp, by simp, fun v b r hb' hr => ?_⟩
      have : b = 0 := by omega
      subst this; simp
  obtain ⟨m1, he, h1, h2, h3⟩ := step
  have hs : subproblemMatrix before after m = if after > 1 then m1.kron (Mat.ident after) else m1 := by
    simp only [subproblemMatrix, he]
  rw [hs]
  split
  · refine ⟨by simp [Mat.kron, Mat.ident, h1], by simp [Mat.kron, Mat.ident, h2], fun v b r a hb' hr ha' => ?_⟩
    have hk := kron_apply m1 (Mat.ident after : Mat K) v (b * m.rows + r) a (by simpa [Mat.ident] using ha')
    have hc : (m1.kron (Mat.ident after)).cols = before * m.cols * after := by simp [Mat.kron, Mat.ident, h2]
    rw [hc] at hk
    have hr' : (Mat.ident after : Mat K).rows = after := rfl
    rw [hr'] at hk
    rw [hk]
    have : ∀ s, ∑ t ∈ Finset.range (Mat.ident after : Mat K).cols, m1.e (b * m.rows + r) s * (Mat.ident after : Mat K).e a t *
        v (s * (Mat.ident after : Mat K).cols + t) = m1.e (b * m.rows + r) s * v (s * after + a) := by
      intro s
      simp only [Mat.ident, mul_ite, mul_one, mul_zero, ite_mul, zero_mul]
      rw [Finset.sum_ite_eq]
      simp [ha']
    simp only [this]
    rw [h3 (fun s => v (s * after + a)) b r hb' hr]
  · have : after = 1 := by omega
    subst this
    refine ⟨by simp [h1], by simp [h2], fun v b r a hb' hr ha' => ?_⟩
    have : a = 0 := by omega
    subst this
    have := h3 v b r hb' hr
    rw [h2] at this
    simpa using this

example : (2 : Nat) ≠ 0 ∧ (3 : Nat) ≠ 0 := by decide

omit [DecidableEq K] in
/-- C25. Along several axes the mode matrix acts axis by axis: its entries are the products of the entries of the
axis matrices, for row-major index `(…(i₁ n₂ + i₂) n₃ + …)`. -/
theorem mode_matrix_entries (ms : List (Mat K)) (M : Mat K) (h : modeMatrix ms = some M)
    (r c : List Nat) (hr : List.Forall₂ (fun i (m : Mat K) => i < m.rows) r ms)
    (hc : List.Forall₂ (fun j (m : Mat K) => j < m.cols) c ms) :
    M.rows = (ms.map Mat.rows).prod ∧ M.cols = (ms.map Mat.cols).prod ∧
    M.e ((r.zip (ms.map Mat.rows)).foldl (fun acc p => acc * p.2 + p.1) 0)
        ((c.zip (ms.map Mat.cols)).foldl (fun acc p => acc * p.2 + p.1) 0) =
      (List.zipWith (fun p (m : Mat K) => m.e p.1 p.2) (r.zip c) ms).prod := by
  have key : ∀ (ms : List (Mat K)) (m : Mat K) (r c : List Nat) (i j : Nat),
      List.Forall₂ (fun i (m : Mat K) => i < m.rows) r ms → List.Forall₂ (fun j (m : Mat K) => j < m.cols) c ms →
      (ms.foldl Mat.kron m).rows = m.rows * (ms.map Mat.rows).prod ∧
      (ms.foldl Mat.kron m).cols = m.cols * (ms.map Mat.cols).prod ∧
      (ms.foldl Mat.kron m).e ((r.zip (ms.map Mat.rows)).foldl (fun acc p => acc * p.2 + p.1) i)
        ((c.zip (ms.map Mat.cols)).foldl (fun acc p => acc * p.2 + p.1) j) =
      m.e i j * (List.zipWith (fun p (m : Mat K) => m.e p.1 p.2) (r.zip c) ms).prod := by
    intro ms
    induction ms with
    | nil =>
      intro m r c i j hr hc
      cases hr; cases hc; simp
    | cons n ns ih =>
      intro m r c i j hr hc
      cases hr with
      | cons hr1 hr2 =>
        cases hc with
        | cons hc1 hc2 =>
          rename_i r1 rs c1 cs
          obtain ⟨a1, a2, a3⟩ := ih (m.kron n) rs cs (i * n.rows + r1) (j * n.cols + c1) hr2 hc2
          refine ⟨?_, ?_, ?_⟩
          · simp only [List.foldl_cons, a1, List.map_cons, List.prod_cons]; simp [Mat.kron, Nat.mul_assoc]
          · simp only [List.foldl_cons, a2, List.map_cons, List.prod_cons]; simp [Mat.kron, Nat.mul_assoc]
          · simp only [List.foldl_cons, List.map_cons, List.zip_cons_cons, List.zipWith_cons_cons, List.prod_cons] at a3 ⊢
            rw [a3]
            have e1 : (i * n.rows + r1) / n.rows = i := by
              rw [Nat.mul_comm, Nat.mul_add_div (by omega), Nat.div_eq_of_lt hr1]; simp
            have e2 : (i * n.rows + r1) % n.rows = r1 := by
              rw [Nat.mul_comm, Nat.mul_add_mod, Nat.mod_eq_of_lt hr1]
            have e3 : (j * n.cols + c1) / n.cols = j := by
              rw [Nat.mul_comm, Nat.mul_add_div (by omega), Nat.div_eq_of_lt hc1]; simp
            have e4 : (j * n.cols + c1) % n.cols = c1 := by
              rw [Nat.mul_comm, Nat.mul_add_mod, Nat.mod_eq_of_lt hc1]
            simp only [Mat.kron, e1, e2, e3, e4]; ring
  cases ms with
  | nil => simp [modeMatrix] at h
  | cons m ms =>
    simp only [modeMatrix, Option.some.injEq] at h
    subst h
    cases hr with
    | cons hr1 hr2 =>
      cases hc with
      | cons hc1 hc2 =>
        rename_i r1 rs c1 cs
        obtain ⟨a1, a2, a3⟩ := key ms m rs cs r1 c1 hr2 hc2
        refine ⟨by simp [a1], by simp [a2], ?_⟩
        simpa using a3

example : ∃ M, modeMatrix [(Mat.ident 2 : Mat ℚ), ⟨1, 3, fun _ j => j⟩] = some M ∧
    List.Forall₂ (fun i (m : Mat ℚ) => i < m.rows) [1, 0] [(Mat.ident 2 : Mat ℚ), ⟨1, 3, fun _ j => j⟩] ∧
    List.Forall₂ (fun i (m : Mat ℚ) => i < m.cols) [1, 2] [(Mat.ident 2 : Mat ℚ), ⟨1, 3, fun _ j => j⟩] :=
  ⟨_, rfl, by simp [Mat.ident], by simp [Mat.ident]⟩

variable {R : Type} [LinearOrder R]

theorem cartesianNcc_go (nrm : K → R) (cutoff : R) (gamma : Nat → Nat → Nat → K) (nccFirst : Bool)
    (nccDim argDim outDim outModes argModes : Nat) (modes : List ((Nat → K) × Mat K))
    (hs : ∀ md ∈ modes, md.2.rows = outModes ∧ md.2.cols = argModes) (acc : Mat K)
    (hacc : acc.rows = outDim * outModes ∧ acc.cols = argDim * argModes) :
    ∃ M, modes.foldlM (fun acc mode =>
      if (List.range nccDim).any (fun n => decide (nrm (mode.1 n) > cutoff)) then
        acc.add ((gammaDot gamma nccFirst nccDim argDim outDim mode.1).kron mode.2)
      else some acc) acc = some M ∧ M.rows = outDim * outModes ∧ M.cols = argDim * argModes ∧
      ∀ i j, M.e i j = acc.e i j + (modes.map (fun md =>
        if (List.range nccDim).any (fun n => decide (nrm (md.1 n) > cutoff)) then
          ((gammaDot gamma nccFirst nccDim argDim outDim md.1).kron md.2).e i j else 0)).sum := by
  induction modes generalizing acc with
  | nil => exact ⟨acc, rfl, hacc.1, hacc.2, by simp⟩
  | cons md rest ih =>
    obtain ⟨hr, hc⟩ := hs md (by simp)
    have ih := fun acc h => ih (fun m hm => hs m (by simp [hm])) acc h
    rw [List.foldlM_cons]
    split
    · rename_i hany
      have hadd : acc.add ((gammaDot gamma nccFirst nccDim argDim outDim md.1).kron md.2) =
          some ⟨acc.rows, acc.cols, fun i j => acc.e i j + ((gammaDot gamma nccFirst nccDim argDim outDim md.1).kron md.2).e i j⟩ := by
        unfold Mat.add
        rw [if_pos]
        simp [Mat.kron, gammaDot, hr, hc, hacc.1, hacc.2]
      rw [hadd]
      obtain ⟨M, h1, h2, h3, h4⟩ := ih ⟨acc.rows, acc.cols, fun i j => acc.e i j + ((gammaDot gamma nccFirst nccDim argDim outDim md.1).kron md.2).e i j⟩ hacc
      refine ⟨M, h1, h2, h3, fun i j => ?_⟩
      rw [h4]
      simp only [List.map_cons, List.sum_cons, hany, if_true]
      ring
    · rename_i hany
      obtain ⟨M, h1, h2, h3, h4⟩ := ih acc hacc
      refine ⟨M, h1, h2, h3, fun i j => ?_⟩
      rw [h4]
      simp only [List.map_cons, List.sum_cons]
      rw [if_neg hany]; ring

omit [DecidableEq K] in
theorem sum_list_swap (l : List ((Nat → K) × Mat K)) (g : ((Nat → K) × Mat K) → Nat → K) (n : Nat) :
    ∑ j ∈ Finset.range n, (l.map (fun md => g md j)).sum = (l.map (fun md => ∑ j ∈ Finset.range n, g md j)).sum := by
  induction l with
  | nil => simp
  | cons a l ih => simp [Finset.sum_add_distrib, ih]

/-- C25. The matrix of a Cartesian coefficient, applied to an operand, gives the product: output component `c`,
mode `m` is the sum over coefficient components `n`, operand components `b`, coefficient modes `k` and operand
modes of coupling × coefficient × product matrix × operand. Modes whose coefficients are all below the
cutoff are left out. -/
theorem cartesian_ncc_matrix_value (nrm : K → R) (cutoff : R) (gamma : Nat → Nat → Nat → K) (nccFirst : Bool)
    (nccDim argDim outDim outModes argModes : Nat) (modes : List ((Nat → K) × Mat K))
    (hs : ∀ md ∈ modes, md.2.rows = outModes ∧ md.2.cols = argModes) :
    ∃ M, cartesianNcc nrm cutoff gamma nccFirst nccDim argDim outDim outModes argModes modes = some M ∧
      M.rows = outDim * outModes ∧ M.cols = argDim * argModes ∧
      ∀ (v : Nat → K) c m, m < outModes →
        ∑ j ∈ Finset.range M.cols, M.e (c * outModes + m) j * v j =
          ((modes.filter (fun md => (List.range nccDim).any (fun n => decide (nrm (md.1 n) > cutoff)))).map (fun md =>
            ∑ b ∈ Finset.range argDim, ∑ n ∈ Finset.range nccDim, ∑ m' ∈ Finset.range argModes,
              (if nccFirst then gamma n b c else gamma b n c) * md.1 n * md.2.e m m' * v (b * argModes + m'))).sum := by
  obtain ⟨M, h1, h2, h3, h4⟩ := cartesianNcc_go nrm cutoff gamma nccFirst nccDim argDim outDim outModes argModes modes hs
    (Mat.zeros (outDim * outModes) (argDim * argModes)) ⟨rfl, rfl⟩
  refine ⟨M, h1, h2, h3, fun v c m hm => ?_⟩
  have e1 : ∀ j, M.e (c * outModes + m) j * v j = (modes.map (fun md =>
        (if (List.range nccDim).any (fun n => decide (nrm (md.1 n) > cutoff)) then
          ((gammaDot gamma nccFirst nccDim argDim outDim md.1).kron md.2).e (c * outModes + m) j else 0) * v j)).sum := by
    intro j
    rw [h4, List.sum_map_mul_right]
    simp [Mat.zeros]
  simp only [e1, h3]
  rw [sum_list_swap]
  clear h1 h4 e1
  induction modes with
  | nil => simp
  | cons md rest ih =>
    obtain ⟨hr, hc⟩ := hs md (by simp)
    have ih := ih (fun m hm => hs m (by simp [hm]))
    rw [List.map_cons, List.sum_cons, ih]
    by_cases hany : (List.range nccDim).any (fun n => decide (nrm (md.1 n) > cutoff)) = true
    · rw [List.filter_cons_of_pos (by simpa using hany), List.map_cons, List.sum_cons]
      congr 1
      simp only [hany, if_true]
      have hk := kron_apply (gammaDot gamma nccFirst nccDim argDim outDim md.1) md.2 v c m (by omega)
      have hcols : ((gammaDot gamma nccFirst nccDim argDim outDim md.1).kron md.2).cols = argDim * argModes := by
        simp [Mat.kron, gammaDot, hc]
      rw [hcols, hr] at hk
      rw [hk]
      simp only [gammaDot, hc]
      refine Finset.sum_congr rfl fun b _ => ?_
      simp only [Finset.sum_mul]
      rw [Finset.sum_comm]
    · rw [List.filter_cons_of_neg (by simpa using hany)]
      simp [hany]

/-- C25. With cutoff zero nothing is lost: the sum runs over all modes. -/
theorem cartesian_ncc_matrix_exact [Zero R] (nrm : K → R) (hn0 : ∀ x, x ≠ 0 → nrm x > 0)
    (gamma : Nat → Nat → Nat → K) (nccFirst : Bool)
    (nccDim argDim outDim outModes argModes : Nat) (modes : List ((Nat → K) × Mat K))
    (hs : ∀ md ∈ modes, md.2.rows = outModes ∧ md.2.cols = argModes) :
    ∃ M, cartesianNcc nrm 0 gamma nccFirst nccDim argDim outDim outModes argModes modes = some M ∧
      M.rows = outDim * outModes ∧ M.cols = argDim * argModes ∧
      ∀ (v : Nat → K) c m, m < outModes →
        ∑ j ∈ Finset.range M.cols, M.e (c * outModes + m) j * v j =
          (modes.map (fun md =>
            ∑ b ∈ Finset.range argDim, ∑ n ∈ Finset.range nccDim, ∑ m' ∈ Finset.range argModes,
              (if nccFirst then gamma n b c else gamma b n c) * md.1 n * md.2.e m m' * v (b * argModes + m'))).sum := by
  obtain ⟨M, h1, h2, h3, h4⟩ := cartesian_ncc_matrix_value nrm 0 gamma nccFirst nccDim argDim outDim outModes argModes modes hs
  refine ⟨M, h1, h2, h3, fun v c m hm => ?_⟩
  rw [h4 v c m hm]
  clear h1 h4 hs
  induction modes with
  | nil => rfl
  | cons md rest ih =>
    by_cases hany : (List.range nccDim).any (fun n => decide (nrm (md.1 n) > 0)) = true
    · rw [List.filter_cons_of_pos (by simpa using hany), List.map_cons, List.map_cons, List.sum_cons, List.sum_cons, ih]
    · rw [List.filter_cons_of_neg (by simpa using hany), List.map_cons, List.sum_cons, ih]
      have z : ∀ n ∈ Finset.range nccDim, md.1 n = 0 := by
        intro n hn
        by_contra hne
        apply hany
        rw [List.any_eq_true]
        exact ⟨n, by simpa using hn, by simpa using hn0 _ hne⟩
      rw [Finset.sum_eq_zero, zero_add]
      intro b _
      refine Finset.sum_eq_zero fun n hn => Finset.sum_eq_zero fun m' _ => ?_
      rw [z n hn]; ring

example : ∀ x : ℚ, x ≠ 0 → |x| > 0 := fun _ h => abs_pos.2 h

end Dedalus.Mats
