import Mathlib.Analysis.RCLike.Basic
import Mathlib.Analysis.Calculus.Deriv.Pow
import Mathlib.Analysis.Calculus.Deriv.Add
import Mathlib.Analysis.Calculus.Deriv.Mul
import Mathlib.MeasureTheory.Integral.IntervalIntegral.Basic
import Mathlib.Algebra.BigOperators.Ring.Finset
import Mathlib.Tactic.Ring
import Mathlib.Tactic.Linarith

/-!
# One-dimensional operators on functions of several coordinates

A field over a product of bases is the sum of its coefficients times products of basis functions. `SpectralOperator1D.operate`
(`dedalus/core/operators.py` L983-996) applies the matrix of a one-dimensional operator along one axis of the coefficients with
`apply_matrix` (`dedalus/tools/array.py` L77-130). Here it is shown that this applies the operator in the coordinate of that axis to the function of all coordinates.
-/

namespace Dedalus.Cart

variable {K : Type} [RCLike K]

/-- One axis of a domain: the number of coefficients and the basis functions. A constant axis has the one function 1. -/
structure Axis (K : Type) where
  size : Nat
  phi : Nat → ℝ → K

/-- The function that coefficients stand for. -/
def value : List (Axis K) → (List Nat → K) → List ℝ → K
  | [], c, _ => c []
  | A :: as, c, x :: xs => ∑ n ∈ Finset.range A.size, A.phi n x * value as (fun l => c (n :: l)) xs
  | _ :: _, _, [] => 0

/-- `apply_matrix(matrix, array, axis)` with a matrix of `size` columns (`dedalus/tools/array.py` L77-130). The moves of the axis to the
front and back and the flattening of the other axes are not written out. -/
def applyAxis (k size : Nat) (M : Nat → Nat → K) (c : List Nat → K) (l : List Nat) : K :=
  match l[k]? with
  | none => 0
  | some i => ∑ m ∈ Finset.range size, M i m * c (l.set k m)

theorem value_congr : ∀ (as : List (Axis K)) (c c' : List Nat → K) (xs : List ℝ), (∀ l, l.length = as.length → c l = c' l) → value as c xs = value as c' xs
  | [], c, c', xs, h => h [] rfl
  | A :: as, c, c', [], h => rfl
  | A :: as, c, c', x :: xs, h => by
    unfold value
    refine Finset.sum_congr rfl fun n _ => ?_
    rw [value_congr as _ _ xs fun l hl => h (n :: l) (by simp [hl])]

theorem value_sum : ∀ (as : List (Axis K)) (s : Finset Nat) (w : Nat → K) (c : Nat → List Nat → K) (xs : List ℝ),
    value as (fun l => ∑ m ∈ s, w m * c m l) xs = ∑ m ∈ s, w m * value as (c m) xs
  | [], s, w, c, xs => rfl
  | A :: as, s, w, c, [] => by simp [value]
  | A :: as, s, w, c, x :: xs => by
    unfold value
    simp only [value_sum as s w _ xs, Finset.mul_sum]
    rw [Finset.sum_comm]
    refine Finset.sum_congr rfl fun m _ => Finset.sum_congr rfl fun n _ => ?_
    ring

/-- The function along one coordinate, the others fixed: a sum over the basis functions of this coordinate. -/
theorem value_split : ∀ (k : Nat) (as : List (Axis K)) (A : Axis K) (c : List Nat → K) (xs : List ℝ) (x : ℝ), as[k]? = some A → xs[k]? = some x →
    value as c xs = ∑ m ∈ Finset.range A.size, A.phi m x * value (as.eraseIdx k) (fun l => c (l.insertIdx k m)) (xs.eraseIdx k)
  | 0, A0 :: as, A, c, x0 :: xs, x, ha, hx => by
    simp only [List.getElem?_cons_zero, Option.some.injEq] at ha hx
    subst ha hx
    rfl
  | k + 1, A0 :: as, A, c, x0 :: xs, x, ha, hx => by
    simp only [List.getElem?_cons_succ] at ha hx
    simp only [value, List.eraseIdx_cons_succ]
    simp only [value_split k as A _ xs x ha hx, Finset.mul_sum]
    rw [Finset.sum_comm]
    refine Finset.sum_congr rfl fun m _ => Finset.sum_congr rfl fun n _ => ?_
    simp only [List.insertIdx_succ_cons]
    ring
  | _, [], _, _, _, _, ha, _ => by simp at ha
  | _, _ :: _, _, _, [], _, _, hx => by simp at hx

theorem apply_insert (k size : Nat) (M : Nat → Nat → K) (c : List Nat → K) (l : List Nat) (i : Nat) (h : k ≤ l.length) :
    applyAxis k size M c (l.insertIdx k i) = ∑ m ∈ Finset.range size, M i m * c (l.insertIdx k m) := by
  unfold applyAxis
  rw [List.getElem?_insertIdx_self, if_pos h]
  refine Finset.sum_congr rfl fun m _ => ?_
  congr 2
  induction k generalizing l with
  | zero => simp
  | succ k ih =>
    cases l with
    | nil => simp at h
    | cons a l => simp [List.insertIdx_succ_cons, ih l (by simpa using h)]

/-- If a matrix turns the coefficients of every function of one coordinate into those of its image under an operation `T`, then applying
the matrix along axis `k` of the coefficients of a function of several coordinates applies `T` in coordinate `k`, for every dimension and axis. -/
theorem apply_axis_exact (T : (ℝ → K) → ℝ → K) (as : List (Axis K)) (k : Nat) (A B : Axis K) (M : Nat → Nat → K) (c : List Nat → K) (xs : List ℝ) (x : ℝ)
    (hA : as[k]? = some A) (hx : xs[k]? = some x)
    (hT : ∀ a : Nat → K, ∑ i ∈ Finset.range B.size, (∑ m ∈ Finset.range A.size, M i m * a m) * B.phi i x = T (fun t => ∑ m ∈ Finset.range A.size, a m * A.phi m t) x) :
    value (as.set k B) (applyAxis k A.size M c) xs = T (fun t => value as c (xs.set k t)) x := by
  obtain ⟨hk, -⟩ := List.getElem?_eq_some_iff.1 hA
  obtain ⟨hk', -⟩ := List.getElem?_eq_some_iff.1 hx
  have hfun : (fun t => value as c (xs.set k t)) = fun t => ∑ m ∈ Finset.range A.size, value (as.eraseIdx k) (fun l => c (l.insertIdx k m)) (xs.eraseIdx k) * A.phi m t := by
    funext t
    rw [value_split k as A c (xs.set k t) t hA (by simp [hk']), List.eraseIdx_set_eq]
    exact Finset.sum_congr rfl fun m _ => mul_comm _ _
  rw [hfun, ← hT, value_split k (as.set k B) B _ xs x (by simp [hk]) hx]
  refine Finset.sum_congr rfl fun i _ => ?_
  rw [mul_comm, List.eraseIdx_set_eq]
  congr 1
  rw [← value_sum]
  refine value_congr _ _ _ _ fun l hl => ?_
  refine apply_insert k A.size M c l i ?_
  rw [List.length_eraseIdx_of_lt hk] at hl
  omega

/-- Differentiation along one axis is the partial derivative. -/
theorem derivative_axis (as : List (Axis K)) (k : Nat) (A B : Axis K) (M : Nat → Nat → K) (c : List Nat → K) (xs : List ℝ) (x : ℝ)
    (hA : as[k]? = some A) (hx : xs[k]? = some x) (hd : ∀ m < A.size, DifferentiableAt ℝ (A.phi m) x)
    (hM : ∀ m < A.size, deriv (A.phi m) x = ∑ i ∈ Finset.range B.size, M i m * B.phi i x) :
    value (as.set k B) (applyAxis k A.size M c) xs = deriv (fun t => value as c (xs.set k t)) x := by
  refine apply_axis_exact (fun f => deriv f) as k A B M c xs x hA hx fun a => ?_
  have hsum : (fun t => ∑ m ∈ Finset.range A.size, a m * A.phi m t) = ∑ m ∈ Finset.range A.size, fun t => a m * A.phi m t := by
    funext t; rw [Finset.sum_apply]
  rw [hsum, deriv_sum (fun m hm => (hd m (Finset.mem_range.1 hm)).const_mul _)]
  simp only [Finset.sum_mul]
  rw [Finset.sum_comm]
  refine Finset.sum_congr rfl fun m hm => ?_
  rw [deriv_const_mul _ (hd m (Finset.mem_range.1 hm)), hM m (Finset.mem_range.1 hm), Finset.mul_sum]
  refine Finset.sum_congr rfl fun i _ => ?_
  ring

/-- Integration along one axis (the matrix has one row, the output is constant along the axis) is the integral over this coordinate. -/
theorem integral_axis (as : List (Axis K)) (k : Nat) (A : Axis K) (M : Nat → Nat → K) (c : List Nat → K) (xs : List ℝ) (x p q : ℝ)
    (hA : as[k]? = some A) (hx : xs[k]? = some x) (hi : ∀ m < A.size, IntervalIntegrable (A.phi m) MeasureTheory.volume p q)
    (hM : ∀ m < A.size, ∫ t in p..q, A.phi m t = M 0 m) :
    value (as.set k ⟨1, fun _ _ => 1⟩) (applyAxis k A.size M c) xs = ∫ t in p..q, value as c (xs.set k t) := by
  refine apply_axis_exact (fun f _ => ∫ t in p..q, f t) as k A ⟨1, fun _ _ => 1⟩ M c xs x hA hx fun a => ?_
  rw [intervalIntegral.integral_finset_sum (fun m hm => (hi m (Finset.mem_range.1 hm)).const_mul (a m))]
  simp only [Finset.sum_range_one, mul_one]
  refine Finset.sum_congr rfl fun m hm => ?_
  rw [intervalIntegral.integral_const_mul, hM m (Finset.mem_range.1 hm), mul_comm]

/-- Interpolation along one axis is the value of the function with this coordinate fixed. -/
theorem interpolation_axis (as : List (Axis K)) (k : Nat) (A : Axis K) (M : Nat → Nat → K) (c : List Nat → K) (xs : List ℝ) (x p : ℝ)
    (hA : as[k]? = some A) (hx : xs[k]? = some x) (hM : ∀ m < A.size, M 0 m = A.phi m p) :
    value (as.set k ⟨1, fun _ _ => 1⟩) (applyAxis k A.size M c) xs = value as c (xs.set k p) := by
  refine apply_axis_exact (fun f _ => f p) as k A ⟨1, fun _ _ => 1⟩ M c xs x hA hx fun a => ?_
  simp only [Finset.sum_range_one, mul_one]
  exact Finset.sum_congr rfl fun m hm => by rw [hM m (Finset.mem_range.1 hm), mul_comm]

/-- A change of basis along one axis keeps the function. -/
theorem conversion_axis (as : List (Axis K)) (k : Nat) (A B : Axis K) (M : Nat → Nat → K) (c : List Nat → K) (xs : List ℝ) (x : ℝ)
    (hA : as[k]? = some A) (hx : xs[k]? = some x) (hM : ∀ m < A.size, A.phi m x = ∑ i ∈ Finset.range B.size, M i m * B.phi i x) :
    value (as.set k B) (applyAxis k A.size M c) xs = value as c xs := by
  have hset : xs.set k x = xs := by
    obtain ⟨hk, e⟩ := List.getElem?_eq_some_iff.1 hx
    rw [← e]; exact List.set_getElem_self hk
  rw [apply_axis_exact (fun f => f) as k A B M c xs x hA hx fun a => ?_]
  · beta_reduce; rw [hset]
  simp only [Finset.sum_mul]
  rw [Finset.sum_comm]
  refine Finset.sum_congr rfl fun m hm => ?_
  rw [hM m (Finset.mem_range.1 hm), Finset.mul_sum]
  refine Finset.sum_congr rfl fun i _ => ?_
  ring

/-- Operations along different axes commute. -/
theorem axes_commute (k k' n n' : Nat) (hk : k ≠ k') (M M' : Nat → Nat → K) (c : List Nat → K) (l : List Nat) (h : k < l.length) (h' : k' < l.length) :
    applyAxis k n M (applyAxis k' n' M' c) l = applyAxis k' n' M' (applyAxis k n M c) l := by
  have e1 : ∀ m, (l.set k m)[k']? = l[k']? := fun m => by rw [List.getElem?_set_ne hk]
  have e2 : ∀ m, (l.set k' m)[k]? = l[k]? := fun m => by rw [List.getElem?_set_ne (Ne.symm hk)]
  unfold applyAxis
  simp only [e1, e2, List.getElem?_eq_getElem h, List.getElem?_eq_getElem h', Finset.mul_sum]
  rw [Finset.sum_comm]
  refine Finset.sum_congr rfl fun m _ => Finset.sum_congr rfl fun m' _ => ?_
  rw [List.set_comm _ _ hk]
  ring

/-- Monomials of degree below 3 and their derivatives meet the hypotheses of `derivative_axis`. -/
example (x : ℝ) : ∀ m < 3, deriv (fun t : ℝ => t ^ m) x = ∑ i ∈ Finset.range 2, (if i + 1 = m then (m : ℝ) else 0) * x ^ i := by
  intro m hm
  interval_cases m <;> simp [Finset.sum_range_succ]

end Dedalus.Cart
