import Verif.Clenshaw.Model
import Mathlib.Tactic.Abel
import Mathlib.Tactic.NoncommRing
import Mathlib.Tactic.FieldSimp
import Mathlib.Tactic.Ring
import Mathlib.Tactic.NormNum

/-!
# C31: Clenshaw summation
-/

namespace Dedalus.Clenshaw

open Matrix

/-- the loop of all the algorithms, for coefficients in a module: the state after the coefficients `l` that
start at number `k` -/
def go {R M : Type} [Ring R] [AddCommGroup M] [Module R M] (A B : Nat → R) (k : Nat) : List M → M × M
  | [] => (0, 0)
  | x :: l => (x + A k • (go A B (k + 1) l).1 + B (k + 1) • (go A B (k + 1) l).2, (go A B (k + 1) l).1)

/-- the direct sum of coefficients from number `k` on -/
def sumFrom {R M : Type} [Ring R] [AddCommGroup M] [Module R M] (f : Nat → R) (k : Nat) : List M → M
  | [] => 0
  | x :: l => f k • x + sumFrom f (k + 1) l

/-- A sequence that satisfies the recurrence `f_{n+1} = f_n A_n + f_{n-1} B_n` as far as `N` terms need it. -/
structure Recurrence {R : Type} [Ring R] (N : Nat) (A B f : Nat → R) : Prop where
  first : 1 < N → f 1 = f 0 * A 0
  next : ∀ n, n + 2 < N → f (n + 2) = f (n + 1) * A (n + 1) + f n * B (n + 1)

theorem go_succ {R M : Type} [Ring R] [AddCommGroup M] [Module R M] {N : Nat} {A B f : Nat → R}
    (h : Recurrence N A B f) : ∀ (l : List M) (k : Nat), k + 1 + l.length ≤ N →
    sumFrom f (k + 1) l = f (k + 1) • (go A B (k + 1) l).1 + (f k * B (k + 1)) • (go A B (k + 1) l).2
  | [], k, _ => by simp [go, sumFrom]
  | [x], k, _ => by simp [go, sumFrom]
  | x :: y :: l, k, hk => by
    rw [sumFrom, go_succ h (y :: l) (k + 1) (by simp only [List.length_cons] at hk ⊢; omega),
      h.next k (by simp only [List.length_cons] at hk; omega)]
    rw [go.eq_2 A B (k + 1)]
    simp only [smul_add, add_smul, mul_smul]
    abel

theorem go_zero {R M : Type} [Ring R] [AddCommGroup M] [Module R M] {A B f : Nat → R} (l : List M)
    (h : Recurrence l.length A B f) : sumFrom f 0 l = f 0 • (go A B 0 l).1 := by
  match l with
  | [] => simp [go, sumFrom]
  | [x] => simp [go, sumFrom]
  | x :: y :: l =>
    rw [sumFrom, go_succ h (y :: l) 0 (by simp only [List.length_cons]; omega),
      h.first (by simp only [List.length_cons]; omega), go.eq_2 A B 0]
    simp only [smul_add, mul_smul]
    abel

theorem sumFrom_eq {R M : Type} [Ring R] [AddCommGroup M] [Module R M] (f : Nat → R) : ∀ (l : List M) (k : Nat),
    sumFrom f k l = ((l.zipIdx k).map fun p => f p.2 • p.1).sum
  | [], _ => rfl
  | x :: l, k => by
    rw [sumFrom, sumFrom_eq f l (k + 1), List.zipIdx_cons, List.map_cons, List.sum_cons]

/-- C31, scalar coefficients and argument. `f` is any sequence with `f_{n+1} = A_n f_n + B_n f_{n-1}`; the result is
the sum of `c_n f_n`. -/
theorem scalar_clenshaw_sum {K : Type} [CommRing K] (c : List K) (A B f : Nat → K)
    (h1 : 1 < c.length → f 1 = A 0 * f 0)
    (h2 : ∀ n, n + 2 < c.length → f (n + 2) = A (n + 1) * f (n + 1) + B (n + 1) * f n) :
    scalarClenshaw c A B (f 0) = (c.zipIdx.map fun p => p.1 * f p.2).sum := by
  have hR : Recurrence c.length A B f := ⟨fun h => by rw [h1 h, mul_comm],
    fun n h => by rw [h2 n h, mul_comm, mul_comm (B _)]⟩
  have e : ∀ (l : List K) (k : Nat), (l.zipIdx k).foldr (fun (p : K × Nat) (b : K × K) =>
      (p.1 + A p.2 * b.1 + B (p.2 + 1) * b.2, b.1)) (0, 0) = go A B k l := by
    intro l
    induction l with
    | nil => intro k; rfl
    | cons x l ih =>
      intro k
      rw [List.zipIdx_cons, List.foldr_cons, ih, go]
      simp only [smul_eq_mul]
  have h := go_zero c hR
  rw [sumFrom_eq, smul_eq_mul] at h
  rw [scalarClenshaw, e, mul_comm, ← h]
  simp only [smul_eq_mul]
  congr 2
  funext p
  exact mul_comm _ _

/-- the recurrence of a matrix sequence that commutes with its coefficients -/
theorem recurrence_of_commute {R : Type} [Ring R] {N : Nat} {A B f : Nat → R}
    (hA : ∀ n, n + 1 < N → Commute (A n) (f n)) (hB : ∀ n, n + 2 < N → Commute (B (n + 1)) (f n))
    (h1 : 1 < N → f 1 = A 0 * f 0)
    (h2 : ∀ n, n + 2 < N → f (n + 2) = A (n + 1) * f (n + 1) + B (n + 1) * f n) : Recurrence N A B f :=
  ⟨fun h => by rw [h1 h, (hA 0 h).eq], fun n h => by rw [h2 n h, (hA (n + 1) h).eq, (hB n h).eq]⟩

/-- C31, scalar coefficients and matrix argument. The result is the sum of `c_n f_n(X)` over the
coefficients larger than the cutoff. -/
theorem matrix_clenshaw_sum {K V : Type} [CommRing K] [LT V] [DecidableLT V] {m : Nat} (mag : K → V) (cutoff : V) (c : List K)
    (A B f : Nat → Matrix (Fin m) (Fin m) K)
    (hA : ∀ n, n + 1 < c.length → Commute (A n) (f n))
    (hB : ∀ n, n + 2 < c.length → Commute (B (n + 1)) (f n))
    (h1 : 1 < c.length → f 1 = A 0 * f 0)
    (h2 : ∀ n, n + 2 < c.length → f (n + 2) = A (n + 1) * f (n + 1) + B (n + 1) * f n) :
    matrixClenshaw mag c A B (f 0) cutoff =
      (c.zipIdx.map fun p => if mag p.1 > cutoff then p.1 • f p.2 else 0).sum := by
  let g : K → Matrix (Fin m) (Fin m) K := fun x => if mag x > cutoff then x • 1 else 0
  have hR : Recurrence (c.map g).length A B f := by
    rw [List.length_map]; exact recurrence_of_commute hA hB h1 h2
  have e : ∀ (l : List K) (k : Nat), (l.zipIdx k).foldr
      (fun (p : K × Nat) (b : Matrix (Fin m) (Fin m) K × Matrix (Fin m) (Fin m) K) =>
        (if mag p.1 > cutoff then p.1 • (1 : Matrix (Fin m) (Fin m) K) + A p.2 * b.1 + B (p.2 + 1) * b.2
          else A p.2 * b.1 + B (p.2 + 1) * b.2, b.1)) (0, 0) = go A B k (l.map g) := by
    intro l
    induction l with
    | nil => intro k; rfl
    | cons x l ih =>
      intro k
      rw [List.zipIdx_cons, List.foldr_cons, ih, List.map_cons, go]
      simp only [g, smul_eq_mul]
      by_cases hx : mag x > cutoff
      · rw [if_pos hx, if_pos hx]
      · rw [if_neg hx, if_neg hx, zero_add]
  have h := go_zero (c.map g) hR
  rw [sumFrom_eq, smul_eq_mul] at h
  rw [matrixClenshaw, e, ← h, List.zipIdx_map, List.map_map]
  congr 2
  funext p
  simp only [Function.comp, Prod.map, g, smul_eq_mul, id]
  by_cases hx : mag p.1 > cutoff
  · rw [if_pos hx, if_pos hx, mul_smul_comm, mul_one]
  · rw [if_neg hx, if_neg hx, mul_zero]

/-- C31, matrix coefficients: the result is the sum of `f_n(X) ⊗ c_n` over the coefficients larger than the
cutoff. -/
theorem kronecker_clenshaw_sum {K : Type} [CommRing K] {m r : Nat} (cutoff : ℚ)
    (c : List (Matrix (Fin r) (Fin r) K × ℚ)) (A B f : Nat → Matrix (Fin m) (Fin m) K)
    (hA : ∀ n, n + 1 < c.length → Commute (A n) (f n))
    (hB : ∀ n, n + 2 < c.length → Commute (B (n + 1)) (f n))
    (h1 : 1 < c.length → f 1 = A 0 * f 0)
    (h2 : ∀ n, n + 2 < c.length → f (n + 2) = A (n + 1) * f (n + 1) + B (n + 1) * f n) :
    kroneckerClenshaw c A B (f 0) cutoff =
      (c.zipIdx.map fun p => if p.1.2 > cutoff then kroneckerMap (· * ·) (f p.2) p.1.1 else 0).sum := by
  let g : Matrix (Fin r) (Fin r) K × ℚ → Matrix (Fin m × Fin r) (Fin m × Fin r) K :=
    fun x => if x.2 > cutoff then kroneckerMap (· * ·) 1 x.1 else 0
  let ι : Matrix (Fin m) (Fin m) K → Matrix (Fin m × Fin r) (Fin m × Fin r) K :=
    fun X => kroneckerMap (· * ·) X 1
  have ιmul : ∀ X Y, ι (X * Y) = ι X * ι Y := fun X Y => by
    simp only [ι]
    rw [← Matrix.mul_kronecker_mul, one_mul]
  have ιadd : ∀ X Y, ι (X + Y) = ι X + ι Y := fun X Y => Matrix.add_kronecker X Y 1
  have hR0 := recurrence_of_commute hA hB h1 h2
  have hR : Recurrence (c.map g).length (fun n => ι (A n)) (fun n => ι (B n)) (fun n => ι (f n)) := by
    rw [List.length_map]
    exact ⟨fun h => by rw [hR0.first h, ιmul], fun n h => by rw [hR0.next n h, ιadd, ιmul, ιmul]⟩
  have e : ∀ (l : List (Matrix (Fin r) (Fin r) K × ℚ)) (k : Nat), (l.zipIdx k).foldr
      (fun (p : (Matrix (Fin r) (Fin r) K × ℚ) × Nat)
        (b : Matrix (Fin m × Fin r) (Fin m × Fin r) K × Matrix (Fin m × Fin r) (Fin m × Fin r) K) =>
        let b0 := kroneckerMap (· * ·) (A p.2) 1 * b.1 + kroneckerMap (· * ·) (B (p.2 + 1)) 1 * b.2
        (if p.1.2 > cutoff then b0 + kroneckerMap (· * ·) 1 p.1.1 else b0, b.1)) (0, 0) =
      go (fun n => ι (A n)) (fun n => ι (B n)) k (l.map g) := by
    intro l
    induction l with
    | nil => intro k; rfl
    | cons x l ih =>
      intro k
      rw [List.zipIdx_cons, List.foldr_cons, ih, List.map_cons, go]
      simp only [g, ι, smul_eq_mul]
      by_cases hx : x.2 > cutoff
      · rw [if_pos hx, if_pos hx]
        congr 1
        abel
      · rw [if_neg hx, if_neg hx, zero_add]
  have h := go_zero (c.map g) hR
  rw [sumFrom_eq, smul_eq_mul] at h
  rw [kroneckerClenshaw, e, ← h, List.zipIdx_map, List.map_map]
  congr 2
  funext p
  simp only [Function.comp, Prod.map, g, ι, smul_eq_mul, id]
  by_cases hx : p.1.2 > cutoff
  · rw [if_pos hx, if_pos hx, ← Matrix.mul_kronecker_mul, mul_one, one_mul]
  · rw [if_neg hx, if_neg hx, mul_zero]

/-- C31, matrix coefficients on the left: the result is the sum of `c_n ⊗ f_n(X)`. -/
theorem kronecker_clenshaw_left_sum {K : Type} [CommRing K] {m r : Nat} (cutoff : ℚ)
    (c : List (Matrix (Fin r) (Fin r) K × ℚ)) (A B f : Nat → Matrix (Fin m) (Fin m) K)
    (hA : ∀ n, n + 1 < c.length → Commute (A n) (f n))
    (hB : ∀ n, n + 2 < c.length → Commute (B (n + 1)) (f n))
    (h1 : 1 < c.length → f 1 = A 0 * f 0)
    (h2 : ∀ n, n + 2 < c.length → f (n + 2) = A (n + 1) * f (n + 1) + B (n + 1) * f n) :
    kroneckerClenshawLeft c A B (f 0) cutoff =
      (c.zipIdx.map fun p => if p.1.2 > cutoff then kroneckerMap (· * ·) p.1.1 (f p.2) else 0).sum := by
  let g : Matrix (Fin r) (Fin r) K × ℚ → Matrix (Fin r × Fin m) (Fin r × Fin m) K :=
    fun x => if x.2 > cutoff then kroneckerMap (· * ·) x.1 1 else 0
  let ι : Matrix (Fin m) (Fin m) K → Matrix (Fin r × Fin m) (Fin r × Fin m) K :=
    fun X => kroneckerMap (· * ·) 1 X
  have ιmul : ∀ X Y, ι (X * Y) = ι X * ι Y := fun X Y => by
    simp only [ι]
    rw [← Matrix.mul_kronecker_mul, one_mul]
  have ιadd : ∀ X Y, ι (X + Y) = ι X + ι Y := fun X Y => Matrix.kronecker_add 1 X Y
  have hR0 := recurrence_of_commute hA hB h1 h2
  have hR : Recurrence (c.map g).length (fun n => ι (A n)) (fun n => ι (B n)) (fun n => ι (f n)) := by
    rw [List.length_map]
    exact ⟨fun h => by rw [hR0.first h, ιmul], fun n h => by rw [hR0.next n h, ιadd, ιmul, ιmul]⟩
  have e : ∀ (l : List (Matrix (Fin r) (Fin r) K × ℚ)) (k : Nat), (l.zipIdx k).foldr
      (fun (p : (Matrix (Fin r) (Fin r) K × ℚ) × Nat)
        (b : Matrix (Fin r × Fin m) (Fin r × Fin m) K × Matrix (Fin r × Fin m) (Fin r × Fin m) K) =>
        let b0 := kroneckerMap (· * ·) 1 (A p.2) * b.1 + kroneckerMap (· * ·) 1 (B (p.2 + 1)) * b.2
        (if p.1.2 > cutoff then b0 + kroneckerMap (· * ·) p.1.1 1 else b0, b.1)) (0, 0) =
      go (fun n => ι (A n)) (fun n => ι (B n)) k (l.map g) := by
    intro l
    induction l with
    | nil => intro k; rfl
    | cons x l ih =>
      intro k
      rw [List.zipIdx_cons, List.foldr_cons, ih, List.map_cons, go]
      simp only [g, ι, smul_eq_mul]
      by_cases hx : x.2 > cutoff
      · rw [if_pos hx, if_pos hx]
        congr 1
        abel
      · rw [if_neg hx, if_neg hx, zero_add]
  have h := go_zero (c.map g) hR
  rw [sumFrom_eq, smul_eq_mul] at h
  rw [kroneckerClenshawLeft, e, ← h, List.zipIdx_map, List.map_map]
  congr 2
  funext p
  simp only [Function.comp, Prod.map, g, ι, smul_eq_mul, id]
  by_cases hx : p.1.2 > cutoff
  · rw [if_pos hx, if_pos hx, ← Matrix.mul_kronecker_mul, mul_one, one_mul]
  · rw [if_neg hx, if_neg hx, mul_zero]

/-- C31. The coefficients built from a Jacobi matrix are those of the polynomials the matrix defines: if
`J[n,n-1] f_{n-1} + J[n,n] f_n + J[n,n+1] f_{n+1} = X f_n`, then `f_{n+1} = A_n f_n + B_n f_{n-1}`, for a scalar or a
matrix argument. -/
theorem jacobi_recursion_sequence {K R : Type} [Field K] [Ring R] [Algebra K R] (N : Nat) (J : Nat → Nat → K)
    (X : R) (f : Nat → R) (hJ : ∀ n, n + 1 < N → J n (n + 1) ≠ 0)
    (h0 : 1 < N → J 0 0 • f 0 + J 0 1 • f 1 = X * f 0)
    (hn : ∀ n, n + 2 < N → J (n + 1) n • f n + J (n + 1) (n + 1) • f (n + 1) + J (n + 1) (n + 2) • f (n + 2) =
      X * f (n + 1)) :
    (1 < N → f 1 = jacobiA N J X 0 * f 0) ∧
    ∀ n, n + 2 < N → f (n + 2) = jacobiA N J X (n + 1) * f (n + 1) + jacobiB N J (n + 1) * f n := by
  constructor
  · intro h
    have hJ0 := hJ 0 h
    rw [jacobiA, if_pos h, smul_mul_assoc, sub_mul, ← h0 h, smul_mul_assoc, one_mul, add_sub_cancel_left,
      smul_smul]
    simp only [Nat.zero_add] at hJ0 ⊢
    rw [inv_mul_cancel₀ hJ0, one_smul]
  · intro n h
    have hJ0 := hJ (n + 1) h
    rw [jacobiA, if_pos h, jacobiB, if_pos ⟨Nat.succ_pos n, h⟩, smul_mul_assoc, sub_mul, ← hn n h, smul_mul_assoc,
      one_mul, smul_mul_assoc, one_mul, show n + 1 - 1 = n from rfl]
    have e : J (n + 1) n • f n + J (n + 1) (n + 1) • f (n + 1) + J (n + 1) (n + 2) • f (n + 2) -
        J (n + 1) (n + 1) • f (n + 1) = J (n + 1) n • f n + J (n + 1) (n + 2) • f (n + 2) := by abel
    rw [e, smul_add, smul_smul, smul_smul]
    have hJ1 : J (n + 1) (n + 2) ≠ 0 := hJ0
    rw [show n + 1 + 1 = n + 2 from rfl, inv_mul_cancel₀ hJ1, one_smul, div_eq_mul_inv, mul_comm (-J (n + 1) n),
      mul_neg, neg_smul]
    abel

/-- C31. Clenshaw summation with the coefficients built from a Jacobi matrix gives the series in the polynomials the
matrix defines. -/
theorem jacobi_clenshaw_sum {K V : Type} [Field K] [LT V] [DecidableLT V] {m : Nat} (mag : K → V) (cutoff : V) (N : Nat)
    (J : Nat → Nat → K)
    (X : Matrix (Fin m) (Fin m) K) (f : Nat → Matrix (Fin m) (Fin m) K) (c : List K) (hc : c.length ≤ N)
    (hJ : ∀ n, n + 1 < N → J n (n + 1) ≠ 0) (hX : ∀ n, Commute X (f n))
    (h0 : 1 < N → J 0 0 • f 0 + J 0 1 • f 1 = X * f 0)
    (hn : ∀ n, n + 2 < N → J (n + 1) n • f n + J (n + 1) (n + 1) • f (n + 1) + J (n + 1) (n + 2) • f (n + 2) =
      X * f (n + 1)) :
    matrixClenshaw mag c (jacobiA N J X) (jacobiB N J) (f 0) cutoff =
      (c.zipIdx.map fun p => if mag p.1 > cutoff then p.1 • f p.2 else 0).sum := by
  obtain ⟨h1, h2⟩ := jacobi_recursion_sequence N J X f hJ h0 hn
  refine matrix_clenshaw_sum mag cutoff c _ _ f ?_ ?_ (fun h => h1 (by omega)) (fun n h => h2 n (by omega))
  · intro n h
    rw [jacobiA]
    split
    · refine Commute.smul_left (Commute.sub_left (hX n) ?_) _
      exact Commute.smul_left (Commute.one_left _) _
    · exact Commute.zero_left _
  · intro n h
    rw [jacobiB]
    split
    · exact Commute.smul_left (Commute.one_left _) _
    · exact Commute.zero_left _

/-! Chebyshev polynomials: `T_{n+1} = 2 x T_n - T_{n-1}` (`A_0 = x`), and `T_0 + 2 T_1 + 3 T_2` at `x = 3` is 58. -/

example : scalarClenshaw [1, 2, 3] (fun n => if n = 0 then (3 : ℚ) else 6) (fun _ => -1) 1 = 58 := by
  decide +kernel

/-- pairs `(f_n, f_{n+1})` with `f_{n+2} = a f_{n+1} - f_n` -/
def pairs {R : Type} [Ring R] (a f0 f1 : R) : Nat → R × R
  | 0 => (f0, f1)
  | n + 1 => ((pairs a f0 f1 n).2, a * (pairs a f0 f1 n).2 - (pairs a f0 f1 n).1)

example : ∃ f : Nat → ℚ, f 0 = 1 ∧ f 1 = 3 * f 0 ∧ ∀ n, f (n + 2) = 6 * f (n + 1) + -1 * f n :=
  ⟨fun n => (pairs 6 1 3 n).1, rfl, by simp [pairs], fun n => by simp [pairs]; ring⟩

/-- a commuting matrix sequence with a Jacobi recurrence: `J = [[0,1,0],[1,0,1],..]`, `f_0 = 1`, `f_1 = X`,
`f_2 = X² - 1` -/
example (X : Matrix (Fin 2) (Fin 2) ℚ) : ∃ f : Nat → Matrix (Fin 2) (Fin 2) ℚ, (∀ n, Commute X (f n)) ∧
    (0 : ℚ) • f 0 + (1 : ℚ) • f 1 = X * f 0 ∧
    ∀ n, (1 : ℚ) • f n + (0 : ℚ) • f (n + 1) + (1 : ℚ) • f (n + 2) = X * f (n + 1) := by
  refine ⟨fun n => (pairs X 1 X n).1, ?_, by simp [pairs], fun n => by simp [pairs]⟩
  have : ∀ n : Nat, Commute X (pairs X 1 X n).1 ∧ Commute X (pairs X 1 X n).2 := by
    intro n
    induction n with
    | zero => exact ⟨Commute.one_right _, Commute.refl _⟩
    | succ n ih => exact ⟨ih.2, (Commute.mul_right (Commute.refl _) ih.2).sub_right ih.1⟩
  exact fun n => (this n).1

end Dedalus.Clenshaw
