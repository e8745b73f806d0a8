import Verif.Step.CoeffsSpec
import Mathlib.Algebra.Polynomial.Inductions
import Mathlib.Algebra.Polynomial.Eval.Degree
import Mathlib.Algebra.Order.Field.Basic
import Mathlib.Tactic.FieldSimp
import Mathlib.Tactic.Ring
import Mathlib.Tactic.LinearCombination
import Mathlib.Tactic.Positivity
import Mathlib.Tactic.IntervalCases

namespace Dedalus.Step
variable {F : Type} [Field F]
open Polynomial

theorem wsum_add (w : List F) (f g : F → F) (ts : List F) :
    wsum w (fun t => f t + g t) ts = wsum w f ts + wsum w g ts := by
  unfold wsum
  induction w generalizing ts with
  | nil => simp
  | cons a w ih => cases ts with
    | nil => simp
    | cons t ts => simp only [List.zipWith_cons_cons, List.sum_cons, ih]; ring

theorem wsum_smul (w : List F) (r : F) (f : F → F) (ts : List F) :
    wsum w (fun t => r * f t) ts = r * wsum w f ts := by
  unfold wsum
  induction w generalizing ts with
  | nil => simp
  | cons a w ih => cases ts with
    | nil => simp
    | cons t ts => simp only [List.zipWith_cons_cons, List.sum_cons, ih]; ring

theorem wsum_zero (w : List F) (ts : List F) : wsum w (fun _ => (0:F)) ts = 0 := by
  have := wsum_smul w 0 (fun _ => 0) ts
  simpa using this

theorem wsum_map (w : List F) (f : F → F) (g : F → F) (ts : List F) :
    wsum w f (ts.map g) = wsum w (fun t => f (g t)) ts := by
  unfold wsum
  rw [List.zipWith_map_right]

theorem timesBefore_shift (t s : F) (ks : List F) :
    timesBefore (s + t) ks = (timesBefore s ks).map (· + t) := by
  induction ks generalizing s with
  | nil => rfl
  | cons k ks ih =>
    simp only [timesBefore, List.map_cons]
    rw [show s + t - k = (s - k) + t by ring, ih]

theorem sampleTimes_shift (t : F) (ks : List F) :
    sampleTimes t ks = (sampleTimes 0 ks).map (· + t) := by
  cases ks with
  | nil => simp [sampleTimes]
  | cons k ks =>
    simp only [sampleTimes, List.map_cons, zero_add]
    have := timesBefore_shift t 0 ks
    rw [zero_add] at this
    rw [this, add_comm]

/-- Monomials suffice. -/
theorem exact_of_monomials (p : Nat) (a b ts : List F)
    (h : ∀ n, n ≤ p → wsum a (fun t => t ^ n) ts = wsum b (fun t => n * t ^ (n - 1)) ts)
    (y : F[X]) (hy : y.natDegree ≤ p) :
    wsum a (fun t => y.eval t) ts = wsum b (fun t => y.derivative.eval t) ts := by
  refine Polynomial.induction_with_natDegree_le (fun y : F[X] =>
    wsum a (fun t => y.eval t) ts = wsum b (fun t => y.derivative.eval t) ts) p ?_ ?_ ?_ y hy
  · simp [wsum_zero]
  · intro n r hr hn
    have := h n hn
    have e1 : (fun t => (C r * X ^ n).eval t) = fun t => r * t ^ n := by funext t; simp
    have e2 : (fun t => (derivative (C r * X ^ n)).eval t) = fun t => r * (n * t ^ (n - 1)) := by
      funext t; simp [derivative_X_pow]
    rw [e1, e2, wsum_smul, wsum_smul, this]
  · intro f g h1 h2 ih1 ih2
    simp only [eval_add, derivative_add, wsum_add]
    rw [ih1, ih2]

/-- Exactness is translation invariant. -/
theorem exact_shift (p : Nat) (a b ks : List F) (t : F)
    (h : ∀ y : F[X], y.natDegree ≤ p →
      wsum a (fun t => y.eval t) (sampleTimes 0 ks) = wsum b (fun t => y.derivative.eval t) (sampleTimes 0 ks))
    (y : F[X]) (hy : y.natDegree ≤ p) :
    wsum a (fun t => y.eval t) (sampleTimes t ks) = wsum b (fun t => y.derivative.eval t) (sampleTimes t ks) := by
  rw [sampleTimes_shift, wsum_map, wsum_map]
  have := h (y.comp (X + C t)) (by
    refine le_trans natDegree_comp_le ?_
    rw [natDegree_X_add_C, mul_one]; exact hy)
  simp only [eval_comp, eval_add, eval_X, eval_C, derivative_comp, derivative_add, derivative_X,
    derivative_C, add_zero, eval_mul, eval_one, one_mul] at this
  exact this

theorem length_sampleTimes (t : F) (ks : List F) : (sampleTimes t ks).length = ks.length + 1 := by
  have : ∀ (ks : List F) (t : F), (timesBefore t ks).length = ks.length := by
    intro ks; induction ks with
    | nil => intro t; rfl
    | cons k ks ih => intro t; simp [timesBefore, ih]
  cases ks <;> simp [sampleTimes, this]

theorem hasOrder_of (p : Nat) (co : Coeffs F) (ks : List F) (t : F)
    (h1 : ∀ n, n ≤ p → wsum co.a (fun t => t ^ n) (sampleTimes 0 ks) = wsum co.b (fun t => n * t ^ (n - 1)) (sampleTimes 0 ks))
    (h2 : ∀ n, n ≤ p → wsum co.a (fun t => t ^ n) (sampleTimes 0 ks) = wsum co.c (fun t => n * t ^ (n - 1)) (sampleTimes 0 ks))
    (h3 : co.b.sum = 1) (h4 : co.c.head? = some 0)
    (la : co.a.length ≤ ks.length + 1) (lb : co.b.length ≤ ks.length + 1) (lc : co.c.length ≤ ks.length + 1) :
    HasOrder p co (sampleTimes t ks) :=
  ⟨exact_shift p _ _ ks t (exact_of_monomials p _ _ _ h1),
   exact_shift p _ _ ks t (exact_of_monomials p _ _ _ h2), h3, h4,
   by rw [length_sampleTimes]; exact la, by rw [length_sampleTimes]; exact lb,
   by rw [length_sampleTimes]; exact lc⟩

variable [LinearOrder F] [IsStrictOrderedRing F]


/-- unfold the sums -/
local macro "ws" : tactic => `(tactic| (
  simp only [wsum, sampleTimes, timesBefore, List.zipWith_cons_cons, List.zipWith_nil_left, List.zipWith_nil_right,
    List.sum_cons, List.sum_nil, Nat.cast_zero, Nat.cast_one, Nat.cast_ofNat, Nat.sub_self, Nat.reduceSub,
    pow_zero, pow_one, zero_mul, one_mul, mul_one, mul_zero, add_zero, zero_add, zero_sub]
  try (field_simp)
  try ring))

theorem cnab1_order (k : F) (ks : List F) (hk : 0 < k) (t : F) :
    ∃ co, cnab1 (k :: ks) = some co ∧ HasOrder 1 co (sampleTimes t (k :: ks)) ∧ co.a.length = 2 := by
  refine ⟨_, rfl, hasOrder_of _ _ _ _ ?_ ?_ ?_ rfl ?_ ?_ ?_, rfl⟩
  · intro n hn
    interval_cases n <;> ws
  · intro n hn
    interval_cases n <;> ws
  · simp; norm_num
  all_goals simp

theorem sbdf1_order (k : F) (ks : List F) (hk : 0 < k) (t : F) :
    ∃ co, sbdf1 (k :: ks) = some co ∧ HasOrder 1 co (sampleTimes t (k :: ks)) ∧ co.a.length = 2 := by
  refine ⟨_, rfl, hasOrder_of _ _ _ _ ?_ ?_ ?_ rfl ?_ ?_ ?_, rfl⟩
  · intro n hn
    interval_cases n <;> ws
  · intro n hn
    interval_cases n <;> ws
  all_goals simp

theorem cnab2_order (k1 k0 : F) (ks : List F) (h1 : 0 < k1) (h0 : 0 < k0) (it : Nat) (hi : ¬ it < 1) (t : F) :
    ∃ co, cnab2 (k1 :: k0 :: ks) it = some co ∧ HasOrder 2 co (sampleTimes t (k1 :: k0 :: ks)) ∧ co.a.length = 3 := by
  refine ⟨_, by rw [cnab2, if_neg hi], hasOrder_of _ _ _ _ ?_ ?_ ?_ rfl ?_ ?_ ?_, rfl⟩
  · intro n hn
    interval_cases n <;> ws
  · intro n hn
    interval_cases n <;> ws
  · simp; norm_num
  all_goals simp

theorem mcnab2_order (k1 k0 : F) (ks : List F) (h1 : 0 < k1) (h0 : 0 < k0) (it : Nat) (hi : ¬ it < 1) (t : F) :
    ∃ co, mcnab2 (k1 :: k0 :: ks) it = some co ∧ HasOrder 2 co (sampleTimes t (k1 :: k0 :: ks)) ∧ co.a.length = 3 := by
  refine ⟨_, by rw [mcnab2, if_neg hi], hasOrder_of _ _ _ _ ?_ ?_ ?_ rfl ?_ ?_ ?_, rfl⟩
  · intro n hn
    interval_cases n <;> ws
  · intro n hn
    interval_cases n <;> ws
  · simp; field_simp; ring
  all_goals simp

theorem sbdf2_order (k1 k0 : F) (ks : List F) (h1 : 0 < k1) (h0 : 0 < k0) (it : Nat) (hi : ¬ it < 1) (t : F) :
    ∃ co, sbdf2 (k1 :: k0 :: ks) it = some co ∧ HasOrder 2 co (sampleTimes t (k1 :: k0 :: ks)) ∧ co.a.length = 3 := by
  have hs : k0 + k1 ≠ 0 := by positivity
  refine ⟨_, by rw [sbdf2, if_neg hi], hasOrder_of _ _ _ _ ?_ ?_ ?_ rfl ?_ ?_ ?_, rfl⟩
  · intro n hn
    interval_cases n <;> ws
  · intro n hn
    interval_cases n <;> ws
  all_goals simp

theorem cnlf2_order (k1 k0 : F) (ks : List F) (h1 : 0 < k1) (h0 : 0 < k0) (it : Nat) (hi : ¬ it < 1) (t : F) :
    ∃ co, cnlf2 (k1 :: k0 :: ks) it = some co ∧ HasOrder 2 co (sampleTimes t (k1 :: k0 :: ks)) ∧ co.a.length = 3 := by
  have hs : k0 + k1 ≠ 0 := by positivity
  refine ⟨_, by rw [cnlf2, if_neg hi], hasOrder_of _ _ _ _ ?_ ?_ ?_ rfl ?_ ?_ ?_, rfl⟩
  · intro n hn
    interval_cases n <;> ws
  · intro n hn
    interval_cases n <;> ws
  · simp; field_simp; ring
  all_goals simp

theorem sbdf3_order (k2 k1 k0 : F) (ks : List F) (h2 : 0 < k2) (h1 : 0 < k1) (h0 : 0 < k0) (it : Nat) (hi : ¬ it < 2) (t : F) :
    ∃ co, sbdf3 (k2 :: k1 :: k0 :: ks) it = some co ∧ HasOrder 3 co (sampleTimes t (k2 :: k1 :: k0 :: ks)) ∧ co.a.length = 4 := by
  obtain ⟨w1, hw1, e1⟩ : ∃ w1, 0 < w1 ∧ k1 = w1 * k0 := ⟨k1 / k0, by positivity, by field_simp⟩
  obtain ⟨w2, hw2, e2⟩ : ∃ w2, 0 < w2 ∧ k2 = w2 * k1 := ⟨k2 / k1, by positivity, by field_simp⟩
  have q1 : k1 / k0 = w1 := by rw [e1]; field_simp
  have q2 : k2 / k1 = w2 := by rw [e2]; field_simp
  have d1 : 1 + w1 ≠ 0 := by positivity
  have d2 : 1 + w2 ≠ 0 := by positivity
  have d3 : 1 + w1 * (1 + w2) ≠ 0 := by positivity
  have d4 : 1 + w1 + w1 * w2 ≠ 0 := by positivity
  have d0 : k0 ≠ 0 := by positivity
  refine ⟨_, by rw [sbdf3, if_neg hi], hasOrder_of _ _ _ _ ?_ ?_ ?_ rfl ?_ ?_ ?_, rfl⟩
  · simp only [q1, q2, e2, e1]
    intro n hn
    interval_cases n <;> ws
  · simp only [q1, q2, e2, e1]
    intro n hn
    interval_cases n <;> ws
  all_goals simp

set_option maxHeartbeats 4000000 in
theorem sbdf4_order (k3 k2 k1 k0 : F) (ks : List F) (h3 : 0 < k3) (h2 : 0 < k2) (h1 : 0 < k1) (h0 : 0 < k0) (it : Nat) (hi : ¬ it < 3) (t : F) :
    ∃ co, sbdf4 (k3 :: k2 :: k1 :: k0 :: ks) it = some co ∧ HasOrder 4 co (sampleTimes t (k3 :: k2 :: k1 :: k0 :: ks)) ∧ co.a.length = 5 := by
  obtain ⟨w1, hw1, e1⟩ : ∃ w1, 0 < w1 ∧ k1 = w1 * k0 := ⟨k1 / k0, by positivity, by field_simp⟩
  obtain ⟨w2, hw2, e2⟩ : ∃ w2, 0 < w2 ∧ k2 = w2 * k1 := ⟨k2 / k1, by positivity, by field_simp⟩
  obtain ⟨w3, hw3, e3⟩ : ∃ w3, 0 < w3 ∧ k3 = w3 * k2 := ⟨k3 / k2, by positivity, by field_simp⟩
  have q1 : k1 / k0 = w1 := by rw [e1]; field_simp
  have q2 : k2 / k1 = w2 := by rw [e2]; field_simp
  have q3 : k3 / k2 = w3 := by rw [e3]; field_simp
  have d1 : 1 + w1 ≠ 0 := by positivity
  have d2 : 1 + w2 ≠ 0 := by positivity
  have d3 : 1 + w3 ≠ 0 := by positivity
  have d4 : 1 + w1 * (1 + w2) ≠ 0 := by positivity
  have d5 : 1 + w2 * (1 + w3) ≠ 0 := by positivity
  have d6 : 1 + w1 * (1 + w2 * (1 + w3)) ≠ 0 := by positivity
  have d0 : k0 ≠ 0 := by positivity
  refine ⟨_, by rw [sbdf4, if_neg hi], hasOrder_of _ _ _ _ ?_ ?_ ?_ rfl ?_ ?_ ?_, rfl⟩
  · simp only [q1, q2, q3, e3, e2, e1]
    intro n hn
    interval_cases n <;> ws
  · simp only [q1, q2, q3, e3, e2, e1]
    intro n hn
    interval_cases n <;> ws
  all_goals simp

end Dedalus.Step
