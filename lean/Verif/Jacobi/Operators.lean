import Verif.Jacobi.Norms
import Mathlib.Algebra.BigOperators.Fin
import Mathlib.Algebra.Order.Floor.Ring
import Mathlib.Analysis.Calculus.Deriv.Pow
import Mathlib.Analysis.Calculus.Deriv.Add
import Mathlib.Analysis.Calculus.Deriv.Mul

namespace Dedalus.Jacobi

open Spec

/-- `op` represents multiplication by `m` on the polynomials of parameters `(a, b)`. -/
def RepAt (op : Op) (m : ℝ → ℝ) (a b : ℝ) : Prop :=
  ∀ n j z, j < n → m z * Q j a b z = ∑ i ∈ Finset.range (op.rows n), op.entry n a b i j * Q i (a + op.da) (b + op.db) z

theorem RepAt.comp {L R : Op} {mL mR : ℝ → ℝ} {a b : ℝ} (hL : RepAt L mL (a + R.da) (b + R.db)) (hR : RepAt R mR a b) :
    RepAt (L.comp R) (fun z => mL z * mR z) a b := by
  intro n j z hj
  simp only [Op.comp]
  rw [mul_assoc, hR n j z hj, Finset.mul_sum]
  have : ∀ l ∈ Finset.range (R.rows n), mL z * (R.entry n a b l j * Q l (a + R.da) (b + R.db) z) =
      ∑ i ∈ Finset.range (L.rows (R.rows n)), L.entry (R.rows n) (a + R.da) (b + R.db) i l * R.entry n a b l j *
        Q i (a + (R.da + L.da)) (b + (R.db + L.db)) z := by
    intro l hl
    rw [mul_left_comm, hL (R.rows n) l z (Finset.mem_range.1 hl), Finset.mul_sum]
    apply Finset.sum_congr rfl
    intro i _
    rw [add_assoc, add_assoc]
    ring
  rw [Finset.sum_congr rfl this, Finset.sum_comm]
  apply Finset.sum_congr rfl
  intro i _
  rw [Finset.sum_mul]

theorem RepAt.one (a b : ℝ) : RepAt Op.one (fun _ => 1) a b := by
  intro n j z hj
  simp only [Op.one, add_zero, ite_mul, one_mul, zero_mul]
  rw [Finset.sum_ite_eq' _ _ _, if_pos (Finset.mem_range.2 hj)]

theorem sum_two (n j : Nat) (hj : j + 1 < n) (f : Nat → ℝ) (h : ∀ i, i ≠ j → i ≠ j + 1 → f i = 0) :
    ∑ i ∈ Finset.range n, f i = f j + f (j + 1) := by
  rw [← Finset.sum_subset (s₁ := {j, j + 1})]
  · rw [Finset.sum_pair (by omega)]
  · intro x hx; simp at *; omega
  · intro x _ hx
    simp at hx
    exact h x hx.1 hx.2

theorem sum_one (n j : Nat) (hj : j < n) (f : Nat → ℝ) (h : ∀ i, i ≠ j → f i = 0) :
    ∑ i ∈ Finset.range n, f i = f j :=
  Finset.sum_eq_single_of_mem j (Finset.mem_range.2 hj) fun i _ hi => h i hi

theorem scaleBand_succ (a b : ℝ) (j : Nat) (v : ℝ) : scaleBand a b (j + 1) v = v / (2 * (j + 1 : Nat) + a + b + 1) := by
  simp [scaleBand]

theorem scaleBand_zero_one (a b : ℝ) : scaleBand a b 0 (((0 : Nat) : ℝ) + (a + b + 1)) = 1 := by
  unfold scaleBand
  rw [if_pos rfl]
  split
  · rfl
  · rename_i h
    have : a + b + 1 ≠ 0 := fun e => h (by linarith)
    rw [Nat.cast_zero, zero_add, div_self this]

theorem scaleBand_ne (a b : ℝ) (j : Nat) (v : ℝ) (h : a + b ≠ -1) : scaleBand a b j v = v / (2 * j + a + b + 1) := by
  unfold scaleBand
  split
  · rename_i hj; subst hj; simp [h]
  · rfl

/-! ### Entries -/

theorem opAp_diag (n : Nat) (a b : ℝ) (j : Nat) (ha : -1 < a) (hb : -1 < b) : opAp.entry n a b j j =
    scaleBand a b j (j + (a + b + 1)) * (√(norm2 j (a + 1) b) / √(norm2 j a b)) := by
  simp only [opAp, if_true]
  rw [normRatio_norm 0 1 0 j j a b ha hb (by simp) (by push_cast; linarith) (by push_cast; linarith)]
  push_cast
  rw [add_zero]

theorem opAp_upper (n : Nat) (a b : ℝ) (j : Nat) (ha : -1 < a) (hb : -1 < b) : opAp.entry n a b j (j + 1) =
    -((j + 1 : Nat) + b) / (2 * (j + 1 : Nat) + a + b + 1) * (√(norm2 j (a + 1) b) / √(norm2 (j + 1) a b)) := by
  simp only [opAp, if_true, if_neg (show ¬ j = j + 1 by omega)]
  rw [normRatio_norm (-1) 1 0 (j + 1) j a b ha hb (by push_cast; ring) (by push_cast; linarith) (by push_cast; linarith),
    scaleBand_succ]
  push_cast
  rw [add_zero]

theorem opAp_zero (n : Nat) (a b : ℝ) (i j : Nat) (h1 : i ≠ j) (h2 : i + 1 ≠ j) : opAp.entry n a b i j = 0 := by
  simp [opAp, h1, h2]

theorem opAm_diag (n : Nat) (a b : ℝ) (j : Nat) (ha : -1 < a) (hb : -1 < b) : opAm.entry n (a + 1) b j j =
    2 * (j + a + 1) / (2 * j + a + b + 2) * (√(norm2 j a b) / √(norm2 j (a + 1) b)) := by
  simp only [opAm, if_true]
  rw [normRatio_norm 0 (-1) 0 j j (a + 1) b (by linarith) hb (by simp) (by push_cast; linarith) (by push_cast; linarith),
    scaleBand_ne _ _ _ _ (by linarith)]
  push_cast
  rw [show a + 1 + -1 = a by ring, add_zero, show (2 * (j : ℝ) + (a + 1) + b + 1) = 2 * j + a + b + 2 by ring,
    show (j : ℝ) + (a + 1) = j + a + 1 by ring]

theorem opAm_lower (n : Nat) (a b : ℝ) (j : Nat) (ha : -1 < a) (hb : -1 < b) : opAm.entry n (a + 1) b (j + 1) j =
    -2 * (j + 1) / (2 * j + a + b + 2) * (√(norm2 (j + 1) a b) / √(norm2 j (a + 1) b)) := by
  simp only [opAm, if_true, if_neg (show ¬ j + 1 = j by omega)]
  rw [normRatio_norm 1 (-1) 0 j (j + 1) (a + 1) b (by linarith) hb (by simp) (by push_cast; linarith) (by push_cast; linarith),
    scaleBand_ne _ _ _ _ (by linarith)]
  push_cast
  rw [show a + 1 + -1 = a by ring, add_zero, show (2 * (j : ℝ) + (a + 1) + b + 1) = 2 * j + a + b + 2 by ring]

theorem opAm_zero (n : Nat) (a b : ℝ) (i j : Nat) (h1 : i ≠ j) (h2 : i ≠ j + 1) : opAm.entry n a b i j = 0 := by
  simp [opAm, h1, h2]

theorem neg_one_sq (j : Nat) : ((-1 : ℝ)) ^ j * (-1) ^ j = 1 := by
  rw [← pow_add, ← two_mul, pow_mul]; simp

theorem swap_diag (A : Op) (n : Nat) (a b : ℝ) (j : Nat) : (swap A).entry n a b j j = A.entry n b a j j := by
  simp only [swap]
  linear_combination A.entry n b a j j * neg_one_sq j

theorem swap_upper (A : Op) (n : Nat) (a b : ℝ) (j : Nat) : (swap A).entry n a b j (j + 1) = -A.entry n b a j (j + 1) := by
  simp only [swap, pow_succ]
  linear_combination (-A.entry n b a j (j + 1)) * neg_one_sq j

theorem swap_lower (A : Op) (n : Nat) (a b : ℝ) (j : Nat) : (swap A).entry n a b (j + 1) j = -A.entry n b a (j + 1) j := by
  simp only [swap, pow_succ]
  linear_combination (-A.entry n b a (j + 1) j) * neg_one_sq j

theorem swap_zero (A : Op) (n : Nat) (a b : ℝ) (i j : Nat) (h : A.entry n b a i j = 0) : (swap A).entry n a b i j = 0 := by
  simp [swap, h]

theorem opBp_diag (n : Nat) (a b : ℝ) (j : Nat) (ha : -1 < a) (hb : -1 < b) : opBp.entry n a b j j =
    scaleBand a b j (j + (a + b + 1)) * (√(norm2 j a (b + 1)) / √(norm2 j a b)) := by
  rw [opBp, swap_diag, opAp_diag _ _ _ _ hb ha, norm2_symm j (b + 1) a, norm2_symm j b a, add_comm b a]
  unfold scaleBand
  rw [add_comm b a, show 2 * (j : ℝ) + b + a + 1 = 2 * j + a + b + 1 by ring]

theorem opBp_upper (n : Nat) (a b : ℝ) (j : Nat) (ha : -1 < a) (hb : -1 < b) : opBp.entry n a b j (j + 1) =
    ((j + 1 : Nat) + a) / (2 * (j + 1 : Nat) + a + b + 1) * (√(norm2 j a (b + 1)) / √(norm2 (j + 1) a b)) := by
  rw [opBp, swap_upper, opAp_upper _ _ _ _ hb ha, norm2_symm j (b + 1) a, norm2_symm (j + 1) b a,
    show 2 * ((j + 1 : Nat) : ℝ) + b + a + 1 = 2 * (j + 1 : Nat) + a + b + 1 by ring]
  ring

theorem opBp_zero (n : Nat) (a b : ℝ) (i j : Nat) (h1 : i ≠ j) (h2 : i + 1 ≠ j) : opBp.entry n a b i j = 0 :=
  swap_zero _ _ _ _ _ _ (opAp_zero _ _ _ _ _ h1 h2)

theorem opBm_diag (n : Nat) (a b : ℝ) (j : Nat) (ha : -1 < a) (hb : -1 < b) : opBm.entry n a (b + 1) j j =
    2 * (j + b + 1) / (2 * j + a + b + 2) * (√(norm2 j a b) / √(norm2 j a (b + 1))) := by
  rw [opBm, swap_diag, opAm_diag _ _ _ _ hb ha, norm2_symm j (b + 1) a, norm2_symm j b a,
    show 2 * (j : ℝ) + b + a + 2 = 2 * j + a + b + 2 by ring]

theorem opBm_lower (n : Nat) (a b : ℝ) (j : Nat) (ha : -1 < a) (hb : -1 < b) : opBm.entry n a (b + 1) (j + 1) j =
    2 * (j + 1) / (2 * j + a + b + 2) * (√(norm2 (j + 1) a b) / √(norm2 j a (b + 1))) := by
  rw [opBm, swap_lower, opAm_lower _ _ _ _ hb ha, norm2_symm j (b + 1) a, norm2_symm (j + 1) b a,
    show 2 * (j : ℝ) + b + a + 2 = 2 * j + a + b + 2 by ring]
  ring

theorem opBm_zero (n : Nat) (a b : ℝ) (i j : Nat) (h1 : i ≠ j) (h2 : i ≠ j + 1) : opBm.entry n a b i j = 0 :=
  swap_zero _ _ _ _ _ _ (opAm_zero _ _ _ _ _ h1 h2)

theorem opD_upper (n : Nat) (a b : ℝ) (j : Nat) (ha : -1 < a) (hb : -1 < b) : opD.entry n a b j (j + 1) =
    ((j + 1 : Nat) + a + b + 1) / 2 * (√(norm2 j (a + 1) (b + 1)) / √(norm2 (j + 1) a b)) := by
  simp only [opD, if_true]
  rw [normRatio_norm (-1) 1 1 (j + 1) j a b ha hb (by push_cast; ring) (by push_cast; linarith) (by push_cast; linarith)]
  push_cast
  ring

/-! ### What the operators represent -/

theorem rep_Ap (a b : ℝ) (ha : -1 < a) (hb : -1 < b) : RepAt opAp (fun _ => 1) a b := by
  intro n j z hj
  have s1 := (sq_pos j (a + 1) b (by linarith) hb).ne'
  have s2 := (sq_pos j a b ha hb).ne'
  rw [one_mul]
  change Q j a b z = ∑ i ∈ Finset.range n, opAp.entry n a b i j * Q i (a + 1) (b + 0) z
  rw [add_zero]
  rcases j with _ | j
  · rw [sum_one n 0 hj _ fun i hi => by rw [opAp_zero _ _ _ _ _ hi (by omega), zero_mul]]
    rw [opAp_diag _ _ _ _ ha hb, scaleBand_zero_one, Q, Q, P_zero, P_zero]
    field_simp
  · rw [sum_two n j hj _ fun i h1 h2 => by rw [opAp_zero _ _ _ _ _ h2 (by omega), zero_mul]]
    have s3 := (sq_pos j (a + 1) b (by linarith) hb).ne'
    have hd : 2 * ((j + 1 : Nat) : ℝ) + a + b + 1 ≠ 0 := by
      have : (0 : ℝ) ≤ j := Nat.cast_nonneg j
      push_cast; linarith
    rw [opAp_diag _ _ _ _ ha hb, opAp_upper _ _ _ _ ha hb, scaleBand_succ, Q, Q, Q]
    have := P_Ap j a b z
    generalize ((j + 1 : Nat) : ℝ) = J at *
    generalize 2 * J + a + b + 1 = D at *
    field_simp
    linear_combination this

theorem rep_Bp (a b : ℝ) (ha : -1 < a) (hb : -1 < b) : RepAt opBp (fun _ => 1) a b := by
  intro n j z hj
  have s1 := (sq_pos j a (b + 1) ha (by linarith)).ne'
  have s2 := (sq_pos j a b ha hb).ne'
  rw [one_mul]
  change Q j a b z = ∑ i ∈ Finset.range n, opBp.entry n a b i j * Q i (a + 0) (b + 1) z
  rw [add_zero]
  rcases j with _ | j
  · rw [sum_one n 0 hj _ fun i hi => by rw [opBp_zero _ _ _ _ _ hi (by omega), zero_mul]]
    rw [opBp_diag _ _ _ _ ha hb, scaleBand_zero_one, Q, Q, P_zero, P_zero]
    field_simp
  · rw [sum_two n j hj _ fun i h1 h2 => by rw [opBp_zero _ _ _ _ _ h2 (by omega), zero_mul]]
    have s3 := (sq_pos j a (b + 1) ha (by linarith)).ne'
    have hd : 2 * ((j + 1 : Nat) : ℝ) + a + b + 1 ≠ 0 := by
      have : (0 : ℝ) ≤ j := Nat.cast_nonneg j
      push_cast; linarith
    rw [opBp_diag _ _ _ _ ha hb, opBp_upper _ _ _ _ ha hb, scaleBand_succ, Q, Q, Q]
    have := P_Bp j a b z
    generalize ((j + 1 : Nat) : ℝ) = J at *
    generalize 2 * J + a + b + 1 = D at *
    field_simp
    linear_combination this

theorem rep_Am (a b : ℝ) (ha : -1 < a) (hb : -1 < b) : RepAt opAm (fun z => 1 - z) (a + 1) b := by
  intro n j z hj
  have s1 := (sq_pos j (a + 1) b (by linarith) hb).ne'
  have s2 := (sq_pos j a b ha hb).ne'
  have s3 := (sq_pos (j + 1) a b ha hb).ne'
  change (1 - z) * Q j (a + 1) b z = ∑ i ∈ Finset.range (n + 1), opAm.entry n (a + 1) b i j * Q i (a + 1 + -1) (b + 0) z
  rw [add_zero, show a + 1 + -1 = a by ring]
  rw [sum_two (n + 1) j (by omega) _ fun i h1 h2 => by rw [opAm_zero _ _ _ _ _ h1 h2, zero_mul]]
  have hd : 2 * (j : ℝ) + a + b + 2 ≠ 0 := by
    have : (0 : ℝ) ≤ j := Nat.cast_nonneg j
    linarith
  rw [opAm_diag _ _ _ _ ha hb, opAm_lower _ _ _ _ ha hb, Q, Q, Q]
  have := P_Am j a b z
  field_simp
  linear_combination this

theorem rep_Bm (a b : ℝ) (ha : -1 < a) (hb : -1 < b) : RepAt opBm (fun z => 1 + z) a (b + 1) := by
  intro n j z hj
  have s1 := (sq_pos j a (b + 1) ha (by linarith)).ne'
  have s2 := (sq_pos j a b ha hb).ne'
  have s3 := (sq_pos (j + 1) a b ha hb).ne'
  change (1 + z) * Q j a (b + 1) z = ∑ i ∈ Finset.range (n + 1), opBm.entry n a (b + 1) i j * Q i (a + 0) (b + 1 + -1) z
  rw [add_zero, show b + 1 + -1 = b by ring]
  rw [sum_two (n + 1) j (by omega) _ fun i h1 h2 => by rw [opBm_zero _ _ _ _ _ h1 h2, zero_mul]]
  have hd : 2 * (j : ℝ) + a + b + 2 ≠ 0 := by
    have : (0 : ℝ) ≤ j := Nat.cast_nonneg j
    linarith
  rw [opBm_diag _ _ _ _ ha hb, opBm_lower _ _ _ _ ha hb, Q, Q, Q]
  have := P_Bm j a b z
  field_simp
  linear_combination this

theorem pow_shift (L : Op) (k : Nat) : (L.pow k).da = k * L.da ∧ (L.pow k).db = k * L.db := by
  induction k with
  | zero => simp [Op.pow, Op.one]
  | succ k ih =>
    simp only [Op.pow, Op.comp, ih.1, ih.2]
    push_cast
    constructor <;> ring

theorem rep_pow (L : Op) (a b : ℝ) (h : ∀ k : Nat, RepAt L (fun _ => 1) (a + k * L.da) (b + k * L.db)) (k : Nat) :
    RepAt (L.pow k) (fun _ => 1) a b := by
  induction k with
  | zero => exact RepAt.one a b
  | succ k ih =>
    have hs := pow_shift L k
    have := RepAt.comp (L := L) (R := L.pow k) (mL := fun _ => 1) (mR := fun _ => 1) (a := a) (b := b)
      (by rw [hs.1, hs.2]; exact h k) ih
    simp only [mul_one] at this
    exact this

theorem pow_rows (L : Op) (h : ∀ n, L.rows n = n) (k n : Nat) : (L.pow k).rows n = n := by
  induction k with
  | zero => rfl
  | succ k ih => simp only [Op.pow, Op.comp, ih, h]

/-- the conversion matrix re-expands polynomials -/
theorem rep_conversion (a b : ℝ) (ha : -1 < a) (hb : -1 < b) (da db N j : Nat) (z : ℝ) (hj : j < N) :
    Q j a b z = ∑ i ∈ Finset.range N, conversion N a b da db i j * Q i (a + da) (b + db) z := by
  have hB : RepAt (opBp.pow db) (fun _ => 1) a b := by
    apply rep_pow
    intro k
    have : (0 : ℝ) ≤ k := Nat.cast_nonneg k
    apply rep_Bp
    · change -1 < a + k * 0; linarith
    · change -1 < b + k * 1; linarith
  have sB := pow_shift opBp db
  have sA := pow_shift opAp da
  have e1 : (opBp.pow db).da = 0 := by rw [sB.1]; change (db : ℝ) * 0 = 0; ring
  have e2 : (opBp.pow db).db = db := by rw [sB.2]; change (db : ℝ) * 1 = db; ring
  have e3 : (opAp.pow da).da = da := by rw [sA.1]; change (da : ℝ) * 1 = da; ring
  have e4 : (opAp.pow da).db = 0 := by rw [sA.2]; change (da : ℝ) * 0 = 0; ring
  have hd : (0 : ℝ) ≤ db := Nat.cast_nonneg db
  have hA : RepAt (opAp.pow da) (fun _ => 1) (a + (opBp.pow db).da) (b + (opBp.pow db).db) := by
    rw [e1, e2]
    apply rep_pow
    intro k
    have : (0 : ℝ) ≤ k := Nat.cast_nonneg k
    apply rep_Ap
    · change -1 < a + 0 + k * 1; linarith
    · change -1 < b + db + k * 0; linarith
  have := RepAt.comp hA hB N j z hj
  rw [one_mul, one_mul] at this
  rw [this]
  have r : ((opAp.pow da).comp (opBp.pow db)).rows N = N := by
    simp only [Op.comp]
    rw [pow_rows opBp (fun _ => rfl), pow_rows opAp (fun _ => rfl)]
  rw [r]
  apply Finset.sum_congr rfl
  intro i _
  rw [conversion]
  congr 2
  · simp only [Op.comp]; rw [e1, e3, zero_add]
  · simp only [Op.comp]; rw [e2, e4, add_zero]

/-- the Jacobi matrix multiplies by `z` -/
theorem rep_Z (a b : ℝ) (ha : -1 < a) (hb : -1 < b) : RepAt opZ (fun z => z) a b := by
  intro n j z hj
  have h1 := RepAt.comp (L := opAm) (R := opAp) (a := a) (b := b)
    (by change RepAt opAm _ (a + 1) (b + 0); rw [add_zero]; exact rep_Am a b ha hb) (rep_Ap a b ha hb) n j z hj
  have h2 := RepAt.comp (L := opBm) (R := opBp) (a := a) (b := b)
    (by change RepAt opBm _ (a + 0) (b + 1); rw [add_zero]; exact rep_Bm a b ha hb) (rep_Bp a b ha hb) n j z hj
  have c1 : (opAm.comp opAp).rows n = n + 1 := rfl
  have c2 : (opBm.comp opBp).rows n = n + 1 := rfl
  have c3 : (opAm.comp opAp).da = 0 := by simp [Op.comp, opAm, opAp]
  have c4 : (opAm.comp opAp).db = 0 := by simp [Op.comp, opAm, opAp]
  have c5 : (opBm.comp opBp).da = 0 := by simp [Op.comp, opBm, opBp, opAm, opAp, swap]
  have c6 : (opBm.comp opBp).db = 0 := by simp [Op.comp, opBm, opBp, opAm, opAp, swap]
  rw [c1, c3, c4, add_zero, add_zero] at h1
  rw [c2, c5, c6, add_zero, add_zero] at h2
  change z * Q j a b z = ∑ i ∈ Finset.range (n + 1),
    (((opBm.comp opBp).entry n a b i j - (opAm.comp opAp).entry n a b i j) / 2) * Q i (a + 0) (b + 0) z
  rw [add_zero, add_zero]
  have : ∀ i ∈ Finset.range (n + 1),
    (((opBm.comp opBp).entry n a b i j - (opAm.comp opAp).entry n a b i j) / 2) * Q i a b z =
      (1 / 2) * ((opBm.comp opBp).entry n a b i j * Q i a b z - (opAm.comp opAp).entry n a b i j * Q i a b z) := by
    intro i _; ring
  rw [Finset.sum_congr rfl this, ← Finset.mul_sum, Finset.sum_sub_distrib, ← h1, ← h2]
  ring

/-- derivatives of the classical polynomials -/
theorem P_deriv (n : Nat) (a b z : ℝ) :
    HasDerivAt (fun x => P (n + 1) a b x) (((n + 1 : Nat) + a + b + 1) / 2 * P n (a + 1) (b + 1) z) z := by
  have hw : HasDerivAt (fun x : ℝ => (x - 1) / 2) (1 / 2) z := ((hasDerivAt_id z).sub_const 1).div_const 2
  have hf : ∀ k ∈ Finset.range (n + 2), HasDerivAt (fun x => coef (n + 1) k a b * ((x - 1) / 2) ^ k)
      (coef (n + 1) k a b * (k * ((z - 1) / 2) ^ (k - 1) * (1 / 2))) z := by
    intro k _
    exact (hw.pow k).const_mul _
  have hs := HasDerivAt.fun_sum hf
  have e : ∑ k ∈ Finset.range (n + 2), coef (n + 1) k a b * (k * ((z - 1) / 2) ^ (k - 1) * (1 / 2)) =
      ((n + 1 : Nat) + a + b + 1) / 2 * P n (a + 1) (b + 1) z := by
    rw [Finset.sum_range_succ', P, Finset.mul_sum]
    simp only [Nat.cast_zero, zero_mul, mul_zero, add_zero]
    apply Finset.sum_congr rfl
    intro k _
    rw [Nat.add_sub_cancel]
    push_cast
    have := coef_D n k a b
    push_cast at this
    linear_combination (1 / 2) * ((z - 1) / 2) ^ k * this
  rw [e] at hs
  exact hs

/-- the differentiation matrix differentiates -/
theorem Q_deriv (a b : ℝ) (ha : -1 < a) (hb : -1 < b) (N j : Nat) (hj : j < N) (z : ℝ) :
    HasDerivAt (fun x => Q j a b x)
      (∑ i ∈ Finset.range N, differentiationMatrix N a b i j * Q i (a + 1) (b + 1) z) z := by
  rcases j with _ | j
  · have : ∑ i ∈ Finset.range N, differentiationMatrix N a b i 0 * Q i (a + 1) (b + 1) z = 0 := by
      apply Finset.sum_eq_zero
      intro i _
      simp [differentiationMatrix, opD]
    rw [this]
    simp only [Q, P_zero]
    exact hasDerivAt_const _ _
  · rw [sum_one N j (by omega) _ fun i hi => by
      simp only [differentiationMatrix, opD, if_neg (show ¬ i + 1 = j + 1 by omega)]; simp]
    have s1 := (sq_pos j (a + 1) (b + 1) (by linarith) (by linarith)).ne'
    rw [differentiationMatrix, if_pos (by omega), opD_upper _ _ _ _ ha hb]
    have := (P_deriv j a b z).div_const (√(norm2 (j + 1) a b))
    have e : ((j + 1 : Nat) + a + b + 1) / 2 * (√(norm2 j (a + 1) (b + 1)) / √(norm2 (j + 1) a b)) * Q j (a + 1) (b + 1) z =
        ((j + 1 : Nat) + a + b + 1) / 2 * P j (a + 1) (b + 1) z / √(norm2 (j + 1) a b) := by
      rw [Q]
      field_simp
    rw [e]
    exact this

end Dedalus.Jacobi
