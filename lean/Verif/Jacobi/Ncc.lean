import Verif.Jacobi.Upper
import Verif.Clenshaw.Props

namespace Dedalus.Jacobi

open Spec

/-! ### The infinite Jacobi matrix -/

/-- the Jacobi matrix times a sequence -/
noncomputable def act (a b : ℝ) (v : Nat → ℝ) : Nat → ℝ
  | 0 => diagZ a b 0 * v 0 + offDiag a b 0 * v 1
  | l + 1 => offDiag a b l * v l + diagZ a b (l + 1) * v (l + 1) + offDiag a b (l + 1) * v (l + 2)

/-- summation by parts -/
theorem act_sum (a b z : ℝ) (ha : -1 < a) (hb : -1 < b) (v : Nat → ℝ) (K : Nat) :
    ∑ l ∈ Finset.range (K + 1), v l * (z * Q l a b z) = ∑ l ∈ Finset.range (K + 1), act a b v l * Q l a b z +
      offDiag a b K * (v K * Q (K + 1) a b z - v (K + 1) * Q K a b z) := by
  induction K with
  | zero =>
    rw [Finset.sum_range_one, Finset.sum_range_one, act]
    linear_combination v 0 * Q_rec_zero a b z ha hb
  | succ K ih =>
    rw [Finset.sum_range_succ, ih, Finset.sum_range_succ _ (K + 1), act]
    linear_combination v (K + 1) * Q_rec a b z K ha hb

/-- multiplication of a finite series by `z` -/
theorem act_series (a b z : ℝ) (ha : -1 < a) (hb : -1 < b) (v : Nat → ℝ) (K : Nat) (h : ∀ l, K ≤ l → v l = 0) :
    z * ∑ l ∈ Finset.range K, v l * Q l a b z = ∑ l ∈ Finset.range (K + 1), act a b v l * Q l a b z := by
  have := act_sum a b z ha hb v K
  rw [h K (by omega), h (K + 1) (by omega)] at this
  rw [Finset.sum_range_succ, h K (by omega)] at this
  rw [Finset.mul_sum]
  simp only [zero_mul, add_zero, sub_zero, mul_zero] at this
  rw [← this]
  apply Finset.sum_congr rfl
  intro l _
  ring

theorem series_ext (a b z : ℝ) (v : Nat → ℝ) (K L : Nat) (hKL : K ≤ L) (h : ∀ l, K ≤ l → v l = 0) :
    ∑ l ∈ Finset.range K, v l * Q l a b z = ∑ l ∈ Finset.range L, v l * Q l a b z := by
  apply Finset.sum_subset
  · intro x hx; simp at *; omega
  · intro x _ hx
    simp at hx
    rw [h x hx, zero_mul]

/-! ### The exact multiplication matrix -/

/-- column `j` of the matrix of multiplication by the NCC polynomial `n`, without truncation -/
noncomputable def full (aN bN a b : ℝ) (j : Nat) : Nat → Nat → ℝ
  | 0 => fun l => if l = j then Q 0 aN bN 1 else 0
  | 1 => fun l => (act a b (fun l => if l = j then Q 0 aN bN 1 else 0) l - diagZ aN bN 0 * (if l = j then Q 0 aN bN 1 else 0)) /
      offDiag aN bN 0
  | n + 2 => fun l => (act a b (full aN bN a b j (n + 1)) l - diagZ aN bN (n + 1) * full aN bN a b j (n + 1) l -
      offDiag aN bN n * full aN bN a b j n l) / offDiag aN bN (n + 1)

theorem full_zero (aN bN a b : ℝ) (j l : Nat) : full aN bN a b j 0 l = if l = j then Q 0 aN bN 1 else 0 := by rw [full]

theorem full_one (aN bN a b : ℝ) (j l : Nat) : full aN bN a b j 1 l =
    (act a b (full aN bN a b j 0) l - diagZ aN bN 0 * full aN bN a b j 0 l) / offDiag aN bN 0 := by
  have e0 : full aN bN a b j 0 = fun l => if l = j then Q 0 aN bN 1 else 0 := by funext l; rw [full]
  rw [e0, full]

theorem full_succ (aN bN a b : ℝ) (j n l : Nat) : full aN bN a b j (n + 2) l =
    (act a b (full aN bN a b j (n + 1)) l - diagZ aN bN (n + 1) * full aN bN a b j (n + 1) l -
      offDiag aN bN n * full aN bN a b j n l) / offDiag aN bN (n + 1) := by rw [full]

theorem act_zero (a b : ℝ) (v : Nat → ℝ) (l : Nat) (h1 : ∀ k, k + 1 = l → v k = 0) (h2 : v l = 0) (h3 : v (l + 1) = 0) :
    act a b v l = 0 := by
  rcases l with _ | l
  · rw [act, h2, h3]; ring
  · rw [act, h1 l rfl, h2, h3]; ring

theorem full_far (aN bN a b : ℝ) (j : Nat) : ∀ n l, n + j < l → full aN bN a b j n l = 0
  | 0, l, h => by rw [full_zero, if_neg (by omega)]
  | 1, l, h => by
    rw [full_one, act_zero a b (full aN bN a b j 0) l (fun k hk => by rw [full_zero, if_neg (by omega)]) (by rw [full_zero, if_neg (by omega)])
      (by rw [full_zero, if_neg (by omega)]), full_zero, if_neg (by omega)]
    simp
  | n + 2, l, h => by
    rw [full_succ, act_zero a b (full aN bN a b j (n + 1)) l (fun k hk => full_far aN bN a b j (n + 1) k (by omega)) (full_far aN bN a b j (n + 1) l (by omega))
      (full_far aN bN a b j (n + 1) (l + 1) (by omega)), full_far aN bN a b j (n + 1) l (by omega), full_far aN bN a b j n l (by omega)]
    simp

theorem Q_zero_const (a b z y : ℝ) : Q 0 a b z = Q 0 a b y := by rw [Q, Q, P_zero, P_zero]

/-- the exact matrix multiplies -/
theorem full_product (aN bN a b z : ℝ) (haN : -1 < aN) (hbN : -1 < bN) (ha : -1 < a) (hb : -1 < b) (j : Nat) :
    ∀ n, Q n aN bN z * Q j a b z = ∑ l ∈ Finset.range (n + j + 1), full aN bN a b j n l * Q l a b z
  | 0 => by
    rw [sum_one (0 + j + 1) j (by omega) _ fun l hl => by rw [full_zero, if_neg hl, zero_mul], full_zero, if_pos rfl,
      Q_zero_const aN bN z 1]
  | 1 => by
    have hp := (offDiag_pos aN bN 0 haN hbN).ne'
    have h0 := full_product aN bN a b z haN hbN ha hb j 0
    have hz := act_series a b z ha hb (full aN bN a b j 0) (0 + j + 1) (fun l hl => full_far aN bN a b j 0 l (by omega))
    rw [← h0] at hz
    have hs := series_ext a b z (full aN bN a b j 0) (0 + j + 1) (0 + j + 1 + 1) (by omega) (fun l hl => full_far aN bN a b j 0 l (by omega))
    rw [← h0] at hs
    have hr := Q_rec_zero aN bN z haN hbN
    have : ∀ l ∈ Finset.range (1 + j + 1), full aN bN a b j 1 l * Q l a b z =
        (1 / offDiag aN bN 0) * (act a b (full aN bN a b j 0) l * Q l a b z - diagZ aN bN 0 * (full aN bN a b j 0 l * Q l a b z)) := by
      intro l _
      rw [full_one]
      ring
    rw [Finset.sum_congr rfl this, ← Finset.mul_sum, Finset.sum_sub_distrib, ← Finset.mul_sum, show 1 + j + 1 = 0 + j + 1 + 1 by ring,
      ← hz, ← hs]
    field_simp
    linear_combination (-Q j a b z) * hr
  | n + 2 => by
    have hp := (offDiag_pos aN bN (n + 1) haN hbN).ne'
    have h0 := full_product aN bN a b z haN hbN ha hb j n
    have h1 := full_product aN bN a b z haN hbN ha hb j (n + 1)
    have f1 : ∀ l, n + 1 + j + 1 ≤ l → full aN bN a b j (n + 1) l = 0 := fun l hl => full_far aN bN a b j (n + 1) l (by omega)
    have f0 : ∀ l, n + j + 1 ≤ l → full aN bN a b j n l = 0 := fun l hl => full_far aN bN a b j n l (by omega)
    have hz := act_series a b z ha hb _ _ f1
    have hs1 := series_ext a b z _ _ (n + 1 + j + 1 + 1) (by omega) f1
    have hs0 := series_ext a b z _ _ (n + 1 + j + 1 + 1) (by omega) f0
    rw [← h1] at hz hs1
    rw [← h0] at hs0
    have hr := Q_rec aN bN z n haN hbN
    have : ∀ l ∈ Finset.range (n + 2 + j + 1), full aN bN a b j (n + 2) l * Q l a b z =
        (1 / offDiag aN bN (n + 1)) * (act a b (full aN bN a b j (n + 1)) l * Q l a b z -
          diagZ aN bN (n + 1) * (full aN bN a b j (n + 1) l * Q l a b z) - offDiag aN bN n * (full aN bN a b j n l * Q l a b z)) := by
      intro l _
      rw [full_succ]
      ring
    rw [Finset.sum_congr rfl this, ← Finset.mul_sum, Finset.sum_sub_distrib, Finset.sum_sub_distrib, ← Finset.mul_sum, ← Finset.mul_sum,
      show n + 2 + j + 1 = n + 1 + j + 1 + 1 by ring, ← hz, ← hs1, ← hs0]
    field_simp
    linear_combination (-Q j a b z) * hr

/-! ### The truncated matrix -/

/-- the truncated Jacobi matrix of the operand -/
noncomputable def XM (M : Nat) (a b : ℝ) : Matrix (Fin M) (Fin M) ℝ := fun i j => jacobiMatrix M a b i j

/-- the polynomials of the truncated matrix -/
noncomputable def trunc (M : Nat) (aN bN a b : ℝ) : Nat → Matrix (Fin M) (Fin M) ℝ
  | 0 => Q 0 aN bN 1 • 1
  | 1 => (offDiag aN bN 0)⁻¹ • (XM M a b * (Q 0 aN bN 1 • 1) - diagZ aN bN 0 • (Q 0 aN bN 1 • 1))
  | n + 2 => (offDiag aN bN (n + 1))⁻¹ • (XM M a b * trunc M aN bN a b (n + 1) - diagZ aN bN (n + 1) • trunc M aN bN a b (n + 1) -
      offDiag aN bN n • trunc M aN bN a b n)

theorem trunc_commute (M : Nat) (aN bN a b : ℝ) : ∀ n, Commute (XM M a b) (trunc M aN bN a b n)
  | 0 => by rw [trunc]; exact (Commute.one_right _).smul_right _
  | 1 => by
    rw [trunc]
    have h : Commute (XM M a b) (Q 0 aN bN 1 • (1 : Matrix (Fin M) (Fin M) ℝ)) := (Commute.one_right _).smul_right _
    exact (((Commute.refl _).mul_right h).sub_right (h.smul_right _)).smul_right _
  | n + 2 => by
    rw [trunc]
    have h1 := trunc_commute M aN bN a b (n + 1)
    have h0 := trunc_commute M aN bN a b n
    exact ((((Commute.refl _).mul_right h1).sub_right (h1.smul_right _)).sub_right (h0.smul_right _)).smul_right _

/-- one product with the truncated matrix -/
theorem XM_mul (M : Nat) (a b : ℝ) (ha : -1 < a) (hb : -1 < b) (F : Matrix (Fin M) (Fin M) ℝ) (v : Nat → ℝ) (l j : Fin M)
    (h : ∀ k : Fin M, k.val ≤ l.val + 1 → l.val ≤ k.val + 1 → F k j = v k) (hM : l.val + 1 = M → v M = 0) :
    (XM M a b * F) l j = act a b v l := by
  rw [Matrix.mul_apply]
  obtain ⟨l, hl⟩ := l
  have e : ∑ k : Fin M, XM M a b ⟨l, hl⟩ k * F k j = ∑ k ∈ Finset.range M, opZ.entry M a b l k * v k := by
    rw [Finset.sum_range]
    apply Finset.sum_congr rfl
    intro k _
    by_cases h1 : k.val ≤ l + 1 ∧ l ≤ k.val + 1
    · rw [h k h1.1 h1.2]; rfl
    · change opZ.entry M a b l k * F k j = _
      rw [opZ_far M a b l k k.2 (by omega), zero_mul, zero_mul]
  rw [e]
  have hv : ∑ k ∈ Finset.range M, opZ.entry M a b l k * v k =
      (∑ k ∈ Finset.range (l + 1), opZ.entry M a b l k * v k) + offDiag a b l * v (l + 1) := by
    rcases Nat.lt_or_ge (l + 1) M with h' | h'
    · have : ∑ k ∈ Finset.range (l + 2), opZ.entry M a b l k * v k = ∑ k ∈ Finset.range M, opZ.entry M a b l k * v k := by
        apply Finset.sum_subset
        · intro x hx; simp at *; omega
        · intro x hx hx'
          simp at hx hx'
          rw [opZ_far M a b l x hx (by omega), zero_mul]
      rw [← this, Finset.sum_range_succ, opZ_upper M a b l h' ha hb]
    · have e2 : l + 1 = M := by omega
      subst e2
      rw [hM rfl, mul_zero, add_zero]
  rw [hv]
  rcases l with _ | l
  · rw [act, Finset.sum_range_one, opZ_diag _ _ _ _ hl]
  · rw [act, Finset.sum_range_succ, Finset.sum_range_succ, opZ_diag _ _ _ _ hl, opZ_lower M a b l (by omega) ha hb]
    rw [Finset.sum_eq_zero fun k hk => by
      rw [opZ_far M a b (l + 1) k (by have := Finset.mem_range.1 hk; omega) (by have := Finset.mem_range.1 hk; omega), zero_mul]]
    ring

/-- the truncated polynomials are exact away from the lower right corner -/
theorem trunc_full (M : Nat) (aN bN a b : ℝ) (ha : -1 < a) (hb : -1 < b) :
    ∀ n (l j : Fin M), n + l.val + j.val < 2 * M → trunc M aN bN a b n l j = full aN bN a b j n l
  | 0, l, j, _ => by
    rw [trunc, full_zero, Matrix.smul_apply, Matrix.one_apply, smul_eq_mul]
    by_cases h : l = j
    · subst h; simp
    · rw [if_neg h, if_neg fun e => h (Fin.ext e), mul_zero]
  | 1, l, j, h => by
    have h0 : ∀ k : Fin M, (Q 0 aN bN 1 • (1 : Matrix (Fin M) (Fin M) ℝ)) k j = full aN bN a b j 0 k := by
      intro k
      rw [full_zero, Matrix.smul_apply, Matrix.one_apply, smul_eq_mul]
      by_cases h : k = j
      · subst h; simp
      · rw [if_neg h, if_neg fun e => h (Fin.ext e), mul_zero]
    rw [trunc, full_one, Matrix.smul_apply, Matrix.sub_apply, Matrix.smul_apply,
      XM_mul M a b ha hb _ (full aN bN a b j 0) l j (fun k _ _ => h0 k) (fun _ => full_far aN bN a b j 0 M (by omega)), h0 l,
      smul_eq_mul, smul_eq_mul]
    ring
  | n + 2, l, j, h => by
    have i0 := trunc_full M aN bN a b ha hb n l j (by omega)
    have i1 := trunc_full M aN bN a b ha hb (n + 1) l j (by omega)
    rw [trunc, full_succ, Matrix.smul_apply, Matrix.sub_apply, Matrix.sub_apply, Matrix.smul_apply, Matrix.smul_apply,
      XM_mul M a b ha hb _ (full aN bN a b j (n + 1)) l j
        (fun k h1 _ => trunc_full M aN bN a b ha hb (n + 1) k j (by omega)) (fun e => full_far aN bN a b j (n + 1) M (by omega)),
      i0, i1, smul_eq_mul, smul_eq_mul, smul_eq_mul]
    ring

theorem jacobiMatrix_upper (N : Nat) (a b : ℝ) (n : Nat) (h : n + 1 < N) (ha : -1 < a) (hb : -1 < b) :
    jacobiMatrix N a b n (n + 1) = offDiag a b n := opZ_upper N a b n h ha hb

/-- Clenshaw summation with the truncated matrices -/
theorem nccClenshaw_sum (M : Nat) (aN bN a b : ℝ) (haN : -1 < aN) (hbN : -1 < bN) (c : List ℝ)
    (cutoff : ℝ) (hc : c.length ≤ M) :
    nccClenshaw M aN bN a b c cutoff = (c.zipIdx.map fun p => if |p.1| > cutoff then p.1 • trunc M aN bN a b p.2 else 0).sum := by
  have f0 : polynomials 1 aN bN 1 0 • (1 : Matrix (Fin M) (Fin M) ℝ) = trunc M aN bN a b 0 := by
    rw [trunc, polynomials_Q 1 aN bN 1 haN hbN 0 (by omega)]
  unfold nccClenshaw
  rw [f0]
  refine Clenshaw.jacobi_clenshaw_sum (fun x => |x|) cutoff M (jacobiMatrix M aN bN) _ (trunc M aN bN a b) c hc ?_ (trunc_commute M aN bN a b) ?_ ?_
  · intro n h
    rw [jacobiMatrix_upper M aN bN n h haN hbN]
    exact (offDiag_pos aN bN n haN hbN).ne'
  · intro h
    have hp := (offDiag_pos aN bN 0 haN hbN).ne'
    rw [jacobiMatrix_upper M aN bN 0 h haN hbN, show jacobiMatrix M aN bN 0 0 = diagZ aN bN 0 from opZ_diag _ _ _ _ (by omega)]
    have e1 : offDiag aN bN 0 • trunc M aN bN a b 1 = XM M a b * trunc M aN bN a b 0 - diagZ aN bN 0 • trunc M aN bN a b 0 := by
      rw [trunc.eq_2, smul_smul, mul_inv_cancel₀ hp, one_smul, trunc.eq_1]
    rw [e1]
    exact add_sub_cancel _ _
  · intro n h
    have hp := (offDiag_pos aN bN (n + 1) haN hbN).ne'
    rw [jacobiMatrix_upper M aN bN (n + 1) h haN hbN, show jacobiMatrix M aN bN (n + 1) (n + 1) = diagZ aN bN (n + 1) from opZ_diag _ _ _ _ (by omega),
      show jacobiMatrix M aN bN (n + 1) n = offDiag aN bN n from opZ_lower _ _ _ _ (by omega) haN hbN]
    rw [trunc.eq_3, smul_smul, mul_inv_cancel₀ hp, one_smul]
    change _ = XM M a b * trunc M aN bN a b (n + 1)
    abel

theorem zip_sum {M : Type} [AddCommMonoid M] (K : Nat) (c : Nat → ℝ) (g : ℝ × Nat → M) :
    ((((List.range K).map c).zipIdx).map g).sum = ∑ n ∈ Finset.range K, g (c n, n) := by
  induction K with
  | zero => simp
  | succ K ih =>
    rw [List.range_succ, List.map_append, List.zipIdx_append, List.map_append, List.sum_append, ih, Finset.sum_range_succ]
    simp

theorem nccSize_nat (N da db : Nat) : nccSize N da db = 3 * ((N + 1) / 2) + min ((N + 1) / 2) ((da + db + 1) / 2) := by
  unfold nccSize
  omega

/-- the coefficients of the product with operand polynomial `j` -/
noncomputable def prodCoef (aN bN a b : ℝ) (K : Nat) (c : Nat → ℝ) (j l : Nat) : ℝ := ∑ n ∈ Finset.range K, c n * full aN bN a b j n l

/-- the entries of the NCC matrix are those of the conversion of the exact product -/
theorem ncc_entry_size (N M : Nat) (aN bN a b : ℝ) (da db : Nat) (haN : -1 < aN) (hbN : -1 < bN) (ha : -1 < a) (hb : -1 < b)
    (K : Nat) (hK : K ≤ N) (c : Nat → ℝ) (cutoff : ℝ) (i j : Nat) (hi : i < N) (hj : j < N) (hjM : j < M)
    (hM : 3 * ((N + 1) / 2) + min ((N + 1) / 2) ((da + db + 1) / 2) ≤ M) :
    ∑ l : Fin M, conversion M a b da db i l * nccClenshaw M aN bN a b ((List.range K).map c) cutoff l ⟨j, hjM⟩ =
    ∑ l ∈ Finset.range (2 * N), conversion (2 * N) a b da db i l *
      prodCoef aN bN a b K (fun n => if |c n| > cutoff then c n else 0) j l := by
  have e1 : ∀ l : Fin M, conversion M a b da db i l * nccClenshaw M aN bN a b ((List.range K).map c) cutoff l ⟨j, hjM⟩ =
      conversion M a b da db i l * prodCoef aN bN a b K (fun n => if |c n| > cutoff then c n else 0) j l := by
    intro l
    by_cases hl : i + (da + db) < l.val
    · rw [conversion_far M a b da db i l ha hb l.2 hl, zero_mul, zero_mul]
    · rw [nccClenshaw_sum M aN bN a b haN hbN _ cutoff (by simp; omega), zip_sum, Matrix.sum_apply, prodCoef]
      congr 1
      apply Finset.sum_congr rfl
      intro n hn
      have hn' := Finset.mem_range.1 hn
      by_cases hc : |c n| > cutoff
      · simp only [if_pos hc]
        rw [Matrix.smul_apply, trunc_full M aN bN a b ha hb n l ⟨j, hjM⟩ (by have := l.2; simp only; omega), smul_eq_mul]
      · simp only [if_neg hc]
        simp
  rw [Finset.sum_congr rfl fun l _ => e1 l]
  rw [← Finset.sum_range fun l => conversion M a b da db i l * prodCoef aN bN a b K (fun n => if |c n| > cutoff then c n else 0) j l]
  have far : ∀ l, 2 * N ≤ l + 1 → prodCoef aN bN a b K (fun n => if |c n| > cutoff then c n else 0) j l = 0 := by
    intro l hl
    apply Finset.sum_eq_zero
    intro n hn
    have hn' := Finset.mem_range.1 hn
    rw [full_far aN bN a b j n l (by omega), mul_zero]
  rcases Nat.le_total M (2 * N) with h | h
  · have : ∀ l ∈ Finset.range M, conversion M a b da db i l * prodCoef aN bN a b K (fun n => if |c n| > cutoff then c n else 0) j l =
        conversion (2 * N) a b da db i l * prodCoef aN bN a b K (fun n => if |c n| > cutoff then c n else 0) j l := by
      intro l hl
      have hl' := Finset.mem_range.1 hl
      rw [conversion_size M (2 * N) a b da db i l ha hb hl' (by omega)]
    rw [Finset.sum_congr rfl this]
    apply Finset.sum_subset
    · intro x hx; simp at *; omega
    · intro x hx hx'
      simp at hx hx'
      rcases Nat.lt_or_ge (i + (da + db)) x with h1 | h1
      · rw [conversion_far (2 * N) a b da db i x ha hb hx h1, zero_mul]
      · rw [far x (by omega), mul_zero]
  · have : ∀ l ∈ Finset.range (2 * N), conversion (2 * N) a b da db i l * prodCoef aN bN a b K (fun n => if |c n| > cutoff then c n else 0) j l =
        conversion M a b da db i l * prodCoef aN bN a b K (fun n => if |c n| > cutoff then c n else 0) j l := by
      intro l hl
      have hl' := Finset.mem_range.1 hl
      rw [conversion_size (2 * N) M a b da db i l ha hb hl' (by omega)]
    rw [Finset.sum_congr rfl this]
    symm
    apply Finset.sum_subset
    · intro x hx; simp at *; omega
    · intro x hx hx'
      simp at hx hx'
      rw [far x (by omega), mul_zero]

theorem ncc_entry (N : Nat) (aN bN a b : ℝ) (da db : Nat) (haN : -1 < aN) (hbN : -1 < bN) (ha : -1 < a) (hb : -1 < b)
    (K : Nat) (hK : K ≤ N) (c : Nat → ℝ) (cutoff : ℝ) (i j : Nat) (hi : i < N) (hj : j < N) (hjM : j < nccSize N da db) :
    ∑ l : Fin (nccSize N da db), conversion (nccSize N da db) a b da db i l *
      nccClenshaw (nccSize N da db) aN bN a b ((List.range K).map c) cutoff l ⟨j, hjM⟩ =
    ∑ l ∈ Finset.range (2 * N), conversion (2 * N) a b da db i l *
      prodCoef aN bN a b K (fun n => if |c n| > cutoff then c n else 0) j l :=
  ncc_entry_size N _ aN bN a b da db haN hbN ha hb K hK c cutoff i j hi hj hjM (nccSize_nat N da db).ge

/-- series convert -/
theorem series_convert (a b z : ℝ) (ha : -1 < a) (hb : -1 < b) (da db N : Nat) (c : Nat → ℝ) :
    ∑ j ∈ Finset.range N, c j * Q j a b z =
      ∑ i ∈ Finset.range N, (∑ j ∈ Finset.range N, conversion N a b da db i j * c j) * Q i (a + da) (b + db) z := by
  have : ∀ j ∈ Finset.range N, c j * Q j a b z =
      ∑ i ∈ Finset.range N, conversion N a b da db i j * c j * Q i (a + da) (b + db) z := by
    intro j hj
    rw [rep_conversion a b ha hb da db N j z (Finset.mem_range.1 hj), Finset.mul_sum]
    apply Finset.sum_congr rfl
    intro i _
    ring
  rw [Finset.sum_congr rfl this, Finset.sum_comm]
  apply Finset.sum_congr rfl
  intro i _
  rw [Finset.sum_mul]

/-- the exact product of two series -/
theorem product_series (N : Nat) (aN bN a b : ℝ) (da db : Nat) (haN : -1 < aN) (hbN : -1 < bN) (ha : -1 < a) (hb : -1 < b)
    (K : Nat) (hK : K ≤ N) (c g : Nat → ℝ) (z : ℝ) :
    (∑ n ∈ Finset.range K, c n * Q n aN bN z) * ∑ j ∈ Finset.range N, g j * Q j a b z =
      ∑ i ∈ Finset.range (2 * N), (∑ j ∈ Finset.range N, (∑ l ∈ Finset.range (2 * N), conversion (2 * N) a b da db i l *
        prodCoef aN bN a b K c j l) * g j) * Q i (a + da) (b + db) z := by
  have h1 : (∑ n ∈ Finset.range K, c n * Q n aN bN z) * ∑ j ∈ Finset.range N, g j * Q j a b z =
      ∑ l ∈ Finset.range (2 * N), (∑ j ∈ Finset.range N, prodCoef aN bN a b K c j l * g j) * Q l a b z := by
    rw [Finset.mul_sum]
    have : ∀ j ∈ Finset.range N, (∑ n ∈ Finset.range K, c n * Q n aN bN z) * (g j * Q j a b z) =
        ∑ l ∈ Finset.range (2 * N), prodCoef aN bN a b K c j l * g j * Q l a b z := by
      intro j hj
      have hj' := Finset.mem_range.1 hj
      have e : ∀ n ∈ Finset.range K, c n * Q n aN bN z * (g j * Q j a b z) =
          ∑ l ∈ Finset.range (2 * N), c n * full aN bN a b j n l * g j * Q l a b z := by
        intro n hn
        have hn' := Finset.mem_range.1 hn
        have hp := full_product aN bN a b z haN hbN ha hb j n
        rw [series_ext a b z _ (n + j + 1) (2 * N) (by omega) fun l hl => full_far aN bN a b j n l (by omega)] at hp
        rw [show c n * Q n aN bN z * (g j * Q j a b z) = c n * g j * (Q n aN bN z * Q j a b z) by ring, hp, Finset.mul_sum]
        apply Finset.sum_congr rfl
        intro l _
        ring
      rw [Finset.sum_mul, Finset.sum_congr rfl e, Finset.sum_comm]
      apply Finset.sum_congr rfl
      intro l _
      rw [prodCoef, Finset.sum_mul, Finset.sum_mul]
    rw [Finset.sum_congr rfl this, Finset.sum_comm]
    apply Finset.sum_congr rfl
    intro l _
    rw [Finset.sum_mul]
  rw [h1, series_convert a b z ha hb da db (2 * N)]
  apply Finset.sum_congr rfl
  intro i _
  congr 1
  have : ∀ l ∈ Finset.range (2 * N), conversion (2 * N) a b da db i l * ∑ j ∈ Finset.range N, prodCoef aN bN a b K c j l * g j =
      ∑ j ∈ Finset.range N, conversion (2 * N) a b da db i l * prodCoef aN bN a b K c j l * g j := by
    intro l _
    rw [Finset.mul_sum]
    apply Finset.sum_congr rfl
    intro j _
    ring
  rw [Finset.sum_congr rfl this, Finset.sum_comm]
  apply Finset.sum_congr rfl
  intro j _
  rw [Finset.sum_mul]

end Dedalus.Jacobi
