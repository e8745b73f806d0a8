import Verif.Zncc.Product

namespace Dedalus.Zncc

open Jacobi Jacobi.Spec
open Zernike hiding polynomials quadrature forwardMatrix backwardMatrix
open Zernike.Spec Spec

variable {K : Type} [RCLike K]

theorem take_range (n m : Nat) (h : m ≤ n) (c : Nat → K) : ((List.range n).map c).take m = (List.range m).map c := by
  rw [← List.map_take, List.take_range, Nat.min_eq_left h]

theorem drop_append_range (n : Nat) (c c' : Nat → K) : ((List.range n).map c ++ (List.range n).map c').drop n = (List.range n).map c' := by
  rw [List.drop_append, List.drop_of_length_le (by simp), List.nil_append]; simp

/-! ## Ball -/

/-- the operator of the product in the ball -/
noncomputable def ballOp (diff d : Int) (dk : Nat) : Op := ((zE 1).pow dk).comp (radiusOp diff d)

theorem padded_ge (Nc dk : Nat) : 3 * Nc + dk ≤ 2 * ballPadded Nc dk := by unfold ballPadded; omega

theorem ball_entry (Nc : Nat) (alpha : ℝ) (ha : -1 < alpha) (kN kA ell lN lA lO : Nat) (rA rO : Int) (hA : (lA : Int) = ell + rA) (hO : (lO : Int) = ell + rO)
    (hr : lN ≤ 2) (hd : 0 ≤ (lN : Int) - |rO - rA|) (h2 : ((lN : Int) - |rO - rA|) % 2 = 0) (c : Nat → K) (cutoff : ℝ) (i j L : Nat)
    (hi : i < ballSize Nc ell) (hj : j < ballSize Nc ell) (hL : Nc + j ≤ L) :
    ballNcc Nc alpha kN kA ell lN rA rO ((List.range Nc).map c) cutoff i j =
      ∑ n ∈ Finset.range Nc, above cutoff c n * ((exact 3 (ballOp (rO - rA) (lN - |rO - rA|) (max kN kA - kA)) L (alpha + kN) lN (alpha + kA) lA n i j : ℝ) : K) := by
  have hkN : -1 < alpha + kN := by have : (0 : ℝ) ≤ kN := Nat.cast_nonneg _; linarith
  have hkA : -1 < alpha + kA := by have : (0 : ℝ) ≤ kA := Nat.cast_nonneg _; linarith
  set dk := max kN kA - kA
  set diff := rO - rA with hdiff
  set d := (lN : Int) - |diff| with hdd
  have hM := padded_ge Nc dk
  set M := ballPadded Nc dk with hMM
  have hiN : i < Nc := by unfold ballSize at hi; omega
  have hjN : j < Nc := by unfold ballSize at hj; omega
  have hb := b_nat 3 lA
  have hrad := band_radius diff d hd (alpha + kA) (bParam 3 lA)
  have hz := zrep_radius 3 (by norm_num) (alpha + kA) hkA lA lO diff d hd h2 (by omega)
  have hP : Band (ballOp diff d dk) _ _ (alpha + kA) (bParam 3 lA) := Band.comp (band_E dk _ _) hrad
  have habs : |diff| = diff.natAbs := Int.abs_eq_natAbs diff
  set v := (-diff).toNat + (d / 2).toNat with hv
  set u := diff.toNat + (d / 2).toNat with hu
  have hu2 : u ≤ 2 := by omega
  have hv2 : v ≤ 2 := by omega
  have hbO : bParam 3 lA + (radiusOp diff d).db = bParam 3 lO := by rw [b_nat, b_nat, ← hz.db]; ring
  have hE : ∀ n, Band ((zE 1).pow dk) 0 dk (alpha + kA) (bParam 3 n) := fun n => band_E dk _ _
  unfold ballNcc
  simp only
  rw [if_pos ⟨hd, h2⟩, ← hA, ← hO, ← hMM, take_range Nc Nc le_rfl]
  refine scaled_exact 3 M Nc (by norm_num) (ballOp diff d dk) (0 + v) (dk + u) (alpha + kN) hkN lN (alpha + kA) hkA lA Nc L le_rfl c cutoff _ (by rw [← hb]; exact hP) i j
    (by omega) hL ?_ ?_ ?_
  · intro n l hn _ hl h
    apply Finset.sum_eq_zero
    intro p hp
    have hp' := Finset.mem_range.1 hp
    rcases Nat.lt_or_ge (i + dk) p with h' | h'
    · unfold square at_
      rw [(hE lO).far M i p hp' h', ite_self, zero_mul]
    · unfold square at_
      rw [hrad.far M p l hl (by omega), ite_self, mul_zero]
  · intro n l hn _ hl h
    have e : at_ 3 (ballOp diff d dk) (l + 1) (alpha + kA) lA i l = at_ 3 (ballOp diff d dk) M (alpha + kA) lA i l := by
      unfold at_
      exact hP.size _ _ i l (by omega) hl
    rw [e]
    unfold at_ ballOp
    simp only [Op.comp]
    rw [hrad.rows, hbO, hz.da]
    have e2 : ∀ p ∈ Finset.range M, square 3 ((zE 1).pow dk) M (alpha + kA) lO i p * square 3 (radiusOp diff d) M (alpha + kA) lA p l =
        ((zE 1).pow dk).entry (M + v) (alpha + kA) (bParam 3 lO) i p * (radiusOp diff d).entry M (alpha + kA) (bParam 3 lA) p l := by
      intro p hp
      have hp' := Finset.mem_range.1 hp
      unfold square at_
      rw [(hE lO).rows, hrad.rows, if_pos (by omega), if_pos (by omega), (hE lO).size M (M + v) i p hp' (by omega)]
    rw [Finset.sum_congr rfl e2]
    apply Finset.sum_subset
    · intro x hx; simp at *; omega
    · intro x hx hx'
      simp at hx hx'
      rcases Nat.lt_or_ge (i + dk) x with h' | h'
      · rw [(hE lO).far _ i x (by omega) h', zero_mul]
      · rw [hrad.low M x l hl (by omega), mul_zero]
  · intro n l hn _ hl h
    unfold at_
    exact hP.far _ i l (by omega) (by omega)

/-! ## Disk -/

theorem nSize_nat (Nr : Nat) (m : Int) : (nSize Nr m).toNat = Nr - m.natAbs / 2 := by
  unfold nSize
  rw [Int.abs_eq_natAbs]
  omega

theorem disk_entry (Nr N : Nat) (alpha : ℝ) (ha : -1 < alpha) (kN kA : Nat) (m sN sA sO : Int) (hN : (nSize Nr m).toNat = N)
    (lN lA lO : Nat) (hlN : (lN : Int) = |sN|) (hA : (lA : Int) = |m + sA|) (hO : (lO : Int) = |m + sO|)
    (hd : 0 ≤ |sN| - |(|m + sO| - |m + sA|)|) (h2 : (|sN| - |(|m + sO| - |m + sA|)|) % 2 = 0) (n : Nat) (hn : n ≤ N) (c : Nat → K) (cutoff : ℝ) (i j L T : Nat)
    (hi : i < N) (hj : j < N) (hc : ∀ t, T ≤ t → c t = 0) (hL : n + j ≤ L)
    (hex : i + (((lO : Int) - lA).toNat + (((lN : Int) - |(lO : Int) - lA|) / 2).toNat) + T + j < 2 * N + 1) :
    diskBlock Nr alpha kN kA m sN sA sO ((List.range n).map c) cutoff i j =
      ∑ t ∈ Finset.range n, above cutoff c t * ((exact 2 (radiusOp ((lO : Int) - lA) (lN - |(lO : Int) - lA|)) L (alpha + kN) lN (alpha + kA) lA t i j : ℝ) : K) := by
  have hkN : -1 < alpha + kN := by have : (0 : ℝ) ≤ kN := Nat.cast_nonneg _; linarith
  have hkA : -1 < alpha + kA := by have : (0 : ℝ) ≤ kA := Nat.cast_nonneg _; linarith
  rw [← hA, ← hO, ← hlN] at hd h2
  unfold diskBlock
  simp only
  rw [← hA, ← hO, ← hlN, if_pos ⟨hd, h2⟩, hN]
  set diff := (lO : Int) - lA with hdiff
  set d := (lN : Int) - |diff| with hdd
  have hb := b_nat 2 lA
  have hrad := band_radius diff d hd (alpha + kA) (bParam 2 lA)
  set v := (-diff).toNat + (d / 2).toNat with hv
  set u := diff.toNat + (d / 2).toNat with hu
  have hT : ∀ t, c t ≠ 0 → t < T := fun t h => by by_contra h'; exact h (hc t (by omega))
  refine scaled_exact 2 N N (by norm_num) _ v u (alpha + kN) hkN lN (alpha + kA) hkA lA n L hn c cutoff _ (by rw [← hb]; exact hrad) i j hj hL ?_ ?_ ?_
  · intro t l _ h0 hl h
    have := hT t h0
    unfold square at_
    rw [hrad.far N i l hl (by omega), ite_self]
  · intro t l _ h0 hl h
    unfold square at_
    rw [hrad.rows, if_pos (by omega), hrad.size N (l + 1) i l hl (by omega)]
  · intro t l _ h0 hl h
    have := hT t h0
    unfold at_
    exact hrad.far _ i l (by omega) (by omega)

/-! ## Uniqueness of coefficients -/

theorem Z_unique (dim : Nat) (hd : 0 < dim) (k : ℝ) (hk : -1 < k) (l N : Nat) (e : Nat → ℝ)
    (h : ∀ r : ℝ, 0 < r → ∑ i ∈ Finset.range N, e i * Z dim i k l r = 0) : ∀ i, i < N → e i = 0 := by
  have hp : (∑ i ∈ Finset.range N, Polynomial.C (e i) * polyQ i k ((l : ℝ) + (dim : ℝ) / 2 - 1)) = 0 := by
    apply Polynomial.eq_zero_of_infinite_isRoot
    apply Set.Infinite.mono (s := Set.Ioi (-1 : ℝ))
    · intro z hz
      have hz' : -1 < z := hz
      have hr : 0 < √((z + 1) / 2) := Real.sqrt_pos.2 (by linarith)
      have h1 := h _ hr
      have hs : 2 * √((z + 1) / 2) ^ 2 - 1 = z := by rw [Real.sq_sqrt (by linarith)]; ring
      simp only [Z_eq, hs] at h1
      have h3 : cst dim k l * √((z + 1) / 2) ^ l * ∑ i ∈ Finset.range N, e i * Q i k ((l : ℝ) + (dim : ℝ) / 2 - 1) z = 0 := by
        rw [← h1, Finset.mul_sum]
        apply Finset.sum_congr rfl
        intro i _
        ring
      have h4 : cst dim k l * √((z + 1) / 2) ^ l ≠ 0 := (mul_pos (cst_pos _ _ _) (pow_pos hr l)).ne'
      have h5 := (mul_eq_zero.1 h3).resolve_left h4
      change Polynomial.eval z _ = 0
      rw [Polynomial.eval_finset_sum, ← h5]
      apply Finset.sum_congr rfl
      intro i _
      rw [Polynomial.eval_mul, Polynomial.eval_C, polyQ_eval]
    · exact Set.Ioi_infinite _
  apply Q_unique k _ hk (b_gt dim l hd) N e
  intro z
  have := congrArg (Polynomial.eval z) hp
  rw [Polynomial.eval_finset_sum, Polynomial.eval_zero] at this
  rw [← this]
  apply Finset.sum_congr rfl
  intro i _
  rw [Polynomial.eval_mul, Polynomial.eval_C, polyQ_eval]

theorem radial_zero (dim : Nat) (hd : 0 < dim) (k : ℝ) (hk : -1 < k) (l N : Nat) (radius : ℝ) (hR : 0 < radius) (e : Nat → ℂ)
    (h : ∀ r : ℝ, radial dim N radius k l e r = 0) : ∀ i, i < N → e i = 0 := by
  have hre := Z_unique dim hd k hk l N (fun i => (e i).re) (fun r _ => by
    have := congrArg Complex.re (h (r * radius))
    unfold radial at this
    rw [Complex.re_sum, Complex.zero_re] at this
    rw [← this]
    apply Finset.sum_congr rfl
    intro i _
    rw [mul_div_assoc, div_self hR.ne', mul_one, Complex.re_ofReal_mul]; ring)
  have him := Z_unique dim hd k hk l N (fun i => (e i).im) (fun r _ => by
    have := congrArg Complex.im (h (r * radius))
    unfold radial at this
    rw [Complex.im_sum, Complex.zero_im] at this
    rw [← this]
    apply Finset.sum_congr rfl
    intro i _
    rw [mul_div_assoc, div_self hR.ne', mul_one, Complex.im_ofReal_mul]; ring)
  intro i hi
  exact Complex.ext (hre i hi) (him i hi)

theorem radial_pad (dim N L : Nat) (hN : N ≤ L) (radius k : ℝ) (l : Nat) (c : Nat → ℂ) (r : ℝ) :
    radial dim N radius k l c r = radial dim L radius k l (fun i => if i < N then c i else 0) r := by
  unfold radial
  rw [← Finset.sum_subset (s₁ := Finset.range N) (s₂ := Finset.range L)]
  · apply Finset.sum_congr rfl
    intro i hi
    simp only [if_pos (Finset.mem_range.1 hi)]
  · intro x hx; simp at *; omega
  · intro x _ hx
    simp at hx
    simp only [if_neg (Nat.not_lt.2 hx), mul_zero]

theorem coefs_unique (dim : Nat) (hd : 0 < dim) (k : ℝ) (hk : -1 < k) (l N N' : Nat) (radius : ℝ) (hR : 0 < radius) (e e' : Nat → ℂ)
    (h : ∀ r : ℝ, radial dim N radius k l e r = radial dim N' radius k l e' r) (i : Nat) (hi : i < N) (hi' : i < N') : e i = e' i := by
  have := radial_zero dim hd k hk l (max N N') radius hR (fun i => (if i < N then e i else 0) - if i < N' then e' i else 0) (fun r => by
    have h1 := h r
    rw [radial_pad dim N _ (le_max_left N N'), radial_pad dim N' _ (le_max_right N N')] at h1
    unfold radial at h1 ⊢
    simp only [mul_sub, Finset.sum_sub_distrib]
    rw [h1, sub_self]) i (by omega)
  simp only [if_pos hi, if_pos hi'] at this
  exact sub_eq_zero.1 this

/-! ## The corner -/

/-- without padding the last entry of the matrix of the third polynomial is wrong -/
theorem _root_.Dedalus.Jacobi.corner (t : Nat) (aN bN a b : ℝ) (haN : -1 < aN) (hbN : -1 < bN) (ha : -1 < a) (hb : -1 < b) :
    trunc (t + 2) aN bN a b 2 ⟨t + 1, by omega⟩ ⟨t + 1, by omega⟩ < full aN bN a b (t + 1) 2 (t + 1) := by
  set M := t + 2 with hM
  set j : Fin M := ⟨t + 1, by omega⟩ with hj
  have o1 := offDiag_pos aN bN 1 haN hbN
  have o0 := offDiag_pos aN bN 0 haN hbN
  have oA := offDiag_pos a b (t + 1) ha hb
  have hQ : 0 < Q 0 aN bN 1 := by
    rw [Q, P_zero]
    exact div_pos one_pos (Real.sqrt_pos.2 (norm2_pos 0 _ _ haN hbN))
  have f1 : full aN bN a b (t + 1) 1 (t + 2) = offDiag a b (t + 1) * Q 0 aN bN 1 / offDiag aN bN 0 := by
    rw [full_one, act, full_zero, full_zero, full_zero, if_pos rfl, if_neg (by omega), if_neg (by omega)]
    ring
  have hx := XM_mul M a b ha hb (trunc M aN bN a b 1) (fun k => if k = t + 2 then 0 else full aN bN a b (t + 1) 1 k) j j
    (fun k _ _ => by
      rw [trunc_full M aN bN a b ha hb 1 k j (by simp only [hj]; omega)]
      have := k.2
      rw [if_neg (by omega)]) (fun _ => by simp [hM])
  have e1 := trunc_full M aN bN a b ha hb 1 j j (by simp only [hj]; omega)
  have e0 := trunc_full M aN bN a b ha hb 0 j j (by simp only [hj]; omega)
  rw [trunc.eq_3, full_succ, Matrix.smul_apply, Matrix.sub_apply, Matrix.sub_apply, Matrix.smul_apply, Matrix.smul_apply]
  simp only [Nat.zero_add]
  rw [hx, e1, e0]
  simp only [hj, act, smul_eq_mul]
  rw [if_neg (by omega), if_neg (by omega), if_pos trivial, f1, inv_mul_eq_div, mul_zero]
  apply div_lt_div_of_pos_right _ o1
  have : 0 < offDiag a b (t + 1) * (offDiag a b (t + 1) * Q 0 aN bN 1 / offDiag aN bN 0) := by positivity
  linarith

theorem Q_zero_pos (a b : ℝ) (ha : -1 < a) (hb : -1 < b) : 0 < Q 0 a b 1 := by
  rw [Q, P_zero]
  exact div_pos one_pos (Real.sqrt_pos.2 (norm2_pos 0 _ _ ha hb))

theorem diagZ_zero (a b : ℝ) (ha : -1 < a) (hb : -1 < b) : diagZ a b 0 = (b - a) / (a + b + 2) := by
  have hab : a + b + 2 ≠ 0 := by linarith
  have h := Q_rec_zero a b ((b - a) / (a + b + 2)) ha hb
  have h1 : Q 1 a b ((b - a) / (a + b + 2)) = 0 := by
    rw [Q, P, Finset.sum_range_succ, Finset.sum_range_one]
    simp only [coef, poch]
    norm_num
    left
    field_simp
    ring
  rw [h1, mul_zero, add_zero] at h
  rw [Q_zero_const a b _ 1] at h
  exact (mul_right_cancel₀ (Q_zero_pos a b ha hb).ne' h).symm

/-- the first coefficient of the product of the second scalar function and the first function of order 2 -/
theorem _root_.Dedalus.Jacobi.first_pos (a : ℝ) (ha : -1 < a) :
    0 < full a (((0 : Nat) : ℝ) + ((2 : Nat) : ℝ) / 2 - 1) a (((2 : Nat) : ℝ) + ((2 : Nat) : ℝ) / 2 - 1) 0 1 0 := by
  have hb0 := b_gt 2 0 (by norm_num)
  have o0 := offDiag_pos a _ 0 ha hb0
  have hQ := Q_zero_pos a _ ha hb0
  rw [full_one, act, full_zero, full_zero, if_pos rfl, if_neg (by omega)]
  apply div_pos _ o0
  rw [mul_zero, add_zero, ← sub_mul]
  apply mul_pos _ hQ
  have hb2 := b_gt 2 2 (by norm_num)
  rw [diagZ_zero _ _ ha hb2, diagZ_zero _ _ ha hb0]
  push_cast
  have h1 : 0 < a + (2 + 2 / 2 - 1) + 2 := by linarith
  have h2 : 0 < a + (0 + 2 / 2 - 1) + 2 := by linarith
  rw [sub_pos, div_lt_div_iff₀ h2 h1]
  nlinarith

end Dedalus.Zncc
