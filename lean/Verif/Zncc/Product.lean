import Verif.Zncc.Lemmas
import Verif.Zncc.Spec

namespace Dedalus.Zncc

open Jacobi Jacobi.Spec
open Zernike hiding polynomials quadrature forwardMatrix backwardMatrix
open Zernike.Spec Spec

variable {K : Type} [RCLike K]

/-! ## Clenshaw summation -/

theorem square_Z (dim M : Nat) (a : ℝ) (l : Nat) (i j : Fin M) : square dim opZ M a l i j = XM M a ((l : ℝ) + (dim : ℝ) / 2 - 1) i j := by
  unfold square
  rw [if_pos (by change i.val < M + 1; omega)]
  unfold at_ XM
  rw [b_nat]
  rfl

theorem zip_sum' {V : Type} [AddCommMonoid V] (n : Nat) (c : Nat → K) (g : K × Nat → V) :
    ((((List.range n).map c).zipIdx).map g).sum = ∑ m ∈ Finset.range n, g (c m, m) := by
  induction n with
  | zero => simp
  | succ n ih =>
    rw [List.range_succ, List.map_append, List.zipIdx_append, List.map_append, List.sum_append, ih, Finset.sum_range_succ]
    simp

theorem clenshaw_entry (dim M n : Nat) (hd : 0 < dim) (aN : ℝ) (haN : -1 < aN) (lN : Nat) (aA : ℝ) (lA m : Nat) (c : Nat → K) (cutoff : ℝ)
    (hm : m ≤ n) (i j : Fin M) :
    clenshaw dim M n aN lN aA lA ((List.range m).map c) cutoff i j = ∑ t ∈ Finset.range m, above cutoff c t *
      ((cst dim aN lN * trunc M aN ((lN : ℝ) + (dim : ℝ) / 2 - 1) aA ((lA : ℝ) + (dim : ℝ) / 2 - 1) t i j : ℝ) : K) := by
  set bN := (lN : ℝ) + (dim : ℝ) / 2 - 1 with hbN
  set bA := (lA : ℝ) + (dim : ℝ) / 2 - 1 with hbA
  have hb : -1 < bN := b_gt dim lN hd
  set φ := (algebraMap ℝ K).mapMatrix (m := Fin M)
  have hφ : ∀ (x : ℝ) (A : Matrix (Fin M) (Fin M) ℝ), φ (x • A) = ((x : ℝ) : K) • φ A := by
    intro x A
    ext i j
    simp [φ, RingHom.mapMatrix_apply, Matrix.map_apply, Matrix.smul_apply]
  have hX : (fun i j => ((square dim opZ M aA lA i j : ℝ) : K) : Matrix (Fin M) (Fin M) K) = φ (XM M aA bA) := by
    ext i j
    rw [square_Z]
    rfl
  have hc : Zernike.polynomials dim 1 aN lN 1 0 = cst dim aN lN * Q 0 aN bN 1 := by
    have := polynomials_Z dim 1 aN lN 1 hd haN one_pos 0 (by omega)
    rw [show (2 : ℝ) * 1 ^ 2 - 1 = 1 by norm_num] at this
    rw [this, Z_eq, one_pow, mul_one, show (2 : ℝ) * 1 ^ 2 - 1 = 1 by norm_num]
  have f0 : ((Zernike.polynomials dim 1 aN lN 1 0 : ℝ) : K) • (1 : Matrix (Fin M) (Fin M) K) = φ (cst dim aN lN • trunc M aN bN aA bA 0) := by
    rw [hc, trunc, hφ, hφ, map_one, smul_smul, RCLike.ofReal_mul]
  have hbp : bParam dim lN = bN := b_nat dim lN
  have hcl : clenshaw dim M n aN lN aA lA ((List.range m).map c) cutoff = Clenshaw.matrixClenshaw (fun x : K => ‖x‖) ((List.range m).map c)
      (Clenshaw.jacobiA n (fun i j => ((jacobiMatrix n aN bN i j : ℝ) : K)) (φ (XM M aA bA)))
      (Clenshaw.jacobiB n (fun i j => ((jacobiMatrix n aN bN i j : ℝ) : K))) (φ (cst dim aN lN • trunc M aN bN aA bA 0)) cutoff := by
    rw [← f0, ← hX, ← hbp]; rfl
  rw [hcl]
  have key := Clenshaw.jacobi_clenshaw_sum (fun x : K => ‖x‖) cutoff n (fun i j => ((jacobiMatrix n aN bN i j : ℝ) : K)) (φ (XM M aA bA))
    (fun t => φ (cst dim aN lN • trunc M aN bN aA bA t)) ((List.range m).map c) (by simpa using hm) ?_ ?_ ?_ ?_
  · rw [key, zip_sum', Matrix.sum_apply]
    apply Finset.sum_congr rfl
    intro t _
    unfold above
    split
    · rw [Matrix.smul_apply, smul_eq_mul]
      congr 1
    · simp
  · intro t h
    rw [jacobiMatrix_upper n aN bN t h haN hb]
    exact_mod_cast (offDiag_pos aN bN t haN hb).ne'
  · intro t
    exact ((trunc_commute M aN bN aA bA t).smul_right _).map φ
  · intro h
    have hp := (offDiag_pos aN bN 0 haN hb).ne'
    rw [jacobiMatrix_upper n aN bN 0 h haN hb, show jacobiMatrix n aN bN 0 0 = diagZ aN bN 0 from opZ_diag _ _ _ _ (by omega)]
    rw [← hφ, ← hφ, ← map_add, ← map_mul]
    congr 1
    have e1 : offDiag aN bN 0 • trunc M aN bN aA bA 1 = XM M aA bA * trunc M aN bN aA bA 0 - diagZ aN bN 0 • trunc M aN bN aA bA 0 := by
      rw [trunc.eq_2, smul_smul, mul_inv_cancel₀ hp, one_smul, trunc.eq_1]
    rw [smul_comm, smul_comm (offDiag aN bN 0), e1, mul_smul_comm, ← smul_add]
    congr 1
    exact add_sub_cancel _ _
  · intro t h
    have hp := (offDiag_pos aN bN (t + 1) haN hb).ne'
    rw [jacobiMatrix_upper n aN bN (t + 1) h haN hb, show jacobiMatrix n aN bN (t + 1) (t + 1) = diagZ aN bN (t + 1) from opZ_diag _ _ _ _ (by omega),
      show jacobiMatrix n aN bN (t + 1) t = offDiag aN bN t from opZ_lower _ _ _ _ (by omega) haN hb]
    rw [← hφ, ← hφ, ← hφ, ← map_add, ← map_add, ← map_mul]
    congr 1
    rw [smul_comm, smul_comm (diagZ _ _ _), smul_comm (offDiag aN bN (t + 1)), mul_smul_comm, ← smul_add, ← smul_add]
    congr 1
    rw [trunc.eq_3, smul_smul, mul_inv_cancel₀ hp, one_smul]
    abel

/-! ## Exact products -/

/-- coefficient `i` of the product of the functions `n` of the coefficient and `j` of the operand, from sums over `L` terms -/
noncomputable def exact (dim : Nat) (P : Op) (L : Nat) (aN : ℝ) (lN : Nat) (aA : ℝ) (lA n i j : Nat) : ℝ :=
  cst dim aN lN * ∑ l ∈ Finset.range L, at_ dim P L aA lA i l *
    full aN ((lN : ℝ) + (dim : ℝ) / 2 - 1) aA ((lA : ℝ) + (dim : ℝ) / 2 - 1) j n l

theorem exact_product (dim : Nat) (hd : 0 < dim) (P : Op) (L : Nat) (aN : ℝ) (haN : -1 < aN) (lN : Nat) (aA : ℝ) (haA : -1 < aA) (lA : Nat)
    (k' : ℝ) (l' : Nat) (hP : ZRep dim P lN aA lA k' l') (n j : Nat) (hL : n + j < L) (r : ℝ) :
    Z dim n aN lN r * Z dim j aA lA r = ∑ i ∈ Finset.range (P.rows L), exact dim P L aN lN aA lA n i j * Z dim i k' l' r := by
  set bN := (lN : ℝ) + (dim : ℝ) / 2 - 1 with hbN
  set bA := (lA : ℝ) + (dim : ℝ) / 2 - 1 with hbA
  have hp := full_product aN bN aA bA (2 * r ^ 2 - 1) haN (b_gt dim lN hd) haA (b_gt dim lA hd) j n
  rw [series_ext aA bA _ _ (n + j + 1) L (by omega) fun l hl => full_far aN bN aA bA j n l (by omega)] at hp
  have e : Z dim n aN lN r * Z dim j aA lA r = ∑ l ∈ Finset.range L, cst dim aN lN * full aN bN aA bA j n l * (r ^ lN * Z dim l aA lA r) := by
    rw [Z_eq, Z_eq]
    have : cst dim aN lN * r ^ lN * Q n aN bN (2 * r ^ 2 - 1) * (cst dim aA lA * r ^ lA * Q j aA bA (2 * r ^ 2 - 1)) =
        cst dim aN lN * r ^ lN * (cst dim aA lA * r ^ lA) * (Q n aN bN (2 * r ^ 2 - 1) * Q j aA bA (2 * r ^ 2 - 1)) := by ring
    rw [this, hp, Finset.mul_sum]
    apply Finset.sum_congr rfl
    intro l _
    rw [Z_eq]
    ring
  rw [e]
  have : ∀ l ∈ Finset.range L, cst dim aN lN * full aN bN aA bA j n l * (r ^ lN * Z dim l aA lA r) =
      ∑ i ∈ Finset.range (P.rows L), cst dim aN lN * (at_ dim P L aA lA i l * full aN bN aA bA j n l) * Z dim i k' l' r := by
    intro l hl
    rw [hP.rep L l r (Finset.mem_range.1 hl), Finset.mul_sum]
    apply Finset.sum_congr rfl
    intro i _
    ring
  rw [Finset.sum_congr rfl this, Finset.sum_comm]
  apply Finset.sum_congr rfl
  intro i _
  rw [exact, Finset.mul_sum, Finset.sum_mul]

/-- products of series -/
theorem series_product (dim : Nat) (hd : 0 < dim) (P : Op) (m J : Nat) (radius aN : ℝ) (haN : -1 < aN) (lN : Nat) (aA : ℝ) (haA : -1 < aA) (lA : Nat)
    (k' : ℝ) (l' : Nat) (hP : ZRep dim P lN aA lA k' l') (c u : Nat → ℂ) (r : ℝ) :
    radial dim m radius aN lN c r * radial dim J radius aA lA u r = radial dim (P.rows (m + J)) radius k' l'
      (fun i => ∑ j ∈ Finset.range J, (∑ n ∈ Finset.range m, c n * (exact dim P (m + J) aN lN aA lA n i j : ℂ)) * u j) r := by
  unfold radial
  rw [Finset.sum_mul_sum]
  have e : ∀ n ∈ Finset.range m, ∀ j ∈ Finset.range J, (Z dim n aN lN (r / radius) : ℂ) * c n * ((Z dim j aA lA (r / radius) : ℂ) * u j) =
      ∑ i ∈ Finset.range (P.rows (m + J)), (Z dim i k' l' (r / radius) : ℂ) * (c n * (exact dim P (m + J) aN lN aA lA n i j : ℂ) * u j) := by
    intro n hn j hj
    have := exact_product dim hd P (m + J) aN haN lN aA haA lA k' l' hP n j (by have := Finset.mem_range.1 hn; have := Finset.mem_range.1 hj; omega) (r / radius)
    rw [show (Z dim n aN lN (r / radius) : ℂ) * c n * ((Z dim j aA lA (r / radius) : ℂ) * u j) =
      ((Z dim n aN lN (r / radius) * Z dim j aA lA (r / radius) : ℝ) : ℂ) * (c n * u j) by push_cast; ring, this, Complex.ofReal_sum, Finset.sum_mul]
    apply Finset.sum_congr rfl
    intro i _
    push_cast
    ring
  rw [Finset.sum_congr rfl fun n hn => Finset.sum_congr rfl (e n hn)]
  simp only [Finset.mul_sum, Finset.sum_mul]
  rw [Finset.sum_comm' (s' := fun _ => Finset.range m) (t' := Finset.range J) (by simp [and_comm])]
  rw [Finset.sum_congr rfl fun j _ => Finset.sum_comm]
  rw [Finset.sum_comm]

/-- the entries computed with matrices of size `M` -/
theorem scaled_exact (dim M N : Nat) (hd : 0 < dim) (P : Op) (v u : Nat) (aN : ℝ) (haN : -1 < aN) (lN : Nat) (aA : ℝ) (haA : -1 < aA) (lA : Nat)
    (m L : Nat) (hm : m ≤ N) (c : Nat → K) (cutoff : ℝ) (pre : Nat → Nat → ℝ) (hP : Band P v u aA ((lA : ℝ) + (dim : ℝ) / 2 - 1)) (i j : Nat) (hjM : j < M) (hL : m + j ≤ L)
    (h1 : ∀ n l, n < m → c n ≠ 0 → l < M → 2 * M ≤ n + l + j → pre i l = 0)
    (h2 : ∀ n l, n < m → c n ≠ 0 → l < M → l ≤ n + j → pre i l = at_ dim P (l + 1) aA lA i l)
    (h3 : ∀ n l, n < m → c n ≠ 0 → M ≤ l → l ≤ n + j → at_ dim P (l + 1) aA lA i l = 0) :
    scaled pre (clenshaw dim M N aN lN aA lA ((List.range m).map c) cutoff) i j =
      ∑ n ∈ Finset.range m, above cutoff c n * ((exact dim P (L) aN lN aA lA n i j : ℝ) : K) := by
  set bN := (lN : ℝ) + (dim : ℝ) / 2 - 1 with hbN
  set bA := (lA : ℝ) + (dim : ℝ) / 2 - 1 with hbA
  have hsize : ∀ l, l < L → at_ dim P (L) aA lA i l = at_ dim P (l + 1) aA lA i l := by
    intro l hl
    unfold at_
    rw [b_nat]
    exact hP.size _ _ i l hl (by omega)
  unfold scaled
  rw [dif_pos hjM]
  simp only [clenshaw_entry dim M N hd aN haN lN aA lA m c cutoff hm]
  simp only [Finset.mul_sum]
  rw [Finset.sum_comm]
  apply Finset.sum_congr rfl
  intro n hn
  have hn' := Finset.mem_range.1 hn
  by_cases hc0 : c n = 0
  · have : above cutoff c n = 0 := by unfold above; split <;> simp [hc0]
    simp [this]
  have e : ∀ l : Fin M, ((pre i l : ℝ) : K) * (above cutoff c n * ((cst dim aN lN * trunc M aN bN aA bA n l ⟨j, hjM⟩ : ℝ) : K)) =
      above cutoff c n * ((cst dim aN lN * (pre i l * full aN bN aA bA j n l) : ℝ) : K) := by
    intro l
    by_cases h : n + l.val + j < 2 * M
    · rw [trunc_full M aN bN aA bA haA (b_gt dim lA hd) n l ⟨j, hjM⟩ h]
      push_cast
      ring
    · rw [h1 n l hn' hc0 l.2 (by omega)]
      simp
  rw [Finset.sum_congr rfl fun l _ => e l, ← Finset.mul_sum]
  congr 1
  rw [exact, Finset.mul_sum, RCLike.ofReal_sum]
  rw [← Finset.sum_range fun l => ((cst dim aN lN * (pre i l * full aN bN aA bA j n l) : ℝ) : K)]
  have hz : ∀ l, n + j < l → full aN bN aA bA j n l = 0 := fun l hl => full_far aN bN aA bA j n l hl
  have s1 : ∑ l ∈ Finset.range M, ((cst dim aN lN * (pre i l * full aN bN aA bA j n l) : ℝ) : K) =
      ∑ l ∈ Finset.range (M + (L)), ((cst dim aN lN * ((if l < L then at_ dim P (L) aA lA i l else 0) * full aN bN aA bA j n l) : ℝ) : K) := by
    rw [← Finset.sum_subset (s₁ := Finset.range M) (s₂ := Finset.range (M + (L)))]
    · apply Finset.sum_congr rfl
      intro l hl
      have hl' := Finset.mem_range.1 hl
      by_cases h : l ≤ n + j
      · rw [if_pos (by omega), hsize l (by omega), h2 n l hn' hc0 hl' (by omega)]
      · rw [hz l (by omega)]; simp
    · intro x hx; simp at *; omega
    · intro x hx hx'
      simp at hx hx'
      by_cases h : x ≤ n + j
      · rw [if_pos (by omega), hsize x (by omega), h3 n x hn' hc0 hx' (by omega)]; simp
      · rw [hz x (by omega)]; simp
  rw [s1]
  symm
  rw [← Finset.sum_subset (s₁ := Finset.range (L)) (s₂ := Finset.range (M + (L)))]
  · apply Finset.sum_congr rfl
    intro l hl
    rw [if_pos (Finset.mem_range.1 hl)]
  · intro x hx; simp at *; omega
  · intro x _ hx
    simp at hx
    rw [if_neg (by omega)]; simp

end Dedalus.Zncc
