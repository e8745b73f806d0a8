import Verif.Zncc.Model
import Verif.Zernike.DiskProps
import Verif.Jacobi.Ncc

namespace Dedalus.Zncc

open Jacobi Jacobi.Spec
open Zernike hiding polynomials quadrature forwardMatrix backwardMatrix
open Zernike.Spec

/-! ## Bands of operators -/

/-- `v` bands below the diagonal, `u` above, and the same entries at every size -/
structure Band (A : Op) (v u : Nat) (a b : ℝ) : Prop where
  rows : ∀ n, A.rows n = n + v
  far : ∀ n i j, j < n → i + u < j → A.entry n a b i j = 0
  low : ∀ n i j, j < n → j + v < i → A.entry n a b i j = 0
  size : ∀ n n' i j, j < n → j < n' → A.entry n a b i j = A.entry n' a b i j

theorem Band.one (a b : ℝ) : Band Op.one 0 0 a b where
  rows _ := rfl
  far n i j _ h := if_neg (by omega)
  low n i j _ h := if_neg (by omega)
  size _ _ _ _ _ _ := rfl

theorem Band.smul {A : Op} {v u : Nat} {a b : ℝ} (h : Band A v u a b) (c : ℝ) : Band (Zernike.smul c A) v u a b where
  rows := h.rows
  far n i j hj h' := by simp only [Zernike.smul]; rw [h.far n i j hj h', mul_zero]
  low n i j hj h' := by simp only [Zernike.smul]; rw [h.low n i j hj h', mul_zero]
  size n n' i j hj h' := by simp only [Zernike.smul]; rw [h.size n n' i j hj h']

theorem Band.comp {L R : Op} {v u v' u' : Nat} {a b : ℝ} (hL : Band L v u (a + R.da) (b + R.db)) (hR : Band R v' u' a b) :
    Band (L.comp R) (v + v') (u + u') a b where
  rows n := by simp only [Op.comp]; rw [hL.rows, hR.rows]; omega
  far n i j hj h := by
    simp only [Op.comp]
    apply Finset.sum_eq_zero
    intro l hl
    rcases Nat.lt_or_ge (i + u) l with h' | h'
    · rw [hL.far _ i l (Finset.mem_range.1 hl) h', zero_mul]
    · rw [hR.far n l j hj (by omega), mul_zero]
  low n i j hj h := by
    simp only [Op.comp]
    apply Finset.sum_eq_zero
    intro l hl
    rcases Nat.lt_or_ge (l + v) i with h' | h'
    · rw [hL.low _ i l (Finset.mem_range.1 hl) h', zero_mul]
    · rw [hR.low n l j hj (by omega), mul_zero]
  size := by
    have key : ∀ n n' i j, j < n → n ≤ n' → (L.comp R).entry n a b i j = (L.comp R).entry n' a b i j := by
      intro n n' i j hj hn
      simp only [Op.comp]
      rw [hR.rows, hR.rows]
      have e : ∀ l ∈ Finset.range (n + v'), L.entry (n + v') (a + R.da) (b + R.db) i l * R.entry n a b l j =
          L.entry (n' + v') (a + R.da) (b + R.db) i l * R.entry n' a b l j := by
        intro l hl
        have := Finset.mem_range.1 hl
        rw [hL.size (n + v') (n' + v') i l this (by omega), hR.size n n' l j hj (by omega)]
      rw [Finset.sum_congr rfl e]
      apply Finset.sum_subset
      · intro x hx; simp at *; omega
      · intro x _ hx
        simp at hx
        rw [hR.low n' x j (by omega) (by omega), mul_zero]
    intro n n' i j h h'
    rcases Nat.le_total n n' with hn | hn
    · exact key n n' i j h hn
    · exact (key n' n i j h' hn).symm

theorem band_Ap (a b : ℝ) : Band opAp 0 1 a b where
  rows _ := rfl
  far n i j _ h := by simp only [opAp]; rw [if_neg (by omega), if_neg (by omega)]
  low n i j _ h := by simp only [opAp]; rw [if_neg (by omega), if_neg (by omega)]
  size _ _ _ _ _ _ := rfl

theorem band_Am (a b : ℝ) : Band opAm 1 0 a b where
  rows _ := rfl
  far n i j _ h := by simp only [opAm]; rw [if_neg (by omega), if_neg (by omega)]
  low n i j _ h := by simp only [opAm]; rw [if_neg (by omega), if_neg (by omega)]
  size _ _ _ _ _ _ := rfl

theorem band_swap {A : Op} {v u : Nat} {a b : ℝ} (h : Band A v u b a) : Band (swap A) v u a b where
  rows := h.rows
  far n i j hj h' := by simp only [swap]; rw [h.far n i j hj h']; ring
  low n i j hj h' := by simp only [swap]; rw [h.low n i j hj h']; ring
  size n n' i j hj h' := by simp only [swap]; rw [h.size n n' i j hj h']

theorem band_pow {A : Op} {v u : Nat} (h : ∀ a b, Band A v u a b) (a b : ℝ) : ∀ k, Band (A.pow k) (k * v) (k * u) a b
  | 0 => by rw [Nat.zero_mul, Nat.zero_mul]; exact Band.one a b
  | k + 1 => by
    have := Band.comp (L := A) (R := A.pow k) (h _ _) (band_pow h a b k)
    rw [Nat.add_comm, ← Nat.succ_mul, Nat.add_comm, ← Nat.succ_mul] at this
    exact this

theorem band_Rp (a b : ℝ) : Band (zR 1 1) 0 1 a b := (band_swap (band_Ap b a)).smul _
theorem band_Rm (a b : ℝ) : Band (zR 1 (-1)) 1 0 a b := (band_swap (band_Am b a)).smul _
theorem band_E (dk : Nat) (a b : ℝ) : Band ((zE 1).pow dk) 0 dk a b := by
  have := band_pow (A := zE 1) (v := 0) (u := 1) (fun a b => (band_Ap a b).smul _) a b dk
  rwa [Nat.mul_zero, Nat.mul_one] at this

theorem band_R2 (a b : ℝ) : Band ((zR 1 (-1)).comp (zR 1 1)) 1 1 a b := (band_Rm _ _).comp (band_Rp a b)

/-- bands of the multiplication by powers of the radius -/
theorem band_radius (order d : Int) (hd : 0 ≤ d) (a b : ℝ) :
    Band (radiusOp order d) ((-order).toNat + (d / 2).toNat) (order.toNat + (d / 2).toNat) a b := by
  have h : ∀ a b, Band (if order = 0 then Op.one else if order < 0 then (zR 1 (-1)).pow order.natAbs else (zR 1 1).pow order.natAbs)
      (-order).toNat order.toNat a b := by
    intro a b
    split_ifs with h1 h2
    · rw [show (-order).toNat = 0 by omega, show order.toNat = 0 by omega]; exact Band.one a b
    · have := band_pow band_Rm a b order.natAbs
      rw [Nat.mul_one, Nat.mul_zero] at this
      rwa [show (-order).toNat = order.natAbs by omega, show order.toNat = 0 by omega]
    · have := band_pow band_Rp a b order.natAbs
      rw [Nat.mul_one, Nat.mul_zero] at this
      rwa [show (-order).toNat = 0 by omega, show order.toNat = order.natAbs by omega]
  unfold radiusOp
  simp only
  by_cases h0 : d > 0
  · rw [if_pos h0]
    have := Band.comp (band_pow band_R2 _ _ (d / 2).toNat) (h a b)
    rwa [Nat.mul_one, Nat.add_comm, Nat.add_comm (d / 2).toNat] at this
  · rw [if_neg h0, show (d / 2).toNat = 0 by omega]
    exact h a b

/-! ## Operators on radial functions -/

/-- the operator expands `r^q` times the functions of `k`, `l` in those of `k'`, `l'` -/
structure ZRep (dim : Nat) (A : Op) (q : Nat) (k : ℝ) (l : Nat) (k' : ℝ) (l' : Nat) : Prop where
  da : k + A.da = k'
  db : (l : ℝ) + A.db = l'
  rep : ∀ n j r, j < n → r ^ q * Z dim j k l r = ∑ i ∈ Finset.range (A.rows n), at_ dim A n k l i j * Z dim i k' l' r

theorem ZRep.one (dim : Nat) (k : ℝ) (l : Nat) : ZRep dim Op.one 0 k l k l where
  da := by simp [Op.one]
  db := by simp [Op.one]
  rep n j r hj := by
    simp only [at_, Op.one, ite_mul, one_mul, zero_mul, pow_zero]
    rw [Finset.sum_ite_eq' _ _ _, if_pos (Finset.mem_range.2 hj)]

theorem ZRep.comp {dim : Nat} {L R : Op} {q q' : Nat} {k k' k'' : ℝ} {l l' l'' : Nat} (hL : ZRep dim L q k' l' k'' l'')
    (hR : ZRep dim R q' k l k' l') : ZRep dim (L.comp R) (q + q') k l k'' l'' where
  da := by simp only [Op.comp]; rw [← add_assoc, hR.da, hL.da]
  db := by simp only [Op.comp]; rw [← add_assoc, hR.db, hL.db]
  rep n j r hj := by
    have hb : bParam dim l + R.db = bParam dim l' := by rw [b_nat, b_nat, ← hR.db]; ring
    rw [pow_add, mul_assoc, hR.rep n j r hj, Finset.mul_sum]
    have : ∀ t ∈ Finset.range (R.rows n), r ^ q * (at_ dim R n k l t j * Z dim t k' l' r) =
        ∑ i ∈ Finset.range (L.rows (R.rows n)), L.entry (R.rows n) (k + R.da) (bParam dim l + R.db) i t * R.entry n k (bParam dim l) t j *
          Z dim i k'' l'' r := by
      intro t ht
      rw [mul_left_comm, hL.rep (R.rows n) t r (Finset.mem_range.1 ht), Finset.mul_sum, hb, hR.da]
      apply Finset.sum_congr rfl
      intro i _
      unfold at_
      ring
    rw [Finset.sum_congr rfl this, Finset.sum_comm]
    simp only [Op.comp, at_]
    apply Finset.sum_congr rfl
    intro i _
    rw [Finset.sum_mul]

/-- multiplication by the radius, raising the order -/
theorem zrep_Rp (dim : Nat) (hd : 0 < dim) (k : ℝ) (hk : -1 < k) (l : Nat) : ZRep dim (zR 1 1) 1 k l k (l + 1) where
  da := by simp [zR, Zernike.smul, opBp, swap, opAp]
  db := by simp [zR, Zernike.smul, opBp, swap, opAp]
  rep n j r hj := by
    have h := rep_Bp k _ hk (b_gt dim l hd) n j (2 * r ^ 2 - 1) hj
    rw [one_mul] at h
    rw [Z_eq, h, pow_one]
    simp only [Finset.mul_sum]
    apply Finset.sum_congr rfl
    intro i _
    rw [Z_eq, cst_l]
    have e := sqrt_half
    simp only [at_, zR, Zernike.smul, if_pos, b_nat, mul_one]
    rw [show k + opBp.da = k by simp [opBp, swap, opAp], show (l : ℝ) + (dim : ℝ) / 2 - 1 + opBp.db = ((l + 1 : Nat) : ℝ) + (dim : ℝ) / 2 - 1 by
      simp only [opBp, swap, opAp]; push_cast; ring]
    generalize Q i _ _ _ = q
    generalize opBp.entry _ _ _ _ _ = B
    rw [pow_succ]
    linear_combination (-(B * cst dim k l * r ^ l * r * q)) * e

/-- multiplication by the radius, lowering the order -/
theorem zrep_Rm (dim : Nat) (hd : 0 < dim) (k : ℝ) (hk : -1 < k) (l : Nat) : ZRep dim (zR 1 (-1)) 1 k (l + 1) k l where
  da := by simp [zR, Zernike.smul, opBm, swap, opAm]
  db := by simp [zR, Zernike.smul, opBm, swap, opAm]
  rep n j r hj := by
    have h := rep_Bm k _ hk (b_gt dim l hd) n j (2 * r ^ 2 - 1) hj
    rw [show (l : ℝ) + (dim : ℝ) / 2 - 1 + 1 = ((l + 1 : Nat) : ℝ) + (dim : ℝ) / 2 - 1 by push_cast; ring] at h
    rw [show k + opBm.da = k by simp [opBm, swap, opAm], show ((l + 1 : Nat) : ℝ) + (dim : ℝ) / 2 - 1 + opBm.db = (l : ℝ) + (dim : ℝ) / 2 - 1 by
      simp only [opBm, swap, opAm]; push_cast; ring] at h
    have e := sqrt_half
    have e2 := sqrt_two_sq
    have hs : √(1 / 2 : ℝ) = √2 / 2 := by linear_combination (√2 / 2) * e - (√(1/2) / 2) * e2
    have : ∑ i ∈ Finset.range ((zR 1 (-1)).rows n), at_ dim (zR 1 (-1)) n k ((l + 1 : Nat) : Int) i j * Z dim i k l r =
        √2 / 2 * cst dim k l * r ^ l * ∑ i ∈ Finset.range (opBm.rows n), opBm.entry n k (((l + 1 : Nat) : ℝ) + (dim : ℝ) / 2 - 1) i j *
          Q i k ((l : ℝ) + (dim : ℝ) / 2 - 1) (2 * r ^ 2 - 1) := by
      rw [Finset.mul_sum]
      apply Finset.sum_congr rfl
      intro i _
      rw [Z_eq]
      simp only [at_, zR, Zernike.smul, b_nat, mul_one, hs]
      rw [if_neg (by decide)]
      ring
    rw [this, ← h, Z_eq, cst_l]
    generalize Q j _ _ _ = q
    rw [pow_succ]
    ring

theorem zrep_Rp_pow (dim : Nat) (hd : 0 < dim) (k : ℝ) (hk : -1 < k) (l : Nat) : ∀ p, ZRep dim ((zR 1 1).pow p) p k l k (l + p)
  | 0 => ZRep.one dim k l
  | p + 1 => by
    have := ZRep.comp (zrep_Rp dim hd k hk (l + p)) (zrep_Rp_pow dim hd k hk l p)
    rw [Nat.add_comm 1] at this
    exact this

theorem zrep_Rm_pow (dim : Nat) (hd : 0 < dim) (k : ℝ) (hk : -1 < k) (l : Nat) : ∀ p, ZRep dim ((zR 1 (-1)).pow p) p k (l + p) k l := by
  intro p
  induction p generalizing l with
  | zero => exact ZRep.one dim k l
  | succ p ih =>
    have h := ih (l + 1)
    rw [show l + 1 + p = l + (p + 1) by omega] at h
    have := ZRep.comp (zrep_Rm dim hd k hk l) h
    rw [Nat.add_comm 1] at this
    exact this

theorem zrep_R2_pow (dim : Nat) (hd : 0 < dim) (k : ℝ) (hk : -1 < k) (l : Nat) : ∀ p, ZRep dim (((zR 1 (-1)).comp (zR 1 1)).pow p) (2 * p) k l k l
  | 0 => ZRep.one dim k l
  | p + 1 => by
    have := ZRep.comp (ZRep.comp (zrep_Rm dim hd k hk l) (zrep_Rp dim hd k hk l)) (zrep_R2_pow dim hd k hk l p)
    rw [show 1 + 1 + 2 * p = 2 * (p + 1) by ring] at this
    exact this

/-- `radius_multiplication_matrix` multiplies by a power of the radius -/
theorem zrep_radius (dim : Nat) (hd : 0 < dim) (k : ℝ) (hk : -1 < k) (l l' : Nat) (order d : Int) (h0 : 0 ≤ d) (h2 : d % 2 = 0)
    (hl : (l' : Int) = l + order) : ZRep dim (radiusOp order d) (d + |order|).toNat k l k l' := by
  have h : ZRep dim (if order = 0 then Op.one else if order < 0 then (zR 1 (-1)).pow order.natAbs else (zR 1 1).pow order.natAbs)
      order.natAbs k l k l' := by
    split_ifs with h1 h2
    · subst h1
      obtain rfl : l' = l := by omega
      exact ZRep.one dim k l'
    · have := zrep_Rm_pow dim hd k hk l' order.natAbs
      rwa [show l' + order.natAbs = l by omega] at this
    · have := zrep_Rp_pow dim hd k hk l order.natAbs
      rwa [show l + order.natAbs = l' by omega] at this
  have ha : |order| = order.natAbs := Int.abs_eq_natAbs order
  unfold radiusOp
  simp only
  by_cases h0 : d > 0
  · rw [if_pos h0]
    have := ZRep.comp (zrep_R2_pow dim hd k hk l' (d / 2).toNat) h
    rwa [show 2 * (d / 2).toNat + order.natAbs = (d + |order|).toNat by rw [ha]; omega] at this
  · rw [if_neg h0, show (d + |order|).toNat = order.natAbs by rw [ha]; omega]
    exact h

theorem zrep_E (dim : Nat) (hd : 0 < dim) (k : ℝ) (hk : -1 < k) (l dk : Nat) : ZRep dim ((zE 1).pow dk) 0 k l (k + dk) l := by
  have hs : ∀ m : Nat, ((zE 1).pow m).da = m ∧ ((zE 1).pow m).db = 0 := by
    intro m
    induction m with
    | zero => simp [Op.pow, Op.one]
    | succ m ih =>
      constructor
      · simp only [Op.pow, Op.comp, ih.1]; simp [zE, Zernike.smul, opAp]
      · simp only [Op.pow, Op.comp, ih.2]; simp [zE, Zernike.smul, opAp]
  refine ⟨by rw [(hs dk).1], by rw [(hs dk).2, add_zero], fun n j r hj => ?_⟩
  rw [pow_zero, one_mul, Z_convert dim dk n k l r hd hk j hj, (band_E dk k 0).rows n, Nat.add_zero]

end Dedalus.Zncc
