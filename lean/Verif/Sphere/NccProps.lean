import Verif.Sphere.Ncc
import Verif.Sphere.Pack

/-!
# C68: multiplication by an axisymmetric coefficient on the sphere
-/

namespace Dedalus.Sphere

open Spec Jacobi Jacobi.Spec

theorem position_run (G : Nat → Nat → Int × Int) (i j a : Nat) (ha : a ≤ j) (h : ∀ t, t < j → ((G i t).1 = (G i j).1 ↔ a ≤ t)) :
    position G i j = j - a := by
  unfold position
  rw [filter_range j a (j - a) (by omega) _ (fun t ht => by rw [decide_eq_true_iff, h t ht]; omega)]
  simp

theorem position_complex (M L i j l : Nat) (m : Int) (h : M ≤ L + 1) (hi : i < M) (hj : j < L + 1 + (L + 1 - M))
    (hg : groupComplex (2 * M) L i j = (m, (l : Int))) :
    m.natAbs ≤ l ∧ l ≤ L ∧ position (groupComplex (2 * M) L) i j = if m < 0 then L - l else l - m.natAbs := by
  have hz := complex_zero M L
  have hp := complex_pos M L
  have hn := complex_neg M L
  have h1 := congrArg Prod.fst hg
  have h2 := congrArg Prod.snd hg
  simp only at h1 h2
  rcases Nat.eq_zero_or_pos i with rfl | hi0
  · have hf := hz j
    by_cases hc : L < j
    · rw [hf, if_pos hc] at h1 h2
      simp only at h1 h2
      refine ⟨by omega, by omega, ?_⟩
      rw [position_run _ _ _ (L + 1) (by omega) (fun t ht => by
        rw [hf, if_pos hc, hz t]; split <;> simp only <;> constructor <;> intro _ <;> first | trivial | omega), if_neg (by omega)]
      omega
    · rw [hf, if_neg hc] at h1 h2
      simp only at h1 h2
      refine ⟨by omega, by omega, ?_⟩
      rw [position_run _ _ _ 0 (by omega) (fun t ht => by
        rw [hf, if_neg hc, hz t, if_neg (by omega)]; simp), if_neg (by omega)]
      omega
  · by_cases hc : max 0 ((L : Int) + 1 - M) + i ≤ j
    · have hf := hp i j hi0 hc
      rw [hf] at h1 h2
      simp only at h1 h2
      refine ⟨by omega, by omega, ?_⟩
      rw [position_run _ _ _ (L + 1 - M + i) (by omega) (fun t ht => by
        rw [hf]
        by_cases hc' : max 0 ((L : Int) + 1 - M) + i ≤ t
        · rw [hp i t hi0 hc']; simp only; constructor <;> intro _ <;> first | trivial | omega
        · rw [hn i t hi0 (by omega)]; simp only; constructor <;> intro _ <;> first | trivial | omega), if_neg (by omega)]
      omega
    · have hf := hn i j hi0 (by omega)
      rw [hf] at h1 h2
      simp only at h1 h2
      refine ⟨by omega, by omega, ?_⟩
      rw [position_run _ _ _ 0 (by omega) (fun t ht => by
        rw [hf, hn i t hi0 (by omega)]; simp), if_pos (by omega)]
      omega

theorem position_real (Q L i j l : Nat) (m : Int) (h : 2 * Q ≤ L + 2) (hi : i < 2 * Q) (hj : j < L + 1 + (L + 2 - 2 * Q))
    (hg : groupReal (4 * Q) L i j = (m, (l : Int))) :
    0 ≤ m ∧ m ≤ 2 * Q - 1 ∧ m.natAbs ≤ l ∧ l ≤ L ∧
      position (groupReal (4 * Q) L) i j = if Q ≤ m ∧ m < 2 * Q - 1 then L - l else l - m.natAbs := by
  rw [show 4 * Q = 2 * (2 * Q) by omega] at hg ⊢
  have hz := real_zero (2 * Q) L
  have hp := real_pos (2 * Q) L
  have hn := real_neg (2 * Q) L
  have h1 := congrArg Prod.fst hg
  have h2 := congrArg Prod.snd hg
  simp only at h1 h2
  by_cases hi0 : i < 2
  · have hf := hz i j hi0
    by_cases hc : L < j
    · rw [hf, if_pos hc] at h1 h2
      simp only at h1 h2
      refine ⟨by omega, by omega, by omega, by omega, ?_⟩
      rw [position_run _ _ _ (L + 1) (by omega) (fun t ht => by
        rw [hf, if_pos hc, hz i t hi0]; split <;> simp only <;> constructor <;> intro _ <;> first | trivial | omega), if_neg (by omega)]
      omega
    · rw [hf, if_neg hc] at h1 h2
      simp only at h1 h2
      refine ⟨by omega, by omega, by omega, by omega, ?_⟩
      rw [position_run _ _ _ 0 (by omega) (fun t ht => by
        rw [hf, if_neg hc, hz i t hi0, if_neg (by omega)]; simp), if_neg (by omega)]
      omega
  · by_cases hc : max 0 ((L : Int) + 2 - (2 * Q : Nat)) + (i / 2 : Nat) ≤ j
    · have hf := hp i j (by omega) hc
      rw [hf] at h1 h2
      simp only at h1 h2
      refine ⟨by omega, by omega, by omega, by omega, ?_⟩
      rw [position_run _ _ _ (L + 2 - 2 * Q + i / 2) (by omega) (fun t ht => by
        rw [hf]
        by_cases hc' : max 0 ((L : Int) + 2 - (2 * Q : Nat)) + (i / 2 : Nat) ≤ t
        · rw [hp i t (by omega) hc']; simp only; constructor <;> intro _ <;> first | trivial | omega
        · rw [hn i t (by omega) (by omega)]; simp only; constructor <;> intro _ <;> first | trivial | omega), if_neg (by omega)]
      omega
    · have hf := hn i j (by omega) (by omega)
      rw [hf] at h1 h2
      simp only at h1 h2
      refine ⟨by omega, by omega, by omega, by omega, ?_⟩
      rw [position_run _ _ _ 0 (by omega) (fun t ht => by
        rw [hf, hn i t (by omega) (by omega)]; simp), if_pos (by omega)]
      omega

/-- Complex data, `Nphi = 2 M` and `Lmax = L` with at most twice as many azimuthal as colatitude points. For any two slots of a
row that belong to the same order `m`, the matrix of the code, at the positions in memory of the two slots, is the entry of the
multiplication for their degrees. -/
theorem sphere_product_complex_partial (M L i j j' l l' : Nat) (m sA sN : Int) (c : Nat → ℂ) (cutoff : ℝ) (h : M ≤ L + 1)
    (hi : i < (shapeComplex (2 * M) L).1) (hj : j < (shapeComplex (2 * M) L).2) (hj' : j' < (shapeComplex (2 * M) L).2)
    (hg : groupComplex (2 * M) L i j = (m, (l : Int))) (hg' : groupComplex (2 * M) L i j' = (m, (l' : Int))) :
    nccComplex L m sA sN (sA + sN) c cutoff (position (groupComplex (2 * M) L) i j') (position (groupComplex (2 * M) L) i j) =
      product L m sA sN c cutoff l' l := by
  have hs : shapeComplex (2 * M) L = (M, L + 1 + (L + 1 - M)) := by unfold shapeComplex; rw [show 2 * M / 2 = M by omega]
  simp only [hs] at hi hj hj'
  obtain ⟨a1, a2, a3⟩ := position_complex M L i j l m h hi hj hg
  obtain ⟨b1, b2, b3⟩ := position_complex M L i j' l' m h hi hj' hg'
  rw [a3, b3, ← nccPadded_eq L l l' m sA sN c cutoff a1 a2 b1 b2]
  unfold nccComplex
  simp only
  by_cases hm : m < 0
  · simp only [if_pos hm]
    congr 1 <;> omega
  · simp only [if_neg hm]

/-- 16 azimuthal and 8 colatitude points, order -5. -/
example : (8 : Nat) ≤ 7 + 1 ∧ groupComplex (2 * 8) 7 3 1 = (-5, ((6 : Nat) : Int)) ∧ groupComplex (2 * 8) 7 3 0 = (-5, ((7 : Nat) : Int)) ∧
    position (groupComplex (2 * 8) 7) 3 1 = 1 := by decide

theorem parts_split (N p x : Nat) (hp : p < 2) (hx : x < N) : (p * N + x) / N = p ∧ (p * N + x) % N = x := by
  constructor
  · rw [Nat.add_comm, Nat.add_mul_div_right _ _ (by omega), Nat.div_eq_of_lt hx]; omega
  · rw [Nat.add_comm, Nat.add_mul_mod_self_right, Nat.mod_eq_of_lt hx]

/-- Real data, `Nphi = 4 Q` and `Lmax = L`. The same holds for the orders below a quarter of the largest one, with the part
(cosine in even rows, minus sine in odd rows) as the outer index. -/
theorem sphere_product_real_partial (Q L i i' j j' l l' : Nat) (m sA sN : Int) (c s : Nat → ℝ) (cutoff : ℝ) (h : 2 * Q ≤ L + 2)
    (hi : i < (shapeReal (4 * Q) L).1) (hi' : i' < (shapeReal (4 * Q) L).1) (hj : j < (shapeReal (4 * Q) L).2) (hj' : j' < (shapeReal (4 * Q) L).2)
    (hg : groupReal (4 * Q) L i j = (m, (l : Int))) (hg' : groupReal (4 * Q) L i' j' = (m, (l' : Int)))
    (hm : m < ((2 * Q - 1) / 4 : Nat)) :
    nccReal (4 * Q) L m sA sN (sA + sN) c s cutoff (i' % 2 * (L + 1 - m.natAbs) + position (groupReal (4 * Q) L) i' j')
        (i % 2 * (L + 1 - m.natAbs) + position (groupReal (4 * Q) L) i j) =
      productParts L m sA sN c s cutoff (i' % 2) l' (i % 2) l := by
  have hs : shapeReal (4 * Q) L = (2 * Q, L + 1 + (L + 2 - 2 * Q)) := by unfold shapeReal; rw [show 4 * Q / 2 = 2 * Q by omega]
  simp only [hs] at hi hi' hj hj'
  obtain ⟨a1, a2, a3, a4, a5⟩ := position_real Q L i j l m h hi hj hg
  obtain ⟨b1, b2, b3, b4, b5⟩ := position_real Q L i' j' l' m h hi' hj' hg'
  rw [if_neg (by omega)] at a5 b5
  rw [a5, b5]
  unfold nccReal
  simp only
  rw [if_neg (by rw [show (4 * Q - 1) / 2 = 2 * Q - 1 by omega]; omega)]
  obtain ⟨c1, c2⟩ := parts_split (L + 1 - m.natAbs) (i % 2) (l - m.natAbs) (by omega) (by omega)
  obtain ⟨d1, d2⟩ := parts_split (L + 1 - m.natAbs) (i' % 2) (l' - m.natAbs) (by omega) (by omega)
  rw [c1, c2, d1, d2, nccPadded_eq L l l' m sA sN c cutoff a3 a4 b3 b4, nccPadded_eq L l l' m sA sN s cutoff a3 a4 b3 b4]
  unfold productParts
  rcases Nat.mod_two_eq_zero_or_one i with e | e <;> rcases Nat.mod_two_eq_zero_or_one i' with e' | e' <;> simp [e, e']

/-- 32 azimuthal points, order 2. -/
example : groupReal (4 * 8) 15 4 6 = (2, ((5 : Nat) : Int)) ∧ (2 : Int) < ((2 * 8 - 1) / 4 : Nat) ∧ 6 < (shapeReal (4 * 8) 15).2 := by decide

/-- It also holds for the orders that are stored in decreasing degree, if the coefficient has no minus sine part. -/
theorem sphere_product_folded_partial (Q L i i' j j' l l' : Nat) (m sA sN : Int) (c : Nat → ℝ) (cutoff : ℝ) (h : 2 * Q ≤ L + 2)
    (hi : i < (shapeReal (4 * Q) L).1) (hi' : i' < (shapeReal (4 * Q) L).1) (hj : j < (shapeReal (4 * Q) L).2) (hj' : j' < (shapeReal (4 * Q) L).2)
    (hg : groupReal (4 * Q) L i j = (m, (l : Int))) (hg' : groupReal (4 * Q) L i' j' = (m, (l' : Int)))
    (hm : (Q : Int) ≤ m) (hm' : m < 2 * Q - 1) :
    nccReal (4 * Q) L m sA sN (sA + sN) c 0 cutoff (i' % 2 * (L + 1 - m.natAbs) + position (groupReal (4 * Q) L) i' j')
        (i % 2 * (L + 1 - m.natAbs) + position (groupReal (4 * Q) L) i j) =
      productParts L m sA sN c 0 cutoff (i' % 2) l' (i % 2) l := by
  have hs : shapeReal (4 * Q) L = (2 * Q, L + 1 + (L + 2 - 2 * Q)) := by unfold shapeReal; rw [show 4 * Q / 2 = 2 * Q by omega]
  simp only [hs] at hi hi' hj hj'
  obtain ⟨a1, a2, a3, a4, a5⟩ := position_real Q L i j l m h hi hj hg
  obtain ⟨b1, b2, b3, b4, b5⟩ := position_real Q L i' j' l' m h hi' hj' hg'
  rw [if_pos (by omega)] at a5 b5
  rw [a5, b5]
  unfold nccReal
  simp only
  rw [if_pos (by rw [show (4 * Q - 1) / 2 = 2 * Q - 1 by omega]; omega)]
  obtain ⟨c1, c2⟩ := parts_split (L + 1 - m.natAbs) (1 - i % 2) (l - m.natAbs) (by omega) (by omega)
  obtain ⟨d1, d2⟩ := parts_split (L + 1 - m.natAbs) (1 - i' % 2) (l' - m.natAbs) (by omega) (by omega)
  have e1 : 2 * (L + 1 - m.natAbs) - 1 - (i % 2 * (L + 1 - m.natAbs) + (L - l)) = (1 - i % 2) * (L + 1 - m.natAbs) + (l - m.natAbs) := by
    rcases Nat.mod_two_eq_zero_or_one i with e | e <;> rw [e] <;> omega
  have e2 : 2 * (L + 1 - m.natAbs) - 1 - (i' % 2 * (L + 1 - m.natAbs) + (L - l')) = (1 - i' % 2) * (L + 1 - m.natAbs) + (l' - m.natAbs) := by
    rcases Nat.mod_two_eq_zero_or_one i' with e | e <;> rw [e] <;> omega
  have z : product L m sA sN (0 : Nat → ℝ) cutoff l' l = 0 := by
    unfold product
    split
    · apply Finset.sum_eq_zero; intro n _; simp
    · rfl
  rw [e1, e2, c1, c2, d1, d2, nccPadded_eq L l l' m sA sN c cutoff a3 a4 b3 b4, nccPadded_eq L l l' m sA sN 0 cutoff a3 a4 b3 b4]
  unfold productParts
  rw [z]
  rcases Nat.mod_two_eq_zero_or_one i with e | e <;> rcases Nat.mod_two_eq_zero_or_one i' with e' | e' <;> simp [e, e']

/-- 16 azimuthal points, order 5. -/
example : groupReal (4 * 4) 7 4 1 = (5, ((6 : Nat) : Int)) ∧ ((4 : Nat) : Int) ≤ 5 ∧ (5 : Int) < 2 * (4 : Nat) - 1 ∧
    position (groupReal (4 * 4) 7) 4 1 = 1 := by decide

/-- The coefficients of `√(2/3) cos θ`. -/
noncomputable def cosine (n : Nat) : ℝ := if n = 1 then 1 else 0

theorem product_cosine (L m l : Nat) (hl : m ≤ l) (hL : 1 ≤ L) : product L m 0 0 cosine 0 (l + 1) l = √(3 / 2) * offDiag m m (l - m) := by
  unfold product
  rw [if_pos (by simp), Finset.sum_eq_single 1, ← coupling_cos l m hl]
  · simp [cosine]
  · intro n _ hn; simp [cosine, hn]
  · intro hn; exact absurd (Finset.mem_Ico.2 ⟨by simp, by omega⟩) hn

theorem product_cosine' (L m l : Nat) (hl : m ≤ l) (hL : 1 ≤ L) : product L m 0 0 cosine 0 l (l + 1) = √(3 / 2) * offDiag m m (l - m) := by
  rw [← product_cosine L m l hl hL]
  unfold product
  rw [if_pos (by simp), if_pos (by simp)]
  apply Finset.sum_congr rfl
  intro n _
  congr 2
  unfold coupling
  congr 1
  funext z
  simp only [add_zero]
  ring

/-- Real data, from the order `(2 Q - 1) / 4` on, a quarter of the largest one, to the first order stored in decreasing degree,
`Q`: multiplication by a multiple of the cosine of the colatitude is wrong. The degrees `m` and `m + 1` are in the first two
positions, but the entry that couples them is not the one of these degrees. -/
theorem sphere_product_real_refuted (Q L m : Nat) (h : 2 * Q ≤ L + 2) (h1 : (2 * Q - 1) / 4 ≤ m) (h2 : m < Q) (h0 : 0 < m) (h3 : m + 2 ≤ L) :
    ∃ i j j', i < (shapeReal (4 * Q) L).1 ∧ j < (shapeReal (4 * Q) L).2 ∧ j' < (shapeReal (4 * Q) L).2 ∧ i % 2 = 0 ∧
      groupReal (4 * Q) L i j = ((m : Int), (m : Int)) ∧ groupReal (4 * Q) L i j' = ((m : Int), ((m + 1 : Nat) : Int)) ∧
      nccReal (4 * Q) L m 0 0 0 cosine 0 0 (position (groupReal (4 * Q) L) i j') (position (groupReal (4 * Q) L) i j) ≠
        product L m 0 0 cosine 0 (m + 1) m := by
  have hs : shapeReal (4 * Q) L = (2 * Q, L + 1 + (L + 2 - 2 * Q)) := by unfold shapeReal; rw [show 4 * Q / 2 = 2 * Q by omega]
  have hp := real_pos (2 * Q) L (2 * m) (L + 2 - 2 * Q + m) (by omega) (by omega)
  have hp' := real_pos (2 * Q) L (2 * m) (L + 2 - 2 * Q + m + 1) (by omega) (by omega)
  rw [show 2 * (2 * Q) = 4 * Q by omega] at hp hp'
  have hg : groupReal (4 * Q) L (2 * m) (L + 2 - 2 * Q + m) = ((m : Int), (m : Int)) := by rw [hp]; ext <;> simp only <;> omega
  have hg' : groupReal (4 * Q) L (2 * m) (L + 2 - 2 * Q + m + 1) = ((m : Int), ((m + 1 : Nat) : Int)) := by rw [hp']; ext <;> simp only <;> omega
  refine ⟨2 * m, L + 2 - 2 * Q + m, L + 2 - 2 * Q + m + 1, by rw [hs]; simp only; omega, by rw [hs]; simp only; omega, by rw [hs]; simp only; omega,
    by omega, hg, hg', ?_⟩
  obtain ⟨a1, a2, a3, a4, a5⟩ := position_real Q L _ _ _ _ h (by omega) (by omega) hg
  obtain ⟨b1, b2, b3, b4, b5⟩ := position_real Q L _ _ _ _ h (by omega) (by omega) hg'
  rw [if_neg (by omega)] at a5 b5
  rw [a5, b5, product_cosine L m m le_rfl (by omega)]
  unfold nccReal
  simp only [Int.natAbs_natCast, Nat.sub_self, Nat.add_sub_cancel_left]
  rw [if_pos (by rw [show (4 * Q - 1) / 2 = 2 * Q - 1 by omega]; omega)]
  obtain ⟨c1, c2⟩ := parts_split (L + 1 - m) 1 (L - m) (by omega) (by omega)
  obtain ⟨d1, d2⟩ := parts_split (L + 1 - m) 1 (L - 1 - m) (by omega) (by omega)
  rw [show 2 * (L + 1 - m) - 1 - 1 = 1 * (L + 1 - m) + (L - 1 - m) by omega, show 2 * (L + 1 - m) - 1 - 0 = 1 * (L + 1 - m) + (L - m) by omega,
    c1, c2, d1, d2]
  have hn := nccPadded_eq L L (L - 1) m 0 0 cosine 0 (by simp; omega) le_rfl (by simp; omega) (by omega)
  simp only [add_zero, Int.natAbs_natCast] at hn
  simp only [one_ne_zero, if_false]
  rw [hn]
  have e := product_cosine' L m (L - 1) (by omega) (by omega)
  rw [show L - 1 + 1 = L by omega] at e
  rw [e]
  intro hc
  have h4 : (0 : ℝ) < √(3 / 2) := Real.sqrt_pos.2 (by norm_num)
  exact offDiag_ne m (L - 1 - m) (by omega) (mul_left_cancel₀ h4.ne' hc)

/-- 32 azimuthal and 16 colatitude points: orders 3 to 7. -/
example : (2 * 8 - 1) / 4 = 3 ∧ 2 * 8 ≤ 15 + 2 ∧ 7 < 8 ∧ 7 + 2 ≤ 15 := by decide

/-- In the orders stored in decreasing degree, a constant imaginary component of the coefficient has the wrong sign: the code
swaps the cosine and minus sine parts when it reverses the degrees. -/
theorem sphere_product_sign_refuted (Q L m : Nat) (h : 2 * Q ≤ L + 2) (h1 : Q ≤ m) (h2 : m + 1 < 2 * Q) (hL : m ≤ L) :
    ∃ i j, i + 1 < (shapeReal (4 * Q) L).1 ∧ j < (shapeReal (4 * Q) L).2 ∧ i % 2 = 0 ∧
      groupReal (4 * Q) L i j = ((m : Int), (L : Int)) ∧ groupReal (4 * Q) L (i + 1) j = ((m : Int), (L : Int)) ∧
      nccReal (4 * Q) L m 0 0 0 0 (fun n => if n = 0 then 1 else 0) 0 (position (groupReal (4 * Q) L) i j)
        (L + 1 - m + position (groupReal (4 * Q) L) (i + 1) j) = 1 / √2 ∧
      productParts L m 0 0 0 (fun n => if n = 0 then 1 else 0) 0 0 L 1 L = -(1 / √2) := by
  have hs : shapeReal (4 * Q) L = (2 * Q, L + 1 + (L + 2 - 2 * Q)) := by unfold shapeReal; rw [show 4 * Q / 2 = 2 * Q by omega]
  have hn := real_neg (2 * Q) L (2 * (2 * Q - 1 - m)) 0 (by omega) (by omega)
  have hn' := real_neg (2 * Q) L (2 * (2 * Q - 1 - m) + 1) 0 (by omega) (by omega)
  rw [show 2 * (2 * Q) = 4 * Q by omega] at hn hn'
  have hg : groupReal (4 * Q) L (2 * (2 * Q - 1 - m)) 0 = ((m : Int), (L : Int)) := by rw [hn]; ext <;> simp only <;> omega
  have hg' : groupReal (4 * Q) L (2 * (2 * Q - 1 - m) + 1) 0 = ((m : Int), (L : Int)) := by rw [hn']; ext <;> simp only <;> omega
  have hpr : product L m 0 0 (fun n => if n = 0 then (1 : ℝ) else 0) 0 L L = 1 / √2 := by
    unfold product
    rw [if_pos (by simp), Finset.sum_eq_single 0, ← coupling_const L m hL]
    · simp
    · intro n _ hn; simp [hn]
    · intro hn; exact absurd (Finset.mem_Ico.2 ⟨by simp, by omega⟩) hn
  refine ⟨2 * (2 * Q - 1 - m), 0, by rw [hs]; simp only; omega, by rw [hs]; simp only; omega, by omega, hg, hg', ?_, ?_⟩
  · obtain ⟨a1, a2, a3, a4, a5⟩ := position_real Q L _ _ _ _ h (by omega) (by omega) hg
    obtain ⟨b1, b2, b3, b4, b5⟩ := position_real Q L _ _ _ _ h (by omega) (by omega) hg'
    rw [if_pos (by omega)] at a5 b5
    rw [a5, b5]
    unfold nccReal
    simp only [Int.natAbs_natCast, Nat.sub_self]
    rw [if_pos (by rw [show (4 * Q - 1) / 2 = 2 * Q - 1 by omega]; omega)]
    obtain ⟨c1, c2⟩ := parts_split (L + 1 - m) 1 (L - m) (by omega) (by omega)
    obtain ⟨d1, d2⟩ := parts_split (L + 1 - m) 0 (L - m) (by omega) (by omega)
    rw [show 2 * (L + 1 - m) - 1 - 0 = 1 * (L + 1 - m) + (L - m) by omega,
      show 2 * (L + 1 - m) - 1 - (L + 1 - m + 0) = 0 * (L + 1 - m) + (L - m) by omega, c1, c2, d1, d2]
    have hq := nccPadded_eq L L L m 0 0 (fun n => if n = 0 then (1 : ℝ) else 0) 0 (by simpa using hL) le_rfl (by simpa using hL) le_rfl
    simp only [add_zero, Int.natAbs_natCast] at hq
    simp only [one_ne_zero, if_false, if_true]
    rw [hq, hpr]
  · unfold productParts
    rw [if_neg (by omega), if_pos rfl, hpr]

/-- 32 azimuthal and 16 colatitude points: orders 8 to 14. -/
example : 2 * 8 ≤ 15 + 2 ∧ 8 ≤ 14 ∧ 14 + 1 < 2 * 8 ∧ 14 ≤ 15 := by decide

end Dedalus.Sphere
