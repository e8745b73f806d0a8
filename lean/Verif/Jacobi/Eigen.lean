import Verif.Jacobi.Chebyshev
import Verif.Cosine.Props
import Mathlib.Analysis.Matrix.Spectrum

namespace Dedalus.Jacobi

open Spec

theorem XM_symm (n : Nat) (a b : ℝ) (ha : -1 < a) (hb : -1 < b) : (XM n a b).IsHermitian := by
  apply Matrix.IsHermitian.ext
  intro i j
  simp only [star_trivial]
  change opZ.entry n a b j i = opZ.entry n a b i j
  obtain ⟨i, hi⟩ := i
  obtain ⟨j, hj⟩ := j
  simp only
  rcases lt_trichotomy i j with h | h | h
  · rcases Nat.lt_or_ge (i + 1) j with h' | h'
    · rw [opZ_far n a b j i hi (by omega), opZ_far n a b i j hj (by omega)]
    · obtain rfl : j = i + 1 := by omega
      rw [opZ_lower n a b i hi ha hb, opZ_upper n a b i hj ha hb]
  · rw [h]
  · rcases Nat.lt_or_ge (j + 1) i with h' | h'
    · rw [opZ_far n a b j i hi (by omega), opZ_far n a b i j hj (by omega)]
    · obtain rfl : i = j + 1 := by omega
      rw [opZ_lower n a b j hj ha hb, opZ_upper n a b j hi ha hb]

/-- eigenvectors are values of the polynomials -/
theorem eigen_values (n : Nat) (a b lam : ℝ) (ha : -1 < a) (hb : -1 < b) (v : Fin n → ℝ) (h : Matrix.mulVec (XM n a b) v = lam • v) :
    ∃ t : ℝ, (∀ k : Fin n, v k = t * Q k a b lam) ∧ (0 < n → t * Q n a b lam = 0) := by
  rcases Nat.eq_zero_or_pos n with rfl | hn
  · exact ⟨0, fun k => k.elim0, fun h => absurd h (by omega)⟩
  let w : Nat → ℝ := fun l => if hl : l < n then v ⟨l, hl⟩ else 0
  have hw : ∀ k : Fin n, w k = v k := fun k => by simp only [w, dif_pos k.2]
  have hwn : w n = 0 := by simp only [w, dif_neg (lt_irrefl n)]
  have hrow : ∀ l, l < n → act a b w l = lam * w l := by
    intro l hl
    have h1 := XM_mul n a b ha hb (Matrix.of fun k _ => v k) w ⟨l, hl⟩ ⟨l, hl⟩ (fun k _ _ => (hw k).symm) (fun _ => hwn)
    rw [← h1, hw ⟨l, hl⟩]
    have h2 := congrFun h ⟨l, hl⟩
    rw [Pi.smul_apply, smul_eq_mul] at h2
    rw [← h2]
    rfl
  have q0 := (Q_zero_pos a b lam ha hb).ne'
  have key : ∀ k, (k ≤ n → w k = w 0 / Q 0 a b lam * Q k a b lam) ∧ (k + 1 ≤ n → w (k + 1) = w 0 / Q 0 a b lam * Q (k + 1) a b lam) := by
    intro k
    induction k with
    | zero =>
      refine ⟨fun _ => by field_simp, fun h1 => ?_⟩
      have r := hrow 0 (by omega)
      have s := Q_rec_zero a b lam ha hb
      have o := (offDiag_pos a b 0 ha hb).ne'
      rw [act] at r
      apply mul_left_cancel₀ o
      have e : w 0 / Q 0 a b lam * Q 0 a b lam = w 0 := by field_simp
      rw [show (0 : Nat) + 1 = 1 from rfl]
      linear_combination r + (w 0 / Q 0 a b lam) * s + (lam - diagZ a b 0) * (-e)
    | succ k ih =>
      refine ⟨ih.2, fun h1 => ?_⟩
      have r := hrow (k + 1) (by omega)
      have s := Q_rec a b lam k ha hb
      have o := (offDiag_pos a b (k + 1) ha hb).ne'
      rw [act, ih.1 (by omega), ih.2 (by omega)] at r
      apply mul_left_cancel₀ o
      rw [show k + 1 + 1 = k + 2 from rfl]
      linear_combination r + (w 0 / Q 0 a b lam) * s
  refine ⟨w 0 / Q 0 a b lam, fun k => ?_, fun _ => ?_⟩
  · rw [← hw k]; exact (key k).1 k.2.le
  · rw [← (key n).1 le_rfl, hwn]

theorem eigen_root (n : Nat) (a b lam : ℝ) (ha : -1 < a) (hb : -1 < b) (v : Fin n → ℝ) (hv : v ≠ 0)
    (h : Matrix.mulVec (XM n a b) v = lam • v) : Q n a b lam = 0 := by
  obtain ⟨t, h1, h2⟩ := eigen_values n a b lam ha hb v h
  rcases Nat.eq_zero_or_pos n with rfl | hn
  · exact absurd (funext fun k => k.elim0) hv
  · rcases mul_eq_zero.1 (h2 hn) with h3 | h3
    · exfalso
      apply hv
      funext k
      rw [h1 k, h3, zero_mul]; rfl
    · exact h3

theorem eigen_basis_ne (n : Nat) (A : Matrix (Fin n) (Fin n) ℝ) (hA : A.IsHermitian) (i : Fin n) :
    (⇑(hA.eigenvectorBasis i) : Fin n → ℝ) ≠ 0 := by
  intro h
  have h1 := hA.eigenvectorBasis.orthonormal.ne_zero i
  apply h1
  ext k
  exact congrFun h k

theorem eigenvalues_inj (n : Nat) (a b : ℝ) (ha : -1 < a) (hb : -1 < b) :
    Function.Injective (XM_symm n a b ha hb).eigenvalues := by
  intro i j hij
  by_contra hne
  have hA := XM_symm n a b ha hb
  obtain ⟨t, ht, _⟩ := eigen_values n a b _ ha hb _ (hA.mulVec_eigenvectorBasis i)
  obtain ⟨s, hs, _⟩ := eigen_values n a b _ ha hb _ (hA.mulVec_eigenvectorBasis j)
  have ho := hA.eigenvectorBasis.orthonormal.2 hne
  have hij' : hA.eigenvalues i = hA.eigenvalues j := hij
  have lin : s • hA.eigenvectorBasis i = t • hA.eigenvectorBasis j := by
    ext k
    simp only [PiLp.smul_apply, smul_eq_mul]
    have e1 := ht k
    have e2 := hs k
    rw [← hij'] at e2
    rw [e1, e2]
    ring
  have h1 := congrArg (fun x => inner ℝ (hA.eigenvectorBasis i) x) lin
  simp only [inner_smul_right] at h1
  rw [ho, real_inner_self_eq_norm_sq, hA.eigenvectorBasis.orthonormal.1 i, one_pow, mul_zero, mul_one] at h1
  apply eigen_basis_ne n _ hA j
  funext k
  rw [hs k, h1, zero_mul]; rfl

/-- what `grid_guess` returns are the distinct roots -/
theorem guess_roots (n : Nat) (a b : ℝ) (ha : -1 < a) (hb : -1 < b) (hn : 0 < n) (g : Nat → ℝ) (h : GridGuess n a b g) : Roots n a b g := by
  unfold GridGuess at h
  by_cases h1 : n = 1
  · rw [if_pos h1] at h
    subst h1
    refine ⟨fun i hi => ?_, fun i j hi hj _ => by omega⟩
    obtain rfl : i = 0 := by omega
    have hr := Q_rec_zero a b (g 0) ha hb
    have ho := (offDiag_pos a b 0 ha hb).ne'
    rw [h, opZ_diag _ _ _ _ (by omega)] at hr
    rw [h, opZ_diag _ _ _ _ (by omega)]
    apply mul_left_cancel₀ ho
    linear_combination (-1) * hr
  rw [if_neg h1] at h
  by_cases h2 : a = -1 / 2 ∧ b = -1 / 2
  · rw [if_pos h2] at h
    obtain ⟨rfl, rfl⟩ := h2
    obtain ⟨c1, c2⟩ := Cosine.chebyshev_grid n hn
    refine ⟨fun i hi => ?_, fun i j hi hj hij => ?_⟩
    · rw [h i hi, Q_unitT, Cosine.Spec.unitT, c1 i hi, mul_zero]
    · rw [h i hi, h j hj] at hij
      rcases lt_trichotomy i j with hl | hl | hl
      · exact absurd hij (c2 i j hl hj).ne
      · exact hl
      · exact absurd hij (c2 j i hl hi).ne'
  rw [if_neg h2] at h
  have hA := XM_symm n a b ha hb
  have hr : Multiset.map (RCLike.ofReal ∘ hA.eigenvalues) Finset.univ.val = (Multiset.range n).map g := by
    rw [← hA.roots_charpoly_eq_eigenvalues]; exact h.1
  constructor
  · intro i hi
    have : g i ∈ (Multiset.range n).map g := Multiset.mem_map.2 ⟨i, Multiset.mem_range.2 hi, rfl⟩
    rw [← hr] at this
    obtain ⟨k, _, hk⟩ := Multiset.mem_map.1 this
    rw [← hk]
    exact eigen_root n a b _ ha hb _ (eigen_basis_ne n _ hA k) (hA.mulVec_eigenvectorBasis k)
  · have nd : ((Multiset.range n).map g).Nodup := by
      rw [← hr]
      apply Multiset.Nodup.map _ Finset.univ.nodup
      intro x y hxy
      exact eigenvalues_inj n a b ha hb hxy
    intro i j hi hj hij
    exact Multiset.inj_on_of_nodup_map nd i (Multiset.mem_range.2 hi) j (Multiset.mem_range.2 hj) hij

/-- there is a grid -/
theorem guess_exists (n : Nat) (a b : ℝ) (ha : -1 < a) (hb : -1 < b) : ∃ g, GridGuess n a b g := by
  unfold GridGuess
  by_cases h1 : n = 1
  · exact ⟨fun _ => opZ.entry 1 a b 0 0, by rw [if_pos h1]⟩
  by_cases h2 : a = -1 / 2 ∧ b = -1 / 2
  · exact ⟨Cosine.nativeGrid n, by rw [if_neg h1, if_pos h2]; exact fun _ _ => rfl⟩
  have hA := XM_symm n a b ha hb
  have hs := hA.sort_roots_charpoly_eq_eigenvalues₀
  have hr := hA.roots_charpoly_eq_eigenvalues₀
  have ec : Fintype.card (Fin n) = n := Fintype.card_fin n
  refine ⟨fun i => if h : i < n then hA.eigenvalues₀ ⟨n - 1 - i, by rw [ec]; omega⟩ else 0, ?_⟩
  rw [if_neg h1, if_neg h2]
  constructor
  · change (XM n a b).charpoly.roots = _
    rw [hr, Fin.univ_val_map, Multiset.range, Multiset.map_coe]
    apply Multiset.coe_eq_coe.2
    refine (List.reverse_perm _).symm.trans (List.Perm.of_eq ?_)
    apply List.ext_getElem
    · simp
    · intro i hi hi'
      simp only [List.length_map, List.length_range] at hi'
      simp only [List.getElem_reverse, List.getElem_ofFn, List.getElem_map, List.getElem_range, List.length_ofFn, dif_pos hi', ec,
        Function.comp_apply]
      rfl
  · intro i j hij hj
    simp only [dif_pos hj, dif_pos (show i < n by omega)]
    apply hA.eigenvalues₀_antitone
    simp only [Fin.mk_le_mk]
    omega

end Dedalus.Jacobi
