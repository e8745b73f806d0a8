import Mathlib.Algebra.BigOperators.Intervals
import Mathlib.Algebra.BigOperators.Ring.Finset
import Mathlib.Algebra.BigOperators.Group.Finset.Sigma
import Mathlib.Algebra.BigOperators.Group.Finset.Piecewise
import Mathlib.Tactic.Ring
import Mathlib.Tactic.FieldSimp
import Verif.Csr.Spec

namespace Dedalus.Csr

variable {K : Type} [Field K]

/-- A product with the represented matrix is a sum over the stored entries. -/
theorem entry_sum {A : Csr K} {n m i : Nat} (hv : Valid A n m) (hi : i < n) (x : Nat → K) :
    ∑ j ∈ Finset.range m, entry A i j * x j =
      ∑ p ∈ Finset.Ico (A.Ap i) (A.Ap (i + 1)), A.Ax p * x (A.Aj p) := by
  unfold entry
  simp only [Finset.sum_mul]
  rw [Finset.sum_comm]
  refine Finset.sum_congr rfl fun p hp => ?_
  rw [Finset.mem_Ico] at hp
  have hc := hv.col i hi p hp.1 hp.2
  rw [Finset.sum_eq_single (A.Aj p)]
  · rw [if_pos rfl]
  · intro b _ hb
    rw [if_neg (fun h => hb h.symm), zero_mul]
  · intro h
    exact absurd (Finset.mem_range.mpr hc) h

theorem foldl_sub {f : Nat → K} : ∀ (l : List Nat) (s : K),
    l.foldl (fun s p => s - f p) s = s - (l.map f).sum
  | [], s => by simp
  | p :: ps, s => by
    rw [List.foldl_cons, foldl_sub ps, List.map_cons, List.sum_cons]; ring

theorem foldl_add {f : Nat → K} : ∀ (l : List Nat) (s : K),
    l.foldl (fun s p => s + f p) s = s + (l.map f).sum
  | [], s => by simp
  | p :: ps, s => by
    rw [List.foldl_cons, foldl_add ps, List.map_cons, List.sum_cons]; ring

theorem range'_sum (f : Nat → K) : ∀ (n a : Nat), ((List.range' a n).map f).sum = ∑ p ∈ Finset.Ico a (a + n), f p
  | 0, a => by simp
  | n + 1, a => by
    rw [List.range'_succ, List.map_cons, List.sum_cons, range'_sum f n (a + 1),
      Finset.sum_eq_sum_Ico_succ_bot (by omega : a < a + (n + 1))]
    congr 2
    congr 1
    omega

theorem row_sum (A : Csr K) {n m i : Nat} (hv : Valid A n m) (hi : i < n) (f : Nat → K) :
    ((row A i).map f).sum = ∑ p ∈ Finset.Ico (A.Ap i) (A.Ap (i + 1)), f p := by
  have := hv.ptr i hi
  rw [row, range'_sum]
  congr 2
  omega

/-- Facts about the rows of a canonical upper triangular matrix. -/
theorem diag_first {A : Csr K} {n : Nat} (hc : Canonical A n) (hu : Upper A n) {i : Nat} (hi : i < n) :
    A.Ap i < A.Ap (i + 1) ∧ A.Aj (A.Ap i) = i ∧ A.Ax (A.Ap i) ≠ 0 ∧
      ∀ p, A.Ap i < p → p < A.Ap (i + 1) → i < A.Aj p := by
  have hd := hu.diag i hi
  have : ∃ p ∈ Finset.Ico (A.Ap i) (A.Ap (i + 1)), (if A.Aj p = i then A.Ax p else 0) ≠ 0 :=
    Finset.exists_ne_zero_of_sum_ne_zero hd
  obtain ⟨p, hp, hne⟩ := this
  rw [Finset.mem_Ico] at hp
  have hpi : A.Aj p = i := by
    by_contra h
    rw [if_neg h] at hne
    exact hne rfl
  have hpe : p = A.Ap i := by
    by_contra h
    have h1 := hc i hi (A.Ap i) p (le_refl _) (by omega) hp.2
    have h2 := hu.upper i hi (A.Ap i) (le_refl _) (by omega)
    omega
  subst hpe
  rw [if_pos hpi] at hne
  refine ⟨hp.2, hpi, hne, fun q hq hq' => ?_⟩
  have := hc i hi (A.Ap i) q (le_refl _) hq hq'
  omega

theorem offdiag_sum (A : Csr K) (f : Nat → K) {i : Nat} (h : A.Ap i < A.Ap (i + 1)) :
    ((offdiag A i).map f).sum = ∑ p ∈ Finset.Ico (A.Ap i + 1) (A.Ap (i + 1)), f p := by
  rw [offdiag, List.map_reverse, List.sum_reverse, range'_sum]
  congr 2
  omega

theorem mem_offdiag (A : Csr K) {i p : Nat} : p ∈ offdiag A i ↔ A.Ap i < p ∧ p < A.Ap (i + 1) := by
  rw [offdiag, List.mem_reverse, List.mem_range'_1]
  omega

/-- Rows from `i` on are left alone by the remaining iterations. -/
theorem solveVec_ge (A : Csr K) : ∀ (i : Nat) (x : Nat → K) (p : Nat), i ≤ p → solveVec A i x p = x p
  | 0, _, _, _ => rfl
  | i + 1, x, p, h => by
    rw [solveVec, solveVec_ge A i _ p (by omega), set1, if_neg (by omega)]

/-- The back substitution, for the rows not yet treated. -/
theorem solveVec_spec {A : Csr K} {n : Nat} (hv : Valid A n n) (hc : Canonical A n) (hu : Upper A n) :
    ∀ (r : Nat), r ≤ n → ∀ (x : Nat → K) (i : Nat), i < r →
      ∑ p ∈ Finset.Ico (A.Ap i) (A.Ap (i + 1)), A.Ax p * solveVec A r x (A.Aj p) = x i
  | 0, _, _, i, h => absurd h (by omega)
  | r + 1, hr, x, i, h => by
    obtain ⟨h1, h2, h3, h4⟩ := diag_first hc hu (show r < n by omega)
    rw [solveVec]
    by_cases hi : i < r
    · rw [solveVec_spec hv hc hu r (by omega) _ i hi, set1, if_neg (by omega)]
    · have e : i = r := by omega
      subst e
      rw [Finset.sum_eq_sum_Ico_succ_bot h1, h2, solveVec_ge A i _ i (le_refl _), set1, if_pos rfl]
      have hs : ∑ p ∈ Finset.Ico (A.Ap i + 1) (A.Ap (i + 1)), A.Ax p * solveVec A i
          (set1 x i ((offdiag A i).foldl (fun s jj => s - A.Ax jj * x (A.Aj jj)) (x i) / A.Ax (A.Ap i))) (A.Aj p) =
          ∑ p ∈ Finset.Ico (A.Ap i + 1) (A.Ap (i + 1)), A.Ax p * x (A.Aj p) := by
        refine Finset.sum_congr rfl fun p hp => ?_
        rw [Finset.mem_Ico] at hp
        have := h4 p (by omega) hp.2
        rw [solveVec_ge A i _ _ (by omega), set1, if_neg (by omega)]
      have hs' := hs
      rw [foldl_sub] at hs' ⊢
      rw [hs', offdiag_sum A _ h1, mul_div_cancel₀ _ h3]
      ring

/-- Outside the rows of the matrix nothing changes. -/
theorem solveVec_other (A : Csr K) (n : Nat) (x : Nat → K) (p : Nat) (h : n ≤ p) : solveVec A n x p = x p :=
  solveVec_ge A n x p h

theorem subRow_spec (a : K) {i j : Nat} (hij : i ≠ j) : ∀ (ks : List Nat) (hk : ks.Nodup) (x : Nat → Nat → K) (p q : Nat),
    subRow a i j ks x p q = if p = i ∧ q ∈ ks then x p q - a * x j q else x p q
  | [], _, x, p, q => by simp [subRow]
  | k :: ks, hk, x, p, q => by
    rw [List.nodup_cons] at hk
    rw [subRow, subRow_spec a hij ks hk.2]
    by_cases h : p = i ∧ q ∈ ks
    · have hq : q ≠ k := fun e => hk.1 (e ▸ h.2)
      rw [if_pos h, if_pos ⟨h.1, List.mem_cons_of_mem _ h.2⟩]
      simp only [set2]
      rw [if_neg (fun e => hq e.2), if_neg (fun e => hq e.2)]
    · rw [if_neg h]
      by_cases h' : p = i ∧ q = k
      · rw [if_pos ⟨h'.1, by rw [h'.2]; exact List.mem_cons_self⟩, set2, if_pos h', h'.1, h'.2]
      · rw [set2, if_neg h', if_neg]
        rintro ⟨e, hm⟩
        rcases List.mem_cons.mp hm with hm | hm
        · exact h' ⟨e, hm⟩
        · exact h ⟨e, hm⟩

theorem divRow_spec (a : K) {i : Nat} : ∀ (ks : List Nat) (hk : ks.Nodup) (x : Nat → Nat → K) (p q : Nat),
    divRow a i ks x p q = if p = i ∧ q ∈ ks then x p q / a else x p q
  | [], _, x, p, q => by simp [divRow]
  | k :: ks, hk, x, p, q => by
    rw [List.nodup_cons] at hk
    rw [divRow, divRow_spec a ks hk.2]
    by_cases h : p = i ∧ q ∈ ks
    · have hq : q ≠ k := fun e => hk.1 (e ▸ h.2)
      rw [if_pos h, if_pos ⟨h.1, List.mem_cons_of_mem _ h.2⟩]
      simp only [set2]
      rw [if_neg (fun e => hq e.2)]
    · rw [if_neg h]
      by_cases h' : p = i ∧ q = k
      · rw [if_pos ⟨h'.1, by rw [h'.2]; exact List.mem_cons_self⟩, set2, if_pos h', h'.1, h'.2]
      · rw [set2, if_neg h', if_neg]
        rintro ⟨e, hm⟩
        rcases List.mem_cons.mp hm with hm | hm
        · exact h' ⟨e, hm⟩
        · exact h ⟨e, hm⟩

/-- The elimination of the off-diagonal entries, column by column. -/
theorem elim_spec (A : Csr K) (m i : Nat) : ∀ (l : List Nat) (x : Nat → Nat → K) (_ : ∀ jj ∈ l, A.Aj jj ≠ i) (p q : Nat),
    l.foldl (fun y jj => subRow (A.Ax jj) i (A.Aj jj) (List.range m) y) x p q =
      if p = i ∧ q < m then l.foldl (fun s jj => s - A.Ax jj * x (A.Aj jj) q) (x p q) else x p q
  | [], x, _, p, q => by simp
  | jj :: l, x, h, p, q => by
    have hne := h jj List.mem_cons_self
    rw [List.foldl_cons, elim_spec A m i l _ (fun k hk => h k (List.mem_cons_of_mem _ hk))]
    by_cases hp : p = i ∧ q < m
    · rw [if_pos hp, if_pos hp, List.foldl_cons]
      have e : ∀ (l : List Nat) (s : K), (∀ k ∈ l, A.Aj k ≠ i) → l.foldl (fun s k => s - A.Ax k *
          subRow (A.Ax jj) i (A.Aj jj) (List.range m) x (A.Aj k) q) s =
          l.foldl (fun s k => s - A.Ax k * x (A.Aj k) q) s := by
        intro l
        induction l with
        | nil => intro s _; rfl
        | cons k ks ih =>
          intro s hk
          rw [List.foldl_cons, List.foldl_cons, ih _ (fun k' hk' => hk k' (List.mem_cons_of_mem _ hk')),
            subRow_spec _ (Ne.symm hne) _ List.nodup_range, if_neg (fun e => hk k List.mem_cons_self e.1)]
      rw [e l _ (fun k hk => h k (List.mem_cons_of_mem _ hk)), subRow_spec _ (Ne.symm hne) _ List.nodup_range,
        if_pos ⟨hp.1, List.mem_range.mpr hp.2⟩]
    · rw [if_neg hp, if_neg hp, subRow_spec _ (Ne.symm hne) _ List.nodup_range, if_neg]
      rw [List.mem_range]
      exact hp

/-- The solve along the first axis is the vector solve of every column. -/
theorem solveFirst_spec {A : Csr K} {n : Nat} (hc : Canonical A n) (hu : Upper A n) (m : Nat) :
    ∀ (r : Nat), r ≤ n → ∀ (x : Nat → Nat → K) (p q : Nat),
      solveFirst A m r x p q = if q < m then solveVec A r (fun i => x i q) p else x p q
  | 0, _, x, p, q => by simp [solveFirst, solveVec]
  | r + 1, hr, x, p, q => by
    obtain ⟨h1, h2, h3, h4⟩ := diag_first hc hu (show r < n by omega)
    have ho : ∀ jj ∈ offdiag A r, A.Aj jj ≠ r := fun jj hjj => by
      rw [mem_offdiag] at hjj
      have := h4 jj hjj.1 hjj.2
      omega
    rw [solveFirst, solveFirst_spec hc hu m r (by omega), solveVec]
    by_cases hq : q < m
    · rw [if_pos hq, if_pos hq]
      congr 1
      funext i
      rw [divRow_spec _ _ List.nodup_range, elim_spec A m r _ _ ho, set1]
      by_cases hi : i = r
      · subst hi
        rw [if_pos ⟨rfl, List.mem_range.mpr hq⟩, if_pos ⟨rfl, hq⟩, if_pos rfl]
      · rw [if_neg (fun e => hi e.1), if_neg (fun e => hi e.1), if_neg hi]
    · rw [if_neg hq, if_neg hq, divRow_spec _ _ List.nodup_range, elim_spec A m r _ _ ho,
        if_neg (fun e => hq (List.mem_range.mp e.2)), if_neg (fun e => hq e.2)]

theorem solveLast_spec (A : Csr K) (n : Nat) : ∀ (order : List Nat), order.Nodup → ∀ (x : Nat → Nat → K) (h : Nat),
    solveLast A n order x h = if h ∈ order then solveVec A n (x h) else x h
  | [], _, x, h => by simp [solveLast]
  | o :: os, hn, x, h => by
    rw [List.nodup_cons] at hn
    rw [solveLast, solveLast_spec A n os hn.2]
    by_cases hh : h ∈ os
    · have : h ≠ o := fun e => hn.1 (e ▸ hh)
      rw [if_pos hh, if_pos (List.mem_cons_of_mem _ hh), setSlice, if_neg this]
    · rw [if_neg hh]
      by_cases e : h = o
      · subst e
        rw [if_pos List.mem_cons_self, setSlice, if_pos rfl]
      · rw [setSlice, if_neg e, if_neg (by simp [hh, e])]

theorem solveMid_spec (A : Csr K) (n m : Nat) : ∀ (order : List Nat), order.Nodup →
    ∀ (x : Nat → Nat → Nat → K) (h : Nat),
      solveMid A n m order x h = if h ∈ order then solveFirst A m n (x h) else x h
  | [], _, x, h => by simp [solveMid]
  | o :: os, hn, x, h => by
    rw [List.nodup_cons] at hn
    rw [solveMid, solveMid_spec A n m os hn.2]
    by_cases hh : h ∈ os
    · have : h ≠ o := fun e => hn.1 (e ▸ hh)
      rw [if_pos hh, if_pos (List.mem_cons_of_mem _ hh), setSlice, if_neg this]
    · rw [if_neg hh]
      by_cases e : h = o
      · subst e
        rw [if_pos List.mem_cons_self, setSlice, if_pos rfl]
      · rw [setSlice, if_neg e, if_neg (by simp [hh, e])]

/-- All four routines solve along every line of the array. -/
theorem solveUpper_lines {A : Csr K} {N1 N2 N3 : Nat} {order : List Nat} (hc : Canonical A N2)
    (hu : Upper A N2) (ho : Schedule order N1) (x : Nat → Nat → Nat → K) {h i k : Nat} (hh : h < N1) (hk : k < N3) :
    solveUpper A N1 N2 N3 order x h i k = solveVec A N2 (fun i => x h i k) i := by
  have hm : h ∈ order := (ho.mem_iff).mpr (List.mem_range.mpr hh)
  have hn : order.Nodup := (ho.nodup_iff).mpr List.nodup_range
  unfold solveUpper
  split
  · have e : h = 0 := by omega
    subst e
    split
    · have e : k = 0 := by omega
      subst e
      simp only [and_self, if_true]
    · simp only [if_true]
      rw [solveFirst_spec hc hu N3 N2 (le_refl _), if_pos hk]
  · split
    · have e : k = 0 := by omega
      subst e
      simp only [if_true]
      rw [solveLast_spec A N2 order hn, if_pos hm]
    · rw [solveMid_spec A N2 N3 order hn, if_pos hm, solveFirst_spec hc hu N3 N2 (le_refl _), if_pos hk]

/-! Products -/

theorem applyVec_spec (A : Csr K) (x : Nat → K) : ∀ (order : List Nat) (y : Nat → K) (i : Nat),
    applyVec A x order y i = if i ∈ order then ((row A i).map fun p => A.Ax p * x (A.Aj p)).sum else y i
  | [], y, i => by simp [applyVec]
  | o :: os, y, i => by
    rw [applyVec, applyVec_spec A x os]
    by_cases h : i ∈ os
    · rw [if_pos h, if_pos (List.mem_cons_of_mem _ h)]
    · rw [if_neg h, set1]
      by_cases e : i = o
      · subst e
        rw [if_pos rfl, if_pos List.mem_cons_self, foldl_add, zero_add]
      · rw [if_neg e, if_neg (by simp [h, e])]

theorem zeroRow_spec {i : Nat} : ∀ (ks : List Nat) (y : Nat → Nat → K) (p q : Nat),
    zeroRow i ks y p q = if p = i ∧ q ∈ ks then 0 else y p q
  | [], y, p, q => by simp [zeroRow]
  | k :: ks, y, p, q => by
    rw [zeroRow, zeroRow_spec ks]
    by_cases h : p = i ∧ q ∈ ks
    · rw [if_pos h, if_pos ⟨h.1, List.mem_cons_of_mem _ h.2⟩]
    · rw [if_neg h, set2]
      by_cases h' : p = i ∧ q = k
      · rw [if_pos h', if_pos ⟨h'.1, by rw [h'.2]; exact List.mem_cons_self⟩]
      · rw [if_neg h', if_neg]
        rintro ⟨e, hm⟩
        rcases List.mem_cons.mp hm with hm | hm
        · exact h' ⟨e, hm⟩
        · exact h ⟨e, hm⟩

theorem addRow_spec (a : K) {i : Nat} (xj : Nat → K) : ∀ (ks : List Nat) (_ : ks.Nodup) (y : Nat → Nat → K) (p q : Nat),
    addRow a i xj ks y p q = if p = i ∧ q ∈ ks then y p q + a * xj q else y p q
  | [], _, y, p, q => by simp [addRow]
  | k :: ks, hk, y, p, q => by
    rw [List.nodup_cons] at hk
    rw [addRow, addRow_spec a xj ks hk.2]
    by_cases h : p = i ∧ q ∈ ks
    · have hq : q ≠ k := fun e => hk.1 (e ▸ h.2)
      rw [if_pos h, if_pos ⟨h.1, List.mem_cons_of_mem _ h.2⟩]
      simp only [set2]
      rw [if_neg (fun e => hq e.2)]
    · rw [if_neg h]
      by_cases h' : p = i ∧ q = k
      · rw [if_pos ⟨h'.1, by rw [h'.2]; exact List.mem_cons_self⟩, set2, if_pos h', h'.1, h'.2]
      · rw [set2, if_neg h', if_neg]
        rintro ⟨e, hm⟩
        rcases List.mem_cons.mp hm with hm | hm
        · exact h' ⟨e, hm⟩
        · exact h ⟨e, hm⟩

theorem firstRow_fold (A : Csr K) (m i : Nat) (x : Nat → Nat → K) : ∀ (l : List Nat) (y : Nat → Nat → K) (p q : Nat),
    l.foldl (fun y jj => addRow (A.Ax jj) i (x (A.Aj jj)) (List.range m) y) y p q =
      if p = i ∧ q < m then y p q + (l.map fun jj => A.Ax jj * x (A.Aj jj) q).sum else y p q
  | [], y, p, q => by simp
  | jj :: l, y, p, q => by
    rw [List.foldl_cons, firstRow_fold A m i x l, addRow_spec _ _ _ List.nodup_range]
    by_cases h : p = i ∧ q < m
    · rw [if_pos h, if_pos ⟨h.1, List.mem_range.mpr h.2⟩, if_pos h, List.map_cons, List.sum_cons]; ring
    · rw [if_neg h, if_neg (fun e => h ⟨e.1, List.mem_range.mp e.2⟩), if_neg h]

theorem firstRow_spec (A : Csr K) (m i : Nat) (x y : Nat → Nat → K) (p q : Nat) :
    firstRow A m x i y p q = if p = i ∧ q < m then ((row A i).map fun jj => A.Ax jj * x (A.Aj jj) q).sum
      else y p q := by
  rw [firstRow, firstRow_fold, zeroRow_spec]
  by_cases h : p = i ∧ q < m
  · rw [if_pos h, if_pos ⟨h.1, List.mem_range.mpr h.2⟩, if_pos h, zero_add]
  · rw [if_neg h, if_neg (fun e => h ⟨e.1, List.mem_range.mp e.2⟩), if_neg h]

theorem applyFirst_spec (A : Csr K) (m : Nat) (x : Nat → Nat → K) : ∀ (order : List Nat) (y : Nat → Nat → K) (i k : Nat),
    applyFirst A m x order y i k = if i ∈ order ∧ k < m then
      ((row A i).map fun p => A.Ax p * x (A.Aj p) k).sum else y i k
  | [], y, i, k => by simp [applyFirst]
  | o :: os, y, i, k => by
    rw [applyFirst, applyFirst_spec A m x os]
    by_cases h : i ∈ os ∧ k < m
    · rw [if_pos h, if_pos ⟨List.mem_cons_of_mem _ h.1, h.2⟩]
    · rw [if_neg h, firstRow_spec]
      by_cases e : i = o ∧ k < m
      · rw [if_pos e, if_pos ⟨by rw [e.1]; exact List.mem_cons_self, e.2⟩, e.1]
      · rw [if_neg e, if_neg]
        rintro ⟨hm, hk⟩
        rcases List.mem_cons.mp hm with hm | hm
        · exact e ⟨hm, hk⟩
        · exact h ⟨hm, hk⟩

theorem applyLast_spec (A : Csr K) (n : Nat) (x : Nat → Nat → K) : ∀ (order : List Nat)
    (y : Nat → Nat → K) (h i : Nat),
    applyLast A n x order y h i = if ∃ hi ∈ order, hi / n = h ∧ hi % n = i then
      ((row A i).map fun p => A.Ax p * x h (A.Aj p)).sum else y h i
  | [], y, h, i => by simp [applyLast]
  | o :: os, y, h, i => by
    rw [applyLast, applyLast_spec A n x os]
    by_cases hh : ∃ hi ∈ os, hi / n = h ∧ hi % n = i
    · rw [if_pos hh, if_pos (by obtain ⟨a, ha, hb⟩ := hh; exact ⟨a, List.mem_cons_of_mem _ ha, hb⟩)]
    · rw [if_neg hh, set2]
      by_cases e : h = o / n ∧ i = o % n
      · rw [if_pos e, if_pos ⟨o, List.mem_cons_self, e.1.symm, e.2.symm⟩, foldl_add, zero_add, e.1, e.2]
      · rw [if_neg e, if_neg]
        rintro ⟨a, ha, hb, hc⟩
        rcases List.mem_cons.mp ha with ha | ha
        · subst ha; exact e ⟨hb.symm, hc.symm⟩
        · exact hh ⟨a, ha, hb, hc⟩

theorem applyMid_spec (A : Csr K) (n m : Nat) (x : Nat → Nat → Nat → K) : ∀ (order : List Nat)
    (y : Nat → Nat → Nat → K) (h i k : Nat),
    applyMid A n m x order y h i k = if (∃ hi ∈ order, hi / n = h ∧ hi % n = i) ∧ k < m then
      ((row A i).map fun p => A.Ax p * x h (A.Aj p) k).sum else y h i k
  | [], y, h, i, k => by simp [applyMid]
  | o :: os, y, h, i, k => by
    rw [applyMid, applyMid_spec A n m x os]
    by_cases hh : (∃ hi ∈ os, hi / n = h ∧ hi % n = i) ∧ k < m
    · rw [if_pos hh, if_pos (by obtain ⟨⟨a, ha, hb⟩, hk⟩ := hh; exact ⟨⟨a, List.mem_cons_of_mem _ ha, hb⟩, hk⟩)]
    · rw [if_neg hh, setSlice]
      by_cases e : (h = o / n ∧ i = o % n) ∧ k < m
      · rw [if_pos e.1.1, if_pos ⟨⟨o, List.mem_cons_self, e.1.1.symm, e.1.2.symm⟩, e.2⟩, firstRow_spec,
          if_pos ⟨e.1.2, e.2⟩, e.1.1, e.1.2]
      · rw [if_neg (show ¬ ((∃ hi ∈ o :: os, hi / n = h ∧ hi % n = i) ∧ k < m) from ?_)]
        · by_cases eh : h = o / n
          · rw [if_pos eh, firstRow_spec, if_neg (fun e' => e ⟨⟨eh, e'.1⟩, e'.2⟩), eh]
          · rw [if_neg eh]
        · rintro ⟨⟨a, ha, hb, hc⟩, hk⟩
          rcases List.mem_cons.mp ha with ha | ha
          · subst ha; exact e ⟨⟨hb.symm, hc.symm⟩, hk⟩
          · exact hh ⟨⟨a, ha, hb, hc⟩, hk⟩

end Dedalus.Csr
