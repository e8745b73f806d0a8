import Verif.Matsolv.Spec
import Mathlib.Tactic.Ring
import Mathlib.Tactic.LinearCombination
import Mathlib.Algebra.BigOperators.Fin

/-!
# Lemmas: band storage and the Woodbury formula
-/

namespace Dedalus.Matsolv

variable {K : Type} [Field K] [StarRing K]

theorem le_maxZero {ds : List ℤ} {d : ℤ} (h : d ∈ ds) : d ≤ maxZero ds := by
  induction ds with
  | nil => simp at h
  | cons a t ih =>
    simp only [maxZero, List.foldr_cons] at ih ⊢
    rcases List.mem_cons.1 h with rfl | h
    · exact le_max_left _ _
    · exact le_trans (ih h) (le_max_right _ _)

theorem maxZero_nonneg (ds : List ℤ) : 0 ≤ maxZero ds := by
  induction ds with
  | nil => simp [maxZero]
  | cons a t ih => exact le_trans ih (le_max_right _ _)

theorem mem_diaOffsets {es : Entries K} {d : ℤ} :
    d ∈ diaOffsets es ↔ ∃ e ∈ es, (e.2.1 : ℤ) - (e.1 : ℤ) = d := by
  simp [diaOffsets]

theorem diaOffsets_nodup (es : Entries K) : (diaOffsets es).Nodup := by
  unfold diaOffsets
  exact ((List.perm_insertionSort _ _).nodup_iff).2 (List.nodup_dedup _)

theorem foldr_max_le {l : List Nat} {n : Nat} (h : ∀ a ∈ l, a ≤ n) : l.foldr max 0 ≤ n := by
  induction l with
  | nil => simp
  | cons a t ih => exact max_le (h a (by simp)) (ih fun b hb => h b (by simp [hb]))

theorem le_foldr_max {l : List Nat} {a : Nat} (h : a ∈ l) : a ≤ l.foldr max 0 := by
  induction l with
  | nil => simp at h
  | cons b t ih =>
    rcases List.mem_cons.1 h with rfl | h
    · exact le_max_left _ _
    · exact le_trans (ih h) (le_max_right _ _)

theorem toMatrix_zero {n : Nat} {es : Entries K} {i j : Fin n}
    (h : ∀ e ∈ es, ¬ (e.1 = i.val ∧ e.2.1 = j.val)) : toMatrix n es i j = 0 := by
  unfold toMatrix
  rw [List.filter_eq_nil_iff.2 (by simpa using h)]
  rfl

/-- A nonsingular matrix stores something in its last column. -/
theorem diaWidth_eq {n : Nat} {es : Entries K} (hn : 0 < n) (hr : InRange n es) (hd : (toMatrix n es).det ≠ 0) :
    diaWidth es = n := by
  apply le_antisymm
  · apply foldr_max_le
    intro a ha
    obtain ⟨e, he, rfl⟩ := List.mem_map.1 ha
    exact (hr e he).2
  · by_contra hlt
    apply hd
    apply Matrix.det_eq_zero_of_column_eq_zero (⟨n - 1, by omega⟩ : Fin n)
    intro i
    apply toMatrix_zero
    rintro e he ⟨-, h2⟩
    have := le_foldr_max (List.mem_map.2 ⟨e, he, rfl⟩ : e.2.1 + 1 ∈ es.map fun e => e.2.1 + 1)
    simp only [diaWidth] at hlt
    simp only at h2
    omega

theorem diaRow_length (es : Entries K) (d : ℤ) : (diaRow es d).length = diaWidth es := by simp [diaRow]

theorem assignRows_spec {n : Nat} {es : Entries K} (hw : diaWidth es = n) (u : ℤ) (ds : List ℤ) (ab : List (List K))
    (hnd : ds.Nodup) (hu : ∀ d ∈ ds, d ≤ u) (hlt : ∀ d ∈ ds, (u - d).toNat < ab.length)
    (hab : ∀ row ∈ ab, row.length = n) :
    ∃ ab', assignRows n es u ds ab = .ok ab' ∧ ab'.length = ab.length ∧ (∀ row ∈ ab', row.length = n) ∧
      (∀ d ∈ ds, ab'[(u - d).toNat]? = some (diaRow es d)) ∧
      (∀ r, (∀ d ∈ ds, (u - d).toNat ≠ r) → ab'[r]? = ab[r]?) := by
  induction ds generalizing ab with
  | nil => exact ⟨ab, rfl, rfl, hab, by simp, fun _ _ => rfl⟩
  | cons d t ih =>
    have hl : (diaRow es d).length = n := by rw [diaRow_length, hw]
    obtain ⟨hd1, hd2⟩ := List.nodup_cons.1 hnd
    obtain ⟨ab', h1, h2, h3, h4, h5⟩ := ih (ab.set (u - d).toNat (diaRow es d)) hd2
      (fun x hx => hu x (by simp [hx])) (fun x hx => by simpa using hlt x (by simp [hx]))
      (fun row hrow => by
        rcases List.mem_or_eq_of_mem_set hrow with h | h
        · exact hab row h
        · rw [h, hl])
    refine ⟨ab', ?_, by simpa using h2, h3, ?_, ?_⟩
    · simp only [assignRows, broadcastRow, hl, if_true]
      exact h1
    · intro x hx
      rcases List.mem_cons.1 hx with rfl | hx
      · rw [h5]
        · rw [List.getElem?_set_self (hlt x (by simp))]
        · intro y hy heq
          have := hu y (by simp [hy])
          have := hu x (by simp)
          have : y = x := by omega
          exact hd1 (this ▸ hy)
      · exact h4 x hx
    · intro r hr
      rw [h5 r (fun x hx => hr x (by simp [hx])), List.getElem?_set_ne (hr d (by simp))]

theorem sparseToBanded_spec {n : Nat} {es : Entries K} (hn : 0 < n) (hr : InRange n es)
    (hd : (toMatrix n es).det ≠ 0) :
    ∃ l u ab, sparseToBanded n es = .ok (l, u, ab) ∧ ab.length = u + l + 1 ∧ (∀ row ∈ ab, row.length = n) ∧
      ∀ i j : Fin n, bandEntry l u ab i.val j.val = toMatrix n es i j := by
  have hw := diaWidth_eq hn hr hd
  have hne : es ≠ [] := by
    rintro rfl
    simp [diaWidth] at hw
    omega
  set offs := diaOffsets es with hoffs
  set u := maxZero offs with hu
  set l := maxZero (offs.map fun d => -d) with hl
  have hu0 : 0 ≤ u := maxZero_nonneg _
  have hl0 : 0 ≤ l := maxZero_nonneg _
  have hdu : ∀ d ∈ offs, d ≤ u := fun d h => le_maxZero h
  have hdl : ∀ d ∈ offs, -d ≤ l := fun d h => le_maxZero (List.mem_map.2 ⟨d, h, rfl⟩)
  obtain ⟨ab, h1, h2, h3, h4, h5⟩ := assignRows_spec (n := n) (es := es) hw u offs
    (List.replicate (u + l + 1).toNat (List.replicate n 0)) (diaOffsets_nodup es) hdu
    (fun d h => by have := hdl d h; have := hdu d h; simp only [List.length_replicate]; omega)
    (fun row hrow => by rw [List.eq_of_mem_replicate hrow]; simp)
  refine ⟨l.toNat, u.toNat, ab, ?_, ?_, h3, ?_⟩
  · unfold sparseToBanded
    rw [if_neg (by simpa using hne)]
    simp only
    rw [← hoffs, ← hu, ← hl, h1]
  · rw [h2]
    simp only [List.length_replicate]
    omega
  · intro i j
    by_cases hmem : ((j.val : ℤ) - i.val) ∈ offs
    · have e1 := hdu _ hmem
      have e2 := hdl _ hmem
      unfold bandEntry
      rw [if_pos ⟨by omega, by omega⟩]
      have hidx : u.toNat + i.val - j.val = (u - ((j.val : ℤ) - i.val)).toNat := by omega
      rw [hidx, h4 _ hmem]
      simp only
      have hj : (diaRow es ((j.val : ℤ) - i.val))[j.val]? = some (toMatrix n es i j) := by
        unfold diaRow
        rw [List.getElem?_map, List.getElem?_range (by rw [hw]; exact j.2)]
        simp only [Option.map_some, toMatrix]
        congr 3
        apply List.filter_congr
        intro e _
        apply decide_eq_decide.2
        constructor
        · rintro ⟨a, b⟩
          exact ⟨by omega, b⟩
        · rintro ⟨a, b⟩
          exact ⟨by omega, b⟩
      rw [hj]
    · rw [toMatrix_zero (fun e he h => hmem (mem_diaOffsets.2 ⟨e, he, by rw [h.1, h.2]⟩))]
      unfold bandEntry
      split_ifs with hb
      · have hne' : ∀ d ∈ offs, (u - d).toNat ≠ u.toNat + i.val - j.val := by
          intro d hd' heq
          have := hdu d hd'
          have : d = (j.val : ℤ) - i.val := by omega
          exact hmem (this ▸ hd')
        rw [h5 _ hne', List.getElem?_replicate]
        rw [if_pos (by omega)]
        simp [List.getElem?_replicate]
      · rfl

theorem solves_matmul {n : Nat} {M W : Matrix (Fin n) (Fin n) K} (h : M * W = 1) (b : Arr n K) :
    Solves M (matmul W b) b := by
  refine ⟨rfl, fun c _ i => ?_⟩
  have : (M.mulVec (W.mulVec fun j => b.val j c)) i = b.val i c := by
    rw [Matrix.mulVec_mulVec, h, Matrix.one_mulVec]
  simpa [Matrix.mulVec, dotProduct, matmul] using this

theorem solves_iff {n : Nat} {M : Matrix (Fin n) (Fin n) K} {x b : Arr n K} :
    Solves M x b ↔ x.cols = b.cols ∧ ∀ c < b.count, M.mulVec (fun j => x.val j c) = fun i => b.val i c := by
  simp only [Solves, funext_iff, Matrix.mulVec, dotProduct]

theorem transpose_conjTranspose_det {n : Nat} {M : Matrix (Fin n) (Fin n) K} (h : M.det ≠ 0) (t : Trans) :
    (t.op M).det ≠ 0 := by
  cases t with
  | N => exact h
  | T => simpa [Trans.op] using h
  | H => simpa [Trans.op, Matrix.det_conjTranspose] using h

end Dedalus.Matsolv
