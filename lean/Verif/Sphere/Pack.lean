import Verif.Sphere.Model
import Mathlib.Data.Set.Function

namespace Dedalus.Sphere

theorem filter_range (w a n : Nat) (h : a + n ≤ w) (p : Nat → Bool) (hp : ∀ j, j < w → (p j = true ↔ a ≤ j ∧ j < a + n)) :
    (List.range w).filter p = List.range' a n := by
  have e : List.range w = List.range' 0 a ++ List.range' a n ++ List.range' (a + n) (w - (a + n)) := by
    rw [List.range_eq_range']
    have h1 : List.range' 0 a ++ List.range' a n = List.range' 0 (a + n) := by
      have := List.range'_append_1 (s := 0) (m := a) (n := n)
      rw [Nat.zero_add] at this
      exact this
    rw [h1]
    have := List.range'_append_1 (s := 0) (m := a + n) (n := w - (a + n))
    rw [Nat.zero_add, show a + n + (w - (a + n)) = w by omega] at this
    exact this.symm
  rw [e, List.filter_append, List.filter_append]
  have f1 : (List.range' 0 a).filter p = [] := by
    rw [List.filter_eq_nil_iff]
    intro j hj
    have := List.mem_range'_1.1 hj
    rw [hp j (by omega)]
    omega
  have f2 : (List.range' a n).filter p = List.range' a n := by
    rw [List.filter_eq_self]
    intro j hj
    have := List.mem_range'_1.1 hj
    rw [hp j (by omega)]
    omega
  have f3 : (List.range' (a + n) (w - (a + n))).filter p = [] := by
    rw [List.filter_eq_nil_iff]
    intro j hj
    have := List.mem_range'_1.1 hj
    rw [hp j (by omega)]
    omega
  rw [f1, f2, f3, List.nil_append, List.append_nil]

/-- the columns of one order -/
theorem columns_up (G : Nat → Nat → Int × Int) (w row a n : Nat) (m : Int) (h : a + n ≤ w) (hz : m = 0 ∨ 0 < a)
    (hp : ∀ j, j < w → ((G row j).1 = m ↔ a ≤ j ∧ j < a + n)) : ellColumns G w row m = List.range' a n := by
  unfold ellColumns
  simp only
  rw [filter_range w a n h _ (fun j hj => by rw [decide_eq_true_iff]; exact hp j hj), if_neg]
  rintro ⟨h1, h2⟩
  rcases hz with rfl | hz
  · exact h2 rfl
  · cases n with
    | zero => simp at h1
    | succ n => rw [List.range'_succ] at h1; simp at h1; omega

theorem columns_down (G : Nat → Nat → Int × Int) (w row n : Nat) (m : Int) (h : n ≤ w) (hz : m ≠ 0)
    (hp : ∀ j, j < w → ((G row j).1 = m ↔ j < n)) : ellColumns G w row m = (List.range n).reverse := by
  unfold ellColumns
  simp only
  rw [filter_range w 0 n (by omega) _ (fun j hj => by rw [decide_eq_true_iff, hp j hj]; omega)]
  cases n with
  | zero => simp
  | succ n => rw [if_pos ⟨by rw [List.range'_succ]; rfl, hz⟩, List.range_eq_range']

theorem map_range' (a n : Nat) (f : Nat → Int × Int) (h : Nat → Int × Int) (hf : ∀ r, r < n → f (a + r) = h r) :
    (List.range' a n).map f = (List.range n).map h := by
  apply List.ext_getElem
  · simp
  · intro i h1 h2
    simp at h1 h2 ⊢
    exact hf i h1

theorem map_reverse (n : Nat) (f : Nat → Int × Int) (h : Nat → Int × Int) (hf : ∀ r, r < n → f (n - 1 - r) = h r) :
    ((List.range n).reverse).map f = (List.range n).map h := by
  apply List.ext_getElem
  · simp
  · intro i h1 h2
    simp at h1 h2 ⊢
    exact hf i h1

/-! ## Complex data -/

theorem complex_zero (M L j : Nat) : groupComplex (2 * M) L 0 j = if L < j then ((M : Int), (j : Int) - max 0 ((L : Int) + 1 - M)) else (0, j) := by
  unfold groupComplex
  simp only [true_and, if_true, show 2 * M / 2 = M by omega]

theorem complex_pos (M L i j : Nat) (hi : 0 < i) (h : max 0 ((L : Int) + 1 - M) + i ≤ j) :
    groupComplex (2 * M) L i j = ((i : Int), (j : Int) - max 0 ((L : Int) + 1 - M)) := by
  unfold groupComplex
  simp only [show 2 * M / 2 = M by omega]
  rw [if_neg (by omega), if_neg (by omega), if_neg (by omega)]

theorem complex_neg (M L i j : Nat) (hi : 0 < i) (h : (j : Int) < max 0 ((L : Int) + 1 - M) + i) :
    groupComplex (2 * M) L i j = ((i : Int) - M, (L : Int) - j) := by
  unfold groupComplex
  simp only [show 2 * M / 2 = M by omega, show (2 * M + 1) / 2 = M by omega]
  rw [if_neg (by omega), if_neg (by omega), if_pos (by omega)]

/-! ## Real data -/

theorem real_zero (M L i j : Nat) (hi : i < 2) : groupReal (2 * M) L i j = if L < j then ((M : Int) - 1, (j : Int) - max 0 ((L : Int) + 2 - M)) else (0, j) := by
  unfold groupReal
  simp only [hi, true_and, if_true, show 2 * M / 2 = M by omega]

theorem real_pos (M L i j : Nat) (hi : 2 ≤ i) (h : max 0 ((L : Int) + 2 - M) + (i / 2 : Nat) ≤ j) :
    groupReal (2 * M) L i j = (((i / 2 : Nat) : Int), (j : Int) - max 0 ((L : Int) + 2 - M)) := by
  unfold groupReal
  simp only [show 2 * M / 2 = M by omega]
  rw [if_neg (by omega), if_neg (by omega), if_neg (by omega)]

theorem real_neg (M L i j : Nat) (hi : 2 ≤ i) (h : (j : Int) < max 0 ((L : Int) + 2 - M) + (i / 2 : Nat)) :
    groupReal (2 * M) L i j = ((M : Int) - 1 - (i / 2 : Nat), (L : Int) - j) := by
  unfold groupReal
  simp only [show 2 * M / 2 = M by omega]
  rw [if_neg (by omega), if_neg (by omega), if_pos (by omega)]

end Dedalus.Sphere
