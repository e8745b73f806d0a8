import Mathlib.Algebra.BigOperators.Ring.Finset
import Mathlib.Algebra.BigOperators.Group.Finset.Sigma
import Mathlib.LinearAlgebra.CrossProduct
import Mathlib.Tactic.Ring
import Verif.Tensor.Model

/-!
# C44: vector products
-/

namespace Dedalus.Tensor

variable {K : Type} [Field K]

/-- `c` is a component index of a tensor with dimensions `dims`. -/
def IsIndex (dims c : List Nat) : Prop := List.Forall₂ (fun x d => x < d) c dims

/-- Position of an index in row-major order. -/
def ravel : List Nat → List Nat → Nat
  | [], _ => 0
  | _ :: _, [] => 0
  | _ :: ds, x :: xs => x * ds.prod + ravel ds xs

/-! ### Lemmas -/

theorem ravel_lt {dims c : List Nat} (h : IsIndex dims c) : ravel dims c < dims.prod := by
  induction h with
  | nil => simp [ravel]
  | cons h _ ih =>
    rename_i x d xs ds _
    simp only [ravel, List.prod_cons]
    calc x * ds.prod + ravel ds xs < x * ds.prod + ds.prod := by omega
      _ = (x + 1) * ds.prod := by ring
      _ ≤ d * ds.prod := Nat.mul_le_mul_right _ h

theorem unravel_ravel {dims c : List Nat} (h : IsIndex dims c) : unravel dims (ravel dims c) = c := by
  induction h with
  | nil => rfl
  | cons h h' ih =>
    rename_i x d xs ds
    have hl := ravel_lt h'
    simp only [ravel, unravel]
    rw [Nat.mul_comm, Nat.mul_add_div (by omega), Nat.div_eq_of_lt hl, Nat.mul_add_mod, Nat.mod_eq_of_lt hl, ih]
    simp

theorem unravel_index {dims : List Nat} {k : Nat} (h : k < dims.prod) :
    IsIndex dims (unravel dims k) ∧ ravel dims (unravel dims k) = k := by
  induction dims generalizing k with
  | nil => simp only [List.prod_nil] at h; exact ⟨List.Forall₂.nil, by simp [ravel]; omega⟩
  | cons d ds ih =>
    simp only [List.prod_cons] at h
    have hp : 0 < ds.prod := by
      rcases Nat.eq_zero_or_pos ds.prod with h0 | h0
      · rw [h0] at h; omega
      · exact h0
    obtain ⟨h1, h2⟩ := ih (Nat.mod_lt k hp)
    refine ⟨List.Forall₂.cons ?_ h1, ?_⟩
    · rw [Nat.div_lt_iff_lt_mul hp]; exact h
    · simp only [unravel, ravel, h2]
      rw [Nat.mul_comm]; exact Nat.div_add_mod k ds.prod

theorem unravel_eq_iff {dims c : List Nat} {k : Nat} (hc : IsIndex dims c) (hk : k < dims.prod) :
    unravel dims k = c ↔ k = ravel dims c := by
  constructor
  · rintro rfl; exact (unravel_index hk).2.symm
  · rintro rfl; exact unravel_ravel hc

theorem isIndex_append {d0 d1 a b : List Nat} (ha : IsIndex d0 a) (hb : IsIndex d1 b) : IsIndex (d0 ++ d1) (a ++ b) :=
  List.rel_append ha hb

/-- Sum over a double range that selects one pair. -/
theorem sum_select {n m p q : Nat} (hp : p < n) (hq : q < m) (f : Nat → Nat → K) :
    ∑ a ∈ Finset.range n, ∑ b ∈ Finset.range m, (if a = p ∧ b = q then f a b else 0) = f p q := by
  rw [Finset.sum_eq_single p, Finset.sum_eq_single q]
  · simp
  · intro b _ hb; simp [hb]
  · intro h; simp [hq] at h
  · intro a _ ha; simp [ha]
  · intro h; simp [hp] at h

/-! ### Outer product -/

/-- C44. Component (a, b) of a product is component a of the first factor times component b of the second. -/
theorem multiply_components (A B : List Nat → K) (a b : List Nat) :
    multiplyGrid a.length A B (a ++ b) = A a * B b := by
  simp [multiplyGrid]

/-- C44. The coupling array used in matrices gives the same product. -/
theorem multiply_coupling (d0 d1 : List Nat) (A B : List Nat → K) (a b : List Nat) (ha : IsIndex d0 a) (hb : IsIndex d1 b) :
    ∑ ia ∈ Finset.range d0.prod, ∑ ib ∈ Finset.range d1.prod,
      multiplyGamma d0 d1 (d0 ++ d1) ia ib (ravel (d0 ++ d1) (a ++ b)) * A (unravel d0 ia) * B (unravel d1 ib) =
    multiplyGrid d0.length A B (a ++ b) := by
  have hl : d0.length = a.length := ha.length_eq.symm
  rw [hl, multiply_components]
  have hc := isIndex_append ha hb
  have : ∀ ia ∈ Finset.range d0.prod, ∀ ib ∈ Finset.range d1.prod,
      multiplyGamma d0 d1 (d0 ++ d1) ia ib (ravel (d0 ++ d1) (a ++ b)) * A (unravel d0 ia) * B (unravel d1 ib) =
      (if ia = ravel d0 a ∧ ib = ravel d1 b then A (unravel d0 ia) * B (unravel d1 ib) else 0 : K) := by
    intro ia hia ib hib
    have hia := Finset.mem_range.1 hia
    have hib := Finset.mem_range.1 hib
    have h0 := (unravel_index hia).1
    unfold multiplyGamma
    rw [unravel_ravel hc]
    have : unravel d0 ia ++ unravel d1 ib = a ++ b ↔ ia = ravel d0 a ∧ ib = ravel d1 b := by
      rw [← unravel_eq_iff ha hia, ← unravel_eq_iff hb hib]
      constructor
      · intro h; exact List.append_inj h (h0.length_eq.trans hl)
      · rintro ⟨h1, h2⟩; rw [h1, h2]
    by_cases hh : ia = ravel d0 a ∧ ib = ravel d1 b
    · rw [if_pos (this.2 hh), if_pos hh]; ring
    · rw [if_neg (fun h => hh (this.1 h)), if_neg hh]; ring
  rw [Finset.sum_congr rfl fun ia hia => Finset.sum_congr rfl fun ib hib => this ia hia ib hib,
    sum_select (ravel_lt ha) (ravel_lt hb), unravel_ravel ha, unravel_ravel hb]

example : IsIndex [2, 3] [1, 2] ∧ IsIndex [3] [0] := by simp [IsIndex]

/-! ### Dot product -/

theorem set_none_eq {l : List Nat} {i : Nat} (h : i < l.length) :
    (l.map some).set i none = ((l.eraseIdx i).map some).insertIdx i none := by
  induction l generalizing i with
  | nil => simp at h
  | cons x xs ih =>
    cases i with
    | zero => simp
    | succ i =>
      simp only [List.map_cons, List.set_cons_succ, List.eraseIdx_cons_succ, List.insertIdx_succ_cons]
      rw [ih (by simpa using h)]

theorem filterMap_insert_none {l : List Nat} {i : Nat} (h : i ≤ l.length) :
    ((l.map some).insertIdx i none).filterMap id = l := by
  induction l generalizing i with
  | nil =>
    have : i = 0 := by simpa using h
    subst this; simp
  | cons x xs ih =>
    cases i with
    | zero => simp [List.filterMap_map, Function.comp_def]
    | succ i =>
      simp only [List.map_cons, List.insertIdx_succ_cons]
      rw [List.filterMap_cons_some (by rfl : id (some x) = some x), ih (by simpa using h)]

theorem map_insertIdx' {α β : Type} (f : α → β) (l : List α) (i : Nat) (a : α) :
    (l.insertIdx i a).map f = (l.map f).insertIdx i (f a) := by
  induction l generalizing i with
  | nil => cases i <;> simp
  | cons x xs ih =>
    cases i with
    | zero => simp
    | succ i => simp [ih]

theorem map_lookup {X c : List Nat} (hX : X.Nodup) (hl : X.length = c.length) :
    X.map (fun l => c.getD (X.idxOf l) 0) = c := by
  apply List.ext_getElem
  · simpa using hl
  · intro n h1 h2
    simp only [List.getElem_map]
    rw [List.Nodup.idxOf_getElem hX]
    simp [h2]

/-- C44. The contraction carried out on the grid, component by component: the contracted indices of the two
factors run together, the remaining indices of the first factor come first. -/
theorem dot_components (rank0 rank1 i j d : Nat) (hi : i < rank0) (hj : j < rank1) (A B : List Nat → K)
    (a b : List Nat) (ha : a.length + 1 = rank0) (hb : b.length + 1 = rank1) :
    dotGrid rank0 rank1 i j d A B (a ++ b) = ∑ z ∈ Finset.range d, A (a.insertIdx i z) * B (b.insertIdx j z) := by
  let X := (List.range rank0).eraseIdx i
  let Y := ((List.range rank1).map (fun k => rank0 + k)).eraseIdx j
  have hX : X.length = a.length := by simp [X, List.length_eraseIdx, hi]; omega
  have hY : Y.length = b.length := by simp [Y, List.length_eraseIdx, hj]; omega
  have hL0 : labels0 rank0 i = (X.map some).insertIdx i none := set_none_eq (by simpa using hi)
  have hL1 : labels1 rank0 rank1 j = (Y.map some).insertIdx j none := by
    have := set_none_eq (l := (List.range rank1).map (fun k => rank0 + k)) (i := j) (by simpa using hj)
    simpa [labels1, Function.comp_def] using this
  have hout : outLabels rank0 rank1 i j = X ++ Y := by
    unfold outLabels
    rw [hL0, hL1, List.filterMap_append, filterMap_insert_none (by omega), filterMap_insert_none (by omega)]
  have hnd : (X ++ Y).Nodup := by
    rw [List.nodup_append]
    refine ⟨List.nodup_range.sublist (List.eraseIdx_sublist _ _), ?_, ?_⟩
    · refine List.Nodup.sublist (List.eraseIdx_sublist _ _) ?_
      exact List.nodup_range.map (fun x y h => by omega)
    · intro x hx y hy
      have hx := List.mem_range.1 ((List.eraseIdx_sublist _ _).subset hx)
      obtain ⟨k, _, rfl⟩ := List.mem_map.1 ((List.eraseIdx_sublist _ _).subset hy)
      omega
  have hmap := map_lookup (c := a ++ b) hnd (by simp [hX, hY])
  rw [List.map_append] at hmap
  obtain ⟨h1, h2⟩ := List.append_inj hmap (by simp [hX])
  unfold dotGrid
  refine Finset.sum_congr rfl fun z _ => ?_
  rw [hout, hL0, hL1, map_insertIdx', map_insertIdx']
  simp only [List.map_map, Function.comp_def, labelVal]
  rw [h1, h2]

theorem forall₂_erase {dims c : List Nat} (h : IsIndex dims c) (i : Nat) : IsIndex (dims.eraseIdx i) (c.eraseIdx i) := by
  induction h generalizing i with
  | nil => exact List.Forall₂.nil
  | cons h h' ih =>
    cases i with
    | zero => simpa [IsIndex] using h'
    | succ i => rw [List.eraseIdx_cons_succ, List.eraseIdx_cons_succ]; exact List.Forall₂.cons h (ih i)

theorem forall₂_insert {dims c : List Nat} {i z d : Nat} (hi : dims[i]? = some d) (hz : z < d)
    (h : IsIndex (dims.eraseIdx i) c) : IsIndex dims (c.insertIdx i z) := by
  induction dims generalizing i c with
  | nil => simp at hi
  | cons e ds ih =>
    cases i with
    | zero =>
      have : e = d := by simpa using hi
      subst this
      simp only [List.eraseIdx_cons_zero] at h
      rw [List.insertIdx_zero]; exact List.Forall₂.cons hz h
    | succ i =>
      simp only [List.eraseIdx_cons_succ] at h
      cases h with
      | cons h1 h2 =>
        simp only [List.insertIdx_succ_cons]
        exact List.Forall₂.cons h1 (ih (by simpa using hi) h2)

theorem erase_iff {dims c a : List Nat} {i d : Nat} (hi : dims[i]? = some d) (hc : IsIndex dims c) (z : Nat) :
    (c[i]? = some z ∧ c.eraseIdx i = a) ↔ (i ≤ a.length ∧ z < d ∧ c = a.insertIdx i z) := by
  induction hc generalizing i a with
  | nil => simp at hi
  | cons h h' ih =>
    rename_i x e xs ds
    cases i with
    | zero =>
      have : e = d := by simpa using hi
      subst this
      simp only [List.getElem?_cons_zero, Option.some.injEq, List.eraseIdx_cons_zero, List.insertIdx_zero, List.cons.injEq]
      constructor
      · rintro ⟨rfl, rfl⟩; exact ⟨by omega, h, rfl, rfl⟩
      · rintro ⟨_, _, rfl, rfl⟩; exact ⟨rfl, rfl⟩
    | succ i =>
      have hi : ds[i]? = some d := by simpa using hi
      cases a with
      | nil => simp
      | cons y ys =>
        have := ih (a := ys) hi
        simp only [List.getElem?_cons_succ, List.eraseIdx_cons_succ, List.cons.injEq, List.insertIdx_succ_cons,
          List.length_cons]
        constructor
        · rintro ⟨h1, rfl, h2⟩
          obtain ⟨h3, h4, h5⟩ := this.1 ⟨h1, h2⟩
          exact ⟨by omega, h4, rfl, h5⟩
        · rintro ⟨h1, h2, rfl, h3⟩
          obtain ⟨h4, h5⟩ := this.2 ⟨by omega, h2, h3⟩
          exact ⟨h4, rfl, h5⟩

/-- C44. The coupling array of the dot product gives the grid-space contraction. -/
theorem dot_coupling (d0 d1 : List Nat) (i j d : Nat) (hi : d0[i]? = some d) (hj : d1[j]? = some d)
    (A B : List Nat → K) (a b : List Nat) (ha : IsIndex (d0.eraseIdx i) a) (hb : IsIndex (d1.eraseIdx j) b) :
    ∑ ia ∈ Finset.range d0.prod, ∑ ib ∈ Finset.range d1.prod,
      dotGamma i j d0 d1 (d0.eraseIdx i ++ d1.eraseIdx j) ia ib (ravel (d0.eraseIdx i ++ d1.eraseIdx j) (a ++ b)) *
        A (unravel d0 ia) * B (unravel d1 ib) =
    dotGrid d0.length d1.length i j d A B (a ++ b) := by
  have hil : i < d0.length := (List.getElem?_eq_some_iff.1 hi).1
  have hjl : j < d1.length := (List.getElem?_eq_some_iff.1 hj).1
  have hal : a.length + 1 = d0.length := by
    have := ha.length_eq; rw [List.length_eraseIdx, if_pos hil] at this; omega
  have hbl : b.length + 1 = d1.length := by
    have := hb.length_eq; rw [List.length_eraseIdx, if_pos hjl] at this; omega
  rw [dot_components _ _ _ _ _ hil hjl A B a b hal hbl]
  have hc := isIndex_append ha hb
  have p1 : ∀ z ∈ Finset.range d, IsIndex d0 (a.insertIdx i z) := fun z hz => forall₂_insert hi (Finset.mem_range.1 hz) ha
  have p2 : ∀ z ∈ Finset.range d, IsIndex d1 (b.insertIdx j z) := fun z hz => forall₂_insert hj (Finset.mem_range.1 hz) hb
  have key : ∀ ia ∈ Finset.range d0.prod, ∀ ib ∈ Finset.range d1.prod,
      dotGamma i j d0 d1 (d0.eraseIdx i ++ d1.eraseIdx j) ia ib (ravel (d0.eraseIdx i ++ d1.eraseIdx j) (a ++ b)) *
        A (unravel d0 ia) * B (unravel d1 ib) =
      ∑ z ∈ Finset.range d, (if ia = ravel d0 (a.insertIdx i z) ∧ ib = ravel d1 (b.insertIdx j z) then
        A (unravel d0 ia) * B (unravel d1 ib) else 0 : K) := by
    intro ia hia ib hib
    have hia := Finset.mem_range.1 hia
    have hib := Finset.mem_range.1 hib
    have x0 := (unravel_index hia).1
    have x1 := (unravel_index hib).1
    have hzz : ∀ z ∈ Finset.range d, (ia = ravel d0 (a.insertIdx i z) ∧ ib = ravel d1 (b.insertIdx j z)) ↔
        ((unravel d0 ia)[i]? = some z ∧ (unravel d0 ia).eraseIdx i = a) ∧
        ((unravel d1 ib)[j]? = some z ∧ (unravel d1 ib).eraseIdx j = b) := by
      intro z hz
      rw [← unravel_eq_iff (p1 z hz) hia, ← unravel_eq_iff (p2 z hz) hib, erase_iff hi x0, erase_iff hj x1]
      have hz := Finset.mem_range.1 hz
      constructor
      · rintro ⟨h1, h2⟩; exact ⟨⟨by omega, hz, h1⟩, ⟨by omega, hz, h2⟩⟩
      · rintro ⟨⟨_, _, h1⟩, ⟨_, _, h2⟩⟩; exact ⟨h1, h2⟩
    have hlen : i < (unravel d0 ia).length := by rw [x0.length_eq]; exact hil
    obtain ⟨z0, hz0⟩ : ∃ z, (unravel d0 ia)[i]? = some z := ⟨_, List.getElem?_eq_getElem hlen⟩
    have hz0d : z0 < d := ((erase_iff hi x0 z0).1 ⟨hz0, rfl⟩).2.1
    rw [Finset.sum_eq_single z0]
    · have hz := hzz z0 (Finset.mem_range.2 hz0d)
      simp only [dotGamma]
      rw [unravel_ravel hc]
      by_cases hh : ia = ravel d0 (a.insertIdx i z0) ∧ ib = ravel d1 (b.insertIdx j z0)
      · obtain ⟨⟨_, h1⟩, h2, h3⟩ := hz.1 hh
        rw [if_pos hh, if_pos ⟨hz0.trans h2.symm, by rw [h1, h3]⟩]; ring
      · rw [if_neg hh, if_neg, zero_mul, zero_mul]
        rintro ⟨h1, h2⟩
        obtain ⟨h3, h4⟩ := List.append_inj h2 (by rw [List.length_eraseIdx, if_pos hlen, x0.length_eq]; omega)
        exact hh (hz.2 ⟨⟨hz0, h3⟩, h1.symm.trans hz0, h4⟩)
    · intro z hz hne
      rw [if_neg]
      intro h
      obtain ⟨⟨h1, _⟩, _⟩ := (hzz z hz).1 h
      exact hne (Option.some.inj (h1.symm.trans hz0))
    · intro h; simp [hz0d] at h
  rw [Finset.sum_congr rfl fun ia hia => Finset.sum_congr rfl fun ib hib => key ia hia ib hib]
  have sw : ∑ ia ∈ Finset.range d0.prod, ∑ ib ∈ Finset.range d1.prod, ∑ z ∈ Finset.range d,
      (if ia = ravel d0 (a.insertIdx i z) ∧ ib = ravel d1 (b.insertIdx j z) then A (unravel d0 ia) * B (unravel d1 ib) else 0 : K) =
      ∑ z ∈ Finset.range d, ∑ ia ∈ Finset.range d0.prod, ∑ ib ∈ Finset.range d1.prod,
      (if ia = ravel d0 (a.insertIdx i z) ∧ ib = ravel d1 (b.insertIdx j z) then A (unravel d0 ia) * B (unravel d1 ib) else 0 : K) := by
    rw [Finset.sum_comm' (s := Finset.range d) (t := fun _ => Finset.range d0.prod) (t' := Finset.range d0.prod) (s' := fun _ => Finset.range d) (by simp [and_comm])]
    exact Finset.sum_congr rfl fun ia _ => Finset.sum_comm
  rw [sw]
  refine Finset.sum_congr rfl fun z hz => ?_
  rw [sum_select (ravel_lt (p1 z hz)) (ravel_lt (p2 z hz)), unravel_ravel (p1 z hz), unravel_ravel (p2 z hz)]

example : [2, 3][1]? = some 3 ∧ [3, 4][0]? = some 3 ∧ IsIndex ([2, 3].eraseIdx 1) [1] ∧ IsIndex ([3, 4].eraseIdx 0) [2] := by
  simp [IsIndex]

/-- C44. Index arguments: any index within the rank is accepted, counted from the end if negative; every other
index raises. -/
theorem dot_indices (rank0 rank1 : Nat) (i j : Int) (p q : Nat) :
    checkIndices rank0 rank1 i j = some (p, q) ↔
      (p < rank0 ∧ (i = p ∨ i = p - rank0)) ∧ (q < rank1 ∧ (j = q ∨ j = q - rank1)) := by
  have one : ∀ (index : Int) (rank p : Nat),
      (if index > rank ∨ index < -(rank : Int) then none
       else
        let index := if index < 0 then index + rank else index
        if index.toNat < rank then some index.toNat else none) = some p ↔
      (p < rank ∧ (index = p ∨ index = p - rank)) := by
    intro index rank p
    split
    · simp; omega
    · rename_i h
      dsimp only
      split
      · split
        · simp; omega
        · simp; omega
      · split
        · simp; omega
        · simp; omega
  simp only [checkIndices, Option.bind_eq_bind, Option.bind_eq_some_iff, Option.some.injEq, Prod.mk.injEq]
  constructor
  · rintro ⟨a, ha, b, hb, rfl, rfl⟩
    exact ⟨(one _ _ _).1 ha, (one _ _ _).1 hb⟩
  · rintro ⟨ha, hb⟩
    exact ⟨p, (one _ _ _).2 ha, q, (one _ _ _).2 hb, rfl, rfl⟩

/-! ### Cross product -/

/-- Three components as a vector. -/
def vec3 (a : Nat → K) : Fin 3 → K := ![a 0, a 1, a 2]

/-- C44. The grid formulas are the cross product in right-handed coordinates, and its negative in left-handed
ones. -/
theorem cross_is_cross (a b : Nat → K) :
    vec3 (crossGrid true a b) = crossProduct (vec3 a) (vec3 b) ∧
    vec3 (crossGrid false a b) = -crossProduct (vec3 a) (vec3 b) := by
  constructor <;>
  · rw [cross_apply]
    funext n
    fin_cases n <;> simp [vec3, crossGrid]

/-- C44. The result is orthogonal to both factors. -/
theorem cross_orthogonal (rh : Bool) (a b : Nat → K) :
    ∑ n ∈ Finset.range 3, a n * crossGrid rh a b n = 0 ∧ ∑ n ∈ Finset.range 3, b n * crossGrid rh a b n = 0 := by
  cases rh <;> constructor <;> simp [Finset.sum_range_succ, crossGrid] <;> ring

/-- C44. The coupling array of the cross product gives the grid-space formula, for both handednesses. -/
theorem cross_coupling (rh : Bool) (a b : Nat → K) (c : Nat) (hc : c < 3) :
    ∑ ia ∈ Finset.range 3, ∑ ib ∈ Finset.range 3, crossGamma rh ia ib c * a ia * b ib = crossGrid rh a b c := by
  have : c = 0 ∨ c = 1 ∨ c = 2 := by omega
  rcases this with rfl | rfl | rfl <;> cases rh <;>
    simp [Finset.sum_range_succ, crossGamma, crossGrid] <;> ring

end Dedalus.Tensor
