import Verif.Contract.Model
import Verif.Regularity.Invariant

/-!
# Exchange of two entries of a list
-/

namespace Dedalus.Contract

open Regularity

/-- the exchange of two places -/
def sw (i j k : Nat) : Nat := if k = i then j else if k = j then i else k

theorem sw_sw (i j k : Nat) : sw i j (sw i j k) = k := by
  unfold sw; split_ifs <;> omega

theorem sw_inj (i j k l : Nat) : sw i j k = sw i j l ↔ k = l :=
  ⟨fun h => by rw [← sw_sw i j k, h, sw_sw], fun h => by rw [h]⟩

theorem sw_lt {n i j : Nat} (hi : i < n) (hj : j < n) (k : Nat) : sw i j k < n ↔ k < n := by
  unfold sw; split_ifs <;> omega

/-- `idx'` is `idx` with the entries at `i` and `j` exchanged -/
def Swapped {α : Type} (i j : Nat) (idx idx' : List α) : Prop := ∀ k, idx'[k]? = idx[sw i j k]?

theorem Swapped.unique {α : Type} {i j : Nat} {idx a b : List α} (h : Swapped i j idx a) (h' : Swapped i j idx b) : a = b :=
  List.ext_getElem? fun k => by rw [h, h']

theorem filterMap_all {α β : Type} (f : α → Option β) (g : α → β) (l : List α) (h : ∀ x ∈ l, f x = some (g x)) : l.filterMap f = l.map g := by
  induction l with
  | nil => rfl
  | cons a l ih => rw [List.filterMap_cons, h a (by simp), ih fun x hx => h x (by simp [hx])]; rfl

theorem permute_getElem {α : Type} (axes : List Nat) (idx : List α) (h : ∀ a < idx.length, axes.idxOf a < idx.length) (k : Nat) :
    (permute axes idx)[k]? = if k < idx.length then idx[axes.idxOf k]? else none := by
  unfold permute
  cases hd : idx with
  | nil => simp
  | cons x rest =>
    rw [← hd]
    rw [filterMap_all _ (fun a => (idx[axes.idxOf a]?).getD x) _ (fun a ha => by
      have := h a (List.mem_range.1 ha)
      rw [List.getElem?_eq_getElem this]; rfl)]
    rw [List.getElem?_map]
    by_cases hk : k < idx.length
    · rw [List.getElem?_range hk, if_pos hk]
      have := h k hk
      rw [Option.map_some, List.getElem?_eq_getElem this]; rfl
    · rw [if_neg hk, List.getElem?_eq_none (by simpa using hk)]; rfl

/-- the axes of an exchange -/
theorem axes_swap (n i j : Nat) (hi : i < n) (hj : j < n) (hij : i ≠ j) : ((List.range n).set i j).set j i = (List.range n).map (sw i j) := by
  apply List.ext_getElem?
  intro k
  rw [List.getElem?_set, List.getElem?_set, List.getElem?_map]
  simp only [List.length_set, List.length_range]
  by_cases hk : k < n
  · rw [List.getElem?_range hk, Option.map_some]
    unfold sw
    split_ifs <;> first | rfl | (exfalso; omega) | (congr 1; omega)
  · have h1 : ¬j = k := by omega
    have h2 : ¬i = k := by omega
    rw [if_neg h1, if_neg h2, List.getElem?_eq_none (by simpa using hk)]; rfl

theorem idxOf_swap (n i j : Nat) (hi : i < n) (hj : j < n) (a : Nat) (ha : a < n) : ((List.range n).map (sw i j)).idxOf a = sw i j a := by
  have hs : sw i j a < n := (sw_lt hi hj a).2 ha
  have hnd : ((List.range n).map (sw i j)).Nodup := List.nodup_range.map fun x y h => (sw_inj i j x y).1 h
  have hl : sw i j a < ((List.range n).map (sw i j)).length := by simpa using hs
  have := hnd.idxOf_getElem (sw i j a) hl
  rw [List.getElem_map, List.getElem_range, sw_sw] at this
  exact this

theorem permute_swapped {α : Type} (n i j : Nat) (hi : i < n) (hj : j < n) (idx : List α) (hl : idx.length = n) : Swapped i j idx (permute ((List.range n).map (sw i j)) idx) := by
  intro k
  rw [permute_getElem]
  · split
    · rename_i h
      rw [idxOf_swap n i j hi hj k (hl ▸ h)]
    · rename_i h
      rw [List.getElem?_eq_none]
      have := (sw_lt hi hj k)
      omega
  · intro a ha
    rw [idxOf_swap n i j hi hj a (hl ▸ ha), hl]
    exact (sw_lt hi hj a).2 (hl ▸ ha)

theorem mapM_place (n : Nat) : ∀ l : List Nat, (∀ x ∈ l, x < n) → (l.map (Int.ofNat ·)).mapM (place n) = some l
  | [], _ => rfl
  | x :: l, h => by
    have hx := h x (by simp)
    rw [List.map_cons, List.mapM_cons, mapM_place n l fun y hy => h y (by simp [hy])]
    simp [place, hx]

theorem order_eq (rank dim i j : Nat) (hi : i < rank) (hj : j < rank) (hij : i ≠ j) :
    newAxisOrder rank dim (i, j) = some (((List.range (rank + dim)).map (sw i j)).map (Int.ofNat ·)) := by
  have f0 : fromEnd rank (i : Int) = i := by unfold fromEnd; rw [if_neg (by omega)]
  have f1 : fromEnd rank (j : Int) = j := by unfold fromEnd; rw [if_neg (by omega)]
  have p0 : place (rank + dim) (i : Int) = some i := by unfold place; rw [if_pos (by constructor <;> omega)]; simp
  have p1 : place (rank + dim) (j : Int) = some j := by unfold place; rw [if_pos (by constructor <;> omega)]; simp
  unfold newAxisOrder
  simp only [f0, f1, p0, p1]
  rw [if_neg (by omega), if_neg (by omega), if_neg (by omega), ← axes_swap _ i j (by omega) (by omega) hij]
  simp [List.map_set]

theorem take_swap (rank dim i j : Nat) (hi : i < rank) (hj : j < rank) : ((List.range (rank + dim)).map (sw i j)).take rank = (List.range rank).map (sw i j) := by
  rw [← List.map_take]
  congr 1
  rw [List.take_range]
  congr 1
  omega

theorem nodup_swap (n i j : Nat) : ((List.range n).map (sw i j)).Nodup := List.nodup_range.map fun x y h => (sw_inj i j x y).1 h

theorem normal_swap (n i j : Nat) (hi : i < n) (hj : j < n) : normalAxes n (((List.range n).map (sw i j)).map (Int.ofNat ·)) = some ((List.range n).map (sw i j)) := by
  unfold normalAxes
  rw [mapM_place]
  · simp only [Option.bind_eq_bind, Option.bind_some]
    rw [if_pos ⟨by simp, nodup_swap n i j⟩]
  · intro x hx
    obtain ⟨a, ha, rfl⟩ := List.mem_map.1 hx
    exact (sw_lt hi hj a).2 (List.mem_range.1 ha)

/-! ## Invariance -/

theorem swapped_length {α : Type} {n i j : Nat} (hi : i < n) (hj : j < n) {idx idx' : List α} (hl : idx.length = n) (h : Swapped i j idx idx') : idx'.length = n := by
  have key : ∀ k, k < idx'.length ↔ k < n := by
    intro k
    have := h k
    constructor
    · intro hk
      rw [List.getElem?_eq_getElem hk] at this
      have h2 := (List.getElem?_eq_some_iff.1 this.symm).1
      rw [hl] at h2
      exact (sw_lt hi hj k).1 h2
    · intro hk
      by_contra hc
      rw [List.getElem?_eq_none (by omega)] at this
      have h2 := (List.getElem?_eq_none_iff.1 this.symm)
      have := (sw_lt hi hj k).2 hk
      omega
  have a := key idx'.length
  have b := key n
  omega

theorem sum_getElem : ∀ τ : List Int, τ.sum = ∑ p ∈ Finset.range τ.length, (τ[p]?).getD 0
  | [] => by simp
  | t :: τ => by
    rw [List.length_cons, Finset.sum_range_succ', List.sum_cons, sum_getElem τ]
    simp [add_comm]

theorem sum_sw {α : Type} [AddCommMonoid α] {n i j : Nat} (hi : i < n) (hj : j < n) (F : Nat → α) : ∑ p ∈ Finset.range n, F (sw i j p) = ∑ p ∈ Finset.range n, F p := by
  refine Finset.sum_nbij' (sw i j) (sw i j) ?_ ?_ ?_ ?_ ?_
  · intro a ha; rw [Finset.mem_range] at *; exact (sw_lt hi hj a).2 ha
  · intro a ha; rw [Finset.mem_range] at *; exact (sw_lt hi hj a).2 ha
  · intro a _; exact sw_sw i j a
  · intro a _; exact sw_sw i j a
  · intro a _; rfl

/-- the exchange of two entries -/
def swapAt {α : Type} (n i j : Nat) (idx : List α) : List α := permute ((List.range n).map (sw i j)) idx

theorem swapAt_spec {α : Type} {n i j : Nat} (hi : i < n) (hj : j < n) (idx : List α) (hl : idx.length = n) : Swapped i j idx (swapAt n i j idx) := permute_swapped n i j hi hj idx hl

theorem swapAt_length {α : Type} {n i j : Nat} (hi : i < n) (hj : j < n) (idx : List α) (hl : idx.length = n) : (swapAt n i j idx).length = n :=
  swapped_length hi hj hl (swapAt_spec hi hj idx hl)

theorem swapAt_sum {n i j : Nat} (hi : i < n) (hj : j < n) (τ : List Int) (hl : τ.length = n) : (swapAt n i j τ).sum = τ.sum := by
  rw [sum_getElem, sum_getElem τ, swapAt_length hi hj τ hl, hl]
  simp only [swapAt_spec hi hj τ hl _]
  exact sum_sw hi hj fun p => (τ[p]?).getD 0

theorem swapAt_unit {n i j : Nat} (hi : i < n) (hj : j < n) (τ : List Int) (hl : τ.length = n) (hu : Unit3 τ) : Unit3 (swapAt n i j τ) := by
  intro t ht
  obtain ⟨p, hp⟩ := List.mem_iff_getElem?.1 ht
  rw [swapAt_spec hi hj τ hl] at hp
  exact hu t (List.mem_iff_getElem?.2 ⟨_, hp⟩)

theorem swapAt_mem {n i j : Nat} (hi : i < n) (hj : j < n) (τ : List Int) (h : τ ∈ T n) : swapAt n i j τ ∈ T n :=
  (mem_T _ _).2 ⟨swapAt_length hi hj τ ((mem_T _ _).1 h).1, swapAt_unit hi hj τ ((mem_T _ _).1 h).1 ((mem_T _ _).1 h).2⟩

theorem swapAt_set {n i j : Nat} (hi : i < n) (hj : j < n) (τ : List Int) (hl : τ.length = n) (p : Nat) (v : Int) : (swapAt n i j τ).set (sw i j p) v = swapAt n i j (τ.set p v) := by
  apply List.ext_getElem?
  intro k
  rw [swapAt_spec hi hj (τ.set p v) (by simpa using hl), List.getElem?_set, List.getElem?_set, swapAt_spec hi hj τ hl, swapAt_length hi hj τ hl, hl]
  have e : sw i j p = k ↔ p = sw i j k := by
    constructor
    · rintro rfl; exact (sw_sw i j p).symm
    · rintro rfl; exact sw_sw i j k
  simp only [e]
  split
  · rename_i h
    rw [h]
    simp only [sw_sw, sw_lt hi hj]
  · rfl

theorem swapAt_swapAt {n i j : Nat} (hi : i < n) (hj : j < n) (τ : List Int) (hl : τ.length = n) : swapAt n i j (swapAt n i j τ) = τ := by
  apply List.ext_getElem?
  intro k
  rw [swapAt_spec hi hj _ (swapAt_length hi hj τ hl), swapAt_spec hi hj τ hl, sw_sw]

theorem swap_invariant (ell n i j : Nat) (hi : i < n) (hj : j < n) : Invariant ell n n (fun q τ => q (swapAt n i j τ)) := by
  refine ⟨fun _ _ _ => rfl, fun q q' h τ hτ => h _ (swapAt_mem hi hj τ hτ), fun q hq τ hl hu hs => ?_, fun σ w hσ q τ hτ => ?_⟩
  · exact hq _ (swapAt_length hi hj τ hl) (swapAt_unit hi hj τ hl hu) (by rw [swapAt_sum hi hj τ hl]; exact hs)
  · obtain ⟨hl, hu⟩ := (mem_T _ _).1 hτ
    unfold Regularity.ang
    rw [swapAt_sum hi hj τ hl, spinPart_sum, spinPart_sum, swapAt_length hi hj τ hl, hl]
    congr 1
    rw [← sum_sw hi hj (fun p => (if (swapAt n i j τ)[p]? = some (-σ) then -q ((swapAt n i j τ).set p 0) else 0) + (if (swapAt n i j τ)[p]? = some 0 then q ((swapAt n i j τ).set p σ) else 0))]
    apply Finset.sum_congr rfl
    intro p _
    beta_reduce
    rw [swapAt_set hi hj τ hl, swapAt_set hi hj τ hl, swapAt_spec hi hj τ hl, sw_sw]

/-- the trace over the first two indices -/
def tr {α : Type} [Add α] (q : List Int → α) (τ : List Int) : α := q (0 :: 0 :: τ) + q (1 :: -1 :: τ) + q (-1 :: 1 :: τ)

theorem trace_invariant (ell n : Nat) : Invariant ell (n + 2) n tr := by
  refine ⟨fun c q τ => by simp only [tr]; ring, fun q q' h τ hτ => ?_, fun q hq τ hl hu hs => ?_, fun σ w hσ q τ hτ => ?_⟩
  · obtain ⟨hl, hu⟩ := (mem_T _ _).1 hτ
    unfold tr
    rw [h (0 :: 0 :: τ), h (1 :: -1 :: τ), h (-1 :: 1 :: τ)] <;> exact (mem_T _ _).2 ⟨by simp [hl], (hu.cons (by simp)).cons (by simp)⟩
  · unfold tr
    rw [hq (0 :: 0 :: τ) (by simp [hl]) ((hu.cons (by simp)).cons (by simp)) (by simpa using hs),
      hq (1 :: -1 :: τ) (by simp [hl]) ((hu.cons (by simp)).cons (by simp)) (by simpa using hs),
      hq (-1 :: 1 :: τ) (by simp [hl]) ((hu.cons (by simp)).cons (by simp)) (by simpa using hs)]
    ring
  · have e : (tr q) = fun τ => (q (0 :: 0 :: τ) + q (1 :: -1 :: τ)) + q (-1 :: 1 :: τ) := rfl
    unfold Regularity.ang
    rw [e, spinPart_add, spinPart_add]
    unfold tr
    simp only [spinPart, List.sum_cons]
    have s1 : (0 : Int) + (0 + τ.sum) + w = τ.sum + w := by ring
    have s2 : (1 : Int) + (-1 + τ.sum) + w = τ.sum + w := by ring
    have s3 : (-1 : Int) + (1 + τ.sum) + w = τ.sum + w := by ring
    rw [s1, s2, s3]
    rcases hσ with rfl | rfl
    · norm_num
      ring
    · norm_num
      ring

end Dedalus.Contract
