import Verif.Orders.Model
import Verif.Subsys.SliceLemmas
import Verif.Dist.BlockLemmas
import Verif.Sphere.Pack

namespace Dedalus.Orders
open Subsys Dist

/-! ## Blocks -/

def lo (P C p : Nat) : Nat := if P = 1 then 0 else min C (ceilDiv C P * p)
def hi (P C p : Nat) : Nat := if P = 1 then C else min C (ceilDiv C P * (p + 1))

theorem hi_le (P C p : Nat) : hi P C p ≤ C := by unfold hi; split <;> omega

theorem ceilDiv_mul_self (b C : Nat) (hb : 0 < b) : ceilDiv (b * C) b = C := by
  unfold ceilDiv
  rw [Nat.add_sub_assoc hb, Nat.mul_add_div hb, Nat.div_eq_of_lt (by omega), Nat.add_zero]

theorem rows_eq (P b C p : Nat) (hb : 0 < b) :
    localElements true (azimuth P (b * C) b) p = List.range' (b * lo P C p) (b * (hi P C p - lo P C p)) := by
  rw [localElements_eq]
  simp only [startChunk, stopChunk, azimuth, ceilDiv_mul_self b C hb, Bool.and_false, Bool.false_eq_true, if_false,
    decide_eq_true_eq]
  rfl

theorem range'_get (a n i r : Nat) : (List.range' a n)[i]? = some r ↔ i < n ∧ r = a + i := by
  rw [List.getElem?_eq_some_iff]
  simp only [List.length_range', List.getElem_range', Nat.one_mul, exists_prop]
  constructor
  · rintro ⟨h, rfl⟩; exact ⟨h, rfl⟩
  · rintro ⟨h, rfl⟩; exact ⟨h, rfl⟩

/-! ## Slices -/

theorem inShape_two {R W : Nat} {x : Idx} : InShape [R, W] x ↔ ∃ i j, x = [i, j] ∧ i < R ∧ j < W := by
  constructor
  · intro h
    match x, h with
    | [i, j], h => exact ⟨i, j, rfl, by simpa [InShape] using h⟩
  · rintro ⟨i, j, rfl, h1, h2⟩
    simp [InShape, h1, h2]

theorem slices_one (groups : Idx → ElemGroup) (R W b : Nat) (m : Int) (q l h : Nat) (hb : 0 < b) (hq : b * q < R)
    (hl : l < h) (hh : h ≤ W)
    (H : ∀ i j, i < R → j < W → (selected [some m, none] (groups [i, j]) = true ↔ (b * q ≤ i ∧ i < b * q + b) ∧ l ≤ j ∧ j < h)) :
    groupsetSlices groups [R, W] [b, 1] [some m, none] = [[(b * q, b * q + b), (l, h)]] := by
  have hmem : ∀ k x, x ∈ (allIdx [R, W]).filter (fun i => inSlices [Sl.range (k * b) (k * b + b), Sl.all] i &&
      selected [some m, none] (groups i)) ↔ ∃ i j, x = [i, j] ∧ i < R ∧ j < W ∧ (k * b ≤ i ∧ i < k * b + b) ∧
        (b * q ≤ i ∧ i < b * q + b) ∧ l ≤ j ∧ j < h := by
    intro k x
    rw [List.mem_filter, mem_allIdx, inShape_two]
    constructor
    · rintro ⟨⟨i, j, rfl, h1, h2⟩, h3⟩
      rw [Bool.and_eq_true, H i j h1 h2] at h3
      simp [inSlices, Sl.mem] at h3
      exact ⟨i, j, rfl, h1, h2, h3.1, h3.2⟩
    · rintro ⟨i, j, rfl, h1, h2, h3, h4⟩
      refine ⟨⟨i, j, rfl, h1, h2⟩, ?_⟩
      rw [Bool.and_eq_true, H i j h1 h2]
      exact ⟨by simp [inSlices, Sl.mem, h3], h4⟩
  have hun : ∀ k i, (k * b ≤ i ∧ i < k * b + b) → (b * q ≤ i ∧ i < b * q + b) → k = q := by
    intro k i h1 h2
    have e1 : i / b = k := by
      rw [Nat.div_eq_iff hb]; constructor <;> first | omega | (rw [Nat.mul_comm] at h1; omega)
    have e2 : i / b = q := by
      rw [Nat.div_eq_iff hb]; rw [Nat.mul_comm q b]; omega
    omega
  unfold groupsetSlices
  simp only [subslices, product, List.flatMap_cons, List.flatMap_nil, List.map_cons, List.map_nil, List.append_nil,
    List.flatMap_map]
  rw [← List.map_eq_flatMap, List.filterMap_map]
  refine filterMap_single _ _ q _ List.nodup_range ?_ ?_ ?_
  · rw [List.mem_range]
    have : b * (q + 1) ≤ R + b - 1 := by rw [Nat.mul_add]; omega
    exact lt_of_lt_of_le (Nat.lt_succ_self q) ((Nat.le_div_iff_mul_le hb).2 (by rw [Nat.mul_comm]; exact this))
  · have hm := hmem q
    simp only [Function.comp]
    have hne : (allIdx [R, W]).filter (fun i => inSlices [Sl.range (q * b) (q * b + b), Sl.all] i &&
      selected [some m, none] (groups i)) ≠ [] :=
      List.ne_nil_of_mem ((hm [b * q, l]).2 ⟨b * q, l, rfl, hq, by omega, by rw [Nat.mul_comm]; omega, by omega, by omega⟩)
    rw [if_neg hne]
    generalize (allIdx [R, W]).filter (fun i => inSlices [Sl.range (q * b) (q * b + b), Sl.all] i &&
      selected [some m, none] (groups i)) = hits at hm hne
    have hc : ∀ j, j ∈ hits.filterMap (·[1]?) ↔ l ≤ j ∧ j < h := by
      intro j
      rw [List.mem_filterMap]
      constructor
      · rintro ⟨x, hx, e⟩
        obtain ⟨i, j', rfl, -, -, -, -, h5⟩ := (hm x).1 hx
        simp at e; subst e; exact h5
      · intro hj
        exact ⟨[b * q, j], (hm _).2 ⟨b * q, j, rfl, hq, by omega, by rw [Nat.mul_comm]; omega, by omega, hj⟩, rfl⟩
    have hne2 : hits.filterMap (·[1]?) ≠ [] := List.ne_nil_of_mem ((hc l).2 ⟨le_rfl, hl⟩)
    have a1 := (hc _).1 (lmin_mem hne2)
    have a2 := lmin_le ((hc l).2 ⟨le_rfl, hl⟩)
    have a3 := (hc _).1 (lmax_mem hne2)
    have a4 := le_lmax ((hc (h - 1)).2 ⟨by omega, by omega⟩)
    simp only [groupSlice, Nat.zero_add, Option.some.injEq, List.cons.injEq, and_true, Prod.mk.injEq]
    refine ⟨⟨Nat.mul_comm _ _, by rw [Nat.mul_comm]⟩, by omega, by omega⟩
  · intro k _ hk
    simp only [Function.comp]
    rw [if_pos]
    rw [List.eq_nil_iff_forall_not_mem]
    intro x hx
    obtain ⟨i, j, -, -, -, h1, h2, -⟩ := (hmem k x).1 hx
    exact hk (hun k i h1 h2)

theorem slices_none (groups : Idx → ElemGroup) (R W b : Nat) (m : Int)
    (H : ∀ i j, i < R → j < W → selected [some m, none] (groups [i, j]) = false) :
    groupsetSlices groups [R, W] [b, 1] [some m, none] = [] := by
  unfold groupsetSlices
  rw [List.filterMap_eq_nil_iff]
  intro s _
  dsimp only
  rw [if_pos]
  rw [List.eq_nil_iff_forall_not_mem]
  intro x hx
  rw [List.mem_filter, mem_allIdx, inShape_two] at hx
  obtain ⟨⟨i, j, rfl, h1, h2⟩, h3⟩ := hx
  rw [H i j h1 h2] at h3
  simp at h3

theorem coeff_selected (G : Nat → Nat → Option (Int × Int)) (rows : List Nat) (i j r : Nat) (m : Int) (h : rows[i]? = some r) :
    selected [some m, none] (coeffGroups G rows [i, j]) = true ↔ (G r j).map (·.1) = some m := by
  simp [coeffGroups, h, selected]

theorem grid_selected (w : Nat → Int) (rows : List Nat) (i j r : Nat) (m : Int) (h : rows[i]? = some r) :
    selected [some m, none] (gridGroups w rows [i, j]) = true ↔ w r = m := by
  simp [gridGroups, h, selected]

theorem mem_groupsets (groups : Idx → ElemGroup) (R W : Nat) (f : Nat → Nat → Option Int)
    (hf : ∀ i j, i < R → j < W → ∃ y, groups [i, j] = [f i j, y]) (gs : Group) :
    gs ∈ localGroupsets [false, true] ((allIdx [R, W]).map groups) ↔ ∃ i j m, i < R ∧ j < W ∧ f i j = some m ∧ gs = [some m, none] := by
  unfold localGroupsets
  rw [mem_addAll]
  simp only [List.not_mem_nil, false_or, List.mem_filterMap, List.mem_map, mem_allIdx, inShape_two]
  constructor
  · rintro ⟨_, ⟨x, ⟨i, j, rfl, h1, h2⟩, rfl⟩, h⟩
    obtain ⟨y, hy⟩ := hf i j h1 h2
    rw [hy] at h
    cases hm : f i j with
    | none => simp [groupsetOf, hm] at h
    | some m =>
      simp [groupsetOf, hm] at h
      exact ⟨i, j, m, h1, h2, hm, h.symm⟩
  · rintro ⟨i, j, m, h1, h2, h3, rfl⟩
    obtain ⟨y, hy⟩ := hf i j h1 h2
    exact ⟨_, ⟨_, ⟨i, j, rfl, h1, h2⟩, rfl⟩, by rw [hy]; simp [groupsetOf, h3]⟩

theorem mapM_some {α β : Type} (f : α → Option β) : ∀ l : List α, (∀ x ∈ l, ∃ y, f x = some y) →
    ∃ r, l.mapM f = some r ∧ (∀ y, y ∈ r ↔ ∃ x ∈ l, f x = some y) ∧ ∀ {γ : Type} (g : β → γ) (k : α → γ),
      (∀ x ∈ l, ∀ y, f x = some y → g y = k x) → r.map g = l.map k
  | [], _ => ⟨[], rfl, by simp, by simp⟩
  | x :: l, h => by
    obtain ⟨y, hy⟩ := h x (by simp)
    obtain ⟨r, hr, hm, hg⟩ := mapM_some f l fun z hz => h z (by simp [hz])
    refine ⟨y :: r, by simp [List.mapM_cons, hy, hr], ?_, ?_⟩
    · intro z
      rw [List.mem_cons, hm]
      constructor
      · rintro (rfl | ⟨w, h1, h2⟩)
        · exact ⟨x, by simp, hy⟩
        · exact ⟨w, by simp [h1], h2⟩
      · rintro ⟨w, h1, h2⟩
        rcases List.mem_cons.1 h1 with rfl | h1
        · left; rw [hy] at h2; exact (Option.some.inj h2).symm
        · right; exact ⟨w, h1, h2⟩
    · intro γ g k hk
      rw [List.map_cons, List.map_cons, hg g k fun z hz => hk z (by simp [hz]), hk x (by simp) y hy]

theorem entry_eq (sphere : Bool) (G : Nat → Nat → Option (Int × Int)) (w : Nat → Int) (b : Nat) (rows grows : List Nat) (W Ng : Nat)
    (m : Int) (mc ell mg t : Nat × Nat)
    (h1 : groupsetSlices (coeffGroups G rows) [rows.length, W] [b, 1] [some m, none] = [[mc, ell]])
    (h2 : groupsetSlices (gridGroups w grows) [grows.length, Ng] [b, 1] [some m, none] = [[mg, t]]) :
    entry sphere G w b rows grows W Ng [some m, none] = some ⟨m, mg, mc, ell, sphere && (decide (ell.1 = 0) && decide (m ≠ 0))⟩ := by
  unfold entry
  rw [h1, h2]

/-! ## Loops -/

theorem foldl_cover {α β : Type} (l : List α) (c : α → Prop) [DecidablePred c] (f : α → β) (v z : β)
    (h : ∀ e ∈ l, c e → f e = v) : l.foldl (fun a e => if c e then f e else a) z = if ∃ e ∈ l, c e then v else z := by
  induction l generalizing z with
  | nil => simp
  | cons e l ih =>
    rw [List.foldl_cons, ih _ fun x hx => h x (by simp [hx])]
    by_cases h1 : c e
    · rw [if_pos h1, h e (by simp) h1, ite_self, if_pos ⟨e, by simp, h1⟩]
    · rw [if_neg h1]
      simp [h1]

theorem foldl_at {α β : Type} (l : List α) (F : (Nat → Nat → β) → α → Nat → Nat → β) (c : α → Nat → Nat → Prop)
    [∀ e i j, Decidable (c e i j)] (f : α → Nat → Nat → β) (hF : ∀ a e i j, F a e i j = if c e i j then f e i j else a i j)
    (z : Nat → Nat → β) (i j : Nat) :
    l.foldl F z i j = l.foldl (fun a e => if c e i j then f e i j else a) (z i j) := by
  induction l generalizing z with
  | nil => rfl
  | cons e l ih => rw [List.foldl_cons, ih, List.foldl_cons, hF]

theorem forward_at {V : Type} [Zero V] (maps : List Entry) (lim : Nat) (T : Int → (Nat → V) → Nat → V) (g : Nat → Nat → V)
    (i j : Nat) (v : V) (h : ∀ e ∈ maps, (e.rows.1 ≤ i ∧ i < e.rows.2 ∧ e.cols.1 ≤ j ∧ j < e.cols.2) →
      |e.m| ≤ (lim : Int) → T e.m (g (e.grid.1 + (i - e.rows.1))) (if e.reversed then e.cols.2 - 1 - j else j - e.cols.1) = v) :
    forward maps lim T g i j =
      if ∃ e ∈ maps, |e.m| ≤ (lim : Int) ∧ (e.rows.1 ≤ i ∧ i < e.rows.2 ∧ e.cols.1 ≤ j ∧ j < e.cols.2) then v else 0 := by
  unfold forward
  rw [foldl_at maps _ (fun e i j => |e.m| ≤ (lim : Int) ∧ (e.rows.1 ≤ i ∧ i < e.rows.2 ∧ e.cols.1 ≤ j ∧ j < e.cols.2))
    (fun e i j => T e.m (g (e.grid.1 + (i - e.rows.1))) (if e.reversed then e.cols.2 - 1 - j else j - e.cols.1))]
  · exact foldl_cover maps _ _ v 0 fun e he hc => h e he hc.2 hc.1
  · intro a e i j
    by_cases h1 : |e.m| ≤ (lim : Int)
    · simp only [h1, if_true, true_and]
    · simp only [h1, if_false, false_and]

theorem forward_congr {V : Type} [Zero V] (maps : List Entry) (lim : Nat) (T : Int → (Nat → V) → Nat → V) (g g' : Nat → Nat → V)
    (h : ∀ m i, T m (g i) = T m (g' i)) : forward maps lim T g = forward maps lim T g' := by
  unfold forward
  simp only [h]

theorem backward_at {V : Type} [Zero V] (maps : List Entry) (lim : Nat) (S : Int → List V → Nat → V) (c : Nat → Nat → V)
    (i t : Nat) (v : V) (h : ∀ e ∈ maps, (e.grid.1 ≤ i ∧ i < e.grid.2) → (if |e.m| > (lim : Int) then 0
      else S e.m ((List.range (e.cols.2 - e.cols.1)).map fun k => c (e.rows.1 + (i - e.grid.1)) (e.col k)) t) = v) :
    backward maps lim S c i t = if ∃ e ∈ maps, (e.grid.1 ≤ i ∧ i < e.grid.2) then v else 0 := by
  unfold backward
  rw [foldl_at maps _ (fun e i _ => e.grid.1 ≤ i ∧ i < e.grid.2) (fun e i t => if |e.m| > (lim : Int) then 0
      else S e.m ((List.range (e.cols.2 - e.cols.1)).map fun k => c (e.rows.1 + (i - e.grid.1)) (e.col k)) t)]
  · exact foldl_cover maps _ _ v 0 h
  · intro a e i j; rfl

end Dedalus.Orders
