import Verif.Subsys.Spec
import Mathlib.Data.List.Forall2
import Mathlib.Data.List.Nodup

namespace Dedalus.Subsys

section OrderedSet
variable {α : Type} [DecidableEq α]

theorem mem_addAll {l acc : List α} {x} : x ∈ addAll acc l ↔ x ∈ acc ∨ x ∈ l := by
  induction l generalizing acc with
  | nil => simp [addAll]
  | cons y l ih =>
    have : addAll acc (y :: l) = addAll (if y ∈ acc then acc else acc ++ [y]) l := rfl
    rw [this, ih]
    split
    · rename_i h
      constructor
      · rintro (h1 | h1) <;> simp [h1]
      · rintro (h1 | h1)
        · exact Or.inl h1
        · rcases List.mem_cons.1 h1 with rfl | h1
          · exact Or.inl h
          · exact Or.inr h1
    · simp [or_assoc]

theorem nodup_addAll {l acc : List α} (h : acc.Nodup) : (addAll acc l).Nodup := by
  induction l generalizing acc with
  | nil => simpa [addAll]
  | cons y l ih =>
    have : addAll acc (y :: l) = addAll (if y ∈ acc then acc else acc ++ [y]) l := rfl
    rw [this]
    apply ih
    split
    · exact h
    · rename_i hy
      exact List.nodup_append.2 ⟨h, by simp, by intro a ha b hb e; simp at hb; subst hb; subst e; exact hy ha⟩

theorem mem_foldl_addAll {ls : List (List α)} {acc x} : x ∈ ls.foldl addAll acc ↔ x ∈ acc ∨ ∃ l ∈ ls, x ∈ l := by
  induction ls generalizing acc with
  | nil => simp
  | cons l ls ih => simp [ih, mem_addAll, or_assoc]

theorem nodup_foldl_addAll {ls : List (List α)} {acc} (h : acc.Nodup) : (ls.foldl addAll acc).Nodup := by
  induction ls generalizing acc with
  | nil => simpa
  | cons l ls ih => exact ih (nodup_addAll h)

end OrderedSet

theorem forall_nat_succ {P : Nat → Prop} : (∀ i, P i) ↔ P 0 ∧ ∀ i, P (i + 1) :=
  ⟨fun h => ⟨h 0, fun i => h _⟩, fun h i => by cases i with | zero => exact h.1 | succ i => exact h.2 i⟩

theorem groupsetOf_eq_some : ∀ {coupling : List Bool} {e : ElemGroup} {s : Group}, e.length = coupling.length →
    (groupsetOf coupling e = some s ↔ Belongs coupling s e)
  | [], [], s, _ => by
      simp only [groupsetOf, Belongs, Option.some.injEq]
      constructor
      · rintro rfl; simp
      · rintro ⟨h, _⟩; exact (List.length_eq_zero_iff.1 h).symm
  | c :: cs, e :: es, s, hl => by
      have ih := @groupsetOf_eq_some cs es
      have hl' : es.length = cs.length := by simpa using hl
      unfold Belongs
      rw [forall_nat_succ]
      cases c
      · cases e with
        | none => simp [groupsetOf]
        | some g =>
          simp only [groupsetOf, Bool.false_eq_true, if_false, Option.map_eq_some_iff]
          constructor
          · rintro ⟨s', h, rfl⟩
            obtain ⟨h1, h2⟩ := (ih hl').1 h
            exact ⟨by simp [h1], by simp, by simpa using h2⟩
          · rintro ⟨h1, h2, h3⟩
            cases s with
            | nil => simp at h1
            | cons x s =>
              simp at h2
              exact ⟨s, (ih hl').2 ⟨by simpa using h1, by simpa using h3⟩, by simp [h2]⟩
      · simp only [groupsetOf, if_true, Option.map_eq_some_iff]
        constructor
        · rintro ⟨s', h, rfl⟩
          obtain ⟨h1, h2⟩ := (ih hl').1 h
          exact ⟨by simp [h1], by simp, by simpa using h2⟩
        · rintro ⟨h1, h2, h3⟩
          cases s with
          | nil => simp at h1
          | cons x s =>
            simp at h2
            exact ⟨s, (ih hl').2 ⟨by simpa using h1, by simpa using h3⟩, by simp [h2]⟩

theorem groupsetOf_isSome : ∀ {coupling : List Bool} {e : ElemGroup}, e.length = coupling.length →
    Unmasked coupling e → ∃ s, groupsetOf coupling e = some s
  | [], [], _, _ => ⟨[], rfl⟩
  | c :: cs, e :: es, hl, hu => by
      have hu' : Unmasked cs es := fun i hi => by simpa using hu (i+1) (by simpa using hi)
      obtain ⟨s, hs⟩ := groupsetOf_isSome (by simpa using hl) hu'
      cases c
      · obtain ⟨g, hg⟩ := hu 0 (by simp)
        simp at hg; subst hg
        exact ⟨some g :: s, by simp [groupsetOf, hs]⟩
      · exact ⟨none :: s, by simp [groupsetOf, hs]⟩

theorem mem_localGroupsets {coupling : List Bool} {elems : List ElemGroup} {s} :
    s ∈ localGroupsets coupling elems ↔ ∃ e ∈ elems, groupsetOf coupling e = some s := by
  simp [localGroupsets, mem_addAll]

theorem nested_iff {ls : List (List Group)} : nested ls = true ↔
    ls.Pairwise fun a b => (∀ x ∈ a, x ∈ b) ∨ (∀ x ∈ b, x ∈ a) := by
  induction ls with
  | nil => simp [nested]
  | cons a l ih => simp [nested, subset, ih]

/-! ## Dictionary grouping -/

section Dict
variable {κ α : Type} [DecidableEq κ]

theorem dictAppend_keys (k : κ) (x : α) (d : List (κ × List α)) :
    (dictAppend k x d).map Prod.fst = if k ∈ d.map Prod.fst then d.map Prod.fst else d.map Prod.fst ++ [k] := by
  induction d with
  | nil => simp [dictAppend]
  | cons p d ih =>
    obtain ⟨k', l⟩ := p
    simp only [dictAppend]
    by_cases h : k' = k
    · simp [h]
    · have h' : ¬ k = k' := fun e => h e.symm
      simp only [h, if_false, List.map_cons, ih, List.mem_cons, h', false_or]
      split <;> simp

theorem dictAppend_perm (k : κ) (x : α) (d : List (κ × List α)) :
    ((dictAppend k x d).flatMap Prod.snd).Perm (d.flatMap Prod.snd ++ [x]) := by
  induction d with
  | nil => simp [dictAppend]
  | cons p d ih =>
    obtain ⟨k', l⟩ := p
    simp only [dictAppend]
    split
    · simp only [List.flatMap_cons, List.append_assoc]
      exact List.Perm.append_left _ (List.perm_append_comm)
    · simp only [List.flatMap_cons, List.append_assoc]
      exact List.Perm.append_left _ ih

theorem dictAppend_inv (f : α → κ) (x : α) (d : List (κ × List α))
    (h : ∀ p ∈ d, p.2 ≠ [] ∧ ∀ y ∈ p.2, f y = p.1) :
    ∀ p ∈ dictAppend (f x) x d, p.2 ≠ [] ∧ ∀ y ∈ p.2, f y = p.1 := by
  induction d with
  | nil => simp [dictAppend]
  | cons p d ih =>
    obtain ⟨k', l⟩ := p
    have hd := ih fun q hq => h q (List.mem_cons_of_mem _ hq)
    have hp := h (k', l) (by simp)
    simp only [dictAppend]
    split
    · rename_i hk
      intro q hq
      rcases List.mem_cons.1 hq with rfl | hq
      · refine ⟨by simp, fun y hy => ?_⟩
        rcases List.mem_append.1 hy with hy | hy
        · exact hp.2 y hy
        · simp at hy; subst hy; exact hk.symm
      · exact h q (List.mem_cons_of_mem _ hq)
    · intro q hq
      rcases List.mem_cons.1 hq with rfl | hq
      · exact hp
      · exact hd q hq

theorem group_inv (f : α → κ) (l : List α) (d0 : List (κ × List α))
    (h : ∀ p ∈ d0, p.2 ≠ [] ∧ ∀ y ∈ p.2, f y = p.1) (hn : (d0.map Prod.fst).Nodup) :
    let d := l.foldl (fun d s => dictAppend (f s) s d) d0
    (d.flatMap Prod.snd).Perm (d0.flatMap Prod.snd ++ l) ∧ (d.map Prod.fst).Nodup ∧
      ∀ p ∈ d, p.2 ≠ [] ∧ ∀ y ∈ p.2, f y = p.1 := by
  induction l generalizing d0 with
  | nil => simpa using ⟨hn, by simpa using h⟩
  | cons x l ih =>
    have h1 := dictAppend_inv f x d0 h
    have h2 : ((dictAppend (f x) x d0).map Prod.fst).Nodup := by
      rw [dictAppend_keys]
      split
      · exact hn
      · rename_i hk
        exact List.nodup_append.2 ⟨hn, by simp, by intro a ha b hb e; simp at hb; subst hb; subst e; exact hk ha⟩
    obtain ⟨a, b, c⟩ := ih _ h1 h2
    refine ⟨?_, b, c⟩
    refine a.trans (((dictAppend_perm (f x) x d0).append_right l).trans ?_)
    simp

end Dict

theorem matrixGroup_eq_iff : ∀ {dep : List Bool} {dflt : List Int} {a b : Group},
    dflt.length = dep.length → a.length = dep.length → b.length = dep.length →
    (matrixGroup dep dflt a = matrixGroup dep dflt b ↔ SameMatrix dep dflt a b)
  | [], [], [], [], _, _, _ => by simp [matrixGroup, SameMatrix]
  | d :: dep, x :: dflt, g :: a, h :: b, h1, h2, h3 => by
      have ih := @matrixGroup_eq_iff dep dflt a b (by simpa using h1) (by simpa using h2) (by simpa using h3)
      unfold SameMatrix at ih ⊢
      rw [forall_nat_succ]
      simp only [matrixGroup, List.cons.injEq, ih, List.getElem?_cons_zero, List.getElem?_cons_succ]
      refine and_congr ?_ Iff.rfl
      cases d
      · by_cases hg : g = some 0 <;> by_cases hh : h = some 0 <;> simp [hg, hh]
        exact eq_comm
      · simp

/-! ## Slices -/

theorem mem_allIdx : ∀ {shape : List Nat} {i : Idx}, i ∈ allIdx shape ↔ InShape shape i
  | [], i => by simp [allIdx, InShape]
  | n :: ns, i => by
      simp only [allIdx, List.mem_flatMap, List.mem_range, List.mem_map, InShape, List.forall₂_cons_right_iff]
      constructor
      · rintro ⟨x, hx, r, hr, rfl⟩; exact ⟨x, r, hx, mem_allIdx.1 hr, rfl⟩
      · rintro ⟨x, r, hx, hr, rfl⟩; exact ⟨x, hx, r, mem_allIdx.2 hr, rfl⟩

theorem nodup_allIdx : ∀ (shape : List Nat), (allIdx shape).Nodup
  | [] => by simp [allIdx]
  | n :: ns => by
      rw [allIdx, List.nodup_flatMap]
      refine ⟨fun i _ => (nodup_allIdx ns).map fun a b h => by simpa using h, ?_⟩
      refine List.nodup_range.imp fun {a b} h r hr hs => ?_
      obtain ⟨_, _, rfl⟩ := List.mem_map.1 hr
      obtain ⟨_, _, e⟩ := List.mem_map.1 hs
      simp at e; exact h e.1.symm

theorem mem_product {α} : ∀ {ls : List (List α)} {s}, s ∈ product ls ↔ List.Forall₂ (· ∈ ·) s ls
  | [], s => by simp [product]
  | l :: ls, s => by
      simp only [product, List.mem_flatMap, List.mem_map, List.forall₂_cons_right_iff]
      constructor
      · rintro ⟨x, hx, r, hr, rfl⟩; exact ⟨x, r, hx, mem_product.1 hr, rfl⟩
      · rintro ⟨x, r, hx, hr, rfl⟩; exact ⟨x, hx, r, mem_product.2 hr, rfl⟩

theorem nodup_product {α} : ∀ {ls : List (List α)}, (∀ l ∈ ls, l.Nodup) → (product ls).Nodup
  | [], _ => by simp [product]
  | l :: ls, h => by
      rw [product, List.nodup_flatMap]
      refine ⟨fun i _ => (nodup_product fun m hm => h m (by simp [hm])).map fun a b h => by simpa using h, ?_⟩
      refine (h l (by simp)).imp fun {a b} hab r hr hs => ?_
      obtain ⟨_, _, rfl⟩ := List.mem_map.1 hr
      obtain ⟨_, _, e⟩ := List.mem_map.1 hs
      simp at e; exact hab e.1.symm

theorem lmin_mem : ∀ {l : List Nat}, l ≠ [] → lmin l ∈ l
  | [x], _ => by simp [lmin]
  | x :: y :: l, _ => by
      simp only [lmin]
      rcases le_total x (lmin (y :: l)) with h | h
      · rw [min_eq_left h]; simp
      · rw [min_eq_right h]; exact List.mem_cons_of_mem _ (lmin_mem (by simp))

theorem lmin_le : ∀ {l : List Nat} {x}, x ∈ l → lmin l ≤ x
  | [y], x, h => by simp at h; simp [lmin, h]
  | y :: z :: l, x, h => by
      simp only [lmin]
      rcases List.mem_cons.1 h with rfl | h
      · exact min_le_left _ _
      · exact (min_le_right _ _).trans (lmin_le h)

theorem lmax_mem : ∀ {l : List Nat}, l ≠ [] → lmax l ∈ l
  | [x], _ => by simp [lmax]
  | x :: y :: l, _ => by
      simp only [lmax]
      rcases le_total x (lmax (y :: l)) with h | h
      · rw [max_eq_right h]; exact List.mem_cons_of_mem _ (lmax_mem (by simp))
      · rw [max_eq_left h]; simp

theorem le_lmax : ∀ {l : List Nat} {x}, x ∈ l → x ≤ lmax l
  | [y], x, h => by simp at h; simp [lmax, h]
  | y :: z :: l, x, h => by
      simp only [lmax]
      rcases List.mem_cons.1 h with rfl | h
      · exact le_max_left _ _
      · exact (le_lmax h).trans (le_max_right _ _)

/-- The product slice containing a position. -/
def blockOf : Group → List Nat → Idx → List Sl
  | g :: gs, b :: bs, i :: is =>
    (match g with | none => Sl.all | some _ => Sl.range (i / b * b) (i / b * b + b)) :: blockOf gs bs is
  | _, _, _ => []

theorem blockOf_mem : ∀ {gset : Group} {shape bshape i}, gset.length = shape.length → bshape.length = shape.length →
    (∀ b ∈ bshape, 0 < b) → InShape shape i → blockOf gset bshape i ∈ product (subslices gset shape bshape) ∧
      inSlices (blockOf gset bshape i) i = true
  | [], [], [], i, _, _, _, h => by
      cases h; simp [blockOf, subslices, product, inSlices]
  | g :: gs, n :: shape, b :: bshape, i, h1, h2, hb, h => by
      obtain ⟨x, r, hx, hr, rfl⟩ := List.forall₂_cons_right_iff.1 h
      obtain ⟨ih1, ih2⟩ := @blockOf_mem gs shape bshape r (by simpa using h1) (by simpa using h2)
        (fun c hc => hb c (by simp [hc])) hr
      have hb0 : 0 < b := hb b (by simp)
      rw [mem_product] at ih1 ⊢
      have hdm := Nat.div_add_mod x b
      have hlt := Nat.mod_lt x hb0
      have e : x / b * b = b * (x / b) := Nat.mul_comm _ _
      constructor
      · simp only [blockOf, subslices, List.forall₂_cons]
        refine ⟨?_, ih1⟩
        cases g with
        | none => simp
        | some g =>
          simp only [List.mem_map, List.mem_range]
          refine ⟨x / b, ?_, rfl⟩
          rw [Nat.lt_iff_add_one_le, Nat.le_div_iff_mul_le hb0]
          have : (x / b + 1) * b = b * (x / b) + b := by ring
          omega
      · simp only [blockOf, inSlices, ih2, Bool.and_true]
        cases g with
        | none => rfl
        | some g => simp only [Sl.mem, Bool.and_eq_true, decide_eq_true_eq]; omega

/-- A product slice that contains a position is its block. -/
theorem eq_blockOf : ∀ {gset : Group} {shape bshape i s}, gset.length = shape.length → bshape.length = shape.length →
    (∀ b ∈ bshape, 0 < b) → InShape shape i → s ∈ product (subslices gset shape bshape) → inSlices s i = true →
      s = blockOf gset bshape i
  | [], [], [], i, s, _, _, _, h, hs, _ => by
      cases h; simpa [blockOf, subslices, product] using hs
  | g :: gs, n :: shape, b :: bshape, i, s, h1, h2, hb, h, hs, hi => by
      obtain ⟨x, r, hx, hr, rfl⟩ := List.forall₂_cons_right_iff.1 h
      rw [mem_product] at hs
      simp only [subslices] at hs
      obtain ⟨y, t, hy, ht, rfl⟩ := List.forall₂_cons_right_iff.1 hs
      simp only [inSlices, Bool.and_eq_true] at hi
      have ih := @eq_blockOf gs shape bshape r t (by simpa using h1) (by simpa using h2)
        (fun c hc => hb c (by simp [hc])) hr (mem_product.2 ht) hi.2
      simp only [blockOf, ih, List.cons.injEq, and_true]
      cases g with
      | none => simpa using hy
      | some g =>
        simp only [List.mem_map, List.mem_range] at hy
        obtain ⟨k, _, rfl⟩ := hy
        simp only [Sl.mem, Bool.and_eq_true, decide_eq_true_eq] at hi
        have : x / b = k := Nat.div_eq_of_lt_le (by omega) (by rw [Nat.succ_mul]; omega)
        simp [this]

theorem blockOf_eq_of_sameBlock : ∀ {gset : Group} {bshape i j}, gset.length = bshape.length → i.length = bshape.length →
    j.length = bshape.length → SameBlock gset bshape i j → blockOf gset bshape i = blockOf gset bshape j
  | [], [], [], [], _, _, _, _ => rfl
  | g :: gs, b :: bs, x :: i, y :: j, h1, h2, h3, h => by
      have ih := @blockOf_eq_of_sameBlock gs bs i j (by simpa using h1) (by simpa using h2) (by simpa using h3)
        fun ax g' b' x' y' a1 a2 a3 a4 => h (ax+1) g' b' x' y' (by simpa using a1) (by simpa using a2) (by simpa using a3) (by simpa using a4)
      simp only [blockOf, ih, List.cons.injEq, and_true]
      cases g with
      | none => rfl
      | some g => simp [h 0 g b x y (by simp) (by simp) (by simp) (by simp)]

theorem sameBlock_of_inSlices : ∀ {gset : Group} {shape bshape i j}, gset.length = shape.length → bshape.length = shape.length →
    (∀ b ∈ bshape, 0 < b) → InShape shape i → i.length = j.length → inSlices (blockOf gset bshape i) j = true →
      SameBlock gset bshape i j
  | [], [], [], i, j, _, _, _, _, _, _ => by
      intro ax g b x y h; simp at h
  | g :: gs, n :: shape, b :: bshape, i, j, h1, h2, hb, h, hl, hj => by
      obtain ⟨x, r, hx, hr, rfl⟩ := List.forall₂_cons_right_iff.1 h
      cases j with
      | nil => simp at hl
      | cons y j =>
        simp only [blockOf, inSlices, Bool.and_eq_true] at hj
        have ih := @sameBlock_of_inSlices gs shape bshape r j (by simpa using h1) (by simpa using h2)
          (fun c hc => hb c (by simp [hc])) hr (by simpa using hl) hj.2
        unfold SameBlock
        rw [forall_nat_succ]
        refine ⟨?_, by simpa [SameBlock] using ih⟩
        intro g' b' x' y' a1 a2 a3 a4
        simp at a1 a2 a3 a4
        subst a1 a2 a3 a4
        simp only [Sl.mem, Bool.and_eq_true, decide_eq_true_eq] at hj
        have hb0 : 0 < b := hb b (by simp)
        exact (Nat.div_eq_of_lt_le (by omega) (by rw [Nat.succ_mul]; omega)).symm

end Dedalus.Subsys
