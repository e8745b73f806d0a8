import Verif.Subsys.Lemmas

namespace Dedalus.Subsys

/-- Membership in a slice of one axis of `groupSlice`. -/
def axisOk (hits : List Idx) (ax : Nat) (s : Sl) (x : Nat) : Prop :=
  match s with
  | .range lo hi => lo ≤ x ∧ x < hi
  | .all => lmin (hits.filterMap (·[ax]?)) ≤ x ∧ x ≤ lmax (hits.filterMap (·[ax]?))

theorem inBox_groupSlice (hits : List Idx) : ∀ (s : List Sl) (o : Nat) (k : Idx), k.length = s.length →
    (inBox (groupSlice hits o s) k = true ↔ ∀ ax x t, k[ax]? = some x → s[ax]? = some t → axisOk hits (o + ax) t x)
  | [], o, [], _ => by simp [groupSlice, inBox]
  | t :: s, o, x :: k, h => by
      have ih := inBox_groupSlice hits s (o+1) k (by simpa using h)
      rw [forall_nat_succ]
      simp only [groupSlice, inBox, Bool.and_eq_true, decide_eq_true_eq, ih, List.getElem?_cons_zero,
        Option.some.injEq, List.getElem?_cons_succ, Nat.add_zero, forall_eq']
      refine and_congr ?_ ?_
      · cases t <;> simp [axisOk, Nat.lt_succ_iff]
      · constructor <;> intro H ax y u h1 h2 <;> have := H ax y u h1 h2 <;>
          rwa [show o + 1 + ax = o + (ax + 1) by omega] at *

theorem inSlices_iff : ∀ {s : List Sl} {k : Idx}, k.length = s.length →
    (inSlices s k = true ↔ ∀ (ax : Nat) x t, k[ax]? = some x → s[ax]? = some t → t.mem x = true)
  | [], [], _ => by simp [inSlices]
  | t :: s, x :: k, h => by
      have ih := @inSlices_iff s k (by simpa using h)
      rw [forall_nat_succ]
      simp [inSlices, ih]

theorem blockOf_getElem? : ∀ {gset : Group} {bshape i} {ax : Nat} {t}, (blockOf gset bshape i)[ax]? = some t →
    (t = Sl.all ↔ gset[ax]? = some none)
  | g :: gs, b :: bs, x :: i, 0, t => by
      intro h
      simp [blockOf] at h
      subst h
      cases g <;> simp
  | g :: gs, b :: bs, x :: i, ax+1, t => by
      intro h
      simp only [blockOf, List.getElem?_cons_succ] at h ⊢
      exact blockOf_getElem? h
  | [], _, _, _, _ => by simp [blockOf]
  | _ :: _, [], _, _, _ => by simp [blockOf]
  | _ :: _, _ :: _, [], _, _ => by simp [blockOf]

theorem blockOf_length : ∀ {gset : Group} {bshape i}, gset.length = bshape.length → i.length = bshape.length →
    (blockOf gset bshape i).length = bshape.length
  | [], [], [], _, _ => rfl
  | g :: gs, b :: bs, x :: i, h1, h2 => by
      simp [blockOf, @blockOf_length gs bs i (by simpa using h1) (by simpa using h2)]

theorem filterMap_single {α β} (l : List α) (f : α → Option β) (a : α) (y : β) (hn : l.Nodup) (ha : a ∈ l)
    (hf : f a = some y) (ho : ∀ b ∈ l, b ≠ a → f b = none) : l.filterMap f = [y] := by
  induction l with
  | nil => simp at ha
  | cons b l ih =>
    obtain ⟨h1, h2⟩ := List.nodup_cons.1 hn
    rcases List.mem_cons.1 ha with rfl | ha
    · rw [List.filterMap_cons, hf]
      simp only [List.cons.injEq, true_and, List.filterMap_eq_nil_iff]
      intro c hc
      exact ho c (by simp [hc]) (by rintro rfl; exact h1 hc)
    · have hb : b ≠ a := by rintro rfl; exact h1 ha
      rw [List.filterMap_cons, ho b (by simp) hb]
      exact ih h2 ha fun c hc => ho c (by simp [hc])

theorem subslices_nodup : ∀ (gset : Group) (shape bshape : List Nat), (∀ b ∈ bshape, 0 < b) →
    ∀ l ∈ subslices gset shape bshape, l.Nodup
  | g :: gs, n :: shape, b :: bshape, hb, l, hl => by
      simp only [subslices, List.mem_cons] at hl
      rcases hl with rfl | hl
      · cases g with
        | none => simp
        | some g =>
          refine List.Nodup.map (fun x y h => ?_) List.nodup_range
          simp only [Sl.range.injEq] at h
          exact Nat.eq_of_mul_eq_mul_right (hb b (by simp)) h.1
      · exact subslices_nodup gs shape bshape (fun c hc => hb c (by simp [hc])) l hl
  | [], _, _, _, l, hl => by simp [subslices] at hl
  | _ :: _, [], _, _, l, hl => by simp [subslices] at hl
  | _ :: _, _ :: _, [], _, l, hl => by simp [subslices] at hl

theorem inBox_zero : ∀ {shape : List Nat} {k : Idx}, shape ≠ [] → k.length = shape.length →
    inBox (shape.map fun _ => (0, 0)) k = false
  | n :: ns, x :: k, _, _ => by simp [inBox]

theorem InShape.length {shape i} (h : InShape shape i) : i.length = shape.length := List.Forall₂.length_eq h

theorem slices_exact (groups : Idx → ElemGroup) (shape bshape : List Nat) (gset : Group)
    (hg : gset.length = shape.length) (hbl : bshape.length = shape.length) (hb : ∀ b ∈ bshape, 0 < b)
    (H1 : ∀ i j, InShape shape i → InShape shape j → selected gset (groups i) = true → selected gset (groups j) = true →
      SameBlock gset bshape i j)
    (H2 : ∀ k i, InShape shape k → InShape shape i → selected gset (groups i) = true → SameBlock gset bshape i k →
      (∀ ax x : Nat, gset[ax]? = some none → k[ax]? = some x → ∃ p q, InShape shape p ∧ InShape shape q ∧
        selected gset (groups p) = true ∧ selected gset (groups q) = true ∧
        ∃ y z, p[ax]? = some y ∧ q[ax]? = some z ∧ y ≤ x ∧ x ≤ z) →
      selected gset (groups k) = true) :
    ∃ box, coeffSlices groups shape bshape gset = some box ∧
      ∀ i, InShape shape i → (inBox box i = true ↔ selected gset (groups i) = true) := by
  by_cases hex : ∃ i, InShape shape i ∧ selected gset (groups i) = true
  · obtain ⟨i0, hi0, hs0⟩ := hex
    obtain ⟨hm0, hin0⟩ := blockOf_mem hg hbl hb hi0
    let hits := (allIdx shape).filter fun i => inSlices (blockOf gset bshape i0) i && selected gset (groups i)
    have mem_hits : ∀ k, k ∈ hits ↔ InShape shape k ∧ selected gset (groups k) = true := by
      intro k
      simp only [hits, List.mem_filter, mem_allIdx, Bool.and_eq_true]
      constructor
      · rintro ⟨a, _, c⟩; exact ⟨a, c⟩
      · rintro ⟨a, c⟩
        refine ⟨a, ?_, c⟩
        rw [blockOf_eq_of_sameBlock (by omega) (by rw [hi0.length]; omega) (by rw [a.length]; omega) (H1 i0 k hi0 a hs0 c)]
        exact (blockOf_mem hg hbl hb a).2
    have hne : hits ≠ [] := List.ne_nil_of_mem ((mem_hits i0).2 ⟨hi0, hs0⟩)
    have hres : groupsetSlices groups shape bshape gset = [groupSlice hits 0 (blockOf gset bshape i0)] := by
      unfold groupsetSlices
      refine filterMap_single _ _ (blockOf gset bshape i0) _ (nodup_product (subslices_nodup _ _ _ hb)) hm0 ?_ ?_
      · simp only
        rw [if_neg hne]
      · intro s hs hne'
        simp only
        rw [if_pos]
        rw [List.filter_eq_nil_iff]
        intro k hk hk2
        rw [Bool.and_eq_true] at hk2
        have hk' := mem_allIdx.1 hk
        apply hne'
        rw [eq_blockOf hg hbl hb hk' hs hk2.1]
        exact (blockOf_eq_of_sameBlock (by omega) (by rw [hi0.length]; omega) (by rw [hk'.length]; omega)
          (H1 i0 k hi0 hk' hs0 hk2.2)).symm
    refine ⟨groupSlice hits 0 (blockOf gset bshape i0), by simp [coeffSlices, hres], ?_⟩
    intro k hk
    have hlen : k.length = (blockOf gset bshape i0).length := by
      rw [blockOf_length (by omega) (by rw [hi0.length]; omega), hk.length]; omega
    rw [inBox_groupSlice hits _ 0 k hlen]
    constructor
    · intro H
      have hin : inSlices (blockOf gset bshape i0) k = true := by
        rw [inSlices_iff hlen]
        intro ax x t h1 h2
        have := H ax x t h1 h2
        cases t with
        | all => rfl
        | range lo hi => simpa [Sl.mem, axisOk] using this
      refine H2 k i0 hk hi0 hs0 (sameBlock_of_inSlices hg hbl hb hi0 (by rw [hi0.length, hk.length]) hin) ?_
      intro ax x ha hx
      have hax : ax < (blockOf gset bshape i0).length := by
        rw [← hlen]; exact (List.getElem?_eq_some_iff.1 hx).1
      obtain ⟨t, ht⟩ : ∃ t, (blockOf gset bshape i0)[ax]? = some t := ⟨_, List.getElem?_eq_getElem hax⟩
      have h := H ax x t hx ht
      rw [(blockOf_getElem? ht).2 ha] at h
      simp only [axisOk, Nat.zero_add] at h
      have hne2 : hits.filterMap (·[ax]?) ≠ [] := by
        have h0 : ax < i0.length := by rw [hi0.length, ← hk.length]; exact (List.getElem?_eq_some_iff.1 hx).1
        exact List.ne_nil_of_mem (List.mem_filterMap.2 ⟨i0, (mem_hits i0).2 ⟨hi0, hs0⟩, List.getElem?_eq_getElem h0⟩)
      obtain ⟨p, hp, hp2⟩ := List.mem_filterMap.1 (lmin_mem hne2)
      obtain ⟨q, hq, hq2⟩ := List.mem_filterMap.1 (lmax_mem hne2)
      have hp' := (mem_hits p).1 hp
      have hq' := (mem_hits q).1 hq
      exact ⟨p, q, hp'.1, hq'.1, hp'.2, hq'.2, _, _, hp2, hq2, h⟩
    · intro hsel ax x t hx ht
      have hkh := (mem_hits k).2 ⟨hk, hsel⟩
      have hin : inSlices (blockOf gset bshape i0) k = true := by
        have := (List.mem_filter.1 hkh).2
        rw [Bool.and_eq_true] at this
        exact this.1
      have := (inSlices_iff hlen).1 hin ax x t hx ht
      cases t with
      | range lo hi => simpa [Sl.mem, axisOk] using this
      | all =>
        simp only [axisOk, Nat.zero_add]
        have hm : x ∈ hits.filterMap (·[ax]?) := List.mem_filterMap.2 ⟨k, hkh, hx⟩
        exact ⟨lmin_le hm, le_lmax hm⟩
  · have hres : groupsetSlices groups shape bshape gset = [] := by
      unfold groupsetSlices
      rw [List.filterMap_eq_nil_iff]
      intro s _
      simp only
      rw [if_pos]
      rw [List.filter_eq_nil_iff]
      intro k hk hk2
      rw [Bool.and_eq_true] at hk2
      exact hex ⟨k, mem_allIdx.1 hk, hk2.2⟩
    refine ⟨shape.map fun _ => (0, 0), by simp [coeffSlices, hres], ?_⟩
    intro k hk
    have hns : selected gset (groups k) ≠ true := fun h => hex ⟨k, hk, h⟩
    have hsh : shape ≠ [] := by
      rintro rfl
      have : gset = [] := List.length_eq_zero_iff.1 hg
      subst this
      exact hns (by simp [selected])
    rw [inBox_zero hsh hk.length]
    simp [hns]

theorem selected_iff : ∀ {gset : Group} {e : ElemGroup}, gset.length = e.length →
    (selected gset e = true ↔ ∀ (ax : Nat) g, gset[ax]? = some (some g) → e[ax]? = some (some g))
  | [], [], _ => by simp [selected]
  | g :: gs, e :: es, h => by
      have ih := @selected_iff gs es (by simpa using h)
      rw [forall_nat_succ]
      simp only [selected, Bool.and_eq_true, ih, List.getElem?_cons_zero, List.getElem?_cons_succ, Option.some.injEq]
      refine and_congr ?_ Iff.rfl
      cases g <;> simp

end Dedalus.Subsys
