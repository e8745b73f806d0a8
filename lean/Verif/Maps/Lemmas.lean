import Verif.Maps.Spec
import Verif.Subsys.SliceLemmas

namespace Dedalus.Maps
open Subsys

variable (G : Nat → Nat → Int × Int) (b r0 c0 R C : Nat)

/-- degree of a local slot -/
def deg (i j : Nat) : Int := (G (r0 + i) (c0 + j)).2

/-- the elements found in column `k` for degree `e` -/
def hits (e : Int) (k : Nat) : List Idx :=
  (allIdx [R, C]).filter fun i => inSlices [Sl.all, Sl.range (k * 1) (k * 1 + 1)] i &&
    selected [none, some e] (localGroups G r0 c0 i)

theorem mem_hits (e : Int) (k : Nat) (x : Idx) : x ∈ hits G r0 c0 R C e k ↔ ∃ i, x = [i, k] ∧ i < R ∧ k < C ∧ deg G r0 c0 i k = e := by
  unfold hits
  rw [List.mem_filter, mem_allIdx]
  constructor
  · rintro ⟨h1, h2⟩
    match x, h1 with
    | [i, j], h1 =>
      have hi : i < R ∧ j < C := by simpa [InShape] using h1
      simp [inSlices, Sl.mem, selected, localGroups] at h2
      obtain ⟨h3, h4⟩ := h2
      have : j = k := by omega
      subst this
      exact ⟨i, rfl, hi.1, hi.2, h4⟩
  · rintro ⟨i, rfl, h1, h2, h3⟩
    refine ⟨by simp [InShape, h1, h2], ?_⟩
    simp only [deg] at h3
    simp [inSlices, Sl.mem, selected, localGroups, h3]

/-- the entry of a degree in a column -/
def entryOf (e : Int) (k : Nat) : Option Entry :=
  if hits G r0 c0 R C e k = [] then none
  else some ⟨e, (lmin ((hits G r0 c0 R C e k).filterMap (·[0]?)), lmax ((hits G r0 c0 R C e k).filterMap (·[0]?)) + 1),
    (k * 1, k * 1 + 1)⟩

theorem slices_eq (e : Int) :
    ((groupsetSlices (localGroups G r0 c0) [R, C] [b, 1] [none, some e]).filterMap fun s =>
      match s with | [m, e'] => some (⟨e, m, e'⟩ : Entry) | _ => none)
      = (List.range C).filterMap (entryOf G r0 c0 R C e) := by
  unfold groupsetSlices
  simp only [subslices, product, List.flatMap_cons, List.flatMap_nil, List.map_cons, List.map_nil, List.append_nil,
    List.flatMap_map, List.filterMap_map, Nat.div_one, Nat.add_sub_cancel]
  rw [List.filterMap_filterMap]
  have e1 : (List.range C).flatMap (fun a => [[Sl.range (a * 1) (a * 1 + 1)]])
      = (List.range C).map (fun a => [Sl.range (a * 1) (a * 1 + 1)]) := by
    rw [List.map_eq_flatMap]
  rw [e1, List.filterMap_map]
  refine List.filterMap_congr fun k _ => ?_
  simp only [Function.comp]
  unfold entryOf hits
  split
  · rfl
  · simp only [groupSlice, Option.bind_some]

theorem groupsets (gs : Group) : gs ∈ localGroupsets [true, false] ((allIdx [R, C]).map (localGroups G r0 c0)) ↔
    ∃ i j, i < R ∧ j < C ∧ gs = [none, some (deg G r0 c0 i j)] := by
  unfold localGroupsets
  rw [mem_addAll]
  simp only [List.not_mem_nil, false_or, List.mem_filterMap, List.mem_map, mem_allIdx]
  constructor
  · rintro ⟨_, ⟨x, hx, rfl⟩, h⟩
    match x, hx with
    | [i, j], hx =>
      have hi : i < R ∧ j < C := by simpa [InShape] using hx
      simp [localGroups, groupsetOf] at h
      exact ⟨i, j, hi.1, hi.2, h.symm⟩
  · rintro ⟨i, j, h1, h2, rfl⟩
    refine ⟨_, ⟨[i, j], by simp [InShape, h1, h2], rfl⟩, ?_⟩
    simp [localGroups, groupsetOf, deg]

theorem groupsets_nodup : (localGroupsets [true, false] ((allIdx [R, C]).map (localGroups G r0 c0))).Nodup :=
  nodup_addAll List.nodup_nil

/-- the list of degrees -/
def degrees : List Int := (localGroupsets [true, false] ((allIdx [R, C]).map (localGroups G r0 c0))).filterMap fun gs =>
  match gs with | [_, some ell] => some ell | _ => none

theorem mem_degrees (e : Int) : e ∈ degrees G r0 c0 R C ↔ ∃ i j, i < R ∧ j < C ∧ deg G r0 c0 i j = e := by
  unfold degrees
  rw [List.mem_filterMap]
  constructor
  · rintro ⟨gs, h1, h2⟩
    obtain ⟨i, j, hi, hj, rfl⟩ := (groupsets G r0 c0 R C gs).1 h1
    simp at h2
    exact ⟨i, j, hi, hj, h2⟩
  · rintro ⟨i, j, hi, hj, rfl⟩
    exact ⟨_, (groupsets G r0 c0 R C _).2 ⟨i, j, hi, hj, rfl⟩, rfl⟩

theorem ellMaps_eq : ellMaps G b r0 c0 R C = (degrees G r0 c0 R C).flatMap fun e => (List.range C).filterMap (entryOf G r0 c0 R C e) := by
  unfold ellMaps degrees
  have h : ∀ gs ∈ localGroupsets [true, false] ((allIdx [R, C]).map (localGroups G r0 c0)), ∃ e, gs = [none, some e] := by
    intro gs hgs
    obtain ⟨i, j, -, -, rfl⟩ := (groupsets G r0 c0 R C gs).1 hgs
    exact ⟨_, rfl⟩
  generalize localGroupsets [true, false] ((allIdx [R, C]).map (localGroups G r0 c0)) = l at h ⊢
  induction l with
  | nil => rfl
  | cons gs l ih =>
    obtain ⟨e, rfl⟩ := h gs (by simp)
    rw [List.flatMap_cons, ih fun g hg => h g (by simp [hg]), List.filterMap_cons]
    simp only [List.flatMap_cons]
    exact congrArg (· ++ _) (slices_eq G b r0 c0 R C e)

theorem degrees_nodup : (degrees G r0 c0 R C).Nodup := by
  unfold degrees
  have h : ∀ gs ∈ localGroupsets [true, false] ((allIdx [R, C]).map (localGroups G r0 c0)), ∃ e, gs = [none, some e] := by
    intro gs hgs
    obtain ⟨i, j, -, -, rfl⟩ := (groupsets G r0 c0 R C gs).1 hgs
    exact ⟨_, rfl⟩
  have hn := groupsets_nodup G r0 c0 R C
  generalize localGroupsets [true, false] ((allIdx [R, C]).map (localGroups G r0 c0)) = l at h hn ⊢
  induction l with
  | nil => simp
  | cons gs l ih =>
    obtain ⟨e, rfl⟩ := h gs (by simp)
    obtain ⟨h1, h2⟩ := List.nodup_cons.1 hn
    rw [List.filterMap_cons]
    simp only [List.nodup_cons]
    refine ⟨?_, ih (fun g hg => h g (by simp [hg])) h2⟩
    rw [List.mem_filterMap]
    rintro ⟨g, hg, hge⟩
    obtain ⟨e', rfl⟩ := h g (by simp [hg])
    simp at hge
    subst hge
    exact h1 hg

/-- the hull condition -/
def InHull (e : Int) (i j : Nat) : Prop := ∃ p q, p < R ∧ q < R ∧ p ≤ i ∧ i ≤ q ∧ deg G r0 c0 p j = e ∧ deg G r0 c0 q j = e

theorem entryOf_covers {e : Int} {k : Nat} {t : Entry} (h : entryOf G r0 c0 R C e k = some t) (i j : Nat) :
    t.covers i j = true ↔ k = j ∧ InHull G r0 c0 R e i j := by
  unfold entryOf at h
  split at h
  · simp at h
  · rename_i hne
    simp only [Option.some.injEq] at h
    subst h
    have hne2 : (hits G r0 c0 R C e k).filterMap (·[0]?) ≠ [] := by
      obtain ⟨x, hx⟩ := List.exists_mem_of_ne_nil _ hne
      obtain ⟨i, rfl, -⟩ := (mem_hits G r0 c0 R C e k x).1 hx
      exact List.ne_nil_of_mem (List.mem_filterMap.2 ⟨_, hx, rfl⟩)
    have hm : ∀ p, p ∈ (hits G r0 c0 R C e k).filterMap (·[0]?) ↔ p < R ∧ k < C ∧ deg G r0 c0 p k = e := by
      intro p
      rw [List.mem_filterMap]
      constructor
      · rintro ⟨x, hx, h⟩
        obtain ⟨i, rfl, h1, h2, h3⟩ := (mem_hits G r0 c0 R C e k x).1 hx
        simp at h
        subst h
        exact ⟨h1, h2, h3⟩
      · rintro ⟨h1, h2, h3⟩
        exact ⟨[p, k], (mem_hits G r0 c0 R C e k _).2 ⟨p, rfl, h1, h2, h3⟩, rfl⟩
    have hlo := (hm _).1 (lmin_mem hne2)
    have hhi := (hm _).1 (lmax_mem hne2)
    simp only [Entry.covers, Bool.and_eq_true, decide_eq_true_eq]
    constructor
    · rintro ⟨⟨h1, h2⟩, h3, h4⟩
      have : k = j := by omega
      subst this
      exact ⟨rfl, _, _, hlo.1, hhi.1, h1, by omega, hlo.2.2, hhi.2.2⟩
    · rintro ⟨rfl, p, q, hp, hq, h1, h2, h3, h4⟩
      have a := lmin_le ((hm p).2 ⟨hp, hlo.2.1, h3⟩)
      have c := le_lmax ((hm q).2 ⟨hq, hlo.2.1, h4⟩)
      omega

theorem entryOf_ell {e : Int} {k : Nat} {t : Entry} (h : entryOf G r0 c0 R C e k = some t) :
    t.ell = e ∧ t.rows.2 ≤ R ∧ t.cols.2 ≤ k + 1 := by
  unfold entryOf at h
  split at h
  · simp at h
  · rename_i hne
    simp only [Option.some.injEq] at h
    subst h
    refine ⟨rfl, ?_, by simp⟩
    have hne2 : (hits G r0 c0 R C e k).filterMap (·[0]?) ≠ [] := by
      obtain ⟨x, hx⟩ := List.exists_mem_of_ne_nil _ hne
      obtain ⟨i, rfl, -⟩ := (mem_hits G r0 c0 R C e k x).1 hx
      exact List.ne_nil_of_mem (List.mem_filterMap.2 ⟨_, hx, rfl⟩)
    obtain ⟨x, hx, h2⟩ := List.mem_filterMap.1 (lmax_mem hne2)
    obtain ⟨i, rfl, h3, -⟩ := (mem_hits G r0 c0 R C e k x).1 hx
    simp at h2
    simp only
    omega

theorem entryOf_isSome {e : Int} {i j : Nat} (hj : j < C) (h : InHull G r0 c0 R e i j) :
    ∃ t, entryOf G r0 c0 R C e j = some t := by
  obtain ⟨p, q, hp, -, -, -, hd, -⟩ := h
  have := (mem_hits G r0 c0 R C e j [p, j]).2 ⟨p, rfl, hp, hj, hd⟩
  unfold entryOf
  rw [if_neg (List.ne_nil_of_mem this)]
  exact ⟨_, rfl⟩

open Classical in
theorem visits_eq (i j : Nat) (hj : j < C) :
    visits (ellMaps G b r0 c0 R C) i j = (degrees G r0 c0 R C).filter fun e => decide (InHull G r0 c0 R e i j) := by
  unfold visits
  rw [ellMaps_eq]
  generalize degrees G r0 c0 R C = l
  induction l with
  | nil => rfl
  | cons e l ih =>
    rw [List.flatMap_cons, List.filter_append, List.map_append, ih, List.filter_cons]
    by_cases h : InHull G r0 c0 R e i j
    · rw [if_pos (by simpa using h)]
      obtain ⟨t, ht⟩ := entryOf_isSome G r0 c0 R C hj h
      have : ((List.range C).filterMap (entryOf G r0 c0 R C e)).filter (·.covers i j) = [t] := by
        rw [List.filter_filterMap]
        refine filterMap_single _ _ j t List.nodup_range (by simpa using hj) ?_ ?_
        · rw [ht]; simp [Option.filter, (entryOf_covers G r0 c0 R C ht i j).2 ⟨rfl, h⟩]
        · intro k _ hk
          cases hke : entryOf G r0 c0 R C e k with
          | none => rfl
          | some t' =>
            have : t'.covers i j = false := by
              rw [Bool.eq_false_iff]
              intro hc
              exact hk ((entryOf_covers G r0 c0 R C hke i j).1 hc).1
            simp [Option.filter, this]
      rw [this]
      simp [(entryOf_ell G r0 c0 R C ht).1]
    · rw [if_neg (by simpa using h)]
      have : ((List.range C).filterMap (entryOf G r0 c0 R C e)).filter (·.covers i j) = [] := by
        rw [List.filter_eq_nil_iff]
        intro t ht hc
        obtain ⟨k, _, hk⟩ := List.mem_filterMap.1 ht
        exact h ((entryOf_covers G r0 c0 R C hk i j).1 hc).2
      rw [this]
      rfl

theorem visits_nodup (i j : Nat) (hj : j < C) : (visits (ellMaps G b r0 c0 R C) i j).Nodup := by
  classical
  rw [visits_eq _ _ _ _ _ _ _ _ hj]
  exact (degrees_nodup G r0 c0 R C).filter _

theorem mem_visits (i j : Nat) (hj : j < C) (e : Int) :
    e ∈ visits (ellMaps G b r0 c0 R C) i j ↔ InHull G r0 c0 R e i j := by
  classical
  rw [visits_eq _ _ _ _ _ _ _ _ hj, List.mem_filter, mem_degrees, decide_eq_true_iff]
  constructor
  · exact fun h => h.2
  · intro h
    refine ⟨?_, h⟩
    obtain ⟨p, q, hp, -, -, -, hd, -⟩ := h
    exact ⟨p, j, hp, hj, hd⟩

theorem inside (e : Entry) (he : e ∈ ellMaps G b r0 c0 R C) : e.rows.2 ≤ R ∧ e.cols.2 ≤ C := by
  rw [ellMaps_eq] at he
  obtain ⟨d, -, h⟩ := List.mem_flatMap.1 he
  obtain ⟨k, hk, h⟩ := List.mem_filterMap.1 h
  have := entryOf_ell G r0 c0 R C h
  have := List.mem_range.1 hk
  omega

/-- convex columns give a partition -/
theorem partition_of_convex
    (h : ∀ i j p q, j < C → p ≤ i → i ≤ q → q < R → deg G r0 c0 p j = deg G r0 c0 q j → deg G r0 c0 i j = deg G r0 c0 p j) :
    Partition (ellMaps G b r0 c0 R C) (deg G r0 c0) R C := by
  refine ⟨fun i j hi hj => ?_, inside G b r0 c0 R C⟩
  have hn := visits_nodup G b r0 c0 R C i j hj
  have hm := mem_visits G b r0 c0 R C i j hj
  have h1 : ∀ e, e ∈ visits (ellMaps G b r0 c0 R C) i j ↔ e = deg G r0 c0 i j := by
    intro e
    rw [hm]
    constructor
    · rintro ⟨p, q, hp, hq, h1, h2, h3, h4⟩
      rw [h i j p q hj h1 h2 hq (by rw [h3, h4]), h3]
    · rintro rfl
      exact ⟨i, i, hi, hi, le_rfl, le_rfl, rfl, rfl⟩
  generalize visits (ellMaps G b r0 c0 R C) i j = l at hn h1
  match l, hn, h1 with
  | [], _, h1 => exact absurd ((h1 _).2 rfl) (by simp)
  | [x], _, h1 => rw [(h1 x).1 (by simp)]
  | x :: y :: l, hn, h1 =>
    have hx := (h1 x).1 (by simp)
    have hy := (h1 y).1 (by simp)
    simp [hx, hy] at hn

theorem operate_eq {V : Type*} [AddCommMonoid V] (maps : List Entry) (A : Int → V → V) (x : Nat → Nat → V) (i j : Nat) :
    operate maps A x i j = ((visits maps i j).map fun e => A e (x i j)).sum := by
  unfold operate visits
  suffices h : ∀ (l : List Entry) (o : Nat → Nat → V),
      l.foldl (fun out e => fun i j => if e.covers i j then out i j + A e.ell (x i j) else out i j) o i j
        = o i j + (((l.filter (·.covers i j)).map (·.ell)).map fun e => A e (x i j)).sum by
    rw [h, zero_add]
  intro l
  induction l with
  | nil => intro o; simp
  | cons e l ih =>
    intro o
    rw [List.foldl_cons, ih]
    by_cases hc : e.covers i j = true
    · rw [if_pos hc, List.filter_cons, if_pos hc]
      simp [add_assoc]
    · rw [if_neg hc, List.filter_cons, if_neg hc]

theorem inPlace_eq {V : Type*} (maps : List Entry) (A : Int → V → V) (x : Nat → Nat → V) (i j : Nat) :
    inPlace maps A x i j = (visits maps i j).foldl (fun v e => A e v) (x i j) := by
  unfold inPlace visits
  induction maps generalizing x with
  | nil => rfl
  | cons e l ih =>
    rw [List.foldl_cons, ih]
    by_cases hc : e.covers i j = true
    · rw [if_pos hc, List.filter_cons, if_pos hc]; rfl
    · rw [if_neg hc, List.filter_cons, if_neg hc]

theorem assign_eq {V W : Type*} (maps : List Entry) (A : Int → V → W) (x : Nat → Nat → V) (y : Nat → Nat → W) (i j : Nat) :
    assign maps A x y i j = (visits maps i j).foldl (fun _ e => A e (x i j)) (y i j) := by
  unfold assign visits
  induction maps generalizing y with
  | nil => rfl
  | cons e l ih =>
    rw [List.foldl_cons, ih]
    by_cases hc : e.covers i j = true
    · rw [if_pos hc, List.filter_cons, if_pos hc]; rfl
    · rw [if_neg hc, List.filter_cons, if_neg hc]

end Dedalus.Maps
