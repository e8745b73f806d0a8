import Verif.Orders.Polar

namespace Dedalus.Orders
open Subsys Dist

/-- axisymmetric bases: one order -/
theorem maps_zonal (G : Nat → Nat → Option (Int × Int)) (w : Nat → Int) (b L Ng s t : Nat) (hb : 0 < b) (ht : t ≤ 1) (hg : 0 < Ng)
    (hG : ∀ r j, r < b → j < L + 1 → G r j = some (0, (j : Int))) (hw : ∀ r, r < b → w r = 0) :
    ∃ maps, (localGroupsets [false, true] ((allIdx [(List.range' (b * s) (b * (t - s))).length, L + 1]).map
        (coeffGroups G (List.range' (b * s) (b * (t - s)))))).mapM
      (entry true G w b (List.range' (b * s) (b * (t - s))) (List.range' (b * s) (b * (t - s))) (L + 1) Ng) = some maps ∧
      (∀ e, e ∈ maps ↔ ∃ k, s ≤ k ∧ k < t ∧ e = polE b (L + 1) (fun _ => 0) (fun _ => 0) s k) ∧ (maps.map (·.m)).Nodup := by
  rw [List.length_range']
  have hgs : ∀ gs, gs ∈ localGroupsets [false, true] ((allIdx [b * (t - s), L + 1]).map (coeffGroups G (List.range' (b * s) (b * (t - s))))) ↔
      ∃ k, s ≤ k ∧ k < t ∧ gs = [some 0, none] := by
    intro gs
    rw [mem_groupsets _ _ _ (fun i j => (G (b * s + i) j).map (·.1))]
    · constructor
      · rintro ⟨i, j, m, hi, hj, h1, rfl⟩
        have hd := div_in hi
        have hs0 : s = 0 := by generalize (b * s + i) / b = x at hd; omega
        subst hs0
        have ht1 : t = 1 := by generalize (b * 0 + i) / b = x at hd; omega
        subst ht1
        rw [Nat.mul_zero, Nat.zero_add, hG i j (by simpa using hi) hj] at h1
        simp at h1
        exact ⟨0, by omega, by omega, by rw [← h1]⟩
      · rintro ⟨k, h1, h2, rfl⟩
        have hs0 : s = 0 := by omega
        have ht1 : t = 1 := by omega
        subst hs0 ht1
        exact ⟨0, 0, 0, by simpa using hb, by omega, by simp [hG 0 0 hb (by omega)], rfl⟩
    · intro i j hi hj
      exact ⟨(G (b * s + i) j).map (·.2), by simp only [coeffGroups, (range'_get _ _ _ _).2 ⟨hi, rfl⟩]⟩
  have hent : ∀ k, s ≤ k → k < t → entry true G w b (List.range' (b * s) (b * (t - s))) (List.range' (b * s) (b * (t - s))) (L + 1) Ng [some 0, none]
      = some (polE b (L + 1) (fun _ => 0) (fun _ => 0) s k) := by
    intro k h1 h2
    have hs0 : s = 0 := by omega
    have ht1 : t = 1 := by omega
    have hk0 : k = 0 := by omega
    subst hs0 ht1 hk0
    rw [entry_eq true G w b _ _ _ _ _ (b * 0, b * 0 + b) (0, L + 1) (b * 0, b * 0 + b) (0, Ng)]
    · simp [polE]
    · rw [List.length_range']
      refine slices_one _ _ _ _ _ 0 _ _ hb (by simpa using hb) (by omega) le_rfl ?_
      intro i j hi hj
      have hi' : i < b := by simpa using hi
      rw [coeff_selected _ _ i j i _ ((range'_get _ _ _ _).2 ⟨hi, by simp⟩), hG i j hi' hj]
      simp [hi', hj]
    · rw [List.length_range']
      refine slices_one _ _ _ _ _ 0 _ _ hb (by simpa using hb) hg le_rfl ?_
      intro i j hi hj
      have hi' : i < b := by simpa using hi
      rw [grid_selected _ _ i j i _ ((range'_get _ _ _ _).2 ⟨hi, by simp⟩), hw i hi']
      simp [hi', hj]
  obtain ⟨maps, h1, h2, h3⟩ := mapM_some (entry true G w b (List.range' (b * s) (b * (t - s))) (List.range' (b * s) (b * (t - s))) (L + 1) Ng)
    (localGroupsets [false, true] ((allIdx [b * (t - s), L + 1]).map (coeffGroups G (List.range' (b * s) (b * (t - s)))))) (by
      intro gs hm
      obtain ⟨k, a1, a2, rfl⟩ := (hgs gs).1 hm
      exact ⟨_, hent k a1 a2⟩)
  refine ⟨maps, h1, ?_, ?_⟩
  · intro e
    rw [h2]
    constructor
    · rintro ⟨gs, hm, he⟩
      obtain ⟨k, a1, a2, rfl⟩ := (hgs gs).1 hm
      rw [hent k a1 a2] at he
      exact ⟨k, a1, a2, (Option.some.inj he).symm⟩
    · rintro ⟨k, a1, a2, rfl⟩
      exact ⟨_, (hgs _).2 ⟨k, a1, a2, rfl⟩, hent k a1 a2⟩
  · have := h3 (fun e => ([some e.m, none] : Group)) id (by
      intro gs hm e he
      obtain ⟨k, a1, a2, rfl⟩ := (hgs gs).1 hm
      rw [hent k a1 a2] at he
      rw [← Option.some.inj he]
      rfl)
    rw [List.map_id] at this
    have hn : (maps.map fun e => ([some e.m, none] : Group)).Nodup := by
      rw [this]; exact nodup_addAll List.nodup_nil
    have hc : (maps.map fun e => ([some e.m, none] : Group)) = (maps.map (·.m)).map fun m => ([some m, none] : Group) := by
      rw [List.map_map]; rfl
    rw [hc] at hn
    exact hn.of_map

theorem rows_zero (b : Nat) (w : Nat → Int) (hb : 0 < b) (hw : ∀ r, r < b → w r = 0) : Rows b 1 (fun _ => 0) w :=
  ⟨hb, fun k k' _ _ _ => by omega, fun r hr => hw r (by simpa using hr)⟩

/-- widths of the slices -/
theorem width_pack {b C L sh : Nat} {o : Nat → Int} {G : Nat → Nat → Option (Int × Int)} {w : Nat → Int} (hp : Pack b C L sh o G w)
    (k : Nat) (hk : k < C) (h : Bool) (hne : clo L sh k h < chi L sh k h) :
    (ordr o k h).natAbs ≤ L ∧ chi L sh k h - clo L sh k h = L + 1 - (ordr o k h).natAbs := by
  have ha := hp.abs _ hk
  have hl := hp.le _ hk
  have hn : |o k| = ((o k).natAbs : Int) := Int.abs_eq_natAbs _
  have hn2 : ((k : Int)).natAbs = k := Int.natAbs_natCast k
  unfold clo chi ordr at *
  cases h <;> by_cases h0 : k = 0
  · simp [h0]
  · simp only [Bool.false_eq_true, if_false, h0] at *; omega
  · subst h0; simp only [if_true] at *; omega
  · simp only [if_true, h0, if_false] at *; omega

end Dedalus.Orders
