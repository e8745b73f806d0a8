import Verif.VolumeField.Spec
import Verif.SphereField.Props
import Verif.Maps.Props

namespace Dedalus.VolumeField
open Orders SphereField

/-! ## Components -/

/-- the components of rank `r` -/
def Valid (rank : Nat) (t : List Nat) : Prop := t.length = rank ∧ ∀ x ∈ t, x < 3

theorem mem_indices : ∀ (rank : Nat) (t : List Nat), t ∈ indices rank ↔ Valid rank t
  | 0, t => by
    simp only [indices, List.mem_singleton, Valid]
    constructor
    · rintro rfl; simp
    · rintro ⟨h, -⟩; exact List.length_eq_zero_iff.1 h
  | r + 1, t => by
    simp only [indices, List.mem_flatMap, List.mem_map, mem_indices r]
    constructor
    · rintro ⟨x, hx, t', ⟨h1, h2⟩, rfl⟩
      refine ⟨by simp [h1], ?_⟩
      intro y hy
      rcases List.mem_cons.1 hy with rfl | hy
      · simp at hx; omega
      · exact h2 y hy
    · rintro ⟨h1, h2⟩
      match t, h1 with
      | x :: t', h1 =>
        have := h2 x (by simp)
        refine ⟨x, by simp; omega, t', ⟨by simpa using h1, fun y hy => h2 y (by simp [hy])⟩, rfl⟩

theorem regs_numbers {rank : Nat} {t : List Nat} (h : Valid rank t) : regs t = Spec.numbers t := by
  unfold regs Spec.numbers
  refine List.map_congr_left fun x hx => ?_
  have := h.2 x hx
  have : x = 0 ∨ x = 1 ∨ x = 2 := by omega
  rcases this with rfl | rfl | rfl <;> rfl

theorem regs_component {rank : Nat} {t : List Nat} (h : Valid rank t) : Regularity.Spec.Component rank (regs t) := by
  refine ⟨by unfold regs; rw [List.length_map, h.1], ?_⟩
  rw [regs_numbers h]
  unfold Spec.numbers
  intro y hy
  obtain ⟨x, _, rfl⟩ := List.mem_map.1 hy
  split_ifs <;> simp

theorem map_regs : ∀ rank : Nat, (indices rank).map regs = Regularity.range Regularity.ordering rank
  | 0 => rfl
  | r + 1 => by
    show List.map regs ([0, 1, 2].flatMap fun x => (indices r).map (x :: ·)) =
      [-1, 1, 0].flatMap fun s => (Regularity.range Regularity.ordering r).map (s :: ·)
    rw [← map_regs r]
    simp only [List.flatMap_cons, List.flatMap_nil, List.map_append, List.map_map, List.append_nil]
    rfl

theorem regs_injective {rank : Nat} {t t' : List Nat} (h : Valid rank t) (h' : Valid rank t') (e : regs t = regs t') : t = t' := by
  have hn : ((indices rank).map regs).Nodup := by rw [map_regs]; exact (Regularity.components_listed rank).1
  exact List.inj_on_of_nodup_map hn ((mem_indices rank t).2 h) ((mem_indices rank t').2 h') e

theorem nodup_indices (rank : Nat) : (indices rank).Nodup := by
  have hn : ((indices rank).map regs).Nodup := by rw [map_regs]; exact (Regularity.components_listed rank).1
  exact hn.of_map

/-! ## Recombination -/

section
variable {V : Type} [AddCommGroup V] [Module ℝ V]

/-- the product of the matrix and its transpose -/
theorem gram (ell rank : Nat) (t t' : List Nat) (h : Valid rank t) (h' : Valid rank t') :
    open Classical in
    ((indices rank).map fun s => Regularity.intertwiner ell (regs t) (regs s) * Regularity.intertwiner ell (regs t') (regs s)).sum =
      if t = t' ∧ Regularity.Spec.Allowed ell (regs t) then 1 else 0 := by
  classical
  have h1 := Regularity.regularity_round_trip ell rank (fun reg => if reg = regs t' then 1 else 0) (regs t) (regs_component h)
  have hb : ∀ s, Regularity.backwardRecombination ell rank (fun reg => if reg = regs t' then 1 else 0) s = Regularity.intertwiner ell (regs t') s := by
    intro s
    unfold Regularity.backwardRecombination
    simp only [mul_ite, mul_one, mul_zero]
    rw [← List.sum_toFinset _ (Regularity.components_listed rank).1, Finset.sum_ite_eq', if_pos]
    rw [List.mem_toFinset, (Regularity.components_listed rank).2]
    exact regs_component h'
  have hf : Regularity.forwardRecombination ell rank (Regularity.backwardRecombination ell rank (fun reg => if reg = regs t' then 1 else 0)) (regs t) =
      ((indices rank).map fun s => Regularity.intertwiner ell (regs t) (regs s) * Regularity.intertwiner ell (regs t') (regs s)).sum := by
    unfold Regularity.forwardRecombination
    rw [← map_regs, List.map_map]
    congr 1
    refine List.map_congr_left fun s _ => ?_
    simp only [Function.comp, hb]
  rw [hf] at h1
  by_cases ha : Regularity.Spec.Allowed ell (regs t)
  · rw [h1.1 ha]
    by_cases e : t = t'
    · rw [if_pos (by rw [e]), if_pos ⟨e, ha⟩]
    · rw [if_neg (fun e' => e (regs_injective h h' e')), if_neg (fun e' => e e'.1)]
  · rw [h1.2 ha, if_neg (fun e => ha e.2)]

/-- the sum over components -/
noncomputable def back (ell rank : Nat) (u : List Nat → V) (t : List Nat) : V :=
  ((indices rank).map fun t' => Regularity.intertwiner ell (regs t') (regs t) • u t').sum

noncomputable def forw (ell rank : Nat) (u : List Nat → V) (t : List Nat) : V :=
  ((indices rank).map fun t' => Regularity.intertwiner ell (regs t) (regs t') • u t').sum

theorem list_smul (c : ℝ) (l : List (List Nat)) (F : List Nat → V) : c • (l.map F).sum = (l.map fun t => c • F t).sum := by
  induction l with
  | nil => simp
  | cons a l ih => simp [ih]

theorem list_swap (l l' : List (List Nat)) (F : List Nat → List Nat → V) :
    (l.map fun a => (l'.map fun b => F a b).sum).sum = (l'.map fun b => (l.map fun a => F a b).sum).sum := by
  induction l with
  | nil => simp
  | cons a l ih => simp [ih, List.sum_map_add]

theorem sum_smul_list (l : List (List Nat)) (F : List Nat → ℝ) (v : V) : (l.map fun a => F a • v).sum = (l.map F).sum • v := by
  induction l with
  | nil => simp
  | cons a l ih => simp [ih, add_smul]

theorem sum_single (l : List (List Nat)) (hl : l.Nodup) (t : List Nat) (ht : t ∈ l) (F : List Nat → V) (h : ∀ a ∈ l, a ≠ t → F a = 0) :
    (l.map F).sum = F t := by
  classical
  rw [← List.sum_toFinset _ hl]
  exact Finset.sum_eq_single t (fun b hb hne => h b (List.mem_toFinset.1 hb) hne) (fun hn => absurd (List.mem_toFinset.2 ht) hn)

theorem forw_back (ell rank : Nat) (u : List Nat → V) (t : List Nat) (h : Valid rank t) :
    open Classical in
    forw ell rank (back ell rank u) t = if Regularity.Spec.Allowed ell (regs t) then u t else 0 := by
  classical
  unfold forw back
  simp only [list_smul, smul_smul]
  rw [list_swap]
  simp only [sum_smul_list]
  rw [sum_single (indices rank) (nodup_indices rank) t ((mem_indices rank t).2 h) _ fun a ha hne => by
    rw [gram ell rank t a h ((mem_indices rank a).1 ha), if_neg (fun e => hne e.1.symm), zero_smul]]
  rw [gram ell rank t t h h]
  simp only [true_and]
  split <;> simp

/-- spin components of a degree below their spin are zero -/
theorem back_spin (ell rank : Nat) (u : List Nat → V) (t : List Nat) (h : Valid rank t) (hs : (ell : Int) < |(regs t).sum|) : back ell rank u t = 0 := by
  unfold back
  refine List.sum_eq_zero fun v hv => ?_
  obtain ⟨t', ht', rfl⟩ := List.mem_map.1 hv
  have hv' := (mem_indices rank t').1 ht'
  have e : Regularity.intertwiner ell (regs t') (regs t) = 0 := by
    have h1 := regs_component h
    have h2 := regs_component hv'
    cases ht : regs t with
    | nil => rw [ht] at hs; simp at hs; omega
    | cons sigma tau =>
      cases ht2 : regs t' with
      | nil =>
        rw [ht] at h1; rw [ht2] at h2
        have e1 := h1.1
        have e2 := h2.1
        rw [← e2] at e1
        simp at e1
      | cons a b =>
        rw [ht] at hs
        rw [Regularity.intertwiner, if_pos]
        left
        unfold Regularity.forbiddenSpin
        exact decide_eq_true hs
  rw [e, zero_smul]

theorem intertwiner_nil (ell : Nat) (s : List Int) : Regularity.intertwiner ell [] s = 1 := by unfold Regularity.intertwiner; rfl

theorem back_zero (ell : Nat) (u : List Nat → V) : back ell 0 u [] = u [] := by
  unfold back indices
  simp [regs, intertwiner_nil]

theorem forw_zero (ell : Nat) (u : List Nat → V) : forw ell 0 u [] = u [] := by
  unfold forw indices
  simp [regs, intertwiner_nil]

theorem backward_regularity (maps : List Maps.Entry) (deg : Nat → Nat → Int) (R C : Nat) (rank : Nat) (hp : 0 < rank → Maps.Partition maps deg R C)
    (u : List Nat → Nat → Nat → V) (t : List Nat) (h : Valid rank t) (i j : Nat) (hi : i < R) (hj : j < C) :
    backwardRegularity maps rank u t i j = back (deg i j).toNat rank (fun t => u t i j) t := by
  unfold backwardRegularity
  split
  · rename_i hr
    have := (Maps.own_degree maps deg R C (hp hr) (V := List Nat → V) (W := Unit)
      (fun ell v t => ((indices rank).map fun t' => Regularity.intertwiner ell.toNat (regs t') (regs t) • v t').sum) (fun _ _ => ()) (fun i j t => u t i j)
      (fun _ _ => ()) i j hi hj).2.1
    exact congrFun this t
  · have hr : rank = 0 := by omega
    subst hr
    have : t = [] := List.length_eq_zero_iff.1 h.1
    subst this
    rw [back_zero]

theorem forward_regularity (maps : List Maps.Entry) (deg : Nat → Nat → Int) (R C : Nat) (rank : Nat) (hp : 0 < rank → Maps.Partition maps deg R C)
    (u : List Nat → Nat → Nat → V) (t : List Nat) (h : Valid rank t) (i j : Nat) (hi : i < R) (hj : j < C) :
    forwardRegularity maps rank u t i j = forw (deg i j).toNat rank (fun t => u t i j) t := by
  unfold forwardRegularity
  split
  · rename_i hr
    have := (Maps.own_degree maps deg R C (hp hr) (V := List Nat → V) (W := Unit)
      (fun ell v t => ((indices rank).map fun t' => Regularity.intertwiner ell.toNat (regs t) (regs t') • v t').sum) (fun _ _ => ()) (fun i j t => u t i j)
      (fun _ _ => ()) i j hi hj).2.1
    exact congrFun this t
  · have hr : rank = 0 := by omega
    subst hr
    have : t = [] := List.length_eq_zero_iff.1 h.1
    subst this
    rw [forw_zero]

theorem back_congr (ell rank : Nat) (u v : List Nat → V) (h : ∀ t, Valid rank t → u t = v t) (t : List Nat) : back ell rank u t = back ell rank v t := by
  unfold back
  congr 1
  exact List.map_congr_left fun t' ht' => by rw [h t' ((mem_indices rank t').1 ht')]

theorem forw_congr (ell rank : Nat) (u v : List Nat → V) (h : ∀ t, Valid rank t → u t = v t) (t : List Nat) : forw ell rank u t = forw ell rank v t := by
  unfold forw
  congr 1
  exact List.map_congr_left fun t' ht' => by rw [h t' ((mem_indices rank t').1 ht')]

theorem back_smul (ell rank : Nat) (c : ℝ) (u : List Nat → V) (t : List Nat) : back ell rank (fun t => c • u t) t = c • back ell rank u t := by
  unfold back
  rw [list_smul]
  congr 1
  exact List.map_congr_left fun t' _ => smul_comm _ _ _

/-! ## Radius -/

/-- Radial sums. -/
noncomputable def series (Rad : List Int → Nat → Nat → ℝ → ℝ) (Nr ell : Nat) (r : ℝ) (t : List Nat) (c : Nat → V) : V :=
  ∑ n ∈ Finset.range Nr, Rad (regs t) ell n r • c n

theorem radius_backward (maps : List Maps.Entry) (deg : Nat → Nat → Int) (R C : Nat) (rank Nr Ng : Nat) (hp : 0 < rank → Maps.Partition maps deg R C)
    (plan : List Nat → (Nat → Nat → Nat → V) → Nat → Nat → Nat → V) (f rad : Nat → ℝ) (Rad : List Int → Nat → Nat → ℝ → ℝ)
    (c : List Nat → Nat → Nat → Nat → V)
    (hB : ∀ t, Valid rank t → ∀ i j x, i < R → j < C → x < Ng → f x • plan t (c t) i j x = series Rad Nr (deg i j).toNat (rad x) t (c t i j))
    (t : List Nat) (h : Valid rank t) (i j x : Nat) (hi : i < R) (hj : j < C) (hx : x < Ng) :
    radiusBackward maps rank plan f c t i j x = back (deg i j).toNat rank (fun t => series Rad Nr (deg i j).toNat (rad x) t (c t i j)) t := by
  unfold radiusBackward
  simp only
  rw [backward_regularity maps deg R C rank hp _ t h i j hi hj, ← back_smul]
  exact back_congr _ _ _ _ (fun t ht => hB t ht i j x hi hj hx) t

theorem radius_forward (maps : List Maps.Entry) (deg : Nat → Nat → Int) (R C : Nat) (rank Nr Ng : Nat) (hp : 0 < rank → Maps.Partition maps deg R C)
    (plan : List Nat → (Nat → Nat → Nat → V) → Nat → Nat → Nat → V) (f' rad : Nat → ℝ) (Rad : List Int → Nat → Nat → ℝ → ℝ)
    (kept : List Int → Nat → Nat → Prop) (g c : List Nat → Nat → Nat → Nat → V)
    (hF : open Classical in ∀ t, Valid rank t → ∀ (u b : Nat → Nat → Nat → V), (∀ i j x, i < R → j < C → x < Ng →
      u i j x = f' x • series Rad Nr (deg i j).toNat (rad x) t (b i j)) → ∀ i j n, i < R → j < C → n < Nr →
        plan t u i j n = if kept (regs t) (deg i j).toNat n then b i j n else 0)
    (hg : ∀ t, Valid rank t → ∀ i j x, i < R → j < C → x < Ng →
      g t i j x = back (deg i j).toNat rank (fun t => series Rad Nr (deg i j).toNat (rad x) t (c t i j)) t)
    (t : List Nat) (h : Valid rank t) (i j n : Nat) (hi : i < R) (hj : j < C) (hn : n < Nr) :
    open Classical in
    radiusForward maps rank plan f' g t i j n =
      if Regularity.Spec.Allowed (deg i j).toNat (regs t) ∧ kept (regs t) (deg i j).toNat n then c t i j n else 0 := by
  classical
  unfold radiusForward
  simp only
  rw [hF t h _ (fun i j n => if Regularity.Spec.Allowed (deg i j).toNat (regs t) then c t i j n else 0) (fun i j x hi hj hx => ?_) i j n hi hj hn]
  · by_cases h1 : kept (regs t) (deg i j).toNat n
    · by_cases h2 : Regularity.Spec.Allowed (deg i j).toNat (regs t)
      · rw [if_pos h1, if_pos h2, if_pos ⟨h2, h1⟩]
      · rw [if_pos h1, if_neg h2, if_neg (fun e => h2 e.1)]
    · rw [if_neg h1, if_neg (fun e => h1 e.2)]
  · rw [forward_regularity maps deg R C rank hp _ t h i j hi hj]
    rw [forw_congr _ _ _ (back (deg i j).toNat rank fun t => f' x • series Rad Nr (deg i j).toNat (rad x) t (c t i j)) (fun t' ht' => by
      rw [hg t' ht' i j x hi hj hx, back_smul]), forw_back _ _ _ _ h]
    split
    · rfl
    · unfold series
      simp

end

/-! ## Degrees -/

theorem own_group (d : Dtype) (Nphi L i j : Nat) : sphereGroup d Nphi L i j = some (group d Nphi L i j) := by
  cases d <;> rfl

theorem degree_range {d : Dtype} {Nphi Ntheta : Nat} (hA : Orders.Spec.Allowed d Nphi Ntheta) (i j : Nat) (hi : i < (sphereShape d Nphi (lmaxOf d Ntheta)).1)
    (hj : j < (sphereShape d Nphi (lmaxOf d Ntheta)).2) :
    |(group d Nphi (lmaxOf d Ntheta) i j).1| ≤ (group d Nphi (lmaxOf d Ntheta) i j).2 ∧ (group d Nphi (lmaxOf d Ntheta) i j).2 ≤ lmaxOf d Ntheta := by
  obtain ⟨maps, -, hT⟩ := sphere_order_maps d Nphi Ntheta 1 1 0 hA (by omega)
  have hr : (sphereRows d Nphi (lmaxOf d Ntheta) 1 0)[i]? = some i := by
    rw [rows_one' _ _ _ hA]
    exact range_get.2 ⟨hi, rfl⟩
  obtain ⟨m, l, h1, h2, h3, -⟩ := hT.forward ℝ (fun _ _ _ => 0) (fun _ _ _ => 0) (fun _ _ => 0) (fun _ _ _ => rfl) i i j hr hj
  rw [own_group, Option.some.injEq] at h1
  rw [h1]
  exact ⟨h2, h3⟩

theorem degrees {d : Dtype} {Nphi Ntheta : Nat} (hA : Orders.Spec.Allowed d Nphi Ntheta) (hs : Spec.Separated d Nphi (lmaxOf d Ntheta)) :
    Maps.Partition (ellMaps d Nphi (lmaxOf d Ntheta)) (fun i j => (group d Nphi (lmaxOf d Ntheta) i j).2)
      (sphereShape d Nphi (lmaxOf d Ntheta)).1 (sphereShape d Nphi (lmaxOf d Ntheta)).2 := by
  unfold ellMaps
  by_cases h1 : mmax Nphi = 0
  · have := Maps.partition_of_convex (group d Nphi (lmaxOf d Ntheta)) d.parts 0 0 (sphereShape d Nphi (lmaxOf d Ntheta)).1
      (sphereShape d Nphi (lmaxOf d Ntheta)).2 (fun i j p q hj hp hq hR _ => ?_)
    · unfold Maps.deg at this
      simpa using this
    · have hz : ∀ i, i < (sphereShape d Nphi (lmaxOf d Ntheta)).1 → (group d Nphi (lmaxOf d Ntheta) (0 + i) (0 + j)).2 = j := by
        intro i hi
        have hs' : sphereShape d Nphi (lmaxOf d Ntheta) = (d.parts, lmaxOf d Ntheta + 1) := by unfold sphereShape; rw [if_neg (by omega)]
        rw [hs'] at hi hj
        simp only at hi hj
        cases d with
        | real =>
          have hi' : i < 2 := hi
          unfold group Sphere.groupReal
          simp only [Nat.zero_add]
          rw [if_neg (by omega), if_pos hi']
        | complex =>
          have hi' : i < 1 := hi
          unfold group Sphere.groupComplex
          simp only [Nat.zero_add]
          rw [if_neg (by omega), if_pos (by omega)]
      show (group d Nphi (lmaxOf d Ntheta) (0 + i) (0 + j)).2 = (group d Nphi (lmaxOf d Ntheta) (0 + p) (0 + j)).2
      rw [hz i (by omega), hz p (by omega)]
  · have h1' : Nphi ≠ 1 := by rintro rfl; exact h1 rfl
    have hm : 0 < mmax Nphi := by omega
    obtain ⟨h0, hdvd, -⟩ := hA.2.resolve_left h1'
    cases d with
    | complex =>
      have h2 : Nphi % 2 = 0 := by have : 2 ∣ Nphi := hdvd; omega
      have := Maps.degree_maps_complex_partial Nphi (lmaxOf .complex Ntheta) 0 0 (sphereShape .complex Nphi (lmaxOf .complex Ntheta)).1
        (sphereShape .complex Nphi (lmaxOf .complex Ntheta)).2 h2 (hs.resolve_left h1') (by unfold sphereShape; rw [if_pos hm]; simp)
        (by unfold sphereShape; rw [if_pos hm]; simp)
      simp only [Nat.zero_add] at this
      exact this
    | real =>
      have h4 : Nphi % 4 = 0 := by have : 4 ∣ Nphi := hdvd; omega
      have := Maps.degree_maps_real_partial Nphi (lmaxOf .real Ntheta) 0 0 (sphereShape .real Nphi (lmaxOf .real Ntheta)).1
        (sphereShape .real Nphi (lmaxOf .real Ntheta)).2 h4 (hs.resolve_left h1') (by unfold sphereShape; rw [if_pos hm]; simp)
        (by unfold sphereShape; rw [if_pos hm]; simp)
      simp only [Nat.zero_add] at this
      exact this

end Dedalus.VolumeField
