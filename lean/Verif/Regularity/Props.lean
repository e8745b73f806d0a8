import Verif.Regularity.Count
import Verif.Regularity.Spec

/-!
# Properties of the regularity recombinations (C64)
-/

namespace Dedalus.Regularity

/-- The degree `ell` changes by the entries from the last to the first; it must stay non-negative and must not stay zero. -/
def Spec.Allowed (ell : Nat) (reg : List Int) : Prop :=
  ∀ (before : List Int) (a : Int) (after : List Int), reg = before ++ a :: after → 0 ≤ ell + after.sum + a ∧ (ell + after.sum = 0 → a ≠ 0)

theorem allowed_spec (ell : Nat) : ∀ reg, Allowed ell reg ↔ Spec.Allowed ell reg
  | [] => ⟨fun _ x a b h => by simp at h, fun _ => rfl⟩
  | a :: b => by
    rw [allowed_cons, allowed_spec ell b]
    constructor
    · rintro ⟨h1, h2, h3⟩ x c y h
      cases x with
      | nil =>
        obtain ⟨rfl, rfl⟩ := List.cons.inj h
        exact ⟨h2, fun hz hc => h3 ⟨hz, by omega⟩⟩
      | cons d x =>
        obtain ⟨rfl, rfl⟩ := List.cons.inj h
        exact h1 x c y rfl
    · intro h
      refine ⟨fun x c y e => h (a :: x) c y (by rw [e]; rfl), (h [] a b rfl).1, fun hz => (h [] a b rfl).2 hz.1 (by omega)⟩

/-- `forbidden_regularity` rejects exactly the regularities that are not allowed, also through its shortcut. -/
theorem forbidden_regularity_correct (ell rank : Nat) (reg : List Int) (h : Spec.Component rank reg) :
    forbiddenRegularity ell reg = false ↔ Spec.Allowed ell reg := by
  rw [forbidden_iff ell reg h.2, allowed_spec]

theorem allowedLoop_false : ∀ (reg : List Int) (w : Int), allowedLoop w false reg = false
  | [], _ => rfl
  | dr :: rest, w => by
    rw [allowedLoop]
    have : (if dr = 0 then (if w + dr = 0 then false else (if w + dr < 0 then false else false)) else (if w + dr < 0 then false else false)) = false := by
      split_ifs <;> rfl
    rw [this]
    exact allowedLoop_false rest _

theorem allowedLoop_walk : ∀ (reg : List Int) (w : Int), allowedLoop w true reg = !badWalk w reg
  | [], _ => rfl
  | dr :: rest, w => by
    rw [allowedLoop, badWalk]
    by_cases h : w + dr < 0 ∨ (w = 0 ∧ w + dr = 0)
    · rw [if_pos h]
      have : (if dr = 0 then (if w + dr = 0 then false else (if w + dr < 0 then false else true)) else (if w + dr < 0 then false else true)) = false := by
        split_ifs <;> first | rfl | omega
      rw [this, allowedLoop_false]
      rfl
    · rw [if_neg h]
      have : (if dr = 0 then (if w + dr = 0 then false else (if w + dr < 0 then false else true)) else (if w + dr < 0 then false else true)) = true := by
        split_ifs <;> first | rfl | omega
      rw [this, allowedLoop_walk]

/-- The vectorised check decides the same. -/
theorem allowed_vectorized_correct (ell rank : Nat) (reg : List Int) (h : Spec.Component rank reg) :
    allowedVectorized ell reg = !forbiddenRegularity ell reg := by
  unfold allowedVectorized
  rw [allowedLoop_walk]
  have h1 := forbidden_iff ell reg h.2
  unfold Allowed at h1
  cases hb : badWalk ell reg.reverse <;> cases hf : forbiddenRegularity ell reg <;> simp_all

/-- From regularity components to spin components and back: allowed components are unchanged, the others are dropped. -/
theorem regularity_round_trip (ell rank : Nat) (u : List Int → ℝ) (reg : List Int) (h : Spec.Component rank reg) :
    (Spec.Allowed ell reg → forwardRecombination ell rank (backwardRecombination ell rank u) reg = u reg) ∧
    (¬Spec.Allowed ell reg → forwardRecombination ell rank (backwardRecombination ell rank u) reg = 0) := by
  have hT : reg ∈ T rank := (mem_T rank reg).2 h
  have e : forwardRecombination ell rank (backwardRecombination ell rank u) reg =
      ∑ a ∈ T rank, (∑ s ∈ T rank, intertwiner ell reg s * intertwiner ell a s) * u a := by
    have e1 : forwardRecombination ell rank (backwardRecombination ell rank u) reg =
        ∑ s ∈ T rank, intertwiner ell reg s * ∑ a ∈ T rank, intertwiner ell a s * u a := rfl
    rw [e1]
    simp only [Finset.mul_sum, Finset.sum_mul]
    rw [Finset.sum_comm]
    apply Finset.sum_congr rfl
    intro a _
    apply Finset.sum_congr rfl
    intro s _
    ring
  have hzero : ∀ a, a ∈ T rank → ¬Allowed ell a → ∀ s ∈ T rank, intertwiner ell a s = 0 := by
    intro a ha hna s hs
    obtain ⟨l1, l2⟩ := (mem_T rank a).1 ha
    obtain ⟨l3, l4⟩ := (mem_T rank s).1 hs
    cases a with
    | nil => exact absurd (allowed_nil ell) hna
    | cons a b =>
      cases s with
      | nil => simp at l1 l3; omega
      | cons s τ => exact inter_forbidden ell a b l2 s τ hna
  constructor
  · intro hall
    have hall := (allowed_spec ell reg).2 hall
    rw [e, Finset.sum_eq_single_of_mem reg hT]
    · have := inter_ortho ell reg reg rfl h.2 h.2 hall hall
      rw [ip_tot, h.1, tot_sum, if_pos rfl] at this
      rw [this, one_mul]
    · intro a ha hne
      by_cases hna : Allowed ell a
      · obtain ⟨l1, l2⟩ := (mem_T rank a).1 ha
        have := inter_ortho ell reg a (by rw [h.1, l1]) h.2 l2 hall hna
        rw [ip_tot, h.1, tot_sum, if_neg (Ne.symm hne)] at this
        rw [this, zero_mul]
      · rw [Finset.sum_eq_zero fun s hs => by rw [hzero a ha hna s hs, mul_zero], zero_mul]
  · intro hna
    have hna : ¬Allowed ell reg := fun h => hna ((allowed_spec ell reg).1 h)
    rw [e]
    apply Finset.sum_eq_zero
    intro a _
    rw [Finset.sum_eq_zero fun s hs => by rw [hzero reg hT hna s hs, zero_mul], zero_mul]

/-- From spin components to regularity components and back: components of spin at most `ell` are unchanged, the others,
which no function of degree `ell` has, are dropped. -/
theorem spin_round_trip (ell rank : Nat) (u : List Int → ℝ) (spin : List Int) (h : Spec.Component rank spin) :
    (|spin.sum| ≤ ell → backwardRecombination ell rank (forwardRecombination ell rank u) spin = u spin) ∧
    ((ell : Int) < |spin.sum| → backwardRecombination ell rank (forwardRecombination ell rank u) spin = 0) := by
  have hT : spin ∈ T rank := (mem_T rank spin).2 h
  have e : backwardRecombination ell rank (forwardRecombination ell rank u) spin =
      ∑ s ∈ T rank, (∑ a ∈ T rank, intertwiner ell a spin * intertwiner ell a s) * u s := by
    have e1 : backwardRecombination ell rank (forwardRecombination ell rank u) spin =
        ∑ a ∈ T rank, intertwiner ell a spin * ∑ s ∈ T rank, intertwiner ell a s * u s := rfl
    rw [e1]
    simp only [Finset.mul_sum, Finset.sum_mul]
    rw [Finset.sum_comm]
    apply Finset.sum_congr rfl
    intro a _
    apply Finset.sum_congr rfl
    intro s _
    ring
  have hz : ∀ s ∈ T rank, (ell : Int) < |s.sum| → ∀ a ∈ T rank, intertwiner ell a s = 0 := by
    intro s hs hss a ha
    have l1 := (mem_T rank a).1 ha
    have l2 := (mem_T rank s).1 hs
    exact inter_supp ell a s (by rw [l1.1, l2.1]) l2.2 (by rw [add_zero]; exact hss)
  have hfil : ∀ s ∈ T rank, ∑ a ∈ T rank, intertwiner ell a spin * intertwiner ell a s =
      ∑ a ∈ (T rank).filter (fun τ => badWalk ell τ.reverse = false), intertwiner ell a spin * intertwiner ell a s := by
    intro s hs
    symm
    rw [Finset.sum_filter_of_ne]
    intro a ha hne
    by_contra hc
    apply hne
    obtain ⟨l1, l2⟩ := (mem_T rank a).1 ha
    cases a with
    | nil => exact absurd rfl hc
    | cons a b =>
      cases spin with
      | nil => have := h.1; simp at l1 this; omega
      | cons t τ => rw [inter_forbidden ell a b l2 t τ hc, zero_mul]
  constructor
  · intro hs
    rw [e, Finset.sum_eq_single_of_mem spin hT]
    · rw [hfil spin hT, inter_complete ell rank spin spin hT hT hs hs, if_pos rfl, one_mul]
    · intro s hsT hne
      by_cases hss : |s.sum| ≤ (ell : Int)
      · rw [hfil s hsT, inter_complete ell rank spin s hT hsT hs hss, if_neg (Ne.symm hne), zero_mul]
      · rw [Finset.sum_eq_zero fun a ha => by rw [hz s hsT (not_le.1 hss) a ha, mul_zero], zero_mul]
  · intro hs
    rw [e]
    apply Finset.sum_eq_zero
    intro s _
    rw [Finset.sum_eq_zero fun a ha => by rw [hz spin hT hs a ha, zero_mul], zero_mul]

/-- Recombination keeps the sum of squares of the allowed components. -/
theorem regularity_isometry (ell rank : Nat) (u : List Int → ℝ) (h : ∀ reg, Spec.Component rank reg → ¬Spec.Allowed ell reg → u reg = 0) :
    ((range ordering rank).map fun s => backwardRecombination ell rank u s ^ 2).sum = ((range ordering rank).map fun reg => u reg ^ 2).sum := by
  have e1 : ((range ordering rank).map fun s => backwardRecombination ell rank u s ^ 2).sum = ∑ s ∈ T rank, backwardRecombination ell rank u s ^ 2 := rfl
  have e2 : ((range ordering rank).map fun reg => u reg ^ 2).sum = ∑ reg ∈ T rank, u reg ^ 2 := rfl
  rw [e1, e2]
  have hb : ∀ s, backwardRecombination ell rank u s = ∑ a ∈ T rank, intertwiner ell a s * u a := fun s => rfl
  have e3 : ∑ s ∈ T rank, backwardRecombination ell rank u s ^ 2 = ∑ a ∈ T rank, u a * forwardRecombination ell rank (backwardRecombination ell rank u) a := by
    have hf : ∀ a, forwardRecombination ell rank (backwardRecombination ell rank u) a = ∑ s ∈ T rank, intertwiner ell a s * backwardRecombination ell rank u s := fun _ => rfl
    simp only [hf, Finset.mul_sum]
    rw [Finset.sum_comm]
    apply Finset.sum_congr rfl
    intro s _
    rw [sq, hb s, Finset.sum_mul]
    apply Finset.sum_congr rfl
    intro a _
    ring
  rw [e3]
  apply Finset.sum_congr rfl
  intro a ha
  have hc : Spec.Component rank a := (mem_T rank a).1 ha
  obtain ⟨r1, r2⟩ := regularity_round_trip ell rank u a hc
  by_cases hall : Spec.Allowed ell a
  · rw [r1 hall, sq]
  · rw [r2 hall, h a hc hall]; ring

/-- The list of components is the list of all tuples, each once. -/
theorem components_listed (rank : Nat) : (range ordering rank).Nodup ∧ ∀ t, t ∈ range ordering rank ↔ Spec.Component rank t :=
  ⟨nodup_range rank, mem_range rank⟩

/-- A vector of degree zero has one component only; tensors of degree one have components dropped. -/
example : Spec.Allowed 0 [1] ∧ ¬Spec.Allowed 0 [0] ∧ ¬Spec.Allowed 0 [-1] ∧ ¬Spec.Allowed 1 [0, -1] ∧ Spec.Allowed 1 [1, -1] := by
  refine ⟨?_, ?_, ?_, ?_, ?_⟩
  · rw [← allowed_spec]; rfl
  · rw [← allowed_spec]; unfold Allowed; decide
  · rw [← allowed_spec]; unfold Allowed; decide
  · rw [← allowed_spec]; unfold Allowed; decide
  · rw [← allowed_spec]; rfl

/-- The coefficients are those of the literature for a vector of degree 1: `Q[0, -] = √(1/3)`. -/
example : intertwiner 1 [-1] [0] = 1 / √3 := by
  simp [intertwiner, forbiddenSpin, forbiddenRegularity, k]
  norm_num

end Dedalus.Regularity
