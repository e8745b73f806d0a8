import Verif.Regularity.Ortho
import Mathlib.LinearAlgebra.Matrix.NonsingularInverse
import Mathlib.Algebra.BigOperators.Group.Finset.Sigma
import Mathlib.Data.Fintype.BigOperators

/-!
# Completeness of the intertwiners, by counting
-/

namespace Dedalus.Regularity

/-- sum over all tuples -/
def tot {α : Type} [AddCommMonoid α] (r : Nat) (F : List Int → α) : α := ((range ordering r).map F).sum

theorem tot_zero {α : Type} [AddCommMonoid α] (F : List Int → α) : tot 0 F = F [] := by simp [tot, range]

theorem tot_succ {α : Type} [AddCommMonoid α] (r : Nat) (F : List Int → α) :
    tot (r + 1) F = tot r (fun τ => F (-1 :: τ)) + tot r (fun τ => F (0 :: τ)) + tot r (fun τ => F (1 :: τ)) := by
  simp only [tot, range, ordering, List.flatMap_cons, List.flatMap_nil, List.append_nil, List.map_append, List.map_map, List.sum_append,
    Function.comp_def]
  rw [add_comm (List.map (fun τ => F (1 :: τ)) _).sum, ← add_assoc]

theorem mem_range : ∀ (r : Nat) (τ : List Int), τ ∈ range ordering r ↔ τ.length = r ∧ Unit3 τ
  | 0, τ => by
    simp only [range, List.mem_singleton]
    constructor
    · rintro rfl; exact ⟨rfl, by simp [Unit3]⟩
    · rintro ⟨h, _⟩; exact List.length_eq_zero_iff.1 h
  | r + 1, τ => by
    simp only [range, List.mem_flatMap, List.mem_map, mem_range r]
    constructor
    · rintro ⟨s, hs, τ', ⟨h1, h2⟩, rfl⟩
      refine ⟨by simp [h1], h2.cons ?_⟩
      simp [ordering] at hs
      omega
    · rintro ⟨h1, h2⟩
      cases τ with
      | nil => simp at h1
      | cons s τ' =>
        refine ⟨s, ?_, τ', ⟨by simpa using h1, h2.tail⟩, rfl⟩
        have := h2 s (by simp)
        simp [ordering]
        omega

theorem nodup_range : ∀ r, (range ordering r).Nodup
  | 0 => by simp [range]
  | r + 1 => by
    have ih := nodup_range r
    have hm : ∀ s : Int, ((range ordering r).map (s :: ·)).Nodup := fun s => ih.map fun a b h => (List.cons.inj h).2
    have hd : ∀ s t : Int, s ≠ t → ∀ x ∈ (range ordering r).map (s :: ·), ∀ y ∈ (range ordering r).map (t :: ·), x ≠ y := by
      intro s t hst x hx y hy h
      obtain ⟨a, _, rfl⟩ := List.mem_map.1 hx
      obtain ⟨b, _, rfl⟩ := List.mem_map.1 hy
      exact hst (List.cons.inj h).1
    change (((range ordering r).map ((-1) :: ·)) ++ (((range ordering r).map (1 :: ·)) ++ (((range ordering r).map (0 :: ·)) ++ []))).Nodup
    rw [List.append_nil]
    refine List.nodup_append.2 ⟨hm _, List.nodup_append.2 ⟨hm _, hm _, hd 1 0 (by omega)⟩, ?_⟩
    intro x hx y hy
    rcases List.mem_append.1 hy with hy | hy
    · exact hd (-1) 1 (by omega) x hx y hy
    · exact hd (-1) 0 (by omega) x hx y hy

/-- the tuples as a finite set -/
def T (r : Nat) : Finset (List Int) := ⟨range ordering r, nodup_range r⟩

theorem mem_T (r : Nat) (τ : List Int) : τ ∈ T r ↔ τ.length = r ∧ Unit3 τ := mem_range r τ

theorem tot_sum {α : Type} [AddCommMonoid α] (r : Nat) (F : List Int → α) : tot r F = ∑ τ ∈ T r, F τ := rfl

theorem ip_tot : ∀ (r : Nat) (f g : List Int → ℝ), ip r f g = tot r fun τ => f τ * g τ
  | 0, f, g => by rw [tot_zero]; rfl
  | r + 1, f, g => by rw [tot_succ, ip, ip_tot r, ip_tot r, ip_tot r]

theorem tot_reverse {α : Type} [AddCommMonoid α] (r : Nat) (F : List Int → α) : tot r (fun τ => F τ.reverse) = tot r F := by
  rw [tot_sum, tot_sum]
  refine Finset.sum_nbij' List.reverse List.reverse ?_ ?_ ?_ ?_ ?_
  · intro a ha; rw [mem_T] at ha ⊢; exact ⟨by simp [ha.1], fun x hx => ha.2 x (by simpa using hx)⟩
  · intro a ha; rw [mem_T] at ha ⊢; exact ⟨by simp [ha.1], fun x hx => ha.2 x (by simpa using hx)⟩
  · intro a _; simp
  · intro a _; simp
  · intro a _; rfl

theorem tot_congr {α : Type} [AddCommMonoid α] (r : Nat) (F G : List Int → α) (h : ∀ τ, τ.length = r → Unit3 τ → F τ = G τ) : tot r F = tot r G := by
  rw [tot_sum, tot_sum]
  exact Finset.sum_congr rfl fun τ hτ => h τ ((mem_T r τ).1 hτ).1 ((mem_T r τ).1 hτ).2

theorem tot_add (r : Nat) (F G : List Int → Nat) : tot r (fun τ => F τ + G τ) = tot r F + tot r G := by
  rw [tot_sum, tot_sum, tot_sum, Finset.sum_add_distrib]

theorem count_step (r : Nat) (w s : Int) (h : ¬(w + s < 0 ∨ (w = 0 ∧ w + s = 0))) :
    tot r (fun τ => if badWalk w (s :: τ) = false then 1 else 0) = tot r (fun τ => if badWalk (w + s) τ = false then 1 else 0) := by
  apply tot_congr
  intro τ _ _
  rw [badWalk]
  simp only [if_neg h]

theorem count_step_bad (r : Nat) (w s : Int) (h : w + s < 0 ∨ (w = 0 ∧ w + s = 0)) :
    tot r (fun τ => if badWalk w (s :: τ) = false then 1 else 0) = 0 := by
  have : tot r (fun τ => if badWalk w (s :: τ) = false then 1 else 0) = tot r (fun _ => 0) := by
    apply tot_congr
    intro τ _ _
    rw [badWalk]
    simp only [if_pos h]
    simp
  rw [this, tot_sum]
  simp

theorem count_walks : ∀ (r w : Nat), tot r (fun τ => if badWalk w τ = false then 1 else 0) = tot r (fun τ => if |τ.sum| ≤ (w : Int) then 1 else 0)
  | 0, w => by rw [tot_zero, tot_zero]; simp [badWalk]
  | r + 1, w => by
    rw [tot_succ, tot_succ, count_step r w 1 (by omega), show ((w : Int) + 1) = ((w + 1 : Nat) : Int) by push_cast; ring, count_walks r (w + 1)]
    simp only [List.sum_cons]
    by_cases hw : w = 0
    · subst hw
      rw [count_step_bad r _ (-1) (by omega), count_step_bad r _ 0 (by omega), zero_add, zero_add, ← tot_add, ← tot_add]
      apply tot_congr
      intro τ _ _
      simp only [abs_le]
      push_cast
      split_ifs <;> omega
    · obtain ⟨v, rfl⟩ : ∃ v, w = v + 1 := ⟨w - 1, by omega⟩
      rw [count_step r _ (-1) (by omega), count_step r _ 0 (by omega), show ((v + 1 : Nat) : Int) + -1 = v by push_cast; ring,
        show ((v + 1 : Nat) : Int) + 0 = ((v + 1 : Nat) : Int) by ring, count_walks r v, count_walks r (v + 1), ← tot_add, ← tot_add, ← tot_add, ← tot_add]
      apply tot_congr
      intro τ _ _
      simp only [abs_le]
      push_cast
      split_ifs <;> omega

/-- as many allowed regularities as allowed spins -/
theorem count_allowed (r ell : Nat) : ((T r).filter fun τ => badWalk ell τ.reverse = false).card = ((T r).filter fun τ => |τ.sum| ≤ (ell : Int)).card := by
  have h := count_walks r ell
  have h' := tot_reverse r (fun τ => if badWalk ell τ = false then 1 else 0)
  rw [← h', tot_sum, tot_sum] at h
  rw [Finset.card_filter, Finset.card_filter]
  exact h

theorem inter_complete (ell r : Nat) (σ σ' : List Int) (h : σ ∈ T r) (h' : σ' ∈ T r) (hs : |σ.sum| ≤ (ell : Int)) (hs' : |σ'.sum| ≤ (ell : Int)) :
    ∑ a ∈ (T r).filter (fun τ => badWalk ell τ.reverse = false), intertwiner ell a σ * intertwiner ell a σ' = if σ = σ' then 1 else 0 := by
  classical
  set A := (T r).filter (fun τ => badWalk ell τ.reverse = false) with hA
  set S := (T r).filter (fun τ => |τ.sum| ≤ (ell : Int)) with hS
  let M : Matrix A S ℝ := Matrix.of fun a s => intertwiner ell a.1 s.1
  have hcard : Fintype.card A = Fintype.card S := by
    rw [Fintype.card_coe, Fintype.card_coe]
    exact count_allowed r ell
  have h1 : M * M.transpose = 1 := by
    ext a a'
    have ha := (Finset.mem_filter.1 a.2)
    have ha' := (Finset.mem_filter.1 a'.2)
    have la := (mem_T r _).1 ha.1
    have la' := (mem_T r _).1 ha'.1
    rw [Matrix.mul_apply, Matrix.one_apply]
    simp only [Matrix.transpose_apply, M, Matrix.of_apply]
    have ho := inter_ortho ell a.1 a'.1 (by rw [la.1, la'.1]) la.2 la'.2 ha.2 ha'.2
    rw [ip_tot, la.1, tot_sum] at ho
    have : (∑ s : S, intertwiner ell a.1 s.1 * intertwiner ell a'.1 s.1) = ∑ s ∈ S, intertwiner ell a.1 s * intertwiner ell a'.1 s :=
      Finset.sum_coe_sort S fun s => intertwiner ell a.1 s * intertwiner ell a'.1 s
    rw [this, hS, Finset.sum_filter_of_ne, ho]
    · simp only [Subtype.ext_iff]
    · intro x hx hne
      by_contra hc
      apply hne
      have lx := (mem_T r _).1 hx
      rw [inter_supp ell a.1 x (by rw [lx.1, la.1]) lx.2 (by rw [add_zero]; exact not_le.1 hc), zero_mul]
  have h2 := (Matrix.mul_eq_one_comm_of_card_eq _ _ _ hcard).1 h1
  have h3 := congrFun (congrFun h2 ⟨σ, Finset.mem_filter.2 ⟨h, hs⟩⟩) ⟨σ', Finset.mem_filter.2 ⟨h', hs'⟩⟩
  rw [Matrix.mul_apply, Matrix.one_apply] at h3
  simp only [Matrix.transpose_apply, M, Matrix.of_apply, Subtype.mk.injEq] at h3
  rw [← h3]
  exact (Finset.sum_coe_sort A fun a => intertwiner ell a σ * intertwiner ell a σ').symm

end Dedalus.Regularity
