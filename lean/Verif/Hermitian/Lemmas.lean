import Verif.Hermitian.Spec
import Verif.SphereField.Lemmas
import Verif.PolarField.Lemmas
import Verif.VolumeField.Plans
import Mathlib.Algebra.Star.BigOperators

/-! Lemmas on partners of components and on the reality of recombined components. -/

namespace Dedalus.Hermitian
open Orders SphereField

/-! ## Partners -/

section
variable {coord0 coord1 : Spin.Coord} {sig : List Spin.Index}

theorem opposite_none (ix : Spin.Index) (h : Spin.indexOf coord1 ix.coords = none) (x : Nat) : Spec.opposite coord0 coord1 ix x = x := by
  unfold Spec.opposite
  rw [h]
  split
  · rename_i h1 h2; cases h2
  · rfl

theorem opposite_some (ix : Spin.Index) {s : Nat} (h0 : Spin.indexOf coord0 ix.coords = some s) (h1 : Spin.indexOf coord1 ix.coords = some (s + 1)) (x : Nat) :
    Spec.opposite coord0 coord1 ix x = if x = s then s + 1 else if x = s + 1 then s else x := by
  unfold Spec.opposite
  rw [h0, h1]

/-- The facts about one index. -/
theorem opposite_facts (h0 : coord0.azimuthal = true) (h1 : coord1.azimuthal = false) {ix : Spin.Index}
    (h : Spin.indexOf coord1 ix.coords = none ∨ Spin.Carries coord0 coord1 ix) {x : Nat} (hx : x < ix.dim) :
    Spec.opposite coord0 coord1 ix x < ix.dim ∧ Spec.opposite coord0 coord1 ix (Spec.opposite coord0 coord1 ix x) = x ∧
      indexSpin coord1 ix (Spec.opposite coord0 coord1 ix x) = -indexSpin coord1 ix x := by
  rcases h with hn | hc
  · rw [opposite_none ix hn, opposite_none ix hn]
    refine ⟨hx, rfl, ?_⟩
    unfold indexSpin
    rw [hn]
    rfl
  · obtain ⟨s, A, i0, i1, hs, -⟩ := Spin.carries_index h0 h1 hc
    rw [opposite_some ix i0 i1, opposite_some ix i0 i1]
    unfold indexSpin
    rw [i1]
    simp only
    by_cases e1 : x = s
    · subst e1
      simp
      omega
    · by_cases e2 : x = s + 1
      · subst e2
        simp
        omega
      · simp only [if_neg e1, if_neg e2]
        refine ⟨hx, trivial, ?_⟩
        rw [if_neg (by omega)]
        rfl

theorem partner_component (h : Spin.Spec.Suitable coord0 coord1 sig) {t : List Nat} (ht : Spin.Spec.Component sig t) :
    Spin.Spec.Component sig (Spec.partner coord0 coord1 sig t) ∧
      Spec.partner coord0 coord1 sig (Spec.partner coord0 coord1 sig t) = t ∧
      spinWeight coord1 sig (Spec.partner coord0 coord1 sig t) = -spinWeight coord1 sig t := by
  obtain ⟨h0, h1, h2⟩ := h
  induction ht with
  | nil => exact ⟨.nil, rfl, rfl⟩
  | @cons x ix t sig hx _ ih =>
    obtain ⟨a1, a2, a3⟩ := ih fun c hc => h2 c (List.mem_cons_of_mem _ hc)
    obtain ⟨b1, b2, b3⟩ := opposite_facts h0 h1 (h2 ix List.mem_cons_self) hx
    unfold Spec.partner at *
    refine ⟨.cons b1 a1, ?_, ?_⟩
    · simp only [List.zipWith_cons_cons, b2, a2]
    · simp only [List.zipWith_cons_cons, spinWeight, b3, a3]
      ring

/-! ## Conjugates of recombined components -/

theorem backward_shift (x : Nat) : ∀ (fs : List (Option Spin.Mat)) (i : Nat) (u : Spin.Comps) (t : List Nat),
    Spin.backwardComplex (i + 1) fs u (x :: t) = Spin.backwardComplex i fs (fun t => u (x :: t)) t
  | [], _, _, _ => rfl
  | none :: fs, i, u, t => by simp only [Spin.backwardComplex]; exact backward_shift x fs (i + 1) u t
  | some A :: fs, i, u, t => by
    simp only [Spin.backwardComplex]
    rw [backward_shift x fs (i + 1)]
    rfl

theorem backward_cons (A : Spin.Mat) (fs : List (Option Spin.Mat)) (u : Spin.Comps) (x : Nat) (t : List Nat) :
    Spin.backwardComplex 0 (some A :: fs) u (x :: t) =
      ∑ j ∈ Finset.range A.rows, A.dag.entry x j * Spin.backwardComplex 0 fs (fun t => u (j :: t)) t := by
  simp only [Spin.backwardComplex]
  rw [Spin.backward_along, ← Spin.along_comm Spin.Mat.dag A.dag fs 1 0 u (by omega), ← Spin.backward_along]
  unfold Spin.applyAxis
  refine Finset.sum_congr rfl fun j _ => ?_
  rw [List.set_cons_zero, backward_shift]
  rfl

theorem sum_pair_swap {s n : Nat} (hs : s + 2 ≤ n) (f : Nat → ℂ) :
    ∑ j ∈ Finset.range n, f (if j = s then s + 1 else if j = s + 1 then s else j) = ∑ j ∈ Finset.range n, f j := by
  refine Finset.sum_nbij' (fun j => if j = s then s + 1 else if j = s + 1 then s else j) (fun j => if j = s then s + 1 else if j = s + 1 then s else j)
    ?_ ?_ ?_ ?_ ?_
  · intro j hj
    have := Finset.mem_range.1 hj
    refine Finset.mem_range.2 ?_
    beta_reduce
    split_ifs <;> omega
  · intro j hj
    have := Finset.mem_range.1 hj
    refine Finset.mem_range.2 ?_
    beta_reduce
    split_ifs <;> omega
  · intro j _
    beta_reduce
    by_cases e1 : j = s
    · rw [if_pos e1, if_neg (by omega), if_pos rfl, e1]
    · by_cases e2 : j = s + 1
      · rw [if_neg e1, if_pos e2, if_pos rfl, e2]
      · rw [if_neg e1, if_neg e2, if_neg e1, if_neg e2]
  · intro j _
    beta_reduce
    by_cases e1 : j = s
    · rw [if_pos e1, if_neg (by omega), if_pos rfl, e1]
    · by_cases e2 : j = s + 1
      · rw [if_neg e1, if_pos e2, if_pos rfl, e2]
      · rw [if_neg e1, if_neg e2, if_neg e1, if_neg e2]
  · intro j _
    rfl

/-- The adjoint of the spin transformation, conjugated, with its columns exchanged. -/
theorem pair_dag_conj {s n x j : Nat} (hs : s + 2 ≤ n) (hx : x < n) (hj : j < n) :
    (starRingEnd ℂ) ((Spin.pairMat s n).dag.entry x (if j = s then s + 1 else if j = s + 1 then s else j)) = (Spin.pairMat s n).dag.entry x j := by
  simp only [Spin.Mat.dag, Complex.conj_conj]
  by_cases hx1 : x = s
  · subst hx1
    by_cases e1 : j = x
    · subst e1
      simp [Spin.pairMat, Spin.uForward, Complex.conj_ofReal]
    · by_cases e2 : j = x + 1
      · subst e2
        simp [Spin.pairMat, Spin.uForward, Complex.conj_ofReal]
      · simp [Spin.pairMat, e1, e2]
  · by_cases hx2 : x = s + 1
    · subst hx2
      by_cases e1 : j = s
      · subst e1
        simp [Spin.pairMat, Spin.uForward, Complex.conj_ofReal]
      · by_cases e2 : j = s + 1
        · subst e2
          simp [Spin.pairMat, Spin.uForward, Complex.conj_ofReal]
        · simp [Spin.pairMat, e1, e2]
    · by_cases e1 : j = s
      · subst e1
        simp [Spin.pairMat, hx1, hx2, Ne.symm hx1, Ne.symm hx2]
      · by_cases e2 : j = s + 1
        · subst e2
          simp [Spin.pairMat, hx1, hx2, Ne.symm hx1, Ne.symm hx2]
        · by_cases e3 : j = x <;> simp [Spin.pairMat, hx1, hx2, e1, e2, e3]

theorem conj_backward (h0 : coord0.azimuthal = true) (h1 : coord1.azimuthal = false) : ∀ (sig : List Spin.Index) (fs : List (Option Spin.Mat)) (u : Spin.Comps)
    (t : List Nat), (∀ ix ∈ sig, Spin.indexOf coord1 ix.coords = none ∨ Spin.Carries coord0 coord1 ix) → Spin.factors coord1 sig = some fs →
    Spin.Spec.Component sig t → (starRingEnd ℂ) (Spin.backwardComplex 0 fs u t) =
      Spin.backwardComplex 0 fs (fun t => (starRingEnd ℂ) (u (Spec.partner coord0 coord1 sig t))) t
  | [], fs, u, _, _, hf, .nil => by
    cases hf
    rfl
  | ix :: sig, fs, u, x :: t, h, hf, .cons hx ht => by
    have h' := fun c hc => h c (List.mem_cons_of_mem _ hc)
    obtain ⟨fs', hfs, -⟩ := Spin.spin_round_trip_complex coord0 coord1 sig ⟨h0, h1, h'⟩
    have ih := fun u => conj_backward h0 h1 sig fs' u t h' hfs ht
    rcases h ix List.mem_cons_self with hn | hc
    · rw [Spin.factors, hn, hfs] at hf
      cases hf
      simp only [Spin.backwardComplex]
      rw [backward_shift, backward_shift, ih]
      simp only [Spec.partner, List.zipWith_cons_cons, opposite_none ix hn]
    · obtain ⟨s, A, i0, i1, hs, hA, hag, -⟩ := Spin.carries_index h0 h1 hc
      rw [Spin.factors, i1, hfs] at hf
      simp only [hA] at hf
      cases hf
      obtain ⟨r1, -, -, -, hag⟩ := hag
      rw [backward_cons, backward_cons, map_sum, r1, ← sum_pair_swap hs]
      refine Finset.sum_congr rfl fun j hj => ?_
      have hj' := Finset.mem_range.1 hj
      have hsw : (if j = s then s + 1 else if j = s + 1 then s else j) < ix.dim := by split_ifs <;> omega
      have e : ∀ y, y < ix.dim → A.dag.entry x y = (Spin.pairMat s ix.dim).dag.entry x y := by
        intro y hy
        unfold Spin.Mat.dag
        simp only
        rw [hag y hy x hx]
      rw [map_mul, ih, e _ hsw, e _ hj', pair_dag_conj hs hx hj']
      simp only [Spec.partner, List.zipWith_cons_cons, opposite_some ix i0 i1]

theorem backward_add : ∀ (fs : List (Option Spin.Mat)) (i : Nat) (u v : Spin.Comps) (t : List Nat),
    Spin.backwardComplex i fs (fun t => u t + v t) t = Spin.backwardComplex i fs u t + Spin.backwardComplex i fs v t
  | [], _, _, _, _ => rfl
  | none :: fs, i, u, v, t => by simp only [Spin.backwardComplex]; exact backward_add fs (i + 1) u v t
  | some A :: fs, i, u, v, t => by
    simp only [Spin.backwardComplex]
    rw [← backward_add fs (i + 1)]
    congr 1
    funext t
    simp only [Spin.applyAxis, ← Finset.sum_add_distrib]
    exact Finset.sum_congr rfl fun j _ => by ring

/-- If `v` is the Hermitian part of `u`, its components are the real parts of those of `u`. -/
theorem backward_hermitian (h : Spin.Spec.Suitable coord0 coord1 sig) {fs : List (Option Spin.Mat)} (hf : Spin.factors coord1 sig = some fs)
    (u v : Spin.Comps) (hv : ∀ t, Spin.Spec.Component sig t → v t = (u t + (starRingEnd ℂ) (u (Spec.partner coord0 coord1 sig t))) * (1 / 2))
    (t : List Nat) (ht : Spin.Spec.Component sig t) : Spin.backwardComplex 0 fs v t = ((Spin.backwardComplex 0 fs u t).re : ℂ) := by
  rw [SphereField.backward_congr h hf v _ hv t ht, PolarField.backward_smul, backward_add, ← conj_backward h.1 h.2.1 sig fs u t h.2.2 hf ht,
    Complex.add_conj]
  push_cast
  ring

end

end Dedalus.Hermitian
