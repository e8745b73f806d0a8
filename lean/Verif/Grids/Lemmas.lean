import Verif.Grids.Spec
import Verif.Dist.BlockProps
import Mathlib.Tactic.Ring
import Mathlib.Tactic.FieldSimp
import Mathlib.Tactic.Choose
import Mathlib.Algebra.CharZero.Defs
import Mathlib.Tactic.LinearCombination
import Mathlib.Algebra.Order.Floor.Ring

namespace Dedalus.Grids

open Dedalus.Dist
open Dedalus.Field (ScaleArg remedy)

variable {K : Type}

/-! ## Elements axis by axis -/

/-- The elements along an axis are a function of the number of points of this axis. -/
def AxisElements (loc : List Bool) (mesh coords : List Nat) (f : Nat → Nat → List Nat) : Prop :=
  (∀ shape : List Nat, shape.length = loc.length → ∃ E,
    layoutElements loc mesh shape (List.replicate loc.length 1) (List.replicate loc.length false) false coords = some E ∧ E.length = loc.length ∧
    ∀ a n, shape[a]? = some n → E[a]? = some (f a n)) ∧
  ∀ a n i, i ∈ f a n → i < n

theorem axis_elements (loc : List Bool) : ∀ (mesh coords : List Nat), mesh.length = loc.count false → coords.length = mesh.length →
    ∃ f, AxisElements loc mesh coords f := by
  induction loc with
  | nil =>
    intro mesh coords hm hc
    have hm : mesh = [] := by simpa using hm
    subst hm
    have hc : coords = [] := by simpa using hc
    subst hc
    refine ⟨fun _ _ => [], ?_, by simp⟩
    intro shape hs
    have hs : shape = [] := by simpa using hs
    subst hs
    exact ⟨[], rfl, rfl, by simp⟩
  | cons l ls ih =>
    intro mesh coords hm hc
    cases l with
    | true =>
      obtain ⟨f, h1, h2⟩ := ih mesh coords (by simpa using hm) hc
      refine ⟨fun a n => match a with
        | 0 => localElements false ⟨true, n, 1, 1, false⟩ 0
        | a + 1 => f a n, ?_, ?_⟩
      · intro shape hs
        cases shape with
        | nil => simp at hs
        | cons n ns =>
          obtain ⟨E, hE, hl, hf⟩ := h1 ns (by simpa using hs)
          refine ⟨_, layoutElements_cons_local hE, by simp [hl], ?_⟩
          intro a m ha
          cases a with
          | zero => simp only [List.getElem?_cons_zero, Option.some.injEq] at ha ⊢; rw [ha]
          | succ a => simpa using hf a m (by simpa using ha)
      · intro a n i hi
        cases a with
        | zero => exact elements_in_range false ⟨true, n, 1, 1, false⟩ (Nat.one_pos) (one_dvd _) 0 i hi
        | succ a => exact h2 a n i hi
    | false =>
      cases mesh with
      | nil => simp at hm
      | cons m ms =>
        cases coords with
        | nil => simp at hc
        | cons r cs =>
          obtain ⟨f, h1, h2⟩ := ih ms cs (by simpa using hm) (by simpa using hc)
          refine ⟨fun a n => match a with
            | 0 => localElements false ⟨false, n, 1, m, false⟩ r
            | a + 1 => f a n, ?_, ?_⟩
          · intro shape hs
            cases shape with
            | nil => simp at hs
            | cons n ns =>
              obtain ⟨E, hE, hl, hf⟩ := h1 ns (by simpa using hs)
              refine ⟨_, layoutElements_cons_dist r hE, by simp [hl], ?_⟩
              intro a k ha
              cases a with
              | zero => simp only [List.getElem?_cons_zero, Option.some.injEq] at ha ⊢; rw [ha]
              | succ a => simpa using hf a k (by simpa using ha)
          · intro a n i hi
            cases a with
            | zero => exact elements_in_range false ⟨false, n, 1, m, false⟩ (Nat.one_pos) (one_dvd _) r i hi
            | succ a => exact h2 a n i hi

/-! ## Shapes -/

theorem shape_some (b : Basis K) (s : List ℚ) (h : s.length = b.dim) : ∃ v, b.globalShape s = some v ∧ v.length = b.dim := by
  match b, s, h with
  | .interval .., [_], _ => exact ⟨_, rfl, rfl⟩
  | .polar _ Nphi .., [_, _], _ =>
    simp only [Basis.globalShape]; split
    · exact ⟨_, rfl, rfl⟩
    · exact ⟨_, rfl, rfl⟩
  | .sphere _ Nphi .., [_, _], _ =>
    simp only [Basis.globalShape]; split
    · exact ⟨_, rfl, rfl⟩
    · exact ⟨_, rfl, rfl⟩
  | .radial .., [_, _, _], _ => exact ⟨_, rfl, rfl⟩
  | .spherical _ Nphi .., [_, _, _], _ =>
    simp only [Basis.globalShape]; split
    · exact ⟨_, rfl, rfl⟩
    · exact ⟨_, rfl, rfl⟩

theorem place_get (shape v : List Nat) (axis : Nat) (h : axis + v.length ≤ shape.length) : ∃ w, place shape axis v = some w ∧ w.length = shape.length ∧
    (∀ j < v.length, w[axis + j]? = v[j]?) ∧ ∀ a, (a < axis ∨ axis + v.length ≤ a) → w[a]? = shape[a]? := by
  refine ⟨shape.take axis ++ v ++ shape.drop (axis + v.length), ?_, ?_, ?_, ?_⟩
  · simp [place, h]
  · simp only [List.length_append, List.length_take, List.length_drop]; omega
  · intro j hj
    rw [List.append_assoc, List.getElem?_append_right (by simp), List.getElem?_append_left (by simp only [List.length_take]; omega)]
    congr 1
    simp only [List.length_take]; omega
  · intro a ha
    rcases ha with ha | ha
    · rw [List.append_assoc, List.getElem?_append_left (by simp only [List.length_take]; omega), List.getElem?_take_of_lt ha]
    · rw [List.getElem?_append_right (by simp only [List.length_append, List.length_take]; omega), List.getElem?_drop]
      congr 1
      simp only [List.length_append, List.length_take]; omega

theorem fold_shape (s : List ℚ) : ∀ (D : List (Basis K)) (shape0 : List Nat), s.length = shape0.length → Spec.Separate shape0.length D → ∃ shape,
    D.foldlM (fun shape b => (b.globalShape (b.scales s)).bind (place shape b.axis)) shape0 = some shape ∧ shape.length = shape0.length ∧
    (∀ b ∈ D, ∃ v, b.globalShape (b.scales s) = some v ∧ v.length = b.dim ∧ ∀ j < b.dim, shape[b.axis + j]? = v[j]?) ∧
    ∀ a, (∀ b ∈ D, a < b.axis ∨ b.axis + b.dim ≤ a) → shape[a]? = shape0[a]? := by
  intro D
  induction D with
  | nil => intro shape0 _ _; exact ⟨shape0, rfl, rfl, by simp, fun _ _ => rfl⟩
  | cons b D ih =>
    intro shape0 hs hD
    obtain ⟨hp, hb⟩ := hD
    rw [List.pairwise_cons] at hp
    have hbd := hb b (by simp)
    obtain ⟨v, hv, hvl⟩ := shape_some b (b.scales s) (by simp only [Basis.scales, List.length_take, List.length_drop]; omega)
    obtain ⟨w, hw, hwl, hw1, hw2⟩ := place_get shape0 v b.axis (by omega)
    obtain ⟨shape, h1, h2, h3, h4⟩ := ih w (by omega) ⟨hp.2, fun c hc => by rw [hwl]; exact hb c (by simp [hc])⟩
    refine ⟨shape, ?_, by omega, ?_, ?_⟩
    · simp only [List.foldlM_cons, hv, hw, Option.bind_some]
      exact h1
    · intro c hc
      rcases List.mem_cons.1 hc with rfl | hc
      · refine ⟨v, hv, hvl, fun j hj => ?_⟩
        rw [h4, hw1 j (by omega)]
        intro d hd
        have := hp.1 d hd
        omega
      · exact h3 c hc
    · intro a ha
      rw [h4 a fun c hc => ha c (by simp [hc]), hw2 a]
      have := ha b (by simp)
      omega

theorem domain_shape (dim : Nat) (s : List ℚ) (D : List (Basis K)) (hs : s.length = dim) (hD : Spec.Separate dim D) : ∃ shape,
    domainShape dim D s = some shape ∧ shape.length = dim ∧
    ∀ b ∈ D, ∃ v, b.globalShape (b.scales s) = some v ∧ v.length = b.dim ∧ ∀ j < b.dim, shape[b.axis + j]? = v[j]? := by
  obtain ⟨shape, h1, h2, h3, -⟩ := fold_shape s D (List.replicate dim 1) (by simpa using hs) (by simpa using hD)
  exact ⟨shape, h1, by simpa using h2, h3⟩

theorem remedy_num {dim : Nat} {s : ℚ} (hs : s ≠ 0) : remedy dim (.num s) = some (List.replicate dim s) := by
  unfold remedy
  rw [if_neg]
  intro h
  exact hs (List.eq_of_mem_replicate h).symm

/-- The elements of the grid layout for the domain of one basis and the same scale on all axes. -/
theorem elements_single {P : Process} {f : Nat → Nat → List Nat} (hP : P.loc.length = P.dim) (hf : AxisElements P.loc P.mesh P.coords f) (b : Basis K)
    {s : ℚ} (hs : s ≠ 0) (hb : b.axis + b.dim ≤ P.dim) {v : List Nat} (hv : b.globalShape (List.replicate b.dim s) = some v) {j N : Nat} (hj : v[j]? = some N) :
    ∃ els, elements P [b] (.num s) = some els ∧ els[b.axis + j]? = some (f (b.axis + j) N) := by
  obtain ⟨shape, h1, h2, h3⟩ := domain_shape P.dim (List.replicate P.dim s) [b] (by simp) ⟨by simp, by simpa using hb⟩
  obtain ⟨w, hw, hwl, hws⟩ := h3 b (by simp)
  have hbs : b.scales (List.replicate P.dim s) = List.replicate b.dim s := by
    simp only [Basis.scales, List.drop_replicate, List.take_replicate]
    congr 1; omega
  rw [hbs, hv, Option.some.injEq] at hw
  subst hw
  obtain ⟨E, hE, -, hEa⟩ := hf.1 shape (by omega)
  refine ⟨E, ?_, hEa _ _ ?_⟩
  · simp only [elements, remedy_num hs, Option.bind_some, h1]
    rw [← hP]; exact hE
  · rw [hws j, hj]
    rw [← hwl]
    exact (List.getElem?_eq_some_iff.1 hj).1

/-! ## Arrays -/

theorem gather_some (v : List K) (le : List Nat) (h : ∀ i ∈ le, i < v.length) : ∃ w, gather v le = some w ∧ w.length = le.length ∧
    ∀ (k i : Nat), le[k]? = some i → w[k]? = v[i]? := by
  induction le with
  | nil => exact ⟨[], rfl, rfl, by simp⟩
  | cons i le ih =>
    obtain ⟨w, h1, h2, h3⟩ := ih fun i hi => h i (by simp [hi])
    have hi := h i (by simp)
    refine ⟨v[i] :: w, ?_, by simp [h2], ?_⟩
    · simp only [gather] at h1 ⊢
      rw [List.mapM_cons, h1, List.getElem?_eq_getElem hi]
      rfl
    · intro k j hk
      cases k with
      | zero =>
        simp only [List.getElem?_cons_zero, Option.some.injEq] at hk ⊢
        subst hk
        exact (List.getElem?_eq_getElem hi).symm
      | succ k => simpa using h3 k j (by simpa using hk)

theorem ravel_ones : ∀ (n : Nat) (idx : List Nat), ravel (List.replicate n 1)
    (List.zipWith (fun n i => if n = 1 then 0 else i) (List.replicate n 1) idx) = 0
  | 0, _ => rfl
  | n + 1, [] => rfl
  | n + 1, i :: idx => by
    simp only [List.replicate_succ, List.zipWith_cons_cons, if_true, ravel, Nat.zero_mul, Nat.zero_add]
    exact ravel_ones n idx

theorem prod_ones (n : Nat) : (List.replicate n 1).prod = 1 := by simp

theorem ravel_vector (m : Nat) : ∀ (dim axis : Nat) (idx : List Nat) (i : Nat), axis < dim → idx[axis]? = some i → (m = 1 → i = 0) →
    ravel ((List.replicate dim 1).set axis m) (List.zipWith (fun n i => if n = 1 then 0 else i) ((List.replicate dim 1).set axis m) idx) = i
  | 0, _, _, _, h, _, _ => by omega
  | dim + 1, 0, idx, i, _, hi, hm => by
    cases idx with
    | nil => simp at hi
    | cons k idx =>
      simp only [List.getElem?_cons_zero, Option.some.injEq] at hi
      subst hi
      simp only [List.replicate_succ, List.set_cons_zero, List.zipWith_cons_cons, ravel, prod_ones, ravel_ones, Nat.mul_one, Nat.add_zero]
      split
      · rename_i h; exact (hm h).symm
      · rfl
  | dim + 1, axis + 1, idx, i, h, hi, hm => by
    cases idx with
    | nil => simp at hi
    | cons k idx =>
      simp only [List.replicate_succ, List.set_cons_succ, List.zipWith_cons_cons, if_true, ravel, Nat.zero_mul, Nat.zero_add]
      exact ravel_vector m dim axis idx i (by omega) (by simpa using hi) hm

theorem read_vector (v : List K) {dim axis : Nat} (ha : axis < dim) {g : Arr K} (hg : reshapeVector v dim axis = some g) {target idx : List Nat}
    (ht : target.length = dim) (hv : target[axis]? = some v.length) {i : Nat} (hi : idx[axis]? = some i) (hlt : i < v.length) :
    read g target idx = v[i]? := by
  rw [reshapeVector, if_pos ha, Option.some.injEq] at hg
  subst hg
  unfold read
  rw [if_pos]
  · simp only
    rw [ravel_vector v.length dim axis idx i ha hi fun h => by omega]
  · refine ⟨by simp [ht], ?_⟩
    intro p hp
    obtain ⟨k, hk⟩ := List.getElem?_of_mem hp
    rw [List.getElem?_zip_eq_some] at hk
    rw [List.getElem?_set] at hk
    obtain ⟨h1, h2⟩ := hk
    by_cases hka : axis = k
    · subst hka
      rw [if_pos rfl] at h1
      simp only [List.length_replicate, ha, if_true, Option.some.injEq] at h1
      rw [hv, Option.some.injEq] at h2
      exact Or.inr (h1.symm.trans h2)
    · rw [if_neg hka] at h1
      exact Or.inl (List.eq_of_mem_replicate (List.mem_of_getElem? h1))

/-! ## Grids of one axis -/

/-- A grid array along an axis whose entries on a process are the points number `i` of the `N`-point grid, for the elements `i` of the process. -/
def Holds (dim : Nat) (f : Nat → Nat → List Nat) (a N : Nat) (val : Nat → Option K) (g : Arr K) : Prop :=
  a < dim ∧ ∃ v : List K, reshapeVector v dim a = some g ∧ v.length = (f a N).length ∧ ∀ (k i : Nat), (f a N)[k]? = some i → v[k]? = val i

theorem node_map (x : Grid K) (N i : Nat) : ((x.native N).map x.problem)[i]? = Spec.node x N i := by simp [Spec.node]

theorem vector_holds {P : Process} {f : Nat → Nat → List Nat} (hf : AxisElements P.loc P.mesh P.coords f) {a N : Nat} (ha : a < P.dim)
    (w : List K) (hw : w.length = N) : ∃ g, ((gather w (f a N)).bind fun v => reshapeVector v P.dim a) = some g ∧ Holds P.dim f a N (fun i => w[i]?) g := by
  obtain ⟨v, h1, h2, h3⟩ := gather_some w (f a N) fun i hi => hw ▸ hf.2 a N i hi
  refine ⟨_, by rw [h1, Option.bind_some, reshapeVector, if_pos ha], ha, v, by rw [reshapeVector, if_pos ha], h2, h3⟩

theorem interval_holds {P : Process} {f : Nat → Nat → List Nat} (hP : P.loc.length = P.dim) (hf : AxisElements P.loc P.mesh P.coords f) {a n : Nat} (x : Grid K)
    {s : ℚ} (hs : s ≠ 0) (ha : a < P.dim) (hx : ∀ N, (x.native N).length = N) : ∃ g, intervalGrid P a n x s = some g ∧
      Holds P.dim f a (points s n) (Spec.node x (points s n)) g := by
  obtain ⟨els, h1, h2⟩ := elements_single hP hf (.interval a n x) hs ha (v := [points s n]) rfl (j := 0) rfl
  simp only [Basis.axis, Nat.add_zero] at h2
  obtain ⟨v, h3, h4, h5⟩ := gather_some (x.native (points s n)) (f a (points s n)) fun i hi => (hx _).symm ▸ hf.2 _ _ _ hi
  refine ⟨⟨(List.replicate P.dim 1).set a (v.map x.problem).length, v.map x.problem⟩, ?_, ha, v.map x.problem, ?_, by simp [h4], ?_⟩
  · simp only [intervalGrid, h1, Option.bind_some, h2, h3, reshapeVector, if_pos ha]
  · rw [reshapeVector, if_pos ha]
  · intro k i hk
    rw [List.getElem?_map, h5 k i hk]
    rfl

theorem ceil_points {s : ℚ} {n : Nat} (h : n = 1 → ⌈s⌉ = 1) : ceilSize s n = points s n := by
  unfold points
  split
  · rename_i hn
    subst hn
    simp [ceilSize, h rfl]
  · rfl

theorem azimuth_points {s : ℚ} {n : Nat} (h : n ≠ 2) (hn : 0 < n) (hm : mmax n = 0) : points s n = 1 := by
  unfold mmax at hm
  have : n = 1 := by omega
  subst this
  rfl

theorem curved_holds {P : Process} {f : Nat → Nat → List Nat} (hP : P.loc.length = P.dim) (hf : AxisElements P.loc P.mesh P.coords f) (b : Basis K) {j : Nat}
    (x : Grid K) {s : ℚ} (hs : s ≠ 0) (hb : b.axis + b.dim ≤ P.dim) {v : List Nat} (hv : b.globalShape (List.replicate b.dim s) = some v)
    {n : Nat} (hn : n = 1 → ⌈s⌉ = 1) (hj : v[j]? = some (points s n)) (hjd : j < b.dim) (hx : ∀ N, (x.native N).length = N) :
    ∃ g, ((elements P [b] (.num s)).bind fun els => (els[b.axis + j]?).bind fun le =>
      (gather ((x.native (ceilSize s n)).map x.problem) le).bind fun v => reshapeVector v P.dim (b.axis + j)) = some g ∧
      Holds P.dim f (b.axis + j) (points s n) (Spec.node x (points s n)) g := by
  obtain ⟨els, h1, h2⟩ := elements_single hP hf b hs hb hv hj
  obtain ⟨g, h3, h4⟩ := vector_holds hf (a := b.axis + j) (N := points s n) (by omega) ((x.native (ceilSize s n)).map x.problem)
    (by rw [List.length_map, hx, ceil_points hn])
  refine ⟨g, by simp only [h1, Option.bind_some, h2, h3], ?_⟩
  rw [ceil_points hn] at h4
  convert h4 using 2
  exact (node_map x _ _).symm

/-! ## Grids of a basis and of several bases -/

theorem basis_holds {P : Process} {f : Nat → Nat → List Nat} (hP : P.loc.length = P.dim) (hf : AxisElements P.loc P.mesh P.coords f) (b : Basis K)
    {s : List ℚ} (hs : ∀ x ∈ s, x ≠ 0) (hl : s.length = b.dim) (hb : b.axis + b.dim ≤ P.dim) (hC : Spec.Complete b) (hR : Spec.Regular b s) {v : List Nat}
    (hv : b.globalShape s = some v) :
    ∃ gs, basisGrids P b s = some gs ∧ List.Forall₂ (fun (p : Grid K × Nat) g => ∃ j N, j < b.dim ∧ p.2 = b.axis + j ∧ v[j]? = some N ∧
      Holds P.dim f p.2 N (Spec.node p.1 N) g) (b.grids.zipIdx b.axis) gs := by
  match b, s, hl with
  | .interval a n x, [s], _ =>
    simp only [Basis.globalShape, Option.some.injEq] at hv
    subst hv
    obtain ⟨g, h1, h2⟩ := interval_holds hP hf (n := n) x (hs s (by simp)) (a := a) hb (hC x (by simp [Basis.grids]))
    refine ⟨[g], by simp [basisGrids, h1], ?_⟩
    exact .cons ⟨0, _, by simp [Basis.dim], rfl, rfl, h2⟩ .nil
  | .polar a Nphi Nr phi r, [s, t], _ =>
    obtain ⟨h2, h0, ht⟩ := hR
    have hv' : v = [points s Nphi, points t Nr] := by
      simp only [Basis.globalShape] at hv
      split at hv
      · rename_i hm
        rw [azimuth_points h2 h0 hm]
        simpa using hv.symm
      · simpa using hv.symm
    subst hv'
    simp only [Basis.axis, Basis.dim] at hb
    obtain ⟨g, h1, hg⟩ := interval_holds hP hf (n := Nphi) phi (hs s (by simp)) (a := a) (by omega) (hC phi (by simp [Basis.grids]))
    obtain ⟨w, hw, hwl⟩ := shape_some (.polar a Nphi Nr phi r : Basis K) [t, t] rfl
    have hw1 : w[1]? = some (points t Nr) := by
      simp only [Basis.globalShape] at hw
      split at hw <;> (simp only [Option.some.injEq] at hw; subst hw; rfl)
    obtain ⟨h, h3, h4⟩ := curved_holds hP hf (.polar a Nphi Nr phi r) (j := 1) r (hs t (by simp)) hb hw ht hw1 (by simp [Basis.dim])
      (hC r (by simp [Basis.grids]))
    refine ⟨[g, h], ?_, ?_⟩
    · simp only [basisGrids, h1, polarRadius]
      simp only [Basis.axis] at h3
      rw [h3]
      rfl
    · exact .cons ⟨0, _, by simp [Basis.dim], rfl, rfl, hg⟩ (.cons ⟨1, _, by simp [Basis.dim], rfl, rfl, h4⟩ .nil)
  | .sphere a Nphi Nr phi r, [s, t], _ =>
    obtain ⟨h2, h0, ht⟩ := hR
    have hv' : v = [points s Nphi, points t Nr] := by
      simp only [Basis.globalShape] at hv
      split at hv
      · rename_i hm
        rw [azimuth_points h2 h0 hm]
        simpa using hv.symm
      · simpa using hv.symm
    subst hv'
    simp only [Basis.axis, Basis.dim] at hb
    obtain ⟨g, h1, hg⟩ := interval_holds hP hf (n := Nphi) phi (hs s (by simp)) (a := a) (by omega) (hC phi (by simp [Basis.grids]))
    obtain ⟨w, hw, hwl⟩ := shape_some (.sphere a Nphi Nr phi r : Basis K) [t, t] rfl
    have hw1 : w[1]? = some (points t Nr) := by
      simp only [Basis.globalShape] at hw
      split at hw <;> (simp only [Option.some.injEq] at hw; subst hw; rfl)
    obtain ⟨h, h3, h4⟩ := curved_holds hP hf (.sphere a Nphi Nr phi r) (j := 1) r (hs t (by simp)) hb hw ht hw1 (by simp [Basis.dim])
      (hC r (by simp [Basis.grids]))
    refine ⟨[g, h], ?_, ?_⟩
    · simp only [basisGrids, h1, colatitude]
      simp only [Basis.axis] at h3
      rw [h3]
      rfl
    · exact .cons ⟨0, _, by simp [Basis.dim], rfl, rfl, hg⟩ (.cons ⟨1, _, by simp [Basis.dim], rfl, rfl, h4⟩ .nil)
  | .radial .., s, _ => exact hR.elim
  | .spherical a Nphi Nt Nr phi th r, [s, t, u], _ =>
    obtain ⟨h2, h0, ht, hu⟩ := hR
    have hv' : v = [points s Nphi, points t Nt, points u Nr] := by
      simp only [Basis.globalShape] at hv
      split at hv
      · rename_i hm
        rw [azimuth_points h2 h0 hm]
        simpa using hv.symm
      · simpa using hv.symm
    subst hv'
    simp only [Basis.axis, Basis.dim] at hb
    obtain ⟨g, h1, hg⟩ := interval_holds hP hf (n := Nphi) phi (hs s (by simp)) (a := a) (by omega) (hC phi (by simp [Basis.grids]))
    obtain ⟨w, hw, hwl⟩ := shape_some (.sphere a Nphi Nt phi th : Basis K) [t, t] rfl
    have hw1 : w[1]? = some (points t Nt) := by
      simp only [Basis.globalShape] at hw
      split at hw <;> (simp only [Option.some.injEq] at hw; subst hw; rfl)
    obtain ⟨h, h3, h4⟩ := curved_holds hP hf (.sphere a Nphi Nt phi th) (j := 1) th (hs t (by simp)) (by simp only [Basis.axis, Basis.dim]; omega) hw ht hw1
      (by simp [Basis.dim]) (hC th (by simp [Basis.grids]))
    obtain ⟨k, h5, h6⟩ := curved_holds hP hf (.radial a Nr r) (j := 2) r (hs u (by simp)) hb (v := [1, 1, points u Nr]) rfl hu rfl (by simp [Basis.dim])
      (hC r (by simp [Basis.grids]))
    refine ⟨[g, h, k], ?_, ?_⟩
    · simp only [basisGrids, h1, colatitude, radiusGrid]
      simp only [Basis.axis] at h3 h5
      rw [h3, h5]
      rfl
    · exact .cons ⟨0, _, by simp [Basis.dim], rfl, rfl, hg⟩ (.cons ⟨1, _, by simp [Basis.dim], rfl, rfl, h4⟩
        (.cons ⟨2, _, by simp [Basis.dim], rfl, rfl, h6⟩ .nil))

/-- All grids, against the global shape of the domain. -/
theorem all_holds {P : Process} {f : Nat → Nat → List Nat} (hP : P.loc.length = P.dim) (hf : AxisElements P.loc P.mesh P.coords f) {s : List ℚ}
    (hs : ∀ x ∈ s, x ≠ 0) (hl : s.length = P.dim) (shape : List Nat) (D : List (Basis K)) (hD : ∀ b ∈ D, b.axis + b.dim ≤ P.dim)
    (hC : ∀ b ∈ D, Spec.Complete b) (hR : ∀ b ∈ D, Spec.Regular b (b.scales s))
    (hsh : ∀ b ∈ D, ∃ v, b.globalShape (b.scales s) = some v ∧ v.length = b.dim ∧ ∀ j < b.dim, shape[b.axis + j]? = v[j]?) :
    ∃ gss, (D.mapM fun b => basisGrids P b (b.scales s)) = some gss ∧
      List.Forall₂ (fun (p : Grid K × Nat) g => ∃ N, shape[p.2]? = some N ∧ Holds P.dim f p.2 N (Spec.node p.1 N) g)
        (D.flatMap fun b => b.grids.zipIdx b.axis) gss.flatten := by
  induction D with
  | nil => exact ⟨[], rfl, .nil⟩
  | cons b D ih =>
    obtain ⟨gss, h1, h2⟩ := ih (fun c hc => hD c (by simp [hc])) (fun c hc => hC c (by simp [hc])) (fun c hc => hR c (by simp [hc]))
      fun c hc => hsh c (by simp [hc])
    obtain ⟨v, hv, hvl, hvs⟩ := hsh b (by simp)
    have hbd := hD b (by simp)
    obtain ⟨gs, h3, h4⟩ := basis_holds hP hf b (s := b.scales s)
      (fun x hx => hs x (List.mem_of_mem_drop (List.mem_of_mem_take hx)))
      (by simp only [Basis.scales, List.length_take, List.length_drop]; omega) hbd (hC b (by simp)) (hR b (by simp)) hv
    refine ⟨gs :: gss, by rw [List.mapM_cons, h3, h1]; rfl, ?_⟩
    rw [List.flatMap_cons, List.flatten_cons]
    refine List.rel_append ?_ h2
    refine h4.imp ?_
    rintro p g ⟨j, N, hj, hp, hN, hh⟩
    exact ⟨N, by rw [hp, hvs j hj, hN], hh⟩

/-- The value read from a grid array at an index of the local data. -/
theorem holds_read {dim : Nat} {f : Nat → Nat → List Nat} {a N : Nat} {val : Nat → Option K} {g : Arr K} (hg : Holds dim f a N val g) {els : List (List Nat)}
    (hel : els.length = dim) (hea : els[a]? = some (f a N)) {j idx : List Nat} (hj : Spec.Global els j idx) :
    ∃ i ∈ f a N, idx[a]? = some i ∧ read g (els.map List.length) j = val i := by
  obtain ⟨ha, v, h1, h2, h3⟩ := hg
  obtain ⟨hjl, hil, hje⟩ := hj
  have hk : j[a]? = some (j[a]'(by omega)) := List.getElem?_eq_getElem _
  have hi : idx[a]? = some (idx[a]'(by omega)) := List.getElem?_eq_getElem _
  have := hje a _ _ _ hea hk hi
  refine ⟨_, List.mem_of_getElem? this, hi, ?_⟩
  rw [read_vector v ha h1 (by simpa using hel) (by rw [List.getElem?_map, hea, h2]; rfl) hk]
  · exact h3 _ _ this
  · rw [h2]
    exact (List.getElem?_eq_some_iff.1 this).1

theorem elements_domain {P : Process} {f : Nat → Nat → List Nat} (hP : P.loc.length = P.dim) (hf : AxisElements P.loc P.mesh P.coords f) {arg : ScaleArg}
    {s : List ℚ} (hs : remedy P.dim arg = some s) {D : List (Basis K)} {shape : List Nat} (hsh : domainShape P.dim D s = some shape) (hl : shape.length = P.dim) :
    ∃ els, elements P D arg = some els ∧ els.length = P.dim ∧ ∀ a n, shape[a]? = some n → els[a]? = some (f a n) := by
  obtain ⟨E, hE, hEl, hEa⟩ := hf.1 shape (by omega)
  refine ⟨E, ?_, by omega, hEa⟩
  simp only [elements, hs, Option.bind_some, hsh]
  rw [← hP]; exact hE

theorem remedy_nonzero {dim : Nat} {arg : ScaleArg} {s : List ℚ} (h : remedy dim arg = some s) : ∀ x ∈ s, x ≠ 0 := by
  unfold remedy at h
  intro x hx hx0
  subst hx0
  have key : ∀ l : List ℚ, (if 0 ∈ l then none else some l) = some s → False := by
    intro l hl
    split at hl
    · simp at hl
    · rename_i h0
      rw [Option.some.injEq] at hl
      rw [← hl] at hx
      exact h0 hx
  exact key _ h

theorem mapM_forall₂ {α β : Type} {q : α → Option β} : ∀ {l : List α} {r : List β}, List.Forall₂ (fun a b => q a = some b) l r → l.mapM q = some r
  | _, _, .nil => rfl
  | _, _, .cons h t => by rw [List.mapM_cons, h, mapM_forall₂ t]; rfl

/-- Membership axis by axis is the same as being the global index of an entry of the local data. -/
theorem mem_global {els : List (List Nat)} {idx : List Nat} : List.Forall₂ (· ∈ ·) idx els ↔ ∃ j, Spec.Global els j idx := by
  constructor
  · intro h
    induction h with
    | nil => exact ⟨[], rfl, rfl, by simp⟩
    | cons hi _ ih =>
      obtain ⟨j, h1, h2, h3⟩ := ih
      obtain ⟨k, hk⟩ := List.getElem?_of_mem hi
      refine ⟨k :: j, by simp [h1], by simp [h2], ?_⟩
      intro a e k' i' he hk' hi'
      cases a with
      | zero =>
        simp only [List.getElem?_cons_zero, Option.some.injEq] at he hk' hi'
        subst he hk' hi'
        exact hk
      | succ a => exact h3 a e k' i' (by simpa using he) (by simpa using hk') (by simpa using hi')
  · rintro ⟨j, h1, h2, h3⟩
    rw [List.forall₂_iff_get]
    refine ⟨h2, fun a ha hb => ?_⟩
    exact List.mem_of_getElem? (h3 a _ (j[a]'(by omega)) _ (List.getElem?_eq_getElem hb) (List.getElem?_eq_getElem _) (List.getElem?_eq_getElem ha))

/-! ## Differences -/

section Spacing

variable [Field K]

theorem gradient_some [CharZero K] (v : List K) (h : 3 ≤ v.length) : ∃ w, gradient v = some w ∧ w.length = v.length ∧
    ∀ (u : Nat → K), (∀ i x, v[i]? = some x → u i = x) → ∀ i d, w[i]? = some d → Spec.Spacing u v.length i d := by
  have key : ∀ i ∈ List.range v.length, ∃ d, (if i = 0 then do
      let a ← v[0]?
      let b ← v[1]?
      let c ← v[2]?
      some (-(3 / 2) * a + 2 * b - (1 / 2) * c)
    else if i = v.length - 1 then do
      let a ← v[v.length - 3]?
      let b ← v[v.length - 2]?
      let c ← v[v.length - 1]?
      some ((1 / 2) * a - 2 * b + (3 / 2) * c)
    else do
      let a ← v[i - 1]?
      let c ← v[i + 1]?
      some ((c - a) / 2) : Option K) = some d ∧
      ∀ (u : Nat → K), (∀ i x, v[i]? = some x → u i = x) → Spec.Spacing u v.length i d := by
    intro i hi
    rw [List.mem_range] at hi
    by_cases h0 : i = 0
    · subst h0
      rw [if_pos rfl, List.getElem?_eq_getElem (by omega : 0 < v.length), List.getElem?_eq_getElem (by omega : 1 < v.length),
        List.getElem?_eq_getElem (by omega : 2 < v.length)]
      refine ⟨_, rfl, fun u hu => ⟨fun h => by omega, fun _ => ?_, fun h => by omega⟩⟩
      rw [hu 0 _ (List.getElem?_eq_getElem (by omega : 0 < v.length)), hu 1 _ (List.getElem?_eq_getElem (by omega : 1 < v.length)),
        hu 2 _ (List.getElem?_eq_getElem (by omega : 2 < v.length))]
      field_simp
      ring
    · rw [if_neg h0]
      by_cases h1 : i = v.length - 1
      · rw [if_pos h1, List.getElem?_eq_getElem (by omega : v.length - 3 < v.length), List.getElem?_eq_getElem (by omega : v.length - 2 < v.length),
          List.getElem?_eq_getElem (by omega : v.length - 1 < v.length)]
        refine ⟨_, rfl, fun u hu => ⟨fun h => by omega, fun h => by omega, fun _ => ?_⟩⟩
        have e1 : i - 1 = v.length - 2 := by omega
        have e2 : i - 2 = v.length - 3 := by omega
        rw [e1, e2, congrArg u h1, hu _ _ (List.getElem?_eq_getElem (by omega : v.length - 3 < v.length)),
          hu _ _ (List.getElem?_eq_getElem (by omega : v.length - 2 < v.length)), hu _ _ (List.getElem?_eq_getElem (by omega : v.length - 1 < v.length))]
        field_simp
        ring
      · rw [if_neg h1, List.getElem?_eq_getElem (by omega : i - 1 < v.length), List.getElem?_eq_getElem (by omega : i + 1 < v.length)]
        refine ⟨_, rfl, fun u hu => ⟨fun _ => ?_, fun h => by omega, fun h => by omega⟩⟩
        rw [hu _ _ (List.getElem?_eq_getElem (by omega : i - 1 < v.length)), hu _ _ (List.getElem?_eq_getElem (by omega : i + 1 < v.length))]
        field_simp
  choose! d hd using key
  refine ⟨(List.range v.length).map d, ?_, by simp, ?_⟩
  · rw [gradient, if_neg (by omega)]
    refine mapM_forall₂ ?_
    rw [List.forall₂_map_right_iff]
    exact List.forall₂_same.2 fun i hi => (hd i hi).1
  · intro u hu i e he
    rw [List.getElem?_map] at he
    rcases hr : (List.range v.length)[i]? with _ | k
    · rw [hr] at he; simp at he
    · rw [hr, Option.map_some, Option.some.injEq] at he
      obtain ⟨hi, hk⟩ := List.getElem?_eq_some_iff.1 hr
      rw [List.getElem_range] at hk
      subst hk
      rw [← he]
      exact (hd i (by simpa using hi)).2 u hu

theorem gradient_length {v w : List K} (h : gradient v = some w) : w.length = v.length := by
  unfold gradient at h
  split at h
  · simp at h
  · have key : ∀ (l : List Nat) (q : Nat → Option K) (r : List K), l.mapM q = some r → r.length = l.length := by
      intro l q
      induction l with
      | nil => intro r hr; simp only [List.mapM_nil] at hr; cases hr; rfl
      | cons a l ih =>
        intro r hr
        rw [List.mapM_cons] at hr
        rcases hq : q a with _ | x
        · rw [hq] at hr; simp at hr
        · rcases hm : l.mapM q with _ | y
          · rw [hq, hm] at hr; simp at hr
          · rw [hq, hm] at hr
            simp only [Option.bind_eq_bind, Option.bind_some, Option.pure_def, Option.some.injEq] at hr
            rw [← hr, List.length_cons, ih y hm, List.length_cons]
    rw [key _ _ _ h, List.length_range]

/-- In the regular cases the global grid along an axis has as many points as the global data. -/
theorem shape_axis (b : Basis K) {S S' : List ℚ} (hC : Spec.Complete b) (hR : Spec.Regular b S) {k : Nat} {t : ℚ} (ht : S[k]? = some t) {u : List K}
    (hu : globalGrid b k t = some u) (hl : S'.length = b.dim) (ht' : S'[k]? = some t) : ∃ v, b.globalShape S' = some v ∧ v[k]? = some u.length := by
  match b, S', hl, k with
  | .interval a n x, [p], _, 0 =>
    simp only [List.getElem?_cons_zero, Option.some.injEq] at ht'
    subst ht'
    simp only [globalGrid, Option.some.injEq] at hu
    subst hu
    exact ⟨_, rfl, by simp [hC x (by simp [Basis.grids])]⟩
  | .interval a n x, [p], _, k + 1 => simp at ht'
  | .polar a Nphi Nr phi r, [p, q], _, 0 =>
    obtain ⟨h2, h0⟩ : Nphi ≠ 2 ∧ 0 < Nphi := by
      unfold Spec.Regular at hR; split at hR <;> simp_all
    simp only [List.getElem?_cons_zero, Option.some.injEq] at ht'
    subst ht'
    simp only [globalGrid, Option.some.injEq] at hu
    subst hu
    simp only [Basis.globalShape]
    split
    · rename_i hm
      exact ⟨_, rfl, by simp [hC phi (by simp [Basis.grids]), azimuth_points h2 h0 hm]⟩
    · exact ⟨_, rfl, by simp [hC phi (by simp [Basis.grids])]⟩
  | .polar a Nphi Nr phi r, [p, q], _, 1 =>
    simp only [List.getElem?_cons_succ, List.getElem?_cons_zero, Option.some.injEq] at ht'
    subst ht'
    have h1 : Nr = 1 → ⌈q⌉ = 1 := by
      unfold Spec.Regular at hR; split at hR <;> simp_all
    simp only [globalGrid, Option.some.injEq] at hu
    subst hu
    simp only [Basis.globalShape]
    split
    · exact ⟨_, rfl, by simp [hC r (by simp [Basis.grids]), ceil_points h1]⟩
    · exact ⟨_, rfl, by simp [hC r (by simp [Basis.grids]), ceil_points h1]⟩
  | .polar a Nphi Nr phi r, [p, q], _, k + 2 => simp at ht'
  | .sphere a Nphi Nr phi r, [p, q], _, 0 =>
    obtain ⟨h2, h0⟩ : Nphi ≠ 2 ∧ 0 < Nphi := by
      unfold Spec.Regular at hR; split at hR <;> simp_all
    simp only [List.getElem?_cons_zero, Option.some.injEq] at ht'
    subst ht'
    simp only [globalGrid, Option.some.injEq] at hu
    subst hu
    simp only [Basis.globalShape]
    split
    · rename_i hm
      exact ⟨_, rfl, by simp [hC phi (by simp [Basis.grids]), azimuth_points h2 h0 hm]⟩
    · exact ⟨_, rfl, by simp [hC phi (by simp [Basis.grids])]⟩
  | .sphere a Nphi Nr phi r, [p, q], _, 1 =>
    simp only [List.getElem?_cons_succ, List.getElem?_cons_zero, Option.some.injEq] at ht'
    subst ht'
    have h1 : Nr = 1 → ⌈q⌉ = 1 := by
      unfold Spec.Regular at hR; split at hR <;> simp_all
    simp only [globalGrid, Option.some.injEq] at hu
    subst hu
    simp only [Basis.globalShape]
    split
    · exact ⟨_, rfl, by simp [hC r (by simp [Basis.grids]), ceil_points h1]⟩
    · exact ⟨_, rfl, by simp [hC r (by simp [Basis.grids]), ceil_points h1]⟩
  | .sphere a Nphi Nr phi r, [p, q], _, k + 2 => simp at ht'
  | .radial .., _, _, _ => exact hR.elim
  | .spherical a Nphi Nt Nr phi th r, [p, q, o], _, 0 =>
    obtain ⟨h2, h0⟩ : Nphi ≠ 2 ∧ 0 < Nphi := by
      unfold Spec.Regular at hR; split at hR <;> simp_all
    simp only [List.getElem?_cons_zero, Option.some.injEq] at ht'
    subst ht'
    simp only [globalGrid, Option.some.injEq] at hu
    subst hu
    simp only [Basis.globalShape]
    split
    · rename_i hm
      exact ⟨_, rfl, by simp [hC phi (by simp [Basis.grids]), azimuth_points h2 h0 hm]⟩
    · exact ⟨_, rfl, by simp [hC phi (by simp [Basis.grids])]⟩
  | .spherical a Nphi Nt Nr phi th r, [p, q, o], _, 1 =>
    simp only [List.getElem?_cons_succ, List.getElem?_cons_zero, Option.some.injEq] at ht'
    subst ht'
    have h1 : Nt = 1 → ⌈q⌉ = 1 := by
      unfold Spec.Regular at hR; split at hR <;> simp_all
    simp only [globalGrid, Option.some.injEq] at hu
    subst hu
    simp only [Basis.globalShape]
    split
    · exact ⟨_, rfl, by simp [hC th (by simp [Basis.grids]), ceil_points h1]⟩
    · exact ⟨_, rfl, by simp [hC th (by simp [Basis.grids]), ceil_points h1]⟩
  | .spherical a Nphi Nt Nr phi th r, [p, q, o], _, 2 =>
    simp only [List.getElem?_cons_succ, List.getElem?_cons_zero, Option.some.injEq] at ht'
    subst ht'
    have h1 : Nr = 1 → ⌈o⌉ = 1 := by
      unfold Spec.Regular at hR; split at hR <;> simp_all
    simp only [globalGrid, Option.some.injEq] at hu
    subst hu
    simp only [Basis.globalShape]
    split
    · exact ⟨_, rfl, by simp [hC r (by simp [Basis.grids]), ceil_points h1]⟩
    · exact ⟨_, rfl, by simp [hC r (by simp [Basis.grids]), ceil_points h1]⟩
  | .spherical a Nphi Nt Nr phi th r, [p, q, o], _, k + 3 => simp at ht'

theorem spacing_length {inf : K} {b : Basis K} {k : Nat} {t : ℚ} {w : List K} (h : globalSpacing inf b k t = some w) :
    ∃ u, globalGrid b k t = some u ∧ w.length = u.length := by
  unfold globalSpacing at h
  rcases hu : globalGrid b k t with _ | u
  · rw [hu] at h; simp at h
  · rw [hu, Option.bind_some] at h
    refine ⟨u, rfl, ?_⟩
    split at h
    · split at h
      · rename_i h1
        rw [Option.some.injEq] at h
        rw [← h, h1]; rfl
      · exact gradient_length h
    · exact gradient_length h

end Spacing

end Dedalus.Grids
