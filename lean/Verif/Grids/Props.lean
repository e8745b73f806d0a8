import Verif.Grids.Lemmas

/-!
# C102: grids and fields agree on every process

`x, y = dist.local_grids(xbasis, ybasis, scales=s)` followed by `u['g'] = f(x, y)` sets every entry of the field, on every process, to the function at the point where
the field is sampled there.
-/

namespace Dedalus.Grids

open Dedalus.Dist
open Dedalus.Field (ScaleArg remedy)

variable {K : Type}

/-- C102. On every process, the grids given by `local_grids` can be combined with the local data of a field on these bases at these scales, and at the entry with global
index `idx` they hold the coordinates of point number `idx` of the global grid.

Partial: azimuths with two points, curvilinear axes with a single mode at scales above one (see the refutations below), and bases that stand for radii only are
excluded by `Regular`. -/
theorem local_grids_partial (P : Process) (hP : Spec.Member P) (D : List (Basis K)) (hD : Spec.Separate P.dim D) (arg : ScaleArg) (s : List ℚ)
    (hs : remedy P.dim arg = some s) (hl : s.length = P.dim) (hC : ∀ b ∈ D, Spec.Complete b) (hR : ∀ b ∈ D, Spec.Regular b (b.scales s))
    {R : Type} (f : List K → R) :
    ∃ shape els grids, domainShape P.dim D s = some shape ∧ elements P D arg = some els ∧ localGrids P D arg = some grids ∧
      ∀ j idx, Spec.Global els j idx → ∃ xs, Spec.Coordinates D shape idx xs ∧ setData P D arg f grids j = some (f xs) := by
  obtain ⟨F, hF⟩ := axis_elements P.loc P.mesh P.coords hP.mesh hP.inside.length_eq
  obtain ⟨shape, h1, h2, h3⟩ := domain_shape P.dim s D hl hD
  obtain ⟨els, h4, h5, h6⟩ := elements_domain hP.axes hF hs h1 h2
  obtain ⟨gss, h7, h8⟩ := all_holds hP.axes hF (remedy_nonzero hs) hl shape D hD.2 hC hR h3
  refine ⟨shape, els, gss.flatten, h1, h4, by simp [localGrids, hs, h7], ?_⟩
  intro j idx hj
  have key : ∀ (ps : List (Grid K × Nat)) (gs : List (Arr K)), List.Forall₂ (fun (p : Grid K × Nat) g => ∃ N, shape[p.2]? = some N ∧
      Holds P.dim F p.2 N (Spec.node p.1 N) g) ps gs → (∀ p ∈ ps, ∀ N, (p.1.native N).length = N) → ∃ xs,
      List.Forall₂ (fun (p : Grid K × Nat) x => ∃ N i, shape[p.2]? = some N ∧ idx[p.2]? = some i ∧ Spec.node p.1 N i = some x) ps xs ∧
      List.Forall₂ (fun g x => read g (els.map List.length) j = some x) gs xs := by
    intro ps gs h
    induction h with
    | nil => intro _; exact ⟨[], .nil, .nil⟩
    | cons hd _ ih =>
      intro hps
      obtain ⟨xs, ha, hb⟩ := ih fun p hp => hps p (by simp [hp])
      rename_i p g ps gs _
      obtain ⟨N, hN, hg⟩ := hd
      obtain ⟨i, hi, hii, hr⟩ := holds_read hg h5 (h6 _ _ hN) hj
      have hx : Spec.node p.1 N i = some (p.1.problem ((p.1.native N)[i]'(by rw [hps p (by simp)]; exact hF.2 _ _ _ hi))) := by
        rw [Spec.node, List.getElem?_eq_getElem]; rfl
      exact ⟨_ :: xs, .cons ⟨N, i, hN, hii, hx⟩ ha, .cons (hr.trans hx) hb⟩
  obtain ⟨xs, ha, hb⟩ := key _ _ h8 (by
    intro p hp N
    obtain ⟨b, hbD, hpb⟩ := List.mem_flatMap.1 hp
    exact hC b hbD p.1 (List.fst_mem_of_mem_zipIdx hpb) N)
  refine ⟨xs, ha, ?_⟩
  simp only [setData, localShape, h4, Option.map_some, Option.bind_some, mapM_forall₂ hb]

/-- C102. After `u['g'] = f(*dist.local_grids(*bases))` on all processes, each entry of the global array is held by exactly one process, at one place of its data,
and is the function at the coordinates of the point of the global grid with this index. -/
theorem set_from_grids_partial (dim : Nat) (loc : List Bool) (mesh : List Nat) (hloc : loc.length = dim) (hmesh : mesh.length = loc.count false)
    (hpos : ∀ m ∈ mesh, 0 < m) (D : List (Basis K)) (hD : Spec.Separate dim D) (arg : ScaleArg) (s : List ℚ)
    (hs : remedy dim arg = some s) (hl : s.length = dim) (hC : ∀ b ∈ D, Spec.Complete b) (hR : ∀ b ∈ D, Spec.Regular b (b.scales s))
    {R : Type} (f : List K → R) :
    ∃ shape, domainShape dim D s = some shape ∧ shape.length = dim ∧ ∀ idx, List.Forall₂ (· < ·) idx shape →
      ∃! coords, List.Forall₂ (· < ·) coords mesh ∧ ∃ els grids j xs, elements ⟨dim, loc, mesh, coords⟩ D arg = some els ∧
        localGrids ⟨dim, loc, mesh, coords⟩ D arg = some grids ∧ Spec.Global els j idx ∧ Spec.Coordinates D shape idx xs ∧
        setData ⟨dim, loc, mesh, coords⟩ D arg f grids j = some (f xs) := by
  obtain ⟨shape, h1, h2, -⟩ := domain_shape dim s D hl hD
  refine ⟨shape, h1, h2, fun idx hidx => ?_⟩
  have hel : ∀ coords, elements ⟨dim, loc, mesh, coords⟩ D arg =
      layoutElements loc mesh shape (List.replicate dim 1) (List.replicate dim false) false coords := by
    intro coords
    simp only [elements, hs, Option.bind_some, h1]
  obtain ⟨coords, ⟨hc, els, he, hm⟩, hu⟩ := owned_by_one_process loc (List.replicate dim false) mesh shape (List.replicate dim 1) idx
    (by simp [hloc]) hmesh hpos (by omega) (by
      rw [List.forall₂_iff_get]
      exact ⟨by simp [h2], fun i _ _ => by simp⟩) hidx
  refine ⟨coords, ⟨hc, ?_⟩, ?_⟩
  · obtain ⟨shape', els', grids, g1, g2, g3, g4⟩ := local_grids_partial ⟨dim, loc, mesh, coords⟩ ⟨hloc, hmesh, hc⟩ D hD arg s hs hl hC hR f
    rw [h1, Option.some.injEq] at g1
    subst g1
    have hee : els' = els := by
      rw [hel, he, Option.some.injEq] at g2
      exact g2.symm
    subst hee
    obtain ⟨j, hj⟩ := mem_global.1 hm
    obtain ⟨xs, hx, hset⟩ := g4 j idx hj
    exact ⟨_, grids, j, xs, g2, g3, hj, hx, hset⟩
  · rintro coords' ⟨hc', els', grids, j, xs, g1, -, hj, -⟩
    rw [hel] at g1
    exact hu coords' ⟨hc', els', g1, mem_global.2 ⟨j, hj⟩⟩

/-- C102. The number of grid points of a field along an axis is the number of modes times the scale of that axis, rounded up, or one if there is only one mode. -/
theorem data_points (dim : Nat) (D : List (Basis K)) (hD : Spec.Separate dim D) (s : List ℚ) (hl : s.length = dim) (b : Basis K) (hb : b ∈ D)
    (hR : Spec.Regular b (b.scales s)) (k n : Nat) (hn : b.modes[k]? = some n) (t : ℚ) (ht : s[b.axis + k]? = some t) :
    ∃ shape, domainShape dim D s = some shape ∧ shape[b.axis + k]? = some (if n = 1 then 1 else ⌈t * n⌉.toNat) := by
  obtain ⟨shape, h1, -, h3⟩ := domain_shape dim s D hl hD
  obtain ⟨v, hv, hvl, hvs⟩ := h3 b hb
  have hkm : k < b.modes.length := (List.getElem?_eq_some_iff.1 hn).1
  have hbm : b.modes.length = b.dim := by cases b <;> rfl
  refine ⟨shape, h1, ?_⟩
  rw [hvs k (by omega)]
  have hst : (b.scales s)[k]? = some t := by
    rw [Basis.scales, List.getElem?_take_of_lt (by omega), List.getElem?_drop, ht]
  have hsl : (b.scales s).length = b.dim := by
    have := hD.2 b hb
    simp only [Basis.scales, List.length_take, List.length_drop]; omega
  have hp : (if n = 1 then 1 else ⌈t * n⌉.toNat) = points t n := rfl
  rw [hp]
  generalize b.scales s = S at *
  match b, S, hsl, k with
  | .interval a m x, [p], _, 0 =>
    cases hst; cases hn; cases hv; rfl
  | .interval a m x, [p], _, k + 1 => simp at hst
  | .polar a Nphi Nr phi r, [p, q], _, 0 =>
    obtain ⟨h2, h0, -⟩ := hR
    cases hst; cases hn
    simp only [Basis.globalShape] at hv
    split at hv
    · rename_i hm
      cases hv; rw [azimuth_points h2 h0 hm]; rfl
    · cases hv; rfl
  | .polar a Nphi Nr phi r, [p, q], _, 1 =>
    cases hst; cases hn
    simp only [Basis.globalShape] at hv
    split at hv <;> (cases hv; rfl)
  | .polar a Nphi Nr phi r, [p, q], _, k + 2 => simp at hst
  | .sphere a Nphi Nr phi r, [p, q], _, 0 =>
    obtain ⟨h2, h0, -⟩ := hR
    cases hst; cases hn
    simp only [Basis.globalShape] at hv
    split at hv
    · rename_i hm
      cases hv; rw [azimuth_points h2 h0 hm]; rfl
    · cases hv; rfl
  | .sphere a Nphi Nr phi r, [p, q], _, 1 =>
    cases hst; cases hn
    simp only [Basis.globalShape] at hv
    split at hv <;> (cases hv; rfl)
  | .sphere a Nphi Nr phi r, [p, q], _, k + 2 => simp at hst
  | .radial .., _, _, _ => exact hR.elim
  | .spherical a Nphi Nt Nr phi th r, [p, q, o], _, 0 =>
    obtain ⟨h2, h0, -⟩ := hR
    cases hst; cases hn
    simp only [Basis.globalShape] at hv
    split at hv
    · rename_i hm
      cases hv; rw [azimuth_points h2 h0 hm]; rfl
    · cases hv; rfl
  | .spherical a Nphi Nt Nr phi th r, [p, q, o], _, 1 =>
    cases hst; cases hn
    simp only [Basis.globalShape] at hv
    split at hv <;> (cases hv; rfl)
  | .spherical a Nphi Nt Nr phi th r, [p, q, o], _, 2 =>
    cases hst; cases hn
    simp only [Basis.globalShape] at hv
    split at hv <;> (cases hv; rfl)
  | .spherical a Nphi Nt Nr phi th r, [p, q, o], _, k + 3 => simp at hst

/-- C102. `dist.local_grid(basis, scale)` of an interval is the only array of `dist.local_grids(basis, scales=scale)`; it is an error for other bases. -/
theorem local_grid_eq (P : Process) (a n : Nat) (x : Grid K) (ha : a < P.dim) (s : ℚ) (hs : s ≠ 0) :
    (localGrid P (.interval a n x) (some s)).map (fun g => [g]) = localGrids P [.interval a n x] (.num s) ∧
    localGrid P (.interval a n x) none = localGrid P (.interval a n x) (some 1) ∧
    ∀ b : Basis K, b.dim ≠ 1 → ∀ s, localGrid P b s = none := by
  refine ⟨?_, rfl, ?_⟩
  · have : (Basis.interval a n x : Basis K).scales (List.replicate P.dim s) = [s] := by
      simp only [Basis.scales, Basis.axis, Basis.dim, List.drop_replicate, List.take_replicate]
      rw [show min 1 (P.dim - a) = 1 by omega]
      rfl
    simp only [localGrid, localGrids, remedy_num hs, Option.bind_some, List.mapM_cons, List.mapM_nil, this, basisGrids]
    rcases intervalGrid P a n x s with _ | g <;> rfl
  · intro b hb s
    cases b <;> simp_all [localGrid, Basis.dim]

/-! ## Spacings -/

section Spacing

variable [Field K]

/-- C102. `local_grid_spacing` gives each process the entries of the global spacing at its own points, along the right axis. -/
theorem local_spacing_partial (inf : K) (P : Process) (hP : Spec.Member P) (D : List (Basis K)) (hD : Spec.Separate P.dim D) (arg : ScaleArg) (s : List ℚ)
    (hs : remedy P.dim arg = some s) (hl : s.length = P.dim) (hC : ∀ b ∈ D, Spec.Complete b) (hR : ∀ b ∈ D, Spec.Regular b (b.scales s))
    (b : Basis K) (hb : b ∈ D) (k : Nat) (t : ℚ) (ht : (b.scales s)[k]? = some t) (w : List K) (hw : globalSpacing inf b k t = some w) :
    ∃ els g, elements P D arg = some els ∧ localSpacing inf P b k t = some g ∧
      ∀ j idx, Spec.Global els j idx → ∃ i d, idx[b.axis + k]? = some i ∧ w[i]? = some d ∧ read g (els.map List.length) j = some d := by
  obtain ⟨F, hF⟩ := axis_elements P.loc P.mesh P.coords hP.mesh hP.inside.length_eq
  obtain ⟨shape, h1, h2, h3⟩ := domain_shape P.dim s D hl hD
  obtain ⟨els, h4, h5, h6⟩ := elements_domain hP.axes hF hs h1 h2
  obtain ⟨u, hu, hwu⟩ := spacing_length hw
  have hbd := hD.2 b hb
  have hsl : (b.scales s).length = b.dim := by simp only [Basis.scales, List.length_take, List.length_drop]; omega
  have hk : k < b.dim := hsl ▸ (List.getElem?_eq_some_iff.1 ht).1
  obtain ⟨v, hv, hvk⟩ := shape_axis b (hC b hb) (hR b hb) ht hu hsl ht
  obtain ⟨v', hv', hvk'⟩ := shape_axis b (S' := List.replicate b.dim t) (hC b hb) (hR b hb) ht hu (by simp) (by simp [hk])
  have ht0 : t ≠ 0 := remedy_nonzero hs t (List.mem_of_mem_drop (List.mem_of_mem_take (List.mem_of_getElem? ht)))
  obtain ⟨els', h7, h8⟩ := elements_single hP.axes hF b ht0 hbd hv' hvk'
  obtain ⟨g, h9, h10⟩ := vector_holds hF (a := b.axis + k) (N := u.length) (by omega) w hwu
  refine ⟨els, g, h4, by simp only [localSpacing, hw, h7, h8, Option.bind_some, h9], ?_⟩
  intro j idx hj
  obtain ⟨v'', hv'', -, hvs⟩ := h3 b hb
  rw [hv, Option.some.injEq] at hv''
  subst hv''
  obtain ⟨i, hi, hii, hr⟩ := holds_read h10 h5 (h6 _ _ ((hvs k hk).trans hvk)) hj
  have hiw : i < w.length := hwu ▸ hF.2 _ _ _ hi
  exact ⟨i, w[i], hii, List.getElem?_eq_getElem hiw, hr.trans (List.getElem?_eq_getElem hiw)⟩

/-- C102. The global spacing of an axis with at least three points is the difference of its points per index: centred inside, second order one-sided at the ends. -/
theorem global_spacing_values [CharZero K] (inf : K) (b : Basis K) (k : Nat) (t : ℚ) (v : List K) (hv : globalGrid b k t = some v) (h3 : 3 ≤ v.length)
    (x : Nat → K) (hx : ∀ i y, v[i]? = some y → x i = y) :
    ∃ w, globalSpacing inf b k t = some w ∧ w.length = v.length ∧ ∀ i d, w[i]? = some d → Spec.Spacing x v.length i d := by
  obtain ⟨w, h1, h2, h4⟩ := gradient_some v h3
  refine ⟨w, ?_, h2, h4 x hx⟩
  unfold globalSpacing
  rw [hv, Option.bind_some]
  split
  · rw [if_neg (by omega), h1]
  · exact h1

/-- C102. Along an axis with equidistant points (Fourier bases) the spacing is the distance of neighbouring points, also at the two ends. -/
theorem equidistant_spacing [CharZero K] (a h : K) (N i : Nat) (d : K) (hi : i < N) (hN : 3 ≤ N) (hd : Spec.Spacing (fun i => a + h * i) N i d) : d = h := by
  obtain ⟨h1, h2, h3⟩ := hd
  have two : (2 : K) ≠ 0 := by exact_mod_cast (Nat.cast_ne_zero (R := K)).2 (by decide : (2 : ℕ) ≠ 0)
  apply mul_left_cancel₀ two
  by_cases h0 : i = 0
  · rw [h2 h0]; push_cast; ring
  · by_cases hl : i + 1 = N
    · rw [h3 hl]
      obtain ⟨m, rfl⟩ : ∃ m, i = m + 2 := ⟨i - 2, by omega⟩
      rw [show m + 2 - 1 = m + 1 by omega, show m + 2 - 2 = m by omega]
      push_cast; ring
    · rw [h1 ⟨by omega, by omega⟩]
      obtain ⟨m, rfl⟩ : ∃ m, i = m + 1 := ⟨i - 1, by omega⟩
      rw [show m + 1 - 1 = m by omega]
      push_cast; ring

/-- C102. With fewer than three points there is no spacing, except for the single points of balls and shells, where it is infinite. -/
theorem spacing_few_points (inf : K) (b : Basis K) (k : Nat) (t : ℚ) (v : List K) (hv : globalGrid b k t = some v) (h3 : v.length < 3) :
    globalSpacing inf b k t = if (b.dim = 3 ∧ v.length = 1) then some [inf] else none := by
  unfold globalSpacing
  rw [hv, Option.bind_some]
  cases b <;> simp_all [Basis.dim, gradient, globalGrid]

end Spacing

/-! ## What does not hold -/

/-- An equispaced grid on the open unit interval, for the examples. -/
def unitGrid : Grid ℚ := ⟨fun N => (List.range N).map fun i => ((i : ℚ) + 1) / (N + 1), id⟩

/-- C102 is false for two azimuthal points: a disk of shape `(2, 4)` is accepted (its field has one azimuthal value), but its azimuth grid has two points, and setting a
field from the grids is an error. -/
theorem azimuth_refuted : ∃ (P : Process) (b : Basis ℚ) (grids : List (Arr ℚ)) (els : List (List Nat)), Spec.Member P ∧ Spec.Separate P.dim [b] ∧ Spec.Complete b ∧
    localGrids P [b] (.num 1) = some grids ∧ elements P [b] (.num 1) = some els ∧ Spec.Global els [0, 0] [0, 0] ∧
    setData P [b] (.num 1) List.sum grids [0, 0] = none := by
  refine ⟨⟨2, [true, true], [], []⟩, .polar 0 2 4 unitGrid unitGrid, [⟨[2, 1], [1 / 3, 2 / 3]⟩, ⟨[1, 4], [1 / 5, 2 / 5, 3 / 5, 4 / 5]⟩],
    [[0], [0, 1, 2, 3]], ⟨rfl, rfl, .nil⟩, ⟨by simp, by simp [Basis.axis, Basis.dim]⟩, ?_, by decide +kernel, by decide +kernel, ?_, by decide +kernel⟩
  · intro x hx N
    simp only [Basis.grids, List.mem_cons, List.not_mem_nil, or_false, or_self] at hx
    subst hx
    simp [unitGrid]
  · refine ⟨rfl, rfl, ?_⟩
    intro a e k i he hk hi
    match a with
    | 0 => cases he; cases hk; cases hi; rfl
    | 1 => cases he; cases hk; cases hi; rfl
    | a + 2 => simp at hk

/-- C102 is false for shells of shape `(1, 1, Nr)` at dealiasing scales: a field has one value in colatitude, sampled at the one-point grid, but the colatitude
returned is the first point of the two-point grid. -/
theorem colatitude_refuted : ∃ (P : Process) (b : Basis ℚ) (grids : List (Arr ℚ)) (g : Arr ℚ), Spec.Member P ∧ Spec.Separate P.dim [b] ∧ Spec.Complete b ∧
    localGrids P [b] (.num (3 / 2)) = some grids ∧ grids[1]? = some g ∧ domainShape P.dim [b] (List.replicate 3 (3 / 2)) = some [1, 1, 6] ∧
    read g [1, 1, 6] [0, 0, 0] = some (1 / 3) ∧ Spec.node unitGrid 1 0 = some (1 / 2) ∧ b.grids[1]? = some unitGrid := by
  refine ⟨⟨3, [true, true, true], [], []⟩, .spherical 0 1 1 4 unitGrid unitGrid unitGrid,
    [⟨[1, 1, 1], [1 / 2]⟩, ⟨[1, 1, 1], [1 / 3]⟩, ⟨[1, 1, 6], [1 / 7, 2 / 7, 3 / 7, 4 / 7, 5 / 7, 6 / 7]⟩], ⟨[1, 1, 1], [1 / 3]⟩,
    ⟨rfl, rfl, .nil⟩, ⟨by simp, by simp [Basis.axis, Basis.dim]⟩, ?_, by decide +kernel, rfl, ?_, ?_, ?_, rfl⟩
  · intro x hx N
    simp only [Basis.grids, List.mem_cons, List.not_mem_nil, or_false, or_self] at hx
    subst hx
    simp [unitGrid]
  · decide +kernel
  · decide +kernel
  · decide +kernel

/-! ## The hypotheses can be met -/

/-- Two Fourier or Jacobi bases with 5 and 4 modes and dealiasing 3/2 on the second process of three. -/
example : Spec.Member ⟨2, [false, true], [3], [1]⟩ ∧
    Spec.Separate 2 [Basis.interval 0 5 unitGrid, .interval 1 4 unitGrid] ∧ remedy 2 (.num (3 / 2)) = some [3 / 2, 3 / 2] ∧
    (∀ b ∈ [Basis.interval 0 5 unitGrid, .interval 1 4 unitGrid], Spec.Complete b ∧ Spec.Regular b (b.scales [3 / 2, 3 / 2])) ∧
    elements ⟨2, [false, true], [3], [1]⟩ [Basis.interval 0 5 unitGrid, .interval 1 4 unitGrid] (.num (3 / 2)) = some [[3, 4, 5], [0, 1, 2, 3, 4, 5]] := by
  refine ⟨⟨rfl, rfl, .cons (by decide) .nil⟩, ⟨by simp [Basis.axis, Basis.dim], by simp [Basis.axis, Basis.dim]⟩, by decide +kernel, ?_, by decide +kernel⟩
  intro b hb
  simp only [List.mem_cons, List.not_mem_nil, or_false] at hb
  rcases hb with rfl | rfl
  · exact ⟨by intro x hx N; simp only [Basis.grids, List.mem_singleton] at hx; subst hx; simp [unitGrid], trivial⟩
  · exact ⟨by intro x hx N; simp only [Basis.grids, List.mem_singleton] at hx; subst hx; simp [unitGrid], trivial⟩

/-- A shell with 8, 4 and 3 modes next to nothing else, on the last of two by two processes. -/
example : Spec.Member ⟨3, [false, false, true], [2, 2], [1, 1]⟩ ∧ Spec.Separate 3 [Basis.spherical 0 8 4 3 unitGrid unitGrid unitGrid] ∧
    Spec.Regular (Basis.spherical 0 8 4 3 unitGrid unitGrid unitGrid) [3 / 2, 3 / 2, 3 / 2] ∧
    elements ⟨3, [false, false, true], [2, 2], [1, 1]⟩ [Basis.spherical 0 8 4 3 unitGrid unitGrid unitGrid] (.num (3 / 2)) =
      some [[6, 7, 8, 9, 10, 11], [3, 4, 5], [0, 1, 2, 3, 4]] := by
  refine ⟨⟨rfl, rfl, .cons (by decide) (.cons (by decide) .nil)⟩, ⟨by simp, by simp [Basis.axis, Basis.dim]⟩, ?_, by decide +kernel⟩
  simp [Spec.Regular]

end Dedalus.Grids
