import Verif.Plot.Lemmas
import Mathlib.Data.Rat.Floor

/-!
# Plots show every value at its place (C108)
-/

namespace Dedalus.Plot

open Spec

variable {K : Type} [Field K] [LinearOrder K] [IsStrictOrderedRing K]

/-! ### Meshes -/

omit [LinearOrder K] [IsStrictOrderedRing K] in
theorem quadMesh_cells {x y : List K} {cutX cutY : Bool} {xm ym : List (List K)}
    (h : quadMesh x y cutX cutY = .ok (xm, ym)) : ∃ xv yv, vertices x cutX = .ok xv ∧ vertices y cutY = .ok yv ∧
      ∀ j i l r b t, xv[i]? = some l → xv[i + 1]? = some r → yv[j]? = some b → yv[j + 1]? = some t →
        Cell xm ym j i l r b t := by
  unfold quadMesh at h
  cases ex : vertices x cutX with
  | error => rw [ex] at h; cases h
  | ok xv =>
  cases ey : vertices y cutY with
  | error => rw [ex, ey] at h; cases h
  | ok yv =>
  rw [ex, ey] at h
  have h' := Except.ok.inj h
  obtain ⟨rfl, rfl⟩ := Prod.mk.inj h'
  refine ⟨xv, yv, rfl, rfl, ?_⟩
  intro j i l r b t hl hr hb ht
  simp only [Cell, corner, List.getElem?_map, hl, hr, hb, ht, Option.map_some, Option.bind_some, mul_one, and_self]

/-- **quad_mesh** puts every point of two increasing grids strictly inside a cell of its own: the cell in the row of
its `y` and the column of its `x`. With `cut_edges` the cells at the ends stop at the last points. Partial: grids of
one point are refused unless they are cut, and then their cells are empty; see `one_point_refuted`. -/
theorem mesh_encloses_partial (x y : List K) (cutX cutY : Bool) (hx : x.Pairwise (· < ·)) (hy : y.Pairwise (· < ·))
    (hx2 : 2 ≤ x.length) (hy2 : 2 ≤ y.length) :
    ∃ xm ym, quadMesh x y cutX cutY = .ok (xm, ym) ∧
      xm.length = y.length + 1 ∧ ym.length = y.length + 1 ∧
      (∀ row ∈ xm, row.length = x.length + 1) ∧ (∀ row ∈ ym, row.length = x.length + 1) ∧
      ∀ j i a b, x[i]? = some a → y[j]? = some b → Around cutX cutY x.length y.length xm ym j i a b := by
  obtain ⟨xv, ex⟩ := vertices_ok x cutX (by split <;> omega)
  obtain ⟨yv, ey⟩ := vertices_ok y cutY (by split <;> omega)
  have hq : quadMesh x y cutX cutY =
      .ok (yv.map (fun _ => xv.map fun v => v * 1), yv.map (fun w => xv.map fun _ => w * 1)) := by
    unfold quadMesh; rw [ex, ey]; rfl
  have lx := (vertices_spec ex).1
  have ly := (vertices_spec ey).1
  refine ⟨_, _, hq, by simpa using ly, by simpa using ly, ?_, ?_, ?_⟩
  · intro row hr
    obtain ⟨_, _, rfl⟩ := List.mem_map.1 hr
    simpa using lx
  · intro row hr
    obtain ⟨_, _, rfl⟩ := List.mem_map.1 hr
    simpa using lx
  · intro j i a b ha hb
    obtain ⟨xv', yv', ex', ey', hc⟩ := quadMesh_cells hq
    rw [ex] at ex'; rw [ey] at ey'
    obtain rfl := Except.ok.inj ex'
    obtain rfl := Except.ok.inj ey'
    obtain ⟨l, r, hl, hr, hlr, hla, har, hs, hc1⟩ := vertices_enclose ex hx i a ha hx2
    obtain ⟨l', r', hl', hr', hlr', hla', har', hs', hc2⟩ := vertices_enclose ey hy j b hb hy2
    have cell := hc j i l r l' r' hl hr hl' hr'
    exact ⟨l, r, l', r', cell, hlr, hlr', hla, har, hla', har', hs, hs', hc1, hc2⟩

/-- The edges between two points of a grid lie halfway; at the ends the cell is as wide on both sides, or stops at
the point. -/
theorem vertices_halfway (grid vs : List K) (cut : Bool) (h : vertices grid cut = .ok vs) :
    (∀ (i : Nat) a b, grid[i]? = some a → grid[i + 1]? = some b → vs[i + 1]? = some ((a + b) / 2)) ∧
    (∀ a, grid[0]? = some a → cut = true → vs[0]? = some a) ∧
    (∀ a b, grid[0]? = some a → grid[1]? = some b → cut = false → vs[0]? = some (a - (b - a) / 2)) ∧
    (∀ (i : Nat) a, grid[i]? = some a → i + 1 = grid.length → cut = true → vs[i + 1]? = some a) ∧
    (∀ (i : Nat) a b, grid[i]? = some a → grid[i + 1]? = some b → i + 2 = grid.length → cut = false →
      vs[i + 2]? = some (b + (b - a) / 2)) := by
  obtain ⟨_, h1, h2, h3, h4, h5⟩ := vertices_spec h
  refine ⟨fun i a b ha hb => ?_, h2, h4, h3, h5⟩
  rw [h1 i a b ha hb]
  congr 1
  ring

example : vertices ([0, 1, 3] : List ℚ) false = .ok [-1/2, 1/2, 2, 4] := by
  unfold vertices; norm_num

/-- **A grid of one point** — an axis along which a field is constant, or a slice of one position — cannot be plotted
by default, and with its edges cut its cell has no width. -/
theorem one_point_refuted (a : K) :
    vertices [a] false = .error .index ∧ vertices [a] true = .ok [a, a] := by
  constructor <;> rfl

/-! ### Planes -/

omit [Field K] [LinearOrder K] [IsStrictOrderedRing K] in
theorem takeFirst_ok {A B : Arr K} {o : List Nat} {n : Nat} {rest : List Nat} (hs : A.shape = n :: rest)
    (h : takeFirst A o = .ok B) : B.shape = o.length :: rest ∧
      ∀ i idx, B.get (i :: idx) = o[i]?.bind fun k => A.get (k :: idx) := by
  unfold takeFirst at h
  rw [hs] at h
  simp only at h
  split at h
  · obtain rfl := Except.ok.inj h
    exact ⟨rfl, fun _ _ => rfl⟩
  · cases h

omit [Field K] [LinearOrder K] [IsStrictOrderedRing K] in
theorem takeSecond_ok {A B : Arr K} {o : List Nat} {m n : Nat} {rest : List Nat} (hs : A.shape = m :: n :: rest)
    (h : takeSecond A o = .ok B) : B.shape = m :: o.length :: rest ∧
      ∀ j i idx, B.get (j :: i :: idx) = o[i]?.bind fun k => A.get (j :: k :: idx) := by
  unfold takeSecond at h
  rw [hs] at h
  simp only at h
  split at h
  · obtain rfl := Except.ok.inj h
    exact ⟨rfl, fun _ _ _ => rfl⟩
  · cases h

/-- Data of the returned plane: row `j` and column `i` hold the entry with the `yorder[j]`-th selected position along
y and the `xorder[i]`-th along x. -/
theorem getPlane_eq {d : Dset K} {xaxis yaxis : Nat} {sl : List Sel} {xs ys : Nat} {cutX cutY : Bool}
    {kx ky : List Nat} {xm ym : List (List K)} {out : Arr K}
    (h : getPlane d xaxis yaxis sl xs ys cutX cutY = .ok (xm, ym, out))
    (hp : IsPlane d.data.shape sl xaxis yaxis kx ky) :
    ∃ gx gy sx sy fx fy, d.dims xaxis xs = some fx ∧ d.dims yaxis ys = some fy ∧
      gather fx kx = .ok gx ∧ gather fy ky = .ok gy ∧ gather gx (argsort gx) = .ok sx ∧
      gather gy (argsort gy) = .ok sy ∧ quadMesh sx sy cutX cutY = .ok (xm, ym) ∧
      out.shape = [(argsort gy).length, (argsort gx).length] ∧
      ∀ j i p q b a idx, (argsort gy)[j]? = some b → (argsort gx)[i]? = some a → kx[a]? = some p → ky[b]? = some q →
        IsPosition sl xaxis yaxis p q idx → out.get [j, i] = d.data.get idx := by
  unfold getPlane at h
  cases e1 : axisGrid d xaxis xs sl with
  | error => rw [e1] at h; cases h
  | ok gx =>
  cases e2 : axisGrid d yaxis ys sl with
  | error => rw [e1, e2] at h; cases h
  | ok gy =>
  rw [e1, e2] at h
  simp only [bind, Except.bind] at h
  cases e3 : gather gx (argsort gx) with
  | error => rw [e3] at h; cases h
  | ok sx =>
  rw [e3] at h
  cases e4 : gather gy (argsort gy) with
  | error => rw [e4] at h; cases h
  | ok sy =>
  rw [e4] at h
  simp only at h
  cases e5 : quadMesh sx sy cutX cutY with
  | error => rw [e5] at h; cases h
  | ok m =>
  rw [e5] at h
  simp only at h
  cases e6 : pickShape sl d.data.shape with
  | error => simp only [pick, e6, bind, Except.bind] at h; cases h
  | ok shape =>
  simp only [pick, e6, bind, Except.bind] at h
  obtain ⟨fx, hfx, hgx⟩ : ∃ fx, d.dims xaxis xs = some fx ∧ gather fx kx = .ok gx := by
    unfold axisGrid at e1
    rw [hp.x] at e1
    cases e : d.dims xaxis xs with
    | none => rw [e] at e1; cases e1
    | some f => rw [e] at e1; exact ⟨f, rfl, e1⟩
  obtain ⟨fy, hfy, hgy⟩ : ∃ fy, d.dims yaxis ys = some fy ∧ gather fy ky = .ok gy := by
    unfold axisGrid at e2
    rw [hp.y] at e2
    cases e : d.dims yaxis ys with
    | none => rw [e] at e2; cases e2
    | some f => rw [e] at e2; exact ⟨f, rfl, e2⟩
  -- the array before sorting
  have base : ∃ A : Arr K, (if xaxis < yaxis then transposed
        (⟨shape, fun idx => (merge sl idx).bind d.data.get⟩ : Arr K)
      else ⟨shape, fun idx => (merge sl idx).bind d.data.get⟩) = A ∧ A.shape = [ky.length, kx.length] ∧
      ∀ p q b a idx, kx[a]? = some p → ky[b]? = some q → IsPosition sl xaxis yaxis p q idx →
        A.get [b, a] = d.data.get idx := by
    refine ⟨_, rfl, ?_, ?_⟩
    · rcases Nat.lt_or_ge xaxis yaxis with hlt | hge
      · rw [if_pos hlt]
        have := plane_shape hlt hp.x hp.y hp.others hp.full e6
        simp [transposed, this]
      · rw [if_neg (by omega)]
        have hlt : yaxis < xaxis := lt_of_le_of_ne hge (Ne.symm hp.differ)
        exact plane_shape hlt hp.y hp.x (fun n s h1 h2 => hp.others n s h2 h1) hp.full e6
    · intro p q b a idx hpx hqy hpos
      rcases Nat.lt_or_ge xaxis yaxis with hlt | hge
      · rw [if_pos hlt]
        have := merge_position hlt hp.x hp.y hp.others a b p q hpx hqy idx hpos.length hpos.x hpos.y hpos.others
        simp [transposed, this]
      · rw [if_neg (by omega)]
        have hlt : yaxis < xaxis := lt_of_le_of_ne hge (Ne.symm hp.differ)
        have := merge_position hlt hp.y hp.x (fun n s h1 h2 => hp.others n s h2 h1) b a q p hqy hpx idx
          hpos.length hpos.y hpos.x hpos.others
        simp [this]
  obtain ⟨A, hA, hAs, hAg⟩ := base
  rw [hA] at h
  cases e7 : takeFirst A (argsort gy) with
  | error => rw [e7] at h; cases h
  | ok B =>
  rw [e7] at h
  simp only at h
  cases e8 : takeSecond B (argsort gx) with
  | error => rw [e8] at h; cases h
  | ok C =>
  rw [e8] at h
  obtain ⟨sB, gB⟩ := takeFirst_ok hAs e7
  obtain ⟨sC, gC⟩ := takeSecond_ok sB e8
  simp only [Except.ok.injEq, Prod.mk.injEq] at h
  obtain ⟨rfl, rfl, rfl⟩ := h
  refine ⟨gx, gy, sx, sy, fx, fy, hfx, hfy, hgx, hgy, e3, e4, e5, sC, ?_⟩
  intro j i p q b a idx hb ha hpx hqy hpos
  rw [gC, ha, Option.bind_some, gB, hb, Option.bind_some]
  exact hAg p q b a idx hpx hqy hpos

theorem gather_get {K : Type} {grid out : List K} {order : List Nat} (h : gather grid order = .ok out) :
    out.length = order.length ∧ ∀ i k : Nat, order[i]? = some k → out[i]? = grid[k]? := by
  unfold gather at h
  cases e : order.mapM (fun i => grid[i]?) with
  | none => rw [e] at h; cases h
  | some l =>
    rw [e] at h
    obtain rfl := Except.ok.inj h
    clear h
    induction order generalizing l with
    | nil => simp at e; subst e; simp
    | cons o order ih =>
      rw [List.mapM_cons] at e
      cases e0 : grid[o]? with
      | none => rw [e0] at e; simp at e
      | some a =>
        cases e1 : order.mapM (fun i => grid[i]?) with
        | none => rw [e0, e1] at e; simp at e
        | some l' =>
          rw [e0, e1] at e
          simp at e
          subst e
          obtain ⟨h1, h2⟩ := ih l' e1
          refine ⟨by simp [h1], ?_⟩
          intro i k hk
          cases i with
          | zero => simp at hk; subst hk; simp [e0]
          | succ i => simp at hk ⊢; exact h2 i k hk

/-- **Every value is shown in the cell around its point**: in a plane taken from a dataset with distinct grid
positions, whatever their order and whichever of the two axes comes first, the point with the `a`-th selected position
along x and the `b`-th along y lies in one cell, and the data of that cell is the dataset's value there. Partial:
stated for selections with slices along exactly the two axes (`third_axis_refuted`) of at least two positions
(`one_point_refuted`). -/
theorem plane_shows_partial (d : Dset K) (xaxis yaxis : Nat) (sl : List Sel) (xs ys : Nat) (cutX cutY : Bool)
    (kx ky : List Nat) (fx fy : List K) (xm ym : List (List K)) (out : Arr K)
    (h : getPlane d xaxis yaxis sl xs ys cutX cutY = .ok (xm, ym, out))
    (hp : IsPlane d.data.shape sl xaxis yaxis kx ky)
    (hfx : d.dims xaxis xs = some fx) (hfy : d.dims yaxis ys = some fy)
    (hdx : (kx.map fun k => fx[k]?).Nodup) (hdy : (ky.map fun k => fy[k]?).Nodup)
    (hx2 : 2 ≤ kx.length) (hy2 : 2 ≤ ky.length) :
    out.shape = [ky.length, kx.length] ∧
    (∀ p ∈ kx, ∀ q ∈ ky, ∃ j i x y, j < ky.length ∧ i < kx.length ∧ fx[p]? = some x ∧ fy[q]? = some y ∧
      Around cutX cutY kx.length ky.length xm ym j i x y ∧
      ∀ idx, IsPosition sl xaxis yaxis p q idx → out.get [j, i] = d.data.get idx) ∧
    (∀ j i, j < ky.length → i < kx.length → ∃ p ∈ kx, ∃ q ∈ ky, ∃ x y, fx[p]? = some x ∧ fy[q]? = some y ∧
      Around cutX cutY kx.length ky.length xm ym j i x y ∧
      ∀ idx, IsPosition sl xaxis yaxis p q idx → out.get [j, i] = d.data.get idx) := by
  obtain ⟨gx, gy, sx, sy, fx', fy', h1, h2, ggx, ggy, hsx, hsy, hq, hshape, hget⟩ := getPlane_eq h hp
  rw [hfx] at h1; rw [hfy] at h2
  obtain rfl := Option.some.inj h1
  obtain rfl := Option.some.inj h2
  have nod : ∀ (f g : List K) (k : List Nat), gather f k = .ok g → (k.map fun k => f[k]?).Nodup → g.Nodup := by
    intro f g k hg hn
    obtain ⟨hl, hge⟩ := gather_get hg
    have : (k.map fun k => f[k]?) = g.map some := by
      refine List.ext_getElem? fun n => ?_
      rw [List.getElem?_map, List.getElem?_map]
      cases e : k[n]? with
      | none =>
        have := List.getElem?_eq_none_iff.1 e
        rw [List.getElem?_eq_none_iff.2 (by omega : g.length ≤ n)]; rfl
      | some v =>
        have hh := hge n v e
        have hn : n < g.length := by rw [hl]; exact (List.getElem?_eq_some_iff.1 e).1
        rw [List.getElem?_eq_getElem hn] at hh ⊢
        rw [Option.map_some, Option.map_some, ← hh]
    rw [this] at hn
    exact (List.pairwise_map.1 hn).imp fun h h' => h (congrArg some h')
  obtain ⟨sx', hsx', incx, lenx, permx, valx⟩ := argsort_spec gx (nod fx gx kx ggx hdx)
  obtain ⟨sy', hsy', incy, leny, permy, valy⟩ := argsort_spec gy (nod fy gy ky ggy hdy)
  rw [hsx] at hsx'; rw [hsy] at hsy'
  obtain rfl := Except.ok.inj hsx'
  obtain rfl := Except.ok.inj hsy'
  obtain ⟨lgx, vgx⟩ := gather_get ggx
  obtain ⟨lgy, vgy⟩ := gather_get ggy
  have lox : (argsort gx).length = kx.length := by rw [permx.length_eq, List.length_range, lgx]
  have loy : (argsort gy).length = ky.length := by rw [permy.length_eq, List.length_range, lgy]
  obtain ⟨xm', ym', hq', _, _, _, _, hcell⟩ :=
    mesh_encloses_partial sx sy cutX cutY incx incy (by omega) (by omega)
  rw [hq] at hq'
  obtain ⟨rfl, rfl⟩ := Prod.mk.inj (Except.ok.inj hq')
  -- one cell
  have one : ∀ j i a b p q, (argsort gx)[i]? = some a → (argsort gy)[j]? = some b → kx[a]? = some p →
      ky[b]? = some q → ∃ x y, fx[p]? = some x ∧ fy[q]? = some y ∧
      Around cutX cutY kx.length ky.length xm ym j i x y ∧
      ∀ idx, IsPosition sl xaxis yaxis p q idx → out.get [j, i] = d.data.get idx := by
    intro j i a b p q ha hb hpx hqy
    have v1 := valx i a ha
    have v2 := valy j b hb
    have w1 := vgx a p hpx
    have w2 := vgy b q hqy
    have hi : i < sx.length := by
      have := (List.getElem?_eq_some_iff.1 ha).1
      omega
    have hj : j < sy.length := by
      have := (List.getElem?_eq_some_iff.1 hb).1
      omega
    rw [w1, List.getElem?_eq_getElem hi] at v1
    rw [w2, List.getElem?_eq_getElem hj] at v2
    have t1 := hcell j i _ _ (List.getElem?_eq_getElem hi) (List.getElem?_eq_getElem hj)
    rw [lenx, leny, lgx, lgy] at t1
    exact ⟨_, _, v1.symm, v2.symm, t1, fun idx hpos => hget j i p q b a idx hb ha hpx hqy hpos⟩
  refine ⟨by rw [hshape, lox, loy], ?_, ?_⟩
  · intro p hpk q hqk
    obtain ⟨a, ha, rfl⟩ := List.mem_iff_getElem.1 hpk
    obtain ⟨b, hb, rfl⟩ := List.mem_iff_getElem.1 hqk
    have ma : a ∈ argsort gx := permx.mem_iff.2 (List.mem_range.2 (by omega))
    have mb : b ∈ argsort gy := permy.mem_iff.2 (List.mem_range.2 (by omega))
    obtain ⟨i, hi, ei⟩ := List.mem_iff_getElem.1 ma
    obtain ⟨j, hj, ej⟩ := List.mem_iff_getElem.1 mb
    obtain ⟨x, y, r⟩ := one j i a b _ _ (by rw [List.getElem?_eq_getElem hi, ei])
      (by rw [List.getElem?_eq_getElem hj, ej]) (List.getElem?_eq_getElem ha) (List.getElem?_eq_getElem hb)
    exact ⟨j, i, x, y, by omega, by omega, r⟩
  · intro j i hj hi
    have hi' : i < (argsort gx).length := by omega
    have hj' : j < (argsort gy).length := by omega
    have ma := List.mem_range.1 (permx.mem_iff.1 (List.getElem_mem hi'))
    have mb := List.mem_range.1 (permy.mem_iff.1 (List.getElem_mem hj'))
    rw [lgx] at ma
    rw [lgy] at mb
    obtain ⟨x, y, r⟩ := one j i _ _ _ _ (List.getElem?_eq_getElem hi') (List.getElem?_eq_getElem hj')
      (List.getElem?_eq_getElem ma) (List.getElem?_eq_getElem mb)
    exact ⟨_, List.getElem_mem ma, _, List.getElem_mem mb, x, y, r⟩

/-- **Planes are accepted**: a selection of existing positions with slices of at least two positions along exactly
the two axes. -/
theorem plane_accepted (d : Dset K) (xaxis yaxis : Nat) (sl : List Sel) (xs ys : Nat) (cutX cutY : Bool)
    (kx ky : List Nat) (fx fy : List K) (hp : IsPlane d.data.shape sl xaxis yaxis kx ky)
    (hfx : d.dims xaxis xs = some fx) (hfy : d.dims yaxis ys = some fy)
    (hsx : d.data.shape[xaxis]? = some fx.length) (hsy : d.data.shape[yaxis]? = some fy.length)
    (hin : ∀ (n k m : Nat), sl[n]? = some (.pos k) → d.data.shape[n]? = some m → k < m)
    (hkx : ∀ k ∈ kx, k < fx.length) (hky : ∀ k ∈ ky, k < fy.length)
    (hdx : (kx.map fun k => fx[k]?).Nodup) (hdy : (ky.map fun k => fy[k]?).Nodup)
    (hx2 : 2 ≤ kx.length) (hy2 : 2 ≤ ky.length) :
    ∃ xm ym out, getPlane d xaxis yaxis sl xs ys cutX cutY = .ok (xm, ym, out) := by
  have gat : ∀ (f : List K) (k : List Nat), (∀ i ∈ k, i < f.length) → ∃ g, gather f k = .ok g := by
    intro f k hk
    have : ∃ g, k.mapM (fun i => f[i]?) = some g := by
      induction k with
      | nil => exact ⟨[], rfl⟩
      | cons a k ih =>
        obtain ⟨g, hg⟩ := ih fun i hi => hk i (List.mem_cons_of_mem _ hi)
        refine ⟨f[a]'(hk a (List.mem_cons_self ..)) :: g, ?_⟩
        rw [List.mapM_cons, List.getElem?_eq_getElem (hk a (List.mem_cons_self ..)), hg]
        rfl
    obtain ⟨g, hg⟩ := this
    exact ⟨g, by unfold gather; rw [hg]⟩
  have nod : ∀ (f g : List K) (k : List Nat), gather f k = .ok g → (k.map fun k => f[k]?).Nodup → g.Nodup := by
    intro f g k hg hn
    obtain ⟨hl, hge⟩ := gather_get hg
    have : (k.map fun k => f[k]?) = g.map some := by
      refine List.ext_getElem? fun n => ?_
      rw [List.getElem?_map, List.getElem?_map]
      cases e : k[n]? with
      | none =>
        have := List.getElem?_eq_none_iff.1 e
        rw [List.getElem?_eq_none_iff.2 (by omega : g.length ≤ n)]; rfl
      | some v =>
        have hh := hge n v e
        have hn : n < g.length := by rw [hl]; exact (List.getElem?_eq_some_iff.1 e).1
        rw [List.getElem?_eq_getElem hn] at hh ⊢
        rw [Option.map_some, Option.map_some, ← hh]
    rw [this] at hn
    exact (List.pairwise_map.1 hn).imp fun h h' => h (congrArg some h')
  obtain ⟨gx, hgx⟩ := gat fx kx hkx
  obtain ⟨gy, hgy⟩ := gat fy ky hky
  obtain ⟨lgx, _⟩ := gather_get hgx
  obtain ⟨lgy, _⟩ := gather_get hgy
  obtain ⟨sx, hsx', incx, lenx, permx, _⟩ := argsort_spec gx (nod fx gx kx hgx hdx)
  obtain ⟨sy, hsy', incy, leny, permy, _⟩ := argsort_spec gy (nod fy gy ky hgy hdy)
  obtain ⟨xm, ym, hq, _⟩ := mesh_encloses_partial sx sy cutX cutY incx incy (by omega) (by omega)
  have shp : ∃ out, pickShape sl d.data.shape = .ok out := by
    have key : ∀ (sl : List Sel) (shape : List Nat), sl.length = shape.length →
        (∀ (n k m : Nat), sl[n]? = some (.pos k) → shape[n]? = some m → k < m) →
        (∀ (n : Nat) (ks : List Nat) (m : Nat), sl[n]? = some (.slice ks) → shape[n]? = some m → ∀ k ∈ ks, k < m) →
        ∃ out, pickShape sl shape = .ok out := by
      intro sl
      induction sl with
      | nil => intro shape _ _ _; exact ⟨shape, rfl⟩
      | cons s sl ih =>
        intro shape hl h1 h2
        cases shape with
        | nil => simp at hl
        | cons m shape =>
          obtain ⟨out, ho⟩ := ih shape (by simpa using hl) (fun n => by simpa using h1 (n + 1))
            (fun n => by simpa using h2 (n + 1))
          cases s with
          | pos k => exact ⟨out, by simp only [pickShape]; rw [if_pos (h1 0 k m rfl rfl)]; exact ho⟩
          | slice ks =>
            refine ⟨ks.length :: out, ?_⟩
            simp only [pickShape]
            rw [if_pos (List.all_eq_true.2 fun k hk => decide_eq_true (h2 0 ks m rfl rfl k hk)), ho]
            rfl
    refine key sl d.data.shape hp.full hin ?_
    intro n ks m h1 h2 k hk
    by_cases hnx : n = xaxis
    · subst hnx
      rw [hp.x] at h1; rw [hsx] at h2
      cases h1; cases h2
      exact hkx k hk
    · by_cases hny : n = yaxis
      · subst hny
        rw [hp.y] at h1; rw [hsy] at h2
        cases h1; cases h2
        exact hky k hk
      · obtain ⟨k', e⟩ := hp.others n _ hnx hny h1
        cases e
  obtain ⟨shape, hshape⟩ := shp
  have ax : axisGrid d xaxis xs sl = .ok gx := by unfold axisGrid; rw [hfx, hp.x]; exact hgx
  have ay : axisGrid d yaxis ys sl = .ok gy := by unfold axisGrid; rw [hfy, hp.y]; exact hgy
  have hA : ∃ A : Arr K, (if xaxis < yaxis then transposed
        (⟨shape, fun idx => (merge sl idx).bind d.data.get⟩ : Arr K)
      else ⟨shape, fun idx => (merge sl idx).bind d.data.get⟩) = A ∧ A.shape = [ky.length, kx.length] := by
    refine ⟨_, rfl, ?_⟩
    rcases Nat.lt_or_ge xaxis yaxis with hlt | hge
    · rw [if_pos hlt]
      simp [transposed, plane_shape hlt hp.x hp.y hp.others hp.full hshape]
    · rw [if_neg (by omega)]
      have hlt : yaxis < xaxis := lt_of_le_of_ne hge (Ne.symm hp.differ)
      exact plane_shape hlt hp.y hp.x (fun n s h1 h2 => hp.others n s h2 h1) hp.full hshape
  obtain ⟨A, hA, hAs⟩ := hA
  have all : ∀ (g : List K) (k : Nat), (argsort g).Perm (List.range g.length) → g.length = k →
      (argsort g).all (· < k) = true := by
    intro g k hp' hl
    rw [List.all_eq_true]
    intro i hi
    have := List.mem_range.1 (hp'.mem_iff.1 hi)
    exact decide_eq_true (by omega)
  have hB : ∃ B, takeFirst A (argsort gy) = .ok B := by
    unfold takeFirst
    rw [hAs]
    simp only
    rw [if_pos (all gy ky.length permy lgy)]
    exact ⟨_, rfl⟩
  obtain ⟨B, hB⟩ := hB
  obtain ⟨sB, _⟩ := takeFirst_ok hAs hB
  have hC : ∃ C, takeSecond B (argsort gx) = .ok C := by
    unfold takeSecond
    rw [sB]
    simp only
    rw [if_pos (all gx kx.length permx lgx)]
    exact ⟨_, rfl⟩
  obtain ⟨C, hC⟩ := hC
  refine ⟨xm, ym, C, ?_⟩
  unfold getPlane
  rw [ax, ay]
  simp only [bind, Except.bind, hsx', hsy', hq, pick, hshape, hA, hB, hC]

/-! A dataset with three axes, the first and last of which are plotted. -/

/-- Values `100 i + 10 j + k`, with decreasing positions along the last axis. -/
def demo : Dset ℚ where
  data := ⟨[2, 2, 3], fun idx => match idx with
    | [i, j, k] => some (100 * i + 10 * j + k)
    | _ => none⟩
  dims := fun axis _ => match axis with
    | 0 => some [0, 2]
    | 1 => some [5, 6]
    | 2 => some [4, 3, 1]
    | _ => none

def demoSel : List Sel := [.slice [0, 1], .pos 1, .slice [0, 1, 2]]

theorem demo_plane : IsPlane demo.data.shape demoSel 0 2 [0, 1] [0, 1, 2] where
  full := rfl
  differ := by decide
  x := rfl
  y := rfl
  others := by
    intro n s h1 h2 h
    match n with
    | 0 => exact absurd rfl h1
    | 1 => exact ⟨1, by simpa [demoSel] using h.symm⟩
    | 2 => exact absurd rfl h2
    | n + 3 => simp [demoSel] at h

example : ∃ xm ym out, getPlane demo 0 2 demoSel 0 0 false false = .ok (xm, ym, out) :=
  plane_accepted demo 0 2 demoSel 0 0 false false [0, 1] [0, 1, 2] [0, 2] [4, 3, 1] demo_plane rfl rfl rfl rfl
    (by
      intro n k m h1 h2
      match n with
      | 0 => simp [demoSel] at h1
      | 1 => simp [demoSel] at h1; simp [demo] at h2; omega
      | 2 => simp [demoSel] at h1
      | n + 3 => simp [demoSel] at h1)
    (by decide) (by decide) (by decide +kernel) (by decide +kernel) (by decide) (by decide)

/-- **A third sliced axis** is not noticed: the data returned then has three axes, with the meshes of two. -/
theorem third_axis_refuted : ∃ xm ym out,
    getPlane demo 0 2 [.slice [0, 1], .slice [0, 1], .slice [0, 1]] 0 0 false false = .ok (xm, ym, out) ∧
      out.shape = [2, 2, 2] := by
  have h : (getPlane demo 0 2 [.slice [0, 1], .slice [0, 1], .slice [0, 1]] 0 0 false false).toOption.map
      (fun r => r.2.2.shape) = some [2, 2, 2] := by decide +kernel
  cases e : getPlane demo 0 2 [.slice [0, 1], .slice [0, 1], .slice [0, 1]] 0 0 false false with
  | error => rw [e] at h; cases h
  | ok r =>
    rw [e] at h
    exact ⟨r.1, r.2.1, r.2.2, rfl, Option.some.inj h⟩

/-! ### Whole datasets -/

/-- `plot_bot_2d` plots the whole dataset: the first axis along x, or along y if transposed. -/
theorem plan2d_whole (m n : Nat) (transpose : Bool) : ∃ x y kx ky sl,
    plan2d [m, n] transpose = .ok (x, y, sl) ∧ IsPlane [m, n] sl x y kx ky ∧
      (x, kx, y, ky) = (if transpose then (1, List.range n, 0, List.range m) else (0, List.range m, 1, List.range n)) := by
  have others : ∀ (a b : Nat) (k : Nat) (s : Sel), ({a, b} : Set Nat) = {0, 1} → k ≠ a → k ≠ b →
      [Sel.slice (List.range m), Sel.slice (List.range n)][k]? = some s → ∃ k', s = .pos k' := by
    intro a b k s hab h1 h2 h
    exfalso
    have hk : k < 2 := (List.getElem?_eq_some_iff.1 h).1
    have hm : k ∈ ({a, b} : Set Nat) := by
      rw [hab]
      have : k = 0 ∨ k = 1 := by omega
      simpa using this
    rcases hm with rfl | rfl
    · exact h1 rfl
    · exact h2 rfl
  cases transpose with
  | true =>
    refine ⟨1, 0, List.range n, List.range m, _, rfl, ⟨rfl, by decide, rfl, rfl, ?_⟩, rfl⟩
    intro k s h1 h2 h
    exact others 1 0 k s (Set.pair_comm 1 0) h1 h2 h
  | false =>
    refine ⟨0, 1, List.range m, List.range n, _, rfl, ⟨rfl, by decide, rfl, rfl, ?_⟩, rfl⟩
    intro k s h1 h2 h
    exact others 0 1 k s rfl h1 h2 h

/-- Datasets of other dimensions are refused. -/
theorem plan_dimensions (shape : List Nat) (normal : Int) (position : Nat) (transpose : Bool) :
    (shape.length ≠ 2 → plan2d shape transpose = .error .value) ∧
    (shape.length ≠ 3 → plan3d shape normal position transpose = .error .value) := by
  constructor
  · intro h
    match shape, h with
    | [], _ => rfl
    | [_], _ => rfl
    | [_, _], h => exact absurd rfl h
    | _ :: _ :: _ :: _, _ => rfl
  · intro h
    match shape, h with
    | [], _ => rfl
    | [_], _ => rfl
    | [_, _], _ => rfl
    | [_, _, _], h => exact absurd rfl h
    | _ :: _ :: _ :: _ :: _, _ => rfl

/-- `plot_bot_3d` plots the plane at the given position along the normal axis: the other two axes in their order, or
swapped if transposed. Partial: the last axis as `-1` is refused, see `last_axis_refuted`. -/
theorem plan3d_plane_partial (l m n : Nat) (normal : Int) (position : Nat) (transpose : Bool)
    (h : -3 ≤ normal) (h' : normal < 3) (hne : normal ≠ -1) :
    ∃ x y kx ky sl, plan3d [l, m, n] normal position transpose = .ok (x, y, sl) ∧
      IsPlane [l, m, n] sl x y kx ky ∧ (transpose = false ↔ x < y) ∧
      sl[(normal % 3).toNat]? = some (.pos position) ∧
      [l, m, n][x]? = some kx.length ∧ [l, m, n][y]? = some ky.length ∧
      kx = List.range kx.length ∧ ky = List.range ky.length := by
  have hcases : normal = -3 ∨ normal = -2 ∨ normal = 0 ∨ normal = 1 ∨ normal = 2 := by omega
  have big : ∀ (a b c : Sel) (k : Nat) (s : Sel), [a, b, c][k]? = some s → k < 3 := by
    intro a b c k s h
    exact (List.getElem?_eq_some_iff.1 h).1
  rcases hcases with rfl | rfl | rfl | rfl | rfl <;> cases transpose <;>
    refine ⟨_, _, _, _, _, rfl, ⟨rfl, by decide, rfl, rfl, ?_⟩, by decide, rfl, ?_, ?_, ?_, ?_⟩ <;>
    first
      | (intro k s h1 h2 hk
         have := big _ _ _ k s hk
         have h3 : k = 0 ∨ k = 1 ∨ k = 2 := by omega
         rcases h3 with rfl | rfl | rfl <;>
           first
             | exact absurd rfl h1
             | exact absurd rfl h2
             | exact ⟨position, (Option.some.inj hk).symm⟩)
      | simp

/-- **The last axis counted from the back** is refused by `plot_bot_3d`, though the other axes may be counted from
the back. -/
theorem last_axis_refuted (l m n position : Nat) (transpose : Bool) :
    plan3d [l, m, n] (-1) position transpose = .error .value ∧
      (plan3d [l, m, n] (-2) position transpose = plan3d [l, m, n] 1 position transpose) ∧
      (plan3d [l, m, n] (-3) position transpose = plan3d [l, m, n] 0 position transpose) := by
  cases transpose <;> exact ⟨rfl, rfl, rfl⟩

/-! ### Limits -/

omit [Field K] [IsStrictOrderedRing K] in
theorem minimum_spec {l : List K} {v : K} (h : minimum l = .ok v) : v ∈ l ∧ ∀ a ∈ l, v ≤ a := by
  cases l with
  | nil => cases h
  | cons a l =>
    obtain rfl := Except.ok.inj h
    clear h
    induction l generalizing a with
    | nil => simp
    | cons b l ih =>
      rw [List.foldl_cons]
      obtain ⟨h1, h2⟩ := ih (min a b)
      have h3 := h2 (min a b) (List.mem_cons_self ..)
      constructor
      · rcases List.mem_cons.1 h1 with h | h
        · rw [h]
          rcases min_choice a b with h' | h' <;> rw [h'] <;> simp
        · exact List.mem_cons_of_mem _ (List.mem_cons_of_mem _ h)
      · intro c hc
        rcases List.mem_cons.1 hc with rfl | hc
        · exact le_trans h3 (min_le_left _ _)
        · rcases List.mem_cons.1 hc with rfl | hc
          · exact le_trans h3 (min_le_right _ _)
          · exact h2 c (List.mem_cons_of_mem _ hc)

omit [Field K] [IsStrictOrderedRing K] in
theorem maximum_spec {l : List K} {v : K} (h : maximum l = .ok v) : v ∈ l ∧ ∀ a ∈ l, a ≤ v := by
  cases l with
  | nil => cases h
  | cons a l =>
    obtain rfl := Except.ok.inj h
    clear h
    induction l generalizing a with
    | nil => simp
    | cons b l ih =>
      rw [List.foldl_cons]
      obtain ⟨h1, h2⟩ := ih (max a b)
      have h3 := h2 (max a b) (List.mem_cons_self ..)
      constructor
      · rcases List.mem_cons.1 h1 with h | h
        · rw [h]
          rcases max_choice a b with h' | h' <;> rw [h'] <;> simp
        · exact List.mem_cons_of_mem _ (List.mem_cons_of_mem _ h)
      · intro c hc
        rcases List.mem_cons.1 hc with rfl | hc
        · exact le_trans (le_max_left _ _) h3
        · rcases List.mem_cons.1 hc with rfl | hc
          · exact le_trans (le_max_right _ _) h3
          · exact h2 c (List.mem_cons_of_mem _ hc)

/-- **Colour limits** contain all data and are attained: both without `even_scale`, one of them with it, and then
they are symmetric about zero. -/
theorem colours_cover (data : List K) (even : Bool) (lo hi : K) (h : colourLimits data even = .ok (lo, hi)) :
    (∀ v ∈ data, lo ≤ v ∧ v ≤ hi) ∧ (even = false → lo ∈ data ∧ hi ∈ data) ∧
    (even = true → lo = -hi ∧ (lo ∈ data ∨ hi ∈ data)) := by
  unfold colourLimits at h
  cases e1 : minimum data with
  | error => rw [e1] at h; cases h
  | ok a =>
  cases e2 : maximum data with
  | error => rw [e1, e2] at h; cases h
  | ok b =>
  rw [e1, e2] at h
  obtain ⟨ma, la⟩ := minimum_spec e1
  obtain ⟨mb, lb⟩ := maximum_spec e2
  have hab := la b mb
  cases even with
  | false =>
    simp only [bind, Except.bind, Bool.false_eq_true, if_false, Except.ok.injEq, Prod.mk.injEq] at h
    obtain ⟨rfl, rfl⟩ := h
    exact ⟨fun v hv => ⟨la v hv, lb v hv⟩, fun _ => ⟨ma, mb⟩, fun h => (nomatch h)⟩
  | true =>
    simp only [bind, Except.bind, if_true, Except.ok.injEq, Prod.mk.injEq] at h
    obtain ⟨rfl, rfl⟩ := h
    refine ⟨?_, fun h => (nomatch h), fun _ => ⟨rfl, ?_⟩⟩
    · intro v hv
      have h1 := la v hv
      have h2 := lb v hv
      have h3 := neg_abs_le a
      have h4 := le_abs_self b
      have h5 := le_max_left |a| |b|
      have h6 := le_max_right |a| |b|
      constructor <;> linarith
    · have key : ∀ c ∈ data, max |a| |b| = |c| → -max |a| |b| ∈ data ∨ max |a| |b| ∈ data := by
        intro c hc e
        rw [e]
        rcases abs_choice c with h' | h'
        · right; rwa [h']
        · left; rwa [h', neg_neg]
      rcases max_choice |a| |b| with h' | h'
      · exact key a ma h'
      · exact key b mb h'

example : colourLimits ([1, -3, 2] : List ℚ) true = .ok (-3, 3) := by
  unfold colourLimits minimum maximum; norm_num [bind, Except.bind]

/-- **Padded limits** contain all points, with the stated fractions added on both sides, if the fractions are not
negative. -/
theorem limits_contain (xgrid ygrid : List K) (xpad ypad : K) (hx : 0 ≤ xpad) (hy : 0 ≤ ypad)
    (square : Option (K × K)) (hs : ∀ h w, square = some (h, w) → 0 < h ∧ 0 < w)
    (x0 x1 y0 y1 : K) (h : padLimits xgrid ygrid xpad ypad square = .ok (x0, x1, y0, y1)) :
    (∀ x ∈ xgrid, x0 ≤ x ∧ x ≤ x1) ∧ (∀ y ∈ ygrid, y0 ≤ y ∧ y ≤ y1) ∧
    (∀ a ∈ xgrid, ∀ b ∈ xgrid, x0 ≤ a - xpad * (b - a) ∧ b + xpad * (b - a) ≤ x1) ∧
    (∀ a ∈ ygrid, ∀ b ∈ ygrid, y0 ≤ a - ypad * (b - a) ∧ b + ypad * (b - a) ≤ y1) ∧
    (square = none → (∃ a ∈ xgrid, ∃ b ∈ xgrid, x0 = a - xpad * (b - a) ∧ x1 = b + xpad * (b - a)) ∧
      ∃ a ∈ ygrid, ∃ b ∈ ygrid, y0 = a - ypad * (b - a) ∧ y1 = b + ypad * (b - a)) ∧
    (∀ h w, square = some (h, w) → (y1 - y0) * w = (x1 - x0) * h) := by
  unfold padLimits at h
  cases e1 : minimum xgrid with
  | error => rw [e1] at h; cases h
  | ok a =>
  cases e2 : maximum xgrid with
  | error => rw [e1, e2] at h; cases h
  | ok b =>
  cases e3 : minimum ygrid with
  | error => rw [e1, e2, e3] at h; cases h
  | ok c =>
  cases e4 : maximum ygrid with
  | error => rw [e1, e2, e3, e4] at h; cases h
  | ok d =>
  rw [e1, e2, e3, e4] at h
  simp only [bind, Except.bind] at h
  obtain ⟨ma, la⟩ := minimum_spec e1
  obtain ⟨mb, lb⟩ := maximum_spec e2
  obtain ⟨mc, lc⟩ := minimum_spec e3
  obtain ⟨md, ld⟩ := maximum_spec e4
  have hab := la b mb
  have hcd := lc d md
  -- the limits without the square
  have inner : ∀ (lo hi pad u0 u1 : K) (g : List K), 0 ≤ pad → lo ≤ hi → (∀ x ∈ g, lo ≤ x) → (∀ x ∈ g, x ≤ hi) →
      u0 ≤ lo - pad * (hi - lo) → hi + pad * (hi - lo) ≤ u1 →
      (∀ x ∈ g, u0 ≤ x ∧ x ≤ u1) ∧
      (∀ p ∈ g, ∀ q ∈ g, u0 ≤ p - pad * (q - p) ∧ q + pad * (q - p) ≤ u1) := by
    intro lo hi pad u0 u1 g hp hlh h1 h2 h3 h4
    have hm : 0 ≤ pad * (hi - lo) := mul_nonneg hp (by linarith)
    refine ⟨fun x hxg => ⟨by linarith [h1 x hxg], by linarith [h2 x hxg]⟩, fun p hpg q hqg => ?_⟩
    have h5 := h1 p hpg
    have h6 := h2 q hqg
    have : pad * (q - p) ≤ pad * (hi - lo) := mul_le_mul_of_nonneg_left (by linarith) hp
    exact ⟨by linarith, by linarith⟩
  have build : x0 ≤ a - xpad * (b - a) → b + xpad * (b - a) ≤ x1 → y0 ≤ c - ypad * (d - c) →
      d + ypad * (d - c) ≤ y1 →
      (∀ x ∈ xgrid, x0 ≤ x ∧ x ≤ x1) ∧ (∀ y ∈ ygrid, y0 ≤ y ∧ y ≤ y1) ∧
      (∀ a ∈ xgrid, ∀ b ∈ xgrid, x0 ≤ a - xpad * (b - a) ∧ b + xpad * (b - a) ≤ x1) ∧
      (∀ a ∈ ygrid, ∀ b ∈ ygrid, y0 ≤ a - ypad * (b - a) ∧ b + ypad * (b - a) ≤ y1) := by
    intro h1 h2 h3 h4
    obtain ⟨p1, p2⟩ := inner a b xpad x0 x1 xgrid hx hab la lb h1 h2
    obtain ⟨p3, p4⟩ := inner c d ypad y0 y1 ygrid hy hcd lc ld h3 h4
    exact ⟨p1, p3, p2, p4⟩
  cases square with
  | none =>
    simp only [Except.ok.injEq, Prod.mk.injEq] at h
    obtain ⟨rfl, rfl, rfl, rfl⟩ := h
    obtain ⟨q1, q2, q3, q4⟩ := build (le_refl _) (le_refl _) (le_refl _) (le_refl _)
    exact ⟨q1, q2, q3, q4, fun _ => ⟨⟨a, ma, b, mb, rfl, rfl⟩, ⟨c, mc, d, md, rfl, rfl⟩⟩,
      fun _ _ h => (nomatch h)⟩
  | some hw =>
    obtain ⟨height, width⟩ := hw
    obtain ⟨hh, hwd⟩ := hs height width rfl
    have hwne : width ≠ 0 := ne_of_gt hwd
    have hhne : height ≠ 0 := ne_of_gt hh
    have hasp : height / width ≠ 0 := div_ne_zero hhne hwne
    simp only at h
    rw [if_neg hwne] at h
    have hdx : 0 ≤ xpad * (b - a) := mul_nonneg hx (by linarith)
    have hdy : 0 ≤ ypad * (d - c) := mul_nonneg hy (by linarith)
    generalize hX0 : a - xpad * (b - a) = X0 at *
    generalize hX1 : b + xpad * (b - a) = X1 at *
    generalize hY0 : c - ypad * (d - c) = Y0 at *
    generalize hY1 : d + ypad * (d - c) = Y1 at *
    have hW : 0 ≤ X1 - X0 := by linarith
    have hH : 0 ≤ Y1 - Y0 := by linarith
    have dec : (if X1 - X0 = 0 then decide (0 < Y1 - Y0) else decide (height / width < (Y1 - Y0) / (X1 - X0))) =
        decide ((X1 - X0) * height < (Y1 - Y0) * width) := by
      by_cases h0 : X1 - X0 = 0
      · rw [if_pos h0, h0, zero_mul]
        congr 1
        rw [eq_iff_iff]
        exact ⟨fun h => mul_pos h hwd, fun h => by
          by_contra hn
          have := mul_nonpos_of_nonpos_of_nonneg (le_of_not_gt hn) hwd.le
          linarith⟩
      · rw [if_neg h0]
        congr 1
        rw [eq_iff_iff, div_lt_div_iff₀ hwd (lt_of_le_of_ne hW (Ne.symm h0)), mul_comm height]
    rw [dec] at h
    by_cases ht : (X1 - X0) * height < (Y1 - Y0) * width
    · rw [if_pos (decide_eq_true ht), if_neg hasp] at h
      simp only [Except.ok.injEq, Prod.mk.injEq] at h
      obtain ⟨h1, h2, rfl, rfl⟩ := h
      have ex : 0 ≤ (Y1 - Y0) / (height / width) - (X1 - X0) := by
        rw [div_div_eq_mul_div, sub_nonneg, le_div_iff₀ hh]
        exact ht.le
      obtain ⟨q1, q2, q3, q4⟩ := build (by rw [← h1]; linarith) (by rw [← h2]; linarith) (le_refl _) (le_refl _)
      refine ⟨q1, q2, q3, q4, fun h => (nomatch h), fun h w e => ?_⟩
      obtain ⟨rfl, rfl⟩ := Prod.mk.inj (Option.some.inj e)
      rw [← h1, ← h2]
      field_simp
      ring
    · rw [if_neg (by simpa using ht)] at h
      simp only [Except.ok.injEq, Prod.mk.injEq] at h
      obtain ⟨rfl, rfl, h1, h2⟩ := h
      have ex : 0 ≤ (X1 - X0) * (height / width) - (Y1 - Y0) := by
        rw [← mul_div_assoc, sub_nonneg, le_div_iff₀ hwd]
        exact le_of_not_gt ht
      obtain ⟨q1, q2, q3, q4⟩ := build (le_refl _) (le_refl _) (by rw [← h1]; linarith) (by rw [← h2]; linarith)
      refine ⟨q1, q2, q3, q4, fun h => (nomatch h), fun h w e => ?_⟩
      obtain ⟨rfl, rfl⟩ := Prod.mk.inj (Option.some.inj e)
      rw [← h1, ← h2]
      field_simp
      ring

example : padLimits ([0, 2] : List ℚ) [0, 1] 0 0 (some (1, 1)) = .ok (0, 2, -1/2, 3/2) := by
  unfold padLimits minimum maximum; norm_num [bind, Except.bind]

end Dedalus.Plot
