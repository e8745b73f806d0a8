import Verif.Plot.Spec
import Mathlib.Tactic.Linarith
import Mathlib.Tactic.FieldSimp
import Mathlib.Tactic.Ring

/-!
# Lemmas about vertices, sorting and selections
-/

namespace Dedalus.Plot

open Spec

variable {K : Type} [Field K] [LinearOrder K] [IsStrictOrderedRing K]

/-! ### Vertices -/

omit [LinearOrder K] [IsStrictOrderedRing K] in
theorem inner_get (grid : List K) (i : Nat) (a b : K) (ha : grid[i]? = some a) (hb : grid[i + 1]? = some b) :
    (List.zipWith (fun g d => g + d / 2) grid.dropLast (List.zipWith (fun b a => b - a) grid.tail grid))[i]? =
      some (a + (b - a) / 2) := by
  have hi : i + 1 < grid.length := (List.getElem?_eq_some_iff.1 hb).1
  have h1 : grid.dropLast[i]? = some a := by
    rw [List.dropLast_eq_take, List.getElem?_take]; rw [if_pos (by omega)]; exact ha
  have h2 : grid.tail[i]? = some b := by rw [List.getElem?_tail]; exact hb
  simp only [List.getElem?_zipWith, h1, h2, ha]

omit [LinearOrder K] [IsStrictOrderedRing K] in
theorem vertices_spec {grid vs : List K} {cut : Bool} (h : vertices grid cut = .ok vs) :
    vs.length = grid.length + 1 ∧
    (∀ i a b, grid[i]? = some a → grid[i + 1]? = some b → vs[i + 1]? = some (a + (b - a) / 2)) ∧
    (∀ a, grid[0]? = some a → cut = true → vs[0]? = some a) ∧
    (∀ i a, grid[i]? = some a → i + 1 = grid.length → cut = true → vs[i + 1]? = some a) ∧
    (∀ a b, grid[0]? = some a → grid[1]? = some b → cut = false → vs[0]? = some (a - (b - a) / 2)) ∧
    (∀ i a b, grid[i]? = some a → grid[i + 1]? = some b → i + 2 = grid.length → cut = false →
      vs[i + 2]? = some (b + (b - a) / 2)) := by
  unfold vertices at h
  simp only at h
  have hl : (List.zipWith (fun g d => g + d / 2) grid.dropLast
      (List.zipWith (fun b a => b - a) grid.tail grid)).length = grid.length - 1 := by
    simp
  have hin := inner_get grid
  have hdl : (List.zipWith (fun b a => b - a) grid.tail grid).length = grid.length - 1 := by simp
  have hd : ∀ i a b, grid[i]? = some a → grid[i + 1]? = some b →
      (List.zipWith (fun b a => b - a) grid.tail grid)[i]? = some (b - a) := by
    intro i a b ha hb
    have h2 : grid.tail[i]? = some b := by rw [List.getElem?_tail]; exact hb
    simp only [List.getElem?_zipWith, h2, ha]
  revert hl hin hdl hd h
  generalize List.zipWith (fun g d => g + d / 2) grid.dropLast
    (List.zipWith (fun b a => b - a) grid.tail grid) = inner
  generalize List.zipWith (fun b a => b - a) grid.tail grid = diff
  intro h hl hin hdl hd
  cases e0 : grid.head? with
  | none => rw [e0] at h; simp at h
  | some first =>
  cases e1 : grid.getLast? with
  | none => rw [e0, e1] at h; simp at h
  | some last =>
  rw [e0, e1] at h
  simp only at h
  have g0 : grid[0]? = some first := by rw [← List.head?_eq_getElem?]; exact e0
  have g1 : grid[grid.length - 1]? = some last := by rw [← List.getLast?_eq_getElem?]; exact e1
  have gpos : 0 < grid.length := (List.getElem?_eq_some_iff.1 g0).1
  have common : ∀ (u w : K), vs = u :: inner ++ [w] → vs.length = grid.length + 1 ∧
      (∀ i a b, grid[i]? = some a → grid[i + 1]? = some b → vs[i + 1]? = some (a + (b - a) / 2)) ∧
      vs[0]? = some u ∧ vs[grid.length]? = some w := by
    intro u w hv
    subst hv
    refine ⟨by simp [hl]; omega, ?_, by simp, ?_⟩
    · intro i a b ha hb
      have hi : i + 1 < grid.length := (List.getElem?_eq_some_iff.1 hb).1
      rw [List.cons_append, List.getElem?_cons_succ, List.getElem?_append_left (by omega)]
      exact hin i a b ha hb
    · have e : grid.length = (grid.length - 1) + 1 := by omega
      rw [e, List.cons_append, List.getElem?_cons_succ, List.getElem?_append_right (by omega)]
      simp [hl]
  cases cut with
  | true =>
    simp only [if_true, Except.ok.injEq] at h
    obtain ⟨c1, c2, c3, c4⟩ := common first last h.symm
    refine ⟨c1, c2, ?_, ?_, fun _ _ _ _ h => (nomatch h), fun _ _ _ _ _ _ h => (nomatch h)⟩
    · intro a ha _
      rw [c3, ← g0, ha]
    · intro i a ha hi _
      rw [hi, c4, ← g1, ← hi, Nat.add_sub_cancel, ha]
  | false =>
    simp only [Bool.false_eq_true, if_false] at h
    cases d0 : diff.head? with
    | none => rw [d0] at h; simp at h
    | some p =>
    cases d1 : diff.getLast? with
    | none => rw [d0, d1] at h; simp at h
    | some q =>
    rw [d0, d1] at h
    simp only [Except.ok.injEq] at h
    obtain ⟨c1, c2, c3, c4⟩ := common _ _ h.symm
    have p0 : diff[0]? = some p := by rw [← List.head?_eq_getElem?]; exact d0
    have q0 : diff[diff.length - 1]? = some q := by rw [← List.getLast?_eq_getElem?]; exact d1
    refine ⟨c1, c2, fun _ _ h => (nomatch h), fun _ _ _ _ h => (nomatch h), ?_, ?_⟩
    · intro a b ha hb _
      have e := hd 0 a b ha hb
      rw [p0] at e
      rw [c3, Option.some.inj e]
      rw [g0] at ha
      rw [Option.some.inj ha]
    · intro i a b ha hb hi _
      have e := hd i a b ha hb
      have : diff.length - 1 = i := by omega
      rw [this] at q0
      rw [q0] at e
      have e2 : grid.length - 1 = i + 1 := by omega
      rw [e2, hb] at g1
      rw [hi, c4, Option.some.inj e, Option.some.inj g1]

omit [LinearOrder K] [IsStrictOrderedRing K] in
theorem vertices_ok (grid : List K) (cut : Bool) (h : if cut then 1 ≤ grid.length else 2 ≤ grid.length) :
    ∃ vs, vertices grid cut = .ok vs := by
  match grid, cut, h with
  | [a], true, _ => exact ⟨_, rfl⟩
  | a :: b :: l, true, _ =>
    unfold vertices
    simp only [List.head?_cons, List.getLast?_cons_cons]
    cases e : (b :: l).getLast? with
    | none => simp at e
    | some q => exact ⟨_, rfl⟩
  | a :: b :: l, false, _ =>
    unfold vertices
    simp only [List.head?_cons, List.getLast?_cons_cons, List.tail_cons, List.zipWith_cons_cons]
    cases e : (b :: l).getLast? with
    | none => simp at e
    | some q =>
      cases e' : ((b - a) :: List.zipWith (fun b a => b - a) l (b :: l)).getLast? with
      | none => simp at e'
      | some q' => simp [e']
  | [a], false, h => simp at h
  | [], true, h => simp at h
  | [], false, h => simp at h

/-- Vertices enclose the points of an increasing grid. -/
theorem vertices_enclose {grid vs : List K} {cut : Bool} (h : vertices grid cut = .ok vs)
    (hs : grid.Pairwise (· < ·)) (i : Nat) (a : K) (ha : grid[i]? = some a) (h2 : 2 ≤ grid.length) :
    ∃ l r, vs[i]? = some l ∧ vs[i + 1]? = some r ∧ l < r ∧ l ≤ a ∧ a ≤ r ∧
      (cut = false → l < a ∧ a < r) ∧ (cut = true → (i = 0 → l = a) ∧ (i + 1 = grid.length → a = r)) := by
  obtain ⟨_, hm, hc0, hc1, hu0, hu1⟩ := vertices_spec h
  have hlt : i < grid.length := (List.getElem?_eq_some_iff.1 ha).1
  have step : ∀ i a b, grid[i]? = some a → grid[i + 1]? = some b → a < b := by
    intro i a b ha hb
    obtain ⟨h1, rfl⟩ := List.getElem?_eq_some_iff.1 ha
    obtain ⟨h2, rfl⟩ := List.getElem?_eq_some_iff.1 hb
    exact List.pairwise_iff_getElem.1 hs i (i + 1) h1 h2 (by omega)
  have low : ∃ l, vs[i]? = some l ∧ l ≤ a ∧ (0 < i ∨ cut = false → l < a) := by
    cases i with
    | zero =>
      have hb : grid[1]? = some grid[1] := List.getElem?_eq_getElem (by omega)
      have hab := step 0 a _ ha hb
      cases cut with
      | true => exact ⟨a, hc0 a ha rfl, le_refl _, by intro h; simp at h⟩
      | false => exact ⟨_, hu0 a _ ha hb rfl, by linarith, fun _ => by linarith⟩
    | succ k =>
      have hp : grid[k]? = some grid[k] := List.getElem?_eq_getElem (by omega)
      have hab := step k _ a hp ha
      exact ⟨_, hm k _ a hp ha, by linarith, fun _ => by linarith⟩
  have high : ∃ r, vs[i + 1]? = some r ∧ a ≤ r ∧ (i + 1 < grid.length ∨ cut = false → a < r) := by
    by_cases hl : i + 1 < grid.length
    · have hb : grid[i + 1]? = some grid[i + 1] := List.getElem?_eq_getElem hl
      have hab := step i a _ ha hb
      exact ⟨_, hm i a _ ha hb, by linarith, fun _ => by linarith⟩
    · cases cut with
      | true => exact ⟨a, hc1 i a ha (by omega) rfl, le_refl _, by intro h; simp at h; omega⟩
      | false =>
        obtain ⟨k, rfl⟩ : ∃ k, i = k + 1 := ⟨i - 1, by omega⟩
        have hp : grid[k]? = some grid[k] := List.getElem?_eq_getElem (by omega)
        have hab := step k _ a hp ha
        exact ⟨_, hu1 k _ a hp ha (by omega) rfl, by linarith, fun _ => by linarith⟩
  obtain ⟨l, hl, hla, hls⟩ := low
  obtain ⟨r, hr, har, hrs⟩ := high
  refine ⟨l, r, hl, hr, ?_, hla, har, fun hc => ⟨hls (.inr hc), hrs (.inr hc)⟩, fun hc => ⟨?_, ?_⟩⟩
  rotate_left
  · rintro rfl
    have := hc0 a ha hc
    rw [hl] at this
    exact Option.some.inj this
  · intro hi
    have := hc1 i a ha hi hc
    rw [hr] at this
    exact (Option.some.inj this).symm
  by_cases h0 : 0 < i
  · exact lt_of_lt_of_le (hls (.inl h0)) har
  · exact lt_of_le_of_lt hla (hrs (.inl (by omega)))

/-! ### Sorting -/

omit [Field K] [IsStrictOrderedRing K] in
theorem sorted_pairs (grid : List K) :
    (grid.zipIdx.insertionSort fun p q => p.1 ≤ q.1).Pairwise (fun p q => p.1 ≤ q.1) := by
  haveI : Std.Total (fun p q : K × Nat => p.1 ≤ q.1) := ⟨fun a b => le_total a.1 b.1⟩
  haveI : IsTrans (K × Nat) (fun p q => p.1 ≤ q.1) := ⟨fun a b c => le_trans⟩
  exact List.pairwise_insertionSort _ _

omit [LinearOrder K] [IsStrictOrderedRing K] [Field K] in
theorem gather_pairs (grid : List K) (s : List (K × Nat)) (h : ∀ p ∈ s, grid[p.2]? = some p.1) :
    gather grid (s.map Prod.snd) = .ok (s.map Prod.fst) := by
  have : (s.map Prod.snd).mapM (fun i => grid[i]?) = some (s.map Prod.fst) := by
    induction s with
    | nil => rfl
    | cons p s ih =>
      rw [List.map_cons, List.mapM_cons, h p (List.mem_cons_self ..),
        ih fun q hq => h q (List.mem_cons_of_mem _ hq)]
      rfl
  unfold gather
  rw [this]

omit [Field K] [IsStrictOrderedRing K] in
/-- Sorting a grid of distinct values: the order lists every position once, and the values increase. -/
theorem argsort_spec (grid : List K) (hn : grid.Nodup) :
    ∃ sorted, gather grid (argsort grid) = .ok sorted ∧ sorted.Pairwise (· < ·) ∧ sorted.length = grid.length ∧
      (argsort grid).Perm (List.range grid.length) ∧
      ∀ i : Nat, ∀ k : Nat, (argsort grid)[i]? = some k → sorted[i]? = grid[k]? := by
  have hp := List.perm_insertionSort (fun p q => p.1 ≤ q.1) grid.zipIdx
  have hs := sorted_pairs grid
  unfold argsort
  revert hp hs
  generalize grid.zipIdx.insertionSort (fun p q => p.1 ≤ q.1) = s
  intro hp hs
  have hm : ∀ p ∈ s, grid[p.2]? = some p.1 := fun p hp' =>
    List.mem_zipIdx_iff_getElem?.1 (hp.mem_iff.1 hp')
  refine ⟨s.map Prod.fst, gather_pairs grid s hm, ?_, ?_, ?_, ?_⟩
  · have h1 : (s.map Prod.fst).Perm grid := by
      have := hp.map Prod.fst
      rwa [List.zipIdx_map_fst] at this
    have h2 : (s.map Prod.fst).Nodup := h1.nodup_iff.2 hn
    have h3 : (s.map Prod.fst).Pairwise (· ≤ ·) := List.pairwise_map.2 hs
    exact (h3.and h2).imp fun h => lt_of_le_of_ne h.1 h.2
  · simp [hp.length_eq]
  · have := hp.map Prod.snd
    rwa [List.zipIdx_map_snd, ← List.range_eq_range'] at this
  · intro i k h
    rw [List.getElem?_map] at h ⊢
    cases e : s[i]? with
    | none => rw [e] at h; simp at h
    | some p =>
      rw [e] at h
      have := hm p (List.mem_of_getElem? e)
      simp only [Option.map_some, Option.some.injEq] at h ⊢
      rw [← h, this]

/-! ### Selections -/

theorem merge_pos (vs : List Nat) (sl : List Sel) (idx : List Nat) :
    merge (vs.map Sel.pos ++ sl) idx = (merge sl idx).map (vs ++ ·) := by
  induction vs with
  | nil => simp
  | cons v vs ih => simp only [List.map_cons, List.cons_append, merge, ih, Option.map_map]; rfl

theorem merge_two (va vb vc ks ls : List Nat) (i j k l : Nat) (hk : ks[i]? = some k) (hl : ls[j]? = some l) :
    merge (va.map Sel.pos ++ Sel.slice ks :: (vb.map Sel.pos ++ Sel.slice ls :: vc.map Sel.pos)) [i, j] =
      some (va ++ k :: (vb ++ l :: vc)) := by
  have e := merge_pos vc [] []
  rw [List.append_nil] at e
  rw [merge_pos]
  simp only [merge, hk, merge_pos, hl, e]
  simp

theorem all_pos (sl : List Sel) (h : ∀ s ∈ sl, ∃ k, s = Sel.pos k) : ∃ vs : List Nat, sl = vs.map Sel.pos := by
  induction sl with
  | nil => exact ⟨[], rfl⟩
  | cons s sl ih =>
    obtain ⟨k, rfl⟩ := h s (List.mem_cons_self ..)
    obtain ⟨vs, rfl⟩ := ih fun t ht => h t (List.mem_cons_of_mem _ ht)
    exact ⟨k :: vs, rfl⟩

/-- A plane, with its first and second sliced axis. -/
theorem plane_split {sl : List Sel} {a b : Nat} {ks ls : List Nat} (hab : a < b)
    (ha : sl[a]? = some (.slice ks)) (hb : sl[b]? = some (.slice ls))
    (ho : ∀ n s, n ≠ a → n ≠ b → sl[n]? = some s → ∃ k, s = Sel.pos k) :
    ∃ va vb vc : List Nat, va.length = a ∧ vb.length = b - a - 1 ∧
      sl = va.map Sel.pos ++ Sel.slice ks :: (vb.map Sel.pos ++ Sel.slice ls :: vc.map Sel.pos) := by
  have hla := (List.getElem?_eq_some_iff.1 ha).1
  have hlb := (List.getElem?_eq_some_iff.1 hb).1
  have mem_get : ∀ (l : List Sel) s, s ∈ l → ∃ n : Nat, n < l.length ∧ l[n]? = some s := by
    intro l s hs
    obtain ⟨n, hn, rfl⟩ := List.mem_iff_getElem.1 hs
    exact ⟨n, hn, List.getElem?_eq_getElem hn⟩
  obtain ⟨va, ea⟩ := all_pos (sl.take a) (fun s hs => by
    obtain ⟨n, hn, h⟩ := mem_get _ s hs
    rw [List.length_take] at hn
    rw [List.getElem?_take, if_pos (by omega)] at h
    exact ho n s (by omega) (by omega) h)
  obtain ⟨vb, eb⟩ := all_pos ((sl.drop (a + 1)).take (b - a - 1)) (fun s hs => by
    obtain ⟨n, hn, h⟩ := mem_get _ s hs
    rw [List.length_take] at hn
    rw [List.getElem?_take, if_pos (by omega), List.getElem?_drop] at h
    exact ho (a + 1 + n) s (by omega) (by omega) h)
  obtain ⟨vc, ec⟩ := all_pos (sl.drop (b + 1)) (fun s hs => by
    obtain ⟨n, hn, h⟩ := mem_get _ s hs
    rw [List.getElem?_drop] at h
    exact ho (b + 1 + n) s (by omega) (by omega) h)
  have l1 := congrArg List.length ea
  have l2 := congrArg List.length eb
  simp only [List.length_take, List.length_map, List.length_drop] at l1 l2
  refine ⟨va, vb, vc, by omega, by omega, ?_⟩
  rw [← ea, ← eb, ← ec]
  obtain ⟨_, ga⟩ := List.getElem?_eq_some_iff.1 ha
  obtain ⟨_, gb⟩ := List.getElem?_eq_some_iff.1 hb
  have e1 : sl = sl.take a ++ Sel.slice ks :: sl.drop (a + 1) := by
    conv => lhs; rw [← List.take_append_drop a sl, List.drop_eq_getElem_cons hla, ga]
  have e2 : sl.drop (a + 1) = (sl.drop (a + 1)).take (b - a - 1) ++ Sel.slice ls :: sl.drop (b + 1) := by
    conv => lhs; rw [← List.take_append_drop (b - a - 1) (sl.drop (a + 1)), List.drop_drop]
    have : a + 1 + (b - a - 1) = b := by omega
    rw [this, List.drop_eq_getElem_cons hlb, gb]
  rw [← e2]
  exact e1

/-- The position is the one the selection leads to. -/
theorem merge_position {sl : List Sel} {a b : Nat} {ks ls : List Nat} (hab : a < b)
    (ha : sl[a]? = some (.slice ks)) (hb : sl[b]? = some (.slice ls))
    (ho : ∀ n s, n ≠ a → n ≠ b → sl[n]? = some s → ∃ k, s = Sel.pos k) (i j k l : Nat)
    (hk : ks[i]? = some k) (hl : ls[j]? = some l) (idx : List Nat) (hlen : idx.length = sl.length)
    (ia : idx[a]? = some k) (ib : idx[b]? = some l)
    (io : ∀ (n k : Nat), sl[n]? = some (.pos k) → idx[n]? = some k) :
    merge sl [i, j] = some idx := by
  obtain ⟨va, vb, vc, hva, hvb, rfl⟩ := plane_split hab ha hb ho
  rw [merge_two va vb vc ks ls i j k l hk hl]
  congr 1
  refine List.ext_getElem? fun n => ?_
  rcases lt_trichotomy n a with hn | rfl | hn
  · rw [List.getElem?_append_left (by omega)]
    have hv : va[n]? = some va[n] := List.getElem?_eq_getElem (by omega)
    rw [hv]
    refine (io n _ ?_).symm
    rw [List.getElem?_append_left (by simp; omega), List.getElem?_map, hv]; rfl
  · rw [ia, List.getElem?_append_right (by omega)]
    simp [hva]
  · obtain ⟨m, rfl⟩ : ∃ m, n = a + 1 + m := ⟨n - a - 1, by omega⟩
    have cut : ∀ {α : Type} (p : List α) (x : α) (q : List α), p.length = a →
        (p ++ x :: q)[a + 1 + m]? = q[m]? := by
      intro α p x q hp
      rw [List.getElem?_append_right (by omega)]
      have : a + 1 + m - p.length = m + 1 := by omega
      rw [this, List.getElem?_cons_succ]
    rw [cut _ _ _ hva]
    have cuts := cut (va.map Sel.pos) (Sel.slice ks) (vb.map Sel.pos ++ Sel.slice ls :: vc.map Sel.pos) (by simpa using hva)
    rcases lt_trichotomy (a + 1 + m) b with hm | hm | hm
    · rw [List.getElem?_append_left (by omega)]
      have hv : vb[m]? = some vb[m] := List.getElem?_eq_getElem (by omega)
      rw [hv]
      refine (io _ _ ?_).symm
      rw [cuts, List.getElem?_append_left (by simp; omega), List.getElem?_map, hv]; rfl
    · rw [hm, ib, List.getElem?_append_right (by omega)]
      have : m - vb.length = 0 := by omega
      rw [this]; rfl
    · rw [List.getElem?_append_right (by omega)]
      obtain ⟨q, hq⟩ : ∃ q, m - vb.length = q + 1 := ⟨m - vb.length - 1, by omega⟩
      rw [hq, List.getElem?_cons_succ]
      have hs : (va.map Sel.pos ++ Sel.slice ks :: (vb.map Sel.pos ++ Sel.slice ls :: vc.map Sel.pos))[a + 1 + m]? =
          (vc.map Sel.pos)[q]? := by
        rw [cuts, List.getElem?_append_right (by simp; omega), List.length_map, hq, List.getElem?_cons_succ]
      rw [List.getElem?_map] at hs
      cases e : vc[q]? with
      | some v =>
        rw [e] at hs
        exact (io _ _ hs).symm
      | none =>
        rw [e] at hs
        have := List.getElem?_eq_none_iff.1 hs
        rw [← hlen] at this
        exact (List.getElem?_eq_none_iff.2 this).symm

theorem pickShape_pos (vs : List Nat) (sl : List Sel) (shape out : List Nat)
    (h : pickShape (vs.map Sel.pos ++ sl) shape = .ok out) : ∃ rest, pickShape sl rest = .ok out := by
  induction vs generalizing shape with
  | nil => exact ⟨shape, h⟩
  | cons v vs ih =>
    cases shape with
    | nil => simp [pickShape] at h
    | cons n shape =>
      simp only [List.map_cons, List.cons_append, pickShape] at h
      split at h
      · exact ih shape h
      · cases h

theorem pickShape_slice (ks : List Nat) (sl : List Sel) (shape out : List Nat)
    (h : pickShape (Sel.slice ks :: sl) shape = .ok out) :
    ∃ rest rout, pickShape sl rest = .ok rout ∧ out = ks.length :: rout := by
  cases shape with
  | nil => simp [pickShape] at h
  | cons n shape =>
    simp only [pickShape] at h
    split at h
    · cases e : pickShape sl shape with
      | error => rw [e] at h; cases h
      | ok r => rw [e] at h; exact ⟨shape, r, e, (Except.ok.inj h).symm⟩
    · cases h

theorem pickShape_length (sl : List Sel) (shape out : List Nat) (h : pickShape sl shape = .ok out)
    (hlen : sl.length = shape.length) : out.length = sl.countP (fun s => match s with | .slice _ => true | _ => false) := by
  induction sl generalizing shape out with
  | nil =>
    cases shape with
    | nil => simp only [pickShape, Except.ok.injEq] at h; subst h; rfl
    | cons => simp at hlen
  | cons s sl ih =>
    cases shape with
    | nil => simp at hlen
    | cons n shape =>
      cases s with
      | pos k =>
        simp only [pickShape] at h
        split at h
        · rw [ih shape out h (by simpa using hlen)]; simp
        · cases h
      | slice ks =>
        simp only [pickShape] at h
        split at h
        · cases e : pickShape sl shape with
          | error => rw [e] at h; cases h
          | ok r =>
            rw [e] at h
            have := Except.ok.inj h
            subst this
            rw [List.length_cons, ih shape r e (by simpa using hlen)]; simp
        · cases h

/-- Shape of a plane. -/
theorem plane_shape {sl : List Sel} {a b : Nat} {ks ls shape out : List Nat} (hab : a < b)
    (ha : sl[a]? = some (.slice ks)) (hb : sl[b]? = some (.slice ls))
    (ho : ∀ n s, n ≠ a → n ≠ b → sl[n]? = some s → ∃ k, s = Sel.pos k)
    (hlen : sl.length = shape.length) (h : pickShape sl shape = .ok out) : out = [ks.length, ls.length] := by
  have hc := pickShape_length sl shape out h hlen
  obtain ⟨va, vb, vc, _, _, rfl⟩ := plane_split hab ha hb ho
  have hz : ∀ vs : List Nat, (vs.map Sel.pos).countP
      (fun s => match s with | .slice _ => true | _ => false) = 0 := by
    intro vs
    rw [List.countP_eq_zero]
    intro s hs
    obtain ⟨v, _, rfl⟩ := List.mem_map.1 hs
    simp
  simp only [List.countP_append, List.countP_cons, hz] at hc
  obtain ⟨r1, h1⟩ := pickShape_pos _ _ _ _ h
  obtain ⟨r2, o2, h2, rfl⟩ := pickShape_slice _ _ _ _ h1
  obtain ⟨r3, h3⟩ := pickShape_pos _ _ _ _ h2
  obtain ⟨r4, o4, h4, rfl⟩ := pickShape_slice _ _ _ _ h3
  simp at hc
  subst hc
  rfl

end Dedalus.Plot
