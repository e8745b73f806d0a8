import Verif.Dist.ChainLemmas

/-!
# C02: the layout chain is well formed, for every dimension and mesh
-/

namespace Dedalus.Dist

/-- C02. For every dimension `D` and every mesh of positive entries that passes the constructor's
checks, the construction succeeds and yields `D + R + 1` layouts and `D + R` paths, where `R` is
the number of mesh entries above one; the first layout is fully in coefficient space with the
mesh axes distributed, the last is fully in grid space; every step is a legal transform or
transpose (`StepOK`); each axis is transformed exactly once, from the last to the first; each
distributed axis is transposed exactly once, from the last to the first; and every layout has
exactly `R` distributed axes out of `D`. -/
theorem layout_chain (D P : Nat) (mesh : List Nat)
    (hlen : (trimMesh mesh).length < D) (hP : (trimMesh mesh).foldl (· * ·) 1 = P) :
    ∃ ls ps l1, buildLayouts D P mesh = some (ls, ps) ∧
      ls.length = D + meshR (trimMesh mesh) + 1 ∧ ps.length = D + meshR (trimMesh mesh) ∧
      ls[0]? = some ⟨initLocal D (trimMesh mesh), List.replicate D false⟩ ∧
      ls.getLast? = some l1 ∧ l1.grid = List.replicate D true ∧
      (∀ i l l' p, ls[i]? = some l → ls[i+1]? = some l' → ps[i]? = some p → StepOK l l' p) ∧
      (ps.filter (·.kind = .transform)).map (·.axis) = (List.range D).reverse ∧
      (ps.filter (·.kind = .transpose)).map (·.axis) =
        ((List.range D).filter (fun a => (trimMesh mesh)[a]?.any (· > 1))).reverse ∧
      (∀ l ∈ ls, l.loc.length = D ∧ nonlocalCount l.loc = meshR (trimMesh mesh)) := by
  set m := trimMesh mesh with hm
  obtain ⟨ls, ps, hb, h1, h2, ⟨l1, h3, h3'⟩, h4, h5, h6, h7, h8⟩ :=
    build_ok (initLocal D m) D _ _ D (inv_init hlen) (remaining_init hlen)
  refine ⟨_ :: ls, ps, l1, ?_, ?_, ?_, rfl, h3, h3', h4, h6, ?_, ?_⟩
  · unfold buildLayouts
    simp only [← hm]
    rw [if_neg (by omega), if_neg (by simpa using hP)]
    simp only [hb]
  · simp [h1]; omega
  · rw [h2]; omega
  · rw [h7]
    unfold revNonlocal
    congr 1
    apply List.filter_congr
    intro a ha
    have ha' : a < D := by simpa using ha
    simp only
    rw [initLocal_get hlen]
    by_cases hc : a < m.length
    · simp [hc]; rw [Bool.eq_iff_iff]; simp
    · simp [hc, ha']
  · -- the number of distributed axes is preserved by every legal step
    have key : ∀ (i : Nat) (l : Lay), (⟨initLocal D m, List.replicate D false⟩ :: ls : List Lay)[i]? = some l →
        l.loc.length = D ∧ nonlocalCount l.loc = meshR m := by
      intro i
      induction i with
      | zero =>
        intro l hl; simp at hl; subst hl
        exact ⟨initLocal_length hlen, count_initLocal D m⟩
      | succ i ih =>
        intro l' hl'
        have hi' := (List.getElem?_eq_some_iff.1 hl').1
        simp only [List.length_cons] at hi'
        obtain ⟨l, hl⟩ : ∃ l, (⟨initLocal D m, List.replicate D false⟩ :: ls : List Lay)[i]? = some l :=
          ⟨_, List.getElem?_eq_getElem (by simp; omega)⟩
        obtain ⟨p, hp⟩ : ∃ p, ps[i]? = some p := ⟨_, List.getElem?_eq_getElem (by omega)⟩
        have hs := h4 i l l' p hl hl' hp
        obtain ⟨hL, hN⟩ := ih l hl
        exact ⟨stepOK_length hs ▸ hL, stepOK_count hs ▸ hN⟩
    intro l hl
    obtain ⟨i, hi⟩ := List.mem_iff_getElem?.1 hl
    exact key i l hi

/-- The transform objects are stored so that index `a` of `transforms` is the transform of axis
`a` (what `get_transform_object(axis)` relies on), for every dimension and mesh. -/
theorem transforms_indexed (D P : Nat) (mesh : List Nat)
    (hlen : (trimMesh mesh).length < D) (hP : (trimMesh mesh).foldl (· * ·) 1 = P) :
    ∃ ls ps, buildLayouts D P mesh = some (ls, ps) ∧
      ∀ a, a < D → (transforms ps)[a]? = some ⟨.transform, a⟩ := by
  obtain ⟨ls, ps, l1, hb, -, -, -, -, -, -, h6, -, -⟩ := layout_chain D P mesh hlen hP
  refine ⟨ls, ps, hb, ?_⟩
  intro a ha
  rw [transforms_eq]
  have hkind : ∀ p ∈ ps.filter (·.kind = .transform), p = ⟨.transform, p.axis⟩ := by
    intro p hp
    have := (List.mem_filter.1 hp).2
    cases p; simp at this ⊢; exact this
  have : ps.filter (·.kind = .transform) = (List.range D).reverse.map (fun a => ⟨.transform, a⟩) := by
    rw [← h6, List.map_map]
    conv_lhs => rw [← List.map_id (ps.filter (·.kind = .transform))]
    apply List.map_congr_left
    intro p hp
    exact hkind p hp
  rw [this, ← List.map_reverse, List.reverse_reverse]
  simp [ha]

/-- Meshes that do not fit are rejected: too many (trimmed) mesh axes, or a mesh whose product is
not the number of processes. -/
theorem bad_mesh_rejected (D P : Nat) (mesh : List Nat)
    (h : D ≤ (trimMesh mesh).length ∨ (trimMesh mesh).foldl (· * ·) 1 ≠ P) :
    buildLayouts D P mesh = none := by
  unfold buildLayouts
  by_cases h1 : D ≤ (trimMesh mesh).length
  · simp [h1]
  · rcases h with h | h
    · exact absurd h h1
    · simp only [ge_iff_le, h1, if_false]; rw [if_pos h]

/-- At every transpose, the sub-communicator axis computed by the code is the number of distributed
axes before the transposed axis, in the layout before and (shifted by one axis) in the layout
after: so the communicator groups exactly the processes that share all other coordinates.
Mesh entries are at least one. -/
theorem comm_cart_axis_correct (D P : Nat) (mesh : List Nat) (hpos : ∀ m ∈ mesh, 1 ≤ m)
    (hlen : (trimMesh mesh).length < D) (hP : (trimMesh mesh).foldl (· * ·) 1 = P) :
    ∃ ls ps, buildLayouts D P mesh = some (ls, ps) ∧
      ∀ i l l' d, ls[i]? = some l → ls[i+1]? = some l' → ps[i]? = some ⟨.transpose, d⟩ →
        commCartAxis (trimMesh mesh) d = ((l.loc.take d).count false : Nat) ∧
        commCartAxis (trimMesh mesh) d = ((l'.loc.take (d+1)).count false : Nat) := by
  set m := trimMesh mesh with hm
  obtain ⟨ls, ps, hb, h1, h2, -, h4, h5, h6, h7, h8⟩ :=
    build_ok (initLocal D m) D _ _ D (inv_init hlen) (remaining_init hlen)
  refine ⟨⟨initLocal D m, List.replicate D false⟩ :: ls, ps, ?_, ?_⟩
  · unfold buildLayouts
    simp only [← hm]
    rw [if_neg (by omega), if_neg (by simpa using hP)]
    simp only [hb]
  · intro i l l' d hl hl' hp
    have hinv := h8 i l _ hl hp
    have hs := h4 i l l' _ hl hl' hp
    simp only [StepOK] at hs
    obtain ⟨hf, -, -, -, -, ht, -, -, hoth⟩ := hs
    have hd : d < D := by have := hinv.jle; simp at this; omega
    have e1 : l.loc.take d = (initLocal D m).take d := by
      apply List.ext_getElem?
      intro a
      rw [List.getElem?_take, List.getElem?_take]
      split
      · exact hinv.same a (by simp; omega)
      · rfl
    have e2 : l'.loc.take d = l.loc.take d := by
      apply List.ext_getElem?
      intro a
      rw [List.getElem?_take, List.getElem?_take]
      split
      · exact hoth a (by simp; omega) (by simp; omega)
      · rfl
    have e3 : (l'.loc.take (d+1)).count false = (l.loc.take d).count false := by
      rw [take_count_succ ht, e2]; simp
    have hposm : ∀ x ∈ m, 1 ≤ x := by
      intro x hx
      apply hpos
      rw [hm] at hx
      unfold trimMesh at hx
      rw [List.mem_reverse] at hx
      simpa using List.dropWhile_subset _ hx
    have hdm : d ≤ m.length := by
      have := hinv.orig d rfl hf
      rw [initLocal_get hlen] at this
      by_contra hc
      rw [if_neg (by omega), if_pos hd] at this
      simp at this
    have := commCartAxis_count hlen hposm d hdm
    rw [e3, e1]
    exact ⟨this, this⟩

-- The hypotheses are met by a 4-D problem on a 2x1x3 mesh with a trailing one.
example : (trimMesh [2, 1, 3, 1]).length < 4 ∧ (trimMesh [2, 1, 3, 1]).foldl (· * ·) 1 = 6 ∧
    (∀ m ∈ [2, 1, 3, 1], 1 ≤ m) := by decide

-- Test of the model on that case (a test, not a proof): layouts and paths.
example : (buildLayouts 3 6 [2, 3]).map (·.2) = some
    [⟨.transform, 2⟩, ⟨.transpose, 1⟩, ⟨.transform, 1⟩, ⟨.transpose, 0⟩, ⟨.transform, 0⟩] := by
  decide

end Dedalus.Dist
