import Verif.Global.Lemmas2

/-!
# C08: global data round trip, for all arrays, tensor ranks, shapes, layouts and meshes
-/

namespace Dedalus.Global
open Dedalus.Dist
variable {α : Type}

/-- C08. Loading a global array (coefficient or grid data) succeeds on every process and gives each
process exactly the part it owns. -/
theorem load_gives_owned_part (d : Distn) (h : d.OK) (G : NDArr α) (hG : G.shape = d.comps ++ d.shape)
    (coords : List Nat) (hc : List.Forall₂ (· < ·) coords d.mesh) :
    ∃ a, loadGlobal d G coords = some a ∧ Holds d G coords a := by
  obtain ⟨ext, axs, e1, e2, e3, e4, e5⟩ := axes_of_ok d h
  have hmem : coords ∈ coordsList d.mesh := (mem_coordsList _ _).2 hc
  rw [(coords_bridge _ _ _ e1).1, List.mem_map] at hmem
  obtain ⟨c, hc', rfl⟩ := hmem
  have he := els_of_ext d e1 e2 hc'
  rw [← e4] at hc'
  have hcl := coords_len hc'
  have hsl : d.slices (reduceNL d.loc c) = some (slcs axs c) := by simp [Distn.slices, he, slcs]
  have hsh : d.localShape (reduceNL d.loc c) = some (d.comps ++ lens axs c) := by
    simp only [Distn.localShape, he, Option.map_some, lens_eq]
  have hslen : (slcs axs c).length = axs.length := by simp [slcs, hcl]
  have hcond : G.shape.length = d.comps.length + (slcs axs c).length ∧
      (List.zip (slcs axs c) (G.shape.drop d.comps.length)).all (fun p => decide (p.1.2 ≤ p.2)) = true := by
    refine ⟨by rw [hG, List.length_append, hslen, ← e5]; simp, ?_⟩
    rw [hG, List.drop_left, ← e5]
    exact slcs_le e3 c ((mem_coordsList _ _).1 hc')
  have htake : G.shape.take d.comps.length = d.comps := by rw [hG, List.take_left]
  refine ⟨{ shape := d.comps ++ lens axs c
            get := fun idx => if inShape idx (d.comps ++ lens axs c) then
              G.get (idx.take d.comps.length ++ List.zipWith (fun s i => s.1 + i) (slcs axs c) (idx.drop d.comps.length)) else none }, ?_, ?_⟩
  · unfold loadGlobal sliceSelect
    simp only [hsl, hsh, Option.bind_eq_bind, Option.bind_some]
    rw [if_pos hcond]
    simp only [Option.bind_some, htake, slcs_len, copyto, if_true]
  · rw [e4] at hc'
    rw [holds_iff d e1 e2 hc']
    refine ⟨rfl, fun t idx ht hi => ?_⟩
    have h1 : inShape (t ++ idx) (d.comps ++ lens axs c) = true := (inShape_iff _ _).2 (forall₂_append ht hi)
    have htl := ht.length_eq
    simp only [h1, if_true]
    rw [← htl, List.take_left, List.drop_left, slcs_add axs c idx hi]

/-- C08. `gather_data`: when every process holds its part of a global array, the root receives
that array. -/
theorem gather_returns_global (d : Distn) (h : d.OK) (G : NDArr α) (hG : G.shape = d.comps ++ d.shape)
    (field : List Nat → NDArr α) (hf : ∀ coords, List.Forall₂ (· < ·) coords d.mesh → Holds d G coords (field coords)) :
    ∃ b, gather d field = some b ∧ Same b G := by
  obtain ⟨ext, axs, e1, e2, e3, e4, e5⟩ := axes_of_ok d h
  have hbr := coords_bridge _ _ _ e1
  have hp : ∀ c ∈ coordsList ext, (field (reduceNL d.loc c)).shape = d.comps ++ lens axs c ∧
      ∀ t idx, List.Forall₂ (· < ·) t d.comps → List.Forall₂ (· < ·) idx (lens axs c) →
        (field (reduceNL d.loc c)).get (t ++ idx) = G.get (t ++ List.zipWith (· + ·) (starts axs c) idx) := by
    intro c hc
    rw [← holds_iff d e1 e2 hc]
    apply hf
    rw [← mem_coordsList, hbr.1]
    exact List.mem_map_of_mem hc
  unfold gather
  simp only
  split_ifs with h1
  · obtain ⟨r, hr⟩ := List.length_eq_one_iff.1 h1
    have hlen : (coordsList (axs.map (·.mesh))).length = 1 := by rw [e4, ← h1, hbr.1, List.length_map]
    have hone := one_rank axs hlen
    obtain ⟨c, hc⟩ := List.length_eq_one_iff.1 hlen
    have hcm : c ∈ coordsList (axs.map (·.mesh)) := by rw [hc]; simp
    obtain ⟨r1, r2⟩ := one_rank_runs axs e3 hone c ((mem_coordsList _ _).1 hcm)
    have hrc : r = reduceNL d.loc c := by
      have := hbr.1
      rw [hr, ← e4, hc] at this
      simpa using this
    rw [e4] at hcm
    obtain ⟨p1, p2⟩ := hp c hcm
    refine ⟨field r, by rw [hr]; rfl, ?_⟩
    subst hrc
    have hsh : (field (reduceNL d.loc c)).shape = d.comps ++ d.shape := by rw [p1, r1, e5]
    refine ⟨by rw [hsh, hG], ?_⟩
    intro idx hidx
    rw [hsh] at hidx
    obtain ⟨t, j, rfl, ht, hj⟩ := forall₂_append_split hidx
    rw [← e5] at hj
    rw [p2 t j ht (by rw [r1]; exact hj), r2 j hj]
  · rw [e1]
    simp only [Option.bind_eq_bind, Option.bind_some]
    rw [hbr.1, List.map_map]
    obtain ⟨b, b1, b2, b3⟩ := block_ok axs e3 d.comps G.get (field ∘ reduceNL d.loc) (by rw [e4]; exact hp)
    rw [e4] at b1
    refine ⟨b, b1, by rw [b2, hG, e5], ?_⟩
    intro idx hidx
    rw [b2] at hidx
    obtain ⟨t, j, rfl, ht, hj⟩ := forall₂_append_split hidx
    exact b3 t j ht hj

/-- C08. `allgather_data`: when every process holds its part of a global array, every process receives
that array. -/
theorem allgather_returns_global [AddCommMonoid α] (d : Distn) (h : d.OK) (G : NDArr α) (hG : G.shape = d.comps ++ d.shape)
    (hw : G.WF)
    (field : List Nat → NDArr α) (hf : ∀ coords, List.Forall₂ (· < ·) coords d.mesh → Holds d G coords (field coords)) :
    ∃ b, allgather d field = some b ∧ Same b G := by
  classical
  by_cases h1 : (coordsList d.mesh).length = 1
  · have : allgather d field = gather d field := by unfold allgather gather; simp [h1]
    rw [this]
    exact gather_returns_global d h G hG field hf
  obtain ⟨ext, axs, e1, e2, e3, e4, e5⟩ := axes_of_ok d h
  have hbr := coords_bridge _ _ _ e1
  -- the buffer of each process
  have hbuf : ∀ coords ∈ coordsList d.mesh, ∃ b, sendBuffer d coords (field coords) = some b ∧ b.shape = d.comps ++ d.shape ∧
      ∀ t j, List.Forall₂ (· < ·) t d.comps → List.Forall₂ (· < ·) j d.shape →
        ((∃ els, d.els coords = some els ∧ List.Forall₂ (· ∈ ·) j els) → b.get (t ++ j) = G.get (t ++ j)) ∧
        ((¬ ∃ els, d.els coords = some els ∧ List.Forall₂ (· ∈ ·) j els) → b.get (t ++ j) = some 0) := by
    intro coords hc
    have hh := hf coords ((mem_coordsList _ _).1 hc)
    rw [hbr.1, List.mem_map] at hc
    obtain ⟨c, hc', rfl⟩ := hc
    have he := els_of_ext d e1 e2 hc'
    rw [holds_iff d e1 e2 hc'] at hh
    rw [← e4] at hc'
    have hcl := coords_len hc'
    have hsl : d.slices (reduceNL d.loc c) = some (slcs axs c) := by simp [Distn.slices, he, slcs]
    have hsh : d.localShape (reduceNL d.loc c) = some (d.comps ++ lens axs c) := by
      simp only [Distn.localShape, he, Option.map_some, lens_eq]
    refine ⟨_, by
      unfold sendBuffer
      simp only [hsl, hsh, Option.bind_eq_bind, Option.bind_some]
      rw [if_pos hh.1], rfl, ?_⟩
    intro t j ht hj
    have hin : inShape (t ++ j) (d.comps ++ d.shape) = true := (inShape_iff _ _).2 (forall₂_append ht hj)
    have htl := ht.length_eq
    have hjl : j.length = axs.length := by rw [hj.length_eq, ← e5]; simp
    have hm := slcs_mem axs c j hcl hjl
    simp only [hin, if_true, he, Option.some.injEq, exists_eq_left']
    rw [← htl, List.take_left, List.drop_left, ← hm]
    constructor
    · intro hin
      rw [if_pos hin]
      obtain ⟨s1, s2⟩ := slcs_sub axs c j (hm.1 hin)
      rw [hh.2 t _ ht s1, s2]
    · intro hin
      rw [if_neg hin]
  have : Nonempty (NDArr α) := ⟨G⟩
  choose! buf hb1 hb2 hb3 using hbuf
  have hmap := mapM_some_map (f := fun c => sendBuffer d c (field c)) (g := buf) _ hb1
  have hall : allgather d field = allreduce ((coordsList d.mesh).map buf) := by
    unfold allgather
    simp only [h1, if_false]
    rw [hmap]; rfl
  rw [hall]
  cases hr : coordsList d.mesh with
  | nil =>
    have hnil := (mem_coordsList d.mesh (d.mesh.map fun _ => 0)).2 (by
      have := h.pos
      generalize d.mesh = ms at this
      induction ms with
      | nil => simp
      | cons m ms ih => exact List.Forall₂.cons (this m (by simp)) (ih (fun x hx => this x (by simp [hx]))))
    rw [hr] at hnil; simp at hnil
  | cons r rs =>
    have hmem : ∀ x ∈ r :: rs, x ∈ coordsList d.mesh := by rw [hr]; exact fun x hx => hx
    refine ⟨_, rfl, ?_⟩
    have hshape := foldl_addArr_shape (rs.map buf) (buf r)
    refine ⟨by rw [hshape, hb2 r (hmem r (by simp)), hG], ?_⟩
    intro idx hidx
    rw [hshape, hb2 r (hmem r (by simp))] at hidx
    obtain ⟨t, j, rfl, ht, hj⟩ := forall₂_append_split hidx
    obtain ⟨o, ⟨ho1, ho2⟩, ho3⟩ := owned_by_one_process d.loc d.constant d.mesh d.shape d.chunks j h.constant h.mesh h.pos h.shape h.chunks hj
    obtain ⟨g, hg⟩ := Option.isSome_iff_exists.1 ((hw (t ++ j)).2 (by rw [hG]; exact hidx))
    have hval : ∀ x ∈ r :: rs, (buf x).get (t ++ j) = some (if x = o then g else 0) := by
      intro x hx
      have hx' := hmem x hx
      obtain ⟨q1, q2⟩ := hb3 x hx' t j ht hj
      by_cases hxo : x = o
      · subst hxo
        rw [if_pos rfl, q1 ho2, hg]
      · rw [if_neg hxo]
        apply q2
        intro hex
        exact hxo (ho3 x ⟨(mem_coordsList _ _).1 hx', hex⟩)
    have hnd := coordsList_nodup d.mesh
    rw [hr] at hnd
    have hom : o ∈ r :: rs := by rw [← hr]; exact (mem_coordsList _ _).2 ho1
    have := (foldl_addArr (t ++ j) buf (fun x => if x = o then g else 0) rs (buf r) _ (hval r (by simp))
      (fun x hx => hval x (by simp [hx]))).1
    rw [this, hg]
    congr 1
    have hs := foldl_add_one o g (r :: rs) 0 hnd
    rw [if_pos hom] at hs
    simpa using hs

/-- C08. Loading a global array and gathering it returns the same array: the round trip through any
distribution, for any tensor rank, on the root and on all processes. -/
theorem load_gather_round_trip [AddCommMonoid α] (d : Distn) (h : d.OK) (G : NDArr α) (hG : G.shape = d.comps ++ d.shape)
    (hw : G.WF) (field : List Nat → NDArr α)
    (hf : ∀ coords, List.Forall₂ (· < ·) coords d.mesh → loadGlobal d G coords = some (field coords)) :
    (∃ b, gather d field = some b ∧ Same b G) ∧ (∃ b, allgather d field = some b ∧ Same b G) := by
  have hh : ∀ coords, List.Forall₂ (· < ·) coords d.mesh → Holds d G coords (field coords) := by
    intro coords hc
    obtain ⟨a, a1, a2⟩ := load_gives_owned_part d h G hG coords hc
    rw [hf coords hc] at a1
    rwa [Option.some.inj a1]
  exact ⟨gather_returns_global d h G hG field hh, allgather_returns_global d h G hG hw field hh⟩

/-- C08 (scalar fields). `set_global_data` succeeds on every process and gives each process exactly the
part it owns. Missing: tensor fields, for which this is false (`set_global_tensor_refuted`). -/
theorem set_global_scalar_partial (d : Distn) (h : d.OK) (hs : d.comps = []) (G : NDArr α) (hG : G.shape = d.shape)
    (coords : List Nat) (hc : List.Forall₂ (· < ·) coords d.mesh) :
    ∃ a, setGlobal d G coords = some a ∧ Holds d G coords a := by
  obtain ⟨ext, axs, e1, e2, e3, e4, e5⟩ := axes_of_ok d h
  have hmem : coords ∈ coordsList d.mesh := (mem_coordsList _ _).2 hc
  rw [(coords_bridge _ _ _ e1).1, List.mem_map] at hmem
  obtain ⟨c, hc', rfl⟩ := hmem
  have he := els_of_ext d e1 e2 hc'
  rw [← e4] at hc'
  have hcl := coords_len hc'
  have hcm := (mem_coordsList _ _).1 hc'
  have hel : (List.zipWith (localElements false) axs c).length = G.shape.length := by
    rw [hG, ← e5]; simp [hcl]
  have hcond : (List.zipWith (localElements false) axs c).length ≤ G.shape.length ∧
      (List.zip (List.zipWith (localElements false) axs c) G.shape).all (fun p => p.1.all (· < p.2)) = true := by
    refine ⟨le_of_eq hel, ?_⟩
    rw [hG, ← e5]
    clear he hel hcl hc' e5 e2
    subst e4
    clear e1 hc h
    induction axs generalizing c with
    | nil => simp
    | cons ax axs ih =>
      simp only [List.map_cons] at hcm
      cases hcm with
      | cons h1 h2 =>
        simp only [List.zipWith_cons_cons, List.map_cons, List.zip_cons_cons, List.all_cons,
          ih (fun a ha => e3 a (by simp [ha])) _ h2, Bool.and_true, List.all_eq_true, decide_eq_true_eq]
        intro i hi
        exact elements_in_range false ax (e3 ax (by simp)).chunk (e3 ax (by simp)).dvd _ i hi
  have hdrop : G.shape.drop (List.zipWith (localElements false) axs c).length = [] := by rw [hel]; simp
  have hix : ixSelect G (List.zipWith (localElements false) axs c) = some
      { shape := lens axs c
        get := fun idx => if idx.length = G.shape.length then
          ((List.zip (List.zipWith (localElements false) axs c) idx).mapM fun p => p.1[p.2]?).bind fun front =>
            G.get (front ++ idx.drop (List.zipWith (localElements false) axs c).length) else none } := by
    unfold ixSelect
    rw [if_pos hcond, hdrop, lens_eq, List.append_nil]
  refine ⟨_, by
    unfold setGlobal
    simp only [he, hix, Option.bind_eq_bind, Option.bind_some, Distn.localShape, Option.map_some, hs, lens_eq, List.nil_append, copyto, if_true]
    rfl, ?_⟩
  refine ⟨_, he, by simp only [hs, lens_eq, List.nil_append], fun t ps ht hp => ?_⟩
  rw [hs] at ht
  cases ht
  have hpl := hp.length_eq
  simp only [List.nil_append, List.length_map]
  rw [if_pos (by rw [← hel, ← hpl]), List.drop_eq_nil_of_le (by simp [← hpl])]
  simp only [List.append_nil]
  have : ∀ (els : List (List Nat)) (ps : List (Nat × Nat)), List.Forall₂ (fun e (p : Nat × Nat) => e[p.1]? = some p.2) els ps →
      (List.zip els (ps.map Prod.fst)).mapM (fun p => p.1[p.2]?) = some (ps.map Prod.snd) := by
    intro els ps h
    induction h with
    | nil => rfl
    | cons h1 _ ih => rw [List.map_cons, List.zip_cons_cons, List.mapM_cons, ih]; simp [h1]
  rw [this _ _ hp]; rfl

/-- C08, false part. `set_global_data` on a vector field raises: the index arrays of the spatial axes are
applied to the component axis. -/
theorem set_global_tensor_refuted : ∃ (d : Distn) (G : NDArr Nat) (coords : List Nat), d.OK ∧ G.shape = d.comps ++ d.shape ∧
    G.WF ∧ List.Forall₂ (· < ·) coords d.mesh ∧ setGlobal d G coords = none := by
  refine ⟨⟨[true, true], [], [4, 3], [1, 1], [false, false], [2]⟩,
    ⟨[2, 4, 3], fun idx => if inShape idx [2, 4, 3] then some 7 else none⟩, [], ?_, rfl, ?_, .nil, ?_⟩
  · refine ⟨rfl, rfl, ?_, rfl, by simp⟩
    exact .cons (by decide) (.cons (by decide) .nil)
  · intro idx
    rw [← inShape_iff]
    simp only
    split_ifs with h <;> simp [h]
  · decide

/-- The hypotheses are met by a vector field on a 2 × 3 mesh with uneven chunks. -/
def demoD : Distn := ⟨[false, true, false], [2, 3], [6, 4, 8], [2, 1, 2], [false, false, false], [3]⟩

theorem demoD_ok : demoD.OK :=
  ⟨rfl, rfl, .cons (by decide) (.cons (by decide) (.cons (by decide) .nil)), by decide, by decide⟩

example : demoD.els [1, 2] = some [[4, 5], [0, 1, 2, 3], []] := by decide
example : demoD.els [0, 1] = some [[0, 1, 2, 3], [0, 1, 2, 3], [4, 5, 6, 7]] := by decide

example (G : NDArr Int) (hG : G.shape = [3, 6, 4, 8]) : ∃ a, loadGlobal demoD G [1, 1] = some a ∧ Holds demoD G [1, 1] a :=
  load_gives_owned_part demoD demoD_ok G hG [1, 1] (.cons (by decide) (.cons (by decide) .nil))

end Dedalus.Global
