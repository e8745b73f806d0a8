import Verif.Random.Lemmas
import Mathlib.Tactic.Ring

/-!
# C09: random data do not depend on chunk size or process distribution
-/

namespace Dedalus.Random
open Dedalus.Global Dedalus.Dist
variable {σ α : Type}

/-- C09. A single element of the stream is the sequential value at its index, for every chunk size. -/
theorem element_is_stream (g : Gen σ α) (index seed chunkSize : Nat) (hc : 0 < chunkSize) :
    rngElement g index seed chunkSize = some (stream g seed index) := by
  unfold rngElement
  have h : 0 < min (1 + index) chunkSize := by omega
  simp only
  rw [if_neg (by omega), chunkAt_get g _ _ _ _ (Nat.mod_lt _ h), Nat.div_add_mod]; rfl

/-- C09. Any selection of elements is the sequential values at their indices, for every chunk size. -/
theorem elements_are_stream [Zero α] (g : Gen σ α) (indices : List Nat) (seed chunkSize : Nat) (hc : 0 < chunkSize) :
    rngElements g indices seed chunkSize = some (indices.map (stream g seed)) := by
  cases indices with
  | nil => simp [rngElements, element_is_stream g 0 seed chunkSize hc]
  | cons i is =>
    unfold rngElements
    simp only
    have h : 0 < min (1 + is.foldl max i) chunkSize := by omega
    rw [if_neg (by omega)]
    generalize min (1 + is.foldl max i) chunkSize = c at h ⊢
    have := chunkLoop_spec g c h (g.seed seed) (i :: is) (is.foldl max i / c) 0 (fun _ => 0)
    simp only [Nat.mul_zero, stateAt, Nat.zero_add, Nat.zero_le, true_and] at this
    rw [this]
    congr 1
    apply List.map_congr_left
    intro x hx
    rw [if_pos]
    · rfl
    · apply Nat.div_le_div_right
      obtain ⟨h1, h2⟩ := le_foldl_max is i
      rcases List.mem_cons.1 hx with rfl | hx
      · exact h1
      · exact h2 x hx

/-- Random values at an array of indices. -/
theorem rngArray_spec [Zero α] (g : Gen σ α) (a : NDArr Nat) (f : List Nat → Nat) (seed chunkSize : Nat) (hc : 0 < chunkSize)
    (ha : ∀ idx, List.Forall₂ (· < ·) idx a.shape → a.get idx = some (f idx)) :
    ∃ b, rngArray g a seed chunkSize = some b ∧ b.shape = a.shape ∧
      ∀ idx, List.Forall₂ (· < ·) idx a.shape → b.get idx = some (stream g seed (f idx)) := by
  have hm := mapM_some_map (f := a.get) (g := f) (coordsList a.shape) (fun x hx => ha x ((mem_coordsList _ _).1 hx))
  refine ⟨_, by
    unfold rngArray
    simp only [hm, Option.bind_eq_bind, Option.bind_some, elements_are_stream g _ seed chunkSize hc]
    rfl, rfl, ?_⟩
  intro idx hidx
  simp only [(inShape_iff _ _).2 hidx, if_true, List.getElem?_map, coordsList_getElem _ _ hidx, Option.map_some]

/-- Splitting `loadGlobal`. -/
theorem loadGlobal_inv {β : Type} {d : Distn} {G : NDArr β} {coords : List Nat} {a : NDArr β} (h : loadGlobal d G coords = some a) :
    ∃ sl, d.slices coords = some sl ∧ sliceSelect d.comps.length G sl = some a ∧ d.localShape coords = some a.shape := by
  unfold loadGlobal at h
  obtain ⟨sl, h1, h⟩ := Option.bind_eq_some_iff.1 h
  obtain ⟨sel, h2, h⟩ := Option.bind_eq_some_iff.1 h
  obtain ⟨sh, h3, h⟩ := Option.bind_eq_some_iff.1 h
  unfold copyto at h
  split_ifs at h with h4
  obtain rfl := Option.some.inj h
  exact ⟨sl, h1, h2, by rw [h3, h4]⟩

theorem holds_range {d : Distn} (h : d.OK) {coords : List Nat} (hc : List.Forall₂ (· < ·) coords d.mesh)
    {els : List (List Nat)} (he : d.els coords = some els) : ∀ idx, List.Forall₂ (· < ·) idx (els.map List.length) →
    ∃ ps : List (Nat × Nat), List.Forall₂ (fun e (p : Nat × Nat) => e[p.1]? = some p.2) els ps ∧ ps.map Prod.fst = idx ∧
      List.Forall₂ (· < ·) (ps.map Prod.snd) d.shape := by
  obtain ⟨ext, axs, e1, e2, e3, e4, e5⟩ := axes_of_ok d h
  have hmem : coords ∈ coordsList d.mesh := (mem_coordsList _ _).2 hc
  rw [(coords_bridge _ _ _ e1).1, List.mem_map] at hmem
  obtain ⟨c, hc', rfl⟩ := hmem
  rw [els_of_ext d e1 e2 hc'] at he
  obtain rfl := Option.some.inj he
  rw [← e4, mem_coordsList] at hc'
  clear he e1 e2 hc h e4
  rw [← e5]
  clear e5
  induction axs generalizing c with
  | nil => intro idx hi; simp at hi; subst hi; exact ⟨[], by simp, rfl, by simp⟩
  | cons ax axs ih =>
    intro idx hi
    simp only [List.map_cons] at hc'
    cases hc' with
    | cons h1 h2 =>
      rename_i c cs
      simp only [List.zipWith_cons_cons, List.map_cons] at hi
      cases hi with
      | cons i1 i2 =>
        rename_i i idx
        obtain ⟨ps, p1, p2, p3⟩ := ih (fun a ha => e3 a (by simp [ha])) cs h2 idx i2
        refine ⟨(i, (localElements false ax c)[i]) :: ps, List.Forall₂.cons (List.getElem?_eq_getElem i1) p1, by simp [p2], ?_⟩
        simp only [List.map_cons]
        refine List.Forall₂.cons ?_ p3
        exact elements_in_range false ax (e3 ax (by simp)).chunk (e3 ax (by simp)).dvd c _ (List.getElem_mem i1)

/-- C09. `fill_random` on a real field of any tensor rank: for every chunk size and every process of every
mesh, the local data are the owned part of one global array, the seeded stream in row-major order. -/
theorem fill_real_is_stream [Zero α] (g : Gen σ α) (seed chunkSize : Nat) (hk : 0 < chunkSize) (d : Distn) (h : d.OK)
    (coords : List Nat) (hc : List.Forall₂ (· < ·) coords d.mesh) :
    ∃ a, fillReal g seed chunkSize d coords = some a ∧ Holds d (streamArray g seed (d.comps ++ d.shape)) coords a := by
  obtain ⟨a, a1, els, a2, a3, a4⟩ := load_gives_owned_part d h (indexArray (d.comps ++ d.shape)) rfl coords hc
  obtain ⟨sl, l1, l2, l3⟩ := loadGlobal_inv a1
  have hget : ∀ t ps, List.Forall₂ (· < ·) t d.comps → List.Forall₂ (fun e (p : Nat × Nat) => e[p.1]? = some p.2) els ps →
      List.Forall₂ (· < ·) (ps.map Prod.snd) d.shape →
      a.get (t ++ ps.map Prod.fst) = some (position (d.comps ++ d.shape) (t ++ ps.map Prod.snd)) := by
    intro t ps ht hp hs
    rw [a4 t ps ht hp, indexArray]
    simp only [(inShape_iff _ _).2 (forall₂_append ht hs), if_true, ravel_eq_position]
  have hsome : ∀ idx, List.Forall₂ (· < ·) idx a.shape → ∃ n, a.get idx = some n := by
    intro idx hidx
    rw [a3] at hidx
    obtain ⟨t, j, rfl, ht, hj⟩ := forall₂_append_split hidx
    obtain ⟨ps, p1, p2, p3⟩ := holds_range h hc a2 j hj
    subst p2
    exact ⟨_, hget t ps ht p1 p3⟩
  obtain ⟨b, b1, b2, b3⟩ := rngArray_spec g a (fun idx => (a.get idx).getD 0) seed chunkSize hk (fun idx hidx => by
    obtain ⟨n, hn⟩ := hsome idx hidx; simp [hn])
  refine ⟨b, ?_, els, a2, by rw [b2, a3], ?_⟩
  · unfold fillReal
    simp only [l1, l2, l3, b1, Option.bind_eq_bind, Option.bind_some, copyto, b2, if_true]
  · intro t ps ht hp
    have hj : List.Forall₂ (· < ·) (ps.map Prod.fst) (els.map List.length) := by
      clear hget a2 a3 a4 hsome
      induction hp with
      | nil => simp
      | cons h1 _ ih =>
        rw [List.getElem?_eq_some_iff] at h1
        exact List.Forall₂.cons h1.1 ih
    obtain ⟨ps', p1, p2, p3⟩ := holds_range h hc a2 _ hj
    have hpp : ps' = ps := by
      clear hget a2 a3 a4 hsome hj p3
      induction hp generalizing ps' with
      | nil => cases p1; rfl
      | cons h1 _ ih =>
        cases p1 with
        | cons q1 q2 =>
          rename_i e p els ps hps p' ps'
          simp only [List.map_cons, List.cons.injEq] at p2
          rw [p2.1, h1] at q1
          have : p' = p := Prod.ext p2.1 (Option.some.inj q1).symm
          rw [this, ih ps' q2 p2.2]
    subst hpp
    rw [b3 _ (by rw [a3]; exact forall₂_append ht hj), hget t ps' ht p1 p3]
    simp only [streamArray, (inShape_iff _ _).2 (forall₂_append ht p3), if_true, Option.getD_some]

/-- The distribution with one more local axis of size two. -/
def pairAxis (d : Distn) : Distn :=
  ⟨d.loc ++ [true], d.mesh, d.shape ++ [2], d.chunks ++ [1], d.constant ++ [false], d.comps⟩

theorem scatter_append_local (fill : Nat) : ∀ (loc : List Bool) (v : List Nat),
    scatterNonlocal fill (loc ++ [true]) v = (scatterNonlocal fill loc v).map (· ++ [fill]) := by
  intro loc
  induction loc with
  | nil => intro v; cases v <;> simp [scatterNonlocal]
  | cons l ls ih =>
    intro v
    cases l with
    | true => simp [scatterNonlocal, ih, Function.comp_def]
    | false => cases v <;> simp [scatterNonlocal, ih, Function.comp_def]

theorem axesOf_append : ∀ (loc : List Bool) (sh ch ms : List Nat) (ks : List Bool) (axs : List Axis),
    axesOf loc sh ch ms ks = some axs →
    axesOf (loc ++ [true]) (sh ++ [2]) (ch ++ [1]) (ms ++ [1]) (ks ++ [false]) = some (axs ++ [⟨true, 2, 1, 1, false⟩]) := by
  intro loc
  induction loc with
  | nil =>
    intro sh ch ms ks axs h
    cases sh <;> cases ch <;> cases ms <;> cases ks <;> simp [axesOf] at h
    subst h; rfl
  | cons l ls ih =>
    intro sh ch ms ks axs h
    cases sh <;> cases ch <;> cases ms <;> cases ks <;> simp only [axesOf, reduceCtorEq, Option.map_eq_some_iff] at h
    obtain ⟨x, h1, rfl⟩ := h
    simp [axesOf, ih _ _ _ _ _ h1]

theorem pairAxis_ok {d : Distn} (h : d.OK) : (pairAxis d).OK := by
  obtain ⟨h1, h2, h3, h4, h5⟩ := h
  refine ⟨by simp [pairAxis, h1], by simp [pairAxis, h2], ?_, by simp [pairAxis, h4], h5⟩
  simp only [pairAxis]
  generalize d.chunks = c at h3
  generalize d.shape = n at h3
  induction h3 with
  | nil => exact .cons (by decide) .nil
  | cons h _ ih => exact .cons h ih

theorem pairAxis_els {d : Distn} (h : d.OK) {coords : List Nat} (hc : List.Forall₂ (· < ·) coords d.mesh) :
    ∃ els, d.els coords = some els ∧ (pairAxis d).els coords = some (els ++ [[0, 1]]) := by
  obtain ⟨ext, axs, e1, e2, e3, e4, e5⟩ := axes_of_ok d h
  have hbr := coords_bridge _ _ _ e1
  have hmem : coords ∈ coordsList d.mesh := (mem_coordsList _ _).2 hc
  rw [hbr.1, List.mem_map] at hmem
  obtain ⟨c, hc', rfl⟩ := hmem
  have he := els_of_ext d e1 e2 hc'
  refine ⟨_, he, ?_⟩
  have hs := hbr.2 c hc'
  have hl : axs.length = c.length := by rw [← e4] at hc'; exact (coords_len hc').symm
  unfold Distn.els layoutElements
  simp only [pairAxis, scatter_append_local, e1, hs, Option.map_some, axesOf_append _ _ _ _ _ _ e2]
  rw [List.zipWith_append hl]
  rfl

theorem position_append : ∀ (sh idx : List Nat) (n k : Nat), idx.length = sh.length →
    position (sh ++ [n]) (idx ++ [k]) = n * position sh idx + k := by
  intro sh
  induction sh with
  | nil => intro idx n k h; simp at h; subst h; simp [position]
  | cons m sh ih =>
    intro idx n k h
    cases idx with
    | nil => simp at h
    | cons i is =>
      simp only [List.cons_append, position, ih is n k (by simpa using h), List.prod_append, List.prod_cons, List.prod_nil, Nat.mul_one]
      ring

theorem forall₂_snoc {β γ : Type} {R : β → γ → Prop} {l : List β} {m : List γ} {x : β} {y : γ} (h : List.Forall₂ R l m)
    (hx : R x y) : List.Forall₂ R (l ++ [x]) (m ++ [y]) := by
  induction h with
  | nil => exact .cons hx .nil
  | cons h _ ih => exact .cons h ih

/-- C09. `fill_random` on a complex field: each element takes two consecutive values of the stream, again
independently of chunk size, mesh and process. -/
theorem fill_complex_is_stream [Zero α] (g : Gen σ α) (seed chunkSize : Nat) (hk : 0 < chunkSize) (d : Distn) (h : d.OK)
    (coords : List Nat) (hc : List.Forall₂ (· < ·) coords d.mesh) :
    ∃ a, fillComplex g seed chunkSize d coords = some a ∧ Holds d (streamArray2 g seed (d.comps ++ d.shape)) coords a := by
  obtain ⟨els, he, he'⟩ := pairAxis_els h hc
  obtain ⟨b, b1, els', b2, b3, b4⟩ := fill_real_is_stream g seed chunkSize hk (pairAxis d) (pairAxis_ok h) coords hc
  rw [he'] at b2
  obtain rfl := Option.some.inj b2
  have hsl : d.slices coords = some (els.map sliceOf) := by simp [Distn.slices, he]
  have hsl' : (pairAxis d).slices coords = some (els.map sliceOf ++ [(0, 2)]) := by
    simp [Distn.slices, he', sliceOf]
  have hcomps : (pairAxis d).comps = d.comps := rfl
  have hshape : (pairAxis d).shape = d.shape ++ [2] := rfl
  unfold fillReal at b1
  simp only [hsl', hcomps, hshape, ← List.append_assoc, Option.bind_eq_bind, Option.bind_some] at b1
  obtain ⟨sel, s1, b1⟩ := Option.bind_eq_some_iff.1 b1
  obtain ⟨vals, s2, b1⟩ := Option.bind_eq_some_iff.1 b1
  obtain ⟨sh, s3, b1⟩ := Option.bind_eq_some_iff.1 b1
  unfold copyto at b1
  split_ifs at b1 with s4
  obtain rfl := Option.some.inj b1
  have hvs : vals.shape = (d.comps ++ els.map List.length) ++ [2] := by rw [b3, hcomps]; simp
  refine ⟨{ shape := d.comps ++ els.map List.length
            get := fun idx => pairUp (vals.get (idx ++ [0])) (vals.get (idx ++ [1])) }, ?_, els, he, rfl, ?_⟩
  · unfold fillComplex
    simp only [hsl, s1, s2, Option.bind_eq_bind, Option.bind_some, Distn.localShape, he, Option.map_some]
    rw [if_pos hvs]
  · intro t ps ht hp
    have key : ∀ k, k < 2 → vals.get (t ++ ps.map Prod.fst ++ [k]) =
        (streamArray g seed (d.comps ++ d.shape ++ [2])).get (t ++ ps.map Prod.snd ++ [k]) := by
      intro k hk
      have := b4 t (ps ++ [(k, k)]) ht (by
        exact forall₂_snoc hp (by match k, hk with | 0, _ => rfl | 1, _ => rfl))
      simpa [hcomps, hshape] using this
    have hlen : (t ++ ps.map Prod.snd).length = (d.comps ++ d.shape).length := by
      have h1 := hp.length_eq
      have h2 := ht.length_eq
      have h3 : els.length = d.shape.length := by
        obtain ⟨ext, axs, e1, e2, e3, e4, e5⟩ := axes_of_ok d h
        have hbr := coords_bridge _ _ _ e1
        have hmem : coords ∈ coordsList d.mesh := (mem_coordsList _ _).2 hc
        rw [hbr.1, List.mem_map] at hmem
        obtain ⟨c, hc', rfl⟩ := hmem
        rw [els_of_ext d e1 e2 hc'] at he
        obtain rfl := Option.some.inj he
        rw [← e4] at hc'
        rw [← e5]; simp [coords_len hc']
      simp; omega
    have hin : ∀ k, k < 2 → inShape (t ++ ps.map Prod.snd ++ [k]) (d.comps ++ d.shape ++ [2]) =
        inShape (t ++ ps.map Prod.snd) (d.comps ++ d.shape) := by
      intro k hk
      generalize t ++ ps.map Prod.snd = u at hlen
      generalize d.comps ++ d.shape = w at hlen
      clear key
      induction u generalizing w with
      | nil => cases w with
        | nil => simp [inShape, hk]
        | cons => simp at hlen
      | cons i u ih => cases w with
        | nil => simp at hlen
        | cons n w => simp only [List.cons_append, inShape]; rw [ih w (by simpa using hlen)]
    simp only [key 0 (by decide), key 1 (by decide), streamArray, streamArray2, hin 0 (by decide), hin 1 (by decide),
      position_append _ _ 2 _ hlen, Nat.add_zero]
    by_cases hx : inShape (t ++ ps.map Prod.snd) (d.comps ++ d.shape) = true <;> simp [hx, pairUp]

/-- C09. The global random data of a field are the seeded stream in row-major order: whatever the mesh, the
layout and the chunk size, gathering the filled field gives the same array. -/
theorem random_field_decomposition_independent [Zero α] (g : Gen σ α) (seed chunkSize : Nat) (hk : 0 < chunkSize)
    (d : Distn) (h : d.OK) (field : List Nat → NDArr α)
    (hf : ∀ coords, List.Forall₂ (· < ·) coords d.mesh → fillReal g seed chunkSize d coords = some (field coords)) :
    ∃ b, gather d field = some b ∧ Same b (streamArray g seed (d.comps ++ d.shape)) := by
  apply gather_returns_global d h _ rfl
  intro coords hc
  obtain ⟨a, a1, a2⟩ := fill_real_is_stream g seed chunkSize hk d h coords hc
  rw [hf coords hc] at a1
  rwa [Option.some.inj a1]

/-- A counter as generator: values are their own positions. -/
def counter : Gen Nat Nat := ⟨fun s => s, fun s => (s, s + 1)⟩

example : rngElements counter [7, 0, 3, 12] 0 5 = some [7, 0, 3, 12] := by decide
example : stream counter 100 7 = 107 := by decide

example : ∃ a, fillReal counter 5 3 demoD [1, 1] = some a ∧ Holds demoD (streamArray counter 5 [3, 6, 4, 8]) [1, 1] a :=
  fill_real_is_stream counter 5 3 (by decide) demoD demoD_ok [1, 1] (.cons (by decide) (.cons (by decide) .nil))

end Dedalus.Random
