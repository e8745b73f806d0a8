import Verif.Spin.Real

/-!
# Properties of coordinate systems and spin recombinations (C43, C63)
-/

namespace Dedalus.Spin

/-! ## Equality of coordinate systems -/

/-- Two systems are the same: same type and the same coordinates (types and names) in the same order. -/
def Spec.Same (k1 : Kind) (c1 : List Coord) (k2 : Kind) (c2 : List Coord) : Prop :=
  k1 = k2 ∧ c1.map (fun c => (c.azimuthal, c.name)) = c2.map fun c => (c.azimuthal, c.name)

theorem coord_eq (c d : Coord) : c.eq d = true ↔ (c.azimuthal, c.name) = (d.azimuthal, d.name) := by
  unfold Coord.eq
  split_ifs with h1 h2
  · simp [h1, h2]
  · simp [h2]
  · simp [h1]

/-- Coordinate systems are not compared by their coordinates: Cartesian `(x, y)` equals Cartesian `(x, z)`. -/
theorem coordsys_eq_refuted : ∃ c1 c2 : List Coord, csEq .cartesian c1 .cartesian c2 = true ∧ ¬Spec.Same .cartesian c1 .cartesian c2 := by
  refine ⟨[⟨false, "x", 0⟩, ⟨false, "y", 1⟩], [⟨false, "x", 2⟩, ⟨false, "z", 3⟩], rfl, ?_⟩
  unfold Spec.Same
  decide

/-- What the comparison decides: type, number of coordinates and first coordinate. -/
theorem coordsys_eq_partial (k1 k2 : Kind) (c1 c2 : List Coord) :
    csEq k1 c1 k2 c2 = true ↔ k1 = k2 ∧ c1.length = c2.length ∧
      ∃ a b, c1[0]? = some a ∧ c2[0]? = some b ∧ (a.azimuthal, a.name) = (b.azimuthal, b.name) := by
  unfold csEq
  by_cases hk : k1 = k2
  · rw [if_pos hk]
    by_cases hl : c1.length = c2.length
    · rw [if_pos hl]
      cases c1 with
      | nil => simp [eqLoop]
      | cons a as =>
        cases c2 with
        | nil => simp at hl
        | cons b bs =>
          have hl' : as.length = bs.length := by simpa using hl
          have := coord_eq a b
          cases he : a.eq b
          · rw [he] at this
            simp only [eqLoop, he, hk]
            simp only [Bool.false_eq_true, false_iff] at this
            simp [this]
            intro _ h1 h2
            exact absurd (by rw [h1, h2]) this
          · simp only [eqLoop, he, hk]
            have h := this.1 he
            simp [h, hl']
            exact ⟨by simpa using congrArg Prod.fst h, by simpa using congrArg Prod.snd h⟩
    · rw [if_neg hl]; simp [hl]
  · rw [if_neg hk]; simp [hk]

/-- The same system with at least one coordinate is equal to itself, however its coordinate objects were created. -/
theorem coordsys_same_eq (k1 k2 : Kind) (c1 c2 : List Coord) (h : Spec.Same k1 c1 k2 c2) (hne : c1 ≠ []) : csEq k1 c1 k2 c2 = true := by
  rw [coordsys_eq_partial]
  refine ⟨h.1, by simpa using congrArg List.length h.2, ?_⟩
  cases c1 with
  | nil => exact absurd rfl hne
  | cons a as =>
    cases c2 with
    | nil => have := h.2; simp at this
    | cons b bs => exact ⟨a, b, rfl, rfl, by have := h.2; simp only [List.map_cons, List.cons.injEq] at this; exact this.1⟩

/-- `S2Coordinates`, `PolarCoordinates` and `CartesianCoordinates` of one coordinate: equality is wrong only from the second
coordinate on, so a one-dimensional system is compared correctly. -/
theorem coordsys_eq_one (k1 k2 : Kind) (c d : Coord) : csEq k1 [c] k2 [d] = true ↔ Spec.Same k1 [c] k2 [d] := by
  rw [coordsys_eq_partial]
  simp [Spec.Same]

/-- Direct products accept a repeated coordinate name if the coordinate objects differ. -/
theorem product_check_refuted : ∃ c d : Coord, c.eq d = true ∧ productRejected [c, d] = false :=
  ⟨⟨false, "x", 0⟩, ⟨false, "x", 1⟩, rfl, rfl⟩

theorem pySet_length (cs : List Coord) : (pySet cs).length ≤ cs.length := by
  induction cs with
  | nil => exact le_refl _
  | cons c cs ih =>
    rw [pySet]
    split_ifs
    · exact le_trans ih (Nat.le_succ _)
    · simpa using ih

theorem pySet_mem (cs : List Coord) (n : Nat) : (pySet cs).any (fun d => d.ident = n) = cs.any (fun d => d.ident = n) := by
  induction cs with
  | nil => rfl
  | cons c cs ih =>
    rw [pySet]
    split_ifs with h
    · rw [ih, List.any_cons]
      by_cases hc : c.ident = n
      · rw [← ih]
        have : (pySet cs).any (fun d => d.ident = n) = true := by rw [← hc]; exact h
        rw [this]; simp
      · simp [hc]
    · rw [List.any_cons, List.any_cons, ih]

/-- They reject exactly the lists in which one coordinate object is repeated. -/
theorem product_check_partial (cs : List Coord) : productRejected cs = false ↔ (cs.map Coord.ident).Nodup := by
  unfold productRejected
  have key : (pySet cs).length = cs.length ↔ (cs.map Coord.ident).Nodup := by
    induction cs with
    | nil => simp [pySet]
    | cons c cs ih =>
      rw [pySet, pySet_mem, List.map_cons, List.nodup_cons, ← ih]
      have hle := pySet_length cs
      by_cases h : cs.any (fun d => d.ident = c.ident) = true
      · rw [if_pos h]
        constructor
        · intro e
          simp only [List.length_cons] at e
          omega
        · rintro ⟨hn, _⟩
          exfalso
          apply hn
          obtain ⟨d, hd, he⟩ := List.any_eq_true.1 h
          exact List.mem_map.2 ⟨d, hd, by simpa using he⟩
      · rw [if_neg h]
        have hn : c.ident ∉ cs.map Coord.ident := by
          intro hm
          obtain ⟨d, hd, he⟩ := List.mem_map.1 hm
          exact h (List.any_eq_true.2 ⟨d, hd, by simpa using he⟩)
        simp [hn]
  rw [← key]
  have hle := pySet_length cs
  simp only [decide_eq_false_iff_not, not_lt]
  omega

/-! ## Intertwiners -/

/-- `A` and `B` are `n × n` matrices and `A B` is the identity. -/
def Spec.LeftInverse (n : Nat) (A B : Mat) : Prop :=
  A.rows = n ∧ A.cols = n ∧ B.rows = n ∧ B.cols = n ∧
    ∀ i < n, ∀ j < n, ∑ l ∈ Finset.range n, A.entry i l * B.entry l j = if i = j then 1 else 0

/-- For every coordinate system, direct product, axis and tensor order, the backward intertwiner exists, is the adjoint of the
forward intertwiner and its inverse on both sides. -/
theorem intertwiner_unitary (ix : Index) (h : ix.wellFormed) (subaxis order : Nat) (hs : ix.groupFree subaxis) :
    ∃ A B, ix.forward subaxis order = some A ∧ ix.backward subaxis order = some B ∧
      Spec.LeftInverse (ix.dim ^ order) A B ∧ Spec.LeftInverse (ix.dim ^ order) B A ∧
      ∀ i j, B.entry i j = (starRingEnd ℂ) (A.entry j i) := by
  obtain ⟨A, a1, a2, a3, a4⟩ := index_inv ix h subaxis order hs
  exact ⟨A, A.dag, a1, a2, a3, a4, fun _ _ => rfl⟩

/-- An example: a cylinder `(z) × (phi, r)`. -/
example : (Index.product [.coordinate ⟨false, "z", 0⟩, .polar ⟨true, "phi", 1⟩ ⟨false, "r", 2⟩]).wellFormed ∧
    (Index.product [.coordinate ⟨false, "z", 0⟩, .polar ⟨true, "phi", 1⟩ ⟨false, "r", 2⟩]).groupFree 2 := by
  refine ⟨?_, ?_⟩
  · intro cs hcs
    simp only [List.mem_cons, List.not_mem_nil, or_false] at hcs
    rcases hcs with rfl | rfl <;> trivial
  · show 2 < 3
    decide

/-- The entries for a tensor of any order are the products of those for vectors, in row-major order of the components. -/
theorem intertwiner_order (A : Mat) (n order : Nat) (hA : A.rows = n ∧ A.cols = n) (t s : List Nat)
    (ht : t.length = order ∧ ∀ x ∈ t, x < n) (hs : s.length = order ∧ ∀ x ∈ s, x < n) :
    (nkron A order).entry (t.foldl (fun a x => a * n + x) 0) (s.foldl (fun a x => a * n + x) 0) =
      ((List.zipWith A.entry t s).prod) := by
  have hf : ∀ (t : List Nat) (k a : Nat), t.length = k → flatFrom a (List.replicate k n) t = t.foldl (fun a x => a * n + x) a := by
    intro t
    induction t with
    | nil => intro k a hk; cases k <;> rfl
    | cons x t ih =>
      intro k a hk
      cases k with
      | zero => simp at hk
      | succ k => rw [List.replicate_succ, flatFrom, List.foldl_cons, ih k _ (by simpa using hk)]
  have hlt : ∀ (t : List Nat) (k : Nat), t.length = k → (∀ x ∈ t, x < n) → List.Forall₂ (· < ·) t (List.replicate k n) := by
    intro t
    induction t with
    | nil => intro k hk _; cases k with | zero => exact .nil | succ k => simp at hk
    | cons x t ih =>
      intro k hk hx
      cases k with
      | zero => simp at hk
      | succ k =>
        rw [List.replicate_succ]
        exact .cons (hx x List.mem_cons_self) (ih k (by simpa using hk) fun y hy => hx y (List.mem_cons_of_mem _ hy))
  have hrep : ∀ k, List.Forall₂ (fun (B : Mat) d => B.rows = d ∧ B.cols = d) (List.replicate k A) (List.replicate k n) := by
    intro k
    induction k with
    | zero => exact .nil
    | succ k ih => rw [List.replicate_succ, List.replicate_succ]; exact .cons hA ih
  have hprod : ∀ (t s : List Nat) (k : Nat), t.length = k → s.length = k → prodEntry (List.replicate k A) t s = (List.zipWith A.entry t s).prod := by
    intro t
    induction t with
    | nil => intro s k h1 h2; cases k with | zero => simp [prodEntry] | succ k => simp at h1
    | cons x t ih =>
      intro s k h1 h2
      cases k with
      | zero => simp at h1
      | succ k =>
        cases s with
        | nil => simp at h2
        | cons y s =>
          rw [List.replicate_succ, prodEntry, ih s k (by simpa using h1) (by simpa using h2), List.zipWith_cons_cons, List.prod_cons]
  have e := kron_entry (List.replicate order A) (List.replicate order n) t s (hrep order) (hlt t order ht.1 ht.2) (hlt s order hs.1 hs.2)
  rw [hf t order 0 ht.1, hf s order 0 hs.1, hprod t s order ht.1 hs.1] at e
  exact e

/-- The spin components of a vector in polar and S2 coordinates and on the sphere: `u∓ = (u1 ∓ i u0) / √2`. -/
theorem spin_components (a c r : Coord) (u : Comps) :
    (∃ A, (Index.single (.s2 a c)).forward 1 1 = some A ∧ applyAxis A 0 u [0] = (u [1] - Complex.I * u [0]) / (√2 : ℝ) ∧
      applyAxis A 0 u [1] = (u [1] + Complex.I * u [0]) / (√2 : ℝ)) ∧
    (∃ A, (Index.single (.polar a r)).forward 1 1 = some A ∧ applyAxis A 0 u [0] = (u [1] - Complex.I * u [0]) / (√2 : ℝ) ∧
      applyAxis A 0 u [1] = (u [1] + Complex.I * u [0]) / (√2 : ℝ)) ∧
    (∃ A, (Index.single (.spherical a c r)).forward 1 1 = some A ∧ applyAxis A 0 u [0] = (u [1] - Complex.I * u [0]) / (√2 : ℝ) ∧
      applyAxis A 0 u [1] = (u [1] + Complex.I * u [0]) / (√2 : ℝ) ∧ applyAxis A 0 u [2] = u [2]) := by
  have h2 : applyAxis uForward 0 u [0] = (u [1] - Complex.I * u [0]) / (√2 : ℝ) ∧ applyAxis uForward 0 u [1] = (u [1] + Complex.I * u [0]) / (√2 : ℝ) := by
    have e1 := apply_agree agree_u u (i := 0) (x := 0) (t := [0]) rfl (by norm_num)
    have e2 := apply_agree agree_u u (i := 0) (x := 1) (t := [1]) rfl (by norm_num)
    rw [apply_pair (s := 0) (le_refl 2) u rfl (by norm_num), if_pos rfl] at e1
    rw [apply_pair (s := 0) (le_refl 2) u rfl (by norm_num), if_neg (by norm_num), if_pos rfl] at e2
    exact ⟨e1, e2⟩
  refine ⟨⟨uForward, rfl, h2⟩, ⟨uForward, rfl, h2⟩, ⟨uSpherical, rfl, ?_, ?_, ?_⟩⟩
  · rw [apply_agree agree_us u (i := 0) (x := 0) (t := [0]) rfl (by norm_num), apply_pair (s := 0) (by norm_num) u rfl (by norm_num), if_pos rfl]
    rfl
  · rw [apply_agree agree_us u (i := 0) (x := 1) (t := [1]) rfl (by norm_num), apply_pair (s := 0) (by norm_num) u rfl (by norm_num), if_neg (by norm_num), if_pos rfl]
    rfl
  · rw [apply_agree agree_us u (i := 0) (x := 2) (t := [2]) rfl (by norm_num), apply_pair (s := 0) (by norm_num) u rfl (by norm_num), if_neg (by norm_num), if_neg (by norm_num)]

/-! ## Recombinations -/

/-- The tuples of component indices of a tensor. -/
def Spec.Component (sig : List Index) (t : List Nat) : Prop := List.Forall₂ (fun x (ix : Index) => x < ix.dim) t sig

/-- The basis has an azimuthal coordinate and a second coordinate; every index of the tensor is over a system that contains
this pair, or does not mention the second coordinate. -/
def Spec.Suitable (coord0 coord1 : Coord) (sig : List Index) : Prop :=
  coord0.azimuthal = true ∧ coord1.azimuthal = false ∧ ∀ ix ∈ sig, indexOf coord1 ix.coords = none ∨ Carries coord0 coord1 ix

theorem component_valid {sig : List Index} {t : List Nat} (h : Spec.Component sig t) : Valid (sig.map Index.dim) t := by
  refine ⟨by rw [List.length_map]; exact h.length_eq, ?_⟩
  induction h with
  | nil => intro k d x h1; simp at h1
  | cons hx _ ih =>
    intro k d x h1 h2
    cases k with
    | zero => simp at h1 h2; omega
    | succ k => exact ih k d x (by simpa using h1) (by simpa using h2)

theorem factors_unitary {coord0 coord1 : Coord} (h0 : coord0.azimuthal = true) (h1 : coord1.azimuthal = false) (dims : List Nat) :
    ∀ (sig : List Index) (i : Nat), (∀ ix ∈ sig, indexOf coord1 ix.coords = none ∨ Carries coord0 coord1 ix) →
      (∀ k ix, sig[k]? = some ix → dims[i + k]? = some ix.dim) → ∃ fs, factors coord1 sig = some fs ∧ fs.length = sig.length ∧ Unitary dims i fs
  | [], _, _, _ => ⟨[], rfl, rfl, trivial⟩
  | ix :: sig, i, h, hd => by
    obtain ⟨fs, f1, f2, f3⟩ := factors_unitary h0 h1 dims sig (i + 1) (fun c hc => h c (List.mem_cons_of_mem _ hc)) (fun k c hk => by
      rw [← hd (k + 1) c hk]; congr 1; omega)
    rcases h ix List.mem_cons_self with hn | hc
    · exact ⟨none :: fs, by rw [factors, hn, f1]; rfl, by simp [f2], f3⟩
    · obtain ⟨s, A, _, i2, _, hA, _, v1, v2⟩ := carries_index h0 h1 hc
      refine ⟨some A :: fs, ?_, by simp [f2], ?_⟩
      · rw [factors, i2, f1]
        simp only [hA]
        rfl
      · have : A.rows = ix.dim := v1.1
        exact ⟨by rw [this]; exact hd 0 ix rfl, by rw [this]; exact v1, by rw [this]; exact v2, f3⟩

theorem dims_get (sig : List Index) : ∀ k ix, sig[k]? = some ix → (sig.map Index.dim)[0 + k]? = some ix.dim := by
  intro k ix h
  rw [Nat.zero_add, List.getElem?_map, h]
  rfl

/-- Complex data: the factors exist, and each recombination undoes the other, for tensors of every rank. -/
theorem spin_round_trip_complex (coord0 coord1 : Coord) (sig : List Index) (h : Spec.Suitable coord0 coord1 sig) :
    ∃ fs, factors coord1 sig = some fs ∧ ∀ (u : Comps) (t : List Nat), Spec.Component sig t →
      backwardComplex 0 fs (forwardComplex 0 fs u) t = u t ∧ forwardComplex 0 fs (backwardComplex 0 fs u) t = u t := by
  obtain ⟨fs, f1, _, f3⟩ := factors_unitary h.1 h.2.1 (sig.map Index.dim) sig 0 h.2.2 (dims_get sig)
  refine ⟨fs, f1, fun u t ht => ?_⟩
  simp only [forward_along, backward_along]
  exact along_inv _ fs 0 u t f3 (component_valid ht)

/-- The complex number encoded by the cosine and minus-sine coefficients. -/
noncomputable def Spec.encoded (u : RComps) (l : Nat) : Comps := fun t => u t (2 * l) + Complex.I * u t (2 * l + 1)

/-- Real data: whatever was in the output buffer, the result is the encoding of the complex recombination, in both
directions, for every number of recombined indices. -/
theorem spin_real_complex (coord0 coord1 : Coord) (sig : List Index) (h : Spec.Suitable coord0 coord1 sig) (M : Nat) (u out : RComps) :
    ∃ fs f b, factors coord1 sig = some fs ∧ forwardReal coord0 M sig fs u out = some f ∧ backwardReal coord0 M sig fs u out = some b ∧
      ∀ l < M / 2, ∀ t, Spec.Component sig t →
        Spec.encoded f l t = forwardComplex 0 fs (Spec.encoded u l) t ∧ Spec.encoded b l t = backwardComplex 0 fs (Spec.encoded u l) t := by
  obtain ⟨fs, f1, _, _⟩ := factors_unitary h.1 h.2.1 (sig.map Index.dim) sig 0 h.2.2 (dims_get sig)
  by_cases hsig : sig = []
  · subst hsig
    cases f1
    exact ⟨[], u, u, rfl, by simp [forwardReal], by simp [backwardReal], fun l _ t _ => ⟨rfl, rfl⟩⟩
  · have main : ∀ (F : Mat → Mat) (step : Nat → Nat → RComps → RComps → RComps), (∀ A, A.cols = A.rows → (F A).cols = A.rows) →
        (∀ l < M / 2, ∀ (A : Mat) (s n i x : Nat) (u out : RComps) (t : List Nat), s + 2 ≤ n → Agree n A (pairMat s n) → t[i]? = some x → x < n →
          enc (step s i u out) l t = applyAxis (F A) i (enc u l) t) →
        ∃ r, realLoop step coord0 0 0 sig fs u out = some r ∧ ∀ l < M / 2, ∀ t, Valid (sig.map Index.dim) t →
          enc (if r.1 % 2 = 0 then r.2.1 else r.2.2) l t = along F 0 fs (enc u l) t := by
      intro F step hF hstep
      cases hr : realLoop step coord0 0 0 sig fs u out with
      | some r =>
        refine ⟨r, rfl, fun l hl t ht => ?_⟩
        obtain ⟨_, n', g', o', r1, r2⟩ := real_loop F hF coord0 coord1 h.1 h.2.1 M l hl step (hstep l hl) (sig.map Index.dim) sig fs 0 0 u out h.2.2 f1 (dims_get sig)
        rw [hr] at r1
        cases r1
        exact r2 t ht
      | none =>
        exfalso
        -- the loop does not fail whatever the length of the azimuthal axis
        have : ∀ (sig : List Index) (fs : List (Option Mat)) (i n : Nat) (g o : RComps),
            (∀ ix ∈ sig, indexOf coord1 ix.coords = none ∨ Carries coord0 coord1 ix) → factors coord1 sig = some fs →
            realLoop step coord0 i n sig fs g o ≠ none := by
          intro sig
          induction sig with
          | nil => intro fs i n g o _ hf; cases hf; simp [realLoop]
          | cons ix sig ih =>
            intro fs i n g o hix hf
            have hix' : ∀ ix ∈ sig, indexOf coord1 ix.coords = none ∨ Carries coord0 coord1 ix := fun c hc => hix c (List.mem_cons_of_mem _ hc)
            cases hfs : factors coord1 sig with
            | none =>
              rw [factors, hfs] at hf
              exfalso
              revert hf
              cases (match indexOf coord1 ix.coords with | some subaxis => (ix.forward subaxis 1).map some | none => some none) <;> simp
            | some fs' =>
              rcases hix ix List.mem_cons_self with hn | hc
              · rw [factors, hn, hfs] at hf
                cases hf
                rw [realLoop]
                exact ih fs' _ _ _ _ hix' hfs
              · obtain ⟨s, A, i1, i2, _, hA, _, _, _⟩ := carries_index h.1 h.2.1 hc
                rw [factors, i2, hfs] at hf
                simp only [hA] at hf
                cases hf
                rw [realLoop, i1]
                simp only [Option.bind_some]
                split_ifs
                · exact ih fs' _ _ _ _ hix' hfs
                · exact ih fs' _ _ _ _ hix' hfs
        exact this sig fs 0 0 u out h.2.2 f1 hr
    obtain ⟨rf, a1, a2⟩ := main id (fun s i => recombineForward s M i) (fun A h => h) (fun l hl A s n i x u out t hs hag ht hx => by
      rw [recombine_forward hs hl u out ht hx]; exact (apply_agree hag _ ht hx).symm)
    obtain ⟨rb, b1, b2⟩ := main Mat.dag (fun s i => recombineBackward s M i) (fun A h => rfl) (fun l hl A s n i x u out t hs hag ht hx => by
      rw [recombine_backward hs hl u out ht hx]
      obtain ⟨g1, g2, g3, g4, g5⟩ := hag
      have hag' : Agree n A.dag (pairMat s n).dag := ⟨g2, g1, g4, g3, fun i hi j hj => by
        show (starRingEnd ℂ) (A.entry j i) = (starRingEnd ℂ) ((pairMat s n).entry j i)
        rw [g5 j hj i hi]⟩
      exact (apply_agree hag' _ ht hx).symm)
    refine ⟨fs, _, _, f1, by rw [forwardReal, if_neg hsig, a1]; rfl, by rw [backwardReal, if_neg hsig, b1]; rfl, fun l hl t ht => ?_⟩
    rw [forward_along, backward_along]
    exact ⟨a2 l hl t (component_valid ht), b2 l hl t (component_valid ht)⟩

theorem encoded_inj {u v : RComps} {l : Nat} {t : List Nat} (h : Spec.encoded u l t = Spec.encoded v l t) : u t (2 * l) = v t (2 * l) ∧ u t (2 * l + 1) = v t (2 * l + 1) := by
  have h1 := congrArg Complex.re h
  have h2 := congrArg Complex.im h
  simp [Spec.encoded] at h1 h2
  exact ⟨h1, h2⟩

/-- Real data: recombining and recombining back reproduces the data, whatever was in the buffers. -/
theorem spin_round_trip_real (coord0 coord1 : Coord) (sig : List Index) (h : Spec.Suitable coord0 coord1 sig) (M : Nat) (hM : M % 2 = 0) (u out out' : RComps) :
    ∃ fs f b, factors coord1 sig = some fs ∧ forwardReal coord0 M sig fs u out = some f ∧ backwardReal coord0 M sig fs f out' = some b ∧
      ∀ t, Spec.Component sig t → ∀ p < M, b t p = u t p := by
  obtain ⟨fs, f, _, f1, f2, _, f4⟩ := spin_real_complex coord0 coord1 sig h M u out
  obtain ⟨fs', _, b, g1, _, g3, g4⟩ := spin_real_complex coord0 coord1 sig h M f out'
  rw [f1] at g1
  cases g1
  refine ⟨fs, f, b, f1, f2, g3, fun t ht p hp => ?_⟩
  obtain ⟨fs'', k1, _, k3⟩ := factors_unitary h.1 h.2.1 (sig.map Index.dim) sig 0 h.2.2 (dims_get sig)
  rw [f1] at k1
  cases k1
  have hl : p / 2 < M / 2 := by omega
  have e : Spec.encoded b (p / 2) t = Spec.encoded u (p / 2) t := by
    rw [(g4 _ hl t ht).2, ← ((along_inv (sig.map Index.dim) fs 0 (Spec.encoded u (p / 2)) t k3 (component_valid ht)).1), backward_along]
    refine along_congr Mat.dag (fun A _ => rfl) (sig.map Index.dim) fs 0 _ _ ?_ (fun t' ht' => ?_) t (component_valid ht)
    · have : ∀ (fs : List (Option Mat)) (i : Nat), Unitary (sig.map Index.dim) i fs → Shapes (sig.map Index.dim) i fs := by
        intro fs
        induction fs with
        | nil => intro i _; trivial
        | cons f fs ih =>
          intro i hu
          cases f with
          | none => exact ih (i + 1) hu
          | some A => exact ⟨hu.1, hu.2.1.2.1, ih (i + 1) hu.2.2.2⟩
      exact this fs 0 k3
    · have hc : Spec.Component sig t' := by
        have hgen : ∀ (sig : List Index) (t' : List Nat), Valid (sig.map Index.dim) t' → List.Forall₂ (fun x (ix : Index) => x < ix.dim) t' sig := by
          intro sig
          induction sig with
          | nil =>
            intro t' ht'
            have : t' = [] := List.length_eq_zero_iff.1 (by simpa using ht'.1)
            subst this
            exact .nil
          | cons ix sig ih =>
            intro t' ht'
            cases t' with
            | nil => have := ht'.1; simp at this
            | cons x t' =>
              refine .cons (ht'.2 0 ix.dim x rfl rfl) (ih t' ⟨by simpa using ht'.1, fun k d y h1 h2 => ht'.2 (k + 1) d y h1 h2⟩)
        exact hgen sig t' ht'
      rw [(f4 _ hl t' hc).1, forward_along]
  have hp2 := encoded_inj e
  have hpp : p = 2 * (p / 2) ∨ p = 2 * (p / 2) + 1 := by omega
  rcases hpp with hpp | hpp
  · rw [hpp]; exact hp2.1
  · rw [hpp]; exact hp2.2

/-- A vector over the basis, and a mixed tensor over a product containing it and over another system, are suitable. -/
example : Spec.Suitable ⟨true, "phi", 0⟩ ⟨false, "r", 1⟩
    [.single (.polar ⟨true, "phi", 0⟩ ⟨false, "r", 1⟩), .product [.coordinate ⟨false, "z", 2⟩, .polar ⟨true, "phi", 0⟩ ⟨false, "r", 1⟩],
     .single (.cartesian [⟨false, "x", 3⟩, ⟨false, "y", 4⟩])] := by
  refine ⟨rfl, rfl, fun ix hix => ?_⟩
  simp only [List.mem_cons, List.not_mem_nil, or_false] at hix
  rcases hix with rfl | rfl | rfl
  · exact .inr (.pair _ ⟨rfl, rfl⟩)
  · refine .inr (.product [.coordinate ⟨false, "z", 2⟩] _ [] ⟨rfl, rfl⟩ ?_ ?_)
    · intro c hc
      simp only [List.cons_append, List.nil_append, List.mem_cons, List.not_mem_nil, or_false] at hc
      rcases hc with rfl | rfl <;> trivial
    · intro c hc
      simp [Cs.coords] at hc
      subst hc
      decide
  · exact .inl rfl

/-! ## The recombination matrix -/

/-- The components after filling in the placeholders: the factor of every index. -/
def Spec.Squares (sig : List Index) (fs : List (Option Mat)) : Prop :=
  List.Forall₂ (fun (f : Option Mat) (ix : Index) => ∀ A, f = some A → A.rows = ix.dim ∧ A.cols = ix.dim) fs sig

/-- The factors of a suitable signature are square. -/
theorem factors_squares (coord0 coord1 : Coord) (h0 : coord0.azimuthal = true) (h1 : coord1.azimuthal = false) : ∀ (sig : List Index),
    (∀ ix ∈ sig, indexOf coord1 ix.coords = none ∨ Carries coord0 coord1 ix) → ∃ fs, factors coord1 sig = some fs ∧ Spec.Squares sig fs
  | [], _ => ⟨[], rfl, .nil⟩
  | ix :: sig, h => by
    obtain ⟨fs, f1, f2⟩ := factors_squares coord0 coord1 h0 h1 sig fun c hc => h c (List.mem_cons_of_mem _ hc)
    rcases h ix List.mem_cons_self with hn | hc
    · exact ⟨none :: fs, by rw [factors, hn, f1]; rfl, .cons (fun A hA => by cases hA) f2⟩
    · obtain ⟨s, A, _, i2, _, hA, _, v1, _⟩ := carries_index h0 h1 hc
      refine ⟨some A :: fs, ?_, .cons (fun B hB => by cases hB; exact ⟨v1.1, v1.2.1⟩) f2⟩
      rw [factors, i2, f1]
      simp only [hA]
      rfl

/-- Row-major position of a tuple of component indices. -/
def Spec.position (dims : List Nat) (t : List Nat) : Nat := flatFrom 0 dims t

theorem position_example : Spec.position [2, 3, 4] [1, 2, 3] = 1 * 12 + 2 * 4 + 3 := rfl

theorem fill_mats : ∀ (sig : List Index) (fs : List (Option Mat)), Spec.Squares sig fs →
    ∃ ms, fillFactors sig fs = ms.map some ∧ List.Forall₂ (fun (B : Mat) d => B.rows = d ∧ B.cols = d) ms (sig.map Index.dim)
  | _, _, .nil => ⟨[], rfl, .nil⟩
  | ix :: sig, f :: fs, .cons hf h => by
    obtain ⟨ms, m1, m2⟩ := fill_mats sig fs h
    cases f with
    | none => exact ⟨eye ix.dim :: ms, by rw [List.map_cons, ← m1]; rfl, .cons ⟨rfl, rfl⟩ m2⟩
    | some A => exact ⟨A :: ms, by rw [List.map_cons, ← m1]; rfl, .cons (hf A rfl) m2⟩

theorem forall_lt {sig : List Index} {t : List Nat} (h : Spec.Component sig t) : List.Forall₂ (· < ·) t (sig.map Index.dim) := by
  induction h with
  | nil => exact .nil
  | cons hx _ ih => exact .cons hx ih

/-- The recombination matrix, applied to the components in row-major order, is the recombination of the transforms. -/
theorem matrix_recombines (sig : List Index) (fs : List (Option Mat)) (h : Spec.Squares sig fs) (u : Comps) (t : List Nat) (ht : Spec.Component sig t)
    (upstream : Nat) (hup : upstream ≤ 1) :
    tupleSum (sig.map Index.dim) (fun s => (recombinationMatrix sig fs upstream).1.entry (Spec.position (sig.map Index.dim) t) (Spec.position (sig.map Index.dim) s) * u s) =
      forwardComplex 0 fs u t := by
  obtain ⟨ms, m1, m2⟩ := fill_mats sig fs h
  have e1 : (recombinationMatrix sig fs upstream).1 = kron ms := by
    simp only [recombinationMatrix]
    rw [m1, if_neg (by omega)]
    congr 1
    simp
  rw [e1, forward_along, ← along_fill id (fun n => rfl) (sig.map Index.dim) sig fs 0 u t h.length_eq.symm (dims_get sig) (component_valid ht), m1]
  have e2 := along_sum ms (sig.map Index.dim) [] t u m2 (by rw [List.length_map]; exact ht.length_eq)
  rw [List.length_nil, List.nil_append] at e2
  rw [e2]
  apply tupleSum_congr
  intro s hs
  rw [Spec.position, Spec.position, kron_entry ms _ t s m2 (forall_lt ht) hs]
  rfl

/-- With further coefficients upstream, the matrix acts on each of them. -/
theorem matrix_recombines_upstream (sig : List Index) (fs : List (Option Mat)) (h : Spec.Squares sig fs) (u : List Nat → Nat → ℂ) (t : List Nat) (ht : Spec.Component sig t)
    (upstream p : Nat) (hup : 1 < upstream) (hp : p < upstream) :
    tupleSum (sig.map Index.dim) (fun s => ∑ q ∈ Finset.range upstream, (recombinationMatrix sig fs upstream).1.entry
      (Spec.position (sig.map Index.dim) t * upstream + p) (Spec.position (sig.map Index.dim) s * upstream + q) * u s q) =
      forwardComplex 0 fs (fun s => u s p) t := by
  obtain ⟨ms, m1, m2⟩ := fill_mats sig fs h
  have e1 : (recombinationMatrix sig fs upstream).1 = kron (ms ++ [eye upstream]) := by
    simp only [recombinationMatrix]
    rw [m1, if_pos (by omega)]
    congr 1
    simp
  have hflat : ∀ (dims t : List Nat) (a p : Nat), t.length = dims.length → flatFrom a (dims ++ [upstream]) (t ++ [p]) = flatFrom a dims t * upstream + p := by
    intro dims
    induction dims with
    | nil =>
      intro t a p hl
      have : t = [] := List.length_eq_zero_iff.1 hl
      subst this
      rfl
    | cons d dims ih =>
      intro t a p hl
      cases t with
      | nil => simp at hl
      | cons x t => rw [List.cons_append, List.cons_append, flatFrom, flatFrom, ih t _ p (by simpa using hl)]
  have happ : ∀ {α β : Type} (R : α → β → Prop) (l1 : List α) (l2 : List β) (a : α) (b : β), List.Forall₂ R l1 l2 → R a b → List.Forall₂ R (l1 ++ [a]) (l2 ++ [b]) := by
    intro α β R l1 l2 a b hl hab
    induction hl with
    | nil => exact .cons hab .nil
    | cons hx _ ih => exact .cons hx ih
  have hprod : ∀ (ms : List Mat) (t s : List Nat) (dims : List Nat) (q : Nat), List.Forall₂ (fun (B : Mat) d => B.rows = d ∧ B.cols = d) ms dims → t.length = dims.length → s.length = dims.length →
      prodEntry (ms ++ [eye upstream]) (t ++ [p]) (s ++ [q]) = prodEntry ms t s * if p = q then 1 else 0 := by
    intro ms
    induction ms with
    | nil =>
      intro t s dims q hm h1 h2
      cases hm
      have : t = [] := List.length_eq_zero_iff.1 h1
      subst this
      have : s = [] := List.length_eq_zero_iff.1 h2
      subst this
      simp [prodEntry, eye]
    | cons m ms ih =>
      intro t s dims q hm h1 h2
      cases hm with
      | cons hm hms =>
        cases t with
        | nil => simp at h1
        | cons x t =>
          cases s with
          | nil => simp at h2
          | cons y s =>
            rw [List.cons_append, List.cons_append, List.cons_append, prodEntry, prodEntry, ih t s _ q hms (by simpa using h1) (by simpa using h2), mul_assoc]
  rw [e1, ← matrix_recombines sig fs h (fun s => u s p) t ht 1 (le_refl 1)]
  apply tupleSum_congr
  intro s hs
  have e2 : (recombinationMatrix sig fs 1).1 = kron ms := by
    simp only [recombinationMatrix]
    rw [m1, if_neg (by omega)]
    congr 1
    simp
  have hts := forall_lt ht
  rw [e2, Spec.position, Spec.position, kron_entry ms _ t s m2 hts hs]
  rw [Finset.sum_eq_single_of_mem p (Finset.mem_range.2 hp)]
  · rw [← hflat _ t 0 p hts.length_eq, ← hflat _ s 0 p hs.length_eq,
      kron_entry (ms ++ [eye upstream]) _ _ _ (happ _ _ _ (eye upstream) upstream m2 ⟨rfl, rfl⟩) (happ _ _ _ _ _ hts hp) (happ _ _ _ _ _ hs hp),
      hprod ms t s _ p m2 hts.length_eq hs.length_eq, if_pos rfl, mul_one]
  · intro q hq hne
    have hq := Finset.mem_range.1 hq
    rw [← hflat _ t 0 p hts.length_eq, ← hflat _ s 0 q hs.length_eq,
      kron_entry (ms ++ [eye upstream]) _ _ _ (happ _ _ _ (eye upstream) upstream m2 ⟨rfl, rfl⟩) (happ _ _ _ _ _ hts hp) (happ _ _ _ _ _ hs hq),
      hprod ms t s _ q m2 hts.length_eq hs.length_eq, if_neg (Ne.symm hne), mul_zero, zero_mul]

theorem sum_two (n : Nat) (f : Nat → ℝ) : ∑ j ∈ Finset.range (2 * n), f j = ∑ j ∈ Finset.range n, (f (2 * j) + f (2 * j + 1)) := by
  induction n with
  | zero => simp
  | succ n ih =>
    rw [show 2 * (n + 1) = 2 * n + 1 + 1 by ring, Finset.sum_range_succ, Finset.sum_range_succ, ih, Finset.sum_range_succ]
    ring

/-- The matrix for real data acts on pairs as the complex matrix on the encoded numbers. -/
theorem real_matrix_correct (A : Mat) (x : Nat → ℝ) (i : Nat) :
    ((∑ j ∈ Finset.range (2 * A.cols), realMatrix A (2 * i) j * x j : ℝ) : ℂ) + Complex.I * (∑ j ∈ Finset.range (2 * A.cols), realMatrix A (2 * i + 1) j * x j : ℝ) =
      ∑ j ∈ Finset.range A.cols, A.entry i j * (x (2 * j) + Complex.I * x (2 * j + 1)) := by
  have e : ∀ j, realMatrix A (2 * i) (2 * j) = (A.entry i j).re ∧ realMatrix A (2 * i) (2 * j + 1) = -(A.entry i j).im ∧
      realMatrix A (2 * i + 1) (2 * j) = (A.entry i j).im ∧ realMatrix A (2 * i + 1) (2 * j + 1) = (A.entry i j).re := by
    intro j
    unfold realMatrix
    have h1 : 2 * i / 2 = i := by omega
    have h2 : (2 * i + 1) / 2 = i := by omega
    have h3 : 2 * j / 2 = j := by omega
    have h4 : (2 * j + 1) / 2 = j := by omega
    have h5 : 2 * i % 2 = 0 := by omega
    have h6 : (2 * i + 1) % 2 = 1 := by omega
    have h7 : 2 * j % 2 = 0 := by omega
    have h8 : (2 * j + 1) % 2 = 1 := by omega
    rw [h1, h2, h3, h4, h5, h6, h7, h8]
    simp
  rw [sum_two, sum_two]
  push_cast
  rw [Finset.mul_sum, ← Finset.sum_add_distrib]
  apply Finset.sum_congr rfl
  intro j _
  obtain ⟨e1, e2, e3, e4⟩ := e j
  rw [e1, e2, e3, e4]
  apply Complex.ext <;> simp <;> ring

/-! ## The cached factors -/

/-- Building the matrix does not change what the recombinations do to complex data. -/
theorem matrix_keeps_complex (sig : List Index) (fs : List (Option Mat)) (hl : fs.length = sig.length) (upstream : Nat) (u : Comps) (t : List Nat) (ht : Spec.Component sig t) :
    forwardComplex 0 (recombinationMatrix sig fs upstream).2 u t = forwardComplex 0 fs u t ∧
    backwardComplex 0 (recombinationMatrix sig fs upstream).2 u t = backwardComplex 0 fs u t := by
  simp only [forward_along, backward_along]
  exact ⟨along_fill id (fun n => rfl) _ sig fs 0 u t hl.symm (dims_get sig) (component_valid ht),
    along_fill Mat.dag dag_eye _ sig fs 0 u t hl.symm (dims_get sig) (component_valid ht)⟩

/-- But for real data it does: the transform of a tensor with an index over another coordinate system fails after the
matrix for the same tensor signature has been built. -/
theorem matrix_keeps_real_refuted : ∃ (coord0 coord1 : Coord) (sig : List Index) (fs : List (Option Mat)),
    Spec.Suitable coord0 coord1 sig ∧ factors coord1 sig = some fs ∧ ∀ (M upstream : Nat) (u out : RComps),
      (∃ r, forwardReal coord0 M sig fs u out = some r) ∧ forwardReal coord0 M sig (recombinationMatrix sig fs upstream).2 u out = none := by
  refine ⟨⟨true, "phi", 0⟩, ⟨false, "r", 1⟩, [.single (.coordinate ⟨false, "z", 2⟩)], [none], ⟨rfl, rfl, ?_⟩, rfl, fun M upstream u out => ⟨⟨u, rfl⟩, rfl⟩⟩
  intro ix hix
  rw [List.mem_singleton.1 hix]
  exact .inl rfl

/-- If every index of the tensor contains the coordinates of the basis, the cached factors are not changed. -/
theorem matrix_keeps_real_partial (coord0 coord1 : Coord) (sig : List Index) (h0 : coord0.azimuthal = true) (h1 : coord1.azimuthal = false)
    (h : ∀ ix ∈ sig, Carries coord0 coord1 ix) (fs : List (Option Mat)) (hf : factors coord1 sig = some fs) (upstream : Nat) :
    (recombinationMatrix sig fs upstream).2 = fs := by
  show fillFactors sig fs = fs
  induction sig generalizing fs with
  | nil => cases hf; rfl
  | cons ix sig ih =>
    obtain ⟨s, A, _, i2, _, hA, _, _, _⟩ := carries_index h0 h1 (h ix List.mem_cons_self)
    cases hfs : factors coord1 sig with
    | none =>
      rw [factors, i2, hfs] at hf
      simp [hA] at hf
    | some fs' =>
      rw [factors, i2, hfs] at hf
      simp only [hA] at hf
      cases hf
      have e : fillFactors (ix :: sig) (some A :: fs') = some A :: fillFactors sig fs' := rfl
      rw [e, ih (fun c hc => h c (List.mem_cons_of_mem _ hc)) fs' hfs]

end Dedalus.Spin
