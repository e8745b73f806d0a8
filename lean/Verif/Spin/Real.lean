import Verif.Spin.Recombine

/-!
# Lemmas on intertwiners of indices and on recombinations of real data
-/

namespace Dedalus.Spin

/-! ## Intertwiners -/

/-- Systems that may be factors of a direct product. -/
def Cs.separable : Cs → Prop
  | .spherical _ _ _ => False
  | _ => True

theorem vector_inv (cs : Cs) (h : cs.separable) {s : Nat} (hs : s < cs.dim) :
    ∃ A, cs.forwardVector s = some A ∧ cs.backwardVector s = some A.dag ∧ Inv cs.dim A A.dag ∧ Inv cs.dim A.dag A := by
  have he : ∀ n, Inv n (eye n) (eye n).dag ∧ Inv n (eye n).dag (eye n) := fun n => by rw [dag_eye]; exact ⟨inv_eye n, inv_eye n⟩
  cases cs with
  | coordinate c => exact ⟨eye 1, rfl, by rw [dag_eye]; rfl, he 1⟩
  | cartesian c => exact ⟨eye c.length, rfl, by rw [dag_eye]; rfl, he _⟩
  | s2 a c =>
    have : s = 0 ∨ s = 1 := by simp only [Cs.dim] at hs; omega
    rcases this with rfl | rfl
    · exact ⟨eye 2, rfl, by rw [dag_eye]; rfl, he 2⟩
    · exact ⟨uForward, rfl, rfl, inv_u⟩
  | polar a c =>
    have : s = 0 ∨ s = 1 := by simp only [Cs.dim] at hs; omega
    rcases this with rfl | rfl
    · exact ⟨eye 2, rfl, by rw [dag_eye]; rfl, he 2⟩
    · exact ⟨uForward, rfl, rfl, inv_u⟩
  | spherical a c r => exact absurd h id

theorem blk_tl {A B : Mat} {n m i j : Nat} (h : A.rows = n ∧ A.cols = m) (hi : i < n) (hj : j < m) : (blockCons A B).entry i j = A.entry i j := by
  simp only [blockCons, h.1, h.2]
  rw [if_pos ⟨hi, hj⟩]

theorem blk_br {A B : Mat} {n m i j : Nat} (h : A.rows = n ∧ A.cols = m) (hi : n ≤ i) (hj : m ≤ j) :
    (blockCons A B).entry i j = B.entry (i - n) (j - m) := by
  simp only [blockCons, h.1, h.2]
  rw [if_neg (by omega), if_pos ⟨hi, hj⟩]

theorem blk_off {A B : Mat} {n m i j : Nat} (h : A.rows = n ∧ A.cols = m) (h1 : ¬(i < n ∧ j < m)) (h2 : ¬(n ≤ i ∧ m ≤ j)) :
    (blockCons A B).entry i j = 0 := by
  simp only [blockCons, h.1, h.2]
  rw [if_neg h1, if_neg h2]

theorem dag_block (A B : Mat) : (blockCons A B).dag = blockCons A.dag B.dag := by
  have e : (blockCons A B).dag.entry = (blockCons A.dag B.dag).entry := by
    funext i j
    have e1 : (blockCons A B).dag.entry i j = (starRingEnd ℂ) ((blockCons A B).entry j i) := rfl
    rw [e1]
    by_cases h1 : j < A.rows ∧ i < A.cols
    · rw [blk_tl ⟨rfl, rfl⟩ h1.1 h1.2, @blk_tl A.dag B.dag A.cols A.rows i j ⟨rfl, rfl⟩ h1.2 h1.1]
      rfl
    · by_cases h2 : A.rows ≤ j ∧ A.cols ≤ i
      · rw [blk_br ⟨rfl, rfl⟩ h2.1 h2.2, @blk_br A.dag B.dag A.cols A.rows i j ⟨rfl, rfl⟩ h2.2 h2.1]
        rfl
      · rw [blk_off ⟨rfl, rfl⟩ h1 h2, @blk_off A.dag B.dag A.cols A.rows i j ⟨rfl, rfl⟩ (fun h => h1 h.symm) (fun h => h2 h.symm), map_zero]
  have e2 : ∀ X Y : Mat, X.rows = Y.rows → X.cols = Y.cols → X.entry = Y.entry → X = Y := by
    rintro ⟨_, _, _⟩ ⟨_, _, _⟩ rfl rfl rfl
    rfl
  exact e2 _ _ rfl rfl e

theorem eye_eq {n i j : Nat} : (eye n).entry i j = if i = j then 1 else 0 := rfl

theorem dag_blockDiag : ∀ As : List Mat, (blockDiag As).dag = blockDiag (As.map Mat.dag)
  | [] => by simp [blockDiag, Mat.dag]
  | A :: As => by rw [blockDiag, dag_block, dag_blockDiag As]; rfl

theorem factors_inv (subaxis : Nat) : ∀ (css : List Cs) (start : Nat), (∀ cs ∈ css, cs.separable) →
    ∃ As, productFactors Cs.forwardVector subaxis start css = some As ∧ productFactors Cs.backwardVector subaxis start css = some (As.map Mat.dag) ∧
      Inv (css.map Cs.dim).sum (blockDiag As) (blockDiag As).dag ∧ Inv (css.map Cs.dim).sum (blockDiag As).dag (blockDiag As)
  | [], start, _ => ⟨[], rfl, rfl, ⟨rfl, rfl, rfl, rfl, fun i hi => by simp at hi⟩, ⟨rfl, rfl, rfl, rfl, fun i hi => by simp at hi⟩⟩
  | cs :: rest, start, h => by
    obtain ⟨As, f1, f2, f3, f4⟩ := factors_inv subaxis rest (start + cs.dim) fun c hc => h c (List.mem_cons_of_mem _ hc)
    by_cases hc : start ≤ subaxis ∧ subaxis < start + cs.dim
    · obtain ⟨A, a1, a2, a3, a4⟩ := vector_inv cs (h cs List.mem_cons_self) (s := subaxis - start) (by omega)
      refine ⟨A :: As, ?_, ?_, ?_, ?_⟩
      · rw [productFactors, if_pos hc, a1, f1]; rfl
      · rw [productFactors, if_pos hc, a2, f2]; rfl
      · rw [blockDiag, dag_block, List.map_cons, List.sum_cons]; exact inv_block a3 f3
      · rw [blockDiag, dag_block, List.map_cons, List.sum_cons]; exact inv_block a4 f4
    · refine ⟨eye cs.dim :: As, ?_, ?_, ?_, ?_⟩
      · rw [productFactors, if_neg hc, f1]; rfl
      · rw [productFactors, if_neg hc, f2, List.map_cons, dag_eye]; rfl
      · rw [blockDiag, dag_block, List.map_cons, List.sum_cons, dag_eye]; exact inv_block (inv_eye _) f3
      · rw [blockDiag, dag_block, List.map_cons, List.sum_cons, dag_eye]; exact inv_block (inv_eye _) f4

/-- Indices that can be built. -/
def Index.wellFormed : Index → Prop
  | .single _ => True
  | .product css => ∀ cs ∈ css, cs.separable

/-- The axes with intertwiners that do not depend on the group. -/
def Index.groupFree : Index → Nat → Prop
  | .single (.spherical _ _ _), s => s < 2
  | ix, s => s < ix.dim

theorem index_inv (ix : Index) (h : ix.wellFormed) (s order : Nat) (hs : ix.groupFree s) :
    ∃ A, ix.forward s order = some A ∧ ix.backward s order = some A.dag ∧ Inv (ix.dim ^ order) A A.dag ∧ Inv (ix.dim ^ order) A.dag A := by
  have sep : ∀ cs : Cs, cs.separable → s < cs.dim → ∃ A, (cs.forwardVector s).map (fun A => nkron A order) = some A ∧
      (cs.backwardVector s).map (fun A => nkron A order) = some A.dag ∧ Inv (cs.dim ^ order) A A.dag ∧ Inv (cs.dim ^ order) A.dag A := by
    intro cs h1 h2
    obtain ⟨A, a1, a2, a3, a4⟩ := vector_inv cs h1 h2
    refine ⟨nkron A order, by rw [a1]; rfl, by rw [a2, dag_nkron]; rfl, ?_, ?_⟩
    · rw [dag_nkron]; exact inv_nkron a3 order
    · rw [dag_nkron]; exact inv_nkron a4 order
  cases ix with
  | single cs =>
    cases cs with
    | coordinate c => exact sep (.coordinate c) trivial hs
    | cartesian c => exact sep (.cartesian c) trivial hs
    | s2 a c => exact sep (.s2 a c) trivial hs
    | polar a c => exact sep (.polar a c) trivial hs
    | spherical a c r =>
      have hs : s < 2 := hs
      have : s = 0 ∨ s = 1 := by omega
      rcases this with rfl | rfl
      · refine ⟨eye (3 ^ order), rfl, by rw [dag_eye]; rfl, ?_, ?_⟩ <;> (rw [dag_eye]; exact inv_eye _)
      · refine ⟨nkron uSpherical order, rfl, rfl, ?_, ?_⟩
        · rw [dag_nkron]; exact inv_nkron inv_us.1 order
        · rw [dag_nkron]; exact inv_nkron inv_us.2 order
  | product css =>
    obtain ⟨As, f1, f2, f3, f4⟩ := factors_inv s css 0 h
    refine ⟨nkron (blockDiag As) order, by rw [Index.forward, f1]; rfl, ?_, ?_, ?_⟩
    · rw [Index.backward, f2, dag_nkron, dag_blockDiag]; rfl
    · rw [dag_nkron]; exact inv_nkron f3 order
    · rw [dag_nkron]; exact inv_nkron f4 order

/-! ## The pair of components that is recombined -/

/-- The identity with the spin transformation in rows `s` and `s + 1`. -/
noncomputable def pairMat (s n : Nat) : Mat := ⟨n, n, fun i j =>
  if (i = s ∨ i = s + 1) ∧ (j = s ∨ j = s + 1) then uForward.entry (i - s) (j - s) else if i = j then 1 else 0⟩

/-- The matrices agree in their `n × n` entries. -/
def Agree (n : Nat) (A B : Mat) : Prop := A.rows = n ∧ A.cols = n ∧ B.rows = n ∧ B.cols = n ∧ ∀ i < n, ∀ j < n, A.entry i j = B.entry i j

theorem agree_u : Agree 2 uForward (pairMat 0 2) := by
  refine ⟨rfl, rfl, rfl, rfl, fun i hi j hj => ?_⟩
  rw [pairMat]
  simp only
  rw [if_pos (by omega)]
  simp

theorem agree_us : Agree 3 uSpherical (pairMat 0 3) := by
  refine ⟨rfl, rfl, rfl, rfl, fun i hi j hj => ?_⟩
  have hi' : i = 0 ∨ i = 1 ∨ i = 2 := by omega
  have hj' : j = 0 ∨ j = 1 ∨ j = 2 := by omega
  rcases hi' with rfl | rfl | rfl <;> rcases hj' with rfl | rfl | rfl <;> simp [pairMat, uSpherical, uForward]

theorem pair_in {s n i j : Nat} (h : (i = s ∨ i = s + 1) ∧ (j = s ∨ j = s + 1)) : (pairMat s n).entry i j = uForward.entry (i - s) (j - s) := by
  simp only [pairMat]
  rw [if_pos h]

theorem pair_out {s n i j : Nat} (h : ¬((i = s ∨ i = s + 1) ∧ (j = s ∨ j = s + 1))) : (pairMat s n).entry i j = if i = j then 1 else 0 := by
  simp only [pairMat]
  rw [if_neg h]

theorem agree_block_left {m n : Nat} {A : Mat} (h : Agree n A (pairMat 0 n)) (hn : 2 ≤ n) : Agree (n + m) (blockCons A (eye m)) (pairMat 0 (n + m)) := by
  obtain ⟨a1, a2, _, _, a5⟩ := h
  refine ⟨by simp [blockCons, a1, eye], by simp [blockCons, a2, eye], rfl, rfl, fun i hi j hj => ?_⟩
  by_cases hc : i < n ∧ j < n
  · rw [blk_tl ⟨a1, a2⟩ hc.1 hc.2, a5 i hc.1 j hc.2]
    rfl
  · rw [pair_out (by omega)]
    by_cases hc2 : n ≤ i ∧ n ≤ j
    · rw [blk_br ⟨a1, a2⟩ hc2.1 hc2.2, eye_eq]
      by_cases hij : i = j
      · rw [if_pos hij, if_pos (by omega)]
      · rw [if_neg hij, if_neg (by omega)]
    · rw [blk_off ⟨a1, a2⟩ hc hc2, if_neg (by omega)]

theorem agree_block_right {m n s : Nat} {A : Mat} (h : Agree n A (pairMat s n)) : Agree (m + n) (blockCons (eye m) A) (pairMat (m + s) (m + n)) := by
  obtain ⟨a1, a2, _, _, a5⟩ := h
  refine ⟨by simp [blockCons, a1, eye], by simp [blockCons, a2, eye], rfl, rfl, fun i hi j hj => ?_⟩
  by_cases hc : i < m ∧ j < m
  · rw [blk_tl (n := m) (m := m) ⟨rfl, rfl⟩ hc.1 hc.2, pair_out (by omega), eye_eq]
  · by_cases hc2 : m ≤ i ∧ m ≤ j
    · rw [blk_br (n := m) (m := m) ⟨rfl, rfl⟩ hc2.1 hc2.2, a5 (i - m) (by omega) (j - m) (by omega)]
      by_cases hp : (i = m + s ∨ i = m + s + 1) ∧ (j = m + s ∨ j = m + s + 1)
      · rw [pair_in hp, pair_in (by omega), show i - m - s = i - (m + s) by omega, show j - m - s = j - (m + s) by omega]
      · rw [pair_out hp, pair_out (by omega)]
        by_cases hij : i = j
        · rw [if_pos hij, if_pos (by omega)]
        · rw [if_neg hij, if_neg (by omega)]
    · rw [blk_off (n := m) (m := m) ⟨rfl, rfl⟩ hc hc2, pair_out (by omega), if_neg (by omega)]

theorem agree_congr_right {n m : Nat} {A B B' : Mat} (hb : Agree m B B') {C : Mat} (h : Agree (n + m) (blockCons A B') C) (ha : A.rows = n ∧ A.cols = n) :
    Agree (n + m) (blockCons A B) C := by
  obtain ⟨b1, b2, b3, b4, b5⟩ := hb
  obtain ⟨c1, c2, c3, c4, c5⟩ := h
  refine ⟨by simp [blockCons, ha.1, b1], by simp [blockCons, ha.2, b2], c3, c4, fun i hi j hj => ?_⟩
  rw [← c5 i hi j hj]
  by_cases hc : i < n ∧ j < n
  · rw [blk_tl ha hc.1 hc.2, blk_tl ha hc.1 hc.2]
  · by_cases hc2 : n ≤ i ∧ n ≤ j
    · rw [blk_br ha hc2.1 hc2.2, blk_br ha hc2.1 hc2.2, b5 (i - n) (by omega) (j - n) (by omega)]
    · rw [blk_off ha hc hc2, blk_off ha hc hc2]

theorem agree_eye_block (n m : Nat) : Agree (n + m) (blockCons (eye n) (eye m)) (eye (n + m)) := by
  refine ⟨rfl, rfl, rfl, rfl, fun i hi j hj => ?_⟩
  rw [eye_eq]
  by_cases hc : i < n ∧ j < n
  · rw [blk_tl (n := n) (m := n) ⟨rfl, rfl⟩ hc.1 hc.2, eye_eq]
  · by_cases hc2 : n ≤ i ∧ n ≤ j
    · rw [blk_br (n := n) (m := n) ⟨rfl, rfl⟩ hc2.1 hc2.2, eye_eq]
      by_cases hij : i = j
      · rw [if_pos hij, if_pos (by omega)]
      · rw [if_neg hij, if_neg (by omega)]
    · rw [blk_off (n := n) (m := n) ⟨rfl, rfl⟩ hc hc2, if_neg (by omega)]

theorem eye_factors (subaxis : Nat) : ∀ (css : List Cs) (start : Nat), subaxis < start →
    ∃ As, productFactors Cs.forwardVector subaxis start css = some As ∧ Agree (css.map Cs.dim).sum (blockDiag As) (eye (css.map Cs.dim).sum)
  | [], _, _ => ⟨[], rfl, rfl, rfl, rfl, rfl, fun i hi => by simp at hi⟩
  | cs :: rest, start, h => by
    obtain ⟨As, f1, f2⟩ := eye_factors subaxis rest (start + cs.dim) (by omega)
    refine ⟨eye cs.dim :: As, ?_, ?_⟩
    · rw [productFactors, if_neg (by omega), f1]; rfl
    · rw [blockDiag, List.map_cons, List.sum_cons]
      exact agree_congr_right f2 (agree_eye_block _ _) ⟨rfl, rfl⟩

/-- The factor of a curvilinear pair. -/
def Cs.isPair (coord0 coord1 : Coord) : Cs → Prop
  | .s2 a c => a.eq coord0 = true ∧ c.eq coord1 = true
  | .polar a c => a.eq coord0 = true ∧ c.eq coord1 = true
  | _ => False

theorem pair_factors (coord0 coord1 : Coord) (cs : Cs) (post : List Cs) (hcs : cs.isPair coord0 coord1) : ∀ (pre : List Cs) (start : Nat),
    ∃ As, productFactors Cs.forwardVector (start + (pre.map Cs.dim).sum + 1) start (pre ++ cs :: post) = some As ∧
      Agree ((pre ++ cs :: post).map Cs.dim).sum (blockDiag As) (pairMat (pre.map Cs.dim).sum ((pre ++ cs :: post).map Cs.dim).sum)
  | [], start => by
    have hd : cs.dim = 2 := by cases cs <;> first | rfl | exact absurd hcs id
    have hf : cs.forwardVector 1 = some uForward := by cases cs <;> first | rfl | exact absurd hcs id
    obtain ⟨As, f1, f2⟩ := eye_factors (start + 1) post (start + cs.dim) (by omega)
    refine ⟨uForward :: As, ?_, ?_⟩
    · rw [List.nil_append, productFactors, if_pos (by simp [hd])]
      simp only [List.map_nil, List.sum_nil, Nat.add_zero]
      rw [show start + 1 - start = 1 by omega, hf, f1]
      rfl
    · rw [List.nil_append, blockDiag, List.map_cons, List.sum_cons, hd]
      exact agree_congr_right f2 (agree_block_left agree_u (le_refl 2)) ⟨rfl, rfl⟩
  | p :: pre, start => by
    obtain ⟨As, f1, f2⟩ := pair_factors coord0 coord1 cs post hcs pre (start + p.dim)
    refine ⟨eye p.dim :: As, ?_, ?_⟩
    · rw [List.cons_append, productFactors, List.map_cons, List.sum_cons, if_neg (by omega)]
      rw [show start + (p.dim + (pre.map Cs.dim).sum) + 1 = start + p.dim + (pre.map Cs.dim).sum + 1 by omega, f1]
      rfl
    · rw [List.cons_append, blockDiag, List.map_cons, List.sum_cons, List.map_cons, List.sum_cons]
      exact agree_block_right f2

/-- The index contains the pair of coordinates of the basis. -/
inductive Carries (coord0 coord1 : Coord) : Index → Prop
  | pair (cs : Cs) (h : cs.isPair coord0 coord1) : Carries coord0 coord1 (.single cs)
  | spherical (a c r : Coord) (ha : a.eq coord0 = true) (hc : c.eq coord1 = true) : Carries coord0 coord1 (.single (.spherical a c r))
  | product (pre : List Cs) (cs : Cs) (post : List Cs) (h : cs.isPair coord0 coord1) (hs : ∀ c ∈ pre ++ cs :: post, c.separable)
    (hpre : ∀ c ∈ pre.flatMap Cs.coords, c.eq coord0 = false ∧ c.eq coord1 = false) : Carries coord0 coord1 (.product (pre ++ cs :: post))

theorem index_append (c : Coord) (pre post : List Coord) (d : Coord) (h : ∀ x ∈ pre, x.eq c = false) (hd : d.eq c = true) :
    indexOf c (pre ++ d :: post) = some pre.length := by
  unfold indexOf
  induction pre with
  | nil => simp [List.findIdx?_cons, hd]
  | cons x pre ih =>
    rw [List.cons_append, List.findIdx?_cons, h x List.mem_cons_self]
    simp only [Bool.false_eq_true, if_false]
    rw [ih fun y hy => h y (List.mem_cons_of_mem _ hy)]
    rfl

theorem eq_azimuthal {c d : Coord} (h : c.eq d = true) : c.azimuthal = d.azimuthal := by
  unfold Coord.eq at h
  by_contra hc
  rw [if_neg hc] at h
  cases h

theorem ne_of_azimuthal {c d : Coord} (h : c.azimuthal ≠ d.azimuthal) : c.eq d = false := by
  unfold Coord.eq
  rw [if_neg h]

theorem coords_length (cs : Cs) : cs.coords.length = cs.dim := by cases cs <;> rfl

theorem flat_length (css : List Cs) : (css.flatMap Cs.coords).length = (css.map Cs.dim).sum := by
  induction css with
  | nil => rfl
  | cons c css ih => rw [List.flatMap_cons, List.length_append, ih, coords_length, List.map_cons, List.sum_cons]

theorem nkron_one (A : Mat) : nkron A 1 = A := rfl

theorem carries_index {coord0 coord1 : Coord} (h0 : coord0.azimuthal = true) (h1 : coord1.azimuthal = false) {ix : Index} (h : Carries coord0 coord1 ix) :
    ∃ s A, indexOf coord0 ix.coords = some s ∧ indexOf coord1 ix.coords = some (s + 1) ∧ s + 2 ≤ ix.dim ∧ ix.forward (s + 1) 1 = some A ∧
      Agree ix.dim A (pairMat s ix.dim) ∧ Inv ix.dim A A.dag ∧ Inv ix.dim A.dag A := by
  have two : ∀ (a c : Coord) (pre post : List Coord), a.eq coord0 = true → c.eq coord1 = true →
      (∀ x ∈ pre, x.eq coord0 = false ∧ x.eq coord1 = false) →
      indexOf coord0 (pre ++ a :: c :: post) = some pre.length ∧ indexOf coord1 (pre ++ a :: c :: post) = some (pre.length + 1) := by
    intro a c pre post ha hc hp
    refine ⟨index_append coord0 pre _ a (fun x hx => (hp x hx).1) ha, ?_⟩
    have e := index_append coord1 (pre ++ [a]) post c (fun x hx => by
      rcases List.mem_append.1 hx with hx | hx
      · exact (hp x hx).2
      · rw [List.mem_singleton.1 hx]
        exact ne_of_azimuthal (by rw [eq_azimuthal ha, h0, h1]; decide)) hc
    rw [List.append_assoc, List.singleton_append, List.length_append, List.length_singleton] at e
    exact e
  cases h with
  | pair cs h =>
    cases cs with
    | s2 a c =>
      obtain ⟨i1, i2⟩ := two a c [] [] h.1 h.2 (by simp)
      exact ⟨0, uForward, i1, i2, le_refl _, rfl, agree_u, inv_u⟩
    | polar a c =>
      obtain ⟨i1, i2⟩ := two a c [] [] h.1 h.2 (by simp)
      exact ⟨0, uForward, i1, i2, le_refl _, rfl, agree_u, inv_u⟩
    | coordinate c => exact absurd h id
    | cartesian c => exact absurd h id
    | spherical a c r => exact absurd h id
  | spherical a c r ha hc =>
    obtain ⟨i1, i2⟩ := two a c [] [r] ha hc (by simp)
    exact ⟨0, uSpherical, i1, i2, by simp [Index.dim, Cs.dim], rfl, agree_us, inv_us⟩
  | product pre cs post h hs hpre =>
    obtain ⟨As, f1, f2⟩ := pair_factors coord0 coord1 cs post h pre 0
    obtain ⟨As', g1, _, g3, g4⟩ := factors_inv ((pre.map Cs.dim).sum + 1) (pre ++ cs :: post) 0 hs
    rw [Nat.zero_add] at f1
    rw [f1] at g1
    cases g1
    have hd : cs.dim = 2 := by cases cs <;> first | rfl | exact absurd h id
    have hc : ∃ a c, cs.coords = [a, c] ∧ a.eq coord0 = true ∧ c.eq coord1 = true := by
      cases cs with
      | s2 a c => exact ⟨a, c, rfl, h.1, h.2⟩
      | polar a c => exact ⟨a, c, rfl, h.1, h.2⟩
      | coordinate c => exact absurd h id
      | cartesian c => exact absurd h id
      | spherical a c r => exact absurd h id
    obtain ⟨a, c, hac, ha, hc⟩ := hc
    obtain ⟨i1, i2⟩ := two a c (pre.flatMap Cs.coords) (post.flatMap Cs.coords) ha hc hpre
    have e : (Index.product (pre ++ cs :: post)).coords = pre.flatMap Cs.coords ++ a :: c :: post.flatMap Cs.coords := by
      rw [Index.coords, List.flatMap_append, List.flatMap_cons, hac]; rfl
    rw [flat_length] at i1 i2
    refine ⟨(pre.map Cs.dim).sum, blockDiag As, by rw [e]; exact i1, by rw [e]; exact i2, ?_, ?_, f2, g3, g4⟩
    · simp only [Index.dim, List.map_append, List.map_cons, List.sum_append, List.sum_cons, hd]
      omega
    · rw [Index.forward, f1]
      rfl

/-! ## Real data -/

/-- The complex coefficients encoded by pairs of real ones. -/
noncomputable def enc (u : RComps) (l : Nat) : Comps := fun t => u t (2 * l) + Complex.I * u t (2 * l + 1)

theorem apply_agree {n : Nat} {A B : Mat} (h : Agree n A B) {i x : Nat} (u : Comps) {t : List Nat} (ht : t[i]? = some x) (hx : x < n) :
    applyAxis A i u t = applyAxis B i u t := by
  obtain ⟨_, h2, _, h4, h5⟩ := h
  unfold applyAxis
  rw [h2, h4, ht]
  apply Finset.sum_congr rfl
  intro j hj
  rw [Option.getD_some, h5 x hx j (Finset.mem_range.1 hj)]

theorem sum_pair {s n : Nat} (hs : s + 2 ≤ n) (f : Nat → ℂ) (h : ∀ j < n, j ≠ s → j ≠ s + 1 → f j = 0) :
    ∑ j ∈ Finset.range n, f j = f s + f (s + 1) := by
  rw [← Finset.sum_subset (s₁ := {s, s + 1})]
  · rw [Finset.sum_pair (by omega)]
  · intro j hj
    simp only [Finset.mem_insert, Finset.mem_singleton] at hj
    rw [Finset.mem_range]
    omega
  · intro j hj hn
    simp only [Finset.mem_insert, Finset.mem_singleton, not_or] at hn
    exact h j (Finset.mem_range.1 hj) hn.1 hn.2

theorem apply_pair {s n : Nat} (hs : s + 2 ≤ n) {i x : Nat} (u : Comps) {t : List Nat} (ht : t[i]? = some x) (hx : x < n) :
    applyAxis (pairMat s n) i u t =
      if x = s then (u (t.set i (s + 1)) - Complex.I * u (t.set i s)) / (√2 : ℝ)
      else if x = s + 1 then (u (t.set i (s + 1)) + Complex.I * u (t.set i s)) / (√2 : ℝ) else u t := by
  unfold applyAxis
  rw [ht]
  simp only [Option.getD_some, pairMat]
  by_cases h1 : x = s
  · subst h1
    rw [if_pos rfl, sum_pair hs]
    · simp [uForward]; ring
    · intro j _ hj1 hj2
      rw [if_neg (by omega), if_neg (Ne.symm hj1), zero_mul]
  · rw [if_neg h1]
    by_cases h2 : x = s + 1
    · subst h2
      rw [if_pos rfl, sum_pair hs]
      · simp [uForward]; ring
      · intro j _ hj1 hj2
        rw [if_neg (by omega), if_neg (Ne.symm hj2), zero_mul]
    · rw [if_neg h2, Finset.sum_eq_single_of_mem x (Finset.mem_range.2 hx)]
      · rw [if_neg (by omega), if_pos rfl, one_mul, set_get ht]
      · intro j _ hj
        rw [if_neg (by omega), if_neg (Ne.symm hj), zero_mul]

theorem apply_pair_dag {s n : Nat} (hs : s + 2 ≤ n) {i x : Nat} (u : Comps) {t : List Nat} (ht : t[i]? = some x) (hx : x < n) :
    applyAxis (pairMat s n).dag i u t =
      if x = s then (Complex.I * u (t.set i s) - Complex.I * u (t.set i (s + 1))) / (√2 : ℝ)
      else if x = s + 1 then (u (t.set i s) + u (t.set i (s + 1))) / (√2 : ℝ) else u t := by
  unfold applyAxis
  rw [ht]
  simp only [Option.getD_some, pairMat, Mat.dag]
  by_cases h1 : x = s
  · subst h1
    rw [if_pos rfl, sum_pair hs]
    · simp [uForward, Complex.conj_ofReal]; ring
    · intro j _ hj1 hj2
      rw [if_neg (by omega), if_neg hj1]; simp
  · rw [if_neg h1]
    by_cases h2 : x = s + 1
    · subst h2
      rw [if_pos rfl, sum_pair hs]
      · simp [uForward, Complex.conj_ofReal]; ring
      · intro j _ hj1 hj2
        rw [if_neg (by omega), if_neg hj2]; simp
    · rw [if_neg h2, Finset.sum_eq_single_of_mem x (Finset.mem_range.2 hx)]
      · rw [if_neg (by omega), if_pos rfl, map_one, one_mul, set_get ht]
      · intro j _ hj
        rw [if_neg (by omega), if_neg hj]; simp

theorem recombine_forward {s n M i l x : Nat} (hs : s + 2 ≤ n) (hl : l < M / 2) (u out : RComps) {t : List Nat} (ht : t[i]? = some x) (hx : x < n) :
    enc (recombineForward s M i u out) l t = applyAxis (pairMat s n) i (enc u l) t := by
  rw [apply_pair hs _ ht hx]
  have e0 : 2 * l % 2 = 0 := by omega
  have e1 : ¬(2 * l + 1) % 2 = 0 := by omega
  have l0 : 2 * l < 2 * (M / 2) := by omega
  have l1 : 2 * l + 1 < 2 * (M / 2) := by omega
  by_cases h1 : x = s
  · subst h1
    rw [if_pos rfl]
    simp only [enc, recombineForward, ht, Option.getD_some, lt_irrefl, if_false, Nat.lt_add_of_pos_right, if_true, l0, l1, e0, e1, invsqr2, show x < x + 2 by omega, Nat.add_sub_cancel]
    push_cast
    have hI : Complex.I * Complex.I = -1 := Complex.I_mul_I
    field_simp
    linear_combination (((u (t.set i x) (2 * l + 1) : ℝ) : ℂ)) * hI
  · by_cases h2 : x = s + 1
    · subst h2
      rw [if_neg h1, if_pos rfl]
      simp only [enc, recombineForward, ht, Option.getD_some, if_false, if_true, l0, l1, e0, e1, invsqr2, show s + 1 < s + 2 by omega, show ¬s + 1 < s by omega, show ¬s + 1 = s by omega, Nat.add_sub_cancel]
      push_cast
      have hI : Complex.I * Complex.I = -1 := Complex.I_mul_I
      field_simp
      linear_combination (((u (t.set i s) (2 * l + 1) : ℝ) : ℂ)) * (-hI)
    · rw [if_neg h1, if_neg h2]
      simp only [enc, recombineForward, ht, Option.getD_some]
      by_cases h3 : x < s
      · simp [h3]
      · simp [h3, show ¬x < s + 2 by omega]

theorem recombine_backward {s n M i l x : Nat} (hs : s + 2 ≤ n) (hl : l < M / 2) (u out : RComps) {t : List Nat} (ht : t[i]? = some x) (hx : x < n) :
    enc (recombineBackward s M i u out) l t = applyAxis (pairMat s n).dag i (enc u l) t := by
  rw [apply_pair_dag hs _ ht hx]
  have e0 : 2 * l % 2 = 0 := by omega
  have e1 : ¬(2 * l + 1) % 2 = 0 := by omega
  have l0 : 2 * l < 2 * (M / 2) := by omega
  have l1 : 2 * l + 1 < 2 * (M / 2) := by omega
  by_cases h1 : x = s
  · subst h1
    rw [if_pos rfl]
    simp only [enc, recombineBackward, ht, Option.getD_some, lt_irrefl, if_false, if_true, l0, l1, e0, e1, invsqr2, show x < x + 2 by omega, Nat.add_sub_cancel]
    push_cast
    have hI : Complex.I * Complex.I = -1 := Complex.I_mul_I
    field_simp
    linear_combination (((u (t.set i (x + 1)) (2 * l + 1) : ℝ) : ℂ) - (u (t.set i x) (2 * l + 1) : ℝ)) * hI
  · by_cases h2 : x = s + 1
    · subst h2
      rw [if_neg h1, if_pos rfl]
      simp only [enc, recombineBackward, ht, Option.getD_some, if_false, if_true, l0, l1, e0, e1, invsqr2, show s + 1 < s + 2 by omega, show ¬s + 1 < s by omega, show ¬s + 1 = s by omega, Nat.add_sub_cancel]
      push_cast
      field_simp
      ring
    · rw [if_neg h1, if_neg h2]
      simp only [enc, recombineBackward, ht, Option.getD_some]
      by_cases h3 : x < s
      · simp [h3]
      · simp [h3, show ¬x < s + 2 by omega]

/-- The loop over the factors of real data follows the loop over the factors of complex data. -/
theorem real_loop (F : Mat → Mat) (hF : ∀ A, A.cols = A.rows → (F A).cols = A.rows) (coord0 coord1 : Coord)
    (h0 : coord0.azimuthal = true) (h1 : coord1.azimuthal = false) (M l : Nat) (hl : l < M / 2)
    (step : Nat → Nat → RComps → RComps → RComps)
    (hstep : ∀ (A : Mat) (s n i x : Nat) (u out : RComps) (t : List Nat), s + 2 ≤ n → Agree n A (pairMat s n) → t[i]? = some x → x < n →
      enc (step s i u out) l t = applyAxis (F A) i (enc u l) t)
    (dims : List Nat) :
    ∀ (sig : List Index) (fs : List (Option Mat)) (i n : Nat) (g o : RComps),
      (∀ ix ∈ sig, indexOf coord1 ix.coords = none ∨ Carries coord0 coord1 ix) → factors coord1 sig = some fs →
      (∀ k ix, sig[k]? = some ix → dims[i + k]? = some ix.dim) →
      Shapes dims i fs ∧ ∃ n' g' o', realLoop step coord0 i n sig fs g o = some (n', g', o') ∧
        ∀ t, Valid dims t → enc (if n' % 2 = 0 then g' else o') l t = along F i fs (enc (if n % 2 = 0 then g else o) l) t
  | [], fs, i, n, g, o, _, hf, _ => by
    cases hf
    exact ⟨trivial, n, g, o, rfl, fun t _ => rfl⟩
  | ix :: sig, fs, i, n, g, o, hix, hf, hd => by
    have hd' : ∀ k c, sig[k]? = some c → dims[i + 1 + k]? = some c.dim := fun k c h => by
      rw [← hd (k + 1) c h]; congr 1; omega
    have hix' : ∀ ix ∈ sig, indexOf coord1 ix.coords = none ∨ Carries coord0 coord1 ix := fun c hc => hix c (List.mem_cons_of_mem _ hc)
    have hdi : dims[i]? = some ix.dim := hd 0 ix rfl
    cases hfs : factors coord1 sig with
    | none =>
      rw [factors, hfs] at hf
      exfalso
      revert hf
      cases (match indexOf coord1 ix.coords with | some subaxis => (ix.forward subaxis 1).map some | none => some none) <;> simp
    | some fs' =>
      rcases hix ix List.mem_cons_self with hn | hc
      · rw [factors, hn, hfs] at hf
        cases hf
        obtain ⟨hsh, n', g', o', r1, r2⟩ := real_loop F hF coord0 coord1 h0 h1 M l hl step hstep dims sig fs' (i + 1) n g o hix' hfs hd'
        exact ⟨hsh, n', g', o', by rw [realLoop]; exact r1, fun t ht => by rw [r2 t ht, along]⟩
      · obtain ⟨s, A, i1, i2, hs, hA, hag, hinv, _⟩ := carries_index h0 h1 hc
        rw [factors, i2, hfs] at hf
        simp only [hA] at hf
        cases hf
        have hrow : A.rows = ix.dim := hinv.1
        have hcol : A.cols = ix.dim := hinv.2.1
        have key : ∀ (u out : RComps) (t : List Nat), Valid dims t → enc (step s i u out) l t = applyAxis (F A) i (enc u l) t := by
          intro u out t ht
          obtain ⟨x, hx1, hx2⟩ := valid_get ht hdi
          exact hstep A s ix.dim i x u out t hs hag hx1 hx2
        by_cases hpar : n % 2 = 0
        · obtain ⟨hsh, n', g', o', r1, r2⟩ := real_loop F hF coord0 coord1 h0 h1 M l hl step hstep dims sig fs' (i + 1) (n + 1) g (step s i g o) hix' hfs hd'
          refine ⟨⟨by rw [hrow]; exact hdi, by rw [hcol, hrow], hsh⟩, n', g', o', ?_, fun t ht => ?_⟩
          · rw [realLoop, i1]
            simp only [Option.bind_some, if_pos hpar]
            exact r1
          · rw [r2 t ht, along, if_neg (by omega), if_pos hpar]
            exact along_congr F hF dims fs' (i + 1) _ _ hsh (fun t ht => key g o t ht) t ht
        · obtain ⟨hsh, n', g', o', r1, r2⟩ := real_loop F hF coord0 coord1 h0 h1 M l hl step hstep dims sig fs' (i + 1) (n + 1) (step s i o g) o hix' hfs hd'
          refine ⟨⟨by rw [hrow]; exact hdi, by rw [hcol, hrow], hsh⟩, n', g', o', ?_, fun t ht => ?_⟩
          · rw [realLoop, i1]
            simp only [Option.bind_some, if_neg hpar]
            exact r1
          · rw [r2 t ht, along, if_pos (by omega), if_neg hpar]
            exact along_congr F hF dims fs' (i + 1) _ _ hsh (fun t ht => key o g t ht) t ht

end Dedalus.Spin
