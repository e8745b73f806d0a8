import Verif.Ghost.Lemmas
import Mathlib.Tactic.FinCases

/-! # C96: products of fields on several processes -/

namespace Dedalus.Ghost
open Dist Spec

variable {V : Type}

theorem take_append_index {t u ts : List Nat} (h : Index t ts) : (t ++ u).take ts.length = t ∧ (t ++ u).drop ts.length = u := by
  rw [← h.length_eq]
  simp

theorem index_split {t ts us : List Nat} (h : Index t (ts ++ us)) : Index (t.take ts.length) ts ∧ Index (t.drop ts.length) us := by
  unfold Index at h ⊢
  exact ⟨by simpa using List.forall₂_take ts.length h, by simpa using List.forall₂_drop ts.length h⟩

theorem clip_ones (n : Nat) (i : List Nat) (h : n = i.length) : (clip (List.replicate n 1) i).length = n := by
  simp [clip, h]

/-- C96. The product of two tensor fields on every process of every mesh: after any number of earlier evaluations, on any grids, the operation succeeds and
gives the part of the product of the whole fields that belongs to the process. `axes` has the length of the mesh along each distributed axis
and `none` for local axes; `c0`, `c1`, `o` are the flags of constant axes, and `ns0`, `ns1`, `Ns` the grid sizes, of the arguments and the product. -/
theorem product_on_processes [Mul V] {axes : List (Option Nat)} (hm : ∀ m, some m ∈ axes → 0 < m) {c0 c1 o : List Bool} {ns0 ns1 Ns : List Nat}
    (hl0 : axes.length = c0.length) (hl1 : axes.length = c1.length) (hc0 : Compatible c0 ns0 o Ns) (hc1 : Compatible c1 ns1 o Ns)
    (ts0 ts1 : List Nat) (G0 G1 : List Nat → List Nat → V) {data0 data1 : Coords → Arr V}
    (h0 : ∀ q, Valid (axes.filterMap id) q → ∃ E, elements axes ns0 c0 q = some E ∧ Holds ts0 E G0 (data0 q).shape (data0 q).val)
    (h1 : ∀ q, Valid (axes.filterMap id) q → ∃ E, elements axes ns1 c1 q = some E ∧ Holds ts1 E G1 (data1 q).shape (data1 q).val)
    (calls0 calls1 : List (Coords → List Nat)) (hs0 : ∀ s ∈ calls0, IsCall axes ts0 c0 o s) (hs1 : ∀ s ∈ calls1, IsCall axes ts1 c1 o s)
    (junk0 junk1 : Coords → List Nat → V) {p : Coords} (hp : Valid (axes.filterMap id) p) :
    ∃ E out, elements axes Ns o p = some E ∧
      multiply ts0.length ts1.length (ts0 ++ ts1 ++ E.map List.length)
        ((broadcaster axes o c0).cast ((broadcaster axes o c0).after calls0) junk0 data0 p)
        ((broadcaster axes o c1).cast ((broadcaster axes o c1).after calls1) junk1 data1 p) = some out ∧
      Holds (ts0 ++ ts1) E (outer ts0.length c0 c1 G0 G1) out.shape out.val := by
  obtain ⟨E, _, hE, -⟩ := core axes hm c0 ns0 o Ns hl0 hc0 p hp.length_eq
  obtain ⟨ls0, a1, a2, a3, a4⟩ := cast_values hm hl0 hc0 G0 h0 calls0 hs0 junk0 hp hE
  obtain ⟨ls1, b1, b2, b3, b4⟩ := cast_values hm hl1 hc1 G1 h1 calls1 hs1 junk1 hp hE
  generalize (broadcaster axes o c0).cast ((broadcaster axes o c0).after calls0) junk0 data0 p = A at *
  generalize (broadcaster axes o c1).cast ((broadcaster axes o c1).after calls1) junk1 data1 p = B at *
  have eA : (expandFirst ts0.length ts1.length A).shape = ts0 ++ (List.replicate ts1.length 1 ++ ls0) := by
    simp [expandFirst, a1]
  have eB : (expandSecond ts0.length B).shape = List.replicate ts0.length 1 ++ (ts1 ++ ls1) := by
    simp [expandSecond, b1]
  have fA : fits (expandFirst ts0.length ts1.length A).shape (ts0 ++ ts1 ++ E.map List.length) = true := by
    rw [eA, List.append_assoc, fits_append (fits_self ts0), fits_append (fits_ones ts1), a2]
  have fB : fits (expandSecond ts0.length B).shape (ts0 ++ ts1 ++ E.map List.length) = true := by
    rw [eB, List.append_assoc, fits_append (fits_ones ts0), fits_append (fits_self ts1), b2]
  refine ⟨E, _, hE, by unfold multiply npMultiply; rw [fA, fB]; rfl, rfl, ?_⟩
  intro t i g ht hi
  obtain ⟨hu, hv⟩ := index_split ht
  obtain ⟨u, v, rfl, hu', hv'⟩ : ∃ u v, t = u ++ v ∧ Index u ts0 ∧ Index v ts1 := ⟨_, _, (List.take_append_drop _ t).symm, hu, hv⟩
  have il : i.length = E.length := (at_lengths hi).1
  rw [eA, eB]
  dsimp only
  have lu : ts0.length = u.length := hu'.length_eq.symm
  have lv : ts1.length = v.length := hv'.length_eq.symm
  have x1 : clip (ts0 ++ (List.replicate ts1.length 1 ++ ls0)) (u ++ v ++ i) = u ++ (clip (List.replicate ts1.length 1) v ++ clip ls0 i) := by
    rw [List.append_assoc, clip_append lu, clip_append (by simpa using lv), clip_index hu']
  have x2 : clip (List.replicate ts0.length 1 ++ (ts1 ++ ls1)) (u ++ v ++ i) = clip (List.replicate ts0.length 1) u ++ (v ++ clip ls1 i) := by
    rw [List.append_assoc, clip_append (by simpa using lu), clip_append lv, clip_index hv']
  rw [x1, x2]
  have y1 : (expandFirst ts0.length ts1.length A).val (u ++ (clip (List.replicate ts1.length 1) v ++ clip ls0 i)) = A.val (u ++ clip ls0 i) := by
    show A.val _ = _
    congr 1
    rw [← List.drop_drop, lu, List.take_left, List.drop_left]
    congr 1
    exact List.drop_left' (clip_ones ts1.length v lv)
  have y2 : (expandSecond ts0.length B).val (clip (List.replicate ts0.length 1) u ++ (v ++ clip ls1 i)) = B.val (v ++ clip ls1 i) := by
    show B.val _ = _
    congr 1
    exact List.drop_left' (clip_ones ts0.length u lu)
  rw [y1, y2, a4 u i g hu' hi, b4 v i g hv' hi]
  unfold outer
  rw [lu, List.take_left, List.drop_left]

/-- C96. Scalar products and other contractions of tensor fields on every process of every mesh: as `product_on_processes`, for the contraction of index
`j0` of the first and index `j1` of the second tensor. -/
theorem contraction_on_processes [NonUnitalNonAssocSemiring V] {axes : List (Option Nat)} (hm : ∀ m, some m ∈ axes → 0 < m) {c0 c1 o : List Bool}
    {ns0 ns1 Ns : List Nat}
    (hl0 : axes.length = c0.length) (hl1 : axes.length = c1.length) (hc0 : Compatible c0 ns0 o Ns) (hc1 : Compatible c1 ns1 o Ns)
    (us0 us1 : List Nat) (j0 j1 d : Nat) (hj0 : j0 ≤ us0.length) (hj1 : j1 ≤ us1.length) (G0 G1 : List Nat → List Nat → V)
    {data0 data1 : Coords → Arr V}
    (h0 : ∀ q, Valid (axes.filterMap id) q →
      ∃ E, elements axes ns0 c0 q = some E ∧ Holds (us0.insertIdx j0 d) E G0 (data0 q).shape (data0 q).val)
    (h1 : ∀ q, Valid (axes.filterMap id) q →
      ∃ E, elements axes ns1 c1 q = some E ∧ Holds (us1.insertIdx j1 d) E G1 (data1 q).shape (data1 q).val)
    (calls0 calls1 : List (Coords → List Nat)) (hs0 : ∀ s ∈ calls0, IsCall axes (us0.insertIdx j0 d) c0 o s)
    (hs1 : ∀ s ∈ calls1, IsCall axes (us1.insertIdx j1 d) c1 o s)
    (junk0 junk1 : Coords → List Nat → V) {p : Coords} (hp : Valid (axes.filterMap id) p) :
    ∃ E out, elements axes Ns o p = some E ∧
      dot (us0.length + 1) (us1.length + 1) j0 j1 d (us0 ++ us1 ++ E.map List.length)
        ((broadcaster axes o c0).cast ((broadcaster axes o c0).after calls0) junk0 data0 p)
        ((broadcaster axes o c1).cast ((broadcaster axes o c1).after calls1) junk1 data1 p) = some out ∧
      Holds (us0 ++ us1) E (contraction (us0.length + 1) j0 j1 d c0 c1 G0 G1) out.shape out.val := by
  obtain ⟨E, _, hE, -⟩ := core axes hm c0 ns0 o Ns hl0 hc0 p hp.length_eq
  obtain ⟨ls0, a1, a2, a3, a4⟩ := cast_values hm hl0 hc0 G0 h0 calls0 hs0 junk0 hp hE
  obtain ⟨ls1, b1, b2, b3, b4⟩ := cast_values hm hl1 hc1 G1 h1 calls1 hs1 junk1 hp hE
  generalize (broadcaster axes o c0).cast ((broadcaster axes o c0).after calls0) junk0 data0 p = A at *
  generalize (broadcaster axes o c1).cast ((broadcaster axes o c1).after calls1) junk1 data1 p = B at *
  have len0 : (us0.insertIdx j0 d).length = us0.length + 1 := List.length_insertIdx_of_le_length hj0 _
  have len1 : (us1.insertIdx j1 d).length = us1.length + 1 := List.length_insertIdx_of_le_length hj1 _
  have eA : ellipsis (us0.length + 1) A.shape = ls0 := by
    unfold ellipsis; rw [a1, ← len0, List.drop_left]
  have eB : ellipsis (us1.length + 1) B.shape = ls1 := by
    unfold ellipsis; rw [b1, ← len1, List.drop_left]
  have eO : ellipsis (us0.length + 1 - 1 + (us1.length + 1 - 1)) (us0 ++ us1 ++ E.map List.length) = E.map List.length := by
    unfold ellipsis
    rw [Nat.add_sub_cancel, Nat.add_sub_cancel, ← List.length_append, List.drop_left]
  by_cases hz : (us0 ++ us1 ++ E.map List.length).prod = 0
  · refine ⟨E, _, hE, by unfold dot; rw [if_pos hz], rfl, ?_⟩
    intro t i g ht hi
    exact absurd hz (by rw [List.prod_append]; exact Nat.mul_ne_zero (index_prod ht) (at_lengths hi).2)
  refine ⟨E, _, hE, by unfold dot; simp only [eO, eA, eB, a2, b2, if_neg hz]; rfl, rfl, ?_⟩
  intro t i g ht hi
  obtain ⟨hu, hv⟩ := index_split ht
  obtain ⟨u, v, rfl, hu', hv'⟩ : ∃ u v, t = u ++ v ∧ Index u us0 ∧ Index v us1 := ⟨_, _, (List.take_append_drop _ t).symm, hu, hv⟩
  have lu : us0.length = u.length := hu'.length_eq.symm
  have lv : us1.length = v.length := hv'.length_eq.symm
  have ins : ∀ {u us : List Nat} (j z : Nat), Index u us → z < d → Index (u.insertIdx j z) (us.insertIdx j d) := by
    intro u us j z h hz
    unfold Index at h ⊢
    induction j generalizing u us with
    | zero => simpa using ⟨hz, h⟩
    | succ j ih =>
      cases h with
      | nil => simp
      | cons h1 h2 => simpa using ⟨h1, ih h2⟩
  dsimp only
  unfold contraction
  have e1 : us0.length + 1 - 1 = us0.length := by omega
  have e2 : us1.length + 1 - 1 = us1.length := by omega
  rw [e1, e2, ← List.length_append]
  have e3 : (us0 ++ us1).length = (u ++ v).length := by simp [lu, lv]
  rw [e3, List.take_left, List.drop_left, lu, List.take_left, List.drop_left]
  refine Finset.sum_congr rfl fun z hz => ?_
  have hz' := Finset.mem_range.1 hz
  rw [a4 _ i g (ins j0 z hu' hz') hi, b4 _ i g (ins j1 z hv' hz') hi]

/-- C96. Cross products of vector fields on every process of every mesh. -/
theorem cross_on_processes [Ring V] (rightHanded : Bool) {axes : List (Option Nat)} (hm : ∀ m, some m ∈ axes → 0 < m) {c0 c1 o : List Bool}
    {ns0 ns1 Ns : List Nat}
    (hl0 : axes.length = c0.length) (hl1 : axes.length = c1.length) (hc0 : Compatible c0 ns0 o Ns) (hc1 : Compatible c1 ns1 o Ns)
    (G0 G1 : List Nat → List Nat → V) {data0 data1 : Coords → Arr V}
    (h0 : ∀ q, Valid (axes.filterMap id) q → ∃ E, elements axes ns0 c0 q = some E ∧ Holds [3] E G0 (data0 q).shape (data0 q).val)
    (h1 : ∀ q, Valid (axes.filterMap id) q → ∃ E, elements axes ns1 c1 q = some E ∧ Holds [3] E G1 (data1 q).shape (data1 q).val)
    (calls0 calls1 : List (Coords → List Nat)) (hs0 : ∀ s ∈ calls0, IsCall axes [3] c0 o s) (hs1 : ∀ s ∈ calls1, IsCall axes [3] c1 o s)
    (junk0 junk1 : Coords → List Nat → V) {p : Coords} (hp : Valid (axes.filterMap id) p) :
    ∃ E out, elements axes Ns o p = some E ∧
      cross rightHanded (E.map List.length)
        ((broadcaster axes o c0).cast ((broadcaster axes o c0).after calls0) junk0 data0 p)
        ((broadcaster axes o c1).cast ((broadcaster axes o c1).after calls1) junk1 data1 p) = some out ∧
      Holds [3] E (crossProduct rightHanded c0 c1 G0 G1) out.shape out.val := by
  obtain ⟨E, _, hE, -⟩ := core axes hm c0 ns0 o Ns hl0 hc0 p hp.length_eq
  obtain ⟨ls0, a1, a2, a3, a4⟩ := cast_values hm hl0 hc0 G0 h0 calls0 hs0 junk0 hp hE
  obtain ⟨ls1, b1, b2, b3, b4⟩ := cast_values hm hl1 hc1 G1 h1 calls1 hs1 junk1 hp hE
  generalize (broadcaster axes o c0).cast ((broadcaster axes o c0).after calls0) junk0 data0 p = A at *
  generalize (broadcaster axes o c1).cast ((broadcaster axes o c1).after calls1) junk1 data1 p = B at *
  have eA : A.shape.drop 1 = ls0 := by rw [a1]; rfl
  have eB : B.shape.drop 1 = ls1 := by rw [b1]; rfl
  refine ⟨E, _, hE, by unfold cross; rw [eA, eB, a2, b2]; rfl, rfl, ?_⟩
  intro t i g ht hi
  cases ht with
  | cons hk hr =>
  cases hr
  rename_i k
  have x : ∀ j, j < 3 → A.val (j :: clip ls0 i) = G0 [j] (restrict c0 g) := fun j hj => a4 [j] i g (.cons hj .nil) hi
  have y : ∀ j, j < 3 → B.val (j :: clip ls1 i) = G1 [j] (restrict c1 g) := fun j hj => b4 [j] i g (.cons hj .nil) hi
  unfold crossProduct
  have x0 := x 0 (by decide); have x1 := x 1 (by decide); have x2 := x 2 (by decide)
  have y0 := y 0 (by decide); have y1 := y 1 (by decide); have y2 := y 2 (by decide)
  have hk' : k = 0 ∨ k = 1 ∨ k = 2 := by omega
  rcases hk' with rfl | rfl | rfl <;> cases rightHanded <;>
    simp [Finset.sum_range_succ, levi, x0, x1, x2, y0, y1, y2, sub_eq_add_neg, add_comm]

/-- C96. In every sequence of evaluations, on any grids, all processes that take part in a broadcast make the same collective calls with the same amount of data
in the same order: there is no deadlock, although every process consults its own cache. -/
theorem collectives_agree {axes : List (Option Nat)} {ts : List Nat} {c o : List Bool} (hl : axes.length = c.length) (hlo : c.length = o.length)
    (calls : List (Coords → List Nat)) (hc : ∀ s ∈ calls, IsCall axes ts c o s) {p q : Coords}
    (hp : Valid (axes.filterMap id) p) (hq : Valid (axes.filterMap id) q) (hg : SameGroup (broadcaster axes o c).deploy p q) :
    (broadcaster axes o c).trace p (fun _ => []) calls = (broadcaster axes o c).trace q (fun _ => []) calls :=
  trace_eq hl hlo hp hq hg calls hc (Inv.empty _) (by simp)

/-! ## Fields on bases -/

/-- The number of axes of a basis. -/
def Basis.dim (b : Basis) : Nat := b.shape.length

/-- The basis of an argument in a product with basis `z`: the same numbers of modes, or one mode along an azimuth, or along a colatitude of a ball or shell; or
a radial basis in a product with a ball or shell; or none. -/
def Suitable : Option Basis → Option Basis → Prop
  | none, _ => True
  | some (.interval n), some (.interval m) => n = m
  | some (.polar a b), some (.polar a' b') => (a = a' ∨ a = 1) ∧ b = b'
  | some (.sphere a b), some (.sphere a' b') => (a = a' ∨ a = 1) ∧ b = b'
  | some (.radial n), some (.radial m) => n = m
  | some (.radial n), some (.volume _ _ c) => n = c
  | some (.volume a b c), some (.volume a' b' c') => (a = a' ∨ a = 1) ∧ (b = b' ∨ b = 1) ∧ c = c'
  | _, _ => False

/-- Not two (and not zero) azimuthal modes in a disk or annulus or on a sphere. -/
def ProperAzimuth : Option Basis → Prop
  | some (.polar a _) => a ≠ 0 ∧ a ≠ 2
  | some (.sphere a _) => a ≠ 0 ∧ a ≠ 2
  | _ => True

theorem compatible_append {c c' : List Bool} {ns ns' : List Nat} {o o' : List Bool} {Ns Ns' : List Nat} (h : Compatible c ns o Ns)
    (h' : Compatible c' ns' o' Ns') : Compatible (c ++ c') (ns ++ ns') (o ++ o') (Ns ++ Ns') := by
  induction c generalizing ns o Ns with
  | nil => cases ns <;> cases o <;> cases Ns <;> simp only [Compatible] at h; exact h'
  | cons c cs ih =>
    cases ns <;> cases o <;> cases Ns <;> simp only [Compatible] at h
    exact ⟨h.1, ih h.2⟩

/-- The flags and sizes of one coordinate system. -/
def systemConstant (d : Nat) (b : Option Basis) : List Bool := match b with
  | none => List.replicate d true
  | some b => b.constant

def systemShape (d : Nat) (b : Option Basis) (s : List ℚ) : List Nat := match b with
  | none => List.replicate d 1
  | some b => b.gridShape s

theorem mmax_one {a : Nat} (h : a ≠ 0 ∧ a ≠ 2) (h' : (a - 1) / 2 = 0) : a = 1 := by omega

theorem system_none (d : Nat) (z : Option Basis) (hz : ∀ b, z = some b → b.dim = d) (hp : ProperAzimuth z) (s : List ℚ) (hs : s.length = d) :
    Compatible (List.replicate d true) (List.replicate d 1) (systemConstant d z) (systemShape d z s) := by
  cases z with
  | none =>
    clear hz hs
    show Compatible _ _ (List.replicate d true) (List.replicate d 1)
    induction d with
    | zero => exact trivial
    | succ d ih => exact ⟨Or.inl ⟨rfl, rfl, fun _ => rfl⟩, ih⟩
  | some b =>
    have hd := hz b rfl
    have g1 : ∀ q : ℚ, gridSize q 1 = 1 := fun q => if_pos rfl
    cases b <;> simp only [Basis.dim, Basis.shape, List.length_cons, List.length_nil] at hd <;> subst hd
    case interval n =>
      obtain ⟨q, rfl⟩ := List.length_eq_one_iff.1 hs
      exact ⟨Or.inl ⟨rfl, rfl, fun h => by simp at h⟩, trivial⟩
    case polar a b =>
      obtain ⟨q, r, rfl⟩ := List.length_eq_two.1 hs
      refine ⟨Or.inl ⟨rfl, rfl, fun h => ?_⟩, Or.inl ⟨rfl, rfl, fun h => by simp at h⟩, trivial⟩
      rw [mmax_one hp (of_decide_eq_true h), g1]
    case sphere a b =>
      obtain ⟨q, r, rfl⟩ := List.length_eq_two.1 hs
      refine ⟨Or.inl ⟨rfl, rfl, fun h => ?_⟩, Or.inl ⟨rfl, rfl, fun h => by simp at h⟩, trivial⟩
      rw [mmax_one hp (of_decide_eq_true h), g1]
    case radial n =>
      obtain ⟨q, r, t, rfl⟩ := List.length_eq_three.1 hs
      exact ⟨Or.inl ⟨rfl, rfl, fun _ => g1 q⟩, Or.inl ⟨rfl, rfl, fun _ => g1 r⟩, Or.inl ⟨rfl, rfl, fun h => by simp at h⟩, trivial⟩
    case volume a b c =>
      obtain ⟨q, r, t, rfl⟩ := List.length_eq_three.1 hs
      refine ⟨Or.inl ⟨rfl, rfl, fun h => ?_⟩, Or.inl ⟨rfl, rfl, fun h => ?_⟩, Or.inl ⟨rfl, rfl, fun h => by simp at h⟩, trivial⟩
      · rw [of_decide_eq_true h, g1]
      · rw [of_decide_eq_true h, g1]

/-- One axis on which the argument has `a` modes with a flag that says whether `a` is 1, and the product likewise. -/
theorem axis_compatible {a a' : Nat} {f f' : Bool} (hf : f = true ↔ a = 1) (hf' : f' = true ↔ a' = 1) (h : a = a' ∨ a = 1) (q : ℚ) :
    (f = true ∧ gridSize q a = 1 ∧ (f' = true → gridSize q a' = 1)) ∨ (f = false ∧ f' = false ∧ gridSize q a = gridSize q a') := by
  have g1 : ∀ q : ℚ, gridSize q 1 = 1 := fun q => if_pos rfl
  by_cases e : a = 1
  · refine Or.inl ⟨hf.2 e, by rw [e, g1], fun h => by rw [hf'.1 h, g1]⟩
  · have ha : a = a' := h.resolve_right e
    subst ha
    refine Or.inr ⟨?_, ?_, rfl⟩
    · rw [Bool.eq_false_iff]; exact fun h => e (hf.1 h)
    · rw [Bool.eq_false_iff]; exact fun h => e (hf'.1 h)

theorem flag_mmax {a : Nat} (h : a ≠ 0 ∧ a ≠ 2) : (decide ((a - 1) / 2 = 0) = true) ↔ a = 1 := by
  rw [decide_eq_true_iff]
  constructor
  · exact mmax_one h
  · rintro rfl; rfl

theorem system_compatible (d : Nat) (x z : Option Basis) (hx : ∀ b, x = some b → b.dim = d) (hz : ∀ b, z = some b → b.dim = d)
    (h : Suitable x z) (px : ProperAzimuth x) (pz : ProperAzimuth z) (s : List ℚ) (hs : s.length = d) :
    Compatible (systemConstant d x) (systemShape d x s) (systemConstant d z) (systemShape d z s) := by
  cases x with
  | none => exact system_none d z hz pz s hs
  | some b =>
    cases z with
    | none => cases b <;> simp [Suitable] at h
    | some z =>
      have hd := hx b rfl
      have last : ∀ (q : ℚ) (n m : Nat), n = m → ((false = true ∧ gridSize q n = 1 ∧ (false = true → gridSize q m = 1)) ∨
          (false = false ∧ false = false ∧ gridSize q n = gridSize q m)) := fun q n m e => Or.inr ⟨rfl, rfl, by rw [e]⟩
      have flag : ∀ a : Nat, (decide (a = 1) = true) ↔ a = 1 := fun a => decide_eq_true_iff
      cases b <;> cases z <;> simp only [Suitable] at h <;>
        simp only [Basis.dim, Basis.shape, List.length_cons, List.length_nil] at hd <;> subst hd
      case interval.interval n m =>
        obtain ⟨q, rfl⟩ := List.length_eq_one_iff.1 hs
        exact ⟨last q n m h, trivial⟩
      case polar.polar a b a' b' =>
        obtain ⟨q, r, rfl⟩ := List.length_eq_two.1 hs
        exact ⟨axis_compatible (flag_mmax px) (flag_mmax pz) h.1 q, last r b b' h.2, trivial⟩
      case sphere.sphere a b a' b' =>
        obtain ⟨q, r, rfl⟩ := List.length_eq_two.1 hs
        exact ⟨axis_compatible (flag_mmax px) (flag_mmax pz) h.1 q, last r b b' h.2, trivial⟩
      case radial.radial n m =>
        obtain ⟨q, r, t, rfl⟩ := List.length_eq_three.1 hs
        exact ⟨axis_compatible (f := true) (f' := true) (a := 1) (a' := 1) (by simp) (by simp) (Or.inl rfl) q,
          axis_compatible (f := true) (f' := true) (a := 1) (a' := 1) (by simp) (by simp) (Or.inl rfl) r, last t n m h, trivial⟩
      case radial.volume n a b c =>
        obtain ⟨q, r, t, rfl⟩ := List.length_eq_three.1 hs
        exact ⟨axis_compatible (f := true) (a := 1) (by simp) (flag a) (Or.inr rfl) q,
          axis_compatible (f := true) (a := 1) (by simp) (flag b) (Or.inr rfl) r, last t n c h, trivial⟩
      case volume.volume a b c a' b' c' =>
        obtain ⟨q, r, t, rfl⟩ := List.length_eq_three.1 hs
        exact ⟨axis_compatible (flag a) (flag a') h.1 q, axis_compatible (flag b) (flag b') h.2.1 r, last t c c' h.2.2, trivial⟩

/-- C96 (partial). The flags and grid shapes of domains meet the conditions of the theorems on products: on any number of coordinate systems, for all bases and
all scales, if along each coordinate system the argument is suitable for the product. A list entry has the dimension of a coordinate system, the basis
of the argument, the basis of the product and the scales. Missing: two azimuthal modes, and one colatitude mode on a sphere (`products_refuted`). -/
theorem bases_compatible_partial (l : List (Nat × Option Basis × Option Basis × List ℚ))
    (hx : ∀ e ∈ l, ∀ b, e.2.1 = some b → b.dim = e.1) (hz : ∀ e ∈ l, ∀ b, e.2.2.1 = some b → b.dim = e.1)
    (h : ∀ e ∈ l, Suitable e.2.1 e.2.2.1 ∧ ProperAzimuth e.2.1 ∧ ProperAzimuth e.2.2.1) (hs : ∀ e ∈ l, e.2.2.2.length = e.1) :
    Compatible (domainConstant (l.map fun e => (e.1, e.2.1))) (domainShape (l.map fun e => (e.1, e.2.1)) (l.map fun e => e.2.2.2))
      (domainConstant (l.map fun e => (e.1, e.2.2.1))) (domainShape (l.map fun e => (e.1, e.2.2.1)) (l.map fun e => e.2.2.2)) := by
  induction l with
  | nil => exact trivial
  | cons e l ih =>
    have ih := ih (fun e' h => hx e' (List.mem_cons_of_mem _ h)) (fun e' h => hz e' (List.mem_cons_of_mem _ h))
      (fun e' h' => h e' (List.mem_cons_of_mem _ h')) (fun e' h => hs e' (List.mem_cons_of_mem _ h))
    have he := h e List.mem_cons_self
    exact compatible_append
      (system_compatible e.1 e.2.1 e.2.2.1 (hx e List.mem_cons_self) (hz e List.mem_cons_self) he.1 he.2.1 he.2.2 e.2.2.2 (hs e List.mem_cons_self)) ih

/-- C96 (refuted). The product of a field on a sphere with 8 × 4 points and its average over the sphere (a basis with one azimuthal and one colatitude mode) is
computed on one process, but on two processes the second one raises an exception, whatever the data: the colatitude of a sphere is never marked as
constant, so the average is not sent to it. The same holds for a field with two azimuthal modes in a disk times a constant in the disk, if the azimuth is
distributed: two modes are marked as constant, so the constant is not sent. -/
theorem products_refuted :
    (productBasis (some (.sphere 1 1)) (some (.sphere 8 4)) = some (some (.sphere 8 4)) ∧
      ∀ (calls0 calls1 : List (Coords → List Nat)) (junk0 junk1 : Coords → List Nat → ℚ) (data0 data1 : Coords → Arr ℚ),
        let c0 := domainConstant [(2, some (.sphere 1 1))]
        let c1 := domainConstant [(2, some (.sphere 8 4))]
        let ns0 := domainShape [(2, some (.sphere 1 1))] [[1, 1]]
        let ns1 := domainShape [(2, some (.sphere 8 4))] [[1, 1]]
        let product (axes : List (Option Nat)) (p : Coords) := (elements axes ns1 c1 p).bind fun E =>
          multiply 0 0 (E.map List.length) ((broadcaster axes c1 c0).cast ((broadcaster axes c1 c0).after calls0) junk0 data0 p)
            ((broadcaster axes c1 c1).cast ((broadcaster axes c1 c1).after calls1) junk1 data1 p)
        (elements [none, none] ns0 c0 [] = some [[0], [0]] ∧ ((data0 []).shape = [1, 1] → (data1 []).shape = [8, 4] →
          ∃ out, product [none, none] [] = some out)) ∧
        (elements [none, some 2] ns0 c0 [1] = some [[0], []] ∧ ((data0 [1]).shape = [1, 0] → product [none, some 2] [1] = none))) ∧
    (productBasis (some (.polar 2 8)) none = some (some (.polar 2 8)) ∧
      ∀ (calls0 calls1 : List (Coords → List Nat)) (junk0 junk1 : Coords → List Nat → ℚ) (data0 data1 : Coords → Arr ℚ),
        let c0 := domainConstant [(1, some (.interval 4)), (2, some (.polar 2 8))]
        let c1 := domainConstant [(1, some (.interval 4)), (2, none)]
        let ns0 := domainShape [(1, some (.interval 4)), (2, some (.polar 2 8))] [[1], [1, 1]]
        let ns1 := domainShape [(1, some (.interval 4)), (2, none)] [[1], [1, 1]]
        let axes : List (Option Nat) := [none, some 2, none]
        elements axes ns1 c1 [1] = some [[0, 1, 2, 3], [], [0]] ∧
        ((data1 [1]).shape = [4, 0, 1] →
          ((elements axes ns0 c0 [1]).bind fun E =>
            multiply 0 0 (E.map List.length) ((broadcaster axes c0 c0).cast ((broadcaster axes c0 c0).after calls0) junk0 data0 [1])
              ((broadcaster axes c0 c1).cast ((broadcaster axes c0 c1).after calls1) junk1 data1 [1])) = none)) := by
  have s4 : domainShape [(2, some (.sphere 8 4))] [[1, 1]] = [8, 4] := by
    simp [domainShape, Basis.gridShape, Basis.shape, gridSize]
  have p2 : domainShape [(1, some (.interval 4)), (2, some (.polar 2 8))] [[1], [1, 1]] = [4, 2, 8] := by
    simp [domainShape, Basis.gridShape, Basis.shape, gridSize]
  have p1 : domainShape [(1, some (.interval 4)), (2, none)] [[1], [1, 1]] = [4, 1, 1] := by
    simp [domainShape, Basis.gridShape, Basis.shape, gridSize]
  refine ⟨⟨rfl, ?_⟩, rfl, ?_⟩
  · intro calls0 calls1 junk0 junk1 data0 data1
    dsimp only
    rw [s4]
    refine ⟨⟨rfl, ?_⟩, rfl, ?_⟩
    · intro h0 h1
      have e : elements [none, none] [8, 4] (domainConstant [(2, some (.sphere 8 4))]) [] = some [[0,1,2,3,4,5,6,7], [0,1,2,3]] := by decide +kernel
      rw [e]
      have x0 : (broadcaster [none, none] (domainConstant [(2, some (.sphere 8 4))]) (domainConstant [(2, some (.sphere 1 1))])).cast
          ((broadcaster [none, none] (domainConstant [(2, some (.sphere 8 4))]) (domainConstant [(2, some (.sphere 1 1))])).after calls0) junk0 data0 []
          = data0 [] := rfl
      have x1 : (broadcaster [none, none] (domainConstant [(2, some (.sphere 8 4))]) (domainConstant [(2, some (.sphere 8 4))])).cast
          ((broadcaster [none, none] (domainConstant [(2, some (.sphere 8 4))]) (domainConstant [(2, some (.sphere 8 4))])).after calls1) junk1 data1 []
          = data1 [] := rfl
      rw [x0, x1]
      simp only [Option.bind_some, multiply, npMultiply, expandFirst, expandSecond, h0, h1]
      exact ⟨_, rfl⟩
    · intro h0
      have e : elements [none, some 2] [8, 4] (domainConstant [(2, some (.sphere 8 4))]) [1] = some [[0,1,2,3,4,5,6,7], [2,3]] := by decide +kernel
      rw [e]
      have x0 : (broadcaster [none, some 2] (domainConstant [(2, some (.sphere 8 4))]) (domainConstant [(2, some (.sphere 1 1))])).cast
          ((broadcaster [none, some 2] (domainConstant [(2, some (.sphere 8 4))]) (domainConstant [(2, some (.sphere 1 1))])).after calls0) junk0 data0 [1]
          = data0 [1] := rfl
      rw [x0]
      simp only [Option.bind_some, multiply, npMultiply, expandFirst, h0]
      rfl
  · intro calls0 calls1 junk0 junk1 data0 data1
    dsimp only
    rw [p2, p1]
    refine ⟨by decide +kernel, ?_⟩
    intro h1
    have e : elements [none, some 2, none] [4, 2, 8] (domainConstant [(1, some (.interval 4)), (2, some (.polar 2 8))]) [1] =
      some [[0,1,2,3], [1], [0,1,2,3,4,5,6,7]] := by decide +kernel
    rw [e]
    have x1 : (broadcaster [none, some 2, none] (domainConstant [(1, some (.interval 4)), (2, some (.polar 2 8))])
        (domainConstant [(1, some (.interval 4)), (2, none)])).cast
        ((broadcaster [none, some 2, none] (domainConstant [(1, some (.interval 4)), (2, some (.polar 2 8))])
          (domainConstant [(1, some (.interval 4)), (2, none)])).after calls1) junk1 data1 [1] = data1 [1] := rfl
    rw [x1]
    simp only [Option.bind_some, multiply, npMultiply, expandSecond, h1]
    rw [if_neg]
    simp [fits]

/-! ## Examples -/

/-- The local data of a whole field. -/
def localPart {V : Type} (G : List Nat → List Nat → V) (r : Nat) (ts : List Nat) (E : List (List Nat)) : Arr V :=
  ⟨ts ++ E.map List.length, fun i => G (i.take r) (List.zipWith (fun l k => l.getD k 0) E (i.drop r))⟩

theorem localPart_holds {V : Type} (G : List Nat → List Nat → V) (ts : List Nat) (E : List (List Nat)) :
    Holds ts E G (localPart G ts.length ts E).shape (localPart G ts.length ts E).val := by
  refine ⟨rfl, ?_⟩
  intro t i g ht hi
  show G _ _ = _
  rw [(take_append_index ht).1, (take_append_index ht).2]
  congr 1
  induction E generalizing i g with
  | nil => cases i <;> cases g <;> simp [At] at hi ⊢
  | cons l E ih =>
    cases i with
    | nil => simp [At] at hi
    | cons k i =>
    cases g with
    | nil => simp [At] at hi
    | cons x g =>
      rw [List.zipWith_cons_cons, ih i g hi.2]
      congr 1
      rw [List.getD_eq_getElem?_getD, hi.1]
      rfl

/-- A radial vector field in a ball times a scalar field, on a mesh of 2 × 3 processes over colatitude and radius: flags, sizes and groups. -/
example : domainConstant [(3, some (.radial 6))] = [true, true, false] ∧ domainConstant [(3, some (.volume 8 4 6))] = [false, false, false] ∧
    (broadcaster [none, some 2, some 3] [false, false, false] [true, true, false]).deploy = [true, false] := by decide +kernel

example : Compatible [true, true, false] [1, 1, 6] [false, false, false] [8, 4, 6] ∧ Compatible [false, false, false] [8, 4, 6] [false, false, false] [8, 4, 6] := by
  simp [Compatible]

/-- The hypotheses of `product_on_processes` for this case: process (1, 2) gets the radial field from process (0, 2). -/
example (G0 G1 : List Nat → List Nat → ℚ) (junk : Coords → List Nat → ℚ) :
    let axes : List (Option Nat) := [none, some 2, some 3]
    let data0 (q : Coords) := localPart G0 1 [3] ((elements axes [1, 1, 6] [true, true, false] q).getD [])
    let data1 (q : Coords) := localPart G1 0 [] ((elements axes [8, 4, 6] [false, false, false] q).getD [])
    ∃ E out, elements axes [8, 4, 6] [false, false, false] [1, 2] = some E ∧
      multiply 1 0 ([3] ++ [] ++ E.map List.length)
        ((broadcaster axes [false, false, false] [true, true, false]).cast
          ((broadcaster axes [false, false, false] [true, true, false]).after [fun q => (data0 q).shape]) junk data0 [1, 2])
        ((broadcaster axes [false, false, false] [false, false, false]).cast
          ((broadcaster axes [false, false, false] [false, false, false]).after []) junk data1 [1, 2]) = some out ∧
      Holds ([3] ++ []) E (outer 1 [true, true, false] [false, false, false] G0 G1) out.shape out.val := by
  intro axes data0 data1
  have some0 : ∀ q, Valid [2, 3] q → ∃ E, elements axes [1, 1, 6] [true, true, false] q = some E := by
    intro q hq
    cases hq with
    | cons _ hq => cases hq with
      | cons _ hq => cases hq; exact ⟨_, rfl⟩
  have some1 : ∀ q, Valid [2, 3] q → ∃ E, elements axes [8, 4, 6] [false, false, false] q = some E := by
    intro q hq
    cases hq with
    | cons _ hq => cases hq with
      | cons _ hq => cases hq; exact ⟨_, rfl⟩
  have h0 : ∀ q, Valid [2, 3] q → ∃ E, elements axes [1, 1, 6] [true, true, false] q = some E ∧ Holds [3] E G0 (data0 q).shape (data0 q).val := by
    intro q hq
    obtain ⟨E, hE⟩ := some0 q hq
    refine ⟨E, hE, ?_⟩
    have : data0 q = localPart G0 1 [3] E := by show localPart G0 1 [3] _ = _; rw [hE]; rfl
    rw [this]
    exact localPart_holds G0 [3] E
  have h1 : ∀ q, Valid [2, 3] q → ∃ E, elements axes [8, 4, 6] [false, false, false] q = some E ∧ Holds [] E G1 (data1 q).shape (data1 q).val := by
    intro q hq
    obtain ⟨E, hE⟩ := some1 q hq
    refine ⟨E, hE, ?_⟩
    have : data1 q = localPart G1 0 [] E := by show localPart G1 0 [] _ = _; rw [hE]; rfl
    rw [this]
    exact localPart_holds G1 [] E
  have k0 : Compatible [true, true, false] [1, 1, 6] [false, false, false] [8, 4, 6] := by simp [Compatible]
  have k1 : Compatible [false, false, false] [8, 4, 6] [false, false, false] [8, 4, 6] := by simp [Compatible]
  refine product_on_processes (axes := axes) (by simp [axes]) rfl rfl k0 k1 [3] [] G0 G1 h0 h1 _ _ ?_ (by simp) junk junk
    (show Valid [2, 3] [1, 2] from .cons (by decide) (.cons (by decide) .nil))
  intro s hs
  rw [List.mem_singleton] at hs
  subst hs
  refine ⟨_, _, k0, fun q hq => ?_⟩
  obtain ⟨E, hE, hh⟩ := h0 q hq
  exact ⟨E, hE, hh.1⟩

/-- The processes (0, 2) and (1, 2) are in one group, the second call finds the shapes in the caches. -/
example : let b := broadcaster [none, some 2, some 3] [false, false, false] [true, true, false]
    let s (q : Coords) := 3 :: ((elements [none, some 2, some 3] [1, 1, 6] [true, true, false] q).getD []).map List.length
    SameGroup b.deploy [0, 2] [1, 2] ∧ b.trace [0, 2] (fun _ => []) [s, s] = [.shape, .data 6, .data 6] ∧
      b.trace [1, 2] (fun _ => []) [s, s] = [.shape, .data 6, .data 6] := by
  refine ⟨⟨by decide, by decide, trivial⟩, by decide +kernel, by decide +kernel⟩

end Dedalus.Ghost
