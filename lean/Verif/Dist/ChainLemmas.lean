import Verif.Dist.ChainSpec
import Mathlib.Data.List.Basic
import Mathlib.Tactic.Linarith

namespace Dedalus.Dist

/-- Loop invariant: `j` axes remain in coefficient space. -/
structure Inv (init : List Bool) (D : Nat) (l : Lay) (j : Nat) : Prop where
  lenLoc : l.loc.length = D
  grid : l.grid = List.replicate j false ++ List.replicate (D - j) true
  jle : j ≤ D
  next : ∀ d, j = d + 1 → l.loc[d]? = some false → j < D ∧ l.loc[j]? = some true
  same : ∀ a, a + 1 < j → l.loc[a]? = init[a]?
  orig : ∀ d, j = d + 1 → l.loc[d]? = some false → init[d]? = some false

theorem grid_lt {D j : Nat} {l : Lay} (hg : l.grid = List.replicate j false ++ List.replicate (D - j) true)
    {a : Nat} (ha : a < j) : l.grid[a]? = some false := by
  rw [hg, List.getElem?_append_left (by simpa using ha)]
  simp [ha]

theorem grid_ge {D j : Nat} {l : Lay} (hg : l.grid = List.replicate j false ++ List.replicate (D - j) true)
    {a : Nat} (ha : j ≤ a) (hD : a < D) : l.grid[a]? = some true := by
  rw [hg, List.getElem?_append_right (by simpa using ha)]
  rw [List.getElem?_replicate, if_pos (by simp; omega)]

theorem scan_skip {D j : Nat} {l : Lay}
    (hg : l.grid = List.replicate j false ++ List.replicate (D - j) true) :
    ∀ k, j ≤ k → k ≤ D → scanStep l k = scanStep l j := by
  intro k hk
  induction k, hk using Nat.le_induction with
  | base => intro _; rfl
  | succ k hk ih =>
    intro hkD
    rw [scanStep, grid_ge hg hk (by omega)]
    exact ih (by omega)

theorem set_grid {D d : Nat} (h : d < D) :
    (List.replicate (d+1) false ++ List.replicate (D - (d+1)) true).set d true
      = List.replicate d false ++ List.replicate (D - d) true := by
  have : D - d = (D - (d+1)) + 1 := by omega
  rw [this]
  rw [List.set_append_left _ _ (by simp)]
  rw [show List.replicate (d+1) false = List.replicate d false ++ [false] by
    rw [List.replicate_succ']]
  rw [List.set_append_right _ _ (by simp)]
  simp [List.replicate_succ]

/-- number of steps left from a state -/
def remaining (l : Lay) (j : Nat) : Nat := j + (l.loc.take j).count false

theorem scan_cases {init : List Bool} {D d : Nat} {l : Lay} (h : Inv init D l (d + 1)) :
    (l.loc[d]? = some true ∧
      scanStep l l.loc.length = .move ⟨l.loc, l.grid.set d true⟩ ⟨.transform, d⟩) ∨
    (l.loc[d]? = some false ∧ d + 1 < D ∧ l.loc[d+1]? = some true ∧
      scanStep l l.loc.length =
        .move ⟨(l.loc.set d true).set (d + 1) false, l.grid⟩ ⟨.transpose, d⟩) := by
  have hd : d < l.loc.length := by have := h.jle; have := h.lenLoc; omega
  have hs : scanStep l l.loc.length = scanStep l (d+1) :=
    scan_skip h.grid _ (by omega) (by rw [h.lenLoc])
  rw [hs, scanStep, grid_lt h.grid (by omega)]
  rcases hb : l.loc[d]? with _ | b
  · rw [List.getElem?_eq_none_iff] at hb; omega
  · cases b
    · right
      have := h.next d rfl hb
      refine ⟨rfl, this.1, this.2, ?_⟩
      simp only []
      rw [if_pos (by rw [h.lenLoc]; exact this.1)]
    · left; exact ⟨rfl, rfl⟩

theorem take_count_succ {loc : List Bool} {d : Nat} {b : Bool} (hb : loc[d]? = some b) :
    (loc.take (d+1)).count false = (loc.take d).count false + (if b = false then 1 else 0) := by
  rw [List.take_add_one, hb]
  cases b <;> simp

theorem inv_transform {init : List Bool} {D d : Nat} {l : Lay} (h : Inv init D l (d + 1))
    (hl : l.loc[d]? = some true) :
    Inv init D ⟨l.loc, l.grid.set d true⟩ d ∧ 
      remaining l (d+1) = remaining ⟨l.loc, l.grid.set d true⟩ d + 1 := by
  have hjle := h.jle
  refine ⟨⟨h.lenLoc, ?_, by omega, ?_, ?_, ?_⟩, ?_⟩
  · simp only [h.grid]; exact set_grid (by omega)
  · intro e he hf; exact ⟨by omega, hl⟩
  · intro a ha; exact h.same a (by omega)
  · intro e he hf; rw [← h.same e (by omega)]; exact hf
  · simp only [remaining, take_count_succ hl]; simp; omega

theorem inv_transpose {init : List Bool} {D d : Nat} {l : Lay} (h : Inv init D l (d + 1))
    (hl : l.loc[d]? = some false) (hD : d + 1 < D) :
    Inv init D ⟨(l.loc.set d true).set (d + 1) false, l.grid⟩ (d+1) ∧ 
      remaining l (d+1) = remaining ⟨(l.loc.set d true).set (d + 1) false, l.grid⟩ (d+1) + 1 := by
  have hlen := h.lenLoc
  have hd' : ((l.loc.set d true).set (d + 1) false)[d]? = some true := by
    rw [List.getElem?_set_ne (by omega), List.getElem?_set_self (by omega)]
  refine ⟨⟨by simpa using hlen, h.grid, h.jle, ?_, ?_, ?_⟩, ?_⟩
  · intro e he hf
    have : e = d := by omega
    subst this
    rw [hd'] at hf; simp at hf
  · intro a ha
    rw [← h.same a ha]
    rw [List.getElem?_set_ne (by omega), List.getElem?_set_ne (by omega)]
  · intro e he hf
    have : e = d := by omega
    subst this
    rw [hd'] at hf; simp at hf
  · simp only [remaining, take_count_succ hl, take_count_succ hd']
    have : List.take d ((l.loc.set d true).set (d + 1) false) = List.take d l.loc := by
      rw [List.take_set_of_le (by omega), List.take_set_of_le (by omega)]
    rw [this]; simp; omega

theorem stepOK_transform {init : List Bool} {D d : Nat} {l : Lay} (h : Inv init D l (d + 1))
    (hl : l.loc[d]? = some true) : StepOK l ⟨l.loc, l.grid.set d true⟩ ⟨.transform, d⟩ := by
  have hjle := h.jle
  simp only [StepOK]
  refine ⟨hl, grid_lt h.grid (by omega), trivial, trivial, ?_, ?_⟩
  · intro a ha; exact grid_lt h.grid (by omega)
  · intro a ha hla
    refine grid_ge h.grid (by omega) ?_
    rw [h.grid] at hla; simp at hla; omega

theorem stepOK_transpose {init : List Bool} {D d : Nat} {l : Lay} (h : Inv init D l (d + 1))
    (hl : l.loc[d]? = some false) (hD : d + 1 < D) (hn : l.loc[d+1]? = some true) :
    StepOK l ⟨(l.loc.set d true).set (d + 1) false, l.grid⟩ ⟨.transpose, d⟩ := by
  have hlen := h.lenLoc
  simp only [StepOK]
  refine ⟨hl, hn, grid_lt h.grid (by omega), grid_ge h.grid (by omega) hD, trivial, ?_, ?_, ?_, ?_⟩
  · show ((l.loc.set d true).set (d + 1) false)[d]? = some true
    rw [List.getElem?_set_ne (by omega), List.getElem?_set_self (by omega)]
  · show ((l.loc.set d true).set (d + 1) false)[d+1]? = some false
    rw [List.getElem?_set_self (by simp; omega)]
  · simp
  · intro a ha hb
    show ((l.loc.set d true).set (d + 1) false)[a]? = l.loc[a]?
    rw [List.getElem?_set_ne (by exact fun h => hb h.symm), List.getElem?_set_ne (by exact fun h => ha h.symm)]

/-- Position list of the `false` entries among the first `j` entries, last first: the order in
which axes are transposed. -/
def revNonlocal (loc : List Bool) (j : Nat) : List Nat :=
  ((List.range j).filter (fun a => loc[a]? == some false)).reverse

theorem revNonlocal_succ (loc : List Bool) (d : Nat) :
    revNonlocal loc (d+1) = if loc[d]? = some false then d :: revNonlocal loc d else revNonlocal loc d := by
  unfold revNonlocal
  rw [List.range_succ, List.filter_append]
  by_cases h : loc[d]? = some false <;> simp [h]

theorem revNonlocal_congr {loc loc' : List Bool} {j : Nat} (h : ∀ a, a < j → loc[a]? = loc'[a]?) :
    revNonlocal loc j = revNonlocal loc' j := by
  unfold revNonlocal
  congr 1
  apply List.filter_congr
  intro a ha
  rw [h a (by simpa using ha)]

theorem build_ok (init : List Bool) (D : Nat) : ∀ n l j, Inv init D l j → remaining l j = n →
    ∃ ls ps, buildFrom l n = some (ls, ps) ∧ ls.length = n ∧ ps.length = n ∧
      (∃ l1, (l :: ls).getLast? = some l1 ∧ l1.grid = List.replicate D true) ∧
      (∀ i li li' p, (l :: ls)[i]? = some li → (l :: ls)[i+1]? = some li' → ps[i]? = some p → 
        StepOK li li' p) ∧
      (∀ li ∈ l :: ls, ∃ j', j' ≤ j ∧ Inv init D li j') ∧
      (ps.filter (·.kind = .transform)).map (·.axis) = (List.range j).reverse ∧
      (ps.filter (·.kind = .transpose)).map (·.axis) = revNonlocal l.loc j ∧
      (∀ (i : Nat) (li : Lay) (p : Path), (l :: ls)[i]? = some li → ps[i]? = some p → Inv init D li (p.axis + 1)) := by
  intro n
  induction n with
  | zero =>
    intro l j h hr
    have hj : j = 0 := by simp [remaining] at hr; omega
    subst hj
    refine ⟨[], [], rfl, rfl, rfl, ⟨l, rfl, ?_⟩, by simp, ?_, rfl, rfl, by simp⟩
    · have := h.grid; simpa using this
    · intro li hli; simp at hli; subst hli; exact ⟨0, le_refl _, h⟩
  | succ n ih =>
    intro l j h hr
    obtain ⟨d, rfl⟩ : ∃ d, j = d + 1 := by
      cases j with
      | zero => simp [remaining] at hr
      | succ d => exact ⟨d, rfl⟩
    rcases scan_cases h with ⟨hl, hs⟩ | ⟨hl, hD, hn, hs⟩
    · obtain ⟨hinv, hrem⟩ := inv_transform h hl
      obtain ⟨ls, ps, hb, h1, h2, ⟨l1, h3, h3'⟩, h4, h5, h6, h7, h8⟩ := ih _ _ hinv (by omega)
      refine ⟨⟨l.loc, l.grid.set d true⟩ :: ls, ⟨.transform, d⟩ :: ps, ?_, by simp [h1], by simp [h2], ⟨l1, ?_, h3'⟩, ?_, ?_, ?_, ?_, ?_⟩
      · rw [buildFrom, hs]; simp only [hb]
      · rw [← h3]; simp [List.getLast?_cons]
      · intro i li li' p hi hi' hp
        cases i with
        | zero =>
          simp at hi hi' hp; subst hi; subst hi'; subst hp
          exact stepOK_transform h hl
        | succ i => simp at hi hi' hp; exact h4 i _ _ _ hi hi' hp
      · intro li hli
        rcases List.mem_cons.1 hli with rfl | hli
        · exact ⟨d+1, le_refl _, h⟩
        · obtain ⟨j', hj', hi⟩ := h5 li hli; exact ⟨j', by omega, hi⟩
      · simp [h6, List.range_succ]
      · simp only [List.filter_cons]
        rw [revNonlocal_succ, hl]; simpa using h7
      · intro i li p hi hp
        cases i with
        | zero => simp at hi hp; subst hi; subst hp; exact h
        | succ i => simp at hi hp; exact h8 i _ _ hi hp
    · obtain ⟨hinv, hrem⟩ := inv_transpose h hl hD
      obtain ⟨ls, ps, hb, h1, h2, ⟨l1, h3, h3'⟩, h4, h5, h6, h7, h8⟩ := ih _ _ hinv (by omega)
      refine ⟨⟨(l.loc.set d true).set (d + 1) false, l.grid⟩ :: ls, ⟨.transpose, d⟩ :: ps, ?_, by simp [h1], by simp [h2], ⟨l1, ?_, h3'⟩, ?_, ?_, ?_, ?_, ?_⟩
      · rw [buildFrom, hs]; simp only [hb]
      · rw [← h3]; simp [List.getLast?_cons]
      · intro i li li' p hi hi' hp
        cases i with
        | zero =>
          simp at hi hi' hp; subst hi; subst hi'; subst hp
          exact stepOK_transpose h hl hD hn
        | succ i => simp at hi hi' hp; exact h4 i _ _ _ hi hi' hp
      · intro li hli
        rcases List.mem_cons.1 hli with rfl | hli
        · exact ⟨d+1, le_refl _, h⟩
        · exact h5 li hli
      · simp only [List.filter_cons]; simpa using h6
      · simp only [List.filter_cons]
        rw [revNonlocal_succ, if_pos hl]
        have hlen := h.lenLoc
        have hd' : ((l.loc.set d true).set (d + 1) false)[d]? = some true := by
          rw [List.getElem?_set_ne (by omega), List.getElem?_set_self (by omega)]
        rw [revNonlocal_succ, hd'] at h7
        simp only [Option.some.injEq, Bool.true_eq_false, if_false] at h7
        have : revNonlocal ((l.loc.set d true).set (d + 1) false) d = revNonlocal l.loc d := by
          apply revNonlocal_congr
          intro a ha
          rw [List.getElem?_set_ne (by omega), List.getElem?_set_ne (by omega)]
        simp [h7, this]
      · intro i li p hi hp
        cases i with
        | zero => simp at hi hp; subst hi; subst hp; exact h
        | succ i => simp at hi hp; exact h8 i _ _ hi hp

theorem trim_last {mesh : List Nat} : (trimMesh mesh).getLast? ≠ some 1 := by
  unfold trimMesh
  rw [List.getLast?_reverse]
  intro h
  have := List.head?_dropWhile_not (fun x : Nat => x == 1) mesh.reverse
  rw [h] at this
  simp at this

theorem initLocal_get {D : Nat} {mesh : List Nat} (h : mesh.length < D) (a : Nat) :
    (initLocal D mesh)[a]? = if a < mesh.length then mesh[a]?.map (fun m => decide (¬ m > 1))
      else if a < D then some true else none := by
  unfold initLocal
  by_cases ha : a < mesh.length
  · rw [List.getElem?_append_left (by simpa using ha)]; simp [ha]
  · rw [List.getElem?_append_right (by simpa using ha)]
    simp only [ha, if_false, List.length_map]
    by_cases hD : a < D
    · rw [List.getElem?_replicate, if_pos (by omega), if_pos hD]
    · rw [List.getElem?_replicate, if_neg (by omega), if_neg hD]

theorem initLocal_length {D : Nat} {mesh : List Nat} (h : mesh.length < D) :
    (initLocal D mesh).length = D := by simp [initLocal]; omega

theorem count_initLocal (D : Nat) (mesh : List Nat) :
    (initLocal D mesh).count false = meshR mesh := by
  unfold initLocal meshR
  rw [List.count_append, List.count_replicate]
  induction mesh with
  | nil => simp
  | cons m ms ih =>
    simp only [Bool.true_beq, Bool.false_eq_true, if_false, Nat.add_zero] at ih ⊢
    by_cases h : m > 1
    · simp only [List.map_cons, List.filter_cons, h, not_true_eq_false, decide_false, decide_true,
        List.count_cons_self, if_true, List.length_cons, ih]
    · simp only [List.map_cons, List.filter_cons, h, not_false_eq_true, decide_false, decide_true,
        Bool.false_eq_true, if_false, ← ih]
      simp

theorem inv_init {D : Nat} {mesh : List Nat} (h : mesh.length < D) :
    Inv (initLocal D mesh) D ⟨initLocal D mesh, List.replicate D false⟩ D := by
  refine ⟨initLocal_length h, by simp, le_refl _, ?_, fun _ _ => rfl, fun _ _ h => h⟩
  intro d hd hf
  simp only at hf
  rw [initLocal_get h] at hf
  rw [if_neg (by omega), if_pos (by omega)] at hf
  simp at hf

theorem remaining_init {D : Nat} {mesh : List Nat} (h : mesh.length < D) :
    remaining ⟨initLocal D mesh, List.replicate D false⟩ D = meshR mesh + D := by
  simp only [remaining]
  rw [List.take_of_length_le (by rw [initLocal_length h]), count_initLocal]; omega

end Dedalus.Dist

namespace Dedalus.Dist

theorem stepOK_length {l l' : Lay} {p : Path} (h : StepOK l l' p) : l.loc.length = l'.loc.length := by
  unfold StepOK at h
  split at h
  · rw [h.2.2.1]
  · exact h.2.2.2.2.2.2.2.1.symm

theorem stepOK_count {l l' : Lay} {p : Path} (h : StepOK l l' p) :
    nonlocalCount l.loc = nonlocalCount l'.loc := by
  unfold StepOK at h
  split at h
  · rw [h.2.2.1]
  · obtain ⟨a1, a2, -, -, -, b1, b2, hL, ho⟩ := h
    set d := p.axis
    have split : ∀ (xs : List Bool) x y, xs[d]? = some x → xs[d+1]? = some y →
        xs = xs.take d ++ x :: y :: xs.drop (d+2) := by
      intro xs x y hx hy
      apply List.ext_getElem?
      intro a
      have hlx := (List.getElem?_eq_some_iff.1 hx).1
      by_cases h1 : a < d
      · rw [List.getElem?_append_left (by simp; omega), List.getElem?_take_of_lt h1]
      · rw [List.getElem?_append_right (by simp; omega)]
        have : (xs.take d).length = d := by simp; omega
        rw [this]
        rcases Nat.lt_or_ge a (d+2) with h2 | h2
        · have : a = d ∨ a = d + 1 := by omega
          rcases this with rfl | rfl
          · simp [hx]
          · simp [hy]
        · obtain ⟨k, rfl⟩ : ∃ k, a = d + 2 + k := ⟨a - (d+2), by omega⟩
          have : d + 2 + k - d = k + 2 := by omega
          rw [this]; simp
    have s1 := split l.loc _ _ a1 a2
    have s2 := split l'.loc _ _ b1 b2
    have t1 : l'.loc.take d = l.loc.take d := by
      apply List.ext_getElem?
      intro a
      rw [List.getElem?_take, List.getElem?_take]
      split
      · exact ho a (by omega) (by omega)
      · rfl
    have t2 : l'.loc.drop (d+2) = l.loc.drop (d+2) := by
      apply List.ext_getElem?
      intro a
      rw [List.getElem?_drop, List.getElem?_drop]
      exact ho _ (by omega) (by omega)
    unfold nonlocalCount
    rw [s1, s2, t1, t2]
    simp [List.count_append]

theorem transforms_eq (ps : List Path) :
    transforms ps = (ps.filter (·.kind = .transform)).reverse := by
  unfold transforms
  have : ∀ acc, ps.foldl (fun acc p => if p.kind = .transform then p :: acc else acc) acc
      = (ps.filter (·.kind = .transform)).reverse ++ acc := by
    induction ps with
    | nil => intro acc; rfl
    | cons p ps ih =>
      intro acc
      rw [List.foldl_cons, ih]
      by_cases h : p.kind = .transform <;> simp [h]
  simpa using this []

theorem commCartAxis_count {D : Nat} {m : List Nat} (hlen : m.length < D) (hpos : ∀ x ∈ m, 1 ≤ x)
    (d : Nat) (hd : d ≤ m.length) :
    commCartAxis m d = (((initLocal D m).take d).count false : Nat) := by
  have h1 : (initLocal D m).take d = (m.take d).map (fun m => decide (¬ m > 1)) := by
    unfold initLocal
    rw [List.take_append_of_le_length (by simpa using hd), List.map_take]
  rw [h1]
  unfold commCartAxis
  have h2 : (m.take d).length = d := by simp [hd]
  have h3 : ∀ x ∈ m.take d, 1 ≤ x := fun x hx => hpos x (List.mem_of_mem_take hx)
  have key : ∀ t : List Nat, (∀ x ∈ t, 1 ≤ x) → (t.length : Int) - (t.filter (· == 1)).length
      = ((t.map (fun m => decide (¬ m > 1))).count false : Nat) := by
    intro t
    induction t with
    | nil => intro _; rfl
    | cons x xs ih =>
      intro h
      have hx := h x (by simp)
      have := ih (fun y hy => h y (by simp [hy]))
      by_cases h1 : x = 1
      · subst h1
        simp only [List.map_cons, List.filter_cons, List.length_cons] at this ⊢
        simp at this ⊢; omega
      · have h2 : ¬ x ≤ 1 := by omega
        simp [h1, h2] at this ⊢; omega
  have := key (m.take d) h3
  rw [h2] at this
  exact this

end Dedalus.Dist
