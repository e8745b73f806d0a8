import Verif.Perm.Spec

namespace Dedalus.Perm

/-- The row visited by the loops at a triple, if there is one. -/
def rowOf (bs : List Block) (k : Nat) (t : Nat × Nat × Nat) : Option Row :=
  (bs[t.1]?).bind fun b => if t.2.1 < b.comps ∧ t.2.2 < b.modes then some ⟨b.dim, k + t.1, t.2.1, t.2.2⟩ else none

theorem rowOf_eq_some {bs : List Block} {k t r} : rowOf bs k t = some r ↔
    ∃ b, bs[t.1]? = some b ∧ t.2.1 < b.comps ∧ t.2.2 < b.modes ∧ r = ⟨b.dim, k + t.1, t.2.1, t.2.2⟩ := by
  unfold rowOf
  cases h : bs[t.1]? with
  | none => simp
  | some b =>
    by_cases h2 : t.2.1 < b.comps ∧ t.2.2 < b.modes
    · simp [h2, eq_comm]
    · simp only [Option.bind_some, if_neg h2, reduceCtorEq, Option.some.injEq, exists_eq_left', false_iff]
      exact fun h => h2 ⟨h.1, h.2.1⟩

def compRows (d k modes s c : Nat) : List Row :=
  (List.range' s c).flatMap fun c => (List.range modes).map fun m => ⟨d, k, c, m⟩

theorem mem_compRows {d k modes s c r} : r ∈ compRows d k modes s c ↔
    r.dim = d ∧ r.block = k ∧ s ≤ r.comp ∧ r.comp < s + c ∧ r.mode < modes := by
  simp only [compRows, List.mem_flatMap, List.mem_range'_1, List.mem_map, List.mem_range]
  constructor
  · rintro ⟨c', h, m, hm, rfl⟩
    exact ⟨rfl, rfl, h.1, h.2, hm⟩
  · rintro ⟨rfl, rfl, h1, h2, h3⟩
    exact ⟨r.comp, ⟨h1, h2⟩, r.mode, h3, rfl⟩

theorem compRows_succ (d k modes s c) : compRows d k modes s (c+1) =
    ((List.range modes).map fun m => (⟨d, k, s, m⟩ : Row)) ++ compRows d k modes (s+1) c := by
  simp [compRows, List.range'_succ]

theorem length_compRows (d k modes s c) : (compRows d k modes s c).length = c * modes := by
  simp [compRows, List.length_flatMap]

theorem idxOf_row (d k s modes m : Nat) (h : m < modes) :
    ((List.range modes).map fun m => (⟨d, k, s, m⟩ : Row)).idxOf ⟨d, k, s, m⟩ = m := by
  have hn : ((List.range modes).map fun m => (⟨d, k, s, m⟩ : Row)).Nodup := by
    apply List.Nodup.map _ List.nodup_range
    intro a b hab; simpa using hab
  have := hn.idxOf_getElem m (by simpa using h)
  simpa using this

theorem idxOf_compRows (d k modes : Nat) : ∀ c s n2 n3, n2 < c → n3 < modes →
    (compRows d k modes s c).idxOf ⟨d, k, s + n2, n3⟩ = n2 * modes + n3
  | 0, _, _, _, h, _ => absurd h (by simp)
  | c+1, s, 0, n3, _, h3 => by
      rw [compRows_succ, List.idxOf_append_of_mem (by simpa using h3)]
      simpa using idxOf_row d k s modes n3 h3
  | c+1, s, n2+1, n3, h2, h3 => by
      rw [compRows_succ, List.idxOf_append_of_notMem (by simp)]
      have := idxOf_compRows d k modes c (s+1) n2 n3 (by omega) h3
      rw [show s + (n2+1) = s + 1 + n2 by omega, this]
      simp; ring

theorem compIndices_lookup (modes : Nat) : ∀ c i n2 n3,
    ((compIndices i modes c)[n2]?).bind (fun L2 => L2[n3]?) =
      if n2 < c ∧ n3 < modes then some (i + (n2 * modes + n3)) else none
  | 0, _, _, _ => by simp [compIndices]
  | c+1, i, 0, n3 => by
      simp only [compIndices, List.getElem?_cons_zero, Option.bind_some]
      by_cases h : n3 < modes <;> simp [h]
  | c+1, i, n2+1, n3 => by
      simp only [compIndices, List.getElem?_cons_succ, compIndices_lookup modes c (i+modes) n2 n3]
      by_cases h : n2 < c ∧ n3 < modes
      · rw [if_pos h, if_pos ⟨by omega, h.2⟩]; congr 1; ring
      · rw [if_neg h, if_neg (by omega)]

theorem inputRows_cons (k b bs) : inputRows k (b :: bs) = compRows b.dim k b.modes 0 b.comps ++ inputRows (k+1) bs := by
  simp [inputRows, compRows, List.range_eq_range']

theorem mem_inputRows {r : Row} : ∀ {bs : List Block} {k}, r ∈ inputRows k bs ↔
    ∃ n1 b, bs[n1]? = some b ∧ r.block = k + n1 ∧ r.dim = b.dim ∧ r.comp < b.comps ∧ r.mode < b.modes
  | [], k => by simp [inputRows]
  | b :: bs, k => by
      rw [inputRows_cons, List.mem_append, mem_compRows, mem_inputRows]
      constructor
      · rintro (⟨h1, h2, _, h3, h4⟩ | ⟨n1, b', h0, h1, h2⟩)
        · exact ⟨0, b, by simp, by simpa using h2, h1, by simpa using h3, h4⟩
        · exact ⟨n1 + 1, b', by simpa using h0, by omega, h2⟩
      · rintro ⟨n1, b', h0, h1, h2, h3, h4⟩
        cases n1 with
        | zero => simp at h0; subst h0; left; exact ⟨h2, by simpa using h1, by omega, by omega, h4⟩
        | succ n => right; exact ⟨n, b', by simpa using h0, by omega, h2, h3, h4⟩

theorem lookup_hierarchy : ∀ (bs : List Block) (i k : Nat) (t : Nat × Nat × Nat),
    lookup (hierarchy i bs) t = (rowOf bs k t).map fun r => i + (inputRows k bs).idxOf r
  | [], i, k, t => by simp [lookup, hierarchy, rowOf]
  | b :: bs, i, k, (0, n2, n3) => by
      simp only [lookup, rowOf, List.getElem?_cons_zero, Option.bind_some, inputRows_cons, hierarchy]
      by_cases hb : b.comps = 0
      · simp only [hb, if_true, List.getElem?_cons_zero, Option.bind_some]
        cases n2 <;> simp
      · simp only [hb, if_false, List.getElem?_cons_zero, Option.bind_some]
        rw [compIndices_lookup]
        by_cases h : n2 < b.comps ∧ n3 < b.modes
        · rw [if_pos h, if_pos h]
          simp only [Option.map_some, Option.some.injEq, Nat.add_left_cancel_iff, Nat.add_zero]
          rw [List.idxOf_append_of_mem (by rw [mem_compRows]; simp [h])]
          have := idxOf_compRows b.dim k b.modes b.comps 0 n2 n3 h.1 h.2
          simp only [Nat.zero_add] at this
          rw [this]
        · rw [if_neg h, if_neg h]; rfl
  | b :: bs, i, k, (n1+1, n2, n3) => by
      have ih := lookup_hierarchy bs (i + b.comps * b.modes) (k+1) (n1, n2, n3)
      have e : lookup (hierarchy i (b :: bs)) (n1+1, n2, n3) =
          lookup (hierarchy (i + b.comps * b.modes) bs) (n1, n2, n3) := by
        unfold lookup
        rw [hierarchy]
        by_cases hb : b.comps = 0 <;> simp [hb]
      have e2 : rowOf (b :: bs) k (n1+1, n2, n3) = rowOf bs (k+1) (n1, n2, n3) := by
        unfold rowOf; simp [show k + (n1 + 1) = k + 1 + n1 by omega]
      rw [e, e2, ih]
      cases hr : rowOf bs (k+1) (n1, n2, n3) with
      | none => rfl
      | some r =>
        simp only [Option.map_some, Option.some.injEq]
        rw [inputRows_cons, List.idxOf_append_of_notMem, length_compRows]
        · omega
        · rw [mem_compRows]
          obtain ⟨b', _, _, _, rfl⟩ := rowOf_eq_some.1 hr
          simp; omega

theorem foldl_max_ge (l : List Nat) : ∀ a, a ≤ l.foldl max a ∧ ∀ x ∈ l, x ≤ l.foldl max a := by
  induction l with
  | nil => intro a; simp
  | cons y l ih =>
    intro a
    have := ih (max a y)
    refine ⟨by simp; omega, fun x hx => ?_⟩
    rcases List.mem_cons.1 hx with rfl | hx
    · simp; omega
    · exact this.2 x hx

theorem le_maxLen {l : List Nat} {x} (h : x ∈ l) : x ≤ maxLen l := (foldl_max_ge l 0).2 x h

theorem lookup_bounds {L0 t i} (h : lookup L0 t = some i) : t.1 < L0.length ∧
    t.2.1 < maxLen (L0.map List.length) ∧ t.2.2 < maxLen (L0.flatMap fun L1 => L1.map List.length) := by
  unfold lookup at h
  obtain ⟨L1, h1, h⟩ := Option.bind_eq_some_iff.1 h
  obtain ⟨L2, h2, h3⟩ := Option.bind_eq_some_iff.1 h
  obtain ⟨a1, _⟩ := List.getElem?_eq_some_iff.1 h1
  obtain ⟨a2, _⟩ := List.getElem?_eq_some_iff.1 h2
  obtain ⟨a3, _⟩ := List.getElem?_eq_some_iff.1 h3
  have m1 := List.mem_of_getElem? h1
  have m2 := List.mem_of_getElem? h2
  refine ⟨a1, lt_of_lt_of_le a2 (le_maxLen (List.mem_map_of_mem m1)), lt_of_lt_of_le a3 (le_maxLen ?_)⟩
  exact List.mem_flatMap.2 ⟨L1, m1, List.mem_map_of_mem m2⟩

theorem mem_visit {il n1 n2 n3 t} : t ∈ visit il n1 n2 n3 ↔ t.1 < n1 ∧ t.2.1 < n2 ∧ t.2.2 < n3 := by
  unfold visit
  split
  · simp only [List.mem_flatMap, List.mem_map, List.mem_range]
    constructor
    · rintro ⟨a, ha, b, hb, c, hc, rfl⟩; exact ⟨hc, hb, ha⟩
    · rintro ⟨a, b, c⟩; exact ⟨_, c, _, b, _, a, rfl⟩
  · simp only [List.mem_flatMap, List.mem_map, List.mem_range]
    constructor
    · rintro ⟨a, ha, b, hb, c, hc, rfl⟩; exact ⟨hb, hc, ha⟩
    · rintro ⟨a, b, c⟩; exact ⟨_, c, _, a, _, b, rfl⟩

/-- Loop order on triples. -/
def tripleBefore (il : Bool) (x y : Nat × Nat × Nat) : Prop :=
  x.2.2 < y.2.2 ∨ (x.2.2 = y.2.2 ∧
    if il then x.2.1 < y.2.1 ∨ (x.2.1 = y.2.1 ∧ x.1 < y.1)
    else x.1 < y.1 ∨ (x.1 = y.1 ∧ x.2.1 < y.2.1))

theorem pairwise_flatMap_range {β} (n : Nat) (f : Nat → List β) (R : β → β → Prop)
    (h1 : ∀ a, (f a).Pairwise R) (h2 : ∀ a b, a < b → ∀ x ∈ f a, ∀ y ∈ f b, R x y) :
    ((List.range n).flatMap f).Pairwise R := by
  rw [List.pairwise_flatMap]
  refine ⟨fun a _ => h1 a, ?_⟩
  exact List.pairwise_lt_range.imp fun {a b} hab x hx y hy => h2 a b hab x hx y hy

theorem visit_pairwise (il n1 n2 n3) : (visit il n1 n2 n3).Pairwise (tripleBefore il) := by
  unfold visit
  cases il
  · simp only [Bool.false_eq_true, if_false]
    apply pairwise_flatMap_range
    · intro a
      apply pairwise_flatMap_range
      · intro b
        rw [List.pairwise_map]
        refine List.pairwise_lt_range.imp fun {x y} h => ?_
        simp [tripleBefore, h]
      · intro b c hbc x hx y hy
        obtain ⟨_, _, rfl⟩ := List.mem_map.1 hx
        obtain ⟨_, _, rfl⟩ := List.mem_map.1 hy
        simp [tripleBefore, hbc]
    · intro b c hbc x hx y hy
      obtain ⟨_, _, hx⟩ := List.mem_flatMap.1 hx
      obtain ⟨_, _, hy⟩ := List.mem_flatMap.1 hy
      obtain ⟨_, _, rfl⟩ := List.mem_map.1 hx
      obtain ⟨_, _, rfl⟩ := List.mem_map.1 hy
      simp [tripleBefore, hbc]
  · simp only [if_true]
    apply pairwise_flatMap_range
    · intro a
      apply pairwise_flatMap_range
      · intro b
        rw [List.pairwise_map]
        refine List.pairwise_lt_range.imp fun {x y} h => ?_
        simp [tripleBefore, h]
      · intro b c hbc x hx y hy
        obtain ⟨_, _, rfl⟩ := List.mem_map.1 hx
        obtain ⟨_, _, rfl⟩ := List.mem_map.1 hy
        simp [tripleBefore, hbc]
    · intro b c hbc x hx y hy
      obtain ⟨_, _, hx⟩ := List.mem_flatMap.1 hx
      obtain ⟨_, _, hy⟩ := List.mem_flatMap.1 hy
      obtain ⟨_, _, rfl⟩ := List.mem_map.1 hx
      obtain ⟨_, _, rfl⟩ := List.mem_map.1 hy
      simp [tripleBefore, hbc]

/-- The rows behind `indicesOf`. -/
def rowsOf (bs : List Block) (il : Bool) (dim : Nat) : List Row :=
  let L0 := hierarchy 0 bs
  let n2max := maxLen (L0.map List.length)
  let n3max := maxLen (L0.flatMap fun L1 => L1.map List.length)
  ((visit il L0.length n2max n3max).filter fun t => (bs[t.1]?).map (·.dim) == some dim).filterMap (rowOf bs 0)

theorem indicesOf_eq (bs il dim) : indicesOf bs il dim = (rowsOf bs il dim).map ((inputRows 0 bs).idxOf ·) := by
  unfold indicesOf rowsOf
  simp only [List.map_filterMap]
  apply List.filterMap_congr
  intro t _
  rw [lookup_hierarchy bs 0 0 t]
  simp

theorem mem_rowsOf {bs il dim r} : r ∈ rowsOf bs il dim ↔ r ∈ inputRows 0 bs ∧ r.dim = dim := by
  unfold rowsOf
  simp only [List.mem_filterMap, List.mem_filter, beq_iff_eq]
  constructor
  · rintro ⟨t, ⟨_, h2⟩, h3⟩
    obtain ⟨b, hb, hc, hm, rfl⟩ := rowOf_eq_some.1 h3
    refine ⟨mem_inputRows.2 ⟨t.1, b, hb, rfl, rfl, hc, hm⟩, ?_⟩
    simpa [hb] using h2
  · rintro ⟨h, rfl⟩
    obtain ⟨n1, b, hb, h1, h2, h3, h4⟩ := mem_inputRows.1 h
    have hr : rowOf bs 0 (n1, r.comp, r.mode) = some r :=
      rowOf_eq_some.2 ⟨b, hb, h3, h4, by cases r; simp_all⟩
    have hl := lookup_hierarchy bs 0 0 (n1, r.comp, r.mode)
    rw [hr] at hl
    exact ⟨(n1, r.comp, r.mode), ⟨mem_visit.2 (lookup_bounds hl), by simp [hb, h2]⟩, hr⟩

theorem rowsOf_pairwise (bs first il dim) : (rowsOf bs il dim).Pairwise (before first il) := by
  unfold rowsOf
  rw [List.pairwise_filterMap]
  have := (visit_pairwise il (hierarchy 0 bs).length (maxLen ((hierarchy 0 bs).map List.length))
    (maxLen ((hierarchy 0 bs).flatMap fun L1 => L1.map List.length)))
  have := List.Pairwise.filter (fun t => (bs[t.1]?).map (·.dim) == some dim) this
  refine this.imp_of_mem fun {x y} hx hy hxy r hr s hs => ?_
  obtain ⟨b, hb, _, _, rfl⟩ := rowOf_eq_some.1 hr
  obtain ⟨c, hc, _, _, rfl⟩ := rowOf_eq_some.1 hs
  simp only [List.mem_filter, hb, hc, Option.map_some, beq_iff_eq, Option.some.injEq] at hx hy
  right
  refine ⟨by simp [hx.2, hy.2], ?_⟩
  simpa [tripleBefore] using hxy

/-- The rows in output order. -/
def outRows (bs : List Block) (first il : Bool) : List Row :=
  let dims := (bs.map (·.dim)).dedup.insertionSort (· ≤ ·)
  (if first then dims else dims.reverse).flatMap (rowsOf bs il)

theorem permutation_eq (bs first il) :
    permutation bs first il = (outRows bs first il).map ((inputRows 0 bs).idxOf ·) := by
  unfold permutation outRows
  simp only [List.map_flatMap]
  congr 1
  funext d
  exact indicesOf_eq bs il d

theorem dims_pairwise (l : List Nat) : (l.dedup.insertionSort (· ≤ ·)).Pairwise (· < ·) := by
  have h1 := List.pairwise_insertionSort (· ≤ ·) l.dedup
  have h2 : (l.dedup.insertionSort (· ≤ ·)).Nodup :=
    (List.perm_insertionSort _ _).nodup_iff.2 (List.nodup_dedup l)
  exact (h1.and h2).imp fun {a b} h => by
    have := h.1
    have := h.2
    omega

theorem outRows_pairwise (bs first il) : (outRows bs first il).Pairwise (before first il) := by
  unfold outRows
  simp only
  rw [List.pairwise_flatMap]
  refine ⟨fun d _ => rowsOf_pairwise bs first il d, ?_⟩
  cases first
  · simp only [Bool.false_eq_true, if_false, List.pairwise_reverse]
    refine (dims_pairwise _).imp fun {a b} h x hx y hy => ?_
    left
    simp [(mem_rowsOf.1 hx).2, (mem_rowsOf.1 hy).2, h]
  · simp only [if_true]
    refine (dims_pairwise _).imp fun {a b} h x hx y hy => ?_
    left
    simp [(mem_rowsOf.1 hx).2, (mem_rowsOf.1 hy).2, h]

theorem mem_outRows {bs first il r} : r ∈ outRows bs first il ↔ r ∈ inputRows 0 bs := by
  unfold outRows
  simp only [List.mem_flatMap, mem_rowsOf]
  constructor
  · rintro ⟨_, _, h, _⟩; exact h
  · intro h
    refine ⟨r.dim, ?_, h, rfl⟩
    obtain ⟨n1, b, hb, _, h2, _⟩ := mem_inputRows.1 h
    have : r.dim ∈ bs.map (·.dim) := by rw [h2]; exact List.mem_map_of_mem (List.mem_of_getElem? hb)
    split
    · simpa using this
    · simpa using this

theorem before_irrefl (first il r) : ¬ before first il r r := by
  unfold before; cases first <;> cases il <;> simp

theorem outRows_nodup (bs first il) : (outRows bs first il).Nodup :=
  (outRows_pairwise bs first il).imp fun {a b} h e => by
    subst e; exact before_irrefl _ _ _ h

theorem inputRows_nodup : ∀ (bs : List Block) k, (inputRows k bs).Nodup
  | [], k => by simp [inputRows]
  | b :: bs, k => by
      rw [inputRows_cons, List.nodup_append]
      refine ⟨?_, inputRows_nodup bs _, ?_⟩
      · unfold compRows
        rw [List.nodup_flatMap]
        refine ⟨fun c _ => List.Nodup.map (fun a b h => by simpa using h) List.nodup_range, ?_⟩
        refine (List.nodup_range' (step := 1)).imp fun {x y} h => ?_
        intro r hx hy
        obtain ⟨_, _, rfl⟩ := List.mem_map.1 hx
        obtain ⟨_, _, e⟩ := List.mem_map.1 hy
        simp at e; exact h e.1.symm
      · intro x hx y hy e
        subst e
        have h1 := mem_compRows.1 hx
        obtain ⟨n1, _, _, h2, _⟩ := mem_inputRows.1 hy
        omega

theorem map_idxOf_self {α} [DecidableEq α] (l : List α) (h : l.Nodup) : l.map (l.idxOf ·) = List.range l.length := by
  apply List.ext_getElem
  · simp
  · intro i h1 h2
    simp [h.idxOf_getElem i (by simpa using h1)]

end Dedalus.Perm
