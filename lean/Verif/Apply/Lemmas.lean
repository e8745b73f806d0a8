import Mathlib.Tactic.Ring
import Mathlib.Data.List.Nodup
import Mathlib.Data.List.InsertIdx
import Verif.Apply.Spec
import Verif.Csr.Props

namespace Dedalus.Apply

variable {K : Type}

theorem InRange.length {s i : List Nat} (h : InRange s i) : i.length = s.length := List.Forall₂.length_eq h

theorem inRange_iff {s i : List Nat} :
    InRange s i ↔ i.length = s.length ∧ ∀ k (h : k < i.length) (h' : k < s.length), i[k] < s[k] := by
  unfold InRange
  rw [List.forall₂_iff_get]
  simp

theorem ravel_lt : ∀ {s i : List Nat}, InRange s i → ravel s i < prod s
  | [], [], _ => by simp [ravel, prod]
  | n :: s, i :: is, h => by
    cases h with
    | cons h1 h2 =>
      have := ravel_lt (s := s) h2
      simp only [ravel, prod]
      calc i * prod s + ravel s is < i * prod s + prod s := by omega
        _ = (i + 1) * prod s := by ring
        _ ≤ n * prod s := Nat.mul_le_mul_right _ h1

theorem unravel_ravel : ∀ {s i : List Nat}, InRange s i → unravel s (ravel s i) = i
  | [], [], _ => rfl
  | n :: s, i :: is, h => by
    cases h with
    | cons h1 h2 =>
      have hl := ravel_lt (s := s) h2
      simp only [ravel, unravel]
      rw [Nat.add_comm, Nat.add_mul_div_right _ _ (by omega), Nat.div_eq_of_lt hl, Nat.add_mul_mod_self_right,
        Nat.mod_eq_of_lt hl, unravel_ravel h2, Nat.zero_add]

theorem mem_indices : ∀ {s i : List Nat}, i ∈ indices s ↔ InRange s i
  | [], i => by
    simp only [indices, List.mem_singleton, InRange]
    exact ⟨fun h => by rw [h]; exact List.Forall₂.nil, fun h => by cases h; rfl⟩
  | n :: s, [] => by
    simp only [indices, List.mem_flatMap, List.mem_map, InRange]
    constructor
    · rintro ⟨_, _, _, _, h⟩
      cases h
    · intro h
      cases h
  | n :: s, i :: is => by
    simp only [indices, List.mem_flatMap, List.mem_map, List.mem_range]
    constructor
    · rintro ⟨k, hk, t, ht, h⟩
      injection h with h1 h2
      subst h1 h2
      exact List.Forall₂.cons hk (mem_indices.1 ht)
    · intro h
      cases h with
      | cons h1 h2 => exact ⟨i, h1, is, mem_indices.2 h2, rfl⟩

theorem update_get (v : View) (f : List Nat → K → K) (P : List Nat → Prop)
    (hv : ∀ i j, P i → P j → v.addr i = v.addr j → i = j) :
    ∀ (l : List (List Nat)) (mem : Mem K), l.Nodup → (∀ i ∈ l, P i) → ∀ i ∈ l,
      update v f l mem (v.addr i) = f i (mem (v.addr i))
  | j :: l, mem, hn, hp, i, hi => by
    simp only [update]
    rw [List.nodup_cons] at hn
    rcases List.mem_cons.1 hi with e | h
    · subst e
      have : ∀ (l : List (List Nat)) (m : Mem K), (∀ j ∈ l, P j) → i ∉ l → update v f l m (v.addr i) = m (v.addr i) := by
        intro l
        induction l with
        | nil => intro m _ _; rfl
        | cons a l ih =>
          intro m hl hn
          rw [List.mem_cons, not_or] at hn
          simp only [update]
          rw [ih _ (fun j hj => hl j (List.mem_cons_of_mem _ hj)) hn.2, if_neg]
          intro e
          exact hn.1 (hv _ _ (hp _ (List.mem_cons_self ..)) (hl _ (List.mem_cons_self ..)) e)
      rw [this l _ (fun j hj => hp j (List.mem_cons_of_mem _ hj)) hn.1, if_pos rfl]
    · rw [update_get v f P hv l _ hn.2 (fun j hj => hp j (List.mem_cons_of_mem _ hj)) i h, if_neg]
      intro e
      have := hv _ _ (hp i hi) (hp j (List.mem_cons_self ..)) e
      exact hn.1 (this ▸ h)

theorem update_other (v : View) (f : List Nat → K → K) (p : Nat) :
    ∀ (l : List (List Nat)) (mem : Mem K), (∀ i ∈ l, v.addr i ≠ p) → update v f l mem p = mem p
  | [], _, _ => rfl
  | j :: l, mem, h => by
    simp only [update]
    rw [update_other v f p l _ (fun i hi => h i (List.mem_cons_of_mem _ hi)),
      if_neg fun e => h j (List.mem_cons_self ..) e.symm]

theorem indices_nodup : ∀ s : List Nat, (indices s).Nodup
  | [] => by simp [indices]
  | n :: s => by
    simp only [indices]
    rw [List.nodup_flatMap]
    refine ⟨fun i _ => (indices_nodup s).map (fun a b h => by injection h), ?_⟩
    refine List.Pairwise.imp ?_ List.nodup_range
    intro a b hab
    simp only [Function.onFun, List.disjoint_left, List.mem_map]
    rintro l ⟨_, _, e⟩ ⟨_, _, e'⟩
    rw [← e'] at e
    injection e with e1 _
    exact hab e1

theorem update_wrote (v : View) (hv : Distinct v) (f : List Nat → K → K) (l : List (List Nat)) (hn : l.Nodup)
    (hl : ∀ i, i ∈ l ↔ InRange v.shape i) (mem : Mem K) [Field K] :
    Wrote v (fun i => f i (mem (v.addr i))) mem (update v f l mem) := by
  refine ⟨fun i hi => ?_, fun p hp => ?_⟩
  · exact update_get v f (InRange v.shape) hv l mem hn (fun i h => (hl i).1 h) i ((hl i).2 hi)
  · exact update_other v f p l mem fun i hi => hp i ((hl i).1 hi)

/-! ### Moving an axis -/

theorem filter_range (n s : Nat) (h : s < n) :
    (List.range n).filter (fun k => k != s) = (List.range n).eraseIdx s := by
  have e := (List.nodup_range (n := n)).erase_eq_filter s
  rw [List.erase_eq_eraseIdx_of_idxOf (i := s)] at e
  · rw [e]
  · have := (List.nodup_range (n := n)).idxOf_getElem s (by simpa using h)
    simpa using this

theorem range_eraseIdx (n s k : Nat) :
    ((List.range n).eraseIdx s)[k]? = if k < s then (if k < n then some k else none)
      else (if k + 1 < n then some (k + 1) else none) := by
  rw [List.getElem?_eraseIdx]
  split
  · by_cases h : k < n <;> simp [h]
  · by_cases h : k + 1 < n <;> simp [h]

theorem axesOrder_nodup {n s d : Nat} (h : s < n) (hd : d < n) : (axesOrder n s d).Nodup := by
  unfold axesOrder
  have hp := List.perm_insertIdx s ((List.range n).filter (fun k => k != s)) (i := d) (by
    rw [filter_range n s h, List.length_eraseIdx]
    simp [h]
    try omega)
  rw [hp.nodup_iff, List.nodup_cons]
  exact ⟨by simp, List.nodup_range.filter _⟩

theorem idxOf_of {l : List Nat} (hn : l.Nodup) {k p : Nat} (h : l[k]? = some p) : l.idxOf p = k := by
  obtain ⟨hk, e⟩ := List.getElem?_eq_some_iff.1 h
  rw [← e]
  exact hn.idxOf_getElem k hk

theorem order_front (n s : Nat) (h : s < n) : axesOrder n s 0 = s :: (List.range n).eraseIdx s := by
  unfold axesOrder
  rw [filter_range n s h]
  simp

theorem idxOf_front {n s p : Nat} (h : s < n) (hp : p < n) :
    (axesOrder n s 0).idxOf p = if p = s then 0 else if p < s then p + 1 else p := by
  apply idxOf_of (axesOrder_nodup h (by omega))
  rw [order_front n s h]
  split
  · rename_i e; simp [e]
  · split
    · rename_i h1 h2
      rw [List.getElem?_cons_succ, range_eraseIdx, if_pos h2, if_pos hp]
    · rename_i h1 h2
      obtain ⟨q, rfl⟩ : ∃ q, p = q + 1 := ⟨p - 1, by omega⟩
      rw [List.getElem?_cons_succ, range_eraseIdx, if_neg (by omega), if_pos hp]

theorem idxOf_back {n d p : Nat} (hd : d < n) (hp : p < n) :
    (axesOrder n 0 d).idxOf p = if p = 0 then d else if p ≤ d then p - 1 else p := by
  apply idxOf_of (axesOrder_nodup (by omega) hd)
  unfold axesOrder
  rw [filter_range n 0 (by omega), List.getElem?_insertIdx]
  have hl : ((List.range n).eraseIdx 0).length = n - 1 := by rw [List.length_eraseIdx]; simp; omega
  split
  · rename_i e
    rw [if_neg (by omega), if_pos rfl, if_pos (by omega), e]
  · rename_i e
    split
    · rename_i h2
      rw [if_pos (by omega), range_eraseIdx, if_neg (by omega), if_pos (by omega)]
      congr 1
      omega
    · rename_i h2
      rw [if_neg (by omega), if_neg (by omega), range_eraseIdx, if_neg (by omega), if_pos (by omega)]
      congr 1
      omega

theorem filterMap_getElem {α : Type} (l : List Nat) (f : Nat → Option α) (t : List α) (hlen : t.length = l.length)
    (h : ∀ k (hk : k < l.length), f l[k] = t[k]?) : l.filterMap f = t := by
  induction l generalizing t with
  | nil => cases t with
    | nil => rfl
    | cons a t => simp at hlen
  | cons a l ih =>
    cases t with
    | nil => simp at hlen
    | cons b t =>
      have h0 := h 0 (by simp)
      simp only [List.getElem_cons_zero, List.getElem?_cons_zero] at h0
      rw [List.filterMap_cons, h0]
      simp only
      rw [ih t (by simpa using hlen)]
      intro k hk
      have := h (k + 1) (by simpa using hk)
      simpa using this

theorem front_index {n s : Nat} (h : s < n) (i : Nat) (e : List Nat) (he : e.length + 1 = n) :
    (List.range n).filterMap (fun p => (i :: e)[(axesOrder n s 0).idxOf p]?) = e.insertIdx s i := by
  apply filterMap_getElem
  · rw [List.length_insertIdx, if_pos (by omega)]; simp [he]
  · intro p hp
    simp only [List.length_range] at hp
    simp only [List.getElem_range]
    rw [idxOf_front h hp, List.getElem?_insertIdx]
    split
    · rename_i e1
      rw [if_neg (by omega), if_pos (by omega)]
      rfl
    · split
      · simp
      · rename_i e1 e2
        obtain ⟨q, rfl⟩ : ∃ q, p = q + 1 := ⟨p - 1, by omega⟩
        simp

theorem back_index {n d : Nat} (hd : d < n) (idx : List Nat) (hl : idx.length = n) (i : Nat) (hi : idx[d]? = some i) :
    (List.range n).filterMap (fun p => idx[(axesOrder n 0 d).idxOf p]?) = i :: idx.eraseIdx d := by
  apply filterMap_getElem
  · rw [List.length_cons, List.length_eraseIdx, if_pos (by omega)]; simp; omega
  · intro p hp
    simp only [List.length_range] at hp
    simp only [List.getElem_range]
    rw [idxOf_back hd hp]
    split
    · rename_i e; subst e; simpa using hi
    · rename_i e
      obtain ⟨q, rfl⟩ : ∃ q, p = q + 1 := ⟨p - 1, by omega⟩
      rw [List.getElem?_cons_succ, List.getElem?_eraseIdx]
      split
      · rw [if_pos (by omega)]; simp
      · rw [if_neg (by omega)]

theorem front_shape {s : Nat} (shape : List Nat) (h : s < shape.length) :
    (axesOrder shape.length s 0).filterMap (shape[·]?) = shape[s] :: shape.eraseIdx s := by
  rw [order_front _ _ h, List.filterMap_cons, List.getElem?_eq_getElem h]
  simp only
  congr 1
  apply filterMap_getElem
  · rw [List.length_eraseIdx, List.length_eraseIdx]; simp
  · intro k hk
    have e := range_eraseIdx shape.length s k
    rw [List.getElem?_eq_getElem hk] at e
    rw [List.getElem?_eraseIdx]
    split at e
    · rename_i h1
      rw [if_pos h1]
      split at e
      · simp only [Option.some.injEq] at e; rw [e]
      · cases e
    · rename_i h1
      rw [if_neg h1]
      split at e
      · simp only [Option.some.injEq] at e; rw [e]
      · cases e

theorem back_shape {d : Nat} (r : Nat) (rest : List Nat) (h : d < rest.length + 1) :
    (axesOrder (rest.length + 1) 0 d).filterMap ((r :: rest)[·]?) = rest.insertIdx d r := by
  have hlen : (axesOrder (rest.length + 1) 0 d).length = rest.length + 1 := by
    unfold axesOrder
    rw [filter_range _ 0 (by omega), List.length_insertIdx, List.length_eraseIdx]
    simp
    omega
  apply filterMap_getElem
  · rw [List.length_insertIdx, hlen]; split <;> omega
  · intro k hk
    have hk' : k < rest.length + 1 := by omega
    have e : (axesOrder (rest.length + 1) 0 d)[k]? = some (axesOrder (rest.length + 1) 0 d)[k] :=
      List.getElem?_eq_getElem hk
    generalize (axesOrder (rest.length + 1) 0 d)[k] = q at e ⊢
    unfold axesOrder at e
    rw [filter_range _ 0 (by omega), List.getElem?_insertIdx] at e
    rw [List.getElem?_insertIdx]
    split at e
    · rename_i h1
      rw [range_eraseIdx, if_neg (by omega), if_pos (by omega)] at e
      simp only [Option.some.injEq] at e
      subst e
      rw [if_pos h1]
      simp
    · rename_i h1
      rw [if_neg h1]
      split at e
      · rename_i h2
        rw [if_pos (by rw [List.length_eraseIdx]; simp; omega)] at e
        simp only [Option.some.injEq] at e
        subst e
        rw [if_pos h2, if_pos (by omega)]
        rfl
      · rename_i h2
        rw [range_eraseIdx, if_neg (by omega), if_pos (by omega)] at e
        simp only [Option.some.injEq] at e
        subst e
        rw [if_neg h2]
        simp

theorem insert_erase (idx : List Nat) (d j : Nat) (h : d < idx.length) : (idx.eraseIdx d).insertIdx d j = idx.set d j := by
  apply List.ext_getElem?
  intro k
  rw [List.getElem?_insertIdx, List.getElem?_set, List.getElem?_eraseIdx, List.getElem?_eraseIdx, List.length_eraseIdx]
  rw [if_pos h]
  by_cases h1 : k < d
  · rw [if_pos h1, if_pos h1, if_neg (by omega)]
  · rw [if_neg h1]
    by_cases h2 : k = d
    · subst h2
      rw [if_pos rfl, if_pos rfl, if_pos (by omega), if_pos h]
    · rw [if_neg h2, if_neg (by omega), if_neg (by omega)]
      congr 1
      omega

theorem inRange_erase {s idx : List Nat} {d : Nat} (h : InRange s idx) : InRange (s.eraseIdx d) (idx.eraseIdx d) := by
  induction h generalizing d with
  | nil => exact List.Forall₂.nil
  | cons h1 h2 ih =>
    cases d with
    | zero => exact h2
    | succ d => exact List.Forall₂.cons h1 ih

/-! ### The dense product -/

theorem prod_eraseIdx : ∀ (s : List Nat) (d : Nat) (h : d < s.length), prod s = s[d] * prod (s.eraseIdx d)
  | n :: s, 0, _ => by simp [prod]
  | n :: s, d + 1, h => by
    have := prod_eraseIdx s d (by simpa using h)
    simp only [prod, List.eraseIdx_cons_succ, List.getElem_cons_succ]
    rw [this]
    ring

theorem moved_shape (a : Arr K) (d : Nat) (h : d < a.shape.length) :
    (moveAxis a d 0).shape = a.shape[d] :: a.shape.eraseIdx d := front_shape a.shape h

theorem moved_get (a : Arr K) (d : Nat) (h : d < a.shape.length) (i : Nat) (e : List Nat) (he : e.length + 1 = a.shape.length) :
    (moveAxis a d 0).get (i :: e) = a.get (e.insertIdx d i) := by
  unfold moveAxis transpose
  simp only
  rw [front_index h i e he]

/-- The first lines of the dense product: the axis in front. -/
theorem front (a : Arr K) (d : Nat) (h : d < a.shape.length) :
    (if d ≠ 0 then moveAxis a d 0 else a).shape = a.shape[d] :: a.shape.eraseIdx d ∧
    ∀ i e, e.length + 1 = a.shape.length → (if d ≠ 0 then moveAxis a d 0 else a).get (i :: e) = a.get (e.insertIdx d i) := by
  by_cases h0 : d = 0
  · subst h0
    rw [if_neg (by simp)]
    obtain ⟨shape, get⟩ := a
    cases shape with
    | nil => simp at h
    | cons n s => exact ⟨by simp, fun i e _ => by simp⟩
  · rw [if_pos h0]
    exact ⟨moved_shape a d h, fun i e he => moved_get a d h i e he⟩

/-- The last lines: the axis back in its place. -/
theorem back (t : Arr K) (r : Nat) (rest : List Nat) (ht : t.shape = r :: rest) (d : Nat) (h : d < rest.length + 1) :
    (if d ≠ 0 then moveAxis t 0 d else t).shape = rest.insertIdx d r ∧
    ∀ idx i, idx.length = rest.length + 1 → idx[d]? = some i →
      (if d ≠ 0 then moveAxis t 0 d else t).get idx = t.get (i :: idx.eraseIdx d) := by
  have hn : t.shape.length = rest.length + 1 := by rw [ht]; rfl
  by_cases h0 : d = 0
  · subst h0
    rw [if_neg (by simp)]
    refine ⟨by rw [ht]; simp, fun idx i hl hi => ?_⟩
    cases idx with
    | nil => simp at hl
    | cons j idx =>
      simp only [List.getElem?_cons_zero, Option.some.injEq] at hi
      rw [hi]
      rfl
  · rw [if_pos h0]
    refine ⟨?_, fun idx i hl hi => ?_⟩
    · have := back_shape r rest h
      unfold moveAxis transpose
      simp only [hn, ht]
      exact this
    · unfold moveAxis transpose
      simp only [hn]
      rw [back_index h idx hl i hi]

variable [Field K]

/-- The product of two-dimensional arrays, for arrays of any dimension with the axis in front. -/
theorem middle (M : Mat K) (a : Arr K) (rest : List Nat) (hs : a.shape = M.cols :: rest) (h0 : M.cols ≠ 0 ∨ rest.length ≤ 1) :
    ∃ t, ((if 2 < rest.length + 1 then flatten a else .ok a).bind fun a2 => (matmul M a2).bind fun t =>
      (if 2 < rest.length + 1 then reshape t (t.shape.take 1 ++ a.shape.drop 1) else .ok t)) = .ok t ∧
      t.shape = M.rows :: rest ∧
      ∀ i e, i < M.rows → InRange rest e → t.get (i :: e) = ∑ j ∈ Finset.range M.cols, M.get i j * a.get (j :: e) := by
  by_cases hd : 2 < rest.length + 1
  · have hc : M.cols ≠ 0 := by omega
    have hp : prod (M.cols :: rest) / M.cols = prod rest := by
      simp only [prod]
      exact Nat.mul_div_cancel_left _ (by omega)
    have e1 : flatten a = .ok ⟨[M.cols, prod rest], fun idx => a.get (unravel a.shape (ravel [M.cols, prod rest] idx))⟩ := by
      unfold flatten
      rw [hs]
      simp only
      rw [if_neg hc, hp]
      unfold reshape
      rw [hs, if_pos (by simp [prod])]
    simp only [if_pos hd, e1, Except.bind, matmul, if_true]
    unfold reshape
    rw [if_pos (by simp [hs, prod])]
    refine ⟨_, rfl, by simp [hs], fun i e hi he => ?_⟩
    have hl := ravel_lt he
    have e2 : unravel [M.rows, prod rest] (ravel (M.rows :: rest) (i :: e)) = [i, ravel rest e] := by
      have := unravel_ravel (s := [M.rows, prod rest]) (i := [i, ravel rest e])
        (List.Forall₂.cons hi (List.Forall₂.cons hl List.Forall₂.nil))
      rw [← this]
      congr 1
      simp [ravel, prod]
    simp only [List.take_succ_cons, List.take_zero, hs, List.drop_succ_cons, List.drop_zero, List.cons_append, List.nil_append]
    rw [e2]
    simp only
    refine Finset.sum_congr rfl fun j hj => ?_
    have hj' : j < M.cols := Finset.mem_range.1 hj
    have e3 : ravel [M.cols, prod rest] [j, ravel rest e] = ravel (M.cols :: rest) (j :: e) := by simp [ravel, prod]
    rw [e3, unravel_ravel (List.Forall₂.cons hj' he)]
  · simp only [if_neg hd, Except.bind]
    match rest, hs, hd with
    | [], hs, _ =>
      simp only [matmul, hs, if_true]
      refine ⟨_, rfl, rfl, fun i e _ he => ?_⟩
      cases he
      rfl
    | [m], hs, _ =>
      simp only [matmul, hs, if_true]
      refine ⟨_, rfl, rfl, fun i e _ he => ?_⟩
      cases he with
      | cons h1 h2 => cases h2; rfl
    | _ :: _ :: _, _, hd => simp at hd

theorem axis_mod {n ax : Nat} {axis : Int} (h : IsAxis n axis ax) : (axis % (n : Int)).toNat = ax := by
  obtain ⟨h1, h2 | h2⟩ := h
  · rw [h2, Int.emod_eq_of_lt (by omega) (by omega)]; rfl
  · have : axis % (n : Int) = ax := by
      rw [h2, Int.sub_emod_right, Int.emod_eq_of_lt (by omega) (by omega)]
    rw [this]; rfl

theorem insert_set (s : List Nat) (d r : Nat) (h : d < s.length) : (s.eraseIdx d).insertIdx d r = s.set d r :=
  insert_erase s d r h

theorem denseTemp_ok (M : Mat K) (a : Arr K) (axis : Int) (ax : Nat) (hax : IsAxis a.shape.length axis ax)
    (hc : a.shape[ax]? = some M.cols) (h0 : M.cols ≠ 0 ∨ a.shape.length ≤ 2) :
    ∃ t, denseTemp M a axis = .ok t ∧ t.shape = a.shape.set ax M.rows ∧
      ∀ idx, InRange t.shape idx → t.get idx = product M.get M.cols ax a.get idx := by
  have hl := hax.1
  obtain ⟨_, hc'⟩ := List.getElem?_eq_some_iff.1 hc
  obtain ⟨f1, f2⟩ := front a ax hl
  rw [hc'] at f1
  have hrl : (a.shape.eraseIdx ax).length + 1 = a.shape.length := by rw [List.length_eraseIdx, if_pos hl]; omega
  obtain ⟨t, e1, e2, e3⟩ := middle M _ _ f1 (by omega)
  obtain ⟨b1, b2⟩ := back t M.rows _ e2 ax (by omega)
  refine ⟨if ax ≠ 0 then moveAxis t 0 ax else t, ?_, ?_, ?_⟩
  · unfold denseTemp
    simp only
    rw [if_neg (by omega), axis_mod hax]
    rw [hrl] at e1
    generalize hx : (if ax ≠ 0 then moveAxis a ax 0 else a) = a1 at e1 ⊢
    generalize hf : (if 2 < a.shape.length then flatten a1 else Except.ok a1) = q at e1 ⊢
    cases q with
    | error e => cases e1
    | ok a2 =>
      simp only [Except.bind] at e1 ⊢
      generalize matmul M a2 = q2 at e1 ⊢
      cases q2 with
      | error e => cases e1
      | ok t2 =>
        simp only at e1 ⊢
        rw [e1]
  · rw [b1, insert_set _ _ _ hl]
  · rw [b1, insert_set _ _ _ hl]
    intro idx hi
    have hlen : idx.length = a.shape.length := by rw [hi.length]; simp
    have hlt : ax < idx.length := by omega
    have hg := List.getElem?_eq_getElem hlt
    rw [b2 idx _ (by omega) hg]
    have hb := (inRange_iff.1 hi).2 ax hlt (by simp; omega)
    rw [List.getElem_set_self] at hb
    have her : InRange (a.shape.eraseIdx ax) (idx.eraseIdx ax) := by
      have := inRange_erase (d := ax) hi
      rwa [List.eraseIdx_set_eq] at this
    rw [e3 _ _ hb her]
    unfold product
    rw [hg]
    simp only
    refine Finset.sum_congr rfl fun j _ => ?_
    rw [f2 j _ (by rw [List.length_eraseIdx, if_pos hlt]; omega), insert_erase idx ax j hlt]

end Dedalus.Apply
