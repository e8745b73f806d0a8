import Verif.Apply.Lemmas

namespace Dedalus.Apply

open Dedalus.Csr (Schedule entry Valid)

variable {K : Type} [Field K]

/-! ### Contiguous views -/

theorem dot_single : ∀ (t : List Nat) (k : Nat) (h : k < t.length), dot t ((List.replicate t.length 0).set k 1) = t[k]
  | t :: ts, 0, _ => by
    have : ∀ (ts : List Nat), dot ts (List.replicate ts.length 0) = 0 := by
      intro ts
      induction ts with
      | nil => rfl
      | cons a l ih => simp [List.replicate_succ, dot, ih]
    simp [List.replicate_succ, dot, this]
  | t :: ts, k + 1, h => by
    have := dot_single ts k (by simpa using h)
    simp [List.replicate_succ, dot, this]

theorem contig_of_order : ∀ (s t : List Nat), t.length = s.length → (∀ n ∈ s, n ≠ 0) →
    (∀ idx, InRange s idx → dot t idx = ravel s idx) → contigAxes s t = true
  | [], [], _, _, _ => rfl
  | n :: s, u :: t, hl, hz, h => by
    have zero : InRange s (List.replicate s.length 0) := by
      rw [inRange_iff]
      refine ⟨by simp, fun k h1 h2 => ?_⟩
      rw [List.getElem_replicate]
      have := hz s[k] (List.mem_cons_of_mem _ (List.getElem_mem _))
      omega
    have dz : ∀ (w r : List Nat), dot w (List.replicate r.length 0) = 0 := by
      intro w
      induction w with
      | nil => intro r; cases r <;> rfl
      | cons a l ih =>
        intro r
        cases r with
        | nil => rfl
        | cons b r => simp [List.replicate_succ, dot, ih r]
    have rz : ∀ (w : List Nat), ravel w (List.replicate w.length 0) = 0 := by
      intro w
      induction w with
      | nil => rfl
      | cons a l ih => simp [List.replicate_succ, ravel, ih]
    simp only [contigAxes, Bool.and_eq_true, Bool.or_eq_true, beq_iff_eq]
    refine ⟨?_, ?_⟩
    · by_cases hn : n = 1
      · exact Or.inl hn
      · right
        have h0 : n ≠ 0 := hz n (List.mem_cons_self ..)
        have := h (1 :: List.replicate s.length 0) (List.Forall₂.cons (by omega) zero)
        simp only [dot, ravel, dz t s, rz s] at this
        omega
    · refine contig_of_order s t (by simpa using hl) (fun m hm => hz m (List.mem_cons_of_mem _ hm)) fun idx hi => ?_
      have h0 : n ≠ 0 := hz n (List.mem_cons_self ..)
      have := h (0 :: idx) (List.Forall₂.cons (by omega) hi)
      simpa [dot, ravel] using this
  | [], _ :: _, hl, _, _ => by simp at hl
  | _ :: _, [], hl, _, _ => by simp at hl

theorem inOrder_contig {v : View} (h : InOrder v) : v.contig = true := by
  unfold View.contig
  by_cases hz : 0 ∈ v.shape
  · have : v.shape.contains 0 = true := by simpa using hz
    rw [this]; rfl
  · rw [contig_of_order v.shape v.strides h.1 (fun n hn e => hz (e ▸ hn))]
    · simp
    · intro idx hi
      have := h.2 idx hi
      unfold View.addr at this
      omega

theorem contig_dot : ∀ (s t idx : List Nat), contigAxes s t = true → InRange s idx → dot t idx = ravel s idx
  | [], [], [], _, _ => rfl
  | n :: s, u :: t, i :: idx, h, hi => by
    simp only [contigAxes, Bool.and_eq_true, Bool.or_eq_true, beq_iff_eq] at h
    cases hi with
    | cons h1 h2 =>
      simp only [dot, ravel]
      rw [contig_dot s t idx h.2 h2]
      rcases h.1 with e | e
      · have : i = 0 := by omega
        subst this; simp
      · rw [e]; ring

theorem cStrides_length : ∀ s : List Nat, (cStrides s).length = s.length
  | [] => rfl
  | _ :: s => by simp [cStrides, cStrides_length s]

theorem cStrides_dot : ∀ (s idx : List Nat), InRange s idx → dot (cStrides s) idx = ravel s idx
  | [], [], _ => rfl
  | n :: s, i :: idx, hi => by
    cases hi with
    | cons h1 h2 =>
      simp only [cStrides, dot, ravel]
      rw [cStrides_dot s idx h2]
      ring

theorem new_inOrder (base : Nat) (s : List Nat) : InOrder ⟨base, s, cStrides s⟩ :=
  ⟨cStrides_length s, fun idx hi => by unfold View.addr; rw [cStrides_dot s idx hi]⟩

theorem inOrder_distinct {v : View} (h : InOrder v) : Distinct v := by
  intro i j hi hj e
  rw [h.2 i hi, h.2 j hj] at e
  have : ravel v.shape i = ravel v.shape j := by omega
  rw [← unravel_ravel hi, ← unravel_ravel hj, this]

/-! ### The axis in the middle -/

theorem prod_append : ∀ s t : List Nat, prod (s ++ t) = prod s * prod t
  | [], t => by simp [prod]
  | n :: s, t => by simp only [List.cons_append, prod, prod_append s t]; ring

theorem ravel_append : ∀ (s t i j : List Nat), i.length = s.length → ravel (s ++ t) (i ++ j) = ravel s i * prod t + ravel t j
  | [], t, [], j, _ => by simp [ravel]
  | n :: s, t, i :: is, j, h => by
    simp only [List.cons_append, ravel]
    rw [ravel_append s t is j (by simpa using h), prod_append]
    ring

theorem split_list {α : Type} (l : List α) (d : Nat) (h : d < l.length) : l = l.take d ++ l[d] :: l.drop (d + 1) := by
  rw [← List.drop_eq_getElem_cons h, List.take_append_drop]

theorem inRange_take {s i : List Nat} (d : Nat) (h : InRange s i) : InRange (s.take d) (i.take d) := List.forall₂_take d h
theorem inRange_drop {s i : List Nat} (d : Nat) (h : InRange s i) : InRange (s.drop d) (i.drop d) := List.forall₂_drop d h

theorem overlap_false {a b : View} (h : Apart a b) : overlap a b = false := by
  unfold overlap
  rw [List.any_eq_false]
  intro i hi
  rw [Bool.not_eq_true, List.any_eq_false]
  intro j hj
  simpa using h i j (mem_indices.1 hi) (mem_indices.1 hj)

theorem prod_split (s : List Nat) (d r : Nat) (h : d < s.length) :
    prod (s.set d r) = prod (s.take d) * r * prod (s.drop (d + 1)) := by
  rw [List.set_eq_take_append_cons_drop, if_pos h, prod_append]
  simp only [prod]
  ring

theorem unravel_inRange : ∀ (s : List Nat) (r : Nat), r < prod s → InRange s (unravel s r)
  | [], _, _ => List.Forall₂.nil
  | n :: s, r, h => by
    simp only [prod] at h
    have hp : 0 < prod s := by
      rcases Nat.eq_zero_or_pos (prod s) with e | e
      · rw [e] at h; simp at h
      · exact e
    exact List.Forall₂.cons (Nat.div_lt_of_lt_mul (by rwa [Nat.mul_comm])) (unravel_inRange s _ (Nat.mod_lt _ hp))

theorem ravel_unravel : ∀ (s : List Nat) (r : Nat), r < prod s → ravel s (unravel s r) = r
  | [], r, h => by simp [prod] at h; simp [ravel, h]
  | n :: s, r, h => by
    simp only [prod] at h
    have hp : 0 < prod s := by
      rcases Nat.eq_zero_or_pos (prod s) with e | e
      · rw [e] at h; simp at h
      · exact e
    simp only [unravel, ravel]
    rw [ravel_unravel s _ (Nat.mod_lt _ hp)]
    exact Nat.div_add_mod' r (prod s)

theorem runCsr_wrote (S : Sparse K) (hv : Valid S.A S.rows S.cols) (a out : View) (ax : Nat) (hax : ax < a.shape.length)
    (hs : out.shape = a.shape.set ax S.rows) (hc : a.shape[ax]? = some S.cols) (ho : InOrder out) (order : List Nat)
    (hord : Schedule order (if prod (a.shape.take ax) = 1 then S.rows else prod (a.shape.take ax) * S.rows)) (mem : Mem K) :
    Wrote out (product (entry S.A) S.cols ax (fun i => mem (a.addr i))) mem (runCsr S.A a out ax S.rows order mem) := by
  have hsize : prod out.shape = prod (a.shape.take ax) * S.rows * prod (a.shape.drop (ax + 1)) := by
    rw [hs, prod_split _ _ _ hax]
  constructor
  · intro idx hi
    have hi' := hi
    rw [hs] at hi'
    have hlen : idx.length = a.shape.length := by rw [hi'.length]; simp
    have hlt : ax < idx.length := by omega
    have hb := (inRange_iff.1 hi').2 ax hlt (by simp; omega)
    rw [List.getElem_set_self] at hb
    have hbefore : InRange (a.shape.take ax) (idx.take ax) := by
      have := inRange_take ax hi'
      rwa [List.take_set_of_le (by omega)] at this
    have hafter : InRange (a.shape.drop (ax + 1)) (idx.drop (ax + 1)) := by
      have := inRange_drop (ax + 1) hi'
      rwa [List.drop_set_of_lt (by omega)] at this
    have hr : ravel out.shape idx = (ravel (a.shape.take ax) (idx.take ax) * S.rows + idx[ax]) * prod (a.shape.drop (ax + 1)) +
        ravel (a.shape.drop (ax + 1)) (idx.drop (ax + 1)) := by
      conv_lhs => rw [hs, List.set_eq_take_append_cons_drop, if_pos hax, split_list idx ax hlt]
      rw [ravel_append _ _ _ _ (by simp; omega)]
      simp only [ravel, prod]
      ring
    have l1 := ravel_lt hbefore
    have l3 := ravel_lt hafter
    have hin := ravel_lt hi
    rw [ho.2 idx hi]
    unfold runCsr
    rw [if_pos ⟨by omega, by rw [← hsize]; omega⟩, Nat.add_sub_cancel_left, hr]
    have d3 : ∀ q, (q * prod (a.shape.drop (ax + 1)) + ravel (a.shape.drop (ax + 1)) (idx.drop (ax + 1))) / prod (a.shape.drop (ax + 1)) = q := by
      intro q
      rw [Nat.add_comm, Nat.add_mul_div_right _ _ (by omega), Nat.div_eq_of_lt l3, Nat.zero_add]
    have d4 : ∀ q, (q * prod (a.shape.drop (ax + 1)) + ravel (a.shape.drop (ax + 1)) (idx.drop (ax + 1))) % prod (a.shape.drop (ax + 1)) =
        ravel (a.shape.drop (ax + 1)) (idx.drop (ax + 1)) := by
      intro q
      rw [Nat.add_comm, Nat.add_mul_mod_self_right, Nat.mod_eq_of_lt l3]
    rw [d3, d4]
    have d1 : (ravel (a.shape.take ax) (idx.take ax) * S.rows + idx[ax]) / S.rows = ravel (a.shape.take ax) (idx.take ax) := by
      rw [Nat.add_comm, Nat.add_mul_div_right _ _ (by omega), Nat.div_eq_of_lt hb, Nat.zero_add]
    have d2 : (ravel (a.shape.take ax) (idx.take ax) * S.rows + idx[ax]) % S.rows = idx[ax] := by
      rw [Nat.add_comm, Nat.add_mul_mod_self_right, Nat.mod_eq_of_lt hb]
    rw [d1, d2, Csr.apply_csr_applies S.A _ S.rows S.cols _ order hv hord _ _ _ _ _ l1 hb l3]
    unfold product
    rw [List.getElem?_eq_getElem hlt]
    simp only
    refine Finset.sum_congr rfl fun j _ => ?_
    rw [unravel_ravel hbefore, unravel_ravel hafter]
    congr 3
    rw [List.set_eq_take_append_cons_drop, if_pos hlt]
  · intro p hp
    unfold runCsr
    rw [if_neg]
    rintro ⟨h1, h2⟩
    rw [← hsize] at h2
    have hlt : p - out.base < prod out.shape := by omega
    refine hp (unravel out.shape (p - out.base)) (unravel_inRange _ _ hlt) ?_
    rw [ho.2 _ (unravel_inRange _ _ hlt), ravel_unravel _ _ hlt]
    omega

end Dedalus.Apply
