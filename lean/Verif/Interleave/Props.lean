import Verif.Interleave.Spec
import Mathlib.Algebra.BigOperators.Ring.Finset
import Mathlib.Tactic.Ring
import Mathlib.Tactic.Linarith

/-!
# Interleaved matrices (C114)
-/

namespace Dedalus.Interleave

variable {K : Type} [CommRing K]

theorem divmod (N i a : Nat) (ha : a < N) : (i * N + a) / N = i ∧ (i * N + a) % N = a := by
  have hN : 0 < N := by omega
  constructor
  · rw [Nat.add_comm, Nat.add_mul_div_right _ _ hN, Nat.div_eq_of_lt ha, Nat.zero_add]
  · rw [Nat.add_comm, Nat.add_mul_mod_self_right, Nat.mod_eq_of_lt ha]

/-- What the sum is after `k` matrices. -/
def Sums (r c N : Nat) (Ms : List (Mat K)) (s : Mat K) : Prop :=
  s.rows = r * N ∧ s.cols = c * N ∧ ∀ i j a b, a < N → b < N →
    s.entry (i * N + a) (j * N + b) = if a = b then (match Ms[a]? with | some M => M.entry i j | none => 0) else 0

theorem kron_point (r c N k : Nat) (M : Mat K) (hr : M.rows = r) (hc : M.cols = c) :
    (kron M (point N k)).rows = r * N ∧ (kron M (point N k)).cols = c * N ∧ ∀ i j a b, a < N → b < N →
      (kron M (point N k)).entry (i * N + a) (j * N + b) = if a = k ∧ b = k then M.entry i j else 0 := by
  refine ⟨by simp [kron, point, hr], by simp [kron, point, hc], fun i j a b ha hb => ?_⟩
  simp only [kron, point, (divmod N i a ha).1, (divmod N i a ha).2, (divmod N j b hb).1, (divmod N j b hb).2]
  split <;> simp

theorem loop_ok (r c N : Nat) (done Ms : List (Mat K)) (hM : ∀ M ∈ Ms, M.rows = r ∧ M.cols = c)
    (s : Option (Mat K)) (hs : (s = none ∧ done = []) ∨ ∃ S, s = some S ∧ Sums r c N done S) (hne : done ++ Ms ≠ []) :
    ∃ S, loop N Ms done.length s = .ok (some S) ∧ Sums r c N (done ++ Ms) S := by
  induction Ms generalizing done s with
  | nil =>
    rcases hs with ⟨-, rfl⟩ | ⟨S, rfl, hS⟩
    · exact absurd rfl hne
    · exact ⟨S, rfl, by rw [List.append_nil]; exact hS⟩
  | cons M Ms ih =>
    obtain ⟨h1, h2, h3⟩ := kron_point r c N done.length M (hM M List.mem_cons_self).1 (hM M List.mem_cons_self).2
    have hstep : ∃ S, add s (kron M (point N done.length)) = .ok S ∧ Sums r c N (done ++ [M]) S := by
      rcases hs with ⟨rfl, rfl⟩ | ⟨S, rfl, q1, q2, q3⟩
      · refine ⟨_, rfl, h1, h2, fun i j a b ha hb => ?_⟩
        rw [h3 i j a b ha hb]
        by_cases hab : a = b
        · subst hab
          cases a with
          | zero => simp
          | succ a => simp
        · rw [if_neg hab, if_neg (by rintro ⟨x, y⟩; exact hab (x.trans y.symm))]
      · refine ⟨⟨S.rows, S.cols, fun i j => S.entry i j + (kron M (point N done.length)).entry i j⟩, ?_, q1, q2,
          fun i j a b ha hb => ?_⟩
        · simp only [add]
          rw [if_pos ⟨q1.trans h1.symm, q2.trans h2.symm⟩]
        · show S.entry _ _ + _ = _
          rw [h3 i j a b ha hb, q3 i j a b ha hb]
          by_cases hab : a = b
          · subst hab
            simp only [if_true, and_self]
            rcases Nat.lt_trichotomy a done.length with h | h | h
            · rw [if_neg (by omega), add_zero, List.getElem?_append_left h]
            · subst h
              rw [if_pos rfl, List.getElem?_eq_none (Nat.le_refl _), List.getElem?_append_right (Nat.le_refl _)]
              simp
            · rw [if_neg (by omega), add_zero, List.getElem?_eq_none (by omega),
                List.getElem?_eq_none (by simp only [List.length_append, List.length_cons, List.length_nil]; omega)]
          · rw [if_neg hab, if_neg hab, if_neg (by rintro ⟨x, y⟩; exact hab (x.trans y.symm)), add_zero]
    obtain ⟨S, e, hS⟩ := hstep
    obtain ⟨S', e', hS'⟩ := ih (done ++ [M]) (fun X hX => hM X (List.mem_cons_of_mem _ hX)) (some S)
      (Or.inr ⟨S, rfl, hS⟩) (by simp)
    refine ⟨S', ?_, by simpa using hS'⟩
    simp only [loop, e]
    rw [List.length_append, List.length_singleton] at e'
    exact e'

theorem interleave_ok (r c : Nat) (Ms : List (Mat K)) (hne : Ms ≠ []) (hM : ∀ M ∈ Ms, M.rows = r ∧ M.cols = c) :
    ∃ S, interleave Ms = .ok (some S) ∧ Sums r c Ms.length Ms S := by
  match Ms, hne with
  | [M], _ =>
    refine ⟨M, rfl, by simp [(hM M List.mem_cons_self).1], by simp [(hM M List.mem_cons_self).2], fun i j a b ha hb => ?_⟩
    have ha : a = 0 := by simpa using ha
    have hb : b = 0 := by simpa using hb
    subst ha hb
    simp
  | M :: M' :: Ms, _ =>
    obtain ⟨S, e, hS⟩ := loop_ok r c (M :: M' :: Ms).length [] (M :: M' :: Ms) hM none (Or.inl ⟨rfl, rfl⟩) (by simp)
    exact ⟨S, e, hS⟩

/-- **C114.** The interleaved matrix of `N` matrices of one shape has `N` times
their shape.  It has the entries of the `a`-th matrix where rows and columns
belong to the `a`-th ell, and zeros where they belong to different ells. -/
theorem interleaved_entries (r c : Nat) (Ms : List (Mat K)) (hne : Ms ≠ []) (hM : ∀ M ∈ Ms, M.rows = r ∧ M.cols = c) :
    ∃ S, interleave Ms = .ok (some S) ∧ S.rows = r * Ms.length ∧ S.cols = c * Ms.length ∧
      (∀ (a : Nat) (M : Mat K), Ms[a]? = some M → ∀ i j, S.entry (i * Ms.length + a) (j * Ms.length + a) = M.entry i j) ∧
      ∀ i j a b, a < Ms.length → b < Ms.length → a ≠ b → S.entry (i * Ms.length + a) (j * Ms.length + b) = 0 := by
  obtain ⟨S, e, h1, h2, h3⟩ := interleave_ok r c Ms hne hM
  refine ⟨S, e, h1, h2, fun a M ha i j => ?_, fun i j a b ha hb hab => by rw [h3 i j a b ha hb, if_neg hab]⟩
  have hlt : a < Ms.length := (List.getElem?_eq_some_iff.1 ha).1
  rw [h3 i j a a hlt hlt, if_pos rfl, ha]

theorem sum_blocks (c N : Nat) (f : Nat → K) :
    ∑ k ∈ Finset.range (c * N), f k = ∑ j ∈ Finset.range c, ∑ b ∈ Finset.range N, f (j * N + b) := by
  induction c with
  | zero => simp
  | succ c ih => rw [Nat.succ_mul, Finset.sum_range_add, ih, Finset.sum_range_succ]

/-- **C114.** Applied to the interleaved data of many ells, the interleaved
matrix applies to the data of each ell its own matrix. -/
theorem interleaved_apply (r c : Nat) (Ms : List (Mat K)) (hne : Ms ≠ []) (hM : ∀ M ∈ Ms, M.rows = r ∧ M.cols = c) :
    ∃ S, interleave Ms = .ok (some S) ∧ ∀ (x : Nat → K) (a : Nat) (M : Mat K), Ms[a]? = some M →
      part Ms.length a (S.apply x) = M.apply (part Ms.length a x) := by
  obtain ⟨S, e, h1, h2, h3⟩ := interleave_ok r c Ms hne hM
  refine ⟨S, e, fun x a M ha => funext fun i => ?_⟩
  have hlt : a < Ms.length := (List.getElem?_eq_some_iff.1 ha).1
  simp only [part, Mat.apply, h2, (hM M (List.mem_of_getElem? ha)).2]
  rw [sum_blocks]
  refine Finset.sum_congr rfl fun j _ => ?_
  rw [Finset.sum_eq_single a]
  · rw [h3 i j a a hlt hlt, if_pos rfl, ha]
  · intro b hb hba
    rw [h3 i j a b hlt (Finset.mem_range.1 hb), if_neg (Ne.symm hba), zero_mul]
  · exact fun h => absurd (Finset.mem_range.2 hlt) h

/-- **C114.** Matrices of different shapes are refused, wherever the first
different one comes. -/
theorem different_shapes (r c : Nat) (Ms Ms' : List (Mat K)) (M : Mat K) (hne : Ms ≠ [])
    (hM : ∀ M ∈ Ms, M.rows = r ∧ M.cols = c) (hd : M.rows ≠ r ∨ M.cols ≠ c) :
    interleave (Ms ++ M :: Ms') = .error .shapes := by
  have key : ∀ (N : Nat) (hN : 0 < N) (xs done : List (Mat K)) (s : Option (Mat K)),
      (∀ M ∈ xs, M.rows = r ∧ M.cols = c) → ((s = none ∧ done = [] ∧ xs ≠ []) ∨ ∃ S, s = some S ∧ Sums r c N done S) →
      loop N (xs ++ M :: Ms') done.length s = .error .shapes := by
    intro N hN xs
    induction xs with
    | nil =>
      intro done s _ hs
      rcases hs with ⟨-, -, h⟩ | ⟨S, rfl, q1, q2, -⟩
      · exact absurd rfl h
      · simp only [List.nil_append, loop, add]
        rw [if_neg]
        rintro ⟨e1, e2⟩
        simp only [kron, point, q1, q2] at e1 e2
        rcases hd with h | h
        · exact h (Nat.eq_of_mul_eq_mul_right hN e1).symm
        · exact h (Nat.eq_of_mul_eq_mul_right hN e2).symm
    | cons X xs ih =>
      intro done s hX hs
      have hs' : (s = none ∧ done = []) ∨ ∃ S, s = some S ∧ Sums r c N done S := by
        rcases hs with ⟨h1, h2, -⟩ | h
        · exact Or.inl ⟨h1, h2⟩
        · exact Or.inr h
      obtain ⟨S, e, hS⟩ := loop_ok r c N done [X] (fun Y hY => hX Y (by
        rw [List.mem_singleton] at hY; rw [hY]; exact List.mem_cons_self)) s hs' (by simp)
      simp only [List.cons_append, loop]
      cases ha : add s (kron X (point N done.length)) with
      | error z => simp only [loop, ha] at e; cases e
      | ok S' =>
        simp only [loop, ha] at e
        cases e
        have := ih (done ++ [X]) (some S) (fun Y hY => hX Y (List.mem_cons_of_mem _ hY)) (Or.inr ⟨S, rfl, hS⟩)
        rw [List.length_append, List.length_singleton] at this
        exact this
  match Ms, hne with
  | X :: Ms, _ =>
    have h2 : interleave (X :: Ms ++ M :: Ms') = loop (X :: Ms ++ M :: Ms').length (X :: Ms ++ M :: Ms') 0 none := by
      cases Ms <;> rfl
    rw [h2]
    exact key _ (by simp) (X :: Ms) [] none hM (Or.inl ⟨rfl, rfl, by simp⟩)

/-- No matrices at all give the number 0, not a matrix. -/
theorem no_matrices : interleave ([] : List (Mat K)) = .ok none := rfl

example : ∃ Ms : List (Mat Int), Ms.length = 2 ∧ Ms ≠ [] ∧ (∀ M ∈ Ms, M.rows = 2 ∧ M.cols = 3) ∧
    (Ms.map fun M => M.entry 1 2) = [2, 3] := by
  refine ⟨[⟨2, 3, fun i j => i * j⟩, ⟨2, 3, fun i j => i + j⟩], rfl, List.cons_ne_nil _ _, ?_, by decide⟩
  intro M hM
  simp only [List.mem_cons, List.not_mem_nil, or_false] at hM
  rcases hM with rfl | rfl <;> exact ⟨rfl, rfl⟩

end Dedalus.Interleave
