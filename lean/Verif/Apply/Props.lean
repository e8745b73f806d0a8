import Mathlib.Data.Rat.Defs
import Mathlib.Algebra.Field.Rat
import Verif.Apply.Sparse

/-!
# C107: applying a matrix along an axis of an array
-/

namespace Dedalus.Apply

open Dedalus.Csr (Schedule entry Valid)

section

variable {K : Type} [Field K]

theorem broadcasts_self : ∀ s : List Nat, broadcasts s s = true
  | [] => rfl
  | n :: s => by simp [broadcasts, broadcasts_self s]

theorem source_self : ∀ {s idx : List Nat}, InRange s idx → source s idx = idx
  | [], [], _ => rfl
  | n :: s, i :: idx, h => by
    cases h with
    | cons h1 h2 =>
      simp only [source]
      rw [source_self h2]
      split
      · congr 1; omega
      · rfl

/-- C107. The product of a dense matrix along any axis of an array of any dimension, counted from the front or from the back,
without an output array: a new array with the size of that axis replaced, every line multiplied by the matrix. Missing: arrays of
three or more axes that have no entries along the axis (`empty_axis_refuted`). -/
theorem dense_returns_partial (M : Mat K) (a : Arr K) (axis : Int) (ax : Nat) (hax : IsAxis a.shape.length axis ax)
    (hc : a.shape[ax]? = some M.cols) (h0 : M.cols ≠ 0 ∨ a.shape.length ≤ 2) :
    ∃ t, denseTemp M a axis = .ok t ∧ t.shape = a.shape.set ax M.rows ∧
      ∀ idx, InRange t.shape idx → t.get idx = product M.get M.cols ax a.get idx :=
  denseTemp_ok M a axis ax hax hc h0

/-- C107. The product of a dense matrix into an output array: the output holds the product of what the input was before the call,
and nothing else changes. Input and output may be any views of the same memory, overlapping or not. -/
theorem dense_writes_partial (M : Mat K) (a out : View) (axis : Int) (ax : Nat) (hax : IsAxis a.shape.length axis ax)
    (hc : a.shape[ax]? = some M.cols) (h0 : M.cols ≠ 0 ∨ a.shape.length ≤ 2) (hs : out.shape = a.shape.set ax M.rows)
    (hd : Distinct out) (mem : Mem K) :
    ∃ mem', applyDense M a axis out mem = .ok mem' ∧
      Wrote out (product M.get M.cols ax (fun i => mem (a.addr i))) mem mem' := by
  obtain ⟨t, e1, e2, e3⟩ := denseTemp_ok M (a.read mem) axis ax hax hc h0
  have e2' : t.shape = out.shape := e2.trans hs.symm
  refine ⟨update out (fun idx _ => t.get (source out.shape idx)) (indices out.shape) mem, ?_, ?_⟩
  · unfold applyDense
    rw [e1]
    simp only [Except.bind, assign, e2', broadcasts_self, if_true]
  · obtain ⟨w1, w2⟩ := update_wrote out hd (fun idx _ => t.get (source out.shape idx)) (indices out.shape) (indices_nodup _)
      (fun i => mem_indices) mem
    refine ⟨fun idx hi => ?_, w2⟩
    rw [w1 idx hi]
    beta_reduce
    rw [source_self hi, e3 idx (by rw [e2']; exact hi)]
    rfl

/-- C107. A dense matrix whose number of columns is not the size of the axis is refused. -/
theorem dense_mismatch (M : Mat K) (a out : View) (axis : Int) (ax n : Nat) (hax : IsAxis a.shape.length axis ax)
    (hn : a.shape[ax]? = some n) (hne : M.cols ≠ n) (mem : Mem K) : applyDense M a axis out mem = .error .value := by
  have hl := hax.1
  obtain ⟨_, hn'⟩ := List.getElem?_eq_some_iff.1 hn
  obtain ⟨f1, _⟩ := front (a.read mem) ax hl
  have f1' : (if ax ≠ 0 then moveAxis (a.read mem) ax 0 else a.read mem).shape = n :: a.shape.eraseIdx ax := by
    rw [f1]; exact congrArg (· :: _) hn'
  have hrl : (a.shape.eraseIdx ax).length + 1 = a.shape.length := by rw [List.length_eraseIdx, if_pos hl]; omega
  have key : denseTemp M (a.read mem) axis = .error .value := by
    unfold denseTemp
    have hlen : (a.read mem).shape.length = a.shape.length := rfl
    simp only [hlen]
    rw [if_neg (by omega), axis_mod hax]
    generalize (if ax ≠ 0 then moveAxis (a.read mem) ax 0 else a.read mem) = a1 at f1'
    by_cases hd : 2 < a.shape.length
    · rw [if_pos hd]
      unfold flatten
      rw [f1']
      simp only
      by_cases h0 : n = 0
      · rw [if_pos h0]; rfl
      · rw [if_neg h0]
        unfold reshape
        have hp : prod (n :: a.shape.eraseIdx ax) / n = prod (a.shape.eraseIdx ax) := by
          simp only [prod]
          exact Nat.mul_div_cancel_left _ (by omega)
        rw [f1', hp, if_pos (by simp [prod])]
        simp only [Except.bind, matmul]
        rw [if_neg hne]
    · rw [if_neg hd]
      simp only [Except.bind]
      unfold matmul
      rw [f1']
      match hr : a.shape.eraseIdx ax with
      | [] => simp only; rw [if_neg hne]
      | [m] => simp only; rw [if_neg hne]
      | _ :: _ :: _ => exfalso; rw [hr] at hrl; simp only [List.length_cons] at hrl; omega
  unfold applyDense
  rw [key]
  rfl

/-- The number of iterations of the parallel loop in `apply_csr`: rows, or rows times the number of lines before the axis. -/
def iterations (S : Sparse K) (a : View) (ax : Nat) : Nat :=
  if prod (a.shape.take ax) = 1 then S.rows else prod (a.shape.take ax) * S.rows

theorem applyCsr_ok (S : Sparse K) (hv : Valid S.A S.rows S.cols) (a out : View) (ax : Nat) (hax : ax < a.shape.length)
    (hc : a.shape[ax]? = some S.cols) (hs : out.shape = a.shape.set ax S.rows) (ho : InOrder out) (hap : Apart a out)
    (order : List Nat) (hord : Schedule order (iterations S a ax)) (mem : Mem K) :
    ∃ mem', applyCsr S a out (ax : Int) order mem = .ok mem' ∧
      Wrote out (product (entry S.A) S.cols ax (fun i => mem (a.addr i))) mem mem' := by
  refine ⟨_, ?_, runCsr_wrote S hv a out ax hax hs hc ho order hord mem⟩
  unfold applyCsr
  simp only
  rw [if_neg (by omega), if_neg (by omega), Int.toNat_natCast, if_neg, if_pos (inOrder_contig ho)]
  rintro (h | h | h)
  · exact h hs
  · exact h hc
  · rw [overlap_false hap] at h; cases h

theorem foldl_start (l : List Nat) (f : Nat → K) (y : K) : l.foldl (fun s jj => s + f jj) y = y + (l.map f).sum := by
  induction l generalizing y with
  | nil => simp
  | cons a l ih => simp only [List.foldl_cons, List.map_cons, List.sum_cons]; rw [ih]; ring

theorem matvecs_wrote (split : Bool) (S : Sparse K) (hv : Valid S.A S.rows S.cols) (a out : View) (kx : Nat)
    (hsa : a.shape = [S.cols, kx]) (hso : out.shape = [S.rows, kx]) (hd : Distinct out) (hap : Apart a out) (mem : Mem K) :
    Wrote out (product (entry S.A) S.cols 0 (fun i => mem (a.addr i))) mem
      (matvecs split S a out kx (update out (fun _ _ => 0) (indices out.shape) mem)) := by
  obtain ⟨z1, z2⟩ := update_wrote out hd (fun _ _ => (0 : K)) (indices out.shape) (indices_nodup _) (fun i => mem_indices) mem
  generalize update out (fun _ _ => (0 : K)) (indices out.shape) mem = m0 at z1 z2
  have ha : ∀ i, InRange a.shape i → m0 (a.addr i) = mem (a.addr i) := fun i hi =>
    z2 _ fun j hj e => hap i j hi hj e.symm
  have horder : ∀ (l : List (List Nat)), l = (if split then (List.range kx).flatMap fun k => (List.range S.rows).map fun i => [i, k]
      else indices [S.rows, kx]) → l.Nodup ∧ ∀ i, i ∈ l ↔ InRange out.shape i := by
    rintro l rfl
    cases split
    · exact ⟨indices_nodup _, fun i => by rw [hso]; exact mem_indices⟩
    · simp only [if_true]
      refine ⟨?_, fun i => ?_⟩
      · rw [List.nodup_flatMap]
        refine ⟨fun k _ => List.nodup_range.map fun a b h => by injection h, ?_⟩
        refine List.Pairwise.imp ?_ List.nodup_range
        intro p q hpq
        simp only [Function.onFun, List.disjoint_left, List.mem_map]
        rintro l ⟨_, _, e⟩ ⟨_, _, e'⟩
        rw [← e'] at e
        injection e with _ e2
        injection e2 with e3 _
        exact hpq e3
      · rw [hso]
        simp only [List.mem_flatMap, List.mem_map, List.mem_range]
        constructor
        · rintro ⟨k, hk, r, hr, rfl⟩
          exact List.Forall₂.cons hr (List.Forall₂.cons hk List.Forall₂.nil)
        · intro h
          cases h with
          | cons h1 h2 =>
            cases h2 with
            | cons h3 h4 =>
              cases h4
              exact ⟨_, h3, _, h1, rfl⟩
  obtain ⟨hn, hl⟩ := horder _ rfl
  obtain ⟨w1, w2⟩ := update_wrote out hd (fun idx y =>
    match idx with
    | [i, k] => (Csr.row S.A i).foldl (fun s jj => s + S.A.Ax jj * m0 (a.addr [S.A.Aj jj, k])) y
    | _ => y) _ hn hl m0
  refine ⟨fun idx hi => ?_, fun p hp => ?_⟩
  · refine (w1 idx hi).trans ?_
    have hz := z1 idx hi
    rw [hso] at hi
    cases hi with
    | cons h1 h2 =>
      cases h2 with
      | cons h3 h4 =>
        cases h4
        simp only [hz]
        rw [foldl_start, Csr.row_sum S.A hv h1, zero_add]
        unfold product
        simp only [List.getElem?_cons_zero, List.set_cons_zero]
        rw [Csr.entry_sum hv h1]
        refine Finset.sum_congr rfl fun p hp => ?_
        rw [Finset.mem_Ico] at hp
        rw [ha _ (by
          rw [hsa]
          exact List.Forall₂.cons (hv.col _ h1 p hp.1 hp.2) (List.Forall₂.cons h3 List.Forall₂.nil))]
  · exact (w2 p hp).trans (z2 p hp)

/-- C107. The product of a sparse matrix into an output array: whatever the settings, the dimension, the previous content of the
output and the order of the parallel iterations, the output holds the product and nothing else changes. The matrix is any valid CSR
matrix, duplicates included. Missing: an output whose entries do not follow each other in the memory (`lost_output_refuted`,
`strided_output_refused`), axes counted from the back (`negative_axis_refuted`), and overlapping arrays. -/
theorem sparse_writes_partial (cfg : Config) (S : Sparse K) (hcsr : S.csr = true) (hv : Valid S.A S.rows S.cols) (a out : View) (ax : Nat)
    (hax : ax < a.shape.length) (hc : a.shape[ax]? = some S.cols) (hs : out.shape = a.shape.set ax S.rows) (ho : InOrder out)
    (hap : Apart a out) (check : Bool) (order : List Nat) (hord : Schedule order (iterations S a ax)) (fresh : Nat) (mem : Mem K) :
    ∃ mem', applySparse cfg S a ax (some out) false check order fresh mem = .ok (mem', out) ∧
      Wrote out (product (entry S.A) S.cols ax (fun i => mem (a.addr i))) mem mem' := by
  have hok : shapesOk S a out ax = true := by
    unfold shapesOk
    simp only [Bool.and_eq_true, decide_eq_true_eq, Int.toNat_natCast]
    refine ⟨⟨⟨by omega, by omega⟩, hc⟩, ?_⟩
    rw [hs, List.getElem?_set_self hax]
  unfold applySparse
  rw [hcsr, if_neg (by simp)]
  simp only [output, Bool.false_eq_true, if_false, Except.bind]
  rw [if_neg (by rw [hok]; simp)]
  split
  · rename_i h
    obtain ⟨_, h2, h3⟩ := h
    have h0 : ax = 0 := by omega
    subst h0
    rw [overlap_false hap]
    simp only [Bool.false_eq_true, if_false]
    match hsh : a.shape, h2, hc, hs with
    | [n, kx], _, hc, hs =>
      simp only [List.getElem?_cons_zero, Option.some.injEq] at hc
      simp only [List.set_cons_zero] at hs
      subst hc
      unfold csrMatvecs
      rw [hsh, hs]
      simp only [ne_eq, not_true_eq_false, or_self, if_false, Except.map]
      refine ⟨_, rfl, ?_⟩
      have := matvecs_wrote cfg.split S hv a out kx hsh hs (inOrder_distinct ho) hap mem
      rw [hs] at this
      exact this
  · obtain ⟨m, e, w⟩ := applyCsr_ok S hv a out ax hax hc hs ho hap order hord mem
    rw [e]
    exact ⟨m, rfl, w⟩

/-- C107. The product of a sparse matrix without an output array, along an axis counted from the front: the call returns a new array
that holds the product, and nothing else changes. The new array is memory that the input does not use. -/
theorem sparse_returns_partial (cfg : Config) (S : Sparse K) (hcsr : S.csr = true) (hv : Valid S.A S.rows S.cols) (a : View) (ax : Nat)
    (hax : ax < a.shape.length) (hc : a.shape[ax]? = some S.cols) (fresh : Nat) (hf : ∀ i, InRange a.shape i → a.addr i < fresh)
    (check : Bool) (order : List Nat) (hord : Schedule order (iterations S a ax)) (mem : Mem K) :
    ∃ mem' v, applySparse cfg S a ax none false check order fresh mem = .ok (mem', v) ∧ v.shape = a.shape.set ax S.rows ∧
      Wrote v (product (entry S.A) S.cols ax (fun i => mem (a.addr i))) mem mem' := by
  have hidx : pyIndex a.shape.length ax = some ax := by
    unfold pyIndex
    rw [if_pos (by omega), if_pos (by omega)]
    rfl
  have ho := new_inOrder fresh (a.shape.set ax S.rows)
  have hap : Apart a ⟨fresh, a.shape.set ax S.rows, cStrides (a.shape.set ax S.rows)⟩ := by
    intro i j hi hj e
    have := hf i hi
    rw [ho.2 j hj] at e
    simp only at e
    omega
  obtain ⟨m, e, w⟩ := sparse_writes_partial cfg S hcsr hv a _ ax hax hc rfl ho hap check order hord fresh mem
  refine ⟨m, _, ?_, rfl, w⟩
  rw [← e]
  unfold applySparse
  rw [hcsr, if_neg (by simp), if_neg (by simp)]
  simp only [output, hidx, Bool.false_eq_true, if_false]

/-- C107. A sparse matrix and the dense matrix with the same entries give the same result. -/
theorem dense_and_sparse_agree (cfg : Config) (S : Sparse K) (hcsr : S.csr = true) (hv : Valid S.A S.rows S.cols) (M : Mat K)
    (hr : M.rows = S.rows) (hm : M.cols = S.cols) (he : ∀ i j, i < S.rows → j < S.cols → M.get i j = entry S.A i j) (a out : View) (ax : Nat)
    (hax : ax < a.shape.length) (hc : a.shape[ax]? = some S.cols) (h0 : S.cols ≠ 0 ∨ a.shape.length ≤ 2)
    (hs : out.shape = a.shape.set ax S.rows) (ho : InOrder out) (hap : Apart a out) (order : List Nat)
    (hord : Schedule order (iterations S a ax)) (mem : Mem K) :
    ∃ mem', applyMatrix cfg (.sparse S) a ax out order mem = .ok mem' ∧ applyMatrix cfg (.dense M) a ax out order mem = .ok mem' := by
  obtain ⟨m1, e1, w1⟩ := sparse_writes_partial cfg S hcsr hv a out ax hax hc hs ho hap false order hord 0 mem
  obtain ⟨m2, e2, w2⟩ := dense_writes_partial M a out ax ax ⟨hax, Or.inl rfl⟩ (by rw [hm]; exact hc) (by rw [hm]; exact h0)
    (by rw [hr]; exact hs) (inOrder_distinct ho) mem
  have : m1 = m2 := by
    funext p
    by_cases hp : ∃ idx, InRange out.shape idx ∧ out.addr idx = p
    · obtain ⟨idx, hi, rfl⟩ := hp
      rw [w1.1 idx hi, w2.1 idx hi]
      have hi' := hi
      rw [hs] at hi'
      have hlt : ax < idx.length := by rw [hi'.length]; simpa using hax
      have hb := (inRange_iff.1 hi').2 ax hlt (by simpa using hax)
      rw [List.getElem_set_self] at hb
      unfold product
      rw [List.getElem?_eq_getElem hlt, hm]
      simp only
      refine Finset.sum_congr rfl fun j hj => ?_
      rw [he _ _ hb (Finset.mem_range.1 hj)]
    · rw [w1.2 p fun idx hi e => hp ⟨idx, hi, e⟩, w2.2 p fun idx hi e => hp ⟨idx, hi, e⟩]
  refine ⟨m1, ?_, ?_⟩
  · unfold applyMatrix
    simp only
    rw [e1]
    rfl
  · unfold applyMatrix
    simp only
    rw [e2, this]

/-- C107. With `check_shapes`, an axis outside of the array and sizes that do not match the matrix are refused, whatever the other
arguments are. -/
theorem shapes_checked (cfg : Config) (S : Sparse K) (a out : View) (axis : Int)
    (h : axis < 0 ∨ (a.shape.length : Int) ≤ axis ∨ a.shape[axis.toNat]? ≠ some S.cols ∨ out.shape[axis.toNat]? ≠ some S.rows)
    (isArray : Bool) (order : List Nat) (fresh : Nat) (mem : Mem K) :
    applySparse cfg S a axis (some out) isArray true order fresh mem = .error .value := by
  have hok : shapesOk S a out axis = false := by
    unfold shapesOk
    rw [Bool.eq_false_iff]
    intro e
    simp only [Bool.and_eq_true, decide_eq_true_eq] at e
    obtain ⟨⟨⟨e1, e2⟩, e3⟩, e4⟩ := e
    rcases h with h | h | h | h
    · omega
    · omega
    · exact h e3
    · exact h e4
  unfold applySparse
  split
  · rfl
  · simp only [output]
    cases isArray
    · simp only [Bool.false_eq_true, if_false, Except.bind]
      rw [if_pos ⟨trivial, hok⟩]
    · rfl

/-- C107. A matrix in another sparse format, and the input itself as output, are refused. -/
theorem format_checked (cfg : Config) (S : Sparse K) (a : View) (axis : Int) (out : Option View) (isArray check : Bool) (order : List Nat)
    (fresh : Nat) (mem : Mem K) (h : S.csr = false ∨ (out = some a ∧ isArray = true)) :
    applySparse cfg S a axis out isArray check order fresh mem = .error .value := by
  unfold applySparse
  rcases h with h | ⟨rfl, rfl⟩
  · rw [if_pos h]
  · split
    · rfl
    · rfl

/-- C107. For arrays of one or two axes, an output whose entries do not follow each other in the memory is refused (with the current
product routines): nothing is lost in silence. -/
theorem strided_output_refused (cfg : Config) (hold : cfg.old = false) (S : Sparse K) (hcsr : S.csr = true) (a out : View) (ax : Nat)
    (hax : ax < a.shape.length) (h2 : a.shape.length ≤ 2) (hc : a.shape[ax]? = some S.cols) (hs : out.shape = a.shape.set ax S.rows)
    (hap : Apart a out) (hno : out.contig = false) (order : List Nat) (fresh : Nat) (mem : Mem K) :
    applySparse cfg S a ax (some out) false false order fresh mem = .error .value := by
  unfold applySparse
  rw [hcsr, if_neg (by simp)]
  simp only [output, Bool.false_eq_true, if_false, Except.bind, false_and, hold]
  unfold applyCsr
  simp only
  rw [if_neg (by omega), if_neg (by omega), Int.toNat_natCast, if_neg, hno, if_neg (by simp), if_neg (by omega)]
  · rfl
  · rintro (h | h | h)
    · exact h hs
    · exact h hc
    · rw [overlap_false hap] at h; cases h

theorem contig_inOrder {v : View} (hl : v.strides.length = v.shape.length) (h : v.contig = true) : InOrder v := by
  refine ⟨hl, fun idx hi => ?_⟩
  unfold View.addr
  unfold View.contig at h
  rw [Bool.or_eq_true] at h
  rcases h with h | h
  · exfalso
    have hz : 0 ∈ v.shape := by simpa using h
    obtain ⟨k, hk, e⟩ := List.getElem_of_mem hz
    have := (inRange_iff.1 hi).2 k (by rw [hi.length]; exact hk) hk
    omega
  · rw [contig_dot _ _ _ h hi]

/-- C107. A call that returns has written the product to its output, if the output has one or two axes, or if its axes before the axis of
the product and its axes after it can be seen as one axis each. -/
theorem returned_is_written (cfg : Config) (hold : cfg.old = false) (S : Sparse K) (hcsr : S.csr = true) (hv : Valid S.A S.rows S.cols)
    (a out : View) (ax : Nat) (hax : ax < a.shape.length) (hc : a.shape[ax]? = some S.cols) (hs : out.shape = a.shape.set ax S.rows)
    (hst : out.strides.length = out.shape.length) (hap : Apart a out) (hview : a.shape.length ≤ 2 ∨ out.viewable ax = true)
    (check : Bool) (order : List Nat) (hord : Schedule order (iterations S a ax)) (fresh : Nat) (mem mem' : Mem K) (v : View)
    (h : applySparse cfg S a ax (some out) false check order fresh mem = .ok (mem', v)) :
    v = out ∧ Wrote out (product (entry S.A) S.cols ax (fun i => mem (a.addr i))) mem mem' := by
  cases hcon : out.contig
  · exfalso
    have hok : ¬ (check = true ∧ shapesOk S a out ax = false) := by
      rintro ⟨h1, h2⟩
      subst h1
      unfold applySparse at h
      rw [hcsr, if_neg (by simp)] at h
      simp only [output, Bool.false_eq_true, if_false, Except.bind] at h
      rw [if_pos ⟨trivial, h2⟩] at h
      cases h
    unfold applySparse at h
    rw [hcsr, if_neg (by simp)] at h
    simp only [output, Bool.false_eq_true, if_false, Except.bind] at h
    rw [if_neg hok, if_neg (by rw [hold]; simp)] at h
    unfold applyCsr at h
    simp only at h
    rw [if_neg (by omega), if_neg (by omega), Int.toNat_natCast, if_neg, hcon, if_neg (by simp), if_neg] at h
    · cases h
    · rintro ⟨h1, h2⟩
      rcases hview with h3 | h3
      · omega
      · rw [h3] at h2; cases h2
    · rintro (h | h | h)
      · exact h hs
      · exact h hc
      · rw [overlap_false hap] at h; cases h
  · obtain ⟨m, e, w⟩ := sparse_writes_partial cfg S hcsr hv a out ax hax hc hs (contig_inOrder hst hcon) hap check order hord fresh mem
    rw [e] at h
    injection h with h
    injection h with h1 h2
    subst h1 h2
    exact ⟨rfl, w⟩

end

/-! ### Examples -/

/-- The matrix with rows `(2, 1)`, `(0, 3)` and `(1, 0)`. -/
def demo : Sparse ℚ where
  csr := true
  rows := 3
  cols := 2
  A :=
    { Ap := fun i => if i = 0 then 0 else if i = 1 then 2 else if i = 2 then 3 else 4
      Aj := fun p => if p = 0 then 0 else if p = 3 then 0 else 1
      Ax := fun p => if p = 0 then 2 else if p = 1 then 1 else if p = 2 then 3 else 1 }

theorem demo_valid : Valid demo.A demo.rows demo.cols where
  ptr := by
    intro i hi
    have : i < 3 := hi
    interval_cases i <;> decide
  col := by
    intro i hi p hp hp'
    simp only [demo]
    split
    · omega
    · split <;> omega

/-- An array of shape `(2, 2, 3)` and an output of shape `(2, 3, 3)` behind it. -/
def demoIn : View := ⟨0, [2, 2, 3], [6, 3, 1]⟩
def demoOut : View := ⟨12, [2, 3, 3], [9, 3, 1]⟩

theorem demo_apart : Apart demoIn demoOut := by
  intro i j hi hj e
  have h1 := (new_inOrder 0 [2, 2, 3]).2 i hi
  have h2 := (new_inOrder 12 [2, 3, 3]).2 j hj
  have h3 := ravel_lt hi
  have e1 : demoIn.addr i = ravel [2, 2, 3] i := by rw [show demoIn = ⟨0, [2, 2, 3], cStrides [2, 2, 3]⟩ from rfl, h1]; simp
  have e2 : demoOut.addr j = 12 + ravel [2, 3, 3] j := h2
  simp only [demoIn, prod] at h3
  rw [e1, e2] at e
  omega

example : demo.csr = true ∧ Valid demo.A demo.rows demo.cols ∧ 1 < demoIn.shape.length ∧ demoIn.shape[1]? = some demo.cols ∧
    demoOut.shape = demoIn.shape.set 1 demo.rows ∧ InOrder demoOut ∧ Apart demoIn demoOut ∧
    Schedule [5, 0, 2, 4, 1, 3] (iterations demo demoIn 1) ∧ Distinct demoOut ∧ IsAxis demoIn.shape.length (-2) 1 :=
  ⟨rfl, demo_valid, by decide, rfl, rfl, new_inOrder 12 [2, 3, 3], demo_apart, by unfold Schedule; decide,
    inOrder_distinct (new_inOrder 12 [2, 3, 3]), ⟨by decide, Or.inr (by decide)⟩⟩

/-- The first row of the first block is multiplied. -/
example : (match applySparse ⟨false, false⟩ demo demoIn 1 (some demoOut) false false [5, 0, 2, 4, 1, 3] 0 (fun p => (p : ℚ)) with
    | .ok r => some ((List.range 9).map fun p => r.1 (12 + p))
    | .error _ => none) = some [3, 6, 9, 9, 12, 15, 0, 1, 2] := by decide +kernel

/-- C107 fails for outputs that are slices of larger arrays, when the arrays have three or more axes: the call returns, the product went
to a copy, and the output is what it was. Here the output is the first half of a larger array along its last axis. -/
theorem lost_output_refuted :
    ¬ ∀ (cfg : Config) (S : Sparse ℚ) (a out : View) (ax : Nat) (order : List Nat) (mem mem' : Mem ℚ), S.csr = true →
      Valid S.A S.rows S.cols → ax < a.shape.length → a.shape[ax]? = some S.cols → out.shape = a.shape.set ax S.rows → Distinct out →
      Apart a out → Schedule order (iterations S a ax) → applySparse cfg S a ax (some out) false false order 0 mem = .ok (mem', out) →
      Wrote out (product (entry S.A) S.cols ax (fun i => mem (a.addr i))) mem mem' := by
  intro H
  let out : View := ⟨8, [3, 2, 2], [8, 4, 1]⟩
  let a : View := ⟨0, [2, 2, 2], [4, 2, 1]⟩
  have addr2 : ∀ i j k, out.addr [i, j, k] = 8 + 8 * i + 4 * j + k := by intro i j k; simp [out, View.addr, dot]; omega
  have addr1 : ∀ i j k, a.addr [i, j, k] = 4 * i + 2 * j + k := by intro i j k; simp [a, View.addr, dot]; omega
  have three : ∀ {n m p : Nat} {idx : List Nat}, InRange [n, m, p] idx → ∃ i j k, idx = [i, j, k] ∧ i < n ∧ j < m ∧ k < p := by
    intro n m p idx h
    cases h with
    | cons h1 h2 =>
      cases h2 with
      | cons h3 h4 =>
        cases h4 with
        | cons h5 h6 =>
          cases h6
          exact ⟨_, _, _, rfl, h1, h3, h5⟩
  have hd : Distinct out := by
    intro x y hx hy e
    obtain ⟨i, j, k, rfl, h1, h2, h3⟩ := three hx
    obtain ⟨i', j', k', rfl, h1', h2', h3'⟩ := three hy
    rw [addr2, addr2] at e
    have e1 : i = i' := by omega
    have e2 : j = j' := by omega
    have e3 : k = k' := by omega
    rw [e1, e2, e3]
  have hap : Apart a out := by
    intro x y hx hy e
    obtain ⟨i, j, k, rfl, h1, h2, h3⟩ := three hx
    obtain ⟨i', j', k', rfl, h1', h2', h3'⟩ := three hy
    rw [addr1, addr2] at e
    omega
  have hrun : applySparse ⟨false, false⟩ demo a 0 (some out) false false [0, 1, 2] 0 (fun _ => (1 : ℚ)) = .ok (fun _ => 1, out) := by
    unfold applySparse
    rw [if_neg (by decide)]
    simp only [output, Bool.false_eq_true, if_false, Except.bind, false_and]
    unfold applyCsr
    simp only
    rw [if_neg (by decide), if_neg (by decide), if_neg (by decide), if_neg (by decide), if_pos (by decide)]
    rfl
  have := (H ⟨false, false⟩ demo a out 0 [0, 1, 2] _ _ rfl demo_valid (by decide) rfl rfl hd hap (by unfold Schedule; decide) hrun).1
    [0, 0, 0] (List.Forall₂.cons (by decide) (List.Forall₂.cons (by decide) (List.Forall₂.cons (by decide) List.Forall₂.nil)))
  revert this
  decide +kernel

/-- C107 fails for axes counted from the back with sparse matrices: for a vector or a two-dimensional array the call returns an array whose
entries were never written. The dense product takes such axes. -/
theorem negative_axis_refuted :
    ¬ ∀ (S : Sparse ℚ) (a out : View) (axis : Int) (ax : Nat) (order : List Nat) (mem mem' : Mem ℚ), S.csr = true →
      Valid S.A S.rows S.cols → IsAxis a.shape.length axis ax → a.shape[ax]? = some S.cols → Schedule order (iterations S a ax) →
      (∀ i, InRange a.shape i → a.addr i < 8) →
      applySparse ⟨false, false⟩ S a axis none false false order 8 mem = .ok (mem', out) →
      Wrote out (product (entry S.A) S.cols ax (fun i => mem (a.addr i))) mem mem' := by
  intro H
  have hf : ∀ i, InRange [2] i → View.addr ⟨0, [2], [1]⟩ i < 8 := by
    intro i hi
    have h1 := (new_inOrder 0 [2]).2 i hi
    have h2 := ravel_lt hi
    have e : View.addr ⟨0, [2], [1]⟩ i = ravel [2] i := by
      rw [show (⟨0, [2], [1]⟩ : View) = ⟨0, [2], cStrides [2]⟩ from rfl, h1]
      simp
    simp only [prod] at h2
    omega
  have hrun : applySparse ⟨false, false⟩ demo ⟨0, [2], [1]⟩ (-1) none false false [0, 1, 2] 8 (fun _ => (1 : ℚ)) =
      .ok (fun _ => 1, ⟨8, [3], [1]⟩) := by
    rfl
  have := (H demo ⟨0, [2], [1]⟩ ⟨8, [3], [1]⟩ (-1) 0 [0, 1, 2] _ _ rfl demo_valid ⟨by decide, Or.inr (by decide)⟩ rfl
    (by unfold Schedule; decide) hf hrun).1 [0] (List.Forall₂.cons (by decide) List.Forall₂.nil)
  revert this
  decide +kernel

/-- C107 fails for dense matrices on arrays of three or more axes that have no entries along the axis: the product, which is zero, is
refused. Vectors and two-dimensional arrays are accepted. -/
theorem empty_axis_refuted :
    ¬ ∀ (M : Mat ℚ) (a : Arr ℚ) (axis : Int) (ax : Nat), IsAxis a.shape.length axis ax → a.shape[ax]? = some M.cols →
      ∃ t, denseTemp M a axis = .ok t := by
  intro H
  obtain ⟨t, h⟩ := H ⟨3, 0, fun _ _ => 1⟩ ⟨[2, 0, 2], fun _ => 1⟩ 1 1 ⟨by decide, Or.inl rfl⟩ rfl
  have : (match denseTemp (⟨3, 0, fun _ _ => 1⟩ : Mat ℚ) ⟨[2, 0, 2], fun _ => 1⟩ 1 with
    | .ok _ => true
    | .error _ => false) = false := by decide +kernel
  rw [h] at this
  cases this

/-- C107, as it reaches users: the backward radial transform of a ball raises for every degree that has no radial modes, that is when
`ell // 2 ≥ N3c`. Such bases are accepted. -/
theorem ball_backward_refuted {K : Type} [Field K] (n0 n1 n2 N3c N3g n4 ell : Nat) (W : Nat → Nat → K) (crl : List Nat → K)
    (h : N3c ≤ ell / 2) : ballBackward n0 n1 n2 N3c N3g n4 ell W crl = .error .value := by
  have h0 : N3c - ell / 2 = 0 := by omega
  obtain ⟨f1, _⟩ := front (⟨ballSlice n0 n1 n2 N3c n4 ell, crl⟩ : Arr K) 3 (by simp [ballSlice])
  unfold ballBackward denseTemp
  have hl : (ballSlice n0 n1 n2 N3c n4 ell).length = 5 := rfl
  simp only [hl]
  rw [if_neg (by omega)]
  have e : ((3 : Int) % ((5 : Nat) : Int)).toNat = 3 := by decide
  rw [e, if_pos (by omega)]
  generalize (if (3 : Nat) ≠ 0 then moveAxis (⟨ballSlice n0 n1 n2 N3c n4 ell, crl⟩ : Arr K) 3 0
    else ⟨ballSlice n0 n1 n2 N3c n4 ell, crl⟩) = a1 at f1
  unfold flatten
  rw [f1]
  simp only [ballSlice, List.getElem_cons_succ, List.getElem_cons_zero, h0]
  rfl

/-- In a ball whose every degree has radial modes, the transform of each degree is the product along the radial axis. -/
theorem ball_backward_partial {K : Type} [Field K] (n0 n1 n2 N3c N3g n4 ell : Nat) (W : Nat → Nat → K) (crl : List Nat → K)
    (h : ell / 2 < N3c) : ∃ t, ballBackward n0 n1 n2 N3c N3g n4 ell W crl = .ok t ∧ t.shape = [n0, n1, n2, N3g, n4] ∧
      ∀ i0 i1 i2 i3 i4, i0 < n0 → i1 < n1 → i2 < n2 → i3 < N3g → i4 < n4 →
        t.get [i0, i1, i2, i3, i4] = ∑ j ∈ Finset.range (N3c - ell / 2), W i3 j * crl [i0, i1, i2, j, i4] := by
  obtain ⟨t, e1, e2, e3⟩ := denseTemp_ok (⟨N3g, N3c - ell / 2, W⟩ : Mat K) ⟨ballSlice n0 n1 n2 N3c n4 ell, crl⟩ 3 3
    ⟨by simp [ballSlice], Or.inl rfl⟩ rfl (Or.inl (by show N3c - ell / 2 ≠ 0; omega))
  refine ⟨t, e1, e2, fun i0 i1 i2 i3 i4 h0 h1 h2 h3 h4 => ?_⟩
  have := e3 [i0, i1, i2, i3, i4] (by
    rw [e2]
    exact List.Forall₂.cons h0 (List.Forall₂.cons h1 (List.Forall₂.cons h2 (List.Forall₂.cons h3 (List.Forall₂.cons h4 List.Forall₂.nil)))))
  rw [this]
  rfl

example : (4 : Nat) ≤ 8 / 2 ∧ 7 / 2 < 4 := by decide

end Dedalus.Apply
