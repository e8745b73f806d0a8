import Verif.Agree.Spec
import Verif.Maps.Props
import Verif.Sphere.Pack

namespace Dedalus.Agree
open Mats Maps

variable {K : Type} [Field K] [DecidableEq K]

/-! ## gathering -/

/-- the entry of a gathered vector -/
def entry (x : Data K) (r b col w n0 N : Nat) (q : Nat) : K :=
  x (q / (b * (w * N))) (r + q / (w * N) % b) (col + q / N % w) (n0 + q % N)

theorem entry_at (x : Data K) (r b col w n0 N c i j n : Nat) (hi : i < b) (hj : j < w) (hn : n < N) :
    entry x r b col w n0 N (((c * b + i) * w + j) * N + n) = x c (r + i) (col + j) (n0 + n) := by
  unfold entry
  have hN : 0 < N := by omega
  have hw : 0 < w := by omega
  have hb : 0 < b := by omega
  have e1 : (((c * b + i) * w + j) * N + n) % N = n := by
    rw [Nat.mul_comm, Nat.mul_add_mod, Nat.mod_eq_of_lt hn]
  have e2 : (((c * b + i) * w + j) * N + n) / N = (c * b + i) * w + j := by
    rw [Nat.mul_comm, Nat.mul_add_div hN, Nat.div_eq_of_lt hn, Nat.add_zero]
  have e3 : ((c * b + i) * w + j) % w = j := by
    rw [Nat.mul_comm, Nat.mul_add_mod, Nat.mod_eq_of_lt hj]
  have e4 : ((c * b + i) * w + j) / w = c * b + i := by
    rw [Nat.mul_comm, Nat.mul_add_div hw, Nat.div_eq_of_lt hj, Nat.add_zero]
  have e5 : (c * b + i) % b = i := by
    rw [Nat.mul_comm, Nat.mul_add_mod, Nat.mod_eq_of_lt hi]
  have e6 : (c * b + i) / b = c := by
    rw [Nat.mul_comm, Nat.mul_add_div hb, Nat.div_eq_of_lt hi, Nat.add_zero]
  have d1 : (((c * b + i) * w + j) * N + n) / (w * N) = c * b + i := by
    rw [Nat.mul_comm w N, ← Nat.div_div_eq_div_mul, e2, e4]
  have d2 : (((c * b + i) * w + j) * N + n) / (b * (w * N)) = c := by
    rw [Nat.mul_comm b, ← Nat.div_div_eq_div_mul, d1, e6]
  rw [d2, d1, e5, e2, e3, e1]

theorem range_mul {α : Type} (f : Nat → α) (a b : Nat) :
    (List.range (a * b)).map f = (List.range a).flatMap fun i => (List.range b).map fun j => f (i * b + j) := by
  induction a with
  | zero => simp
  | succ a ih =>
    rw [Nat.succ_mul, List.range_add, List.map_append, ih, List.range_succ, List.flatMap_append]
    simp [Function.comp]

theorem filter_range_flatMap {α : Type} (lo len n : Nat) (h : lo + len ≤ n) (f : Nat → List α) (p : α → Bool) (q : α → Bool)
    (hin : ∀ i, lo ≤ i → i < lo + len → ∀ a ∈ f i, p a = q a) (hout : ∀ i, ¬ (lo ≤ i ∧ i < lo + len) → ∀ a ∈ f i, p a = false) :
    ((List.range n).flatMap f).filter p = (List.range len).flatMap fun k => (f (lo + k)).filter q := by
  have e : List.range n = List.range lo ++ (List.range len).map (lo + ·) ++ (List.range (n - (lo + len))).map ((lo + len) + ·) := by
    rw [← List.range_add, ← List.range_add]
    congr 1
    omega
  rw [e]
  simp only [List.flatMap_append, List.filter_append]
  have f1 : ((List.range lo).flatMap f).filter p = [] := by
    rw [List.filter_eq_nil_iff]
    intro a ha
    obtain ⟨i, hi, hia⟩ := List.mem_flatMap.1 ha
    have := List.mem_range.1 hi
    simp [hout i (by omega) a hia]
  have f3 : (((List.range (n - (lo + len))).map ((lo + len) + ·)).flatMap f).filter p = [] := by
    rw [List.filter_eq_nil_iff]
    intro a ha
    obtain ⟨i, hi, hia⟩ := List.mem_flatMap.1 ha
    obtain ⟨k, _, rfl⟩ := List.mem_map.1 hi
    simp [hout _ (by omega) a hia]
  rw [f1, f3, List.nil_append, List.append_nil, List.flatMap_map]
  have : ∀ l : List Nat, (∀ k ∈ l, k < len) → (l.flatMap fun k => f (lo + k)).filter p = l.flatMap fun k => (f (lo + k)).filter q := by
    intro l hl
    induction l with
    | nil => rfl
    | cons k l ih =>
      rw [List.flatMap_cons, List.filter_append, ih fun k hk => hl k (by simp [hk]), List.flatMap_cons]
      congr 1
      have hk := hl k (by simp)
      exact List.filter_congr fun a ha => hin _ (by omega) (by omega) a ha
  exact this _ fun k hk => List.mem_range.1 hk

open Subsys in
theorem box_cons (lo len n : Nat) (h : lo + len ≤ n) (shape : List Nat) (box : List (Nat × Nat)) :
    (allIdx (n :: shape)).filter (inBox ((lo, lo + len) :: box)) =
      (List.range len).flatMap fun k => ((allIdx shape).filter (inBox box)).map ((lo + k) :: ·) := by
  rw [show allIdx (n :: shape) = (List.range n).flatMap fun i => (allIdx shape).map (i :: ·) from rfl]
  rw [filter_range_flatMap lo len n h _ _ (fun a => match a with | _ :: t => inBox box t | [] => true)]
  · refine List.flatMap_congr fun k _ => ?_
    rw [List.filter_map]
    rfl
  · intro i h1 h2 a ha
    obtain ⟨t, _, rfl⟩ := List.mem_map.1 ha
    simp [inBox, h1, h2]
  · intro i hi a ha
    obtain ⟨t, _, rfl⟩ := List.mem_map.1 ha
    simp only [inBox, Bool.and_eq_false_iff, decide_eq_false_iff_not]
    left
    omega

theorem gathered_eq (x : Data K) (comps R C Nr r b col w n0 N : Nat) (hr : r + b ≤ R) (hc : col + w ≤ C) (hn : n0 + N ≤ Nr) :
    gathered x comps R C Nr r b col w n0 N = (List.range (comps * (b * (w * N)))).map (entry x r b col w n0 N) := by
  unfold gathered Subsys.readCol Subsys.fieldAddrs
  rw [box_cons r b R hr, box_cons col w C hc, box_cons n0 N Nr hn, range_mul]
  simp only [Subsys.allIdx, Subsys.inBox]
  rw [List.map_flatMap, List.flatMap_assoc]
  refine List.flatMap_congr fun c hcm => ?_
  rw [List.map_cons, List.map_nil, List.flatMap_cons, List.flatMap_nil, List.append_nil]
  rw [range_mul, List.map_flatMap, List.map_flatMap]
  refine List.flatMap_congr fun i hi => ?_
  rw [range_mul, List.map_flatMap, List.map_flatMap, List.map_flatMap]
  refine List.flatMap_congr fun j hj => ?_
  simp only [List.filter_cons, List.filter_nil, if_true, List.map_cons, List.map_nil]
  rw [← List.map_eq_flatMap, List.map_map, List.map_map, List.map_map, List.map_map]
  refine List.map_congr_left fun n hn => ?_
  have := entry_at x r b col w n0 N c i j n (List.mem_range.1 hi) (List.mem_range.1 hj) (List.mem_range.1 hn)
  simp only [Function.comp, store, List.cons_append, List.nil_append]
  rw [← this]
  congr 1
  ring

/-! ## explicit application -/

theorem foldl_entries (op : RadialOp K) (x : Data K) (cin cout : Nat) (maps : List Entry) (out : Data K) (c i j n : Nat) :
    maps.foldl (addEntry op x cin cout) out c i j n = out c i j n +
      ((visits maps i j).map fun ell =>
        if c = cout ∧ (op.allowed ell cin && op.allowedOut ell cout) = true ∧ op.start ell ≤ n ∧ n < op.start ell + op.size ell then
          ∑ k ∈ Finset.range (op.size ell), (op.mat cin cout ell).e (n - op.start ell) k * x cin i j (op.start ell + k)
        else 0).sum := by
  unfold visits
  induction maps generalizing out with
  | nil => simp
  | cons e l ih =>
    rw [List.foldl_cons, ih, List.filter_cons]
    by_cases ha : (op.allowed e.ell cin && op.allowedOut e.ell cout) = true
    · by_cases hc : e.covers i j = true
      · rw [if_pos hc, List.map_cons, List.map_cons, List.sum_cons]
        simp only [addEntry, ha, if_true, hc, true_and]
        split <;> ring
      · rw [if_neg hc]
        congr 1
        simp only [addEntry, ha, if_true, hc]
        simp
    · by_cases hc : e.covers i j = true
      · rw [if_pos hc, List.map_cons, List.map_cons, List.sum_cons]
        simp only [addEntry, ha]
        simp
      · rw [if_neg hc]
        simp only [addEntry, ha]
        simp

/-- sum over a list of output components without repetition -/
theorem foldl_outs {β : Type} (f : Data K → Nat → Data K) (g : Nat → K) (c i j n : Nat)
    (h1 : ∀ out, f out c c i j n = out c i j n + g c) (h2 : ∀ out d, d ≠ c → f out d c i j n = out c i j n) :
    ∀ (l : List Nat) (out : Data K), l.Nodup → l.foldl f out c i j n = out c i j n + if l.contains c then g c else 0 := by
  intro l
  induction l with
  | nil => intro out _; simp
  | cons d l ih =>
    intro out hn
    obtain ⟨a, b⟩ := List.nodup_cons.1 hn
    rw [List.foldl_cons, ih _ b]
    by_cases hd : d = c
    · subst hd
      rw [h1]
      have : l.contains d = false := by simpa using a
      rw [this]
      simp
    · rw [h2 _ _ hd]
      have : (d :: l).contains c = l.contains c := by
        simp [List.contains_cons, Ne.symm hd]
      rw [this]

theorem foldl_range {f : Data K → Nat → Data K} {g : Nat → K} {c i j n : Nat}
    (h : ∀ out cin, f out cin c i j n = out c i j n + g cin) (N : Nat) (out : Data K) :
    (List.range N).foldl f out c i j n = out c i j n + ∑ cin ∈ Finset.range N, g cin := by
  induction N with
  | zero => simp
  | succ N ih => rw [List.range_succ, List.foldl_append, List.foldl_cons, List.foldl_nil, h, ih, Finset.sum_range_succ, add_assoc]

/-- value of the explicit application at a slot visited once -/
theorem operate_value (op : RadialOp K) (hw : op.Wf) (maps : List Entry) (x : Data K) (c i j n : Nat) (ell : Int)
    (hv : visits maps i j = [ell]) (hn : n < op.size ell) :
    operate op maps x c i j (op.start ell + n) = ∑ cin ∈ Finset.range op.nin,
      match wrapped op cin c ell with
      | none => 0
      | some m => ∑ k ∈ Finset.range (op.size ell), m.e n k * x cin i j (op.start ell + k) := by
  unfold operate
  rw [foldl_range (g := fun cin => if (op.outs cin).contains c then
      (if (op.allowed ell cin && op.allowedOut ell c) = true then
        ∑ k ∈ Finset.range (op.size ell), (op.mat cin c ell).e n k * x cin i j (op.start ell + k) else 0) else 0)]
  · rw [zero_add]
    refine Finset.sum_congr rfl fun cin _ => ?_
    unfold wrapped
    by_cases h1 : (op.outs cin).contains c = true
    · by_cases h2 : (op.allowed ell cin && op.allowedOut ell c) = true
      · rw [if_pos h1, if_pos h2, Bool.and_assoc, if_pos (by simp only [h1, h2, Bool.and_self])]
      · rw [if_pos h1, if_neg h2, Bool.and_assoc, if_neg (by rw [h1]; simpa using h2)]
    · rw [if_neg h1, Bool.and_assoc, if_neg (by simp only [Bool.and_eq_true]; exact fun h => h1 h.1)]
  · intro out cin
    refine foldl_outs (β := Unit) _ (fun c => if (op.allowed ell cin && op.allowedOut ell c) = true then
        ∑ k ∈ Finset.range (op.size ell), (op.mat cin c ell).e n k * x cin i j (op.start ell + k) else 0) c i j _ ?_ ?_ _ _ (hw.nodup cin)
    · intro out
      rw [foldl_entries, hv]
      simp [hn]
    · intro out d hd
      rw [foldl_entries, hv]
      simp [Ne.symm hd]

/-! ## matrices -/

theorem ident_kron (a b : Nat) : (Mat.ident a : Mat K).kron (Mat.ident b) = Mat.ident (a * b) := by
  simp only [Mat.kron, Mat.ident, Mat.mk.injEq, true_and]
  funext i j
  by_cases h : i = j
  · subst h; simp
  · rw [if_neg h]
    by_cases h1 : i / b = j / b
    · by_cases h2 : i % b = j % b
      · exfalso
        apply h
        rw [← Nat.div_add_mod i b, ← Nat.div_add_mod j b, h1, h2]
      · simp [h2]
    · simp [h1]

theorem kron_one (m : Mat K) : (Mat.ident 1 : Mat K).kron m = ⟨m.rows, m.cols, fun i j => if i / m.rows = j / m.cols then m.e (i % m.rows) (j % m.cols) else 0⟩ := by
  simp [Mat.kron, Mat.ident]

theorem kronAll_eq (b : Nat) (m : Mat K) : kronAll [Mat.ident b, Mat.ident 1, m] = (Mat.ident b).kron m := by
  simp only [kronAll, List.foldl_cons, List.foldl_nil, ident_kron, Nat.one_mul, Nat.mul_one]

theorem ident_kron_apply (b : Nat) (m : Mat K) (v : Nat → K) (p q : Nat) (hp : p < b) (hq : q < m.rows) :
    ∑ j ∈ Finset.range ((Mat.ident b).kron m).cols, ((Mat.ident b).kron m).e (p * m.rows + q) j * v j =
      ∑ t ∈ Finset.range m.cols, m.e q t * v (p * m.cols + t) := by
  rw [kron_apply _ _ _ _ _ hq, Finset.sum_eq_single p]
  · simp [Mat.ident]
  · intro s _ hs; simp [Mat.ident, Ne.symm hs]
  · intro h; simp [Mat.ident] at h; omega

theorem blockDiag_rows (N : Nat) : ∀ (ms : List (Mat K)), (∀ m ∈ ms, m.rows = N ∧ m.cols = N) →
    (blockDiag ms).rows = ms.length * N ∧ (blockDiag ms).cols = ms.length * N
  | [], _ => by simp [blockDiag]
  | m :: ms, h => by
      have ih := blockDiag_rows N ms fun a ha => h a (by simp [ha])
      have hm := h m (by simp)
      simp only [blockDiag, hm.1, hm.2, ih.1, ih.2, List.length_cons, Nat.succ_mul]
      omega

theorem blockDiag_apply (N : Nat) : ∀ (ms : List (Mat K)), (∀ m ∈ ms, m.rows = N ∧ m.cols = N) → ∀ (v : Nat → K) (j n : Nat)
    (hj : j < ms.length) (_ : n < N), ∑ t ∈ Finset.range (blockDiag ms).cols, (blockDiag ms).e (j * N + n) t * v t =
      ∑ k ∈ Finset.range N, (ms[j]).e n k * v (j * N + k)
  | m :: ms, h, v, j, n, hj, hn => by
      have ih := blockDiag_apply N ms fun a ha => h a (by simp [ha])
      have hm := h m (by simp)
      have hs := blockDiag_rows N ms fun a ha => h a (by simp [ha])
      have hcols : (blockDiag (m :: ms)).cols = N + (blockDiag ms).cols := by simp [blockDiag, hm.2]
      rw [hcols, Finset.sum_range_add]
      cases j with
      | zero =>
        have z : ∀ t, (blockDiag (m :: ms)).e (0 * N + n) (N + t) = 0 := by
          intro t; simp [blockDiag, hm.1, hm.2, hn]
        have z' : ∑ t ∈ Finset.range (blockDiag ms).cols, (blockDiag (m :: ms)).e (0 * N + n) (N + t) * v (N + t) = 0 :=
          Finset.sum_eq_zero fun t _ => by rw [z t, zero_mul]
        rw [z', add_zero]
        refine Finset.sum_congr rfl fun k hk => ?_
        have hk := Finset.mem_range.1 hk
        simp [blockDiag, hm.1, hm.2, hn, hk]
      | succ j =>
        have hle : ¬ (j + 1) * N + n < N := by rw [Nat.succ_mul]; omega
        have z : ∀ t, t < N → (blockDiag (m :: ms)).e ((j + 1) * N + n) t = 0 := by
          intro t ht
          simp only [blockDiag, hm.1, hm.2]
          rw [if_neg hle, if_pos ht]
        have z' : ∑ t ∈ Finset.range N, (blockDiag (m :: ms)).e ((j + 1) * N + n) t * v t = 0 :=
          Finset.sum_eq_zero fun t ht => by rw [z t (Finset.mem_range.1 ht), zero_mul]
        rw [z', zero_add]
        have z2 : ∀ t, (blockDiag (m :: ms)).e ((j + 1) * N + n) (N + t) = (blockDiag ms).e (j * N + n) t := by
          intro t
          simp only [blockDiag, hm.1, hm.2]
          rw [if_neg hle, if_neg (by omega)]
          congr 1
          · rw [Nat.succ_mul]; omega
          · omega
        simp only [z2]
        rw [ih (fun t => v (N + t)) j n (by simpa using hj) hn]
        simp only [List.getElem_cons_succ]
        refine Finset.sum_congr rfl fun k _ => ?_
        congr 2
        rw [Nat.succ_mul]; omega

/-- a block matrix with blocks of size `S` acts component by component -/
theorem bmat_apply (nout nin S : Nat) (blk : Nat → Nat → Mat K) (h0 : 0 < nout ∧ 0 < nin)
    (hS : ∀ r c, r < nout → c < nin → (blk r c).rows = S ∧ (blk r c).cols = S) :
    ∃ M, bmat nout nin blk = some M ∧ M.rows = nout * S ∧ M.cols = nin * S ∧
      ∀ (v : Nat → K) r p, r < nout → p < S →
        ∑ q ∈ Finset.range M.cols, M.e (r * S + p) q * v q =
          ∑ c ∈ Finset.range nin, ∑ q ∈ Finset.range S, (blk r c).e p q * v (c * S + q) := by
  have h00 := hS 0 0 h0.1 h0.2
  refine ⟨⟨nout * S, nin * S, fun i j => (blk (i / S) (j / S)).e (i % S) (j % S)⟩, ?_, rfl, rfl, ?_⟩
  · unfold bmat
    simp only [h00.1, h00.2]
    rw [if_pos]
    rw [List.all_eq_true]
    intro r hr
    rw [List.all_eq_true]
    intro c hc
    have := hS r c (List.mem_range.1 hr) (List.mem_range.1 hc)
    simp [this.1, this.2]
  · intro v r p hr hp
    simp only
    rw [sum_range_mul]
    refine Finset.sum_congr rfl fun c _ => Finset.sum_congr rfl fun q hq => ?_
    have hq := Finset.mem_range.1 hq
    have hSpos : 0 < S := by omega
    rw [Nat.mul_comm r, Nat.mul_comm c, Nat.mul_add_div hSpos, Nat.div_eq_of_lt hp, Nat.mul_add_mod, Nat.mod_eq_of_lt hp,
      Nat.mul_add_div hSpos, Nat.div_eq_of_lt hq, Nat.mul_add_mod, Nat.mod_eq_of_lt hq, Nat.add_zero, Nat.add_zero]

/-- agreement on lists from agreement on entries -/
theorem isProduct_of (M : Mat K) (nin nout b w N r col n0 : Nat) (R C Nr : Nat) (x y : Data K)
    (hr : r + b ≤ R) (hc : col + w ≤ C) (hn : n0 + N ≤ Nr)
    (hM : M.rows = nout * (b * (w * N))) (hMc : M.cols = nin * (b * (w * N)))
    (h : ∀ c i j n, c < nout → i < b → j < w → n < N →
      y c (r + i) (col + j) (n0 + n) = ∑ q ∈ Finset.range M.cols, M.e (c * (b * (w * N)) + (i * (w * N) + (j * N + n))) q * entry x r b col w n0 N q) :
    IsProduct M (gathered x nin R C Nr r b col w n0 N) (gathered y nout R C Nr r b col w n0 N) := by
  rw [gathered_eq x nin R C Nr r b col w n0 N hr hc hn, gathered_eq y nout R C Nr r b col w n0 N hr hc hn]
  refine ⟨by simp [hM], by simp [hMc], ?_⟩
  intro q hq
  rw [hM] at hq
  simp only [Fin.getElem_fin, List.getElem_map, List.getElem_range]
  rw [Fin.sum_univ_eq_sum_range (fun j => M.e q j * entry x r b col w n0 N j)]
  have hpos : 0 < b * (w * N) := by
    rcases Nat.eq_zero_or_pos (b * (w * N)) with h0 | h0
    · rw [h0] at hq; simp at hq
    · exact h0
  have hb : 0 < b := Nat.pos_of_mul_pos_right hpos
  have hwN : 0 < w * N := Nat.pos_of_mul_pos_left hpos
  have hN : 0 < N := Nat.pos_of_mul_pos_left hwN
  have hw : 0 < w := Nat.pos_of_mul_pos_right hwN
  have e : q = (q / (b * (w * N))) * (b * (w * N)) + ((q / (w * N) % b) * (w * N) + ((q / N % w) * N + q % N)) := by
    have a1 := Nat.div_add_mod q N
    have a2 := Nat.div_add_mod (q / N) w
    have a3 := Nat.div_add_mod (q / (w * N)) b
    rw [Nat.div_div_eq_div_mul, Nat.mul_comm N w] at a2
    rw [Nat.div_div_eq_div_mul, Nat.mul_comm (w * N) b] at a3
    calc q = N * (q / N) + q % N := a1.symm
      _ = N * (w * (b * (q / (b * (w * N))) + q / (w * N) % b) + q / N % w) + q % N := by rw [a3, a2]
      _ = _ := by ring
  have := h (q / (b * (w * N))) (q / (w * N) % b) (q / N % w) (q % N) (by rw [Nat.div_lt_iff_lt_mul hpos]; exact hq)
    (Nat.mod_lt _ hb) (Nat.mod_lt _ hw) (Nat.mod_lt _ hN)
  rw [← e] at this
  exact this

end Dedalus.Agree
