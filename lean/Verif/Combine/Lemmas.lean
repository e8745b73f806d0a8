import Verif.Combine.Spec
import Mathlib.Tactic.Ring
import Mathlib.Tactic.Linarith

namespace Dedalus.Combine

variable {K : Type}

/-- The sum of the values of a row in one column. -/
def colSum [Add K] [Zero K] (r : List (Nat × K)) (j : Nat) : K :=
  (r.filterMap fun jv => if jv.1 = j then some jv.2 else none).sum

/-- The entries of one row, as columns and values. -/
def bucket (es : List (Nat × Nat × K)) (i : Nat) : List (Nat × K) :=
  es.filterMap fun e => if e.1 = i then some e.2 else none

section rows

theorem colSum_cons [AddCommMonoid K] (e : Nat × K) (r : List (Nat × K)) (j : Nat) :
    colSum (e :: r) j = (if e.1 = j then e.2 else 0) + colSum r j := by
  unfold colSum
  by_cases h : e.1 = j <;> simp [h]

theorem colSum_append [AddCommMonoid K] (r s : List (Nat × K)) (j : Nat) :
    colSum (r ++ s) j = colSum r j + colSum s j := by
  simp [colSum, List.filterMap_append]

theorem colSum_insertAdd [AddCommMonoid K] (e : Nat × K) (r : List (Nat × K)) (j : Nat) :
    colSum (insertAdd e r) j = (if e.1 = j then e.2 else 0) + colSum r j := by
  induction r with
  | nil => simp [insertAdd, colSum_cons]
  | cons f fs ih =>
    unfold insertAdd
    split
    · rw [colSum_cons]
    · split
      · next h =>
        rw [colSum_cons, colSum_cons, h]
        by_cases hj : f.1 = j
        · simp [hj, add_assoc]
        · simp [hj]
      · rw [colSum_cons, ih, colSum_cons, add_left_comm]

theorem colSum_canonRow [AddCommMonoid K] (r : List (Nat × K)) (j : Nat) :
    colSum (canonRow r) j = colSum r j := by
  induction r with
  | nil => rfl
  | cons e r ih =>
    show colSum (insertAdd e (canonRow r)) j = _
    rw [colSum_insertAdd, ih, colSum_cons]

theorem mem_insertAdd [Add K] (e : Nat × K) (r : List (Nat × K)) (j : Nat) :
    j ∈ (insertAdd e r).map Prod.fst ↔ j = e.1 ∨ j ∈ r.map Prod.fst := by
  induction r with
  | nil => simp [insertAdd]
  | cons f fs ih =>
    unfold insertAdd
    split
    · simp only [List.map_cons, List.mem_cons]
    · split
      · next h => simp only [List.map_cons, List.mem_cons, h]; tauto
      · rw [List.map_cons, List.mem_cons, ih, List.map_cons, List.mem_cons]; tauto

theorem mem_canonRow [Add K] (r : List (Nat × K)) (j : Nat) :
    j ∈ (canonRow r).map Prod.fst ↔ j ∈ r.map Prod.fst := by
  induction r with
  | nil => rfl
  | cons e r ih =>
    show j ∈ (insertAdd e (canonRow r)).map Prod.fst ↔ _
    rw [mem_insertAdd, ih, List.map_cons, List.mem_cons]

theorem sorted_insertAdd [Add K] (e : Nat × K) (r : List (Nat × K))
    (h : (r.map Prod.fst).Pairwise (· < ·)) : ((insertAdd e r).map Prod.fst).Pairwise (· < ·) := by
  induction r with
  | nil => simp [insertAdd]
  | cons f fs ih =>
    rw [List.map_cons, List.pairwise_cons] at h
    unfold insertAdd
    split
    · next hlt =>
      rw [List.map_cons, List.pairwise_cons, List.map_cons, List.pairwise_cons]
      refine ⟨fun j hj => ?_, h⟩
      rcases List.mem_cons.1 hj with rfl | hj
      · exact hlt
      · exact hlt.trans (h.1 j hj)
    · split
      · rw [List.map_cons, List.pairwise_cons]
        exact h
      · next h1 h2 =>
        rw [List.map_cons, List.pairwise_cons]
        refine ⟨fun j hj => ?_, ih h.2⟩
        rcases (mem_insertAdd e fs j).1 hj with rfl | hj
        · omega
        · exact h.1 j hj

theorem sorted_canonRow [Add K] (r : List (Nat × K)) :
    ((canonRow r).map Prod.fst).Pairwise (· < ·) := by
  induction r with
  | nil => exact List.Pairwise.nil
  | cons e r ih => exact sorted_insertAdd e _ ih

theorem sorted_ext : ∀ (xs ys : List Nat), xs.Pairwise (· < ·) → ys.Pairwise (· < ·) →
    (∀ j, j ∈ xs ↔ j ∈ ys) → xs = ys
  | [], [], _, _, _ => rfl
  | [], y :: ys, _, _, h => absurd ((h y).2 List.mem_cons_self) List.not_mem_nil
  | x :: xs, [], _, _, h => absurd ((h x).1 List.mem_cons_self) List.not_mem_nil
  | x :: xs, y :: ys, hx, hy, h => by
    rw [List.pairwise_cons] at hx hy
    have e : x = y := by
      rcases List.mem_cons.1 ((h x).1 List.mem_cons_self) with e | hm
      · exact e
      · rcases List.mem_cons.1 ((h y).2 List.mem_cons_self) with e | hm'
        · exact e.symm
        · have := hy.1 x hm
          have := hx.1 y hm'
          omega
    subst e
    congr 1
    refine sorted_ext xs ys hx.2 hy.2 fun j => ⟨fun hj => ?_, fun hj => ?_⟩
    · rcases List.mem_cons.1 ((h j).1 (List.mem_cons_of_mem _ hj)) with rfl | hm
      · exact absurd (hx.1 j hj) (lt_irrefl j)
      · exact hm
    · rcases List.mem_cons.1 ((h j).2 (List.mem_cons_of_mem _ hj)) with rfl | hm
      · exact absurd (hy.1 j hj) (lt_irrefl j)
      · exact hm

theorem canonRow_cols [Add K] (r s : List (Nat × K))
    (h : ∀ j, j ∈ r.map Prod.fst ↔ j ∈ s.map Prod.fst) :
    (canonRow r).map Prod.fst = (canonRow s).map Prod.fst :=
  sorted_ext _ _ (sorted_canonRow r) (sorted_canonRow s) fun j => by
    rw [mem_canonRow, mem_canonRow, h]

end rows

section csr

theorem zip_fst_snd (xs : List (Nat × K)) : (xs.map Prod.fst).zip (xs.map Prod.snd) = xs := by
  induction xs with
  | nil => rfl
  | cons x xs ih => simp [ih]

theorem pointers_ne (s : Nat) (ns : List Nat) : ∃ ps, pointers s ns = s :: ps := by
  cases ns <;> exact ⟨_, rfl⟩

theorem rows_aux (pre : List (Nat × K)) (rs : List (List (Nat × K))) :
    let ps := pointers pre.length (rs.map List.length)
    ((ps.zip ps.tail).map fun pq => ((pre ++ rs.flatten).drop pq.1).take (pq.2 - pq.1)) = rs := by
  induction rs generalizing pre with
  | nil => simp [pointers]
  | cons r rs ih =>
    have h := ih (pre ++ r)
    obtain ⟨ps, hps⟩ := pointers_ne (pre.length + r.length) (rs.map List.length)
    rw [List.length_append] at h
    simp only [List.map_cons, pointers, List.tail_cons]
    rw [hps] at h ⊢
    simp only [List.tail_cons, List.zip_cons_cons, List.map_cons] at h ⊢
    rw [List.flatten_cons, ← List.append_assoc]
    congr 1
    simp [List.append_assoc]

theorem rows_ofRows (n m : Nat) (rs : List (List (Nat × K))) : (ofRows n m rs).rows = rs := by
  have h := rows_aux [] rs
  simp only [List.length_nil, List.nil_append] at h
  show (_ : List _).map _ = _
  rw [show (ofRows n m rs).indices.zip (ofRows n m rs).data = rs.flatten from zip_fst_snd _]
  exact h

theorem pointers_length (s : Nat) (ns : List Nat) : (pointers s ns).length = ns.length + 1 := by
  induction ns generalizing s with
  | nil => rfl
  | cons n ns ih => simp [pointers, ih]

theorem sized_tocsr [Add K] (c : Coo K) : Sized c.nrows c.tocsr := by
  refine ⟨rfl, ?_⟩
  show (pointers 0 _).length = _
  simp [pointers_length]

theorem rows_tocsr [Add K] (c : Coo K) :
    c.tocsr.rows = (List.range c.nrows).map fun i => canonRow (bucket c.entries i) :=
  rows_ofRows _ _ _

theorem row_tocsr [Add K] (c : Coo K) (i : Nat) (hi : i < c.nrows) :
    c.tocsr.rows[i]? = some (canonRow (bucket c.entries i)) := by
  rw [rows_tocsr, List.getElem?_map, List.getElem?_range hi]
  rfl

theorem rows_length (n : Nat) (c : Csr K) (h : Sized n c) : c.rows.length = n := by
  show (List.map _ _).length = n
  rw [List.length_map, List.length_zip, List.length_tail, h.2]
  omega

theorem row_get (c : Csr K) (i : Nat) (r : List (Nat × K)) :
    c.rows[i]? = some r ↔ ∃ p q, c.indptr[i]? = some p ∧ c.indptr[i + 1]? = some q ∧
      r = ((c.indices.zip c.data).drop p).take (q - p) := by
  unfold Csr.rows
  rw [List.getElem?_map, Option.map_eq_some_iff]
  constructor
  · rintro ⟨⟨p, q⟩, h, rfl⟩
    rw [List.getElem?_zip_eq_some, List.getElem?_tail] at h
    exact ⟨p, q, h.1, h.2, rfl⟩
  · rintro ⟨p, q, hp, hq, rfl⟩
    refine ⟨(p, q), ?_, rfl⟩
    rw [List.getElem?_zip_eq_some, List.getElem?_tail]
    exact ⟨hp, hq⟩

theorem dense_row [AddCommMonoid K] (c : Csr K) (i j : Nat) (r : List (Nat × K))
    (h : c.rows[i]? = some r) : dense c i j = colSum r j := by
  obtain ⟨p, q, hp, hq, rfl⟩ := (row_get c i r).1 h
  unfold dense
  rw [hp, hq]
  rfl

theorem hasEntry_row (c : Csr K) (i j : Nat) (r : List (Nat × K))
    (h : c.rows[i]? = some r) : HasEntry c i j ↔ j ∈ r.map Prod.fst := by
  obtain ⟨p, q, hp, hq, rfl⟩ := (row_get c i r).1 h
  constructor
  · rintro ⟨p', q', v, hp', hq', hm⟩
    rw [hp] at hp'; rw [hq] at hq'
    cases hp'; cases hq'
    exact List.mem_map.2 ⟨_, hm, rfl⟩
  · intro hj
    obtain ⟨⟨j', v⟩, hm, rfl⟩ := List.mem_map.1 hj
    exact ⟨p, q, v, hp, hq, hm⟩

theorem bucket_append (es fs : List (Nat × Nat × K)) (i : Nat) :
    bucket (es ++ fs) i = bucket es i ++ bucket fs i := List.filterMap_append

theorem bucket_tag (r : List (Nat × K)) (k i : Nat) :
    bucket (r.map fun jv => (k, jv.1, jv.2)) i = if k = i then r else [] := by
  induction r with
  | nil => simp [bucket]
  | cons x xs ih =>
    unfold bucket at ih ⊢
    by_cases h : k = i
    · simp [h] at ih ⊢
    · simp [h] at ih ⊢

theorem bucket_rows (rs : List (List (Nat × K))) (k i : Nat) :
    bucket ((rs.zipIdx k).flatMap fun ri => ri.1.map fun jv => (ri.2, jv.1, jv.2)) i =
      if k ≤ i then (rs[i - k]?).elim [] id else [] := by
  induction rs generalizing k with
  | nil => simp [bucket]
  | cons r rs ih =>
    rw [List.zipIdx_cons, List.flatMap_cons, bucket_append, ih, bucket_tag]
    by_cases h : k = i
    · subst h
      simp
    · by_cases h2 : k ≤ i
      · rw [if_neg h, if_pos h2, if_pos (by omega)]
        have : i - k = (i - (k + 1)) + 1 := by omega
        rw [this, List.getElem?_cons_succ]
        rfl
      · rw [if_neg h, if_neg h2, if_neg (by omega)]
        rfl

theorem bucket_tocoo (c : Csr K) (i : Nat) (r : List (Nat × K)) (h : c.rows[i]? = some r) :
    bucket c.tocoo.entries i = r := by
  show bucket (c.rows.zipIdx.flatMap _) i = r
  rw [bucket_rows, if_pos (Nat.zero_le i), Nat.sub_zero, h]
  rfl

theorem bucket_scale (es : List (Nat × Nat × K)) (f : K → K) (i : Nat) :
    bucket (es.map fun e => (e.1, e.2.1, f e.2.2)) i =
      (bucket es i).map fun jv => (jv.1, f jv.2) := by
  induction es with
  | nil => rfl
  | cons e es ih =>
    unfold bucket at ih ⊢
    by_cases h : e.1 = i <;> simp [h, ih]

theorem exists_row (n : Nat) (c : Csr K) (h : Sized n c) (i : Nat) (hi : i < n) :
    ∃ r, c.rows[i]? = some r := by
  rw [← rows_length n c h] at hi
  exact ⟨_, List.getElem?_eq_getElem hi⟩

theorem colSum_scale [CommRing K] (a : K) (r : List (Nat × K)) (j : Nat) :
    colSum (r.map fun jv => (jv.1, a * jv.2)) j = a * colSum r j := by
  induction r with
  | nil => simp [colSum]
  | cons x xs ih =>
    rw [List.map_cons, colSum_cons, colSum_cons, ih]
    by_cases h : x.1 = j
    · simp [h, mul_add]
    · simp [h]

theorem colSum_zero [CommRing K] (r : List (Nat × K)) (j : Nat) :
    colSum (r.map fun jv => (jv.1, jv.2 * 0)) j = 0 := by
  have : (fun jv : Nat × K => (jv.1, jv.2 * 0)) = fun jv => (jv.1, 0 * jv.2) := by
    funext jv; simp
  rw [this, colSum_scale, zero_mul]

end csr

section patterns

theorem bucket_flatMap (cs : List (Csr K)) (f : K → K) (i : Nat) :
    bucket (cs.flatMap fun B => B.tocoo.entries.map fun e => (e.1, e.2.1, f e.2.2)) i =
      cs.flatMap fun B => (bucket B.tocoo.entries i).map fun jv => (jv.1, f jv.2) := by
  induction cs with
  | nil => rfl
  | cons c cs ih => rw [List.flatMap_cons, bucket_append, ih, bucket_scale, List.flatMap_cons]

theorem zeros_tocsr_row [CommRing K] (n : Nat) (cs : List (Csr K)) (Z : Coo K)
    (h : zerosWithPattern cs = some Z) (hs : ∀ c ∈ cs, Sized n c) (i : Nat) (hi : i < n) :
    Z.nrows = n ∧ bucket Z.entries i =
      cs.flatMap fun B => (bucket B.tocoo.entries i).map fun jv => (jv.1, jv.2 * 0) := by
  cases cs with
  | nil => cases h
  | cons A As =>
    cases h
    exact ⟨(hs A List.mem_cons_self).1, bucket_flatMap (A :: As) (fun v => v * 0) i⟩

theorem zeros_nrows [CommRing K] (n : Nat) (cs : List (Csr K)) (Z : Coo K)
    (h : zerosWithPattern cs = some Z) (hs : ∀ c ∈ cs, Sized n c) : Z.nrows = n := by
  cases cs with
  | nil => cases h
  | cons A As =>
    cases h
    exact (hs A List.mem_cons_self).1

theorem ofRows_pattern (n m m' : Nat) (rs ss : List (List (Nat × K)))
    (h : rs.map (List.map Prod.fst) = ss.map (List.map Prod.fst)) :
    SamePattern (ofRows n m rs) (ofRows n m' ss) := by
  have hl : rs.map List.length = ss.map List.length := by
    have := congrArg (List.map List.length) h
    simpa [List.map_map, Function.comp_def] using this
  have hi : rs.flatten.map Prod.fst = ss.flatten.map Prod.fst := by
    have := congrArg List.flatten h
    simpa [List.map_flatten] using this
  refine ⟨congrArg (pointers 0) hl, hi, ?_⟩
  have := congrArg List.length hi
  show (rs.flatten.map Prod.snd).length = (ss.flatten.map Prod.snd).length
  rw [List.length_map, List.length_map] at this ⊢
  exact this

theorem tocsr_pattern [CommRing K] (c d : Coo K) (hn : c.nrows = d.nrows)
    (h : ∀ i, i < c.nrows → ∀ j, j ∈ (bucket c.entries i).map Prod.fst ↔ j ∈ (bucket d.entries i).map Prod.fst) :
    SamePattern c.tocsr d.tocsr := by
  have e : d.tocsr = ofRows c.nrows d.ncols ((List.range c.nrows).map fun i => canonRow (bucket d.entries i)) := by
    unfold Coo.tocsr
    rw [hn]
    rfl
  rw [e]
  apply ofRows_pattern
  rw [List.map_map, List.map_map]
  apply List.map_congr_left
  intro i hi
  exact canonRow_cols _ _ (h i (List.mem_range.1 hi))

theorem expand_pattern [CommRing K] (n : Nat) (cs : List (Csr K)) (Z : Coo K)
    (h : zerosWithPattern cs = some Z) (hs : ∀ c ∈ cs, Sized n c) (c : Csr K) (hc : c ∈ cs) :
    SamePattern (expandPattern c Z.tocsr).tocsr Z.tocsr := by
  have hcn : c.nrows = n := (hs c hc).1
  apply tocsr_pattern
  · show c.nrows = Z.nrows
    rw [zeros_nrows n cs Z h hs, hcn]
  · intro i hi j
    have hi' : i < n := by rw [← hcn]; exact hi
    obtain ⟨hZ, hb⟩ := zeros_tocsr_row n cs Z h hs i hi'
    have hrow := row_tocsr Z i (by rw [hZ]; exact hi')
    show j ∈ (bucket (c.tocoo.entries ++ Z.tocsr.tocoo.entries.map fun e => (e.1, e.2.1, e.2.2 * 0)) i).map Prod.fst ↔ _
    rw [bucket_append, bucket_scale _ (fun v => v * 0), bucket_tocoo _ i _ hrow, List.map_append, List.mem_append, List.map_map]
    show j ∈ _ ∨ j ∈ (canonRow (bucket Z.entries i)).map Prod.fst ↔ _
    rw [mem_canonRow]
    constructor
    · rintro (hj | hj)
      · rw [hb, List.map_flatMap, List.mem_flatMap]
        refine ⟨c, hc, ?_⟩
        rw [List.map_map]
        exact hj
      · exact hj
    · exact Or.inr

theorem expand_dense [CommRing K] (n : Nat) (c P : Csr K) (hc : Sized n c) (hP : Sized n P)
    (i j : Nat) (hi : i < n) : dense (expandPattern c P).tocsr i j = dense c i j := by
  obtain ⟨r, hr⟩ := exists_row n c hc i hi
  obtain ⟨p, hp⟩ := exists_row n P hP i hi
  rw [dense_row c i j r hr,
    dense_row _ i j _ (row_tocsr (expandPattern c P) i (by show i < c.nrows; rw [hc.1]; exact hi)), colSum_canonRow]
  show colSum (bucket (c.tocoo.entries ++ P.tocoo.entries.map fun e => (e.1, e.2.1, e.2.2 * 0)) i) j = _
  rw [bucket_append, bucket_scale _ (fun v => v * 0), bucket_tocoo c i r hr, bucket_tocoo P i p hp, colSum_append, colSum_zero, add_zero]

theorem plus_dense [CommRing K] (n : Nat) (a b : K) (A B : Csr K) (hA : Sized n A) (hB : Sized n B)
    (i j : Nat) (hi : i < n) : dense (plus a A b B) i j = a * dense A i j + b * dense B i j := by
  obtain ⟨r, hr⟩ := exists_row n A hA i hi
  obtain ⟨p, hp⟩ := exists_row n B hB i hi
  rw [dense_row A i j r hr, dense_row B i j p hp]
  unfold plus
  rw [dense_row _ i j _ (row_tocsr _ i (by show i < A.nrows; rw [hA.1]; exact hi)), colSum_canonRow]
  show colSum (bucket ((A.tocoo.entries.map fun e => (e.1, e.2.1, a * e.2.2)) ++ _) i) j = _
  rw [bucket_append, bucket_scale _ (fun v => a * v), bucket_scale _ (fun v => b * v), bucket_tocoo A i r hr,
    bucket_tocoo B i p hp, colSum_append, colSum_scale, colSum_scale]

theorem colSum_zip [CommRing K] (a b : K) (xs : List Nat) (ds es : List K) (hd : ds.length = es.length) (j : Nat) :
    colSum (xs.zip (List.zipWith (fun u v => b * u + v) es (ds.map fun v => a * v))) j =
      a * colSum (xs.zip ds) j + b * colSum (xs.zip es) j := by
  induction xs generalizing ds es with
  | nil => simp [colSum]
  | cons x xs ih =>
    cases ds with
    | nil =>
      have : es = [] := List.eq_nil_of_length_eq_zero hd.symm
      subst this
      simp [colSum]
    | cons d ds =>
      cases es with
      | nil => cases hd
      | cons e es =>
        have hd' : ds.length = es.length := Nat.succ.inj hd
        simp only [List.map_cons, List.zipWith_cons_cons, List.zip_cons_cons]
        rw [colSum_cons, colSum_cons, colSum_cons, ih ds es hd']
        by_cases h : x = j
        · simp only [h, if_true]; ring
        · simp only [h, if_false]; ring

theorem drop_take_zip {α β : Type} (xs : List α) (ys : List β) (p k : Nat) :
    ((xs.zip ys).drop p).take k = ((xs.drop p).take k).zip ((ys.drop p).take k) := by
  rw [List.zip, List.drop_zipWith, List.take_zipWith]

/-- Arithmetic on data arrays of one pattern is arithmetic on matrices. -/
theorem dense_data [CommRing K] (a b : K) (A B C : Csr K) (hA : SamePattern A C) (hB : SamePattern B C)
    (i j : Nat) :
    dense { C with data := List.zipWith (fun u v => b * u + v) B.data (A.data.map fun v => a * v) } i j =
      a * dense A i j + b * dense B i j := by
  unfold dense
  rw [hA.1, hB.1, hA.2.1, hB.2.1]
  simp only
  cases C.indptr[i]? with
  | none => simp
  | some p =>
    cases C.indptr[i + 1]? with
    | none => simp
    | some q =>
      simp only
      rw [drop_take_zip, drop_take_zip, drop_take_zip, List.drop_zipWith, List.take_zipWith, ← List.map_drop, ← List.map_take]
      refine colSum_zip a b _ _ _ ?_ j
      simp [hA.2.2, hB.2.2]

theorem setAll_notin (ms : List (Name × Csr K)) (f : Name → Option (Csr K)) (n : Name)
    (h : n ∉ ms.map Prod.fst) : setAll f ms n = f n := by
  induction ms generalizing f with
  | nil => rfl
  | cons x xs ih =>
    rw [List.map_cons, List.mem_cons, not_or] at h
    show setAll _ xs n = f n
    rw [ih _ h.2]
    exact if_neg h.1

theorem setAll_mem (ms : List (Name × Csr K)) (f : Name → Option (Csr K)) (n : Name) (c : Csr K)
    (hd : (ms.map Prod.fst).Nodup) (h : (n, c) ∈ ms) : setAll f ms n = some c := by
  induction ms generalizing f with
  | nil => cases h
  | cons x xs ih =>
    rw [List.map_cons, List.nodup_cons] at hd
    rcases List.mem_cons.1 h with rfl | h
    · show setAll _ xs n = some c
      rw [setAll_notin xs _ n hd.1]
      exact if_pos rfl
    · exact ih _ hd.2 h

theorem data_ne [CommRing K] (n : Nat) (cs : List (Csr K)) (Z : Coo K)
    (h : zerosWithPattern cs = some Z) (hs : ∀ c ∈ cs, Sized n c) (c : Csr K) (hc : c ∈ cs)
    (i j : Nat) (hi : i < n) (he : HasEntry c i j) : Z.tocsr.data ≠ [] := by
  intro e
  obtain ⟨hZ, hb⟩ := zeros_tocsr_row n cs Z h hs i hi
  have hrow := row_tocsr Z i (by rw [hZ]; exact hi)
  obtain ⟨r, hr⟩ := exists_row n c (hs c hc) i hi
  have hj := (hasEntry_row c i j r hr).1 he
  obtain ⟨p, q, -, -, hpq⟩ := (row_get _ i _).1 hrow
  rw [e, List.zip_nil_right, List.drop_nil, List.take_nil] at hpq
  have hm : j ∈ (canonRow (bucket Z.entries i)).map Prod.fst := by
    rw [mem_canonRow, hb, List.map_flatMap, List.mem_flatMap]
    refine ⟨c, hc, ?_⟩
    rw [List.map_map, bucket_tocoo c i r hr]
    exact hj
  rw [hpq] at hm
  cases hm

/-- The attributes a step reads are those of the matrices `m` and `l`. -/
def Ready [Add K] [Zero K] (stored : Bool) (n : Nat) (m l : Csr K) (s : State K) : Prop :=
  if stored then
    ∃ C M L, s.LHS = some C ∧ s.exp .M = some M ∧ s.exp .L = some L ∧ SamePattern M C ∧ SamePattern L C ∧
      C.data ≠ [] ∧ ∀ i j, i < n → dense M i j = dense m i j ∧ dense L i j = dense l i j
  else s.min .M = some m ∧ s.min .L = some l ∧ Sized n m ∧ Sized n l

theorem axpy_eq [CommRing K] (a : K) (x y : List K) (hx : x ≠ []) (h : x.length = y.length) :
    axpy a x y = .ok (List.zipWith (fun u v => a * u + v) x y) := by
  unfold axpy
  rw [if_neg hx, if_neg (by omega), h, List.drop_length, List.append_nil]

theorem combineMultistep_ready [CommRing K] (stored : Bool) (n : Nat) (m l : Csr K) (a b : K) (s : State K)
    (h : Ready stored n m l s) :
    ∃ C, combineMultistep stored a b s = .ok { s with LHS := some C } ∧
      Ready stored n m l { s with LHS := some C } ∧
      ∀ i j, i < n → dense C i j = a * dense m i j + b * dense l i j := by
  cases stored with
  | false =>
    obtain ⟨hm, hl, sm, sl⟩ := h
    refine ⟨plus a m b l, ?_, ⟨hm, hl, sm, sl⟩, fun i j hi => plus_dense n a b m l sm sl i j hi⟩
    simp only [combineMultistep, Bool.false_eq_true, if_false, hm, hl]
    rfl
  | true =>
    obtain ⟨C, M, L, hC, hM, hL, pM, pL, hne, hd⟩ := h
    have e1 : multiply a M.data C.data = .ok (M.data.map fun v => a * v) := if_pos pM.2.2
    have hL0 : L.data ≠ [] := by
      intro e
      apply hne
      have := pL.2.2
      rw [e] at this
      exact List.eq_nil_of_length_eq_zero this.symm
    have e2 := axpy_eq b L.data (M.data.map fun v => a * v) hL0 (by rw [List.length_map, pM.2.2, pL.2.2])
    refine ⟨{ C with data := List.zipWith (fun u v => b * u + v) L.data (M.data.map fun v => a * v) }, ?_, ?_, ?_⟩
    · simp only [combineMultistep, if_true, hM, hC, hL, get, bind, Except.bind, e1, e2]
      rfl
    · have hlen : (List.zipWith (fun u v => b * u + v) L.data (M.data.map fun v => a * v)).length = C.data.length := by
        rw [List.length_zipWith, List.length_map, pM.2.2, pL.2.2, Nat.min_self]
      refine ⟨_, M, L, rfl, hM, hL, ⟨pM.1, pM.2.1, pM.2.2.trans hlen.symm⟩, ⟨pL.1, pL.2.1, pL.2.2.trans hlen.symm⟩, ?_, hd⟩
      intro e
      replace e : List.zipWith (fun u v => b * u + v) L.data (M.data.map fun v => a * v) = [] := e
      rw [e] at hlen
      exact hne (List.eq_nil_of_length_eq_zero hlen.symm)
    · intro i j hi
      rw [dense_data a b M L C pM pL, (hd i j hi).1, (hd i j hi).2]

/-- A stage combines with one as the coefficient of `M`. -/
theorem combineStage_eq [CommRing K] (stored : Bool) (k : K) (s : State K) :
    combineStage stored k s = combineMultistep stored 1 k s := by
  have e : ∀ x y : List K, copyto x y = multiply 1 x y := by
    intro x y
    simp [copyto, multiply]
  cases stored <;> simp [combineStage, combineMultistep, e]

theorem stages_ready [CommRing K] (stored : Bool) (n : Nat) (m l : Csr K) (k : K) (H : List K) (s : State K)
    (h : Ready stored n m l s) :
    ∃ s' cs, stages stored k H s = .ok s' ∧ Ready stored n m l s' ∧ s'.params = s.params ∧
      s'.solvers = s.solvers ++ cs ∧
      List.Forall₂ (fun c h => ∀ i j, i < n → dense c i j = dense m i j + k * h * dense l i j) cs H := by
  induction H generalizing s with
  | nil => exact ⟨s, [], rfl, h, rfl, (List.append_nil _).symm, .nil⟩
  | cons x H ih =>
    obtain ⟨C, e, hr, hd⟩ := combineMultistep_ready stored n m l 1 (k * x) s h
    obtain ⟨s', cs, e', hr', hp, hs, hf⟩ := ih { s with LHS := some C, solvers := s.solvers ++ [C] } hr
    refine ⟨s', C :: cs, ?_, hr', hp, ?_, .cons ?_ hf⟩
    · unfold stages
      rw [combineStage_eq, e]
      exact e'
    · rw [hs]
      simp
    · intro i j hi
      rw [hd i j hi, one_mul]

theorem build_ready [CommRing K] (stored : Bool) (n : Nat) (ms : List (Name × Csr K)) (m l : Csr K) (s : State K)
    (hn : (ms.map Prod.fst).Nodup) (hs : ∀ c ∈ ms.map Prod.snd, Sized n c)
    (hm : (.M, m) ∈ ms) (hl : (.L, l) ∈ ms)
    (he : ∃ i j, i < n ∧ (HasEntry m i j ∨ HasEntry l i j)) :
    Ready stored n m l (build stored ms s) ∧ (build stored ms s).params = s.params ∧
      (build stored ms s).solvers = s.solvers := by
  have hm' : m ∈ ms.map Prod.snd := List.mem_map.2 ⟨_, hm, rfl⟩
  have hl' : l ∈ ms.map Prod.snd := List.mem_map.2 ⟨_, hl, rfl⟩
  have hlen : ms.length > 1 := by
    match ms, hm, hl with
    | [x], hm, hl =>
      rw [List.mem_singleton] at hm hl
      rw [← hm] at hl
      cases hl
    | x :: y :: zs, _, _ => exact Nat.succ_lt_succ (Nat.succ_pos _)
  cases stored with
  | false =>
    simp only [build, if_pos hlen, Bool.false_eq_true, if_false]
    exact ⟨⟨setAll_mem ms _ _ _ hn hm, setAll_mem ms _ _ _ hn hl, hs m hm', hs l hl'⟩, trivial, trivial⟩
  | true =>
    have hZ : ∃ Z, zerosWithPattern (ms.map Prod.snd) = some Z := by
      cases ms with
      | nil => cases hm
      | cons x xs => exact ⟨_, rfl⟩
    obtain ⟨Z, hZ⟩ := hZ
    simp only [build, if_pos hlen, if_true, hZ]
    refine ⟨?_, trivial, trivial⟩
    have hnd : ((ms.map fun nm => (nm.1, (expandPattern nm.2 Z.tocsr).tocsr)).map Prod.fst).Nodup := by
      rw [List.map_map]
      exact hn
    have sZ : Sized n Z.tocsr := by
      have := sized_tocsr Z
      rw [zeros_nrows n _ Z hZ hs] at this
      exact this
    refine ⟨Z.tocsr, (expandPattern m Z.tocsr).tocsr, (expandPattern l Z.tocsr).tocsr, rfl,
      setAll_mem _ _ _ _ hnd (List.mem_map.2 ⟨_, hm, rfl⟩), setAll_mem _ _ _ _ hnd (List.mem_map.2 ⟨_, hl, rfl⟩),
      expand_pattern n _ Z hZ hs m hm', expand_pattern n _ Z hZ hs l hl', ?_, fun i j hi =>
      ⟨expand_dense n m _ (hs m hm') sZ i j hi, expand_dense n l _ (hs l hl') sZ i j hi⟩⟩
    obtain ⟨i, j, hi, h | h⟩ := he
    · exact data_ne n _ Z hZ hs m hm' i j hi h
    · exact data_ne n _ Z hZ hs l hl' i j hi h

/-- The solvers of a state are those wanted for the given coefficients. -/
def Solves [Add K] [Mul K] [Zero K] (n : Nat) (cs : List (Csr K)) (ws : List (Nat → Nat → K)) : Prop :=
  List.Forall₂ (fun c w => ∀ i j, i < n → dense c i j = w i j) cs ws

theorem step_ready [DecidableEq K] [CommRing K] (stored : Bool) (sch : Scheme K) (n : Nat) (m l : Csr K)
    (a b : K) (s : State K) (h : Ready stored n m l s) (hp : s.params ≠ some (key sch a b)) :
    ∃ s', run1 stored sch (.step a b) s = .ok s' ∧ Ready stored n m l s' ∧ s'.params = some (key sch a b) ∧
      Solves n s'.solvers (wanted m l sch a b) := by
  cases sch with
  | multistep =>
    have h' : Ready stored n m l { s with params := some (a, b), solvers := [] } := h
    obtain ⟨C, e, hr, hd⟩ := combineMultistep_ready stored n m l a b _ h'
    refine ⟨{ s with params := some (a, b), solvers := [C], LHS := some C }, ?_, hr, rfl, .cons hd .nil⟩
    show stepMultistep stored a b s = _
    have hp' : some (a, b) ≠ s.params := Ne.symm hp
    simp only [stepMultistep, if_pos hp', bind, Except.bind, e]
    rfl
  | rungeKutta H =>
    have h' : Ready stored n m l { s with params := some (a, 1), solvers := [] } := h
    obtain ⟨s', cs, e, hr, hpar, hsol, hf⟩ := stages_ready stored n m l a H _ h'
    refine ⟨s', ?_, hr, hpar, ?_⟩
    · show stepRK stored H a s = _
      have hp' : some (a, 1) ≠ s.params := Ne.symm hp
      unfold stepRK
      rw [if_pos hp']
      exact e
    · rw [hsol]
      show List.Forall₂ _ ([] ++ cs) (H.map _)
      rw [List.nil_append, List.forall₂_map_right_iff]
      exact hf

theorem step_same [DecidableEq K] [CommRing K] (stored : Bool) (sch : Scheme K)
    (a b : K) (s : State K) (hp : s.params = some (key sch a b)) :
    run1 stored sch (.step a b) s = .ok s := by
  cases sch with
  | multistep =>
    show stepMultistep stored a b s = _
    have hp' : ¬ some (a, b) ≠ s.params := fun h => h hp.symm
    unfold stepMultistep
    rw [if_neg hp']
    rfl
  | rungeKutta H =>
    show stepRK stored H a s = _
    have hp' : ¬ some (a, 1) ≠ s.params := fun h => h hp.symm
    unfold stepRK
    rw [if_neg hp']
    rfl

theorem wanted_key [CommRing K] (m l : Csr K) (sch : Scheme K) (a b a' b' : K)
    (h : key sch a b = key sch a' b') : wanted m l sch a b = wanted m l sch a' b' := by
  cases sch with
  | multistep => cases h; rfl
  | rungeKutta H => cases h; rfl

theorem run_append [DecidableEq K] [CommRing K] (stored : Bool) (sch : Scheme K) (os ps : List (Op K)) (s : State K) :
    run stored sch (os ++ ps) s = (run stored sch os s).bind (run stored sch ps) := by
  induction os generalizing s with
  | nil => rfl
  | cons o os ih =>
    rw [List.cons_append]
    show (run1 stored sch o s).bind _ = ((run1 stored sch o s).bind _).bind _
    cases run1 stored sch o s with
    | error e => rfl
    | ok s' => exact ih s'

/-- Steps after a build: what holds of the last one. -/
theorem steps_ready [DecidableEq K] [CommRing K] (stored : Bool) (sch : Scheme K) (n : Nat) (m l : Csr K)
    (ks : List (K × K)) (s : State K) (h : Ready stored n m l s)
    (hp : ∀ a b, s.params = some (key sch a b) → Solves n s.solvers (wanted m l sch a b)) :
    ∃ s', run stored sch (ks.map fun ab => .step ab.1 ab.2) s = .ok s' ∧ Ready stored n m l s' ∧
      (∀ a b, s'.params = some (key sch a b) → Solves n s'.solvers (wanted m l sch a b)) ∧
      ∀ a b, ks.getLast? = some (a, b) → s'.params = some (key sch a b) := by
  induction ks generalizing s with
  | nil => exact ⟨s, rfl, h, hp, fun a b h => (nomatch h)⟩
  | cons ab ks ih =>
    obtain ⟨a, b⟩ := ab
    have hstep : ∃ s1, run1 stored sch (.step a b) s = .ok s1 ∧ Ready stored n m l s1 ∧
        s1.params = some (key sch a b) ∧ Solves n s1.solvers (wanted m l sch a b) := by
      by_cases hk : s.params = some (key sch a b)
      · exact ⟨s, step_same stored sch a b s hk, h, hk, hp a b hk⟩
      · exact step_ready stored sch n m l a b s h hk
    obtain ⟨s1, e1, h1, p1, q1⟩ := hstep
    obtain ⟨s', e', h', q', l'⟩ := ih s1 h1 (fun a' b' e => by
      rw [p1] at e
      rw [← wanted_key m l sch a b a' b' (Option.some.inj e)]
      exact q1)
    refine ⟨s', ?_, h', q', ?_⟩
    · show (run1 stored sch (.step a b) s).bind _ = _
      rw [e1]
      exact e'
    · intro a' b' hl
      cases ks with
      | nil =>
        cases hl
        have : s' = s1 := by cases e'; rfl
        rw [this]
        exact p1
      | cons x xs =>
        rw [List.getLast?_cons_cons] at hl
        exact l' a' b' hl

end patterns

end Dedalus.Combine
