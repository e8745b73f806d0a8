import Verif.Agree.Lemmas
import Verif.Sphere.Props

/-! C85. On curvilinear domains an operator means the same on both sides of an equation: its matrix for a subproblem, applied to
the gathered coefficients of the operand, gives the gathered coefficients of the operator applied to the field. -/

namespace Dedalus.Agree
open Mats Maps

variable {K : Type} [Field K] [DecidableEq K]

/-- C85. Operators of shells and balls (key: degree) and of disks and annuli (key: order) with separable key. Every box of `b`
rows and one column whose slots have the key `ell`, for every local array whose maps are a partition (C84). -/
theorem radial_operator_agrees (op : RadialOp K) (hw : op.Wf) (maps : List Entry) (deg : Nat → Nat → Int) (R C Nr : Nat)
    (hp : Partition maps deg R C) (r b col : Nat) (ell : Int) (hb : 0 < b) (hr : r + b ≤ R) (hc : col < C)
    (hd : ∀ i, i < b → deg (r + i) col = ell) (hN : op.start ell + op.size ell ≤ Nr) (x : Data K) :
    ∃ M, separableMatrix op b ell = some M ∧
      IsProduct M (gathered x op.nin R C Nr r b col 1 (op.start ell) (op.size ell))
        (gathered (operate op maps x) op.nout R C Nr r b col 1 (op.start ell) (op.size ell)) := by
  have hS : ∀ c d, c < op.nout → d < op.nin → ((fun cout cin => match wrapped op cin cout ell with
      | none => Mat.zeros (b * 1 * op.size ell) (b * 1 * op.size ell)
      | some m => kronAll [Mat.ident b, Mat.ident 1, m]) c d : Mat K).rows = b * (1 * op.size ell) ∧
      ((fun cout cin => match wrapped op cin cout ell with
      | none => Mat.zeros (b * 1 * op.size ell) (b * 1 * op.size ell)
      | some m => kronAll [Mat.ident b, Mat.ident 1, m]) c d : Mat K).cols = b * (1 * op.size ell) := by
    intro c d _ _
    simp only
    cases hwr : wrapped op d c ell with
    | none => simp [Mat.zeros]
    | some m =>
      have hm : m = op.mat d c ell := by
        unfold wrapped at hwr
        split at hwr <;> simp_all
      simp only [kronAll_eq, hm]
      simp [Mat.kron, Mat.ident, hw.rows, hw.cols]
  obtain ⟨M, hM, hrows, hcols, happ⟩ := bmat_apply op.nout op.nin (b * (1 * op.size ell)) _ ⟨hw.pos.2, hw.pos.1⟩ hS
  refine ⟨M, hM, isProduct_of M op.nin op.nout b 1 (op.size ell) r col (op.start ell) R C Nr _ _ hr (by omega) hN hrows hcols ?_⟩
  intro c i j n hc' hi hj hn
  have hj0 : j = 0 := by omega
  subst hj0
  have hv : visits maps (r + i) (col + 0) = [ell] := by rw [Nat.add_zero, hp.1 _ _ (by omega) hc, hd i hi]
  rw [operate_value op hw maps x c (r + i) (col + 0) n ell hv hn, happ _ _ _ hc']
  · refine Finset.sum_congr rfl fun cin _ => ?_
    cases hwr : wrapped op cin c ell with
    | none => simp [Mat.zeros, hwr]
    | some m =>
      simp only [hwr]
      have hm : m = op.mat cin c ell := by
        unfold wrapped at hwr
        split at hwr <;> simp_all
      have hmr : m.rows = op.size ell := by rw [hm, hw.rows]
      have hmc : m.cols = op.size ell := by rw [hm, hw.cols]
      have hk := ident_kron_apply b m (fun q => entry x r b col 1 (op.start ell) (op.size ell) (cin * (b * (1 * op.size ell)) + q)) i n hi (by omega)
      rw [kronAll_eq]
      rw [show ((Mat.ident b).kron m).cols = b * (1 * op.size ell) by simp [Mat.kron, Mat.ident, hmc]] at hk
      rw [show i * (1 * op.size ell) + (0 * op.size ell + n) = i * m.rows + n by rw [hmr]; ring]
      rw [hk, hmc]
      refine Finset.sum_congr rfl fun k hk => ?_
      have := entry_at x r b col 1 (op.start ell) (op.size ell) cin i 0 k hi (by omega) (Finset.mem_range.1 hk)
      rw [← this]
      congr 2
      ring
  · calc i * (1 * op.size ell) + (0 * op.size ell + n) < i * (1 * op.size ell) + 1 * op.size ell := by omega
      _ = (i + 1) * (1 * op.size ell) := by ring
      _ ≤ b * (1 * op.size ell) := Nat.mul_le_mul_right _ hi

/-- C85. Operators of shells with coupled degree (coefficients that vary with colatitude): the box has `w` columns with the
degrees `ells`; all degrees have the same radial size, as in shells. -/
theorem coupled_operator_agrees (op : RadialOp K) (hw : op.Wf) (maps : List Entry) (deg : Nat → Nat → Int) (R C Nr : Nat)
    (hp : Partition maps deg R C) (r b col n0 N : Nat) (ells : List Int) (hb : 0 < b) (hr : r + b ≤ R) (hc : col + ells.length ≤ C)
    (hd : ∀ i j (hj : j < ells.length), i < b → deg (r + i) (col + j) = ells[j])
    (hs : ∀ ell ∈ ells, op.start ell = n0 ∧ op.size ell = N) (hN : n0 + N ≤ Nr) (x : Data K) :
    ∃ M, coupledMatrix op b ells = some M ∧
      IsProduct M (gathered x op.nin R C Nr r b col ells.length n0 N)
        (gathered (operate op maps x) op.nout R C Nr r b col ells.length n0 N) := by
  have hwr : ∀ cin cout ell, ell ∈ ells → ∀ m, wrapped op cin cout ell = some m → m.rows = N ∧ m.cols = N := by
    intro cin cout ell he m h
    have hm : m = op.mat cin cout ell := by
      unfold wrapped at h
      split at h <;> simp_all
    rw [hm, hw.rows, hw.cols, (hs ell he).2]
    exact ⟨rfl, rfl⟩
  have hms : ∀ cin cout, ∀ m ∈ ells.map (fun ell => match wrapped op cin cout ell with
      | none => Mat.zeros (op.size ell) (op.size ell)
      | some m => m), m.rows = N ∧ m.cols = N := by
    intro cin cout m hm
    obtain ⟨ell, he, rfl⟩ := List.mem_map.1 hm
    cases h : wrapped op cin cout ell with
    | none => simp [Mat.zeros, (hs ell he).2]
    | some m => exact hwr cin cout ell he m h
  have hbd : ∀ cin cout, (coupledMatrices op ells cin cout).rows = ells.length * N ∧
      (coupledMatrices op ells cin cout).cols = ells.length * N := by
    intro cin cout
    have := blockDiag_rows N _ (hms cin cout)
    rw [List.length_map] at this
    exact this
  have hS : ∀ c d, c < op.nout → d < op.nin →
      ((fun cout cin => kronAll [Mat.ident b, Mat.ident 1, coupledMatrices op ells cin cout]) c d : Mat K).rows = b * (ells.length * N) ∧
      ((fun cout cin => kronAll [Mat.ident b, Mat.ident 1, coupledMatrices op ells cin cout]) c d : Mat K).cols = b * (ells.length * N) := by
    intro c d _ _
    simp only [kronAll_eq]
    simp [Mat.kron, Mat.ident, hbd]
  obtain ⟨M, hM, hrows, hcols, happ⟩ := bmat_apply op.nout op.nin (b * (ells.length * N)) _ ⟨hw.pos.2, hw.pos.1⟩ hS
  refine ⟨M, hM, isProduct_of M op.nin op.nout b ells.length N r col n0 R C Nr _ _ hr hc hN hrows hcols ?_⟩
  intro c i j n hc' hi hj hn
  have hell := hs _ (List.getElem_mem hj)
  have hv : visits maps (r + i) (col + j) = [ells[j]] := by rw [hp.1 _ _ (by omega) (by omega), hd i j hj hi]
  have ho := operate_value op hw maps x c (r + i) (col + j) n ells[j] hv (by omega)
  rw [hell.1, hell.2] at ho
  have hlt : j * N + n < ells.length * N := by
    calc j * N + n < j * N + N := by omega
      _ = (j + 1) * N := by ring
      _ ≤ ells.length * N := Nat.mul_le_mul_right _ hj
  rw [ho, happ _ _ _ hc']
  · refine Finset.sum_congr rfl fun cin _ => ?_
    simp only [kronAll_eq]
    have hk := ident_kron_apply b (coupledMatrices op ells cin c)
      (fun q => entry x r b col ells.length n0 N (cin * (b * (ells.length * N)) + q)) i (j * N + n) hi (by rw [(hbd cin c).1]; exact hlt)
    rw [show ((Mat.ident b).kron (coupledMatrices op ells cin c)).cols = b * (ells.length * N) by simp [Mat.kron, Mat.ident, hbd]] at hk
    rw [(hbd cin c).1] at hk
    rw [hk]
    have hbda := blockDiag_apply N _ (hms cin c) (fun t => entry x r b col ells.length n0 N
      (cin * (b * (ells.length * N)) + (i * (coupledMatrices op ells cin c).cols + t))) j n (by simpa using hj) hn
    refine Eq.trans ?_ hbda.symm
    simp only [List.getElem_map]
    cases h : wrapped op cin c ells[j] with
    | none => simp [Mat.zeros]
    | some m =>
      simp only
      refine Finset.sum_congr rfl fun k hk => ?_
      have := entry_at x r b col ells.length n0 N cin i j k hi hj (Finset.mem_range.1 hk)
      rw [← this, (hbd cin c).2]
      congr 2
      ring
  · calc i * (ells.length * N) + (j * N + n) < i * (ells.length * N) + ells.length * N := by omega
      _ = (i + 1) * (ells.length * N) := by ring
      _ ≤ b * (ells.length * N) := Nat.mul_le_mul_right _ hi

/-- The columns of an order hold the degrees `|m|` to `Lmax` in the order in which `subproblem_matrix` lists them. -/
theorem order_of_degrees (G : Nat → Nat → Int × Int) (width row L : Nat) (m : Int)
    (h : (Sphere.ellColumns G width row m).map (G row) = (List.range (L + 1 - m.natAbs)).map fun (r : Nat) => (m, (m.natAbs : Int) + (r : Int))) :
    (((List.range width).filter fun j => (G row j).1 = m).map fun j => (G row j).2) = ellList L m (ellReversed G width row m) := by
  have h' := congrArg (List.map Prod.snd) h
  simp only [List.map_map] at h'
  unfold Sphere.ellColumns at h'
  unfold ellList ellReversed
  simp only at h' ⊢
  by_cases hc : ((List.range width).filter fun j => (G row j).1 = m).head? = some 0 ∧ m ≠ 0
  · rw [if_pos hc, List.map_reverse] at h'
    rw [if_pos (by simpa using hc)]
    rw [← List.reverse_reverse (List.map (fun j => (G row j).2) _)]
    congr 1
  · rw [if_neg hc] at h'
    rw [if_neg (by simpa using hc)]
    exact h'

/-- C85. Shells with complex data: coefficients that vary with colatitude. Every row `r` of a process, with the columns `col` to
`col + w` of the order `m`. -/
theorem shell_coupled_complex_partial (op : RadialOp K) (hw : op.Wf) (M L r0 R Nr N r col w : Nat) (hM : 0 < M) (h : M ≤ L + 1)
    (hgood : L % 2 = 1 ∨ M < L / 2 + 2 ∨ L < M) (hR : r0 + R ≤ M) (hr : r < R) (k : Nat) (hk : k < 2 * M) (hrow : r0 + r = k / 2)
    (m : Int) (hm : m = Sphere.nativeComplex (2 * M) (Sphere.permComplex (2 * M) k))
    (hcols : ((List.range (Sphere.shapeComplex (2 * M) L).2).filter fun j => (Sphere.groupComplex (2 * M) L (r0 + r) j).1 = m) = List.range' col w) (hw0 : 0 < w)
    (hs : ∀ ell, op.start ell = 0 ∧ op.size ell = N) (hN : N ≤ Nr) (x : Data K) :
    let G := Sphere.groupComplex (2 * M) L
    let C := (Sphere.shapeComplex (2 * M) L).2
    ∃ A, coupledMatrix op 1 (ellList L m (ellReversed G C (r0 + r) m)) = some A ∧
      IsProduct A (gathered x op.nin R C Nr r 1 col w 0 N)
        (gathered (operate op (ellMaps G 1 r0 0 R C) x) op.nout R C Nr r 1 col w 0 N) := by
  intro G C
  have hlist := order_of_degrees G C (r0 + r) L m (by rw [hrow]; exact Sphere.columns_complex_partial M L hM h k hk m hm)
  rw [hcols] at hlist
  have hlen : (ellList L m (ellReversed G C (r0 + r) m)).length = w := by rw [← hlist]; simp
  have hpart := degree_maps_complex_partial (2 * M) L r0 0 R C (by omega)
    (by rw [show 2 * M / 2 = M by omega]; exact hgood) (by simp only [Sphere.shapeComplex]; omega) (by omega)
  have hmem : ∀ j, j < w → col + j < C := by
    intro j hj
    have : col + j ∈ List.range' col w := by rw [List.mem_range'_1]; omega
    rw [← hcols, List.mem_filter, List.mem_range] at this
    exact this.1
  have hcw : col + w ≤ C := by
    have := hmem (w - 1) (by omega)
    omega
  have := coupled_operator_agrees op hw _ _ R C Nr hpart r 1 col 0 N (ellList L m (ellReversed G C (r0 + r) m)) (by omega) (by omega)
    (by rw [hlen]; exact hcw) ?_ (fun ell _ => hs ell) (by omega) x
  · rw [hlen] at this
    exact this
  · intro i j hj hi
    have hi0 : i = 0 := by omega
    subst hi0
    have : (ellList L m (ellReversed G C (r0 + r) m))[j]? = some (G (r0 + r) (col + j)).2 := by
      rw [← hlist, List.getElem?_map, List.getElem?_range' (by omega)]
      simp
    rw [List.getElem?_eq_getElem hj] at this
    simp only [Option.some.injEq] at this
    rw [this, Nat.add_zero, Nat.zero_add]

theorem groupReal_pair (Nphi L p j : Nat) : Sphere.groupReal Nphi L (2 * p + 1) j = Sphere.groupReal Nphi L (2 * p) j := by
  unfold Sphere.groupReal
  have e : (2 * p + 1) / 2 = 2 * p / 2 := by omega
  have e2 : (2 * p + 1 < 2) = (2 * p < 2) := by simp only [eq_iff_iff]; omega
  simp only [e, e2]

/-- C85. The same with real data: the rows `r` and `r + 1` of the cosine and minus sine parts. -/
theorem shell_coupled_real_partial (op : RadialOp K) (hw : op.Wf) (Q L r0 R Nr N r col w : Nat) (hQ : 0 < Q) (h : 2 * Q ≤ L + 2)
    (hgood : L % 2 = 1 ∨ 2 * Q < L / 2 + 3 ∨ L + 1 < 2 * Q) (hR : r0 + R ≤ 2 * Q) (hr : r + 2 ≤ R) (k : Nat) (hk : k < 4 * Q)
    (hk2 : k % 2 = 0) (hrow : r0 + r = 2 * (k / 4)) (m : Int) (hm : m = Sphere.nativeReal (Sphere.permReal (4 * Q) k))
    (hcols : ((List.range (Sphere.shapeReal (4 * Q) L).2).filter fun j => (Sphere.groupReal (4 * Q) L (r0 + r) j).1 = m) = List.range' col w)
    (hw0 : 0 < w) (hs : ∀ ell, op.start ell = 0 ∧ op.size ell = N) (hN : N ≤ Nr) (x : Data K) :
    let G := Sphere.groupReal (4 * Q) L
    let C := (Sphere.shapeReal (4 * Q) L).2
    ∃ A, coupledMatrix op 2 (ellList L m (ellReversed G C (r0 + r) m)) = some A ∧
      IsProduct A (gathered x op.nin R C Nr r 2 col w 0 N)
        (gathered (operate op (ellMaps G 2 r0 0 R C) x) op.nout R C Nr r 2 col w 0 N) := by
  intro G C
  have hc := (Sphere.columns_real_partial Q L hQ h k hk m hm).2
  rw [hk2, Nat.add_zero, ← hrow] at hc
  have hlist := order_of_degrees G C (r0 + r) L m hc
  rw [hcols] at hlist
  have hlen : (ellList L m (ellReversed G C (r0 + r) m)).length = w := by rw [← hlist]; simp
  have hpart := degree_maps_real_partial (4 * Q) L r0 0 R C (by omega)
    (by rw [show 4 * Q / 2 = 2 * Q by omega]; exact hgood) (by simp only [Sphere.shapeReal]; omega) (by omega)
  have hcw : col + w ≤ C := by
    have : col + (w - 1) ∈ List.range' col w := by rw [List.mem_range'_1]; omega
    rw [← hcols, List.mem_filter, List.mem_range] at this
    have := this.1
    omega
  have := coupled_operator_agrees op hw _ _ R C Nr hpart r 2 col 0 N (ellList L m (ellReversed G C (r0 + r) m)) (by omega) (by omega)
    (by rw [hlen]; exact hcw) ?_ (fun ell _ => hs ell) (by omega) x
  · rw [hlen] at this
    exact this
  · intro i j hj hi
    have h1 : (ellList L m (ellReversed G C (r0 + r) m))[j]? = some (G (r0 + r) (col + j)).2 := by
      rw [← hlist, List.getElem?_map, List.getElem?_range' (by omega)]
      simp
    rw [List.getElem?_eq_getElem hj] at h1
    simp only [Option.some.injEq] at h1
    rw [h1, Nat.zero_add]
    have hi2 : i = 0 ∨ i = 1 := by omega
    rcases hi2 with rfl | rfl
    · rw [Nat.add_zero]
    · rw [show r0 + (r + 1) = 2 * (k / 4) + 1 by omega, groupReal_pair, ← hrow]

/-- C85. Shells and balls with complex data, separable degree: every slot of every process. -/
theorem spherical_operator_agrees_complex_partial (op : RadialOp K) (hw : op.Wf) (Nphi L r0 c0 R C Nr r col : Nat) (h2 : Nphi % 2 = 0)
    (hgood : L % 2 = 1 ∨ Nphi / 2 < L / 2 + 2 ∨ L < Nphi / 2)
    (hR : r0 + R ≤ (Sphere.shapeComplex Nphi L).1) (hC : c0 + C ≤ (Sphere.shapeComplex Nphi L).2) (hr : r < R) (hcol : col < C)
    (ell : Int) (hell : ell = (Sphere.groupComplex Nphi L (r0 + r) (c0 + col)).2) (hN : op.start ell + op.size ell ≤ Nr) (x : Data K) :
    ∃ M, separableMatrix op 1 ell = some M ∧
      IsProduct M (gathered x op.nin R C Nr r 1 col 1 (op.start ell) (op.size ell))
        (gathered (operate op (ellMaps (Sphere.groupComplex Nphi L) 1 r0 c0 R C) x) op.nout R C Nr r 1 col 1 (op.start ell) (op.size ell)) := by
  refine radial_operator_agrees op hw _ _ R C Nr (degree_maps_complex_partial Nphi L r0 c0 R C h2 hgood hR hC) r 1 col ell (by omega)
    (by omega) hcol ?_ hN x
  intro i hi
  have : i = 0 := by omega
  subst this
  rw [hell, Nat.add_zero]

/-- C85. The same with real data: both rows of a mode. -/
theorem spherical_operator_agrees_real_partial (op : RadialOp K) (hw : op.Wf) (Nphi L r0 c0 R C Nr r col : Nat) (h4 : Nphi % 4 = 0)
    (hgood : L % 2 = 1 ∨ Nphi / 2 < L / 2 + 3 ∨ L + 1 < Nphi / 2)
    (hR : r0 + R ≤ (Sphere.shapeReal Nphi L).1) (hC : c0 + C ≤ (Sphere.shapeReal Nphi L).2) (hr : r + 2 ≤ R) (hev : (r0 + r) % 2 = 0)
    (hcol : col < C) (ell : Int) (hell : ell = (Sphere.groupReal Nphi L (r0 + r) (c0 + col)).2) (hN : op.start ell + op.size ell ≤ Nr)
    (x : Data K) :
    ∃ M, separableMatrix op 2 ell = some M ∧
      IsProduct M (gathered x op.nin R C Nr r 2 col 1 (op.start ell) (op.size ell))
        (gathered (operate op (ellMaps (Sphere.groupReal Nphi L) 2 r0 c0 R C) x) op.nout R C Nr r 2 col 1 (op.start ell) (op.size ell)) := by
  refine radial_operator_agrees op hw _ _ R C Nr (degree_maps_real_partial Nphi L r0 c0 R C h4 hgood hR hC) r 2 col ell (by omega)
    hr hcol ?_ hN x
  intro i hi
  obtain ⟨p, hp⟩ : ∃ p, r0 + r = 2 * p := ⟨(r0 + r) / 2, by omega⟩
  have hi2 : i = 0 ∨ i = 1 := by omega
  rcases hi2 with rfl | rfl
  · rw [hell, Nat.add_zero]
  · rw [show r0 + (r + 1) = 2 * p + 1 by omega, groupReal_pair, hell, hp]

/-! ## The curl with real data -/

theorem foldl_entries_real (op : ComplexOp K) (x : Data K) (cin cout : Nat) (maps : List Entry) (hev : ∀ e ∈ maps, e.rows.1 % 2 = 0)
    (out : Data K) (c i j n : Nat) :
    maps.foldl (addEntryReal op x cin cout) out c i j n = out c i j n +
      ((visits maps i j).map fun ell =>
        if c = cout ∧ (op.re.allowed ell cin && op.re.allowedOut ell cout) = true ∧ op.re.start ell ≤ n ∧
            n < op.re.start ell + op.re.size ell then
          let re := fun i => ∑ k ∈ Finset.range (op.re.size ell), (op.re.mat cin cout ell).e (n - op.re.start ell) k * x cin i j (op.re.start ell + k)
          let im := fun i => ∑ k ∈ Finset.range (op.re.size ell), (op.im cin cout ell).e (n - op.re.start ell) k * x cin i j (op.re.start ell + k)
          if i % 2 = 0 then re i - im (i + 1) else re i + im (i - 1)
        else 0).sum := by
  unfold visits
  induction maps generalizing out with
  | nil => simp
  | cons e l ih =>
    rw [List.foldl_cons, ih fun e he => hev e (by simp [he]), List.filter_cons]
    have hpar := hev e (by simp)
    by_cases ha : (op.re.allowed e.ell cin && op.re.allowedOut e.ell cout) = true
    · by_cases hc : e.covers i j = true
      · rw [if_pos hc, List.map_cons, List.map_cons, List.sum_cons]
        have hle : e.rows.1 ≤ i := by
          unfold Entry.covers at hc
          simp only [Bool.and_eq_true, decide_eq_true_eq] at hc
          omega
        have hmod : ((i - e.rows.1) % 2 = 0) = (i % 2 = 0) := by
          simp only [eq_iff_iff]; omega
        simp only [addEntryReal, ha, if_true, hc, true_and, hmod]
        split
        · ring
        · ring
      · rw [if_neg hc]
        congr 1
        simp only [addEntryReal, ha, if_true, hc]
        simp
    · by_cases hc : e.covers i j = true
      · rw [if_pos hc, List.map_cons, List.map_cons, List.sum_cons]
        simp only [addEntryReal, ha]
        simp
      · rw [if_neg hc]
        simp only [addEntryReal, ha]
        simp

theorem operateReal_value (op : ComplexOp K) (hw : op.re.Wf) (maps : List Entry) (hev : ∀ e ∈ maps, e.rows.1 % 2 = 0) (x : Data K)
    (c i j n : Nat) (ell : Int) (hv : visits maps i j = [ell]) (hn : n < op.re.size ell) :
    operateReal op maps x c i j (op.re.start ell + n) = ∑ cin ∈ Finset.range op.re.nin,
      match wrapped op.re cin c ell with
      | none => 0
      | some m => if i % 2 = 0 then
          (∑ k ∈ Finset.range (op.re.size ell), m.e n k * x cin i j (op.re.start ell + k)) -
            ∑ k ∈ Finset.range (op.re.size ell), (op.im cin c ell).e n k * x cin (i + 1) j (op.re.start ell + k)
        else (∑ k ∈ Finset.range (op.re.size ell), m.e n k * x cin i j (op.re.start ell + k)) +
            ∑ k ∈ Finset.range (op.re.size ell), (op.im cin c ell).e n k * x cin (i - 1) j (op.re.start ell + k) := by
  unfold operateReal
  let g : Nat → Nat → K := fun cin c => if (op.re.allowed ell cin && op.re.allowedOut ell c) = true then
      (if i % 2 = 0 then
          (∑ k ∈ Finset.range (op.re.size ell), (op.re.mat cin c ell).e n k * x cin i j (op.re.start ell + k)) -
            ∑ k ∈ Finset.range (op.re.size ell), (op.im cin c ell).e n k * x cin (i + 1) j (op.re.start ell + k)
        else (∑ k ∈ Finset.range (op.re.size ell), (op.re.mat cin c ell).e n k * x cin i j (op.re.start ell + k)) +
            ∑ k ∈ Finset.range (op.re.size ell), (op.im cin c ell).e n k * x cin (i - 1) j (op.re.start ell + k)) else 0
  rw [foldl_range (g := fun cin => if (op.re.outs cin).contains c then g cin c else 0)]
  · rw [zero_add]
    refine Finset.sum_congr rfl fun cin _ => ?_
    unfold wrapped
    by_cases h1 : (op.re.outs cin).contains c = true
    · by_cases h2 : (op.re.allowed ell cin && op.re.allowedOut ell c) = true
      · rw [if_pos h1, Bool.and_assoc, if_pos (by simp only [h1, h2, Bool.and_self])]
        simp only [g, if_pos h2]
      · rw [if_pos h1, Bool.and_assoc, if_neg (by rw [h1]; simpa using h2)]
        simp only [g, if_neg h2]
    · rw [if_neg h1, Bool.and_assoc, if_neg (by simp only [Bool.and_eq_true]; exact fun h => h1 h.1)]
  · intro out cin
    refine foldl_outs (β := Unit) _ (g cin) c i j _ ?_ ?_ _ _ (hw.nodup cin)
    · intro out
      rw [foldl_entries_real op x cin c maps hev, hv]
      simp [hn, g]
    · intro out d hd
      rw [foldl_entries_real op x cin d maps hev, hv]
      simp [Ne.symm hd]

/-- C85. The curl in shells and balls with real data and separable degree: the matrix acts on the pair of cosine and minus sine
coefficients as the complex radial matrices act on `cos + i msin`. -/
theorem real_curl_agrees (op : ComplexOp K) (hw : op.re.Wf)
    (him : ∀ c d ell, (op.im c d ell).rows = op.re.size ell ∧ (op.im c d ell).cols = op.re.size ell) (maps : List Entry)
    (hev : ∀ e ∈ maps, e.rows.1 % 2 = 0) (deg : Nat → Nat → Int) (R C Nr : Nat)
    (hp : Partition maps deg R C) (r col : Nat) (ell : Int) (hr : r + 2 ≤ R) (hr2 : r % 2 = 0) (hc : col < C)
    (hd : ∀ i, i < 2 → deg (r + i) col = ell) (hN : op.re.start ell + op.re.size ell ≤ Nr) (x : Data K) :
    ∃ M, curlRealMatrix op 2 (some ell) = some M ∧
      IsProduct M (gathered x op.re.nin R C Nr r 2 col 1 (op.re.start ell) (op.re.size ell))
        (gathered (operateReal op maps x) op.re.nout R C Nr r 2 col 1 (op.re.start ell) (op.re.size ell)) := by
  let S := op.re.size ell
  have hblk : ∀ cin cout m, wrapped op.re cin cout ell = some m →
      ∃ B, (kronAll [Mat.ident 2, Mat.ident 1, m]).add
          (kronAll [Mat.kron mult1j (Mat.ident (2 / 2)), Mat.ident 1, op.im cin cout ell]) = some B ∧ B.rows = 2 * (1 * S) ∧
        B.cols = 2 * (1 * S) ∧ ∀ (v : Nat → K) p n, p < 2 → n < S → ∑ q ∈ Finset.range (2 * (1 * S)), B.e (p * S + n) q * v q =
          (∑ k ∈ Finset.range S, m.e n k * v (p * S + k)) +
            if p = 0 then - ∑ k ∈ Finset.range S, (op.im cin cout ell).e n k * v (1 * S + k)
            else ∑ k ∈ Finset.range S, (op.im cin cout ell).e n k * v (0 * S + k) := by
    intro cin cout m hm
    have hmm : m = op.re.mat cin cout ell := by
      unfold wrapped at hm
      split at hm <;> simp_all
    have hmr : m.rows = S := by rw [hmm, hw.rows]
    have hmc : m.cols = S := by rw [hmm, hw.cols]
    obtain ⟨hir, hic⟩ := him cin cout ell
    let T : Mat K := ((Mat.ident 1 : Mat K).kron ((mult1j : Mat K).kron (Mat.ident (2 / 2)))).kron (Mat.ident 1)
    have hT : kronAll [Mat.kron mult1j (Mat.ident (2 / 2)), Mat.ident 1, op.im cin cout ell] = T.kron (op.im cin cout ell) := by
      simp only [kronAll, List.foldl_cons, List.foldl_nil, T]
    have hTr : T.rows = 2 := by simp [T, Mat.kron, Mat.ident, mult1j]
    have hTc : T.cols = 2 := by simp [T, Mat.kron, Mat.ident, mult1j]
    have t00 : T.e 0 0 = 0 := by simp [T, Mat.kron, Mat.ident, mult1j]
    have t01 : T.e 0 1 = -1 := by simp [T, Mat.kron, Mat.ident, mult1j]
    have t10 : T.e 1 0 = 1 := by simp [T, Mat.kron, Mat.ident, mult1j]
    have t11 : T.e 1 1 = 0 := by simp [T, Mat.kron, Mat.ident, mult1j]
    have hTA : ∀ (v : Nat → K) p n, p < 2 → n < S → ∑ q ∈ Finset.range (2 * (1 * S)), (T.kron (op.im cin cout ell)).e (p * S + n) q * v q =
        if p = 0 then - ∑ k ∈ Finset.range S, (op.im cin cout ell).e n k * v (1 * S + k)
            else ∑ k ∈ Finset.range S, (op.im cin cout ell).e n k * v (0 * S + k) := by
      intro v p n hp hn
      have hk := kron_apply T (op.im cin cout ell) v p n (by rw [hir]; exact hn)
      have hcols : (T.kron (op.im cin cout ell)).cols = 2 * (1 * S) := by
        simp only [Mat.kron, hTc, hic]; simp only [S]; ring
      rw [hcols, hir] at hk
      simp only [S] at hk ⊢
      rw [hk, hTc, hic, Finset.sum_range_succ, Finset.sum_range_one]
      have hp2 : p = 0 ∨ p = 1 := by omega
      rcases hp2 with rfl | rfl
      · simp [t00, t01]
      · simp [t10, t11]
    rw [kronAll_eq, hT]
    have e1 : ((Mat.ident 2 : Mat K).kron m).rows = (T.kron (op.im cin cout ell)).rows := by
      simp [Mat.kron, Mat.ident, hmr, hTr, hir, S]
    have e2 : ((Mat.ident 2 : Mat K).kron m).cols = (T.kron (op.im cin cout ell)).cols := by
      simp [Mat.kron, Mat.ident, hmc, hTc, hic, S]
    unfold Mat.add
    rw [if_pos ⟨e1, e2⟩]
    refine ⟨_, rfl, by simp [Mat.kron, Mat.ident, hmr], by simp [Mat.kron, Mat.ident, hmc], ?_⟩
    intro v p n hp hn
    simp only [add_mul]
    rw [Finset.sum_add_distrib, hTA v p n hp hn]
    have hk := ident_kron_apply 2 m v p n hp (by omega)
    rw [show ((Mat.ident 2 : Mat K).kron m).cols = 2 * (1 * S) by simp [Mat.kron, Mat.ident, hmc], hmr, hmc] at hk
    rw [hk]
  let block : Nat → Nat → Option (Mat K) := fun cout cin => match wrapped op.re cin cout ell with
      | none => some (Mat.zeros (2 * 1 * op.re.size ell) (2 * 1 * op.re.size ell))
      | some m => (kronAll [Mat.ident 2, Mat.ident 1, m]).add
          (kronAll [Mat.kron mult1j (Mat.ident (2 / 2)), Mat.ident 1, op.im cin cout ell])
  have hsome : ∀ cout cin, ∃ B, block cout cin = some B ∧ B.rows = 2 * (1 * S) ∧ B.cols = 2 * (1 * S) := by
    intro cout cin
    simp only [block]
    cases h : wrapped op.re cin cout ell with
    | none => exact ⟨_, rfl, by simp [Mat.zeros, S], by simp [Mat.zeros, S]⟩
    | some m =>
      obtain ⟨B, h1, h2, h3, _⟩ := hblk cin cout m h
      exact ⟨B, h1, h2, h3⟩
  have hS : ∀ c d, c < op.re.nout → d < op.re.nin → ((block c d).getD (Mat.zeros 0 0)).rows = 2 * (1 * S) ∧
      ((block c d).getD (Mat.zeros 0 0)).cols = 2 * (1 * S) := by
    intro c d _ _
    obtain ⟨B, h1, h2, h3⟩ := hsome c d
    rw [h1]
    exact ⟨h2, h3⟩
  obtain ⟨M, hM, hrows, hcols, happ⟩ := bmat_apply op.re.nout op.re.nin (2 * (1 * S)) (fun c d => (block c d).getD (Mat.zeros 0 0))
    ⟨hw.pos.2, hw.pos.1⟩ hS
  have hcm : curlRealMatrix op 2 (some ell) = some M := by
    unfold curlRealMatrix
    simp only
    rw [if_pos]
    · exact hM
    · rw [List.all_eq_true]
      intro c _
      rw [List.all_eq_true]
      intro d _
      obtain ⟨B, h1, -⟩ := hsome c d
      have h2 : (block c d).isSome = true := by rw [h1]; rfl
      exact h2
  refine ⟨M, hcm, isProduct_of M op.re.nin op.re.nout 2 1 S r col (op.re.start ell) R C Nr _ _ hr (by omega) hN hrows hcols ?_⟩
  intro c i j n hc' hi hj hn
  have hj0 : j = 0 := by omega
  subst hj0
  have hv : visits maps (r + i) (col + 0) = [ell] := by rw [Nat.add_zero, hp.1 _ _ (by omega) hc, hd i hi]
  rw [operateReal_value op hw maps hev x c (r + i) (col + 0) n ell hv hn, happ _ _ _ hc']
  · refine Finset.sum_congr rfl fun cin _ => ?_
    simp only [block]
    cases h : wrapped op.re cin c ell with
    | none => simp [Mat.zeros]
    | some m =>
      obtain ⟨B, h1, h2, h3, h4⟩ := hblk cin c m h
      simp only [h1, Option.getD_some]
      have h5 := h4 (fun q => entry x r 2 col 1 (op.re.start ell) S (cin * (2 * (1 * S)) + q)) i n hi hn
      rw [show i * (1 * S) + (0 * S + n) = i * S + n by ring, h5]
      have hent : ∀ p k, p < 2 → k < S → entry x r 2 col 1 (op.re.start ell) S (cin * (2 * (1 * S)) + (p * S + k)) =
          x cin (r + p) col (op.re.start ell + k) := by
        intro p k hp hk
        have := entry_at x r 2 col 1 (op.re.start ell) S cin p 0 k hp (by omega) hk
        refine Eq.trans (congrArg _ ?_) this
        ring
      have s1 : ∀ (f : Nat → K) p, p < 2 → ∑ k ∈ Finset.range S, f k * entry x r 2 col 1 (op.re.start ell) S (cin * (2 * (1 * S)) + (p * S + k)) =
          ∑ k ∈ Finset.range S, f k * x cin (r + p) col (op.re.start ell + k) :=
        fun f p hp => Finset.sum_congr rfl fun k hk => by rw [hent p k hp (Finset.mem_range.1 hk)]
      rw [s1 _ i hi, s1 _ 1 (by omega), s1 _ 0 (by omega)]
      have hi2 : i = 0 ∨ i = 1 := by omega
      rcases hi2 with rfl | rfl
      · rw [if_pos (by omega), if_pos rfl, sub_eq_add_neg]
        rfl
      · rw [if_neg (by omega), if_neg (by omega)]
        rfl
  · calc i * (1 * S) + (0 * S + n) < i * (1 * S) + 1 * S := by omega
      _ = (i + 1) * (1 * S) := by ring
      _ ≤ 2 * (1 * S) := Nat.mul_le_mul_right _ hi

/-- The slices of the degree maps start at cosine rows. -/
theorem maps_start_even (Nphi L r0 c0 R C : Nat) (hr0 : r0 % 2 = 0) : ∀ e ∈ ellMaps (Sphere.groupReal Nphi L) 2 r0 c0 R C, e.rows.1 % 2 = 0 := by
  intro e he
  rw [ellMaps_eq] at he
  obtain ⟨d, -, h⟩ := List.mem_flatMap.1 he
  obtain ⟨k, hk, h⟩ := List.mem_filterMap.1 h
  unfold entryOf at h
  split at h
  · simp at h
  · rename_i hne
    simp only [Option.some.injEq] at h
    subst h
    simp only
    have hne2 : (hits (Sphere.groupReal Nphi L) r0 c0 R C d k).filterMap (·[0]?) ≠ [] := by
      obtain ⟨x, hx⟩ := List.exists_mem_of_ne_nil _ hne
      obtain ⟨i, rfl, -⟩ := (mem_hits _ r0 c0 R C d k x).1 hx
      exact List.ne_nil_of_mem (List.mem_filterMap.2 ⟨_, hx, rfl⟩)
    obtain ⟨x, hx, h2⟩ := List.mem_filterMap.1 (Subsys.lmin_mem hne2)
    obtain ⟨i, rfl, h3, h4, h5⟩ := (mem_hits _ r0 c0 R C d k x).1 hx
    simp only [List.getElem?_cons_zero, Option.some.injEq] at h2
    rw [← h2]
    by_contra hodd
    obtain ⟨q, hq⟩ : ∃ q, i = 2 * q + 1 := ⟨i / 2, by omega⟩
    obtain ⟨p, hp⟩ : ∃ p, r0 = 2 * p := ⟨r0 / 2, by omega⟩
    have h6 : deg (Sphere.groupReal Nphi L) r0 c0 (2 * q) k = d := by
      rw [← h5]
      unfold deg
      rw [show r0 + i = 2 * (p + q) + 1 by omega, groupReal_pair, show r0 + 2 * q = 2 * (p + q) by omega]
    have h7 := Subsys.lmin_le (List.mem_filterMap.2 ⟨[2 * q, k], (mem_hits _ r0 c0 R C d k _).2 ⟨2 * q, rfl, by omega, h4, h6⟩, rfl⟩ :
      2 * q ∈ (hits (Sphere.groupReal Nphi L) r0 c0 R C d k).filterMap (·[0]?))
    omega

/-- C85. The curl with real data, for every process. -/
theorem real_curl_agrees_partial (op : ComplexOp K) (hw : op.re.Wf)
    (him : ∀ c d ell, (op.im c d ell).rows = op.re.size ell ∧ (op.im c d ell).cols = op.re.size ell)
    (Nphi L r0 c0 R C Nr r col : Nat) (h4 : Nphi % 4 = 0)
    (hgood : L % 2 = 1 ∨ Nphi / 2 < L / 2 + 3 ∨ L + 1 < Nphi / 2)
    (hR : r0 + R ≤ (Sphere.shapeReal Nphi L).1) (hC : c0 + C ≤ (Sphere.shapeReal Nphi L).2) (hr : r + 2 ≤ R) (hr0 : r0 % 2 = 0)
    (hr2 : r % 2 = 0) (hcol : col < C) (ell : Int) (hell : ell = (Sphere.groupReal Nphi L (r0 + r) (c0 + col)).2)
    (hN : op.re.start ell + op.re.size ell ≤ Nr) (x : Data K) :
    ∃ M, curlRealMatrix op 2 (some ell) = some M ∧
      IsProduct M (gathered x op.re.nin R C Nr r 2 col 1 (op.re.start ell) (op.re.size ell))
        (gathered (operateReal op (ellMaps (Sphere.groupReal Nphi L) 2 r0 c0 R C) x) op.re.nout R C Nr r 2 col 1
          (op.re.start ell) (op.re.size ell)) := by
  refine real_curl_agrees op hw him _ (maps_start_even Nphi L r0 c0 R C hr0) _ R C Nr
    (degree_maps_real_partial Nphi L r0 c0 R C h4 hgood hR hC) r col ell hr hr2 hcol ?_ hN x
  intro i hi
  obtain ⟨p, hp⟩ : ∃ p, r0 + r = 2 * p := ⟨(r0 + r) / 2, by omega⟩
  have hi2 : i = 0 ∨ i = 1 := by omega
  rcases hi2 with rfl | rfl
  · rw [hell, Nat.add_zero]
  · rw [show r0 + (r + 1) = 2 * p + 1 by omega, groupReal_pair, hell, hp]

/-- C85 is false for the curl with real data if the degree is coupled (a coefficient varies with colatitude): no matrix can be
built, although the curl on the right-hand side, and with complex data on either side, can be computed. -/
theorem real_curl_coupled_refuted (op : ComplexOp K) (b : Nat) (cin cout : Nat) (h1 : cin < op.re.nin) (h2 : cout < op.re.nout)
    (h3 : cout ∈ op.re.outs cin) : curlRealMatrix op b none = none := by
  unfold curlRealMatrix
  simp only
  rw [if_pos]
  rw [List.any_eq_true]
  refine ⟨cout, by simpa using h2, ?_⟩
  rw [List.any_eq_true]
  exact ⟨cin, by simpa using h1, by simpa using h3⟩

theorem blockDiag_cols (ms : List (Mat K)) : (blockDiag ms).cols = (ms.map Mat.cols).sum := by
  induction ms with
  | nil => rfl
  | cons m ms ih => simp [blockDiag, ih]

/-- C85 is false for balls if the degree is coupled: the radial size falls with the degree, the gathered vector has the
bounding box of all degrees `|m|` to `Lmax`, and the matrix has too few columns for it. `m` is a stored order with
`|m|/2 < Lmax/2 ≤ Nmax`. -/
theorem ball_coupled_refuted (op : RadialOp K) (hw : op.Wf) (Nmax L m b : Nat) (hb : 0 < b) (rev : Bool)
    (hs : ∀ ell : Nat, op.size ell = Nmax + 1 - ell / 2) (hm : m / 2 < L / 2) (hL : L / 2 ≤ Nmax) (M : Mat K)
    (h : coupledMatrix op b (ellList L m rev) = some M) (x : Data K) (R C Nr r col : Nat) (hR : r + b ≤ R) (hC : col + (L + 1 - m) ≤ C)
    (hN : Nmax + 1 ≤ Nr) :
    M.cols < (gathered x op.nin R C Nr r b col (L + 1 - m) (m / 2) (op.size m)).length := by
  rw [gathered_eq x _ R C Nr r b col _ _ _ hR hC (by rw [hs]; omega)]
  simp only [List.length_map, List.length_range]
  have hcols : ∀ cin cout, (coupledMatrices op (ellList L m rev) cin cout).cols = ((ellList L m rev).map op.size).sum := by
    intro cin cout
    unfold coupledMatrices
    rw [blockDiag_cols, List.map_map]
    congr 1
    refine List.map_congr_left fun ell _ => ?_
    simp only [Function.comp]
    cases hwr : wrapped op cin cout ell with
    | none => simp [Mat.zeros]
    | some A =>
      have : A = op.mat cin cout ell := by
        unfold wrapped at hwr
        split at hwr <;> simp_all
      simp [this, hw.cols]
  have hMc : M.cols = op.nin * (b * ((ellList L m rev).map op.size).sum) := by
    unfold coupledMatrix bmat at h
    simp only at h
    split at h
    · simp only [Option.some.injEq] at h
      rw [← h]
      simp only [kronAll_eq]
      simp [Mat.kron, Mat.ident, hcols]
    · simp at h
  rw [hMc]
  have hsum : ((ellList L m rev).map op.size).sum < (L + 1 - m) * op.size m := by
    have e : ((ellList L m rev).map op.size).sum = ((List.range (L + 1 - m)).map fun k => op.size ((m + k : Nat) : Int)).sum := by
      unfold ellList
      simp only [Int.natAbs_natCast]
      have : ((List.range (L + 1 - m)).map fun r : Nat => (m : Int) + r).map op.size =
          (List.range (L + 1 - m)).map fun k => op.size ((m + k : Nat) : Int) := by
        rw [List.map_map]
        refine List.map_congr_left fun k _ => ?_
        simp
      cases rev
      · simp only [Bool.false_eq_true, if_false]; rw [this]
      · simp only [if_true, List.map_reverse, List.sum_reverse]; rw [this]
    rw [e]
    obtain ⟨w, hwL⟩ : ∃ w, L + 1 - m = w + 1 := ⟨L - m, by omega⟩
    rw [hwL, List.range_succ, List.map_append, List.sum_append]
    have hle : ∀ w, ((List.range w).map fun k => op.size ((m + k : Nat) : Int)).sum ≤ w * op.size m := by
      intro w
      induction w with
      | zero => simp
      | succ w ih =>
        rw [List.range_succ, List.map_append, List.sum_append, Nat.succ_mul]
        have : op.size ((m + w : Nat) : Int) ≤ op.size m := by rw [hs, hs]; omega
        simpa using Nat.add_le_add ih this
    have := hle w
    have hlt : op.size ((m + w : Nat) : Int) < op.size m := by rw [hs, hs]; omega
    rw [Nat.succ_mul]
    simpa using Nat.add_lt_add_of_le_of_lt this hlt
  exact Nat.mul_lt_mul_of_pos_left (Nat.mul_lt_mul_of_pos_left hsum hb) hw.pos.1

/-! ## Separable operators on the sphere -/

/-- C85. Operators on the sphere that multiply by a symbol of the degree (gradient, divergence, Laplacian of C66): rows `r` to
`r + b` and column `col` of a group whose data is one block. -/
theorem symbol_operator_agrees (nin nout : Nat) (h0 : 0 < nin ∧ 0 < nout) (outs : Nat → List Nat) (hn : ∀ c, (outs c).Nodup)
    (symbol : Nat → Nat → Int → K) (ell : Nat → Nat → Int) (R C r b col : Nat) (hb : r + b ≤ R) (hc : col < C) (x : Data K) :
    ∃ M, symbolMatrix nin nout outs symbol ell r b col = some M ∧
      IsProduct M (gathered x nin R C 1 r b col 1 0 1) (gathered (operateSymbols nin outs symbol ell x) nout R C 1 r b col 1 0 1) := by
  have hS : ∀ c d, c < nout → d < nin →
      ((fun cout cin => if (outs cin).contains cout then diag ((List.range b).map fun i => symbol cin cout (ell (r + i) col))
        else Mat.zeros (b * 1) (b * 1)) c d : Mat K).rows = b * (1 * 1) ∧
      ((fun cout cin => if (outs cin).contains cout then diag ((List.range b).map fun i => symbol cin cout (ell (r + i) col))
        else Mat.zeros (b * 1) (b * 1)) c d : Mat K).cols = b * (1 * 1) := by
    intro c d _ _
    simp only
    split <;> simp [diag, Mat.zeros]
  obtain ⟨M, hM, hrows, hcols, happ⟩ := bmat_apply nout nin (b * (1 * 1)) _ ⟨h0.2, h0.1⟩ hS
  refine ⟨M, hM, isProduct_of M nin nout b 1 1 r col 0 R C 1 _ _ hb (by omega) (by omega) hrows hcols ?_⟩
  intro c i j n hc' hi hj hn'
  have hj0 : j = 0 := by omega
  have hn0 : n = 0 := by omega
  subst hj0 hn0
  rw [happ _ _ _ hc' (by omega)]
  unfold operateSymbols
  rw [foldl_range (g := fun cin => if (outs cin).contains c then symbol cin c (ell (r + i) (col + 0)) * x cin (r + i) (col + 0) (0 + 0) else 0)]
  · rw [zero_add]
    refine Finset.sum_congr rfl fun cin _ => ?_
    split
    · rename_i hcon
      simp only [diag]
      rw [Finset.sum_eq_single i]
      · have := entry_at x r b col 1 0 1 cin i 0 0 hi (by omega) (by omega)
        rw [show cin * (b * (1 * 1)) + i = ((cin * b + i) * 1 + 0) * 1 + 0 by ring, this]
        have hii : i * (1 * 1) + (0 * 1 + 0) = i := by ring
        rw [hii, if_pos rfl, List.getElem?_map, List.getElem?_range hi]
        simp
      · intro q _ hq
        rw [if_neg (by omega), zero_mul]
      · intro h
        exact absurd (Finset.mem_range.2 (by omega)) h
    · simp [Mat.zeros]
  · intro out cin
    exact foldl_outs (β := Unit) _ (fun c => symbol cin c (ell (r + i) (col + 0)) * x cin (r + i) (col + 0) (0 + 0)) c (r + i) (col + 0) _
      (fun out => by simp) (fun out d hd => by simp [Ne.symm hd]) _ _ (hn cin)

/-! ## Examples -/

/-- A gradient-like operator of a scalar in a ball: one input and two output components, sizes as in the ball. -/
def sample : RadialOp ℚ where
  nin := 1
  nout := 2
  outs := fun _ => [0, 1]
  allowed := fun _ _ => true
  allowedOut := fun ell c => decide (c ≠ 0 ∨ 0 < ell)
  mat := fun _ c ell => ⟨5 - (ell / 2).toNat, 5 - (ell / 2).toNat, fun i j => (i : ℚ) + c - j * ell⟩
  start := fun ell => (ell / 2).toNat
  size := fun ell => 5 - (ell / 2).toNat

example : sample.Wf := ⟨by simp [sample], by simp [sample], fun _ _ _ => rfl, fun _ _ _ => rfl, by simp [sample]⟩
example : sample.start 3 + sample.size 3 ≤ 5 := by decide
example : Sphere.groupReal 16 6 (2 + 2) (1 + 3) = (2, 4) := by decide
/-- rows and columns of an order in the coupled case -/
example : (List.range (Sphere.shapeReal 12 5).2).filter (fun j => (Sphere.groupReal 12 5 (0 + 2) j).1 = 4) = List.range' 0 2 ∧
    Sphere.nativeReal (Sphere.permReal 12 6) = 4 ∧ 0 + 2 = 2 * (6 / 4) := by decide

end Dedalus.Agree
