import Verif.Flow.Model
import Mathlib.Tactic.Ring
import Mathlib.Tactic.Linarith
import Mathlib.Tactic.FieldSimp
import Mathlib.Tactic.Positivity
import Mathlib.Algebra.BigOperators.Group.List.Basic
import Mathlib.Algebra.Order.Archimedean.Basic

/-!
# Theorems: parallel reductions (C28) and the CFL timestep (C27)
-/

namespace Dedalus.Flow

open Ext

variable {F : Type} [Field F] [LinearOrder F]

/-! ### Reductions -/

theorem foldl_min_spec (l : List F) : ∀ m : F, (l.foldl min m ≤ m ∧ ∀ y ∈ l, l.foldl min m ≤ y) ∧
    (l.foldl min m = m ∨ l.foldl min m ∈ l) := by
  induction l with
  | nil => intro m; simp
  | cons a as ih =>
    intro m
    obtain ⟨⟨h1, h2⟩, h3⟩ := ih (min m a)
    simp only [List.foldl_cons]
    refine ⟨⟨le_trans h1 (min_le_left _ _), ?_⟩, ?_⟩
    · intro y hy
      rcases List.mem_cons.1 hy with rfl | h
      · exact le_trans h1 (min_le_right _ _)
      · exact h2 y h
    · rcases h3 with h | h
      · rw [h]
        rcases min_choice m a with h' | h' <;> rw [h'] <;> simp
      · right; exact List.mem_cons_of_mem _ h

theorem foldl_max_spec (l : List F) : ∀ m : F, (m ≤ l.foldl max m ∧ ∀ y ∈ l, y ≤ l.foldl max m) ∧
    (l.foldl max m = m ∨ l.foldl max m ∈ l) := by
  induction l with
  | nil => intro m; simp
  | cons a as ih =>
    intro m
    obtain ⟨⟨h1, h2⟩, h3⟩ := ih (max m a)
    simp only [List.foldl_cons]
    refine ⟨⟨le_trans (le_max_left _ _) h1, ?_⟩, ?_⟩
    · intro y hy
      rcases List.mem_cons.1 hy with rfl | h
      · exact le_trans (le_max_right _ _) h1
      · exact h2 y h
    · rcases h3 with h | h
      · rw [h]
        rcases max_choice m a with h' | h' <;> rw [h'] <;> simp
      · right; exact List.mem_cons_of_mem _ h

/-- What the running minimum is after some processes: `inf` if they have no data, else the minimum. -/
def IsMinOf (v : Ext F) (l : List F) : Prop :=
  (l = [] ∧ v = inf) ∨ ∃ m, v = fin m ∧ m ∈ l ∧ ∀ y ∈ l, m ≤ y

def IsMaxOf (v : Ext F) (l : List F) : Prop :=
  (l = [] ∧ v = ninf) ∨ ∃ m, v = fin m ∧ m ∈ l ∧ ∀ y ∈ l, y ≤ m

theorem localMin_spec (l : List F) : IsMinOf (localMin inf l) l := by
  cases l with
  | nil => exact Or.inl ⟨rfl, rfl⟩
  | cons x xs =>
    right
    obtain ⟨⟨h1, h2⟩, h3⟩ := foldl_min_spec xs x
    refine ⟨_, rfl, ?_, ?_⟩
    · rcases h3 with h | h
      · rw [h]; simp
      · exact List.mem_cons_of_mem _ h
    · intro y hy
      rcases List.mem_cons.1 hy with rfl | h
      · exact h1
      · exact h2 y h

theorem localMax_spec (l : List F) : IsMaxOf (localMax ninf l) l := by
  cases l with
  | nil => exact Or.inl ⟨rfl, rfl⟩
  | cons x xs =>
    right
    obtain ⟨⟨h1, h2⟩, h3⟩ := foldl_max_spec xs x
    refine ⟨_, rfl, ?_, ?_⟩
    · rcases h3 with h | h
      · rw [h]; simp
      · exact List.mem_cons_of_mem _ h
    · intro y hy
      rcases List.mem_cons.1 hy with rfl | h
      · exact h1
      · exact h2 y h

theorem mpiMin_spec {v w : Ext F} {l l' : List F} (hv : IsMinOf v l) (hw : IsMinOf w l') :
    IsMinOf (mpiMin v w) (l ++ l') := by
  rcases hv with ⟨rfl, rfl⟩ | ⟨a, rfl, ha, ha'⟩ <;> rcases hw with ⟨rfl, rfl⟩ | ⟨b, rfl, hb, hb'⟩
  · exact Or.inl ⟨rfl, rfl⟩
  · exact Or.inr ⟨b, rfl, by simpa using hb, by simpa using hb'⟩
  · exact Or.inr ⟨a, rfl, by simpa using ha, by simpa using ha'⟩
  · right
    by_cases h : b < a
    · refine ⟨b, by simp [mpiMin, lt, h], by simp [hb], ?_⟩
      intro y hy
      rcases List.mem_append.1 hy with hy | hy
      · exact le_trans h.le (ha' y hy)
      · exact hb' y hy
    · refine ⟨a, by simp [mpiMin, lt, h], by simp [ha], ?_⟩
      intro y hy
      rcases List.mem_append.1 hy with hy | hy
      · exact ha' y hy
      · exact le_trans (not_lt.1 h) (hb' y hy)

theorem mpiMax_spec {v w : Ext F} {l l' : List F} (hv : IsMaxOf v l) (hw : IsMaxOf w l') :
    IsMaxOf (mpiMax v w) (l ++ l') := by
  rcases hv with ⟨rfl, rfl⟩ | ⟨a, rfl, ha, ha'⟩ <;> rcases hw with ⟨rfl, rfl⟩ | ⟨b, rfl, hb, hb'⟩
  · exact Or.inl ⟨rfl, rfl⟩
  · exact Or.inr ⟨b, rfl, by simpa using hb, by simpa using hb'⟩
  · exact Or.inr ⟨a, rfl, by simpa using ha, by simpa using ha'⟩
  · right
    by_cases h : a < b
    · refine ⟨b, by simp [mpiMax, lt, h], by simp [hb], ?_⟩
      intro y hy
      rcases List.mem_append.1 hy with hy | hy
      · exact le_trans (ha' y hy) h.le
      · exact hb' y hy
    · refine ⟨a, by simp [mpiMax, lt, h], by simp [ha], ?_⟩
      intro y hy
      rcases List.mem_append.1 hy with hy | hy
      · exact ha' y hy
      · exact le_trans (hb' y hy) (not_lt.1 h)

theorem globalMin_isMinOf (rank0 : List F) (others : List (List F)) :
    IsMinOf (globalMin rank0 others) (rank0 ++ others.flatten) := by
  have : ∀ (os : List (List F)) (v : Ext F) (l : List F), IsMinOf v l →
      IsMinOf ((os.map (localMin inf)).foldl mpiMin v) (l ++ os.flatten) := by
    intro os
    induction os with
    | nil => intro v l h; simpa using h
    | cons d ds ih =>
      intro v l h
      have := ih _ _ (mpiMin_spec h (localMin_spec d))
      simpa [List.append_assoc] using this
  exact this others _ _ (localMin_spec rank0)

theorem globalMax_isMaxOf (rank0 : List F) (others : List (List F)) :
    IsMaxOf (globalMax rank0 others) (rank0 ++ others.flatten) := by
  have : ∀ (os : List (List F)) (v : Ext F) (l : List F), IsMaxOf v l →
      IsMaxOf ((os.map (localMax ninf)).foldl mpiMax v) (l ++ os.flatten) := by
    intro os
    induction os with
    | nil => intro v l h; simpa using h
    | cons d ds ih =>
      intro v l h
      have := ih _ _ (mpiMax_spec h (localMax_spec d))
      simpa [List.append_assoc] using this
  exact this others _ _ (localMax_spec rank0)

/-- C28. However the global data are dealt out to processes, some of which may get nothing, the global
minimum and maximum are the smallest and the largest value of the global data. -/
theorem global_extrema (global rank0 : List F) (others : List (List F)) (hne : global ≠ [])
    (hd : (rank0 ++ others.flatten).Perm global) :
    (∃ m, globalMin rank0 others = fin m ∧ m ∈ global ∧ ∀ y ∈ global, m ≤ y) ∧
    (∃ m, globalMax rank0 others = fin m ∧ m ∈ global ∧ ∀ y ∈ global, y ≤ m) := by
  have hne' : rank0 ++ others.flatten ≠ [] := fun h => hne (by rw [h] at hd; exact hd.symm.eq_nil)
  constructor
  · rcases globalMin_isMinOf rank0 others with ⟨h, _⟩ | ⟨m, h1, h2, h3⟩
    · exact absurd h hne'
    · exact ⟨m, h1, hd.mem_iff.1 h2, fun y hy => h3 y (hd.mem_iff.2 hy)⟩
  · rcases globalMax_isMaxOf rank0 others with ⟨h, _⟩ | ⟨m, h1, h2, h3⟩
    · exact absurd h hne'
    · exact ⟨m, h1, hd.mem_iff.1 h2, fun y hy => h3 y (hd.mem_iff.2 hy)⟩

-- Three processes, the second without data.
example : ∃ m, globalMax [(1 : ℚ), -3] [[], [2]] = fin m ∧ m ∈ [(-3 : ℚ), 1, 2] ∧ ∀ y ∈ [(-3 : ℚ), 1, 2], y ≤ m :=
  (global_extrema [-3, 1, 2] [1, -3] [[], [2]] (by simp) (by decide)).2

theorem foldl_add_eq {M : Type} [AddCommMonoid M] (l : List M) : ∀ m : M, l.foldl (· + ·) m = m + l.sum := by
  induction l with
  | nil => intro m; simp
  | cons a as ih => intro m; simp only [List.foldl_cons, List.sum_cons]; rw [ih]; rw [add_assoc]

/-- C28. The global mean is the sum of the global data over their number, however they are dealt out. -/
theorem global_mean (global rank0 : List F) (others : List (List F)) (hne : global ≠ [])
    (hd : (rank0 ++ others.flatten).Perm global) :
    globalMean rank0 others = some (global.sum / (global.length : F)) := by
  have hs : (others.map List.sum).foldl (· + ·) rank0.sum = global.sum := by
    rw [foldl_add_eq, ← hd.sum_eq, List.sum_append, List.sum_flatten]
  have hn : (others.map List.length).foldl (· + ·) rank0.length = global.length := by
    rw [foldl_add_eq, ← hd.length_eq, List.length_append, List.length_flatten]
  have hl : global.length ≠ 0 := by simpa using hne
  simp only [globalMean, hs, hn]
  rw [if_neg hl]

example : globalMean [(1 : ℚ), -3] [[], [2]] = some (([-3, 1, 2] : List ℚ).sum / (([-3, 1, 2] : List ℚ).length : ℚ)) :=
  global_mean [-3, 1, 2] [1, -3] [[], [2]] (by simp) (by decide)

/-- C28. The sum of powers under the root of a data norm is that of the global data, however they are
dealt out. -/
theorem data_norm (p : Nat) (global rank0 : List F) (others : List (List F))
    (hd : (rank0 ++ others.flatten).Perm global) :
    normPow p rank0 others = (global.map fun x => |x| ^ p).sum := by
  have hloc : ∀ d : List F, (if d.length = 0 then (0 : F) else (d.map fun x => |x| ^ p).sum) =
      (d.map fun x => |x| ^ p).sum := by
    intro d
    split
    · next h => rw [List.length_eq_zero_iff] at h; simp [h]
    · rfl
  simp only [normPow, hloc]
  rw [foldl_add_eq, ← (hd.map (fun x => |x| ^ p)).sum_eq, List.map_append, List.sum_append, List.map_flatten,
    List.sum_flatten, List.map_map]
  rfl

example : normPow 2 [(1 : ℚ), -3] [[], [2]] = (([-3, 1, 2] : List ℚ).map fun x => |x| ^ 2).sum :=
  data_norm 2 [-3, 1, 2] [1, -3] [[], [2]] (by decide)

/-! ### CFL -/

variable [IsStrictOrderedRing F]

/-- `x ≤ y` for bounds that may be infinite. -/
def LeExt (x : F) : Ext F → Prop
  | fin y => x ≤ y
  | inf => True
  | _ => False

/-- Reasonable settings: `0 ≤ min_dt ≤ max_dt < inf`, `0 ≤ min_change ≤ 1 ≤ max_change ≤ inf`,
`0 ≤ threshold < 1`, positive finite safety factor. -/
structure Settings (c : Cfl F) (sf M m : F) (C : Ext F) (mc th : F) : Prop where
  hs : c.safety = fin sf
  hM : c.maxDt = fin M
  hm : c.minDt = fin m
  hC : c.maxChange = C
  hmc : c.minChange = fin mc
  hth : c.threshold = fin th
  s0 : 0 < sf
  m0 : 0 ≤ m
  mM : m ≤ M
  c1 : LeExt 1 C
  mc0 : 0 ≤ mc
  mc1 : mc ≤ 1
  th0 : 0 ≤ th
  th1 : th < 1

theorem leExt_cases {C : Ext F} (h : LeExt 1 C) : (∃ x, C = fin x ∧ 1 ≤ x) ∨ C = inf := by
  cases C with
  | fin x => exact Or.inl ⟨x, rfl, h⟩
  | inf => exact Or.inr rfl
  | ninf => exact absurd h id
  | nan => exact absurd h id

/-- Before the lower bounds: the least of `safety/freq`, `max_dt` and `max_change*dt`. -/
theorem min3_spec (c : Cfl F) {sf M m mc th d : F} {C : Ext F} (hc : Settings c sf M m C mc th)
    (hd : c.storedDt = fin d) (d0 : 0 < d) (w : F) (hw : 0 ≤ w) :
    ∃ u, min3 (mul (if (fin w : Ext F) = fin 0 then inf else recip (fin w)) c.safety) c.maxDt
        (mul c.maxChange c.storedDt) = fin u ∧ u * w ≤ sf ∧ u ≤ M ∧ (∀ x, C = fin x → u ≤ x * d) ∧
      (u * w = sf ∨ u = M ∨ ∃ x, C = fin x ∧ u = x * d) := by
  have hdt : (w = 0 ∧ mul (if (fin w : Ext F) = fin 0 then inf else recip (fin w)) c.safety = inf) ∨
      (0 < w ∧ mul (if (fin w : Ext F) = fin 0 then inf else recip (fin w)) c.safety = fin (1 / w * sf)) := by
    rw [hc.hs]
    rcases hw.eq_or_lt with h | h
    · left
      refine ⟨h.symm, ?_⟩
      rw [← h]
      simp [mul, hc.s0, hc.s0.ne']
    · right
      refine ⟨h, ?_⟩
      have : (fin w : Ext F) ≠ fin 0 := by simpa using h.ne'
      rw [if_neg this]
      rfl
  have hmc : (∃ x, C = fin x ∧ 1 ≤ x ∧ mul c.maxChange c.storedDt = fin (x * d)) ∨
      (C = inf ∧ mul c.maxChange c.storedDt = inf) := by
    rcases leExt_cases hc.c1 with ⟨x, hx, h1⟩ | hx
    · exact Or.inl ⟨x, hx, h1, by rw [hc.hC, hx, hd]; rfl⟩
    · exact Or.inr ⟨hx, by rw [hc.hC, hx, hd]; simp [mul, d0, d0.ne']⟩
  rw [hc.hM]
  rcases hdt with ⟨h0, h⟩ | ⟨h0, h⟩ <;> rcases hmc with ⟨x, hx, h1, h2⟩ | ⟨hx, h2⟩
  · rw [h, h2]
    by_cases hlt : x * d < M
    · refine ⟨x * d, by simp [min3, lt, hlt], by rw [h0]; simpa using hc.s0.le, hlt.le, ?_, Or.inr (Or.inr ⟨x, hx, rfl⟩)⟩
      intro y hy; rw [hx] at hy; cases hy; exact le_refl _
    · refine ⟨M, by simp [min3, lt, hlt], by rw [h0]; simpa using hc.s0.le, le_refl _, ?_, Or.inr (Or.inl rfl)⟩
      intro y hy; rw [hx] at hy; cases hy; exact not_lt.1 hlt
  · rw [h, h2]
    refine ⟨M, by simp [min3, lt], by rw [h0]; simpa using hc.s0.le, le_refl _, ?_, Or.inr (Or.inl rfl)⟩
    intro y hy; rw [hx] at hy; cases hy
  · rw [h, h2]
    have e1 : 1 / w * sf * w = sf := by field_simp
    by_cases ha : M < 1 / w * sf
    · by_cases hb : x * d < M
      · refine ⟨x * d, by simp only [min3, lt, ha, hb, decide_true, if_true], ?_, hb.le, ?_, Or.inr (Or.inr ⟨x, hx, rfl⟩)⟩
        · calc x * d * w ≤ 1 / w * sf * w := mul_le_mul_of_nonneg_right (hb.trans ha).le h0.le
            _ = sf := e1
        · intro y hy; rw [hx] at hy; cases hy; exact le_refl _
      · refine ⟨M, by simp only [min3, lt, ha, hb, decide_true, decide_false, if_true, Bool.false_eq_true, if_false], ?_, le_refl _, ?_, Or.inr (Or.inl rfl)⟩
        · calc M * w ≤ 1 / w * sf * w := mul_le_mul_of_nonneg_right ha.le h0.le
            _ = sf := e1
        · intro y hy; rw [hx] at hy; cases hy; exact not_lt.1 hb
    · by_cases hb : x * d < 1 / w * sf
      · refine ⟨x * d, by simp only [min3, lt, ha, hb, decide_true, decide_false, if_true, Bool.false_eq_true, if_false], ?_,
          hb.le.trans (not_lt.1 ha), ?_, Or.inr (Or.inr ⟨x, hx, rfl⟩)⟩
        · calc x * d * w ≤ 1 / w * sf * w := mul_le_mul_of_nonneg_right hb.le h0.le
            _ = sf := e1
        · intro y hy; rw [hx] at hy; cases hy; exact le_refl _
      · refine ⟨1 / w * sf, by simp only [min3, lt, ha, hb, decide_false, if_false, Bool.false_eq_true], e1.le, not_lt.1 ha, ?_, Or.inl e1⟩
        intro y hy; rw [hx] at hy; cases hy; exact not_lt.1 hb
  · rw [h, h2]
    have e1 : 1 / w * sf * w = sf := by field_simp
    by_cases ha : M < 1 / w * sf
    · refine ⟨M, by simp only [min3, lt, ha, decide_true, if_true, Bool.false_eq_true, if_false], ?_, le_refl _, ?_, Or.inr (Or.inl rfl)⟩
      · calc M * w ≤ 1 / w * sf * w := mul_le_mul_of_nonneg_right ha.le h0.le
          _ = sf := e1
      · intro y hy; rw [hx] at hy; cases hy
    · refine ⟨1 / w * sf, by simp only [min3, lt, ha, decide_false, Bool.false_eq_true, if_false], e1.le, not_lt.1 ha, ?_, Or.inl e1⟩
      intro y hy; rw [hx] at hy; cases hy

theorem max3_fin (a b c : F) : max3 (fin a) (fin b) (fin c) = fin (max (max a b) c) := by
  unfold max3
  by_cases h : a < b <;> simp only [lt, h, decide_true, decide_false, if_true, if_false, Bool.false_eq_true]
  · rw [max_eq_right h.le]
    by_cases h' : b < c <;> simp only [h', decide_true, decide_false, if_true, if_false, Bool.false_eq_true]
    · rw [max_eq_right h'.le]
    · rw [max_eq_left (not_lt.1 h')]
  · rw [max_eq_left (not_lt.1 h)]
    by_cases h' : a < c <;> simp only [h', decide_true, decide_false, if_true, if_false, Bool.false_eq_true]
    · rw [max_eq_right h'.le]
    · rw [max_eq_left (not_lt.1 h')]

/-- The timestep aimed at: within the bounds, within the allowed change, and no larger than
`safety/freq` unless a lower bound applies; it is the largest such. -/
theorem target_spec (c : Cfl F) {sf M m mc th d : F} {C : Ext F} (hc : Settings c sf M m C mc th)
    (hd : c.storedDt = fin d) (d0 : 0 < d) (hdm : m ≤ d) (hdM : d ≤ M) (w : F) (hw : 0 ≤ w) :
    ∃ v, target c (fin w) = fin v ∧ m ≤ v ∧ v ≤ M ∧ mc * d ≤ v ∧ (∀ x, C = fin x → v ≤ x * d) ∧
      (v * w ≤ sf ∨ v = m ∨ v = mc * d) ∧
      (sf ≤ v * w ∨ v = M ∨ (∃ x, C = fin x ∧ v = x * d) ∨ v = m ∨ v = mc * d) := by
  obtain ⟨u, hu, h1, h2, h3, h4⟩ := min3_spec c hc hd d0 w hw
  have ht : target c (fin w) = fin (max (max u m) (mc * d)) := by
    simp only [target]
    rw [hu, hc.hm, hc.hmc, hd]
    exact max3_fin u m (mc * d)
  refine ⟨_, ht, (le_max_right u m).trans (le_max_left _ _), ?_, le_max_right _ _, ?_, ?_, ?_⟩
  · refine max_le (max_le h2 hc.mM) ?_
    calc mc * d ≤ 1 * d := mul_le_mul_of_nonneg_right hc.mc1 d0.le
      _ = d := one_mul d
      _ ≤ M := hdM
  · intro x hx
    have hx1 : 1 ≤ x := by
      have := hc.c1; rw [hx] at this; exact this
    have hdx : d ≤ x * d := by
      calc d = 1 * d := (one_mul d).symm
        _ ≤ x * d := mul_le_mul_of_nonneg_right hx1 d0.le
    refine max_le (max_le (h3 x hx) (hdm.trans hdx)) ?_
    calc mc * d ≤ 1 * d := mul_le_mul_of_nonneg_right hc.mc1 d0.le
      _ = d := one_mul d
      _ ≤ x * d := hdx
  · rcases max_choice (max u m) (mc * d) with h | h
    · rcases max_choice u m with h' | h'
      · left; rw [h, h']; exact h1
      · right; left; rw [h, h']
    · right; right; exact h
  · rcases max_choice (max u m) (mc * d) with h | h
    · rcases max_choice u m with h' | h'
      · rw [h, h']
        rcases h4 with h4 | h4 | h4
        · left; exact h4.ge
        · right; left; exact h4
        · right; right; left; exact h4
      · right; right; right; left; rw [h, h']
    · right; right; right; right; exact h

/-- A timestep is recomputed at this iteration: the one after a multiple of the cadence, but not the
first. -/
def Updates (c : Cfl F) (it : Nat) : Prop :=
  (c.cadence : Int) ∣ (it : Int) - 1 ∧ (c.initialIteration : Int) < (it : Int) - 1

/-- C27. Between updates the timestep does not change. -/
theorem cfl_cadence (c : Cfl F) (it : Nat) (freq : Ext F) (h : ¬ Updates c it) :
    computeTimestep c it freq = c := by
  unfold computeTimestep
  by_cases h1 : ((it : Int) - 1) % (c.cadence : Int) = 0
  · rw [if_pos h1]
    by_cases h2 : (it : Int) - 1 ≤ (c.initialIteration : Int)
    · rw [if_pos h2]
    · exact absurd ⟨Int.dvd_of_emod_eq_zero h1, not_le.1 h2⟩ h
  · rw [if_neg h1]

example : ¬ Updates { defaultCfl (1 : ℚ) with cadence := 10 } 5 := by
  intro h; have := h.1; simp [defaultCfl] at this

/-- C27. At an update, with reasonable settings and a current timestep within the bounds: the new
timestep is within the bounds and within the allowed change; if the change exceeds the threshold it is
at most `safety/freq` unless a lower bound applies, and if not, it exceeds that by at most the
threshold. -/
theorem cfl_update (c : Cfl F) {sf M m mc th d : F} {C : Ext F} (hc : Settings c sf M m C mc th)
    (hd : c.storedDt = fin d) (d0 : 0 < d) (hdm : m ≤ d) (hdM : d ≤ M) (it : Nat) (w : F) (hw : 0 ≤ w)
    (hup : Updates c it) :
    ∃ v, (computeTimestep c it (fin w)).storedDt = fin v ∧ m ≤ v ∧ v ≤ M ∧ mc * d ≤ v ∧
      (∀ x, C = fin x → v ≤ x * d) ∧ (v * (1 - th) * w ≤ sf ∨ v * (1 - th) ≤ m ∨ v * (1 - th) ≤ mc * d) ∧
      (th = 0 → v * w ≤ sf ∨ v = m ∨ v = mc * d) ∧
      (th = 0 → sf ≤ v * w ∨ v = M ∨ (∃ x, C = fin x ∧ v = x * d) ∨ v = m ∨ v = mc * d) := by
  obtain ⟨v, hv, h1, h2, h3, h4, h5, h6⟩ := target_spec c hc hd d0 hdm hdM w hw
  have e1 : ((it : Int) - 1) % (c.cadence : Int) = 0 := Int.emod_eq_zero_of_dvd hup.1
  have e2 : ¬ ((it : Int) - 1 ≤ (c.initialIteration : Int)) := not_le.2 hup.2
  have hv0 : 0 ≤ v := hc.m0.trans h1
  have e3 : computeTimestep c it (fin w) = if th * d < |v - d| then { c with storedDt := fin v } else c := by
    unfold computeTimestep
    rw [if_pos e1, if_neg e2]
    simp only [hv, hc.hth, hd, mul, sub, Ext.abs, lt, decide_eq_true_eq]
  rw [e3]
  by_cases hlt : th * d < |v - d|
  · rw [if_pos hlt]
    refine ⟨v, rfl, h1, h2, h3, h4, ?_, fun _ => h5, fun _ => h6⟩
    have hle : v * (1 - th) ≤ v := by nlinarith [hc.th0]
    rcases h5 with h | h | h
    · left; exact (mul_le_mul_of_nonneg_right hle hw).trans h
    · right; left; exact hle.trans h.le
    · right; right; exact hle.trans h.le
  · rw [if_neg hlt]
    have habs : |v - d| ≤ th * d := not_lt.1 hlt
    have hvd : d * (1 - th) ≤ v := by
      have := (abs_le.1 habs).1
      nlinarith
    refine ⟨d, hd, hdm, hdM, ?_, ?_, ?_, ?_, ?_⟩
    · calc mc * d ≤ 1 * d := mul_le_mul_of_nonneg_right hc.mc1 d0.le
        _ = d := one_mul d
    · intro x hx
      have hx1 : 1 ≤ x := by
        have := hc.c1; rw [hx] at this; exact this
      calc d = 1 * d := (one_mul d).symm
        _ ≤ x * d := mul_le_mul_of_nonneg_right hx1 d0.le
    · rcases h5 with h | h | h
      · left; exact (mul_le_mul_of_nonneg_right hvd hw).trans h
      · right; left; exact hvd.trans h.le
      · right; right; exact hvd.trans h.le
    · intro h0
      have : v = d := by
        rw [h0, zero_mul] at habs
        have := abs_nonpos_iff.1 habs
        linarith
      rw [← this]; rw [← this] at h5; exact h5
    · intro h0
      have : v = d := by
        rw [h0, zero_mul] at habs
        have := abs_nonpos_iff.1 habs
        linarith
      rw [← this]; rw [← this] at h6; exact h6

example : ∃ v, (computeTimestep { defaultCfl (1 : ℚ) with maxDt := fin 4, maxChange := fin 2 } 5 (fin (1/10))).storedDt = fin v ∧
    v ≤ 4 := by
  obtain ⟨v, h1, _, h2, _⟩ := cfl_update { defaultCfl (1 : ℚ) with maxDt := fin 4, maxChange := fin 2 }
    (sf := 1) (M := 4) (m := 0) (mc := 0) (th := 0) (d := 1) (C := fin 2)
    ⟨rfl, rfl, rfl, rfl, rfl, rfl, by norm_num, le_refl _, by norm_num, by norm_num [LeExt], le_refl _, by norm_num, le_refl _, by norm_num⟩
    rfl (by norm_num) (by norm_num) (by norm_num) 5 (1/10) (by norm_num) ⟨by simp [defaultCfl], by simp [defaultCfl]⟩
  exact ⟨v, h1, h2⟩

theorem settings_kept (c : Cfl F) {sf M m mc th : F} {C : Ext F} (hc : Settings c sf M m C mc th) (it : Nat)
    (f : Ext F) : Settings (computeTimestep c it f) sf M m C mc th := by
  unfold computeTimestep
  split
  · split
    · exact hc
    · simp only
      split
      · exact ⟨hc.hs, hc.hM, hc.hm, hc.hC, hc.hmc, hc.hth, hc.s0, hc.m0, hc.mM, hc.c1, hc.mc0, hc.mc1, hc.th0, hc.th1⟩
      · exact hc
  · exact hc

/-- C27. Over every history of calls and frequencies, with reasonable settings and an initial timestep
within the bounds, every timestep returned is within the bounds and within the allowed change from the
one returned before. Missing from the full claim: an initial timestep outside the bounds, and infinite
`max_dt` (see the refutations). -/
theorem cfl_bounds_partial (hist : List (Nat × F)) (hh : ∀ p ∈ hist, 0 ≤ p.2) :
    ∀ (c : Cfl F) {sf M m mc th d : F} {C : Ext F}, Settings c sf M m C mc th → c.storedDt = fin d → 0 < d →
      0 < m → m ≤ d → d ≤ M →
      ∃ vs : List F, returned c (hist.map fun p => (p.1, fin p.2)) = vs.map fin ∧
        (∀ v ∈ vs, m ≤ v ∧ v ≤ M) ∧
        List.IsChain (fun a b => mc * a ≤ b ∧ ∀ x, C = fin x → b ≤ x * a) (d :: vs) := by
  induction hist with
  | nil => intro c sf M m mc th d C _ _ _ _ _ _; exact ⟨[], rfl, by simp, by simp⟩
  | cons p ps ih =>
    intro c sf M m mc th d C hc hd d0 hm hdm hdM
    have hw := hh p (by simp)
    have key : ∃ v, (computeTimestep c p.1 (fin p.2)).storedDt = fin v ∧ m ≤ v ∧ v ≤ M ∧ mc * d ≤ v ∧
        (∀ x, C = fin x → v ≤ x * d) := by
      by_cases hup : Updates c p.1
      · obtain ⟨v, a1, a2, a3, a4, a5, _⟩ := cfl_update c hc hd d0 hdm hdM p.1 p.2 hw hup
        exact ⟨v, a1, a2, a3, a4, a5⟩
      · refine ⟨d, by rw [cfl_cadence c p.1 _ hup, hd], hdm, hdM, ?_, ?_⟩
        · calc mc * d ≤ 1 * d := mul_le_mul_of_nonneg_right hc.mc1 d0.le
            _ = d := one_mul d
        · intro x hx
          have hx1 : 1 ≤ x := by
            have := hc.c1; rw [hx] at this; exact this
          calc d = 1 * d := (one_mul d).symm
            _ ≤ x * d := mul_le_mul_of_nonneg_right hx1 d0.le
    obtain ⟨v, a1, a2, a3, a4, a5⟩ := key
    obtain ⟨vs, b1, b2, b3⟩ := ih (fun q hq => hh q (List.mem_cons_of_mem _ hq)) _
      (settings_kept c hc p.1 (fin p.2)) a1 (hm.trans_le a2) hm a2 a3
    refine ⟨v :: vs, ?_, ?_, ?_⟩
    · simp only [List.map_cons, returned, a1]
      rw [← b1]
    · intro u hu
      rcases List.mem_cons.1 hu with rfl | hu
      · exact ⟨a2, a3⟩
      · exact b2 u hu
    · exact List.IsChain.cons_cons ⟨a4, a5⟩ b3

example : ∃ vs : List ℚ, returned { defaultCfl (1 : ℚ) with maxDt := fin 4, minDt := fin (1/8) }
      ([(2, 5), (3, 0), (4, 1)].map fun p : Nat × ℚ => (p.1, fin p.2)) = vs.map fin ∧
    (∀ v ∈ vs, 1/8 ≤ v ∧ v ≤ 4) := by
  obtain ⟨vs, h1, h2, _⟩ := cfl_bounds_partial [(2, (5 : ℚ)), (3, 0), (4, 1)] (by simp)
    { defaultCfl (1 : ℚ) with maxDt := fin 4, minDt := fin (1/8) }
    (sf := 1) (M := 4) (m := 1/8) (mc := 0) (th := 0) (d := 1) (C := inf)
    ⟨rfl, rfl, rfl, rfl, rfl, rfl, by norm_num, by norm_num, by norm_num, trivial, le_refl _, by norm_num, le_refl _, by norm_num⟩
    rfl (by norm_num) (by norm_num) (by norm_num) (by norm_num)
  exact ⟨vs, h1, h2⟩

/-- C27 refuted: the initial timestep is returned as given, also above `max_dt`; the first update can
then leave it above `max_dt` too (min_change 1/2 of 100 is 50). -/
theorem cfl_initial_refuted :
    returned { defaultCfl (100 : ℚ) with maxDt := fin 1, minChange := fin (1/2) } [(1, fin 1), (2, fin 1)] =
      [fin 100, fin 50] := by
  have h1 : (1 / 2 : ℚ) * 100 = 50 := by norm_num
  have h2 : |(50 : ℚ) - 100| = 50 := by norm_num [abs_of_neg]
  norm_num [returned, computeTimestep, target, defaultCfl, mul, recip, min3, max3, lt, Ext.abs, sub, h2]

/-- C27 refuted: with the default settings, one update at zero frequency (fluid at rest) makes the
timestep infinite, and it stays infinite at any later frequency (inf - dt is not greater than 0*inf,
which is nan). -/
theorem cfl_rest_refuted (f : Nat → ℚ) (hf : ∀ n, 0 < f n) (n : Nat) :
    returned (defaultCfl (1 : ℚ)) ((2, fin 0) :: (List.range n).map fun i => (i + 3, fin (f i))) =
      List.replicate (n + 1) inf := by
  have h0 : (computeTimestep (defaultCfl (1 : ℚ)) 2 (fin 0)) = { defaultCfl (1 : ℚ) with storedDt := inf } := by
    norm_num [computeTimestep, target, defaultCfl, mul, recip, min3, max3, lt, Ext.abs, sub]
  have h1 : ∀ it w, 0 < w → computeTimestep { defaultCfl (1 : ℚ) with storedDt := inf } it (fin w) =
      { defaultCfl (1 : ℚ) with storedDt := inf } := by
    intro it w hw
    unfold computeTimestep
    split
    · split
      · rfl
      · simp only
        split
        · next h =>
          exfalso
          revert h
          simp [defaultCfl, mul, lt]
        · rfl
    · rfl
  have h2 : ∀ l : List (Nat × Ext ℚ), (∀ p ∈ l, ∃ w, p.2 = fin w ∧ 0 < w) →
      returned { defaultCfl (1 : ℚ) with storedDt := inf } l = List.replicate l.length inf := by
    intro l
    induction l with
    | nil => intro _; rfl
    | cons p ps ih =>
      intro hp
      obtain ⟨w, hw, hw0⟩ := hp p (by simp)
      obtain ⟨it, x⟩ := p
      simp only at hw
      subst hw
      simp only [returned, h1 it w hw0]
      rw [ih (fun q hq => hp q (List.mem_cons_of_mem _ hq))]
      rfl
  simp only [returned, h0]
  rw [h2 _ (by
    intro p hp
    obtain ⟨i, _, rfl⟩ := List.mem_map.1 hp
    exact ⟨f i, rfl, hf i⟩)]
  simp [List.replicate_succ]

/-- Total frequency at one point. -/
theorem pointSums_spec (ds : List (List F)) (n : Nat) (hn : ∀ d ∈ ds, d.length = n) (hne : ds ≠ []) :
    ∃ s, pointSums ds = some s ∧ s.length = n ∧
      ∀ i (hi : i < n), s[i]? = some ((ds.map fun d => |(d[i]?).getD 0|).sum) := by
  cases ds with
  | nil => exact absurd rfl hne
  | cons d ds =>
    refine ⟨_, rfl, ?_⟩
    have hd := hn d (by simp)
    have : ∀ (es : List (List F)) (acc : List F), (∀ e ∈ es, e.length = n) → acc.length = n →
        (es.foldl (fun acc e => List.zipWith (fun a x => a + |x|) acc e) acc).length = n ∧
        ∀ i, i < n → (es.foldl (fun acc e => List.zipWith (fun a x => a + |x|) acc e) acc)[i]? =
          some ((acc[i]?).getD 0 + (es.map fun d => |(d[i]?).getD 0|).sum) := by
      intro es
      induction es with
      | nil =>
        intro acc _ hacc
        refine ⟨hacc, fun i hi => ?_⟩
        simp [List.getElem?_eq_getElem (hacc ▸ hi : i < acc.length)]
      | cons e es ih =>
        intro acc he hacc
        have hel := he e (by simp)
        obtain ⟨l1, l2⟩ := ih (List.zipWith (fun a x => a + |x|) acc e) (fun x hx => he x (List.mem_cons_of_mem _ hx))
          (by simp [hacc, hel])
        refine ⟨l1, fun i hi => ?_⟩
        simp only [List.foldl_cons]
        rw [l2 i hi]
        have ha : i < acc.length := hacc ▸ hi
        have hb : i < e.length := hel ▸ hi
        simp [List.getElem?_zipWith, List.getElem?_eq_getElem ha, List.getElem?_eq_getElem hb, add_assoc]
    obtain ⟨l1, l2⟩ := this ds (d.map fun x => |x|) (fun e he => hn e (List.mem_cons_of_mem _ he)) (by simp [hd])
    refine ⟨l1, fun i hi => ?_⟩
    rw [l2 i hi]
    have ha : i < d.length := hd ▸ hi
    simp [List.getElem?_eq_getElem ha]

/-- C27. The frequency used is the largest, over all grid points of all processes, of the sum over the
frequency fields of their absolute values. `n r` is the number of grid points of process `r`, some of
which may be 0. -/
theorem cfl_frequency (rank0 : List (List F)) (others : List (List (List F))) (hf : ∀ p ∈ rank0 :: others, p ≠ [])
    (hn : ∀ p ∈ rank0 :: others, ∃ n, ∀ d ∈ p, d.length = n)
    (hne : ∃ p ∈ rank0 :: others, ∃ d ∈ p, d ≠ []) :
    ∃ w, maxFreq rank0 others = some (fin w) ∧
      (∀ p ∈ rank0 :: others, ∀ i, (∀ d ∈ p, i < d.length) → (p.map fun d => |(d[i]?).getD 0|).sum ≤ w) ∧
      (∃ p ∈ rank0 :: others, ∃ i, (∀ d ∈ p, i < d.length) ∧ w = (p.map fun d => |(d[i]?).getD 0|).sum) := by
  have hps : ∀ p ∈ rank0 :: others, ∃ s, pointSums p = some s ∧ (∀ d ∈ p, d.length = s.length) ∧
      ∀ i, i < s.length → s[i]? = some ((p.map fun d => |(d[i]?).getD 0|).sum) := by
    intro p hp
    obtain ⟨n, h⟩ := hn p hp
    obtain ⟨s, h1, h2, h3⟩ := pointSums_spec p n h (hf p hp)
    exact ⟨s, h1, fun d hd => by rw [h d hd, h2], fun i hi => h3 i (h2 ▸ hi)⟩
  obtain ⟨s0, h0, h0l, h0v⟩ := hps rank0 (by simp)
  have hm : ∀ os : List (List (List F)), (∀ p ∈ os, p ∈ rank0 :: others) →
      ∃ ss, os.mapM pointSums = some ss ∧ List.Forall₂ (fun p s => pointSums p = some s) os ss := by
    intro os
    induction os with
    | nil => intro _; exact ⟨[], rfl, List.Forall₂.nil⟩
    | cons p ps ih =>
      intro h
      obtain ⟨s, hs, _⟩ := hps p (h p (by simp))
      obtain ⟨ss, hss, hf2⟩ := ih (fun q hq => h q (List.mem_cons_of_mem _ hq))
      refine ⟨s :: ss, ?_, List.Forall₂.cons hs hf2⟩
      rw [List.mapM_cons, hs, hss]
      rfl
  obtain ⟨ss, hss, hf2⟩ := hm others (fun p hp => List.mem_cons_of_mem _ hp)
  have hall : List.Forall₂ (fun p s => pointSums p = some s) (rank0 :: others) (s0 :: ss) := List.Forall₂.cons h0 hf2
  have hfwd : ∀ p ∈ rank0 :: others, ∃ s ∈ s0 :: ss, pointSums p = some s := by
    intro p hp
    obtain ⟨i, hi, rfl⟩ := List.mem_iff_getElem.1 hp
    have hl := hall.length_eq
    exact ⟨_, List.getElem_mem (hl ▸ hi), hall.get hi (hl ▸ hi)⟩
  have hbwd : ∀ s ∈ s0 :: ss, ∃ p ∈ rank0 :: others, pointSums p = some s := by
    intro s hs
    obtain ⟨i, hi, rfl⟩ := List.mem_iff_getElem.1 hs
    have hl := hall.length_eq
    exact ⟨_, List.getElem_mem (hl.symm ▸ hi), hall.get (hl.symm ▸ hi) hi⟩
  have hmf : maxFreq rank0 others = some (globalMax s0 ss) := by
    unfold maxFreq
    rw [h0, hss]
    rfl
  have hmem : ∀ y, y ∈ s0 ++ ss.flatten ↔ ∃ s ∈ s0 :: ss, y ∈ s := by
    intro y; simp
  rcases globalMax_isMaxOf s0 ss with ⟨h, _⟩ | ⟨w, hw, hw1, hw2⟩
  · exfalso
    obtain ⟨p, hp, d, hd, hdne⟩ := hne
    obtain ⟨s, hs, hps'⟩ := hfwd p hp
    obtain ⟨s', hs', hl', _⟩ := hps p hp
    rw [hps'] at hs'; cases hs'
    have : s ≠ [] := by
      intro h'
      have := hl' d hd
      rw [h'] at this
      exact hdne (List.length_eq_zero_iff.1 this)
    obtain ⟨y, hy⟩ := List.exists_mem_of_ne_nil s this
    have := (hmem y).2 ⟨s, hs, hy⟩
    rw [h] at this
    cases this
  · refine ⟨w, by rw [hmf, hw], ?_, ?_⟩
    · intro p hp i hi
      obtain ⟨s, hs, hps'⟩ := hfwd p hp
      obtain ⟨s', hs', hl', hv'⟩ := hps p hp
      rw [hps'] at hs'; cases hs'
      obtain ⟨d, hd⟩ := List.exists_mem_of_ne_nil p (hf p hp)
      have hil : i < s.length := by rw [← hl' d hd]; exact hi d hd
      have := hv' i hil
      exact hw2 _ ((hmem _).2 ⟨s, hs, List.mem_iff_getElem?.2 ⟨i, this⟩⟩)
    · obtain ⟨s, hs, hws⟩ := (hmem w).1 hw1
      obtain ⟨p, hp, hps'⟩ := hbwd s hs
      obtain ⟨s', hs', hl', hv'⟩ := hps p hp
      rw [hps'] at hs'; cases hs'
      obtain ⟨i, hi, hwi⟩ := List.mem_iff_getElem.1 hws
      refine ⟨p, hp, i, fun d hd => by rw [hl' d hd]; exact hi, ?_⟩
      have := hv' i hi
      rw [List.getElem?_eq_getElem hi, hwi] at this
      exact Option.some.inj this

example : ∃ w, maxFreq [[(1 : ℚ), -2], [3, 0]] [[[], []], [[-1], [5]]] = some (fin w) ∧ 6 ≤ w := by
  obtain ⟨w, h1, h2, _⟩ := cfl_frequency [[(1 : ℚ), -2], [3, 0]] [[[], []], [[-1], [5]]] (by simp)
    (by
      intro p hp
      simp only [List.mem_cons, List.not_mem_nil, or_false] at hp
      rcases hp with rfl | rfl | rfl
      · exact ⟨2, by simp⟩
      · exact ⟨0, by simp⟩
      · exact ⟨1, by simp⟩)
    ⟨[[1, -2], [3, 0]], by simp, [1, -2], by simp, by simp⟩
  refine ⟨w, h1, ?_⟩
  have := h2 [[-1], [5]] (by simp) 0 (by simp)
  norm_num [abs_of_neg] at this
  exact this

/-- Without any frequency the tool cannot be used: the sum is not an array. -/
theorem cfl_no_frequencies (others : List (List (List F))) : maxFreq ([] : List (List F)) others = none := rfl

end Dedalus.Flow
