import Verif.Sched.Lemmas
import Mathlib.Data.Rat.Floor

/-!
# C14, C15: output cadences
-/

namespace Dedalus.Sched
variable {F : Type} [Field F] [LinearOrder F] [IsStrictOrderedRing F] [FloorRing F]

/-- Specification: the checks of one handler over a run. `a k` are the arguments of check `k`, `d k` the
handler's counters before it and `fired k` its result. -/
structure Checks (c : Cadence F) (a : Nat → Args F) (d : Nat → Divs) (fired : Nat → Bool) : Prop where
  start : d 0 = {}
  step : ∀ k, checkSchedule c (d k) (a k) = (fired k, d (k + 1))

/-- Every run of checks exists (the checks are total). -/
theorem checks_exist (c : Cadence F) (a : Nat → Args F) : ∃ d fired, Checks c a d fired := by
  let d : Nat → Divs := fun n => Nat.rec {} (fun k s => (checkSchedule c s (a k)).2) n
  exact ⟨d, fun k => (checkSchedule c (d k) (a k)).1, rfl, fun k => rfl⟩

/-- Criteria do not disturb one another: a handler with several criteria fires exactly when at
least one of them, run alone on the same checks, fires (custom schedules included). -/
theorem criteria_independent (c : Cadence F) (a : Nat → Args F) (d : Nat → Divs) (fired : Nat → Bool)
    (h : Checks c a d fired)
    (dw : Nat → Divs) (fw : Nat → Bool) (hw : Checks { wallDt := c.wallDt } a dw fw)
    (ds : Nat → Divs) (fs : Nat → Bool) (hs : Checks { simDt := c.simDt } a ds fs)
    (di : Nat → Divs) (fi : Nat → Bool) (hi : Checks { iter := c.iter } a di fi) (k : Nat) :
    fired k = (fw k || fs k || fi k || (match c.custom with
      | none => false
      | some f => f (a k).iteration (a k).wallTime (a k).simTime (a k).timestep)) := by
  have key : ∀ k, (d k).wall = (dw k).wall ∧ (d k).sim = (ds k).sim ∧ (d k).iter = (di k).iter := by
    intro k
    induction k with
    | zero => rw [h.start, hw.start, hs.start, hi.start]; exact ⟨rfl, rfl, rfl⟩
    | succ k ih =>
      have e := congrArg Prod.snd (h.step k)
      have ew := congrArg Prod.snd (hw.step k)
      have es := congrArg Prod.snd (hs.step k)
      have ei := congrArg Prod.snd (hi.step k)
      rw [checkSchedule_eq] at e ew es ei
      simp only at e ew es ei
      rw [← e, ← ew, ← es, ← ei]
      simp only [ih.1, ih.2.1, ih.2.2, and_self]
  obtain ⟨k1, k2, k3⟩ := key k
  have e := congrArg Prod.fst (h.step k)
  have ew := congrArg Prod.fst (hw.step k)
  have es := congrArg Prod.fst (hs.step k)
  have ei := congrArg Prod.fst (hi.step k)
  rw [checkSchedule_eq] at e ew es ei
  simp only [checkWall, checkSim, checkIter, Bool.or_false, Bool.false_or] at ew es ei
  simp only at e
  rw [← e, ← ew, ← es, ← ei, k1, k2, k3]
  rfl

/-- C14. Iteration cadence `n`: the first check fires; afterwards a check fires exactly when the
number of completed cadences `iteration / n` exceeds that of every earlier check, so never twice
for the same multiple. -/
theorem iter_cadence (n : Nat) (hn : 0 < n) (a : Nat → Args F) (d : Nat → Divs) (fired : Nat → Bool)
    (h : Checks { iter := some n } a d fired) :
    fired 0 = true ∧
    (∀ k, fired k = true ↔ ∀ j, j < k → (a j).iteration / n < (a k).iteration / n) ∧
    (∀ j k, j < k → fired j = true → fired k = true → (a j).iteration / n < (a k).iteration / n) := by
  have hs : ∀ k, (if ((((a k).iteration / n : Nat) : Int)) > (d k).iter then (true, ((((a k).iteration / n : Nat) : Int)))
      else (false, (d k).iter)) = (fired k, (d (k + 1)).iter) := by
    intro k
    have := h.step k
    rw [checkSchedule_eq] at this
    simp only [checkWall, checkSim, checkIter, Bool.or_false, Bool.false_or, if_neg (by omega : ¬ n = 0)] at this
    have e1 := congrArg Prod.fst this
    have e2 := congrArg (fun p => p.2.iter) this
    exact Prod.ext e1 e2
  obtain ⟨h1, h2, h3, h4, h5⟩ := counter_facts (fun k => (((a k).iteration / n : Nat) : Int)) (fun k => by positivity)
    (fun k => (d k).iter) fired (by rw [h.start]) hs
  have hup : ∀ j k, j < k → (((a j).iteration / n : Nat) : Int) ≤ (d k).iter := by
    intro j k hjk
    have := mono_le _ h1 (show j + 1 ≤ k from hjk)
    exact le_trans (h3 j) this
  have hlow : ∀ k, (d k).iter = -1 ∨ ∃ j, j < k ∧ (d k).iter = (((a j).iteration / n : Nat) : Int) := by
    intro k
    induction k with
    | zero => left; rw [h.start]
    | succ k ih =>
      have e := h4 k
      rcases max_choice (d k).iter (((a k).iteration / n : Nat) : Int) with hm | hm
      · rw [hm] at e
        rcases ih with ih | ⟨j, hj, ih⟩
        · left; omega
        · right; exact ⟨j, by omega, by omega⟩
      · rw [hm] at e
        right; exact ⟨k, by omega, e⟩
  refine ⟨h5, ?_, ?_⟩
  · intro k
    rw [h2 k]
    constructor
    · intro hk j hj
      have := hup j k hj
      have := lt_of_le_of_lt this hk
      exact_mod_cast this
    · intro hk
      rcases hlow k with h0 | ⟨j, hj, h0⟩
      · rw [h0]; have : (0:Int) ≤ (((a k).iteration / n : Nat) : Int) := by positivity
        omega
      · rw [h0]; exact_mod_cast hk j hj
  · intro j k hjk _ hk
    have := lt_of_le_of_lt (hup j k hjk) ((h2 k).1 hk)
    exact_mod_cast this

/-- C14. With consecutive iterations from 0 a cadence of `n` fires exactly at the multiples of `n`. -/
theorem iter_cadence_consecutive (n : Nat) (hn : 0 < n) (a : Nat → Args F) (d : Nat → Divs)
    (fired : Nat → Bool) (h : Checks { iter := some n } a d fired) (ha : ∀ k, (a k).iteration = k) (k : Nat) :
    fired k = true ↔ n ∣ k := by
  rw [(iter_cadence n hn a d fired h).2.1 k]
  simp only [ha]
  constructor
  · intro hk
    by_cases h0 : k = 0
    · subst h0; exact dvd_zero n
    · have := hk (k - 1) (by omega)
      have h1 := Nat.div_add_mod k n
      have h2 := Nat.div_add_mod (k - 1) n
      have h3 := Nat.mod_lt (k - 1) hn
      have h4 := Nat.mod_lt k hn
      by_contra hd
      have h5 : 0 < k % n := Nat.pos_of_ne_zero (fun hh => hd (Nat.dvd_of_mod_eq_zero hh))
      have : k / n ≤ (k - 1) / n := by
        rw [Nat.le_div_iff_mul_le hn, Nat.mul_comm]; omega
      omega
  · rintro ⟨m, rfl⟩ j hj
    rw [Nat.mul_div_cancel_left m hn]
    exact (Nat.div_lt_iff_lt_mul hn).2 (by rw [Nat.mul_comm]; exact hj)

/-- C14. Wall-time cadence `w`: for non-negative wall times the first check fires, and a check
fires exactly when it is in a later interval `[m w, (m+1) w)` than every earlier check. -/
theorem wall_cadence (w : F) (hw : 0 < w) (a : Nat → Args F) (d : Nat → Divs) (fired : Nat → Bool)
    (h : Checks { wallDt := some w } a d fired) (hpos : ∀ k, 0 ≤ (a k).wallTime) :
    fired 0 = true ∧
    (∀ k, fired k = true ↔ ∀ j, j < k → ∃ m : Int, (a j).wallTime < m * w ∧ m * w ≤ (a k).wallTime) := by
  have hs : ∀ k, (if ⌊(a k).wallTime / w⌋ > (d k).wall then (true, ⌊(a k).wallTime / w⌋)
      else (false, (d k).wall)) = (fired k, (d (k + 1)).wall) := by
    intro k
    have := h.step k
    rw [checkSchedule_eq] at this
    simp only [checkWall, checkSim, checkIter, Bool.or_false, if_neg hw.ne'] at this
    have e1 := congrArg Prod.fst this
    have e2 := congrArg (fun p => p.2.wall) this
    exact Prod.ext e1 e2
  obtain ⟨h1, h2, h3, h4, h5⟩ := counter_facts (fun k => ⌊(a k).wallTime / w⌋)
    (fun k => Int.floor_nonneg.2 (div_nonneg (hpos k) hw.le)) (fun k => (d k).wall) fired (by rw [h.start]) hs
  have hup : ∀ j k, j < k → ⌊(a j).wallTime / w⌋ ≤ (d k).wall := by
    intro j k hjk
    exact le_trans (h3 j) (mono_le _ h1 (show j + 1 ≤ k from hjk))
  have hlow : ∀ k, (d k).wall = -1 ∨ ∃ j, j < k ∧ (d k).wall = ⌊(a j).wallTime / w⌋ := by
    intro k
    induction k with
    | zero => left; rw [h.start]
    | succ k ih =>
      have e := h4 k
      rcases max_choice (d k).wall ⌊(a k).wallTime / w⌋ with hm | hm
      · rw [hm] at e
        rcases ih with ih | ⟨j, hj, ih⟩
        · left; omega
        · right; exact ⟨j, by omega, by omega⟩
      · rw [hm] at e
        right; exact ⟨k, by omega, e⟩
  have hcmp : ∀ j k, (⌊(a j).wallTime / w⌋ < ⌊(a k).wallTime / w⌋) ↔
      ∃ m : Int, (a j).wallTime < m * w ∧ m * w ≤ (a k).wallTime := by
    intro j k
    constructor
    · intro hlt
      refine ⟨⌊(a k).wallTime / w⌋, ?_, ?_⟩
      · rw [← div_lt_iff₀ hw]
        exact Int.floor_lt.1 hlt
      · rw [← le_div_iff₀ hw]; exact Int.floor_le _
    · rintro ⟨m, m1, m2⟩
      rw [← div_lt_iff₀ hw] at m1
      rw [← le_div_iff₀ hw] at m2
      exact lt_of_lt_of_le (Int.floor_lt.2 m1) (Int.le_floor.2 m2)
  refine ⟨h5, ?_⟩
  intro k
  rw [h2 k]
  constructor
  · intro hk j hj
    exact (hcmp j k).1 (lt_of_le_of_lt (hup j k hj) hk)
  · intro hk
    rcases hlow k with h0 | ⟨j, hj, h0⟩
    · rw [h0]
      have := Int.floor_nonneg.2 (div_nonneg (hpos k) hw.le)
      show (-1 : Int) < ⌊(a k).wallTime / w⌋
      omega
    · rw [h0]; exact (hcmp j k).2 (hk j hj)

/-- The output target (multiple of the cadence) nearest to a time. -/
abbrev target (s t : F) : Int := npRound (t / s)

theorem sim_step (s : F) (hs : s ≠ 0) (a : Nat → Args F) (d : Nat → Divs) (fired : Nat → Bool)
    (h : Checks { simDt := some s } a d fired) (k : Nat) :
    (fired k = true ↔ (d k).sim < target s (a k).simTime ∧
      |(a k).simTime - target s (a k).simTime * s| < |(a k).simTime + (a k).timestep - target s (a k).simTime * s|) ∧
    (d (k + 1)).sim = if fired k = true then target s (a k).simTime else (d k).sim := by
  have := h.step k
  rw [checkSchedule_eq] at this
  simp only [checkWall, checkSim, checkIter, Bool.or_false, Bool.false_or, if_neg hs] at this
  have e1 := congrArg Prod.fst this
  have e2 := congrArg (fun p => p.2.sim) this
  simp only at e1 e2
  unfold target
  by_cases h1 : npRound ((a k).simTime / s) > (d k).sim
  · rw [if_pos h1] at e1 e2
    by_cases h2 : |(a k).simTime - npRound ((a k).simTime / s) * s| <
      |(a k).simTime + (a k).timestep - npRound ((a k).simTime / s) * s|
    · rw [if_pos h2] at e1 e2
      rw [← e1, ← e2]; exact ⟨⟨fun _ => ⟨h1, h2⟩, fun _ => rfl⟩, by simp⟩
    · rw [if_neg h2] at e1 e2
      rw [← e1, ← e2]; exact ⟨⟨fun hh => by simp at hh, fun hh => absurd hh.2 h2⟩, by simp⟩
  · rw [if_neg h1] at e1 e2
    rw [← e1, ← e2]; exact ⟨⟨fun hh => by simp at hh, fun hh => absurd hh.1 h1⟩, by simp⟩

theorem sim_mono (s : F) (hs : s ≠ 0) (a : Nat → Args F) (d : Nat → Divs) (fired : Nat → Bool)
    (h : Checks { simDt := some s } a d fired) (k : Nat) : (d k).sim ≤ (d (k + 1)).sim := by
  obtain ⟨h1, h2⟩ := sim_step s hs a d fired h k
  rw [h2]
  split
  · rename_i hf; exact le_of_lt (h1.1 hf).1
  · exact le_refl _

/-- C15. Each output target fires at most once, targets fire in increasing order, the target is the
multiple of the cadence nearest to the current time, and the next time is strictly farther from it. -/
theorem sim_cadence_ordered (s : F) (hs : 0 < s) (a : Nat → Args F) (d : Nat → Divs) (fired : Nat → Bool)
    (h : Checks { simDt := some s } a d fired) :
    (∀ j k, j < k → fired j = true → fired k = true →
      target s (a j).simTime < target s (a k).simTime) ∧
    (∀ k, |(a k).simTime - target s (a k).simTime * s| ≤ s / 2) ∧
    (∀ k, fired k = true → |(a k).simTime - target s (a k).simTime * s| <
      |(a k).simTime + (a k).timestep - target s (a k).simTime * s|) := by
  refine ⟨?_, ?_, ?_⟩
  · intro j k hjk hj hk
    have h1 := (sim_step s hs.ne' a d fired h j).2
    rw [if_pos hj] at h1
    have h2 := ((sim_step s hs.ne' a d fired h k).1.1 hk).1
    have h3 := mono_le (fun k => (d k).sim) (sim_mono s hs.ne' a d fired h) (show j + 1 ≤ k from hjk)
    omega
  · intro k
    have := npRound_near ((a k).simTime / s)
    have e : (a k).simTime - (npRound ((a k).simTime / s) : F) * s = ((a k).simTime / s - npRound ((a k).simTime / s)) * s := by
      field_simp
    rw [e, abs_mul, abs_of_pos hs]
    have := mul_le_mul_of_nonneg_right this hs.le
    linarith
  · intro k hk
    exact ((sim_step s hs.ne' a d fired h k).1.1 hk).2

/-- C15. No target is missed. In a run whose time advances by the announced timesteps, all positive
and smaller than the cadence, every target `m ≥ 0` passed by the run (some time is not after it and a
later time is after it) fires exactly once, at a time nearest to the
target among all times of the run. -/
theorem sim_cadence_no_miss (s : F) (hs : 0 < s) (a : Nat → Args F) (d : Nat → Divs) (fired : Nat → Bool)
    (h : Checks { simDt := some s } a d fired)
    (hadv : ∀ k, (a (k + 1)).simTime = (a k).simTime + (a k).timestep)
    (hdt : ∀ k, 0 < (a k).timestep ∧ (a k).timestep < s)
    (m : Int) (hm : 0 ≤ m) (h0 : (a 0).simTime ≤ m * s) (n : Nat) (hn : m * s < (a n).simTime) :
    ∃ k, k ≤ n ∧ fired k = true ∧ target s (a k).simTime = m ∧
      (∀ j, |(a k).simTime - m * s| ≤ |(a j).simTime - m * s|) ∧
      (∀ j, fired j = true → target s (a j).simTime = m → j = k) := by
  have hmono : ∀ j k, j ≤ k → (a j).simTime ≤ (a k).simTime := by
    intro j k hjk
    induction k with
    | zero => have : j = 0 := by omega
              subst this; exact le_refl _
    | succ k ih =>
      by_cases hj : j = k + 1
      · subst hj; exact le_refl _
      · have := ih (by omega); have := hadv k; have := (hdt k).1; linarith
  -- last index not after the target
  obtain ⟨p, hpn, hp1, hp2⟩ : ∃ p, p + 1 ≤ n ∧ (a p).simTime ≤ m * s ∧ m * s < (a (p + 1)).simTime := by
    induction n with
    | zero => exact absurd hn (not_lt.2 h0)
    | succ n ih =>
      by_cases hc : m * s < (a n).simTime
      · obtain ⟨p, h1, h2, h3⟩ := ih hc
        exact ⟨p, by omega, h2, h3⟩
      · exact ⟨n, by omega, not_lt.1 hc, hn⟩
  have hd := (hdt p).2
  have hadvp := hadv p
  have hround : ∀ k, |(a k).simTime - m * s| < s / 2 → target s (a k).simTime = m := by
    intro k hk
    apply npRound_eq
    have e : (a k).simTime / s - (m : F) = ((a k).simTime - m * s) / s := by field_simp
    rw [e, abs_div, abs_of_pos hs, div_lt_iff₀ hs]
    linarith
  -- counters before k stay below m unless m has fired
  have hlow : ∀ k, (∀ j, j < k → target s (a j).simTime ≤ m) → (∀ j, j < k → fired j = true → target s (a j).simTime ≠ m) →
      (d k).sim < m := by
    intro k
    induction k with
    | zero => intro _ _; rw [h.start]; show (-1 : Int) < m; omega
    | succ k ih =>
      intro h1 h2
      rw [(sim_step s hs.ne' a d fired h k).2]
      split
      · rename_i hf
        exact lt_of_le_of_ne (h1 k (by omega)) (h2 k (by omega) hf)
      · exact ih (fun j hj => h1 j (by omega)) (fun j hj => h2 j (by omega))
  have hle : ∀ j, (a j).simTime < m * s + s / 2 → target s (a j).simTime ≤ m := by
    intro j hj
    apply npRound_le
    rw [div_lt_iff₀ hs]
    linarith
  -- a check strictly before p, or p when p + 1 is nearer, does not fire for m
  have hno : ∀ j, (a (j + 1)).simTime ≤ m * s → fired j = true → target s (a j).simTime ≠ m := by
    intro j hj hf ht
    have := ((sim_step s hs.ne' a d fired h j).1.1 hf).2
    rw [ht, ← hadv j] at this
    have h1 := (hdt j).1
    have h2 := hadv j
    rw [abs_of_nonpos (by linarith), abs_of_nonpos (by linarith)] at this
    linarith
  have huniq : ∀ k, fired k = true → target s (a k).simTime = m →
      ∀ j, fired j = true → target s (a j).simTime = m → j = k := by
    intro k hk1 hk2 j hj1 hj2
    rcases lt_trichotomy j k with hlt | heq | hgt
    · have := (sim_cadence_ordered s hs a d fired h).1 j k hlt hj1 hk1
      omega
    · exact heq
    · have := (sim_cadence_ordered s hs a d fired h).1 k j hgt hk1 hj1
      omega
  have hbef : ∀ j, j < p → (a (j + 1)).simTime ≤ m * s := by
    intro j hj; exact le_trans (hmono (j + 1) p (by omega)) hp1
  by_cases hc : m * s - (a p).simTime < (a (p + 1)).simTime - m * s
  · -- p is nearest
    have habs : |(a p).simTime - m * s| = m * s - (a p).simTime := by
      rw [abs_of_nonpos (by linarith)]; ring
    have ht : target s (a p).simTime = m := hround p (by rw [habs]; linarith)
    have hf : fired p = true := by
      rw [(sim_step s hs.ne' a d fired h p).1, ht]
      refine ⟨hlow p (fun j hj => hle j ?_) (fun j hj => hno j (hbef j hj)), ?_⟩
      · have := hmono j p (by omega); linarith
      · rw [habs, ← hadvp, abs_of_pos (by linarith)]; exact hc
    refine ⟨p, by omega, hf, ht, ?_, huniq p hf ht⟩
    intro j
    rw [habs]
    by_cases hj : j ≤ p
    · have := hmono j p hj
      rw [abs_of_nonpos (by linarith)]; linarith
    · have := hmono (p + 1) j (by omega)
      rw [abs_of_pos (by linarith)]; linarith
  · -- p + 1 is nearest
    have hc := not_lt.1 hc
    have habs : |(a (p + 1)).simTime - m * s| = (a (p + 1)).simTime - m * s := abs_of_pos (by linarith)
    have ht : target s (a (p + 1)).simTime = m := hround (p + 1) (by rw [habs]; linarith)
    have hf : fired (p + 1) = true := by
      rw [(sim_step s hs.ne' a d fired h (p + 1)).1, ht]
      refine ⟨hlow (p + 1) (fun j hj => hle j ?_) (fun j hj => ?_), ?_⟩
      · have := hmono j p (by omega); linarith
      · by_cases hjp : j = p
        · subst hjp
          intro hfj htj
          have := ((sim_step s hs.ne' a d fired h j).1.1 hfj).2
          rw [htj, ← hadvp, habs, abs_of_nonpos (by linarith)] at this
          linarith
        · exact hno j (hbef j (by omega))
      · have h1 := (hdt (p + 1)).1
        rw [habs, abs_of_pos (by linarith)]
        linarith
    refine ⟨p + 1, by omega, hf, ht, ?_, huniq (p + 1) hf ht⟩
    intro j
    rw [habs]
    by_cases hj : j ≤ p
    · have := hmono j p hj
      rw [abs_of_nonpos (by linarith)]; linarith
    · have := hmono (p + 1) j (by omega)
      rw [abs_of_pos (by linarith)]; linarith

/-- C15: "the first check always fires" (evaluator.py L240) is false for a simulation-time cadence:
start at time 6 with cadence 10 and timestep 1. -/
theorem sim_cadence_first_fires_refuted :
    (checkSchedule (F := ℚ) { simDt := some 10 } {} ⟨0, 0, 6, 1⟩).1 = false := by
  rw [checkSchedule_eq]
  have : npRound ((6:ℚ) / 10) = 1 := npRound_eq _ _ (by norm_num [abs_lt])
  simp [checkWall, checkSim, checkIter, this]
  norm_num

/-- C15: targets at negative times are never written: a run from time -5 to -3 with cadence 1. -/
theorem sim_cadence_negative_refuted :
    ∃ a : Nat → Args ℚ, (∀ k, (a (k + 1)).simTime = (a k).simTime + (a k).timestep) ∧
      (∀ k, 0 < (a k).timestep ∧ (a k).timestep < 1) ∧ (a 0).simTime ≤ (-4 : Int) * 1 ∧ (-4 : Int) * 1 < (a 4).simTime ∧
      ∀ d fired, Checks { simDt := some (1:ℚ) } a d fired → ∀ k, k ≤ 4 → fired k = false := by
  refine ⟨fun k => ⟨k, 0, -5 + k / 2, 1 / 2⟩, ?_, ?_, ?_, ?_, ?_⟩
  · intro k; push_cast; ring
  · intro k; norm_num
  · norm_num
  · norm_num
  · intro d fired h k hk
    have hd : ∀ k, -1 ≤ (d k).sim := by
      intro k
      have := mono_le (fun k => (d k).sim) (sim_mono (1:ℚ) one_ne_zero _ d fired h) (Nat.zero_le k)
      simpa [h.start] using this
    by_contra hf
    have hf : fired k = true := by simpa using hf
    have h1 := ((sim_step (1:ℚ) one_ne_zero _ d fired h k).1.1 hf).1
    have h2 : target (1:ℚ) (-5 + (k:ℚ) / 2) ≤ -1 := by
      apply npRound_le
      have : (k:ℚ) ≤ 4 := by exact_mod_cast hk
      norm_num; linarith
    have := hd k
    simp only at h1
    omega

/-- C15, what holds of the first check: it fires when the run starts on a target that is not
negative, with a nonzero timestep. Missing: other start times, see the refutation above. -/
theorem sim_cadence_first_fires_partial (s : F) (hs : 0 < s) (m : Int) (hm : 0 ≤ m) (a : Args F)
    (ht : a.simTime = m * s) (hdt : a.timestep ≠ 0) :
    (checkSchedule { simDt := some s } {} a).1 = true := by
  rw [checkSchedule_eq]
  have : npRound (a.simTime / s) = m := by
    rw [ht, mul_div_assoc, div_self hs.ne', mul_one]; exact npRound_int m
  simp only [checkWall, checkSim, checkIter, if_neg hs.ne', this, Bool.or_false, Bool.false_or]
  rw [if_pos (by omega), if_pos]
  rw [ht, sub_self, abs_zero, add_sub_cancel_left]
  exact abs_pos.2 hdt

-- The hypotheses of the iteration and wall-time theorems are met by consecutive iterations.
example : ∃ (a : Nat → Args ℚ) (d : Nat → Divs) (fired : Nat → Bool), Checks { iter := some 3 } a d fired ∧
    ∀ k, (a k).iteration = k := by
  obtain ⟨d, fired, h⟩ := checks_exist (F := ℚ) { iter := some 3 } (fun k => ⟨k, k / 7, k, 1⟩)
  exact ⟨_, d, fired, h, fun _ => rfl⟩

example : ∃ (a : Nat → Args ℚ) (d : Nat → Divs) (fired : Nat → Bool), Checks { wallDt := some (2:ℚ) } a d fired ∧
    ∀ k, 0 ≤ (a k).wallTime := by
  obtain ⟨d, fired, h⟩ := checks_exist (F := ℚ) { wallDt := some (2:ℚ) } (fun k => ⟨k, k / 7, k, 1⟩)
  exact ⟨_, d, fired, h, fun k => by positivity⟩

-- The hypotheses of `sim_cadence_no_miss` are met: cadence 1, timestep 3/10, target 2.
example : ∃ (a : Nat → Args ℚ) (d : Nat → Divs) (fired : Nat → Bool), Checks { simDt := some (1:ℚ) } a d fired ∧
    (∀ k, (a (k + 1)).simTime = (a k).simTime + (a k).timestep) ∧
    (∀ k, 0 < (a k).timestep ∧ (a k).timestep < 1) ∧ (a 0).simTime ≤ (2 : Int) * 1 ∧ (2 : Int) * 1 < (a 7).simTime := by
  obtain ⟨d, fired, h⟩ := checks_exist (F := ℚ) { simDt := some 1 } (fun k => ⟨k, 0, k * (3 / 10), 3 / 10⟩)
  refine ⟨_, d, fired, h, ?_, ?_, ?_, ?_⟩
  · intro k; push_cast; ring
  · intro k; norm_num
  · norm_num
  · norm_num

end Dedalus.Sched
