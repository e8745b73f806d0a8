import Verif.Sched.Model
import Mathlib.Tactic.Linarith
import Mathlib.Tactic.FieldSimp
import Mathlib.Tactic.Ring
import Mathlib.Tactic.NormNum
import Mathlib.Tactic.Positivity

namespace Dedalus.Sched
variable {F : Type} [Field F] [LinearOrder F] [IsStrictOrderedRing F] [FloorRing F]

theorem npRound_near (x : F) : |x - npRound x| ≤ 1 / 2 := by
  have h1 := Int.floor_le x
  have h2 := Int.lt_floor_add_one x
  unfold npRound
  simp only
  split
  · rw [abs_le]; constructor <;> linarith
  · split
    · push_cast; rw [abs_le]; constructor <;> linarith
    · split
      · rw [abs_le]; constructor <;> linarith
      · push_cast; rw [abs_le]; constructor <;> linarith

/-- Within half a unit of `m`, rounding gives `m`. -/
theorem npRound_eq (x : F) (m : Int) (h : |x - m| < 1 / 2) : npRound x = m := by
  have h1 := npRound_near x
  rw [abs_lt] at h
  rw [abs_le] at h1
  have h2 : (npRound x : F) < m + 1 := by linarith
  have h3 : (m : F) < npRound x + 1 := by linarith
  have h2' : npRound x < m + 1 := by exact_mod_cast h2
  have h3' : m < npRound x + 1 := by exact_mod_cast h3
  omega

theorem npRound_int (m : Int) : npRound (m : F) = m := npRound_eq _ _ (by simp)

/-- rounding below -/
theorem npRound_le (x : F) (m : Int) (h : x < m + 1 / 2) : npRound x ≤ m := by
  have h1 := npRound_near x
  rw [abs_le] at h1
  have h2 : (npRound x : F) < m + 1 := by linarith
  have h2' : npRound x < m + 1 := by exact_mod_cast h2
  omega

theorem checkSchedule_eq (c : Cadence F) (s : Divs) (a : Args F) :
    checkSchedule c s a = ((checkWall c.wallDt s.wall a).1 || (checkSim c.simDt s.sim a).1 ||
      (checkIter c.iter s.iter a).1 || (match c.custom with
        | none => false
        | some f => f a.iteration a.wallTime a.simTime a.timestep),
      ⟨(checkWall c.wallDt s.wall a).2, (checkSim c.simDt s.sim a).2, (checkIter c.iter s.iter a).2⟩) := by
  unfold checkSchedule
  simp only
  congr 1
  generalize (checkWall c.wallDt s.wall a).1 = x
  generalize (checkSim c.simDt s.sim a).1 = y
  generalize (checkIter c.iter s.iter a).1 = z
  cases c.custom with
  | none => cases x <;> cases y <;> cases z <;> rfl
  | some f =>
    simp only
    generalize f a.iteration a.wallTime a.simTime a.timestep = u
    cases x <;> cases y <;> cases z <;> cases u <;> rfl

/-- Generic "new maximum" counter. -/
theorem counter_facts (q : Nat → Int) (hq : ∀ k, 0 ≤ q k) (d : Nat → Int) (fired : Nat → Bool)
    (h0 : d 0 = -1) (hs : ∀ k, (if q k > d k then (true, q k) else (false, d k)) = (fired k, d (k + 1))) :
    (∀ k, d k ≤ d (k + 1)) ∧ (∀ k, fired k = true ↔ d k < q k) ∧ (∀ k, q k ≤ d (k + 1)) ∧
    (∀ k, d (k + 1) = max (d k) (q k)) ∧ fired 0 = true := by
  have hst : ∀ k, fired k = decide (d k < q k) ∧ d (k + 1) = max (d k) (q k) := by
    intro k
    have := hs k
    by_cases h : q k > d k
    · rw [if_pos h] at this
      injection this with a b
      exact ⟨by rw [← a]; simp; omega, by omega⟩
    · rw [if_neg h] at this
      injection this with a b
      exact ⟨by rw [← a]; simp; omega, by omega⟩
  refine ⟨fun k => by rw [(hst k).2]; omega, fun k => by rw [(hst k).1]; simp, fun k => by rw [(hst k).2]; omega,
    fun k => (hst k).2, ?_⟩
  rw [(hst 0).1, h0]; simp; have := hq 0; omega

theorem mono_le (d : Nat → Int) (h : ∀ k, d k ≤ d (k + 1)) {j k : Nat} (hjk : j ≤ k) : d j ≤ d k := by
  induction k with
  | zero => have : j = 0 := by omega
            subst this; omega
  | succ k ih =>
    by_cases hj : j = k + 1
    · subst hj; omega
    · have := ih (by omega); have := h k; omega

end Dedalus.Sched
