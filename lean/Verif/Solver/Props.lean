import Verif.Solver.Lemmas
import Verif.Sched.Props

/-!
# Properties C29, C47, C51: main loop, clock and forces of initial value solvers
-/

namespace Dedalus.Solver

open Finset

variable {F : Type} [Field F] [LinearOrder F]

/-- C29. The loop proceeds exactly while no criterion is met. -/
theorem proceed_iff (s : IVP F) (wall : F) :
    proceed s wall = true ↔ ¬ StopMet s.stopSim s.stopWall s.stopIter s.simTime wall s.iteration :=
  proceed_eq s wall

/-- C29. Without any criterion `evolve` raises ValueError and does nothing. -/
theorem evolve_needs_criterion (env : Env F) (fuel : Nat) (s : IVP F) (h1 : s.stopSim = none)
    (h2 : s.stopWall = none) (h3 : s.stopIter = none) :
    evolve env fuel s = some (.error .valueError, s, 0) := by
  simp [evolve, h1, h2, h3]

theorem evolve_loop (env : Env F) (fuel : Nat) (s s' : IVP F) (r : Except Exc Unit) (k : Nat)
    (hc : s.stopSim ≠ none ∨ s.stopWall ≠ none ∨ s.stopIter ≠ none)
    (h : evolve env fuel s = some (r, s', k)) :
    ∃ r', loop env fuel 0 s = some (r', s', k) ∧
      ((logStats s' = .ok () ∧ r = r') ∨ (logStats s' ≠ .ok () ∧ r = .error .attributeError)) := by
  unfold evolve at h
  rw [if_neg (by rcases hc with hc | hc | hc <;> simp [Option.isNone_iff_eq_none, hc])] at h
  cases hl : loop env fuel 0 s with
  | none => rw [hl] at h; simp at h
  | some p =>
    obtain ⟨r', s1, k1⟩ := p
    rw [hl] at h
    simp only at h
    cases hs : logStats s1 with
    | error e =>
      rw [hs] at h
      simp only [Option.some.injEq, Prod.mk.injEq] at h
      obtain ⟨rfl, rfl, rfl⟩ := h
      have hne : logStats s1 ≠ .ok () := by rw [hs]; simp
      have := logStats_err s1 hne
      exact ⟨r', rfl, Or.inr ⟨hne, by rw [hs] at this; simpa using this⟩⟩
    | ok u =>
      rw [hs] at h
      simp only [Option.some.injEq, Prod.mk.injEq] at h
      obtain ⟨rfl, rfl, rfl⟩ := h
      exact ⟨r', rfl, Or.inl ⟨hs, rfl⟩⟩

/-- C29, C47. Whatever the outcome of `evolve`, if it made `k` steps then each of the `k` timesteps was
supplied by the timestep function and finite, no criterion was met before any of the steps, the
clock advanced by exactly the sum of the timesteps, the time field follows the clock, and the iteration
counter counted the steps. If it ended normally a criterion was met at the end. -/
theorem evolve_trace (env : Env F) (fuel : Nat) (s s' : IVP F) (r : Except Exc Unit) (k : Nat)
    (hc : s.stopSim ≠ none ∨ s.stopWall ≠ none ∨ s.stopIter ≠ none)
    (h : evolve env fuel s = some (r, s', k)) :
    ∃ d : Nat → F,
      (∀ j, j < k → env.dt j = .ok (some (d j)) ∧
        ¬ StopMet s.stopSim s.stopWall s.stopIter (s.simTime + ∑ i ∈ range j, d i) (env.wall j) (s.iteration + j)) ∧
      s'.simTime = s.simTime + ∑ i ∈ range k, d i ∧
      (s.timeField = s.simTime → s'.timeField = s'.simTime) ∧
      s'.iteration = s.iteration + k ∧
      (r = .ok () → StopMet s.stopSim s.stopWall s.stopIter s'.simTime (env.wall k) s'.iteration) := by
  obtain ⟨r', hl, hr⟩ := evolve_loop env fuel s s' r k hc h
  obtain ⟨m, d, hk, hL, hok, _⟩ := loop_did env fuel 0 s s' r' k hl
  have hk : k = m := by omega
  subst hk
  refine ⟨d, ?_, ?_, hL.field, hL.iteration, ?_⟩
  · intro j hj
    have h1 := hL.dts j hj
    have h2 := hL.noStop j hj
    simp only [Nat.zero_add] at h1 h2
    exact ⟨h1, h2⟩
  · have := hL.sim
    simpa using this
  · intro he
    rcases hr with ⟨_, rr⟩ | ⟨_, rr⟩
    · have := hok (rr ▸ he)
      rwa [hL.stops.sim, hL.stops.wall, hL.stops.iter] at this
    · rw [rr] at he; simp at he

/-- C29. If a criterion is met at the start, no step is made. -/
theorem evolve_no_step (env : Env F) (fuel : Nat) (s s' : IVP F) (r : Except Exc Unit) (k : Nat)
    (hm : StopMet s.stopSim s.stopWall s.stopIter s.simTime (env.wall 0) s.iteration)
    (h : evolve env fuel s = some (r, s', k)) : k = 0 := by
  have hc : s.stopSim ≠ none ∨ s.stopWall ≠ none ∨ s.stopIter ≠ none := by
    rcases hm with ⟨_, h, _⟩ | ⟨_, h, _⟩ | ⟨_, h, _⟩ <;> simp [h]
  obtain ⟨d, h1, _⟩ := evolve_trace env fuel s s' r k hc h
  by_contra hk
  have := (h1 0 (by omega)).2
  simp only [range_zero, sum_empty, add_zero] at this
  exact this hm

/-- C29. With an iteration limit `n` the loop ends, after at most `n - iteration` steps, whatever the
timesteps, wall times and exceptions are. -/
theorem evolve_terminates (env : Env F) (s : IVP F) (n : Nat) (hn : s.stopIter = some n) (fuel : Nat)
    (hf : n - s.iteration < fuel) :
    ∃ r s' k, evolve env fuel s = some (r, s', k) ∧ k ≤ n - s.iteration := by
  obtain ⟨⟨r', s1, k1⟩, hl⟩ := loop_ends env n fuel 0 s hn hf
  have he : ∃ r, evolve env fuel s = some (r, s1, k1) := by
    unfold evolve
    rw [if_neg (by simp [hn]), hl]
    simp only
    cases logStats s1 with
    | error e => exact ⟨_, rfl⟩
    | ok u => exact ⟨_, rfl⟩
  obtain ⟨r, he⟩ := he
  refine ⟨r, s1, k1, he, ?_⟩
  obtain ⟨d, h1, _⟩ := evolve_trace env fuel s s1 r k1 (Or.inr (Or.inr (by simp [hn]))) he
  by_contra hk
  have := (h1 (n - s.iteration) (by omega)).2
  exact this (Or.inr (Or.inr ⟨n, hn, by omega⟩))

/-- A solver on which no step has been made yet. -/
structure Fresh (s : IVP F) : Prop where
  iteration : s.iteration = s.initialIteration
  start : s.startTimeEnd = none
  wstart : s.warmupTimeStart = none
  wend : s.warmupTimeEnd = none
  rstart : s.runTimeStart = none

/-- C29, when `evolve` on a new solver finishes normally: exactly when the loop ended because of a
stop criterion and the number of steps is neither 0 nor the number of warmup iterations. In the two
excluded cases it ends with an AttributeError; see the refutations below. -/
theorem evolve_normal_iff (env : Env F) (fuel : Nat) (s s' : IVP F) (r : Except Exc Unit) (k : Nat)
    (hfresh : Fresh s) (hc : s.stopSim ≠ none ∨ s.stopWall ≠ none ∨ s.stopIter ≠ none)
    (hdt : ∀ j, ∃ d, env.dt j = .ok (some d))
    (h : evolve env fuel s = some (r, s', k)) :
    (r = .ok () ↔ k ≠ 0 ∧ k ≠ s.warmup) ∧ (r ≠ .ok () → r = .error .attributeError) := by
  obtain ⟨r', hl, hr⟩ := evolve_loop env fuel s s' r k hc h
  obtain ⟨m, d, hk, hL, _, herr⟩ := loop_did env fuel 0 s s' r' k hl
  have hk : k = m := by omega
  subst hk
  have hr' : r' = .ok () := by
    cases r' with
    | ok u => rfl
    | error e =>
      obtain ⟨d, hd⟩ := hdt k
      have := (herr e rfl).1
      rw [hd] at this
      simp at this
  have hlog : logStats s' = .ok () ↔ k ≠ 0 ∧ k ≠ s.warmup := by
    have h1 := hL.start
    have h2 := hL.wend
    have h3 := hL.wstart
    have h4 := hL.rstart
    rw [hfresh.start, hfresh.iteration] at h1
    rw [hfresh.wend, hfresh.iteration] at h2
    rw [hfresh.wstart, hfresh.iteration] at h3
    rw [hfresh.rstart, hfresh.iteration] at h4
    simp only [Option.isSome_none, Bool.false_eq_true, false_or] at h1 h2 h3 h4
    rw [logStats_ok, h1, h2, h3, h4, hL.stops.init, hL.stops.warmup, hL.iteration, hfresh.iteration]
    constructor
    · rintro ⟨a, b⟩
      refine ⟨by omega, ?_⟩
      intro hkw
      have := b (by omega)
      omega
    · rintro ⟨a, b⟩
      refine ⟨by omega, ?_⟩
      intro hle
      omega
  rcases hr with ⟨h1, h2⟩ | ⟨h1, h2⟩
  · rw [h2, hr']
    exact ⟨⟨fun _ => hlog.1 h1, fun _ => rfl⟩, fun hh => absurd rfl hh⟩
  · rw [h2]
    refine ⟨⟨fun hh => by simp at hh, fun hh => absurd (hlog.2 hh) h1⟩, fun _ => rfl⟩

/-- C29, the part on a normal finish that holds. Missing: 0 steps and exactly `warmup` steps. -/
theorem evolve_normal_partial (env : Env F) (fuel : Nat) (s s' : IVP F) (r : Except Exc Unit) (k : Nat)
    (hfresh : Fresh s) (hc : s.stopSim ≠ none ∨ s.stopWall ≠ none ∨ s.stopIter ≠ none)
    (hdt : ∀ j, ∃ d, env.dt j = .ok (some d)) (hk0 : k ≠ 0) (hkw : k ≠ s.warmup)
    (h : evolve env fuel s = some (r, s', k)) : r = .ok () :=
  (evolve_normal_iff env fuel s s' r k hfresh hc hdt h).1.2 ⟨hk0, hkw⟩

/-- A world with timestep 1/10 and wall time 0. -/
def steadyEnv : Env ℚ := ⟨fun _ => 0, fun _ => .ok (some (1 / 10)), fun _ => 0⟩

/-- A new solver with the default 10 warmup iterations and an iteration limit. -/
def limited (n : Nat) : IVP ℚ := { init [0] [] 10 with stopIter := some n }

theorem limited_fresh (n : Nat) : Fresh (limited n) := ⟨rfl, rfl, rfl, rfl, rfl⟩

theorem limited_steps (n : Nat) (r : Except Exc Unit) (s' : IVP ℚ) (k fuel : Nat)
    (h : evolve steadyEnv fuel (limited n) = some (r, s', k)) : k = n := by
  have hc : (limited n).stopSim ≠ none ∨ (limited n).stopWall ≠ none ∨ (limited n).stopIter ≠ none := by
    right; right; simp [limited]
  obtain ⟨r', hl, hr⟩ := evolve_loop steadyEnv fuel (limited n) s' r k hc h
  obtain ⟨m, d, hk, hL, hok, herr⟩ := loop_did steadyEnv fuel 0 (limited n) s' r' k hl
  have hk : k = m := by omega
  subst hk
  have hr' : r' = .ok () := by
    cases r' with
    | ok u => rfl
    | error e => have := (herr e rfl).1; simp [steadyEnv] at this
  have hs := hok hr'
  rw [hL.stops.sim, hL.stops.wall, hL.stops.iter, hL.iteration] at hs
  have h1 : n ≤ k := by
    rcases hs with ⟨T, hT, _⟩ | ⟨T, hT, _⟩ | ⟨n', hn', hle⟩
    · simp [limited, init] at hT
    · simp [limited, init] at hT
    · simp [limited, init] at hn' hle; omega
  by_contra hne
  have := hL.noStop n (by omega)
  exact this (Or.inr (Or.inr ⟨n, rfl, by simp [limited, init]⟩))

/-- C29 refuted for 10 iterations with the default warmup: `evolve` does 10 steps and then
raises AttributeError (`warmup_time_end` does not exist). -/
theorem evolve_normal_warmup_refuted :
    ∃ s', evolve steadyEnv 11 (limited 10) = some (.error .attributeError, s', 10) := by
  obtain ⟨r, s', k, h, _⟩ := evolve_terminates steadyEnv (limited 10) 10 rfl 11 (by simp [limited, init])
  have hk := limited_steps 10 r s' k 11 h
  subst hk
  have := evolve_normal_iff steadyEnv 11 (limited 10) s' r 10 (limited_fresh 10)
    (by right; right; simp [limited]) (fun j => ⟨1 / 10, rfl⟩) h
  have hne : r ≠ .ok () := fun hr => (this.1.1 hr).2 rfl
  exact ⟨s', by rw [h, this.2 hne]⟩

/-- C29 refuted when a criterion is met at the start: `evolve` makes no step and then
raises AttributeError (`start_time_end` does not exist). -/
theorem evolve_normal_zero_refuted :
    ∃ s', evolve steadyEnv 1 (limited 0) = some (.error .attributeError, s', 0) := by
  obtain ⟨r, s', k, h, _⟩ := evolve_terminates steadyEnv (limited 0) 0 rfl 1 (by simp [limited, init])
  have hk := limited_steps 0 r s' k 1 h
  subst hk
  have := evolve_normal_iff steadyEnv 1 (limited 0) s' r 0 (limited_fresh 0)
    (by right; right; simp [limited]) (fun j => ⟨1 / 10, rfl⟩) h
  have hne : r ≠ .ok () := fun hr => (this.1.1 hr).1 rfl
  exact ⟨s', by rw [h, this.2 hne]⟩

-- 12 iterations meet the hypotheses of `evolve_normal_partial`.
example : ∃ s', evolve steadyEnv 13 (limited 12) = some (.ok (), s', 12) := by
  obtain ⟨r, s', k, h, _⟩ := evolve_terminates steadyEnv (limited 12) 12 rfl 13 (by simp [limited, init])
  have hk := limited_steps 12 r s' k 13 h
  subst hk
  have := evolve_normal_partial steadyEnv 13 (limited 12) s' r 12 (limited_fresh 12)
    (by right; right; simp [limited]) (fun j => ⟨1 / 10, rfl⟩) (by omega) (by simp [limited, init]) h
  exact ⟨s', by rw [h, this]⟩

/-- C47. A timestep that is not finite is rejected with ValueError before anything is changed; a finite
one advances time field and clock by it and the iteration by one. -/
theorem step_clock (s : IVP F) (wall : F) :
    step s none wall = .error .valueError ∧
    ∀ d, ∃ s', step s (some d) wall = .ok s' ∧ s'.simTime = s.simTime + d ∧ s'.timeField = s'.simTime ∧
      s'.iteration = s.iteration + 1 := by
  refine ⟨rfl, fun d => ?_⟩
  have : ∃ s', step s (some d) wall = .ok s' := ⟨_, rfl⟩
  obtain ⟨s', hs⟩ := this
  obtain ⟨d', hd, h1, h2, h3, _⟩ := step_ok s s' (some d) wall hs
  injection hd with hd
  subst hd
  exact ⟨s', hs, h1, by rw [h1, h2], h3⟩

/-- C47 refuted for negative initial times: a time field set to -2 gives a solver whose clock and time
field are both +2. -/
theorem initial_time_refuted : (init [(-2 : ℚ)] [] 10).simTime = 2 ∧ (init [(-2 : ℚ)] [] 10).timeField = 2 := by
  have : |(-2 : ℚ)| = 2 := by norm_num
  simp [init, dataMax, localMax]

theorem foldl_max_const [IsStrictOrderedRing F] (t : F) (ht : 0 ≤ t) (l : List (List F)) (hl : ∀ d ∈ l, d = [] ∨ d = [t]) :
    ∀ m, (m = 0 ∨ m = t) → (l.foldl (fun m d => max m (localMax d)) m = 0 ∨ l.foldl (fun m d => max m (localMax d)) m = t) ∧
      ((m = t ∨ [t] ∈ l) → l.foldl (fun m d => max m (localMax d)) m = t) := by
  induction l with
  | nil => intro m hm; exact ⟨hm, fun h => by simpa using h⟩
  | cons x xs ih =>
    intro m hm
    simp only [List.foldl_cons]
    have hx : localMax x = 0 ∨ localMax x = t := by
      rcases hl x (by simp) with h | h
      · left; simp [h, localMax]
      · right; simp [h, localMax, abs_of_nonneg ht]
    have hm' : max m (localMax x) = 0 ∨ max m (localMax x) = t := by
      rcases hm with h | h <;> rcases hx with h' | h' <;> rw [h, h'] <;> simp [ht]
    obtain ⟨a, b⟩ := ih (fun d hd => hl d (List.mem_cons_of_mem _ hd)) _ hm'
    refine ⟨a, ?_⟩
    rintro (h | h)
    · apply b; left
      rcases hx with h' | h' <;> rw [h, h'] <;> simp [ht]
    · rcases List.mem_cons.1 h with h | h
      · apply b; left
        have : localMax x = t := by rw [← h]; simp [localMax, abs_of_nonneg ht]
        rw [this]
        rcases hm with h' | h' <;> rw [h'] <;> simp [ht]
      · exact b (Or.inr h)

/-- C47, what holds of the initial time: if the time field holds `t ≥ 0` on every process that has a
point (and one has), the clock starts at `t`. Missing: negative `t`. -/
theorem initial_time_partial [IsStrictOrderedRing F] (t : F) (ht : 0 ≤ t) (rank0 : List F) (others : List (List F))
    (h0 : rank0 = [] ∨ rank0 = [t]) (hl : ∀ d ∈ others, d = [] ∨ d = [t]) (hone : rank0 = [t] ∨ [t] ∈ others) (w : Nat) :
    (init rank0 others w).simTime = t ∧ (init rank0 others w).timeField = t := by
  have hx : localMax rank0 = 0 ∨ localMax rank0 = t := by
    rcases h0 with h | h
    · left; simp [h, localMax]
    · right; simp [h, localMax, abs_of_nonneg ht]
  have := (foldl_max_const t ht others hl (localMax rank0) hx).2 (by
    rcases hone with h | h
    · left; simp [h, localMax, abs_of_nonneg ht]
    · exact Or.inr h)
  exact ⟨this, this⟩

example : (init [(3 : ℚ)] [[], [3]] 10).simTime = 3 :=
  (initial_time_partial (3 : ℚ) (by norm_num) [3] [[], [3]] (by simp) (by simp) (by simp) 10).1

theorem le_localMax (d : List F) : ∀ y ∈ d, |y| ≤ localMax d := by
  intro y hy
  cases d with
  | nil => cases hy
  | cons x xs =>
    have h1 : ∀ (l : List F) (m : F), m ≤ l.foldl (fun m y => max m |y|) m ∧
        ∀ y ∈ l, |y| ≤ l.foldl (fun m y => max m |y|) m := by
      intro l
      induction l with
      | nil => intro m; exact ⟨le_refl _, fun y hy => by cases hy⟩
      | cons a as ih =>
        intro m
        simp only [List.foldl_cons]
        refine ⟨le_trans (le_max_left _ _) (ih _).1, ?_⟩
        intro y hy
        rcases List.mem_cons.1 hy with rfl | h
        · exact le_trans (le_max_right _ _) (ih _).1
        · exact (ih _).2 y h
    rcases List.mem_cons.1 hy with rfl | h
    · exact (h1 xs _).1
    · exact (h1 xs _).2 y h

theorem localMax_attained (d : List F) : (d = [] ∧ localMax d = 0) ∨ ∃ y ∈ d, localMax d = |y| := by
  cases d with
  | nil => exact Or.inl ⟨rfl, rfl⟩
  | cons x xs =>
    right
    have h1 : ∀ (l : List F) (m : F), l.foldl (fun m y => max m |y|) m = m ∨
        ∃ y ∈ l, l.foldl (fun m y => max m |y|) m = |y| := by
      intro l
      induction l with
      | nil => intro m; exact Or.inl rfl
      | cons a as ih =>
        intro m
        simp only [List.foldl_cons]
        rcases ih (max m |a|) with h | ⟨y, hy, h⟩
        · rw [h]
          rcases max_choice m |a| with h' | h'
          · exact Or.inl h'
          · exact Or.inr ⟨a, by simp, h'⟩
        · exact Or.inr ⟨y, by simp [hy], h⟩
    rcases h1 xs |x| with h | ⟨y, hy, h⟩
    · exact ⟨x, by simp, h⟩
    · exact ⟨y, by simp [hy], h⟩

/-- C28. The maximum of a field's data is at least the absolute value of every point on every process,
and is the absolute value of one of them, or 0 when a process has no points. Whatever the
distribution, no point is missed. -/
theorem data_max_is_maximum (rank0 : List F) (others : List (List F)) :
    (∀ d ∈ rank0 :: others, ∀ y ∈ d, |y| ≤ dataMax rank0 others) ∧
    ((∃ d ∈ rank0 :: others, ∃ y ∈ d, dataMax rank0 others = |y|) ∨
      ([] ∈ rank0 :: others ∧ dataMax rank0 others = 0)) := by
  have h1 : ∀ (l : List (List F)) (m : F), m ≤ l.foldl (fun m d => max m (localMax d)) m ∧
      (∀ d ∈ l, localMax d ≤ l.foldl (fun m d => max m (localMax d)) m) ∧
      (l.foldl (fun m d => max m (localMax d)) m = m ∨
        ∃ d ∈ l, l.foldl (fun m d => max m (localMax d)) m = localMax d) := by
    intro l
    induction l with
    | nil => intro m; exact ⟨le_refl _, (fun y hy => by cases hy), Or.inl rfl⟩
    | cons a as ih =>
      intro m
      simp only [List.foldl_cons]
      obtain ⟨i1, i2, i3⟩ := ih (max m (localMax a))
      refine ⟨le_trans (le_max_left _ _) i1, ?_, ?_⟩
      · intro d hd
        rcases List.mem_cons.1 hd with rfl | h
        · exact le_trans (le_max_right _ _) i1
        · exact i2 d h
      · rcases i3 with h | ⟨d, hd, h⟩
        · rw [h]
          rcases max_choice m (localMax a) with h' | h'
          · exact Or.inl h'
          · exact Or.inr ⟨a, by simp, h'⟩
        · exact Or.inr ⟨d, by simp [hd], h⟩
  obtain ⟨a1, a2, a3⟩ := h1 others (localMax rank0)
  refine ⟨?_, ?_⟩
  · intro d hd y hy
    refine le_trans (le_localMax d y hy) ?_
    rcases List.mem_cons.1 hd with rfl | h
    · exact a1
    · exact a2 d h
  · have : ∃ d ∈ rank0 :: others, dataMax rank0 others = localMax d := by
      rcases a3 with h | ⟨d, hd, h⟩
      · exact ⟨rank0, by simp, h⟩
      · exact ⟨d, by simp [hd], h⟩
    obtain ⟨d, hd, h⟩ := this
    rcases localMax_attained d with ⟨rfl, h'⟩ | ⟨y, hy, h'⟩
    · exact Or.inr ⟨hd, by rw [h, h']⟩
    · exact Or.inl ⟨d, hd, y, hy, by rw [h, h']⟩

-- Data of either sign on three processes, one of them without points.
example : ∀ y ∈ [(1 : ℚ), -4], |y| ≤ dataMax [2] [[], [1, -4]] :=
  fun y hy => (data_max_is_maximum [2] [[], [1, -4]]).1 _ (by simp) y hy

section Forces

variable [IsStrictOrderedRing F] [FloorRing F]

/-- Iterations at which the steps of a history are made, starting from `it`. -/
def stepIters (it : Nat) : List (Op F) → List Nat
  | [] => []
  | .step _ :: os => it :: stepIters (it + 1) os
  | .load n _ :: os => stepIters n os

theorem run_fresh (os : List (Op F)) : ∀ (s : FSolver F),
    ((stepIters s.iteration os).Pairwise (· < ·)) → (∀ n ∈ stepIters s.iteration os, s.divs.iter < (n : Int)) →
    ∀ p ∈ s.run os, p.2 ≠ some false := by
  induction os with
  | nil => intro s _ _ p hp; simp [FSolver.run] at hp
  | cons o os ih =>
    intro s hs hd p hp
    rw [FSolver.run] at hp
    cases o with
    | step dt =>
      rw [stepIters] at hs hd
      have hlt := hd s.iteration (by simp)
      have e : s.op (.step dt) = (⟨s.iteration + 1, s.simTime + dt, ⟨s.divs.wall, s.divs.sim, s.iteration⟩⟩, some true) := by
        simp only [FSolver.op, Sched.checkSchedule_eq, Sched.checkWall, Sched.checkSim, Sched.checkIter]
        simp [hlt]
      rcases List.mem_cons.1 hp with hp | hp
      · rw [hp, e]; simp
      · rw [e] at hp
        refine ih _ ?_ ?_ p hp
        · exact (List.pairwise_cons.1 hs).2
        · intro n hn
          have := (List.pairwise_cons.1 hs).1 n hn
          simp only
          exact_mod_cast this
    | load n t =>
      rw [stepIters] at hs hd
      rcases List.mem_cons.1 hp with hp | hp
      · rw [hp]; simp [FSolver.op]
      · exact ih _ hs hd p hp

/-- C51 refuted: after two steps, loading a state of iteration 0 and stepping again uses the old
forces (they are not recomputed at that step, nor at the next). -/
theorem forces_fresh_refuted :
    ((⟨0, 0, {}⟩ : FSolver ℚ).run [.step 1, .step 1, .load 0 0, .step 1, .step 1, .step 1]).map (·.2) =
      [some true, some true, none, some false, some false, some true] := by
  simp [FSolver.run, FSolver.op, Sched.checkSchedule_eq, Sched.checkWall, Sched.checkSim, Sched.checkIter]

/-- C51, the part that holds: if every step is made at a higher iteration than all earlier steps
(for example, if states are only loaded before the first step), every step recomputes the forces.
Missing: loading an earlier iteration after stepping. -/
theorem forces_fresh_partial (it : Nat) (t : F) (os : List (Op F))
    (h : (stepIters it os).Pairwise (· < ·)) :
    ∀ p ∈ (⟨it, t, {}⟩ : FSolver F).run os, p.2 ≠ some false := by
  refine run_fresh os _ h ?_
  intro n _
  show (-1 : Int) < n
  omega

-- A history with a restart before the first step meets the hypothesis.
example : (stepIters 0 [Op.load 40 (7 / 2 : ℚ), .step 1, .step 1, .step (1 / 3)]).Pairwise (· < ·) := by
  simp [stepIters]

end Forces

end Dedalus.Solver
