import Verif.Solver.Model
import Verif.Solver.Spec
import Mathlib.Algebra.BigOperators.Fin
import Mathlib.Tactic.Ring
import Mathlib.Tactic.NormNum

namespace Dedalus.Solver

open Finset

variable {F : Type} [Field F] [LinearOrder F]

theorem proceed_eq (s : IVP F) (wall : F) :
    proceed s wall = true ↔ ¬ StopMet s.stopSim s.stopWall s.stopIter s.simTime wall s.iteration := by
  unfold proceed StopMet
  cases s.stopSim <;> cases s.stopWall <;> cases s.stopIter <;> simp

/-- The part of the solver state that a step does not change. -/
structure SameStops (s s' : IVP F) : Prop where
  sim : s'.stopSim = s.stopSim
  wall : s'.stopWall = s.stopWall
  iter : s'.stopIter = s.stopIter
  init : s'.initialIteration = s.initialIteration
  warmup : s'.warmup = s.warmup

theorem step_ok (s s' : IVP F) (dt : Option F) (wall : F) (h : step s dt wall = .ok s') :
    ∃ d, dt = some d ∧ s'.simTime = s.simTime + d ∧ s'.timeField = s.simTime + d ∧
      s'.iteration = s.iteration + 1 ∧ SameStops s s' ∧
      (s'.startTimeEnd = if s.iteration = s.initialIteration then some wall else s.startTimeEnd) ∧
      (s'.warmupTimeStart = if s.iteration = s.initialIteration then some wall else s.warmupTimeStart) ∧
      (s'.warmupTimeEnd = if s.iteration = s.initialIteration + s.warmup then some wall else s.warmupTimeEnd) ∧
      (s'.runTimeStart = if s.iteration = s.initialIteration + s.warmup then some wall else s.runTimeStart) := by
  cases dt with
  | none => simp [step] at h
  | some d =>
    obtain ⟨t, f, it, i0, wu, a, b, c, e1, e2, e3, e4⟩ := s
    simp only [step, Except.ok.injEq] at h
    refine ⟨d, rfl, ?_⟩
    by_cases h1 : it = i0
    · by_cases h3 : it = i0 + wu
      · simp only [h1, if_true] at h
        subst h1
        simp only [if_pos h3] at h
        subst h
        simp only [if_true, if_pos h3]
        refine ⟨?_, ?_, ?_, ⟨?_, ?_, ?_, ?_, ?_⟩, ?_, ?_, ?_, ?_⟩ <;> first | trivial | rfl
      · simp only [h1, if_true] at h
        subst h1
        simp only [if_neg h3] at h
        subst h
        simp only [if_true, if_neg h3]
        refine ⟨?_, ?_, ?_, ⟨?_, ?_, ?_, ?_, ?_⟩, ?_, ?_, ?_, ?_⟩ <;> first | trivial | rfl
    · by_cases h3 : it = i0 + wu
      · simp only [if_neg h1, if_pos h3] at h
        subst h
        simp only [if_neg h1, if_pos h3]
        refine ⟨?_, ?_, ?_, ⟨?_, ?_, ?_, ?_, ?_⟩, ?_, ?_, ?_, ?_⟩ <;> first | trivial | rfl
      · simp only [if_neg h1, if_neg h3] at h
        subst h
        simp only [if_neg h1, if_neg h3]
        refine ⟨?_, ?_, ?_, ⟨?_, ?_, ?_, ?_, ?_⟩, ?_, ?_, ?_, ?_⟩ <;> first | trivial | rfl

/-- What a loop that ended after `m` passes from pass `k0` did; `d j` is the timestep of pass `j`. -/
structure LoopDid (env : Env F) (s s' : IVP F) (k0 m : Nat) (d : Nat → F) : Prop where
  dts : ∀ j, j < m → env.dt (k0 + j) = .ok (some (d (k0 + j)))
  sim : s'.simTime = s.simTime + ∑ i ∈ range m, d (k0 + i)
  field : s.timeField = s.simTime → s'.timeField = s'.simTime
  iteration : s'.iteration = s.iteration + m
  stops : SameStops s s'
  noStop : ∀ j, j < m → ¬ StopMet s.stopSim s.stopWall s.stopIter
    (s.simTime + ∑ i ∈ range j, d (k0 + i)) (env.wall (k0 + j)) (s.iteration + j)
  start : s'.startTimeEnd.isSome = true ↔
    s.startTimeEnd.isSome = true ∨ (s.iteration ≤ s.initialIteration ∧ s.initialIteration < s.iteration + m)
  wstart : s'.warmupTimeStart.isSome = true ↔
    s.warmupTimeStart.isSome = true ∨ (s.iteration ≤ s.initialIteration ∧ s.initialIteration < s.iteration + m)
  wend : s'.warmupTimeEnd.isSome = true ↔
    s.warmupTimeEnd.isSome = true ∨
      (s.iteration ≤ s.initialIteration + s.warmup ∧ s.initialIteration + s.warmup < s.iteration + m)
  rstart : s'.runTimeStart.isSome = true ↔
    s.runTimeStart.isSome = true ∨
      (s.iteration ≤ s.initialIteration + s.warmup ∧ s.initialIteration + s.warmup < s.iteration + m)

theorem loopDid_refl (env : Env F) (s : IVP F) (k0 : Nat) (d : Nat → F) : LoopDid env s s k0 0 d where
  dts := fun j hj => by omega
  sim := by simp
  field := id
  iteration := rfl
  stops := ⟨rfl, rfl, rfl, rfl, rfl⟩
  noStop := fun j hj => by omega
  start := by constructor
              · exact Or.inl
              · rintro (h | h)
                · exact h
                · omega
  wstart := by constructor
               · exact Or.inl
               · rintro (h | h)
                 · exact h
                 · omega
  wend := by constructor
             · exact Or.inl
             · rintro (h | h)
               · exact h
               · omega
  rstart := by constructor
               · exact Or.inl
               · rintro (h | h)
                 · exact h
                 · omega

theorem isSome_step (o o' : Option F) (w : F) (P : Prop) [Decidable P] (h : o' = if P then some w else o) :
    o'.isSome = true ↔ (o.isSome = true ∨ P) := by
  subst h
  by_cases hp : P <;> simp [hp]

theorem loop_did (env : Env F) : ∀ (fuel k0 : Nat) (s s' : IVP F) (r : Except Exc Unit) (k : Nat),
    loop env fuel k0 s = some (r, s', k) →
    ∃ m d, k = k0 + m ∧ LoopDid env s s' k0 m d ∧
      (r = .ok () → StopMet s'.stopSim s'.stopWall s'.stopIter s'.simTime (env.wall k) s'.iteration) ∧
      (∀ e, r = .error e → (env.dt k = .error e ∨ (env.dt k = .ok none ∧ e = .valueError)) ∧
        ¬ StopMet s'.stopSim s'.stopWall s'.stopIter s'.simTime (env.wall k) s'.iteration) := by
  intro fuel
  induction fuel with
  | zero => intro k0 s s' r k h; simp [loop] at h
  | succ fuel ih =>
    intro k0 s s' r k h
    rw [loop] at h
    by_cases hp : proceed s (env.wall k0) = true
    · rw [if_pos hp] at h
      cases hd : env.dt k0 with
      | error e =>
        rw [hd] at h
        simp only [Option.some.injEq, Prod.mk.injEq] at h
        obtain ⟨rfl, rfl, rfl⟩ := h
        refine ⟨0, fun _ => 0, rfl, loopDid_refl _ _ _ _, by simp, ?_⟩
        intro e' he
        refine ⟨Or.inl ?_, (proceed_eq _ _).1 hp⟩
        rw [hd]; simpa using he
      | ok dt =>
        rw [hd] at h
        simp only at h
        cases hs : step s dt (env.wallStep k0) with
        | error e =>
          rw [hs] at h
          simp only [Option.some.injEq, Prod.mk.injEq] at h
          obtain ⟨rfl, rfl, rfl⟩ := h
          refine ⟨0, fun _ => 0, rfl, loopDid_refl _ _ _ _, by simp, ?_⟩
          intro e' he
          refine ⟨Or.inr ?_, (proceed_eq _ _).1 hp⟩
          cases dt with
          | none => simp [step] at hs; simp at he; exact ⟨hd, by rw [← he, ← hs]⟩
          | some d => simp [step] at hs
        | ok s1 =>
          rw [hs] at h
          simp only at h
          obtain ⟨m, d, hk, hL, hr, he⟩ := ih (k0 + 1) s1 s' r k h
          obtain ⟨d0, hd0, h1, h2, h3, h4, h5, h6, h7, h8⟩ := step_ok s s1 dt _ hs
          subst hd0
          refine ⟨m + 1, fun j => if j = k0 then d0 else d j, by omega, ?_, hr, he⟩
          have hval : ∀ i, (if k0 + 1 + i = k0 then d0 else d (k0 + 1 + i)) = d (k0 + 1 + i) := by
            intro i; rw [if_neg (by omega)]
          have hsum : ∀ n, ∑ i ∈ range (n + 1), (if k0 + i = k0 then d0 else d (k0 + i)) =
              d0 + ∑ i ∈ range n, d (k0 + 1 + i) := by
            intro n
            rw [sum_range_succ', add_comm]
            congr 1
            · simp
            · apply sum_congr rfl
              intro i _
              rw [if_neg (by omega)]
              congr 1; omega
          constructor
          · intro j hj
            cases j with
            | zero => simpa using hd
            | succ j =>
              have := hL.dts j (by omega)
              rw [show k0 + (j + 1) = k0 + 1 + j by omega, this]
              simp only [hval]
          · rw [hL.sim, h1, hsum]; ring
          · intro _
            exact hL.field (by rw [h1, h2])
          · rw [hL.iteration, h3]; omega
          · obtain ⟨a1, a2, a3, a4, a5⟩ := h4
            obtain ⟨b1, b2, b3, b4, b5⟩ := hL.stops
            exact ⟨b1.trans a1, b2.trans a2, b3.trans a3, b4.trans a4, b5.trans a5⟩
          · intro j hj
            cases j with
            | zero => simpa using (proceed_eq _ _).1 hp
            | succ j =>
              have := hL.noStop j (by omega)
              rw [h4.sim, h4.wall, h4.iter, h3, h1] at this
              rw [hsum, show k0 + (j + 1) = k0 + 1 + j by omega, show s.iteration + (j + 1) = s.iteration + 1 + j by omega,
                ← add_assoc]
              exact this
          · rw [hL.start, isSome_step _ _ _ _ h5, h3, h4.init, or_assoc]
            refine or_congr Iff.rfl ?_
            omega
          · rw [hL.wstart, isSome_step _ _ _ _ h6, h3, h4.init, or_assoc]
            refine or_congr Iff.rfl ?_
            omega
          · rw [hL.wend, isSome_step _ _ _ _ h7, h3, h4.init, h4.warmup, or_assoc]
            refine or_congr Iff.rfl ?_
            omega
          · rw [hL.rstart, isSome_step _ _ _ _ h8, h3, h4.init, h4.warmup, or_assoc]
            refine or_congr Iff.rfl ?_
            omega
    · rw [if_neg hp] at h
      simp only [Option.some.injEq, Prod.mk.injEq] at h
      obtain ⟨rfl, rfl, rfl⟩ := h
      refine ⟨0, fun _ => 0, rfl, loopDid_refl _ _ _ _, ?_, by simp⟩
      intro _
      by_contra hc
      exact hp ((proceed_eq _ _).2 hc)

theorem loop_ends (env : Env F) (n : Nat) : ∀ (fuel k0 : Nat) (s : IVP F), s.stopIter = some n →
    n - s.iteration < fuel → ∃ res, loop env fuel k0 s = some res := by
  intro fuel
  induction fuel with
  | zero =>
    intro k0 s hs hn
    omega
  | succ fuel ih =>
    intro k0 s hs hn
    rw [loop]
    by_cases hp : proceed s (env.wall k0) = true
    · rw [if_pos hp]
      have hlt : s.iteration < n := by
        have := (proceed_eq _ _).1 hp
        by_contra hc
        exact this (Or.inr (Or.inr ⟨n, hs, by omega⟩))
      cases hd : env.dt k0 with
      | error e => exact ⟨_, rfl⟩
      | ok dt =>
        simp only
        cases hst : step s dt (env.wallStep k0) with
        | error e => exact ⟨_, rfl⟩
        | ok s1 =>
          simp only
          obtain ⟨d0, _, _, _, h3, h4, _⟩ := step_ok s s1 dt _ hst
          exact ih (k0 + 1) s1 (h4.iter.trans hs) (by omega)
    · rw [if_neg hp]; exact ⟨_, rfl⟩

theorem logStats_ok (s : IVP F) : logStats s = .ok () ↔
    s.startTimeEnd.isSome = true ∧ (s.initialIteration + s.warmup ≤ s.iteration →
      s.warmupTimeEnd.isSome = true ∧ s.warmupTimeStart.isSome = true ∧ s.runTimeStart.isSome = true) := by
  unfold logStats
  cases s.startTimeEnd with
  | none => simp
  | some a =>
    by_cases h : s.initialIteration + s.warmup ≤ s.iteration
    · simp only [if_pos h]
      cases s.warmupTimeEnd <;> cases s.warmupTimeStart <;> cases s.runTimeStart <;> simp [h]
    · simp [h]

theorem logStats_err (s : IVP F) (h : logStats s ≠ .ok ()) : logStats s = .error .attributeError := by
  revert h
  unfold logStats
  cases s.startTimeEnd with
  | none => simp
  | some a =>
    by_cases h : s.initialIteration + s.warmup ≤ s.iteration
    · simp only [if_pos h]
      cases s.warmupTimeEnd <;> cases s.warmupTimeStart <;> cases s.runTimeStart <;> simp
    · simp [h]

end Dedalus.Solver
