import Verif.Symb.ProblemProps

/-!
# Inversion of the problem constructors
-/

namespace Dedalus.Symb

section
variable {K X : Type} [Field K] [DecidableEq K]

/-- What an accepted eigenvalue equation satisfied. -/
theorem evpAdd_inv {vars : List Nat} {eig : Nat} {lhs rhs : Expr K} {cond : String} {modes : List Bool}
    {q : EvpEqn K} (h : evpAdd vars eig lhs rhs cond modes = some q) :
    ∃ M0 L0 M1, lhs.isOperand = true ∧ linearOK (vars.map Var.fld) false lhs = true ∧
      linearOK [Var.fld eig] true lhs = true ∧ rhs = .num 0 ∧
      split [.fld eig] lhs = some (M0, L0) ∧ reinit L0 = some q.L ∧
      (if M0.truthy then replace eig (.num 1) M0 else some M0) = some M1 ∧ reinit M1 = some q.M ∧
      q.lhs = lhs ∧ q.condition = cond ∧ q.modes = modes := by
  unfold evpAdd at h
  obtain ⟨expr, _, h⟩ := Option.bind_eq_some_iff.1 h
  split at h
  · simp at h
  obtain ⟨lhs', hl', h⟩ := Option.bind_eq_some_iff.1 h
  split at h
  · simp at h
  rename_i c1
  split at h
  · simp at h
  rename_i c2
  split at h
  · simp at h
  rename_i c3
  split at h
  · simp at h
  rename_i c5
  simp only [Bool.not_eq_true, Bool.not_eq_false'] at c1 c2 c3 c5
  have e := castTo_operand hl' (by simpa using c5)
  subst e
  obtain ⟨⟨M0, L0⟩, hs, h⟩ := Option.bind_eq_some_iff.1 h
  have h' : ∃ M1, (if M0.truthy then replace eig (.num 1) M0 else some M0) = some M1 ∧
      ∃ M, reinit M1 = some M ∧ ∃ L, reinit L0 = some L ∧
        some (⟨lhs', cond, modes, M, L⟩ : EvpEqn K) = some q := by
    have tail : ∀ {M1 : Expr K}, ((reinit M1).bind fun M => (reinit L0).bind fun L =>
        some (⟨lhs', cond, modes, M, L⟩ : EvpEqn K)) = some q →
        ∃ M, reinit M1 = some M ∧ ∃ L, reinit L0 = some L ∧
        some (⟨lhs', cond, modes, M, L⟩ : EvpEqn K) = some q := by
      intro M1 h
      obtain ⟨M, hM, h⟩ := Option.bind_eq_some_iff.1 h
      obtain ⟨L, hL, h⟩ := Option.bind_eq_some_iff.1 h
      exact ⟨M, hM, L, hL, h⟩
    simp only at h
    split at h
    · rename_i hz
      obtain ⟨M1, hM1, h⟩ := Option.bind_eq_some_iff.1 h
      exact ⟨M1, by simp [hz, hM1], tail h⟩
    · rename_i hz
      exact ⟨M0, by simp [hz], tail h⟩
  obtain ⟨M1, h1, M, h2, L, h3, h5⟩ := h'
  obtain rfl := Option.some.inj h5
  exact ⟨M0, L0, M1, by simpa using c5, by simpa using c1, by simpa using c2,
    eqNum_iff.1 (by simpa using c3), hs, h3, h1, h2, rfl, rfl, rfl⟩

omit [Field K] [DecidableEq K] in
theorem setVal_withVars {V : List Nat} {x : Nat} (hx : x ∉ V) (env u : Nat → X → K) (v : X → K) :
    setVal (withVars V env u) x v = withVars V (setVal env x v) u := by
  funext i
  by_cases h : i = x
  · subst h; simp [setVal, withVars, hx]
  · simp [setVal, withVars, h]

omit [Field K] [DecidableEq K] in
theorem withVars_single (x : Nat) (env u : Nat → X → K) : withVars [x] env u = setVal env x (u x) := by
  funext i
  by_cases h : i = x
  · subst h; simp [setVal, withVars]
  · simp [setVal, withVars, h]

omit [Field K] [DecidableEq K] in
theorem setVal_self {x : Nat} {env : Nat → X → K} {v : X → K} (h : env x = v) : setVal env x v = env := by
  funext i
  by_cases hi : i = x
  · subst hi; simp [setVal, h]
  · simp [setVal, hi]

theorem reinit_zero {e' : Expr K} (h : reinit (.num 0 : Expr K) = some e') : e' = .num 0 := by
  simp [reinit, Expr.truthy] at h; exact h.symm

end

end Dedalus.Symb
