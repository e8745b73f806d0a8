import Mathlib.Algebra.Field.Rat
import Verif.Symb.ProblemLemmas
import Verif.Symb.Props

/-!
# Properties of the problem classes

C24 (`build_EVP`), C52 (matrices of initial value problems), C53 (matrices of eigenvalue problems),
C54 (equations accepted by boundary value problems).
-/

namespace Dedalus.Symb

/-! ### C52: initial value problems -/

section C52

variable {K X : Type} [Field K] [DecidableEq K]

/-- What an accepted initial value equation satisfied. -/
theorem ivpAdd_inv {vars : List Nat} {time : Nat} {lhs rhs : Expr K} {cond : String} {modes : List Bool}
    {q : IvpEqn K} (h : ivpAdd vars time lhs rhs cond modes = some q) :
    ∃ s M0 M1, lhs.isOperand = true ∧ linearOK (vars.map Var.fld) false lhs = true ∧
      has [.fld time] lhs = false ∧ firstOrderOK 0 lhs = true ∧
      (∃ r, castTo s rhs = some r ∧ has [.cls 0] r = false) ∧
      (∃ L0, split [.cls 0] lhs = some (M0, L0) ∧ reinit L0 = some q.L) ∧
      (if M0.truthy then replaceCls 0 some M0 else some M0) = some M1 ∧ reinit M1 = some q.M ∧
      (if rhs.truthy then castTo s rhs else some (.cst s 0)) = some q.F ∧
      q.lhs = lhs ∧ q.rhs = rhs ∧ q.condition = cond ∧ q.modes = modes := by
  unfold ivpAdd at h
  obtain ⟨expr, _, h⟩ := Option.bind_eq_some_iff.1 h
  split at h
  · simp at h
  obtain ⟨lhs', hl', h⟩ := Option.bind_eq_some_iff.1 h
  obtain ⟨rhs', hr', h⟩ := Option.bind_eq_some_iff.1 h
  split at h
  · simp at h
  rename_i c1
  split at h
  · simp at h
  rename_i c2
  split at h
  · simp at h
  rename_i c3
  split at h
  · simp at h
  rename_i c4
  split at h
  · simp at h
  rename_i c5
  simp only [Bool.not_eq_true, Bool.not_eq_false'] at c1 c2 c3 c4 c5
  have e := castTo_operand hl' (by simpa using c5)
  subst e
  obtain ⟨⟨M0, L0⟩, hs, h⟩ := Option.bind_eq_some_iff.1 h
  have h' : ∃ M1, (if M0.truthy then replaceCls 0 some M0 else some M0) = some M1 ∧
      ∃ M, reinit M1 = some M ∧ ∃ L, reinit L0 = some L ∧
      ∃ F, (if rhs.truthy then castTo expr.sig rhs else some (.cst expr.sig 0)) = some F ∧
        some (⟨lhs', rhs, cond, modes, M, L, F⟩ : IvpEqn K) = some q := by
    have fin : ∀ {M L : Expr K}, (if rhs.truthy = true then
          (castTo expr.sig rhs).bind fun F => some (⟨lhs', rhs, cond, modes, M, L, F⟩ : IvpEqn K)
        else (some (.cst expr.sig 0)).bind fun F => some ⟨lhs', rhs, cond, modes, M, L, F⟩) = some q →
        ∃ F, (if rhs.truthy then castTo expr.sig rhs else some (.cst expr.sig 0)) = some F ∧
        some (⟨lhs', rhs, cond, modes, M, L, F⟩ : IvpEqn K) = some q := by
      intro M L h
      split at h
      · rename_i hz
        obtain ⟨F, hF, h⟩ := Option.bind_eq_some_iff.1 h
        exact ⟨F, by simp [hz, hF], h⟩
      · rename_i hz
        exact ⟨_, by simp [hz], h⟩
    have tail : ∀ {M1 : Expr K}, ((reinit M1).bind fun M => (reinit L0).bind fun L =>
        if rhs.truthy = true then
          (castTo expr.sig rhs).bind fun F => some (⟨lhs', rhs, cond, modes, M, L, F⟩ : IvpEqn K)
        else (some (.cst expr.sig 0)).bind fun F => some ⟨lhs', rhs, cond, modes, M, L, F⟩) = some q →
        ∃ M, reinit M1 = some M ∧ ∃ L, reinit L0 = some L ∧
        ∃ F, (if rhs.truthy then castTo expr.sig rhs else some (.cst expr.sig 0)) = some F ∧
        some (⟨lhs', rhs, cond, modes, M, L, F⟩ : IvpEqn K) = some q := by
      intro M1 h
      obtain ⟨M, hM, h⟩ := Option.bind_eq_some_iff.1 h
      obtain ⟨L, hL, h⟩ := Option.bind_eq_some_iff.1 h
      exact ⟨M, hM, L, hL, fin h⟩
    simp only at h
    split at h
    · rename_i hz
      obtain ⟨M1, hM1, h⟩ := Option.bind_eq_some_iff.1 h
      exact ⟨M1, by simp [hz, hM1], tail h⟩
    · rename_i hz
      exact ⟨M0, by simp [hz], tail h⟩
  obtain ⟨M1, h1, M, h2, L, h3, F, h4, h5⟩ := h'
  obtain rfl := Option.some.inj h5
  exact ⟨expr.sig, M0, M1, by simpa using c5, by simpa using c1, c2, by simpa using c3,
    ⟨rhs', hr', c4⟩, ⟨L0, hs, h3⟩, h1, h2, h4, rfl, rfl, rfl, rfl⟩

/-- C52. For an equation accepted by an initial value problem whose coefficients contain no time
derivatives, the matrix expressions represent the left-hand side: for any fields depending on time, with
coefficients constant in time, the left-hand side has the value of `M` applied to the time derivatives of
the variables plus `L` applied to the variables; the right-hand side is `F`; and `M` and `L` are linear in
the variables. -/
theorem ivp_matrices_partial {G : Nat → Sig} {vars : List Nat} {time : Nat} {lhs rhs : Expr K} {cond : String}
    {modes : List Bool} {q : IvpEqn K} (h : ivpAdd vars time lhs rhs cond modes = some q)
    (hw : WF G lhs) (hd : DtOps lhs) (hc : CoeffFree vars lhs) (S : Sem K X) (env : Nat → X → K) :
    (TimeLike S G vars env →
      eval S env lhs = eval S (rates S G vars env) q.M + eval S env q.L) ∧
    eval S env q.F = eval S env rhs ∧
    (∀ (u w : Nat → X → K) (c d : K), eval S (withVars vars env (c • u + d • w)) q.L =
      c • eval S (withVars vars env u) q.L + d • eval S (withVars vars env w) q.L) ∧
    (∀ (u w : Nat → X → K) (c d : K), eval S (withVars vars env (c • u + d • w)) q.M =
      c • eval S (withVars vars env u) q.M + d • eval S (withVars vars env w) q.M) := by
  obtain ⟨s, M0, M1, ho, hl, _, hf, _, ⟨L0, hs, hL⟩, hM1, hM, hF, _⟩ := ivpAdd_inv h
  obtain ⟨tM, tL, hval, hn, _⟩ := split_spec (Or.inl hw) hs
  have dops := dtOps_of_split hs hd
  have hdl := split_dtLin hl hf hd hc hs
  -- value of L
  have vL : ∀ env : Nat → X → K, eval S env q.L = eval S env L0 := fun env => reinit_spec tL hL S env
  have fL : ¬ Mentions (.cls 0) L0 := hn _ (by simp)
  -- value of M
  have vM : ∀ env : Nat → X → K, eval S env q.M = eval (S.withDt LinearMap.id) env M0 := by
    intro env
    rcases hdl with rfl | hdl
    · simp only [Expr.truthy, eqNum_num, decide_true, Bool.not_true, Bool.false_eq_true, if_false,
        Option.some.injEq] at hM1
      subst hM1
      rw [reinit_spec (Ty.zero (G := G) (s := [])) hM S env]; rfl
    · have wM : WF G M0 := (tM.operand hdl.operand).1
      have ht : M0.truthy = true := by
        cases h : M0.truthy with
        | true => rfl
        | false => rw [truthy_false] at h; subst h; exact wM.elim
      rw [if_pos ht] at hM1
      obtain ⟨t1, v1⟩ := replaceCls_spec (Q := (· = dtOp)) (by rintro o rfl; simp [dtOp]) (Or.inl wM)
        hdl.firstOrder dops.1 (by intro s a r ha h; obtain rfl := Option.some.inj h; exact ha) hM1
      rw [reinit_spec t1 hM S env]
      apply v1 S _ env (agree_withDt S LinearMap.id)
      intro s o a r _ ho _ h
      obtain rfl := Option.some.inj h
      simp [Sem.withDt, ho]
  -- L is the left-hand side with time derivatives dropped
  have sL : ∀ env : Nat → X → K, eval S env L0 = eval (S.withDt 0) env lhs := by
    intro env
    rw [← hval, eval_agree (agree_withDt S 0) env fL]
    rcases hdl with rfl | hdl
    · have : eval (S.withDt 0) env (.num 0 : Expr K) = 0 := rfl
      rw [this, zero_add]
    · rw [hdl.eval_zero, zero_add]
  have sM : ∀ env : Nat → X → K, eval (S.withDt LinearMap.id) env M0 =
      eval (S.withDt LinearMap.id) env lhs - eval (S.withDt 0) env lhs := by
    intro env
    rw [← hval (S.withDt LinearMap.id) env, eval_agree (agree_withDt S _) env fL, sL, add_sub_cancel_right]
  refine ⟨?_, ?_, ?_, ?_⟩
  · intro hT
    rw [vL, vM, ← hval S env]
    congr 1
    rcases hdl with rfl | hdl
    · rfl
    · exact hdl.eval_rates hT (tM.operand hdl.operand).1 dops.1
  · split at hF
    · exact castTo_eval S env hF
    · rename_i hz
      have : rhs = .num 0 := truthy_false.1 (by simpa using hz)
      rw [← Option.some.inj hF, this]; rfl
  · intro u w c d
    simp only [vL, sL]
    exact linear_core _ hl env u w c d (by simp)
  · intro u w c d
    simp only [vM, sM]
    rw [linear_core (S.withDt LinearMap.id) hl env u w c d (by simp),
      linear_core (S.withDt 0) hl env u w c d (by simp)]
    module

/-- Arrays over discrete time: the time derivative is the difference of consecutive values, every other
operator that is not required to be something else is multiplication by two, pointwise in time. -/
def timeSem : Sem ℚ ℕ where
  bil _ _ _ := LinearMap.mul ℚ (ℕ → ℚ)
  lin o _ := if o = dtOp then
      { toFun := fun u n => u (n + 1) - u n
        map_add' := by intro u v; funext n; simp only [Pi.add_apply]; ring
        map_smul' := by intro c u; funext n; simp only [Pi.smul_apply, smul_eq_mul, RingHom.id_apply]; ring }
    else if o.kind = .annihilates then 0
    else if o.kind = .keeps ∨ o.kind = .passes then LinearMap.id else (2 : ℚ) • LinearMap.id
  un _ := id
  pw a p := if p = 0 then 1 else if p = 1 then a else 0
  mul_left _ _ _ := rfl
  mul_right _ _ _ := rfl
  annihilates o c h := by
    have : o ≠ dtOp := by rintro rfl; simp [dtOp] at h
    simp [h, this]
  keeps o c h := by
    have : o ≠ dtOp := by rintro rfl; simp [dtOp] at h
    simp [h, this]
  passes o s h := by
    have : o ≠ dtOp := by rintro rfl; simp [dtOp] at h
    simp [h, this]
  pow_zero a := by simp
  pow_one a := by simp

theorem timeSem_dt (s : Sig) (u : ℕ → ℚ) (n : ℕ) : timeSem.lin dtOp s u n = u (n + 1) - u n := by
  simp [timeSem]

theorem timeSem_timeLike (V : List Nat) (env : Nat → ℕ → ℚ) (h : ∀ i, i ∉ V → ∀ n, env i (n + 1) = env i n) :
    TimeLike timeSem (fun _ => []) V env where
  stationary i hi := by funext n; rw [timeSem_dt, h i hi]; simp
  const s k := by funext n; rw [timeSem_dt]; simp
  commutes o s v ho := by
    funext n
    rw [timeSem_dt]
    have e : ∀ u : ℕ → ℚ, timeSem.lin o s u = if o.kind = .annihilates then 0
        else if o.kind = .keeps ∨ o.kind = .passes then u else (2 : ℚ) • u := by
      intro u
      simp only [timeSem, ho, if_false]
      split
      · rfl
      · split <;> rfl
    rw [e, e]
    split
    · simp
    · split
      · rw [timeSem_dt]
      · simp only [Pi.smul_apply, smul_eq_mul]; rw [timeSem_dt]; ring
  prod_left q s t c u hc := by
    funext n
    have h1 : c (n + 1) = c n := by
      have := congrFun hc n; rw [timeSem_dt] at this; simpa [sub_eq_zero] using this
    have e : ∀ a b : ℕ → ℚ, timeSem.bil q s t a b = a * b := fun _ _ => rfl
    rw [timeSem_dt, e, e]
    simp only [Pi.mul_apply, timeSem_dt, h1]; ring
  prod_right q s t u c hc := by
    funext n
    have h1 : c (n + 1) = c n := by
      have := congrFun hc n; rw [timeSem_dt] at this; simpa [sub_eq_zero] using this
    have e : ∀ a b : ℕ → ℚ, timeSem.bil q s t a b = a * b := fun _ _ => rfl
    rw [timeSem_dt, e, e]
    simp only [Pi.mul_apply, timeSem_dt, h1]; ring
  fn f s a h := h
  pow p s a h := by
    funext n
    have h1 : a (n + 1) = a n := by
      have := congrFun h n; rw [timeSem_dt] at this; simpa [sub_eq_zero] using this
    rw [timeSem_dt, h1]; simp

/-- `f*dt(u) + 3*d(u) = u*u`, with variable `u = 0`, coefficient `f = 1` and time field `2`. -/
def exLhs : Expr ℚ :=
  .add (.prod .mul (.fld 1 []) (.lin dtOp (.fld 0 []))) (.prod .mul (.num 3) (.lin diffOp (.fld 0 [])))
def exRhs : Expr ℚ := .prod .mul (.fld 0 []) (.fld 0 [])

/-- The equation is accepted, and a field growing with time with a constant coefficient meets the
hypotheses. -/
example : WF (fun _ => []) exLhs ∧ DtOps exLhs ∧ CoeffFree [0] exLhs ∧
    (ivpAdd [0] 2 exLhs exRhs "True" []).map (fun q => (q.M, q.L)) = some
      (.prod .mul (.fld 1 []) (.fld 0 []), .prod .mul (.num 3) (.lin diffOp (.fld 0 []))) ∧
    TimeLike timeSem (fun _ => []) [0] (fun i n => if i = 0 then (n : ℚ) else 5) := by
  refine ⟨by simp [exLhs, WF, PKind.fits, diffOp, dtOp, Expr.sig, PKind.outSig, Op.outSig],
    by simp [exLhs, DtOps, ClsOps, diffOp, dtOp], by simp [exLhs, CoeffFree, Mentions, diffOp], ?_, ?_⟩
  · decide +kernel
  · apply timeSem_timeLike
    intro i hi n
    simp at hi
    simp [hi]

/-- C52, part that fails: a product of a variable with the time derivative of a coefficient is accepted, and
becomes a term `f*dt(u)`. Here `f` is constant in time, so the left-hand side `dt(f)*u` is zero, but `M`
applied to the time derivative of `u` is not. -/
theorem ivp_matrices_refuted : ∃ (lhs : Expr ℚ) (q : IvpEqn ℚ) (env : Nat → ℕ → ℚ),
    WF (fun _ => []) lhs ∧ DtOps lhs ∧ ivpAdd [0] 2 lhs (.num 0) "True" [] = some q ∧
    TimeLike timeSem (fun _ => []) [0] env ∧
    eval timeSem env lhs ≠ eval timeSem (rates timeSem (fun _ => []) [0] env) q.M + eval timeSem env q.L := by
  refine ⟨.prod .mul (.lin dtOp (.fld 1 [])) (.fld 0 []),
    ⟨.prod .mul (.lin dtOp (.fld 1 [])) (.fld 0 []), .num 0, "True", [],
      .prod .mul (.fld 1 []) (.fld 0 []), .num 0, .cst [] 0⟩,
    fun i n => if i = 0 then (n : ℚ) else 5, ?_, ?_, ?_, ?_, ?_⟩
  · simp [WF, PKind.fits, dtOp]
  · simp [DtOps, ClsOps]
  · rfl
  · apply timeSem_timeLike
    intro i hi n
    simp at hi
    simp [hi]
  · intro h
    have := congrFun h 0
    have e : ∀ a b : ℕ → ℚ, timeSem.bil .mul [] [] a b = a * b := fun _ _ => rfl
    simp [eval, Expr.sig, e, timeSem_dt, rates, withVars, dtOp, Op.outSig] at this
    rw [show (⟨0, .noNewOperand, .same, 0⟩ : Op) = dtOp from rfl] at this
    simp [timeSem_dt] at this

end C52

end Dedalus.Symb
