import Mathlib.Algebra.BigOperators.Group.List.Basic
import Mathlib.Algebra.Field.Rat
import Verif.Symb.Total
import Verif.Symb.Frechet

/-!
# Properties of symbolic expressions

C20 (split), C21 (linearity check), C22 (symbolic derivative), C23 (Frechet differential), C48
(simplifications).
-/

namespace Dedalus.Symb

/-! ### C20 -/

section C20

variable {K X : Type} [Field K] [DecidableEq K]

/-- C20. Splitting by any list of fields and operator classes gives two expressions whose values add up
to the value of the original, for every interpretation of the operators and every value of the fields;
the second mentions none of the variables, and every term of the first mentions one. -/
theorem split_parts {G : Nat → Sig} {vars : List Var} (hv : vars ≠ []) {e p n : Expr K} (hw : WF G e)
    (h : split vars e = some (p, n)) :
    (∀ (S : Sem K X) (env : Nat → X → K), eval S env p + eval S env n = eval S env e) ∧
    (∀ v ∈ vars, ¬ Mentions v n) ∧ (∀ t ∈ terms p, ∃ v ∈ vars, Mentions v t) := by
  obtain ⟨_, _, hval, hn, hp⟩ := split_spec (Or.inl hw) h
  refine ⟨fun S env => hval S env, hn, ?_⟩
  rcases hp hv with rfl | ⟨_, _, ht⟩
  · simp [terms]
  · exact ht

/-- C20. Splitting succeeds whenever every operator in the expression is one of the operators to split
by, or can be rebuilt on zero; the parts are then operands of the same tensor signature, or zero. -/
theorem split_succeeds {G : Nat → Sig} {vars : List Var} {e : Expr K} (hw : WF G e) (hs : Splittable vars e) :
    ∃ p n, split vars e = some (p, n) ∧ (p = .num 0 ∨ (WF G p ∧ p.sig = e.sig)) ∧
      (n = .num 0 ∨ (WF G n ∧ n.sig = e.sig)) :=
  split_total hw hs

/-- An operator of each kind, for examples. -/
def diffOp : Op := ⟨2, .annihilates, .same, 0⟩
def lockOp : Op := ⟨1, .rejects, .same, 0⟩
def dtOp' : Op := ⟨0, .noNewOperand, .same, 0⟩

/-- `(u + 2*v) * d(u + 3)` split by `u`. -/
def exSplit : Expr ℚ :=
  .prod .mul (.add (.fld 0 []) (.prod .mul (.num 2) (.fld 1 []))) (.lin diffOp (.add (.fld 0 []) (.cst [] 3)))

example : WF (fun _ => []) exSplit ∧ Splittable [.fld 0] exSplit ∧
    split [.fld 0] exSplit = some
      (.add (.add (.prod .mul (.fld 0 []) (.lin diffOp (.fld 0 [])))
          (.prod .mul (.fld 0 []) (.lin diffOp (.cst [] 3))))
        (.prod .mul (.prod .mul (.num 2) (.fld 1 [])) (.lin diffOp (.fld 0 []))),
       .prod .mul (.prod .mul (.num 2) (.fld 1 [])) (.lin diffOp (.cst [] 3))) := by
  refine ⟨by simp [exSplit, WF, PKind.fits, diffOp, Expr.sig, PKind.outSig], by simp [exSplit, Splittable, diffOp], ?_⟩
  decide +kernel

/-- C20, part that fails: splitting by a field raises on an expression with a time derivative or a
lock. -/
theorem split_refuted : ∃ (e₁ e₂ : Expr ℚ), WF (fun _ => []) e₁ ∧ WF (fun _ => []) e₂ ∧
    split [.fld 0] e₁ = none ∧ split [.fld 0] e₂ = none := by
  refine ⟨.lin dtOp' (.fld 0 []), .add (.fld 0 []) (.lin lockOp (.fld 1 [])), ?_, ?_, ?_, ?_⟩
  · simp [WF, dtOp']
  · simp [WF, lockOp, Expr.sig, Op.outSig]
  · decide +kernel
  · decide +kernel

end C20

/-! ### C21 -/

section C21

variable {K X : Type} [Field K] [DecidableEq K]

/-- C21. An expression accepted by the strict check is a linear function of the variables. -/
theorem accepted_is_linear {V : List Nat} {e : Expr K} (h : linearOK (V.map Var.fld) false e = true)
    (S : Sem K X) (env u w : Nat → X → K) (c d : K) :
    eval S (withVars V env (c • u + d • w)) e =
      c • eval S (withVars V env u) e + d • eval S (withVars V env w) e :=
  linear_core S h env u w c d (by simp)

/-- C21. An expression accepted by the check that allows affine terms is an affine function of the
variables. -/
theorem accepted_is_affine {V : List Nat} {e : Expr K} (h : linearOK (V.map Var.fld) true e = true)
    (S : Sem K X) (env u w : Nat → X → K) (c : K) :
    eval S (withVars V env (c • u + (1 - c) • w)) e =
      c • eval S (withVars V env u) e + (1 - c) • eval S (withVars V env w) e :=
  linear_core S h env u w c (1 - c) (by simp)

/-- C21. An expression whose value is not a linear function of the variables is rejected. -/
theorem nonlinear_is_rejected {V : List Nat} {e : Expr K} (S : Sem K X) (env u w : Nat → X → K) (c d : K)
    (hn : eval S (withVars V env (c • u + d • w)) e ≠
      c • eval S (withVars V env u) e + d • eval S (withVars V env w) e) :
    linearOK (V.map Var.fld) false e = false := by
  cases h : linearOK (V.map Var.fld) false e with
  | false => rfl
  | true => exact absurd (accepted_is_linear h S env u w c d) hn

/-- The interpretation over one point: products are products of numbers, derivatives are zero, all other
operators the identity. -/
def pointSem (un : UF → ℚ → ℚ) : Sem ℚ Unit where
  bil _ _ _ := LinearMap.mul ℚ (Unit → ℚ)
  lin o _ := if o.kind = .annihilates then 0 else LinearMap.id
  un := un
  pw a p := if p = 0 then 1 else if p = 1 then a else 0
  mul_left _ _ _ := rfl
  mul_right _ _ _ := rfl
  annihilates o c h := by simp [h]
  keeps o c h := by simp [h]
  passes o s h := by simp [h]
  pow_zero a := by simp
  pow_one a := by simp

example : linearOK [.fld 0] false (.prod .mul (.fld 1 []) (.lin diffOp (.fld 0 []) : Expr ℚ)) = true ∧
    linearOK [.fld 0] true (.add (.fld 0 []) (.un .sin (.fld 1 [])) : Expr ℚ) = true := by decide +kernel

/-- `u * u` over one point is not linear, and is rejected. -/
example : eval (pointSem fun _ => id) (withVars [0] 0 ((2 : ℚ) • 1 + (0 : ℚ) • 0)) (.prod .mul (.fld 0 []) (.fld 0 [])) ≠
      (2 : ℚ) • eval (pointSem fun _ => id) (withVars [0] 0 1) (.prod .mul (.fld 0 []) (.fld 0 [])) +
      (0 : ℚ) • eval (pointSem fun _ => id) (withVars [0] 0 0) (.prod .mul (.fld 0 []) (.fld 0 [])) := by
  intro h
  have := congrFun h ()
  simp [eval, withVars, pointSem] at this

end C21

/-! ### C22 -/

section C22

variable {X : Type}

/-- C22. When symbolic differentiation with respect to a scalar field returns an expression, its value is
the derivative of the expression's value as the field is moved by `t`, for all linear operators and
products, all powers and all built-in functions with the field values inside their domains.
Missing from the full statement: functions and powers of vectors and tensors (false, see
`symDiff_refuted`). -/
theorem symDiff_is_derivative_partial [Fintype X] {G : Nat → Sig} {S : Sem ℝ X} (hS : Analytic S)
    (env : Nat → X → ℝ) {x : Nat} (hx : G x = []) {e d : Expr ℝ} (hw : WF G e) (hs : ScalarFns e)
    (hd : InDomain S env e) (h : symDiff x e = some d) :
    HasDerivAt (fun t : ℝ => eval S (setVal env x (fun p => env x p + t)) e) (eval S env d) 0 :=
  (symDiff_spec hS env hx hw hs hd h).2

/-- The real interpretation over one point. -/
noncomputable def realSem : Sem ℝ Unit where
  bil _ _ _ := LinearMap.mul ℝ (Unit → ℝ)
  lin o _ := if o.kind = .annihilates then 0 else LinearMap.id
  un := realFn
  pw a p := a ^ p
  mul_left _ _ _ := rfl
  mul_right _ _ _ := rfl
  annihilates o c h := by simp [h]
  keeps o c h := by simp [h]
  passes o s h := by simp [h]
  pow_zero a := Real.rpow_zero a
  pow_one a := Real.rpow_one a

/-- `u * sin(u)` at `u = 2`. -/
example : Analytic realSem ∧ WF (fun _ => []) (.prod .mul (.fld 0 []) (.un .sin (.fld 0 [])) : Expr ℝ) ∧
    ScalarFns (.prod .mul (.fld 0 []) (.un .sin (.fld 0 [])) : Expr ℝ) ∧
    InDomain realSem (fun _ _ => 2) (.prod .mul (.fld 0 []) (.un .sin (.fld 0 []))) ∧
    symDiff 0 (.prod .mul (.fld 0 []) (.un .sin (.fld 0 [])) : Expr ℝ) =
      some (.add (.un .sin (.fld 0 [])) (.prod .mul (.fld 0 []) (.un .cos (.fld 0 [])))) := by
  refine ⟨⟨fun _ _ => rfl, fun _ _ => rfl⟩, by simp [WF, PKind.fits], by simp [ScalarFns, Expr.sig],
    by simp [InDomain, fnDom], ?_⟩
  simp [symDiff, newProd, mkMul, preMul, deriv, newUn, Expr.eqNum, Expr.isOperand, pySum, mkAdd, preAdd,
    unifySig, castTo, Expr.sig, List.filter, PKind.outSig]

/-- C22, part that fails: the derivative of a function of a vector is a product of two vectors, a tensor
of rank two. -/
theorem symDiff_refuted : ∃ (e d : Expr ℚ) (_ : Consts ℚ), WF (fun i => if i = 0 then [] else [7]) e ∧
    symDiff 0 e = some d ∧ e.sig = [7] ∧ d.sig = [7, 7] := by
  refine ⟨.un .sin (.prod .mul (.fld 0 []) (.fld 1 [7])),
    .prod .mul (.un .cos (.prod .mul (.fld 0 []) (.fld 1 [7]))) (.fld 1 [7]), ⟨0, 0, 0⟩, ?_, ?_, rfl, rfl⟩
  · simp [WF, PKind.fits]
  · decide +kernel

end C22

/-! ### C23 -/

section C23

variable {X : Type}

/-- C23. The differential of an expression, with respect to distinct variables, about given backgrounds and
in given directions, has the value of the directional derivative at the backgrounds: with `B` the field
values after each variable gets the value of its background, and `P` the values of the perturbations (zero
for the other fields), it is the derivative at `t = 0` of the value at `B + t P`. Backgrounds may mention
the variables, but a background may not mention a variable that comes later in the list (this is the part
missing, see `frechet_refuted`); perturbations mention no variables; functions are applied to scalars. An
empty list of backgrounds stands for the default. -/
theorem frechet_is_directional_derivative_partial [Fintype X] {G : Nat → Sig} {S : Sem ℝ X} (hS : Analytic S)
    {eps : Nat} (heps : G eps = []) {perts bgs : List ((Nat × Sig) × Expr ℝ)}
    (hnd : (perts.map (·.1.1)).Nodup) (hne : eps ∉ perts.map (·.1.1))
    (hsig : ∀ a ∈ perts, a.1.2 = G a.1.1 ∧ WF G a.2 ∧ a.2.sig = G a.1.1 ∧ ScalarFns a.2)
    (hfree : ∀ a ∈ perts, ∀ i, Mentions (.fld i) a.2 → i ≠ eps ∧ i ∉ perts.map (·.1.1))
    (hvars : ∀ i ∈ bgs.map (·.1.1), i ∈ perts.map (·.1.1))
    (hndb : (bgs.map (·.1.1)).Nodup)
    (hsigb : ∀ a ∈ bgs, WF G a.2 ∧ a.2.sig = G a.1.1)
    (hlater : bgs.Pairwise (fun a b => ¬ Mentions (.fld b.1.1) a.2))
    {e d : Expr ℝ} (hw : WF G e) (hee : ¬ Mentions (.fld eps) e) (hs : ScalarFns e)
    (env : Nat → X → ℝ)
    (hdp : ∀ a ∈ perts, InDomain S env a.2) (hd : InDomain S (assigned S bgs env env) e)
    (h : frechet eps perts bgs e = some d) :
    HasDerivAt (fun t : ℝ => eval S (assigned S bgs env env + t • assigned S perts env 0) e)
      (eval S env d) 0 :=
  frechet_spec hS heps hnd hne hsig hfree hvars hndb (fun a ha => Or.inr (Or.inr (hsigb a ha))) hlater hw hee hs
    env hdp hd h

/-- The square of `u` about the background `3`, in the direction `du`: the hypotheses hold and the
differential is computed. Fields: `u = 0`, `epsilon = 1`, `du = 2`. -/
example : frechet 1 [((0, []), .fld 2 [])] [((0, []), .cst [] 3)] (.pow (.fld 0 []) 2 : Expr ℝ) =
      some (.prod .mul (.prod .mul (.num 2) (.cst [] 3)) (.fld 2 [])) ∧
    InDomain realSem (assigned realSem [((0, []), .cst [] 3)] 0 0) (.pow (.fld 0 []) 2) := by
  constructor
  · norm_num [frechet, perturb, replace, symDiff, pyPow, newPow, newProd, mkMul, preMul, newUn, Expr.eqNum,
      Expr.isOperand, pySum, mkAdd, preAdd, unifySig, castTo, Expr.sig, List.filter, PKind.outSig, substAll,
      Expr.truthy, Expr.numVal]
  · refine ⟨trivial, fun _ => Or.inl ?_⟩
    norm_num [assigned, eval]

/-- C23, part that fails: backgrounds are substituted one after the other, so exchanging two variables in
the backgrounds does not evaluate the differential at the exchanged values. For `u * v` about the
backgrounds `u = v`, `v = u`, at `u = 1`, `v = 2`, in the direction `(1, 1)`, the derivative is
`2 + 1 = 3`; the expression returned has the value `1 + 1 = 2`. -/
theorem frechet_refuted : ∃ d : Expr ℝ,
    frechet 2 [((0, []), .fld 3 []), ((1, []), .fld 4 [])] [((0, []), .fld 1 []), ((1, []), .fld 0 [])]
      (.prod .mul (.fld 0 []) (.fld 1 []) : Expr ℝ) = some d ∧
    let env : Nat → Unit → ℝ := fun i _ => if i = 0 then 1 else if i = 1 then 2 else 1
    let B : Nat → Unit → ℝ := fun i _ => if i = 0 then 2 else if i = 1 then 1 else 1
    let P : Nat → Unit → ℝ := fun i _ => if i = 0 then 1 else if i = 1 then 1 else 0
    eval realSem env d = (fun _ => 2) ∧
    HasDerivAt (fun t : ℝ => eval realSem (B + t • P) (.prod .mul (.fld 0 []) (.fld 1 []))) (fun _ => 3) 0 := by
  refine ⟨.add (.prod .mul (.fld 3 []) (.fld 0 [])) (.prod .mul (.fld 0 []) (.fld 4 [])), ?_, ?_⟩
  · simp [frechet, perturb, replace, symDiff, pyPow, newPow, newProd, mkMul, preMul, newUn, Expr.eqNum,
      Expr.isOperand, pySum, mkAdd, preAdd, unifySig, castTo, Expr.sig, List.filter, PKind.outSig, substAll,
      Expr.truthy, Expr.numVal]
  · constructor
    · funext x; simp [eval, realSem]; norm_num
    · rw [hasDerivAt_pi]
      intro x
      have h1 : HasDerivAt (fun t : ℝ => (2 + t) * (1 + t)) 3 0 := by
        have := ((hasDerivAt_id (0 : ℝ)).const_add 2).mul ((hasDerivAt_id (0 : ℝ)).const_add 1)
        norm_num at this
        exact this
      simpa [eval, realSem, add_mul] using! h1

end C23

/-! ### C48 -/

section C48

variable {K X : Type} [Field K] [DecidableEq K]

theorem numVal_sum (S : Sem K X) (env : Nat → X → K) : ∀ (l : List (Expr K)), (∀ a ∈ l, a.isOperand = false) →
    (fun _ => (l.map Expr.numVal).sum) = (l.map (eval S env)).sum
  | [], _ => by funext; simp
  | a :: l, h => by
    obtain ⟨c, rfl⟩ := not_operand (h a List.mem_cons_self)
    have ih := numVal_sum S env l (fun b hb => h b (List.mem_cons_of_mem _ hb))
    simp only [List.map_cons, List.sum_cons, ← ih]
    funext; simp [Expr.numVal, eval]

theorem numVal_prod (S : Sem K X) (env : Nat → X → K) : ∀ (l : List (Expr K)), (∀ a ∈ l, a.isOperand = false) →
    (fun _ => (l.map Expr.numVal).prod) = (l.map (eval S env)).prod
  | [], _ => by funext; simp
  | a :: l, h => by
    obtain ⟨c, rfl⟩ := not_operand (h a List.mem_cons_self)
    have ih := numVal_prod S env l (fun b hb => h b (List.mem_cons_of_mem _ hb))
    simp only [List.map_cons, List.prod_cons, ← ih]
    funext; simp [Expr.numVal, eval]

theorem sum_filter_zero (S : Sem K X) (env : Nat → X → K) : ∀ (l : List (Expr K)),
    ((l.filter (fun a => !a.eqNum 0)).map (eval S env)).sum = (l.map (eval S env)).sum
  | [] => rfl
  | a :: l => by
    have ih := sum_filter_zero S env l
    by_cases h : a.eqNum 0 = true
    · have : a = .num 0 := eqNum_iff.1 h
      subst this
      have z : eval S env (.num 0 : Expr K) = 0 := rfl
      simp [List.filter, ih, z]
    · simp [List.filter, h, ih]

theorem prod_filter_one (S : Sem K X) (env : Nat → X → K) : ∀ (l : List (Expr K)),
    ((l.filter (fun a => !a.eqNum 1)).map (eval S env)).prod = (l.map (eval S env)).prod
  | [] => rfl
  | a :: l => by
    have ih := prod_filter_one S env l
    by_cases h : a.eqNum 1 = true
    · have : a = .num 1 := eqNum_iff.1 h
      subst this
      have z : eval S env (.num 1 : Expr K) = 1 := rfl
      simp [List.filter, ih, z]
    · simp [List.filter, h, ih]

theorem mapM_castTo_sum (S : Sem K X) (env : Nat → X → K) {s : Sig} : ∀ {l l' : List (Expr K)},
    l.mapM (castTo s) = some l' → (l'.map (eval S env)).sum = (l.map (eval S env)).sum
  | [], l', h => by simp at h; subst h; rfl
  | a :: l, l', h => by
    simp only [List.mapM_cons, Option.bind_eq_bind, Option.bind_eq_some_iff, Option.pure_def,
      Option.some.injEq] at h
    obtain ⟨x, hx, l'', hl, rfl⟩ := h
    simp [castTo_eval S env hx, mapM_castTo_sum S env hl]

/-- What a preprocessing step hands over: a finished result, or the arguments of the node to build. -/
def Pre.out : Pre K → List (Expr K)
  | .skip r => [r]
  | .go l => l

/-- C48. For every list of arguments, the simplifications of `Add` (dropping zeros, returning a single
argument, adding plain numbers, casting numbers to fields) keep the value of the sum. -/
theorem add_simplify_value {args : List (Expr K)} {r : Pre K} (h : preAdd args = some r)
    (S : Sem K X) (env : Nat → X → K) :
    (r.out.map (eval S env)).sum = (args.map (eval S env)).sum := by
  rw [← sum_filter_zero S env args]
  unfold preAdd at h
  generalize args.filter (fun a => !a.eqNum 0) = l at h ⊢
  split at h
  · obtain rfl := Option.some.inj h; rfl
  · split at h
    · simp only [Option.bind_eq_bind, Option.bind_eq_some_iff, Option.some.injEq] at h
      obtain ⟨s, _, l', hl, rfl⟩ := h
      exact mapM_castTo_sum S env hl
    · rename_i hn
      obtain rfl := Option.some.inj h
      have : ∀ a ∈ l, a.isOperand = false := by
        simpa [List.any_eq_true] using hn
      simp only [Pre.out, List.map_cons, List.map_nil, List.sum_cons, List.sum_nil, add_zero]
      exact numVal_sum S env l this

/-- C48. For every list of scalar arguments, the simplifications of `Multiply` (dropping ones, returning a
single argument, zero products, multiplying plain numbers) keep the value of the product. -/
theorem mul_simplify_value {args : List (Expr K)} {r : Pre K} (h : preMul args = some r)
    (S : Sem K X) (env : Nat → X → K) :
    (r.out.map (eval S env)).prod = (args.map (eval S env)).prod := by
  rw [← prod_filter_one S env args]
  unfold preMul at h
  generalize args.filter (fun a => !a.eqNum 1) = l at h ⊢
  split at h
  · obtain rfl := Option.some.inj h; rfl
  · split at h
    · rename_i hz
      obtain rfl := Option.some.inj h
      simp only [List.any_eq_true, eqNum_iff] at hz
      obtain ⟨a, ha, rfl⟩ := hz
      have z : (0 : X → K) ∈ l.map (eval S env) := List.mem_map.2 ⟨_, ha, rfl⟩
      obtain ⟨l1, l2, e⟩ := List.append_of_mem z
      rw [e]
      have : eval S env (.num 0 : Expr K) = 0 := rfl
      simp [Pre.out, this]
    · split at h
      · obtain rfl := Option.some.inj h; rfl
      · rename_i hn
        obtain rfl := Option.some.inj h
        have : ∀ a ∈ l, a.isOperand = false := by
          simpa [List.any_eq_true] using hn
        simp only [Pre.out, List.map_cons, List.map_nil, List.prod_cons, List.prod_nil, mul_one]
        exact numVal_prod S env l this

/-- C48. Building a product of any kind (scalar, tensor, dot, cross), with any simplification taken,
gives the product of the values. -/
theorem product_value {p : PKind} {a b r : Expr K} (h : newProd p a b = some r)
    (S : Sem K X) (env : Nat → X → K) :
    eval S env r = S.bil p a.sig b.sig (eval S env a) (eval S env b) :=
  newProd_eval S env h

/-- C48. Applying a linear operator, with any simplification taken (numbers annihilated, kept or
returned), gives the operator applied to the value. -/
theorem operator_value {o : Op} {a r : Expr K} (h : newLin o a = some r) (S : Sem K X) (env : Nat → X → K) :
    eval S env r = S.lin o a.sig (eval S env a) :=
  newLin_eval S env h

/-- C48. Powers, with the exponents zero and one simplified, have the value of the power. -/
theorem power_value {a r : Expr K} {k : K} (h : pyPow a k = some r) (S : Sem K X) (env : Nat → X → K) :
    eval S env r = fun x => S.pw (eval S env a x) k := by
  unfold pyPow at h
  split at h
  · rename_i hk; obtain rfl := Option.some.inj h
    funext x; simp [eval, hk, S.pow_zero]
  split at h
  · rename_i hk; obtain rfl := Option.some.inj h
    funext x; simp [hk, S.pow_one]
  · obtain ⟨_, rfl⟩ := newPow_eq h; rfl

/-- A sum of zeros, numbers and a field; a product with a zero; a product of ones. -/
example : preAdd [.num 0, .num 2, .fld 0 [], (.num 0 : Expr ℚ)] = some (.go [.cst [] 2, .fld 0 []]) ∧
    preMul [.num 1, .fld 0 [], (.num 0 : Expr ℚ)] = some (.skip (.num 0)) ∧
    preMul [.num 1, (.num 1 : Expr ℚ)] = some (.skip (.num 1)) := by
  refine ⟨?_, ?_, ?_⟩ <;>
    simp [preAdd, preMul, Expr.eqNum, List.filter, Expr.isOperand, unifySig, castTo, Expr.sig, Expr.numVal]

end C48

end Dedalus.Symb
