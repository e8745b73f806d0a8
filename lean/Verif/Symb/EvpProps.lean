import Verif.Symb.EvpLemmas

/-!
# Properties of eigenvalue problems (C53)
-/

namespace Dedalus.Symb

section C53

variable {K X : Type} [Field K] [DecidableEq K]

/-- C53. For an equation accepted by an eigenvalue problem, whenever the eigenvalue field holds the number
`c`, the left-hand side has the value of `c` times `M` plus `L`. `M` and `L` do not depend on the
eigenvalue and are linear in the variables. The right-hand side is zero. -/
theorem evp_matrices {G : Nat → Sig} {vars : List Nat} {eig : Nat} {lhs rhs : Expr K} {cond : String}
    {modes : List Bool} {q : EvpEqn K} (h : evpAdd vars eig lhs rhs cond modes = some q)
    (hw : WF G lhs) (hG : G eig = []) (heig : eig ∉ vars) (S : Sem K X) (env : Nat → X → K) :
    (∀ c : K, (env eig = fun _ => c) → eval S env lhs = c • eval S env q.M + eval S env q.L) ∧
    eval S env rhs = 0 ∧
    (∀ v, eval S (setVal env eig v) q.M = eval S env q.M) ∧
    (∀ v, eval S (setVal env eig v) q.L = eval S env q.L) ∧
    (∀ (u w : Nat → X → K) (c d : K), eval S (withVars vars env (c • u + d • w)) q.L =
      c • eval S (withVars vars env u) q.L + d • eval S (withVars vars env w) q.L) ∧
    (∀ (u w : Nat → X → K) (c d : K), eval S (withVars vars env (c • u + d • w)) q.M =
      c • eval S (withVars vars env u) q.M + d • eval S (withVars vars env w) q.M) := by
  obtain ⟨M0, L0, M1, ho, hl, ha, rfl, hs, hL, hM1, hM, _⟩ := evpAdd_inv h
  obtain ⟨tM, tL, hval, hn, _⟩ := split_spec (Or.inl hw) hs
  have vL : ∀ env : Nat → X → K, eval S env q.L = eval S env L0 := fun env => reinit_spec tL hL S env
  have nL : ∀ (env : Nat → X → K) v, eval S (setVal env eig v) L0 = eval S env L0 := by
    intro env v
    apply eval_congr
    intro i m
    have : i ≠ eig := by rintro rfl; exact hn _ (by simp) m
    simp [setVal, this]
  -- M is the first part at eigenvalue one
  have vM : ∀ env : Nat → X → K, eval S env q.M = eval S (setVal env eig (fun _ => 1)) M0 := by
    intro env
    split at hM1
    · obtain ⟨t1, v1, _⟩ := replace_spec (G := G) (r := .num 1)
        (Or.inr (Or.inl ⟨1, rfl, hG⟩)) (wfOrNum_of_ty tM) hM1
      rw [reinit_spec t1 hM S env, v1]; rfl
    · rename_i hz
      have z : M0 = .num 0 := truthy_false.1 (by simpa using hz)
      subst z
      obtain rfl := Option.some.inj hM1
      rw [reinit_zero hM]; rfl
  have p0 : ∀ env : Nat → X → K, eval S (setVal env eig 0) M0 = 0 := by
    intro env
    have := split_affine_zero (V := [eig]) (Or.inl hw) (by simpa using ha) (by simpa using hs) S env
    rwa [withVars_single] at this
  have val : ∀ env : Nat → X → K, eval S env M0 = eval S env lhs - eval S env L0 := by
    intro env; rw [← hval S env, add_sub_cancel_right]
  have sL : ∀ env : Nat → X → K, eval S env L0 = eval S (setVal env eig 0) lhs := by
    intro env; rw [← hval S (setVal env eig 0), p0, zero_add, nL]
  refine ⟨?_, rfl, ?_, ?_, ?_, ?_⟩
  · intro c hc
    have aff := linear_core S (V := [eig]) (affine := true) (e := lhs) (by simpa using ha) env
      (fun _ _ => 1) 0 c (1 - c) (by simp)
    simp only [withVars_single] at aff
    have e1 : setVal env eig ((c • (fun _ _ => 1 : Nat → X → K) + (1 - c) • (0 : Nat → X → K)) eig) = env := by
      apply setVal_self
      rw [hc]; funext x; simp
    rw [e1] at aff
    have e2 : setVal env eig ((0 : Nat → X → K) eig) = setVal env eig 0 := rfl
    rw [e2, ← sL env] at aff
    rw [aff, vM, val, vL, nL]
    module
  · intro v
    rw [vM, vM]
    congr 1
    funext i; by_cases hi : i = eig <;> simp [setVal, hi]
  · intro v; rw [vL, vL, nL]
  · intro u w c d
    simp only [vL, sL, setVal_withVars heig]
    exact linear_core _ hl _ u w c d (by simp)
  · intro u w c d
    simp only [vM, val, nL]
    simp only [sL, setVal_withVars heig]
    rw [linear_core S hl _ u w c d (by simp), linear_core S hl _ u w c d (by simp)]
    module

/-- `f*lambda*u + d(u)`: variable 0, coefficient 1, eigenvalue 2. -/
def exEvp : Expr ℚ :=
  .add (.prod .mul (.fld 1 []) (.prod .mul (.fld 2 []) (.fld 0 []))) (.lin diffOp (.fld 0 []))

/-- The equation is accepted, with `M = f*u` (the factor one is dropped) and `L = d(u)`. -/
example : WF (fun _ => []) exEvp ∧
    (evpAdd [0] 2 exEvp (.num 0) "True" []).map (fun q => (q.M, q.L)) = some
      (.prod .mul (.fld 1 []) (.fld 0 []), .lin diffOp (.fld 0 [])) :=
  ⟨by simp [exEvp, WF, PKind.fits, diffOp, Expr.sig, PKind.outSig, Op.outSig], by decide +kernel⟩

/-- A left-hand side quadratic in the eigenvalue is rejected. -/
example : (evpAdd [0] 2 (.prod .mul (.fld 2 []) exEvp) (.num (0 : ℚ)) "True" []).isNone = true := by
  decide +kernel

end C53

end Dedalus.Symb
