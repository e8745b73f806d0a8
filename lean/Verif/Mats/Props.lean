import Mathlib.Tactic.NormNum
import Mathlib.Tactic.FinCases
import Verif.Mats.Assemble

/-!
# C25: problem matrices represent the equations
-/

namespace Dedalus.Mats

open Dedalus.Symb hiding eval Sem

variable {K X : Type} [Field K] [DecidableEq K]

/-- C25 (the matrices of the primitive operators and coefficients are assumed to represent them, see `Good`; for
one-dimensional and Cartesian ones this is proved in `Verif.Mats.Kron`). The blocks returned for an expression, applied to the subproblem's coefficients of the variables,
give the subproblem's coefficients of the expression's value. There is at most one block per variable, only
for the given variables, and each has the size of the expression by the size of its variable. -/
theorem expression_matrices_value_partial (S : Sub K) (idx : Expr K → Nat → X) (T : Sem K X) (env : Nat → X → K)
    (G : Nat → Sig) (vars : List (Nat × Sig)) (hG : ∀ v ∈ vars, v.2 = G v.1) (hnd : (vars.map Prod.fst).Nodup)
    (e : Expr K) (hg : Good S idx T env e) (D : Dict K) (h : exprMats S vars e = some D) :
    (D.map Prod.fst).Nodup ∧
    (∀ p ∈ D, p.1 ∈ vars.map Prod.fst ∧ p.2.rows = S.size e ∧ p.2.cols = S.size (.fld p.1 (G p.1))) ∧
    ∀ i, i < S.size e → eval T env e (idx e i) =
      (D.map (fun p => ∑ j ∈ Finset.range p.2.cols, p.2.e i j * env p.1 (idx (.fld p.1 (G p.1)) j))).sum := by
  obtain ⟨o, v⟩ := exprMats_spec S idx T env G hG hnd hg h
  exact ⟨o.2, fun p hp => ⟨(o.1 p hp).2.2, (o.1 p hp).1, (o.1 p hp).2.1⟩, v⟩

/-- C25. Matrices are found for every well-formed expression accepted by the linearity check, provided the
operators supply theirs. -/
theorem expression_matrices_exist (S : Sub K) (idx : Expr K → Nat → X) (T : Sem K X) (env : Nat → X → K)
    (G : Nat → Sig) (vars : List (Nat × Sig)) (hG : ∀ v ∈ vars, v.2 = G v.1) (hnd : (vars.map Prod.fst).Nodup)
    (hop : ∀ o a, ∃ m, S.opMat o a = some m) (hncc : ∀ p a b f, ∃ m, S.nccMat p a b f = some m)
    (e : Expr K) (hw : WF G e) (hg : Good S idx T env e)
    (hl : linearOK (vars.map (fun v => Var.fld v.1)) false e = true) : ∃ D, exprMats S vars e = some D :=
  exprMats_total S idx T env G hG hnd hop hncc hw hg hl

/-- C25 (same assumption on the primitives). The matrix assembled for a subproblem, applied to the concatenated coefficients of the variables,
gives the concatenated coefficients of the equations' expressions; rows of equations whose condition fails, or
without an expression, are zero. No entry is cut off. -/
theorem assembled_matrix_value_partial (S : Sub K) (idx : Expr K → Nat → X) (T : Sem K X) (env : Nat → X → K)
    (G : Nat → Sig) (vars : List (Nat × Sig)) (hG : ∀ v ∈ vars, v.2 = G v.1) (hnd : (vars.map Prod.fst).Nodup)
    (eqns : List (Eqn K)) (hq : ∀ q ∈ eqns, ∀ x, q.expr = some x → Good S idx T env x ∧ S.size x = q.size)
    (A : Mat K) (h : assemble S (fun c => c) vars eqns = some A)
    (xv : Nat → K)
    (hx : ∀ k (hk : k < vars.length) j, j < S.size (.fld (vars[k]).1 (vars[k]).2) →
      xv (((vars.map (fun v => S.size (.fld v.1 v.2))).take k).sum + j) =
        env (vars[k]).1 (idx (.fld (vars[k]).1 (vars[k]).2) j)) :
    A.rows = (eqns.map Eqn.size).sum ∧ A.cols = (vars.map (fun v => S.size (.fld v.1 v.2))).sum ∧
    ∀ n (hn : n < eqns.length) r, r < (eqns[n]).size →
      ∑ j ∈ Finset.range A.cols, A.e (((eqns.map Eqn.size).take n).sum + r) j * xv j =
        match (eqns[n]).cond, (eqns[n]).expr with
        | true, some x => eval T env x (idx x r)
        | _, _ => 0 := by
  obtain ⟨l, hl, h⟩ := Option.bind_eq_some_iff.1 h
  unfold fromCoo at h
  split at h
  · rename_i hin
    obtain rfl := Option.some.inj h
    refine ⟨rfl, rfl, fun n hn r hr => ?_⟩
    have hcol : ∀ t ∈ l, t.2.2 < (vars.map (fun v => S.size (.fld v.1 v.2))).sum := fun t ht =>
      (eqnBlocks_mem S idx T env G hG hnd hq hl ht).2
    have := eqnBlocks_val S idx T env G hG hnd hq hx hl n hn r hr
    simp only [zero_add] at this
    exact (coo_row (fun c => c) xv _ _ l hcol).trans this
  · simp at h

/-- C25. Assembly succeeds whenever every expression's matrices can be built. -/
theorem assembled_matrix_exists (S : Sub K) (idx : Expr K → Nat → X) (T : Sem K X) (env : Nat → X → K)
    (G : Nat → Sig) (cut : K → K) (vars : List (Nat × Sig)) (hG : ∀ v ∈ vars, v.2 = G v.1)
    (hnd : (vars.map Prod.fst).Nodup) (eqns : List (Eqn K))
    (hq : ∀ q ∈ eqns, ∀ x, q.expr = some x → Good S idx T env x ∧ S.size x = q.size)
    (he : ∀ q ∈ eqns, ∀ x, q.expr = some x → ∃ D, exprMats S vars x = some D) :
    ∃ A, assemble S cut vars eqns = some A := by
  have : ∀ i0, ∃ l, eqnBlocks S vars i0 eqns = some l := by
    clear hq
    induction eqns with
    | nil => exact fun _ => ⟨[], rfl⟩
    | cons q qs ih =>
      intro i0
      obtain ⟨rest, hr⟩ := ih (fun q hq' => he q (by simp [hq'])) (i0 + q.size)
      have : ∃ here, eqnEntries S vars i0 q = some here := by
        unfold eqnEntries
        split
        · cases hx : q.expr with
          | none => exact ⟨[], rfl⟩
          | some x =>
            obtain ⟨D, hD⟩ := he q (by simp) x hx
            exact ⟨_, by simp only [hD]; rfl⟩
        · exact ⟨[], rfl⟩
      obtain ⟨here, hh⟩ := this
      exact ⟨here ++ rest, by simp only [eqnBlocks, Option.bind_eq_bind, Option.bind_eq_some_iff]; exact ⟨here, hh, rest, hr, rfl⟩⟩
  obtain ⟨l, hl⟩ := this 0
  have hin : l.all (fun t => decide (t.2.1 < (eqns.map Eqn.size).sum) &&
      decide (t.2.2 < (vars.map (fun v => S.size (.fld v.1 v.2))).sum)) = true := by
    rw [List.all_eq_true]
    intro t ht
    obtain ⟨⟨_, h1⟩, h2⟩ := eqnBlocks_mem S idx T env G hG hnd hq hl ht
    simp only [zero_add] at h1
    simp [h1, h2]
  exact ⟨_, by
    simp only [assemble, Option.bind_eq_bind, Option.bind_eq_some_iff]
    exact ⟨l, hl, by unfold fromCoo; rw [if_pos hin]⟩⟩

/-! ### A concrete case -/

namespace Example

/-- Every operand has two coefficients; the operator shifts them; field 5 is a coefficient. -/
def S : Sub ℚ :=
  { size := fun _ => 2
    opMat := fun _ _ => some ⟨2, 2, fun i j => if i = 0 ∧ j = 1 then 1 else 0⟩
    nccMat := fun _ a b f => match a, b, f with
      | .fld 5 _, _, true => some ⟨2, 2, fun i j => if i = j then (if i = 0 then 3 else 7) else 0⟩
      | _, _, _ => none }

/-- Coefficient values: field 0 is (1, 4), field 1 is (2, -1), field 5 is (3, 7). -/
def env : Nat → Nat → ℚ := fun i x =>
  if i = 0 then (if x = 0 then 1 else 4) else if i = 1 then (if x = 0 then 2 else -1) else (if x = 0 then 3 else 7)

def T : Sem ℚ Nat :=
  { lin := fun _ _ =>
      { toFun := fun v i => if i = 0 then v 1 else 0
        map_add' := by intro u v; funext i; by_cases h : i = 0 <;> simp [h]
        map_smul' := by intro c v; funext i; by_cases h : i = 0 <;> simp [h] }
    bil := fun _ _ _ =>
      { toFun := fun u =>
          { toFun := fun v i => u i * v i
            map_add' := by intro v w; funext i; simp [mul_add]
            map_smul' := by intro c v; funext i; simp; ring }
        map_add' := by intro u v; ext w i; simp [add_mul]
        map_smul' := by intro c v; ext w i; simp; ring }
    un := fun _ v => v
    pw := fun _ v => v
    const := fun _ c _ => c }

def o : Op := ⟨3, .annihilates, .same, 0⟩

/-- `dx(u) + (2*v + f*u)`. -/
def e : Expr ℚ := .add (.lin o (.fld 0 [])) (.add (.prod .mul (.num 2) (.fld 1 [])) (.prod .mul (.fld 5 []) (.fld 0 [])))

theorem good : Good S (fun _ i => i) T env e := by
  refine ⟨⟨trivial, fun _ m hm => ?_⟩, ⟨⟨trivial, rfl, fun _ _ => rfl⟩, ⟨trivial, trivial, ?_, ?_⟩, rfl, rfl, fun _ _ => ⟨rfl, rfl⟩⟩, rfl, rfl,
    fun _ _ => ⟨rfl, rfl⟩⟩
  · obtain rfl := Option.some.inj hm
    refine ⟨rfl, rfl, fun v i hi => ?_⟩
    have hi : i < 2 := hi
    have : i = 0 ∨ i = 1 := by omega
    rcases this with rfl | rfl <;> simp [T, S, Finset.sum_range_succ]
  · intro m hm; simp [S] at hm
  · intro m hm
    obtain rfl := Option.some.inj hm
    refine ⟨rfl, rfl, fun v i hi => ?_⟩
    have hi : i < 2 := hi
    have : i = 0 ∨ i = 1 := by omega
    rcases this with rfl | rfl <;> simp [T, S, eval, env, Finset.sum_range_succ]

example : ∃ D, exprMats S [(0, []), (1, [])] e = some D := by
  refine ⟨_, rfl⟩

/-- The first coefficient is 4 + 2*2 + 3*1. -/
example : eval T env e 0 = 11 := by norm_num [eval, e, T, env]

example : (∀ q ∈ [Eqn.mk 2 true (some e), Eqn.mk 2 false (some e), ⟨2, true, none⟩], ∀ x, q.expr = some x →
    Good S (fun _ i => i) T env x ∧ S.size x = q.size) := by
  intro q hq x hx
  simp only [List.mem_cons, List.not_mem_nil, or_false] at hq
  rcases hq with rfl | rfl | rfl
  · obtain rfl := Option.some.inj hx; exact ⟨good, rfl⟩
  · obtain rfl := Option.some.inj hx; exact ⟨good, rfl⟩
  · simp at hx

end Example

end Dedalus.Mats
