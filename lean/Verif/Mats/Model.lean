import Mathlib.Algebra.BigOperators.Group.Finset.Basic
import Mathlib.Algebra.BigOperators.Group.List.Basic
import Verif.Symb.Model

/-!
# Matrices of linear expressions

Model of the `expression_matrices` methods (`dedalus/core/field.py`, `dedalus/core/arithmetic.py`,
`dedalus/core/operators.py`) and of the block assembly in `Subproblem.build_matrices`
(`dedalus/core/subsystems.py` L497-537). Expressions are those of `Verif.Symb.Model`. A sparse matrix is its
shape and its entries; storage formats are not modelled.
-/

namespace Dedalus.Mats

open Dedalus.Symb

/-- A sparse matrix: shape and entries (only the entries inside the shape mean anything). -/
structure Mat (K : Type) where
  rows : Nat
  cols : Nat
  e : Nat → Nat → K

variable {K : Type} [Field K] [DecidableEq K]

/-- `sparse.identity(n)`. -/
def Mat.ident (n : Nat) : Mat K := ⟨n, n, fun i j => if i = j then 1 else 0⟩

/-- `sparse.csr_matrix((r, c))`. -/
def Mat.zeros (r c : Nat) : Mat K := ⟨r, c, fun _ _ => 0⟩

/-- `A + B`; shapes must agree. -/
def Mat.add (A B : Mat K) : Option (Mat K) :=
  if A.rows = B.rows ∧ A.cols = B.cols then some ⟨A.rows, A.cols, fun i j => A.e i j + B.e i j⟩ else none

/-- `A @ B`; the inner dimensions must agree. -/
def Mat.mul (A B : Mat K) : Option (Mat K) :=
  if A.cols = B.rows then some ⟨A.rows, B.cols, fun i j => ∑ k ∈ Finset.range A.cols, A.e i k * B.e k j⟩
  else none

/-- `c * A`. -/
def Mat.smul (c : K) (A : Mat K) : Mat K := ⟨A.rows, A.cols, fun i j => c * A.e i j⟩

/-- A Python dictionary from variables (field numbers) to matrices, in insertion order. -/
abbrev Dict (K : Type) := List (Nat × Mat K)

/-- `matrices[var] = matrices.get(var, 0) + m`. Adding the number `0` returns the matrix. -/
def Dict.accum (d : Dict K) (v : Nat) (m : Mat K) : Option (Dict K) :=
  match d with
  | [] => some [(v, m)]
  | (w, n) :: rest =>
    if w = v then do
      let s ← n.add m
      some ((w, s) :: rest)
    else do
      let r ← Dict.accum rest v m
      some ((w, n) :: r)

/-- `{var: f(mats[var]) for var in mats}`. -/
def Dict.mapM (f : Mat K → Option (Mat K)) (d : Dict K) : Option (Dict K) :=
  List.mapM (fun p => (f p.2).map (fun m => (p.1, m))) d

/-- What the methods get from the subproblem and from the operators: the size of an operand's data in the
subproblem (`Subproblem.field_size`), the matrix of a linear operator node (`subproblem_matrix`) and the
matrix of multiplication by a coefficient (`build_ncc_matrix`; the last argument says that the coefficient
is the first factor). -/
structure Sub (K : Type) where
  size : Expr K → Nat
  opMat : Op → Expr K → Option (Mat K)
  nccMat : PKind → Expr K → Expr K → Bool → Option (Mat K)

/-- `expression_matrices(subproblem, vars)` for fields `vars`, after `prep_nccs(vars)`:
`dedalus/core/field.py` L441-451, `dedalus/core/arithmetic.py` L180-193 (sum), L504-516 with L360-368
(products; `prep_nccs` chooses the factor containing the variables), L954-964 (number times field),
`dedalus/core/operators.py` L764-780 (linear operators), L301-303 (nonlinear operators). -/
def exprMats (S : Sub K) (vars : List (Nat × Sig)) : Expr K → Option (Dict K)
  | .num _ => none
  | .fld i s => if (i, s) ∈ vars then some [(i, Mat.ident (S.size (.fld i s)))] else none
  | .cst _ _ => none
  | .add a b => do
    let A ← exprMats S vars a
    let B ← exprMats S vars b
    let d ← A.foldlM (fun d p => Dict.accum d p.1 p.2) []
    B.foldlM (fun d p => Dict.accum d p.1 p.2) d
  | .prod .mul (.num c) b => do
    let B ← exprMats S vars b
    B.mapM (fun m => some (m.smul c))
  | .prod p a b =>
    let V := vars.map (fun v => Var.fld v.1)
    if has V a && has V b then none
    else if has V a then do
      let A ← exprMats S vars a
      let N ← S.nccMat p b a false
      A.mapM (fun m => N.mul m)
    else if has V b then do
      let B ← exprMats S vars b
      let N ← S.nccMat p a b true
      B.mapM (fun m => N.mul m)
    else none
  | .lin o a =>
    if S.size (.lin o a) = 0 then
      some (vars.map (fun v => (v.1, Mat.zeros 0 (S.size (.fld v.1 v.2)))))
    else do
      let A ← exprMats S vars a
      let N ← S.opMat o a
      A.mapM (fun m => N.mul m)
  | .un _ _ => none
  | .pow _ _ => none

/-! ### Block assembly -/

/-- An equation as seen by `build_matrices` for one matrix name: the size of the equation's data, whether its
condition holds for the subproblem, and the expression `eqn[name]` (`none` for the number zero). -/
structure Eqn (K : Type) where
  size : Nat
  cond : Bool
  expr : Option (Expr K)

/-- `block.data`, `i0 + block.row`, `j0 + block.col` for `block = sparse.coo_matrix(...)`: all entries, row by
row (`dedalus/core/subsystems.py` L524-527). Zero entries are kept here, which does not change the matrix. -/
def cooBlock (i0 j0 : Nat) (m : Mat K) : List (K × Nat × Nat) :=
  (List.range m.rows).flatMap fun r => (List.range m.cols).map fun c => (m.e r c, i0 + r, j0 + c)

/-- The loop over variables, L521-528. -/
def rowBlocks (S : Sub K) (blocks : Dict K) (i0 : Nat) : Nat → List (Nat × Sig) → List (K × Nat × Nat)
  | _, [] => []
  | j0, v :: vs =>
    let size := S.size (.fld v.1 v.2)
    let here := if size ≠ 0 then
        match blocks.lookup v.1 with
        | some m => cooBlock i0 j0 m
        | none => []
      else []
    here ++ rowBlocks S blocks i0 (j0 + size) vs

/-- The entries of one equation, L518-528. -/
def eqnEntries (S : Sub K) (vars : List (Nat × Sig)) (i0 : Nat) (q : Eqn K) : Option (List (K × Nat × Nat)) :=
  if q.size ≠ 0 ∧ q.cond = true then
    match q.expr with
    | some x => (exprMats S vars x).map (fun blocks => rowBlocks S blocks i0 0 vars)
    | none => some []
  else some []

/-- The loop over equations, L516-529. -/
def eqnBlocks (S : Sub K) (vars : List (Nat × Sig)) : Nat → List (Eqn K) → Option (List (K × Nat × Nat))
  | _, [] => some []
  | i0, q :: qs => do
    let here ← eqnEntries S vars i0 q
    let rest ← eqnBlocks S vars (i0 + q.size) qs
    some (here ++ rest)

/-- `sparse.coo_matrix((data, (rows, cols)), shape=(I, J)).tocsr()`: indices must lie inside the shape;
duplicate entries are summed. `cut` is the filtering `data[np.abs(data) < entry_cutoff] = 0` (L536-537). -/
def fromCoo (cut : K → K) (l : List (K × Nat × Nat)) (I J : Nat) : Option (Mat K) :=
  if l.all (fun t => t.2.1 < I && t.2.2 < J) then
    some ⟨I, J, fun i j => ((l.filter (fun t => t.2.1 = i && t.2.2 = j)).map (fun t => cut t.1)).sum⟩
  else none

/-- `matrices[name]` before preconditioning, L502-537. -/
def assemble (S : Sub K) (cut : K → K) (vars : List (Nat × Sig)) (eqns : List (Eqn K)) : Option (Mat K) := do
  let l ← eqnBlocks S vars 0 eqns
  fromCoo cut l (eqns.map Eqn.size).sum (vars.map (fun v => S.size (.fld v.1 v.2))).sum

end Dedalus.Mats
