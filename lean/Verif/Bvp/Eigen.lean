import Verif.Bvp.Lemmas
import Verif.Perm.Props
import Mathlib.LinearAlgebra.Matrix.ConjTranspose
import Mathlib.Algebra.Star.Basic
import Mathlib.Tactic.FieldSimp
import Mathlib.Tactic.FinCases
import Mathlib.Algebra.BigOperators.Field
import Mathlib.Algebra.Star.BigOperators
import Mathlib.Tactic.LinearCombination
import Mathlib.Tactic.NormNum

/-!
# C81: eigenmodes satisfy the equations

Models `EigenvalueSolver.solve_dense`, `solve_sparse` and `set_state` (/repo/dedalus/core/solvers.py L180-321),
`scipy_sparse_eigs` (/repo/dedalus/tools/array.py L398-444) and `Subsystem.scatter`
(/repo/dedalus/core/subsystems.py L215-225). The eigenvalue routines of scipy and the matrix solver are assumed to
return what they promise; infinite eigenvalues (numpy `inf`, from a zero of the homogeneous form) are not represented.
-/

namespace Dedalus.Bvp

open Subsys Matrix

variable {K : Type} [Field K] [StarRing K]

/-- A subproblem of an eigenvalue problem: matrices before preconditioning, kept rows and columns. -/
structure Pencil (K : Type) where
  nEq : Nat
  nVar : Nat
  srcEq : List Nat
  srcVar : List Nat
  L : Matrix (Fin nEq) (Fin nVar) K
  M : Matrix (Fin nEq) (Fin nVar) K

namespace Pencil

/-- `sp.pre_left`. subsystems.py L560. -/
def preLeft (P : Pencil K) : Matrix (Fin P.srcEq.length) (Fin P.nEq) K := Perm.rowMatrix K P.srcEq P.nEq
/-- `sp.pre_right_pinv`. subsystems.py L562. -/
def preRightPinv (P : Pencil K) : Matrix (Fin P.srcVar.length) (Fin P.nVar) K := Perm.rowMatrix K P.srcVar P.nVar
/-- `sp.pre_right`. subsystems.py L563. -/
def preRight (P : Pencil K) : Matrix (Fin P.nVar) (Fin P.srcVar.length) K := P.preRightPinv.transpose
/-- `sp.L_min`. subsystems.py L570-576. -/
def Lmin (P : Pencil K) : Matrix (Fin P.srcEq.length) (Fin P.srcVar.length) K := P.preLeft * P.L * P.preRight
/-- `sp.M_min`. -/
def Mmin (P : Pencil K) : Matrix (Fin P.srcEq.length) (Fin P.srcVar.length) K := P.preLeft * P.M * P.preRight

end Pencil

/-- Output of an eigenvalue routine for matrices of `p` rows and `q` columns: `k` eigenvalues, left and right
eigenvectors (columns). -/
structure Eig (K : Type) (p q k : Nat) where
  val : Fin k → K
  left : Matrix (Fin p) (Fin k) K
  right : Matrix (Fin q) (Fin k) K

/-- What `scipy.linalg.eig(A, b=B, left=True)` promises: `A r = λ B r` and `A^H l = conj(λ) B^H l`. -/
structure Eig.Correct {p q k : Nat} (A B : Matrix (Fin p) (Fin q) K) (E : Eig K p q k) : Prop where
  right : ∀ c, A *ᵥ (fun i => E.right i c) = E.val c • (B *ᵥ fun i => E.right i c)
  left : ∀ c, Aᴴ *ᵥ (fun i => E.left i c) = star (E.val c) • (Bᴴ *ᵥ fun i => E.left i c)

/-- The results kept by the solver. -/
structure Modes (P : Pencil K) (k : Nat) where
  eigenvalues : Fin k → K
  eigenvectors : Matrix (Fin P.nVar) (Fin k) K
  leftEigenvectors : Matrix (Fin P.nEq) (Fin k) K
  modifiedLeft : Matrix (Fin P.nVar) (Fin k) K

/-- `norms = np.diag(pre_left_evecs.T.conj() @ sp.M_min @ pre_right_evecs)`. L216, L288. -/
def norms (P : Pencil K) {k : Nat} (E : Eig K P.srcEq.length P.srcVar.length k) (c : Fin k) : K :=
  (E.leftᴴ * P.Mmin * E.right) c c

/-- Unpacking of the eigenvectors, with left eigenvectors and with or without their normalisation. L209-218, L270-290. -/
def unpack (P : Pencil K) {k : Nat} (normalize : Bool) (E : Eig K P.srcEq.length P.srcVar.length k) : Modes P k :=
  let l := P.preLeftᴴ * E.left
  let m := (P.Mmin * P.preRightPinv)ᴴ * E.left
  { eigenvalues := E.val
    eigenvectors := P.preRight * E.right
    leftEigenvectors := if normalize then fun i c => l i c / star (norms P E c) else l
    modifiedLeft := if normalize then fun i c => m i c / star (norms P E c) else m }

/-- The matrices handed to the eigenvalue routine: `A = L_min`, `B = -M_min`. L203-204, L259-260. -/
def pencilA (P : Pencil K) := P.Lmin
def pencilB (P : Pencil K) := - P.Mmin

/-- `scipy_sparse_eigs` for the right eigenvectors: `eigs` returns eigenpairs of the operator
`x ↦ solve(B x)`, where `solve` is the matrix solver of `A - target*B`; the eigenvalues are rectified.
array.py L422-431. -/
def rectify (target : K) {k : Nat} (mu : Fin k → K) : Fin k → K := fun c => 1 / mu c + target

/-- `set_state(index, subsystem)`: the state is cleared and the eigenvector is written to the entries of the chosen
subsystem; `inputs` are the columns of the subsystems. L311-320. -/
def setState (P : Pencil K) {k : Nat} (R : Modes P k) (inputs : List (List Addr)) (index : Fin k) (subsystem : Nat) :
    Option (Store K × K) :=
  match inputs[subsystem]? with
  | none => none
  | some ins => some (writeCol (fun _ => 0) ins (List.ofFn fun j => R.eigenvectors j index), R.eigenvalues index)

/-! ### Right eigenvectors -/

/-- C81. Every eigenvector returned satisfies each valid equation of the generalised problem `λ M x + L x = 0`, and has
no invalid modes. -/
theorem eigenvector_equations (P : Pencil K) {k : Nat}
    (norm : Bool) (E : Eig K P.srcEq.length P.srcVar.length k) (hc : E.Correct (pencilA P) (pencilB P)) (c : Fin k) :
    (∀ i : Fin P.nEq, i.val ∈ P.srcEq →
      ∑ j, ((unpack P norm E).eigenvalues c * P.M i j + P.L i j) * (unpack P norm E).eigenvectors j c = 0) ∧
    ∀ j : Fin P.nVar, j.val ∉ P.srcVar → (unpack P norm E).eigenvectors j c = 0 := by
  have hvec : ∀ j, (unpack P norm E).eigenvectors j c = (P.preRight *ᵥ fun i => E.right i c) j := by
    intro j; rfl
  constructor
  · intro i hi
    obtain ⟨p, hp, e⟩ := List.getElem_of_mem hi
    have h := congrFun (hc.right c) ⟨p, hp⟩
    have row : ∀ (A : Matrix (Fin P.nEq) (Fin P.nVar) K),
        ((P.preLeft * A * P.preRight) *ᵥ fun i => E.right i c) ⟨p, hp⟩ =
          ∑ j, A i j * (unpack P norm E).eigenvectors j c := by
      intro A
      rw [← mulVec_mulVec, Matrix.mulVec, dotProduct]
      refine Finset.sum_congr rfl fun j _ => ?_
      rw [← hvec, Matrix.mul_apply, Finset.sum_eq_single i]
      · simp [Pencil.preLeft, Perm.rowMatrix, e]
      · intro b _ hb
        have : P.srcEq[p] ≠ b.val := fun e' => hb (Fin.ext (by rw [← e', e]))
        simp [Pencil.preLeft, Perm.rowMatrix, this]
      · simp
    simp only [pencilA, pencilB, Pencil.Lmin, Pencil.Mmin, neg_mulVec, Pi.smul_apply, Pi.neg_apply, smul_eq_mul] at h
    rw [row, row] at h
    rw [Finset.sum_congr rfl fun j _ => by rw [add_mul, mul_assoc], Finset.sum_add_distrib, ← Finset.mul_sum]
    have : (unpack P norm E).eigenvalues c = E.val c := rfl
    rw [this, h]
    ring
  · intro j hj
    rw [hvec, Matrix.mulVec, dotProduct]
    refine Finset.sum_eq_zero fun q _ => ?_
    have : P.srcVar[q.val] ≠ j.val := fun e => hj (e ▸ List.getElem_mem _)
    simp [Pencil.preRight, Pencil.preRightPinv, Perm.rowMatrix, this]

/-- C81. The shifted and inverted operator has the same eigenvectors, and its rectified eigenvalues are those of
the generalised problem: if `solve` solves `(A - σB) x = b` and `x` is an eigenvector of `x ↦ solve (B x)`
for `μ ≠ 0`, then `A x = (1/μ + σ) B x`. -/
theorem shift_invert {p k : Nat} (A B : Matrix (Fin p) (Fin p) K) (target : K)
    (solve : (Fin p → K) → (Fin p → K)) (hs : ∀ b, (A - target • B) *ᵥ solve b = b)
    (mu : Fin k → K) (V : Matrix (Fin p) (Fin k) K)
    (hV : ∀ c, solve (B *ᵥ fun i => V i c) = mu c • fun i => V i c) (c : Fin k) (hmu : mu c ≠ 0) :
    A *ᵥ (fun i => V i c) = rectify target mu c • (B *ᵥ fun i => V i c) := by
  have h := hs (B *ᵥ fun i => V i c)
  rw [hV, mulVec_smul, sub_mulVec, smul_mulVec, smul_sub] at h
  unfold rectify
  funext i
  have hi := congrFun h i
  simp only [Pi.sub_apply, Pi.smul_apply, smul_eq_mul] at hi ⊢
  field_simp
  linear_combination hi

/-- C81. The same for left eigenvectors: eigenvectors of `x ↦ solve_H (B^H x)` with `μ' ≠ 0` satisfy
`A^H x = (1/μ' + conj σ) B^H x`. -/
theorem shift_invert_left {p k : Nat} (A B : Matrix (Fin p) (Fin p) K) (target : K)
    (solveH : (Fin p → K) → (Fin p → K)) (hs : ∀ b, (A - target • B)ᴴ *ᵥ solveH b = b)
    (mu : Fin k → K) (V : Matrix (Fin p) (Fin k) K)
    (hV : ∀ c, solveH (Bᴴ *ᵥ fun i => V i c) = mu c • fun i => V i c) (c : Fin k) (hmu : mu c ≠ 0) :
    Aᴴ *ᵥ (fun i => V i c) = rectify (star target) mu c • (Bᴴ *ᵥ fun i => V i c) := by
  refine shift_invert Aᴴ Bᴴ (star target) solveH (fun b => ?_) mu V hV c hmu
  have := hs b
  rwa [conjTranspose_sub, conjTranspose_smul] at this

/-- C81. After `set_state` the state is the chosen mode in the chosen subsystem and zero elsewhere; it satisfies
`λ M X + L X = 0` in every subsystem of the subproblem, and the eigenvalue field holds `λ`. -/
theorem set_state_equations (P : Pencil K) {k : Nat} (norm : Bool)
    (E : Eig K P.srcEq.length P.srcVar.length k) (hc : E.Correct (pencilA P) (pencilB P))
    (inputs : List (List Addr)) (hlen : ∀ c ∈ inputs, c.length = P.nVar) (hnd : ∀ c ∈ inputs, c.Nodup)
    (hdis : inputs.Pairwise List.Disjoint) (index : Fin k) (sub : Nat) (X : Store K) (lam : K)
    (h : setState P (unpack P norm E) inputs index sub = some (X, lam)) :
    lam = E.val index ∧
    (∀ ins, inputs[sub]? = some ins → ∀ (j : Fin P.nVar) a, ins[j.val]? = some a →
      X a = (unpack P norm E).eigenvectors j index) ∧
    (∀ a, (∀ ins, inputs[sub]? = some ins → a ∉ ins) → X a = 0) ∧
    ∀ (n : Nat) ins, inputs[n]? = some ins → ∀ i : Fin P.nEq, i.val ∈ P.srcEq →
      ∑ j : Fin P.nVar, (lam * P.M i j + P.L i j) * (match ins[j.val]? with | some a => X a | none => 0) = 0 := by
  unfold setState at h
  cases hi : inputs[sub]? with
  | none => rw [hi] at h; simp at h
  | some ins0 =>
    rw [hi] at h
    simp only [Option.some.injEq, Prod.mk.injEq] at h
    obtain ⟨rfl, rfl⟩ := h
    have hm := List.mem_of_getElem? hi
    have hread := readCol_writeCol ins0 (List.ofFn fun j => (unpack P norm E).eigenvectors j index) (fun _ => (0 : K))
      (hnd _ hm) (by simp [hlen _ hm])
    have hval : ∀ (j : Fin P.nVar) a, ins0[j.val]? = some a →
        writeCol (fun _ => (0 : K)) ins0 (List.ofFn fun j => (unpack P norm E).eigenvectors j index) a =
          (unpack P norm E).eigenvectors j index := by
      intro j a ha
      have := congrArg (fun l => l[j.val]?) hread
      simp only [readCol, List.getElem?_map, ha, Option.map_some] at this
      simpa using this
    have hzero : ∀ a, a ∉ ins0 →
        writeCol (fun _ => (0 : K)) ins0 (List.ofFn fun j => (unpack P norm E).eigenvectors j index) a = 0 :=
      fun a ha => writeCol_notMem _ _ _ _ ha
    refine ⟨rfl, fun ins h1 j a ha => ?_, fun a ha => hzero a (ha _ rfl), fun n ins hn i him => ?_⟩
    · obtain rfl := Option.some.inj h1
      exact hval j a ha
    · by_cases hns : n = sub
      · subst hns
        obtain rfl : ins0 = ins := by rw [hi] at hn; exact Option.some.inj hn
        refine Eq.trans ?_ ((eigenvector_equations P norm E hc index).1 i him)
        refine Finset.sum_congr rfl fun j _ => ?_
        have hj : j.val < ins0.length := by rw [hlen _ hm]; exact j.2
        rw [List.getElem?_eq_getElem hj]
        simp only
        rw [hval j _ (List.getElem?_eq_getElem hj)]
      · refine Finset.sum_eq_zero fun j _ => ?_
        have hj : j.val < ins.length := by rw [hlen _ (List.mem_of_getElem? hn)]; exact j.2
        rw [List.getElem?_eq_getElem hj]
        simp only
        rw [hzero, mul_zero]
        obtain ⟨hn1, hn2⟩ := List.getElem?_eq_some_iff.1 hn
        obtain ⟨hs1, hs2⟩ := List.getElem?_eq_some_iff.1 hi
        have hpw := List.pairwise_iff_getElem.1 hdis
        intro hmem
        have h1 : ins[j.val] ∈ ins := List.getElem_mem _
        rcases Nat.lt_or_gt_of_ne hns with hlt | hlt
        · exact hpw n sub hn1 hs1 hlt (by rw [hn2]; exact h1) (by rw [hs2]; exact hmem)
        · exact hpw sub n hs1 hn1 hlt (by rw [hs2]; exact hmem) (by rw [hn2]; exact h1)

/-! ### Left eigenvectors -/

theorem preRightPinv_preRight (P : Pencil K) (hV : P.srcVar.Nodup) (hVlt : ∀ i ∈ P.srcVar, i < P.nVar) :
    P.preRightPinv * P.preRight = 1 := Perm.rowMatrix_mul_transpose hV hVlt

theorem star_dot {p n k : Nat} (A : Matrix (Fin p) (Fin n) K) (B : Matrix (Fin p) (Fin k) K) (c : Fin k) (y : Fin n → K) :
    ∑ i, star ((Aᴴ * B) i c) * y i = ∑ q, star (B q c) * (A *ᵥ y) q := by
  simp only [Matrix.mul_apply, Matrix.mulVec, dotProduct, conjTranspose_apply, star_sum, star_mul', star_star,
    Finset.sum_mul, Finset.mul_sum]
  rw [Finset.sum_comm]
  refine Finset.sum_congr rfl fun q _ => Finset.sum_congr rfl fun i _ => ?_
  ring

/-- C81. A left eigenvector annihilates the generalised problem from the left on every vector of valid modes:
`l^H (λ M + L) x = 0`. -/
theorem left_eigenvector (P : Pencil K) (hV : P.srcVar.Nodup) (hVlt : ∀ i ∈ P.srcVar, i < P.nVar) {k : Nat} (norm : Bool)
    (E : Eig K P.srcEq.length P.srcVar.length k) (hc : E.Correct (pencilA P) (pencilB P)) (c : Fin k)
    (x : Fin P.nVar → K) (hx : ∀ j : Fin P.nVar, j.val ∉ P.srcVar → x j = 0) :
    ∑ i, star ((unpack P norm E).leftEigenvectors i c) * ((E.val c • P.M + P.L) *ᵥ x) i = 0 := by
  have hxe : x = P.preRight *ᵥ (P.preRightPinv *ᵥ x) := by
    rw [mulVec_mulVec, Pencil.preRight, Pencil.preRightPinv, Perm.rowMatrix_transpose_mul hV]
    funext j
    rw [mulVec_diagonal]
    by_cases hj : j.val ∈ P.srcVar
    · simp [hj]
    · simp [hj, hx j hj]
  have hbase : ∑ i, star ((P.preLeftᴴ * E.left) i c) * ((E.val c • P.M + P.L) *ᵥ x) i = 0 := by
    have h1 : ∑ i, star ((P.preLeftᴴ * E.left) i c) * ((E.val c • P.M + P.L) *ᵥ x) i =
        ∑ p, star (E.left p c) * (((E.val c • P.Mmin + P.Lmin)) *ᵥ (P.preRightPinv *ᵥ x)) p := by
      have h2 : (E.val c • P.Mmin + P.Lmin) *ᵥ (P.preRightPinv *ᵥ x) = P.preLeft *ᵥ ((E.val c • P.M + P.L) *ᵥ x) := by
        conv_rhs => rw [hxe]
        rw [mulVec_mulVec, mulVec_mulVec, mulVec_mulVec, mulVec_mulVec]
        congr 1
        simp only [Pencil.Mmin, Pencil.Lmin, Matrix.mul_assoc, Matrix.add_mul, Matrix.mul_add, Matrix.smul_mul, Matrix.mul_smul]
      rw [h2]
      exact star_dot P.preLeft E.left c _
    rw [h1]
    have h3 := hc.left c
    have h4 : ∀ q, ∑ p, star (E.left p c) * ((E.val c • P.Mmin + P.Lmin) p q) = 0 := by
      intro q
      have h5 := congrArg star (congrFun h3 q)
      simp only [pencilA, pencilB, Matrix.mulVec, dotProduct, Pi.smul_apply, smul_eq_mul, conjTranspose_apply, star_sum, star_mul',
        star_star, Matrix.neg_apply, star_neg] at h5
      have h6 : ∑ p, star (E.left p c) * ((E.val c • P.Mmin + P.Lmin) p q) =
          E.val c * (∑ p, P.Mmin p q * star (E.left p c)) + ∑ p, P.Lmin p q * star (E.left p c) := by
        rw [Finset.mul_sum, ← Finset.sum_add_distrib]
        refine Finset.sum_congr rfl fun p _ => ?_
        simp only [Matrix.add_apply, Matrix.smul_apply, smul_eq_mul]
        ring
      rw [h6, h5]
      simp only [neg_mul, Finset.sum_neg_distrib]
      ring
    simp only [Matrix.mulVec, dotProduct, Finset.mul_sum]
    rw [Finset.sum_comm]
    refine Finset.sum_eq_zero fun q _ => ?_
    have := h4 q
    calc _ = (∑ p, star (E.left p c) * ((E.val c • P.Mmin + P.Lmin) p q)) * ∑ j, P.preRightPinv q j * x j := by
          rw [Finset.sum_mul]
          refine Finset.sum_congr rfl fun p _ => ?_
          rw [Finset.mul_sum]
          refine Finset.sum_congr rfl fun j _ => ?_
          ring
      _ = 0 := by rw [this, zero_mul]
  cases norm with
  | false => exact hbase
  | true =>
    have : ∀ i, star ((unpack P true E).leftEigenvectors i c) = star ((P.preLeftᴴ * E.left) i c) / norms P E c := by
      intro i
      simp [unpack, star_div₀]
    simp only [this, div_mul_eq_mul_div]
    rw [← Finset.sum_div, hbase, zero_div]

/-- C81 (for modes with different eigenvalues). The normalised modified left eigenvectors and the eigenvectors are
biorthonormal: `Σ_j conj(m_a[j]) r_b[j]` is 1 for `a = b`, if the norm is not zero, and 0 for different
eigenvalues. -/
theorem biorthonormal_partial (P : Pencil K) (hV : P.srcVar.Nodup) (hVlt : ∀ i ∈ P.srcVar, i < P.nVar) {k : Nat}
    (E : Eig K P.srcEq.length P.srcVar.length k) (hc : E.Correct (pencilA P) (pencilB P)) (a b : Fin k) :
    (norms P E a ≠ 0 → ∑ j, star ((unpack P true E).modifiedLeft j a) * (unpack P true E).eigenvectors j a = 1) ∧
    (E.val a ≠ E.val b → ∑ j, star ((unpack P true E).modifiedLeft j a) * (unpack P true E).eigenvectors j b = 0) := by
  have key : ∀ b, ∑ j, star ((unpack P true E).modifiedLeft j a) * (unpack P true E).eigenvectors j b =
      (E.leftᴴ * P.Mmin * E.right) a b / norms P E a := by
    intro b
    have h1 : ∀ j, star ((unpack P true E).modifiedLeft j a) =
        (E.leftᴴ * (P.Mmin * P.preRightPinv)) a j / norms P E a := by
      intro j
      have h0 : star (((P.Mmin * P.preRightPinv)ᴴ * E.left) j a) = (E.leftᴴ * (P.Mmin * P.preRightPinv)) a j := by
        rw [← conjTranspose_apply, conjTranspose_mul, conjTranspose_conjTranspose]
      show star (((P.Mmin * P.preRightPinv)ᴴ * E.left) j a / star (norms P E a)) = _
      rw [star_div₀, star_star, h0]
    have h2 : ∀ j, (unpack P true E).eigenvectors j b = (P.preRight * E.right) j b := fun _ => rfl
    simp only [h1, h2, div_mul_eq_mul_div]
    rw [← Finset.sum_div, ← Matrix.mul_apply]
    congr 2
    have h3 : E.leftᴴ * (P.Mmin * P.preRightPinv) * (P.preRight * E.right) =
        E.leftᴴ * P.Mmin * (P.preRightPinv * P.preRight) * E.right := by simp only [Matrix.mul_assoc]
    rw [h3, preRightPinv_preRight P hV hVlt, Matrix.mul_one]
  refine ⟨fun hn => ?_, fun hne => ?_⟩
  · rw [key]
    exact div_self hn
  · rw [key]
    -- (λ_a - λ_b) l_a^H B r_b = 0
    have hA1 : (E.leftᴴ * P.Lmin * E.right) a b = - (E.val a * (E.leftᴴ * P.Mmin * E.right) a b) := by
      have h3 := hc.left a
      have h5 : ∀ q, (E.leftᴴ * P.Lmin) a q = - (E.val a * (E.leftᴴ * P.Mmin) a q) := by
        intro q
        have h5 := congrArg star (congrFun h3 q)
        simp only [pencilA, pencilB, Matrix.mulVec, dotProduct, Pi.smul_apply, smul_eq_mul, conjTranspose_apply, star_sum, star_mul',
          star_star, Matrix.neg_apply, star_neg] at h5
        simp only [Matrix.mul_apply, conjTranspose_apply]
        rw [Finset.sum_congr rfl fun p _ => mul_comm _ _, h5]
        simp only [neg_mul, Finset.sum_neg_distrib, mul_neg]
        rw [Finset.sum_congr rfl fun p _ => mul_comm _ _]
      rw [Matrix.mul_apply, Matrix.mul_apply, Finset.mul_sum, ← Finset.sum_neg_distrib]
      refine Finset.sum_congr rfl fun q _ => ?_
      rw [h5]; ring
    have hA2 : (E.leftᴴ * P.Lmin * E.right) a b = - (E.val b * (E.leftᴴ * P.Mmin * E.right) a b) := by
      have h3 := hc.right b
      have h5 : ∀ p, (P.Lmin * E.right) p b = - (E.val b * (P.Mmin * E.right) p b) := by
        intro p
        have := congrFun h3 p
        simp only [pencilA, pencilB, Matrix.mulVec, dotProduct, Pi.smul_apply, smul_eq_mul, Matrix.neg_apply, neg_mul,
          Finset.sum_neg_distrib, mul_neg] at this
        simp only [Matrix.mul_apply]
        exact this
      rw [Matrix.mul_assoc, Matrix.mul_assoc, Matrix.mul_apply, Matrix.mul_apply, Finset.mul_sum, ← Finset.sum_neg_distrib]
      refine Finset.sum_congr rfl fun q _ => ?_
      rw [h5]; ring
    have : (E.val a - E.val b) * (E.leftᴴ * P.Mmin * E.right) a b = 0 := by
      linear_combination hA1 - hA2
    rcases mul_eq_zero.1 this with h | h
    · exact absurd (sub_eq_zero.1 h) hne
    · rw [h, zero_div]

/-- `M = 1`, `L = 0` on two modes: both eigenvalues are 0. -/
def double : Pencil ℚ := ⟨2, 2, [0, 1], [0, 1], 0, 1⟩

/-- A correct answer of the eigenvalue routine for it. -/
def doubleEig : Eig ℚ double.srcEq.length double.srcVar.length 2 := ⟨fun _ => 0, !![1, 1; 0, 1], !![1, 0; 0, 1]⟩

/-- C81, false for repeated eigenvalues: the routine may return eigenvectors whose modified left ones are not
orthogonal to the others, and the solver only rescales them. -/
theorem biorthonormal_refuted : doubleEig.Correct (pencilA double) (pencilB double) ∧
    (∀ c, norms double doubleEig c ≠ 0) ∧
    ∑ j, star ((unpack double true doubleEig).modifiedLeft j 1) * (unpack double true doubleEig).eigenvectors j 0 = 1 := by
  refine ⟨⟨fun c => ?_, fun c => ?_⟩, ?_, ?_⟩
  · have : pencilA double = 0 := by simp only [pencilA, Pencil.Lmin, show double.L = 0 from rfl, Matrix.mul_zero, Matrix.zero_mul]
    rw [this]; simp [doubleEig]
  · have : pencilA double = 0 := by simp only [pencilA, Pencil.Lmin, show double.L = 0 from rfl, Matrix.mul_zero, Matrix.zero_mul]
    rw [this]; simp [doubleEig]
  · decide +kernel
  · decide +kernel

/-- Two modes of two with `L = diag(-2, -3)`, `M = 1` and a third, invalid one: eigenvalues 2 and 3. -/
def pair : Pencil ℚ := ⟨3, 3, [2, 0], [0, 2], !![-2, 0, 0; 0, 0, 0; 0, 0, -3], 1⟩

/-- Its eigenvectors; equations are in the order 2, 0. -/
def pairEig : Eig ℚ pair.srcEq.length pair.srcVar.length 2 := ⟨![2, 3], !![0, 1; 1, 0], !![1, 0; 0, 1]⟩

example : pairEig.Correct (pencilA pair) (pencilB pair) ∧ norms pair pairEig 0 = 1 ∧ norms pair pairEig 1 = 1 := by
  refine ⟨⟨?_, ?_⟩, ?_, ?_⟩ <;> decide +kernel

example : (setState pair (unpack pair true pairEig) [[(0, [0]), (0, [1]), (0, [2])], [(1, [0]), (1, [1]), (1, [2])]] 1 1).map
    (fun r => (r.1 (1, [2]), r.1 (0, [2]), r.2)) = some (1, 0, 3) := by
  decide +kernel

end Dedalus.Bvp
