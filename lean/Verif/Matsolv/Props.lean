import Verif.Matsolv.Lemmas
import Verif.Bvp.Spec
import Mathlib.LinearAlgebra.Matrix.SchurComplement
import Mathlib.LinearAlgebra.Matrix.Notation
import Mathlib.Tactic.NormNum

/-!
# C82: the matrix solvers solve the systems they are given
-/

namespace Dedalus.Matsolv

variable {K : Type} [Field K] [StarRing K]

/-- **C82.** A solver object of any working class, built from a nonsingular matrix, returns for every right-hand side
(one or two dimensional, any number of columns) an array of the same shape that solves the system. -/
theorem solver_exact (lib : Lib K) (hlib : lib.Correct) {n : Nat} (hn : 0 < n) (es : Entries K) (hr : InRange n es)
    (hd : (toMatrix n es).det ≠ 0) (c : Cls) (hc : c.Works) :
    ∃ s, construct lib n es c = .ok s ∧ ∀ b, ∃ x, s.solve b = .ok x ∧ Solves (toMatrix n es) x b := by
  have hsp : ∀ b : Arr n K, Solves (toMatrix n es) (fixShape b (lib.spsolve n (toMatrix n es) b)) b := by
    intro b
    obtain ⟨⟨h1, h2⟩, h3⟩ := hlib.spsolve n _ hd b
    refine ⟨?_, fun c hc i => ?_⟩
    · unfold fixShape
      rcases h3 with h3 | ⟨h3, h4⟩
      · rw [h3]
        cases hb : b.cols <;> simp [h3, hb]
      · rw [h3, h4]
    · have : (fixShape b (lib.spsolve n (toMatrix n es) b)).val = (lib.spsolve n (toMatrix n es) b).val := by
        unfold fixShape
        split <;> rfl
      rw [this]
      exact h2 c hc i
  cases c with
  | dummySolver => exact hc.elim
  | spqrSolve => exact hc.elim
  | blockInverse => exact hc.elim
  | umfpackSpsolve => exact ⟨_, rfl, fun b => ⟨_, rfl, hsp b⟩⟩
  | superluSpsolve p => exact ⟨_, rfl, fun b => ⟨_, rfl, hsp b⟩⟩
  | umfpackFactorized =>
    obtain ⟨s, h1, h2⟩ := hlib.umfSplu n _ hd
    exact ⟨_, by simp only [construct, h1]; rfl, fun b => ⟨_, rfl, h2 b⟩⟩
  | bandedQR =>
    obtain ⟨s, h1, h2⟩ := hlib.bandedQR n _ hd
    exact ⟨_, by simp only [construct, h1]; rfl, fun b => ⟨_, rfl, h2 b⟩⟩
  | scipyDenseLU =>
    obtain ⟨s, h1, h2⟩ := hlib.luFactor n _ hd
    exact ⟨_, by simp only [construct, h1]; rfl, fun b => ⟨_, rfl, h2 b⟩⟩
  | sparseInverse =>
    obtain ⟨W, h1, h2⟩ := hlib.inv n _ hd
    exact ⟨_, by simp only [construct, h1]; rfl, fun b => ⟨_, rfl, solves_matmul h2 b⟩⟩
  | denseInverse =>
    obtain ⟨W, h1, h2⟩ := hlib.inv n _ hd
    exact ⟨_, by simp only [construct, h1]; rfl, fun b => ⟨_, rfl, solves_matmul h2 b⟩⟩
  | scipyBanded =>
    obtain ⟨l, u, ab, h1, h2, h3, h4⟩ := sparseToBanded_spec hn hr hd
    exact ⟨_, by simp only [construct, h1]; rfl, fun b => ⟨_, rfl, hlib.solveBanded n _ l u ab hd h2 h3 h4 b⟩⟩
  | superluFactorized p t =>
    obtain ⟨s, h1, h2⟩ := hlib.splu n _ (transpose_conjTranspose_det hd t)
    cases t with
    | N => exact ⟨_, by simp only [construct, superlu]; rw [show lib.splu n (toMatrix n es) = some s from h1],
        fun b => ⟨_, rfl, h2 .N b⟩⟩
    | T =>
      refine ⟨_, by simp only [construct, superlu]; rw [show lib.splu n (toMatrix n es).transpose = some s from h1],
        fun b => ⟨_, rfl, ?_⟩⟩
      simpa [Trans.op] using h2 .T b
    | H =>
      refine ⟨_, by
        simp only [construct, superlu]; rw [show lib.splu n (toMatrix n es).conjTranspose = some s from h1],
        fun b => ⟨_, rfl, ?_⟩⟩
      simpa [Trans.op] using h2 .H b

/-- **C82.** The SuperLU factorisations also solve the conjugate transposed system, whichever transpose they keep. -/
theorem solve_H_exact (lib : Lib K) (hlib : lib.Correct) {n : Nat} (es : Entries K)
    (hd : (toMatrix n es).det ≠ 0) (p : Permc) (t : Trans) :
    ∃ s, construct lib n es (.superluFactorized p t) = .ok s ∧
      ∀ b, ∃ x, s.solveH b = .ok x ∧ Solves (toMatrix n es).conjTranspose x b := by
  obtain ⟨s, h1, h2⟩ := hlib.splu n _ (transpose_conjTranspose_det hd t)
  cases t with
  | N => exact ⟨_, by simp only [construct, superlu]; rw [show lib.splu n (toMatrix n es) = some s from h1],
      fun b => ⟨_, rfl, h2 .H b⟩⟩
  | H => exact ⟨_, by
      simp only [construct, superlu]; rw [show lib.splu n (toMatrix n es).conjTranspose = some s from h1],
      fun b => ⟨_, rfl, h2 .N b⟩⟩
  | T =>
    refine ⟨_, by simp only [construct, superlu]; rw [show lib.splu n (toMatrix n es).transpose = some s from h1],
      fun b => ⟨_, rfl, ?_⟩⟩
    obtain ⟨h3, h4⟩ := h2 .N (conj b)
    refine ⟨h3, fun c hc i => ?_⟩
    have := congrArg star (h4 c hc i)
    simpa [conj, Trans.op, Matrix.conjTranspose_apply, Matrix.transpose_apply, mul_comm] using this

/-- **C82.** The other classes refuse the conjugate transposed system rather than answer wrongly. -/
theorem solve_H_refused (lib : Lib K) (n : Nat) (es : Entries K) (c : Cls) (s : Solver n K)
    (hc : ∀ p t, c ≠ .superluFactorized p t) (h : construct lib n es c = .ok s) (b : Arr n K) :
    s.solveH b = .error .notImplemented := by
  have key : ∀ f, s = plain f → s.solveH b = .error .notImplemented := by
    rintro f rfl; rfl
  cases c <;> simp only [construct] at h
  case superluFactorized p t => exact absurd rfl (hc p t)
  case blockInverse => cases h
  all_goals
    first
    | exact key _ (Except.ok.inj h).symm
    | (split at h
       · cases h
       · exact key _ (Except.ok.inj h).symm)

/-- **C82.** Band storage: the array handed to LAPACK stands for exactly the given matrix. -/
theorem banded_storage {n : Nat} (hn : 0 < n) (es : Entries K) (hr : InRange n es) (hd : (toMatrix n es).det ≠ 0) :
    ∃ l u ab, sparseToBanded n es = .ok (l, u, ab) ∧ ab.length = u + l + 1 ∧ (∀ row ∈ ab, row.length = n) ∧
      ∀ i j : Fin n, bandEntry l u ab i.val j.val = toMatrix n es i j := sparseToBanded_spec hn hr hd

/-! ### The Woodbury solver -/

/-- **C82.** The matrix handed to the inner solver is the given one without its top and right border. -/
theorem woodbury_inner {n : Nat} (R : Nat) (hR : 0 < R) (hn : R ≤ n) (M : Matrix (Fin n) (Fin n) K) :
    M - factorU R M * factorV R M = border R M := by
  ext i j
  rw [Matrix.sub_apply, Matrix.mul_apply]
  by_cases hi : i.val < R
  · have hs : ∑ k, factorU R M i k * factorV R M k j = factorV R M ⟨i.val, by omega⟩ j := by
      rw [Finset.sum_eq_single (⟨i.val, by omega⟩ : Fin (2 * R))]
      · simp [factorU, hi]
      · intro k _ hk
        have : k.val ≠ i.val := fun h => hk (Fin.ext h)
        simp [factorU, hi, this]
      · simp
    rw [hs]
    by_cases hj : R ≤ j.val
    · have : border R M i j = 0 := by simp [border, hi, hj]
      rw [this]
      simp [factorV, hi, hj]
    · have : border R M i j = M i j := by
        unfold border
        rw [if_neg (by omega)]
      rw [this]
      simp [factorV, hi, hj]
  · by_cases hi2 : i.val < n - R
    · by_cases hj : n - R ≤ j.val
      · have hs : ∑ k, factorU R M i k * factorV R M k j = M i j := by
          rw [Finset.sum_eq_single (⟨R + (j.val - (n - R)), by omega⟩ : Fin (2 * R))]
          · have e : n - R + (R + (j.val - (n - R)) - R) = j.val := by omega
            have e2 : n - R + (j.val - (n - R)) = j.val := by omega
            simp [factorU, hi, hi2, factorV, e2]
          · intro k _ hk
            have hk' : k.val ≠ R + (j.val - (n - R)) := fun h => hk (Fin.ext h)
            by_cases hkR : k.val < R
            · simp [factorU, hi, show ¬ R ≤ k.val by omega]
            · have : factorV R M k j = 0 := by
                simp only [factorV, hkR, if_false]
                rw [if_neg (by omega)]
              rw [this, mul_zero]
          · simp
        rw [hs, sub_self]
        unfold border
        rw [if_pos (by omega)]
      · have hs : ∑ k, factorU R M i k * factorV R M k j = 0 := by
          apply Finset.sum_eq_zero
          intro k _
          by_cases hkR : k.val < R
          · simp [factorU, hi, show ¬ R ≤ k.val by omega]
          · have : factorV R M k j = 0 := by
              simp only [factorV, hkR, if_false]
              rw [if_neg (by omega)]
            rw [this, mul_zero]
        rw [hs, sub_zero]
        unfold border
        rw [if_neg (by omega)]
    · have hs : ∑ k, factorU R M i k * factorV R M k j = 0 := by
        apply Finset.sum_eq_zero
        intro k _
        simp [factorU, hi, hi2]
      rw [hs, sub_zero]
      unfold border
      rw [if_neg (by omega)]

/-- **C82**, partial: the Woodbury solver is exact for a nonsingular matrix whenever the matrix without borders is
nonsingular too and the inner solver is exact on it. Missing: the matrix without borders may be singular
(`woodbury_refuted`), and no solver can select this class (`woodbury_name_refuted`). -/
theorem woodbury_exact_partial (lib : Lib K) (hlib : lib.Correct) {n : Nat} (R : Nat) (hR : 0 < R) (hn : R ≤ n)
    (M : Matrix (Fin n) (Fin n) K) (hd : M.det ≠ 0) (hA : (border R M).det ≠ 0)
    (base : Matrix (Fin n) (Fin n) K → Except Exc (Solver n K))
    (hbase : ∀ A : Matrix (Fin n) (Fin n) K, A.det ≠ 0 →
      ∃ s, base A = .ok s ∧ ∀ b, ∃ x, s.solve b = .ok x ∧ Solves A x b) :
    ∃ s, woodbury lib R M base = .ok s ∧ ∀ b, ∃ x, s.solve b = .ok x ∧ Solves M x b := by
  have hin := woodbury_inner R hR hn M
  obtain ⟨a, ha, hs⟩ := hbase (border R M) hA
  set U := factorU R M with hU
  set V := factorV R M with hV
  set Uarr : Arr n K := ⟨some (2 * R), fun i c => if h : c < 2 * R then U i ⟨c, h⟩ else 0⟩ with hUarr
  obtain ⟨AU, hAU, hAUs⟩ := hs Uarr
  set AinvU : Matrix (Fin n) (Fin (2 * R)) K := fun i k => AU.val i k with hAinvU
  have hAm : border R M * AinvU = U := by
    ext i k
    have := hAUs.2 k.val (by simp [Uarr, Arr.count]) i
    rw [Matrix.mul_apply]
    simp only [AinvU]
    rw [this]
    simp [Uarr]
  have hM : M = border R M * (1 + AinvU * V) := by
    rw [Matrix.mul_add, Matrix.mul_one, ← Matrix.mul_assoc, hAm, ← hin]
    simp
  have hS : (1 + V * AinvU).det ≠ 0 := by
    rw [← Matrix.det_one_add_mul_comm]
    intro h0
    apply hd
    rw [hM, Matrix.det_mul, h0, mul_zero]
  obtain ⟨W, hW, hW1⟩ := hlib.inv (2 * R) _ hS
  refine ⟨_, by
    unfold woodbury
    rw [if_neg (by omega)]
    simp only
    rw [← hU, ← hV, hin, ha]
    simp only
    rw [← hUarr, hAU]
    simp only
    rw [← hAinvU, hW], fun b => ?_⟩
  obtain ⟨y, hy, hys⟩ := hs b
  refine ⟨sub y (matmul AinvU (matmul W (matmul V y))), by simp only [plain, hy], ?_⟩
  rw [solves_iff] at hys ⊢
  refine ⟨hys.1, fun c hc => ?_⟩
  have hyc := hys.2 c hc
  set yc : Fin n → K := fun j => y.val j c with hyc'
  have e : (fun j => (sub y (matmul AinvU (matmul W (matmul V y)))).val j c)
      = yc - AinvU.mulVec (W.mulVec (V.mulVec yc)) := by
    ext j
    rfl
  rw [e, Matrix.mulVec_sub]
  have hM' : M = border R M + U * V := by rw [← hin]; simp
  have h1 : M.mulVec yc = (fun i => b.val i c) + U.mulVec (V.mulVec yc) := by
    rw [hM', Matrix.add_mulVec, hyc, Matrix.mulVec_mulVec]
  have h2 : M.mulVec (AinvU.mulVec (W.mulVec (V.mulVec yc))) = U.mulVec (V.mulVec yc) := by
    have : M * AinvU = U * (1 + V * AinvU) := by
      conv_lhs => rw [hM']
      rw [Matrix.add_mul, hAm, Matrix.mul_add, Matrix.mul_one, Matrix.mul_assoc]
    rw [Matrix.mulVec_mulVec, this, ← Matrix.mulVec_mulVec, Matrix.mulVec_mulVec _ (1 + V * AinvU), hW1,
      Matrix.one_mulVec]
  rw [h1, h2, add_sub_cancel_right]

/-- A nonsingular matrix whose top left corner is zero. -/
def swap : Matrix (Fin 2) (Fin 2) ℚ := !![0, 1; 1, 0]

/-- **C82**, refuted for every nonsingular matrix: exchanging two unknowns is a nonsingular system, but what the
Woodbury solver factorises is singular. -/
theorem woodbury_refuted : swap.det ≠ 0 ∧ (swap - factorU 1 swap * factorV 1 swap).det = 0 := by
  rw [woodbury_inner 1 (by omega) (by omega)]
  refine ⟨by simp [swap, Matrix.det_fin_two], ?_⟩
  rw [Matrix.det_fin_two]
  simp [border, swap]

/-- **C82.** With update rank zero (no boundary rows) the Woodbury solver raises `ValueError` for every matrix. -/
theorem woodbury_rank_zero (lib : Lib K) {n : Nat} (M : Matrix (Fin n) (Fin n) K)
    (base : Matrix (Fin n) (Fin n) K → Except Exc (Solver n K)) :
    (∃ e, woodbury lib 0 M base = .error e) := ⟨.valueError, by simp [woodbury]⟩

/-! ### Selection by name -/

theorem lookup_map {α β γ : Type} [BEq α] [LawfulBEq α] (f : β → γ) (l : List (α × β)) (a : α) (c : γ)
    (h : (l.map fun p => (p.1, f p.2)).lookup a = some c) : ∃ b, (a, b) ∈ l ∧ c = f b := by
  induction l with
  | nil => simp at h
  | cons p t ih =>
    simp only [List.map_cons, List.lookup_cons] at h
    split at h
    · rename_i heq
      exact ⟨p.2, by simp [eq_of_beq heq], (Option.some.inj h).symm⟩
    · obtain ⟨b, h1, h2⟩ := ih h
      exact ⟨b, by simp [h1], h2⟩

theorem lookup_map_none {α β γ : Type} [BEq α] [LawfulBEq α] (f : β → γ) (l : List (α × β)) (a : α) (b : β)
    (h : (a, b) ∈ l) : ∃ c, (l.map fun p => (p.1, f p.2)).lookup a = some c := by
  induction l with
  | nil => simp at h
  | cons p t ih =>
    simp only [List.map_cons, List.lookup_cons]
    split
    · exact ⟨_, rfl⟩
    · rename_i heq
      rcases List.mem_cons.1 h with rfl | h
      · simp at heq
      · exact ih h

/-- **C82.** A name is accepted, in any letter case, exactly when it names one of the classes themselves; the options
of the solver are kept, and the choice is the class of that name. -/
theorem select_iff (name : String) (o o' : Options) (c : Choice) :
    select name o = .ok (c, o') ↔ o' = o ∧ ∃ k, c = .cls k ∧ (name.toLower, k) ∈ classes := by
  have huniq : ∀ s k k', (s, k) ∈ classes → (s, k') ∈ classes → k = k' := by
    have hnd : (classes.map Prod.fst).Nodup := by decide +kernel
    intro s k k' h1 h2
    have := List.inj_on_of_nodup_map hnd h1 h2 rfl
    exact (Prod.mk.inj this).2
  unfold select matsolvers
  rw [List.lookup_append]
  constructor
  · intro h
    cases h1 : (classes.map fun p => (p.1, Choice.cls p.2)).lookup name.toLower with
    | some v =>
      obtain ⟨k, hk, rfl⟩ := lookup_map _ _ _ _ h1
      rw [h1] at h
      simp only [Option.some_or, Choice.config, override, Except.ok.injEq, Prod.mk.injEq] at h
      exact ⟨h.2.symm, k, h.1.symm, hk⟩
    | none =>
      rw [h1, Option.none_or] at h
      cases h2 : (classes.map fun p => ("woodbury" ++ p.1, Choice.partialWoodbury p.2)).lookup name.toLower with
      | none => rw [h2] at h; cases h
      | some v =>
        have : ∃ k, v = .partialWoodbury k := by
          have := lookup_map (fun q : Cls => Choice.partialWoodbury q)
            (classes.map fun p => ("woodbury" ++ p.1, p.2)) name.toLower v
            (by rw [List.map_map]; exact h2)
          obtain ⟨k, -, hk⟩ := this
          exact ⟨k, hk⟩
        obtain ⟨k, rfl⟩ := this
        rw [h2] at h
        simp [Choice.config] at h
  · rintro ⟨rfl, k, rfl, hk⟩
    obtain ⟨v, hv⟩ := lookup_map_none Choice.cls _ _ _ hk
    obtain ⟨k', hk', rfl⟩ := lookup_map _ _ _ _ hv
    rw [hv, huniq _ _ _ hk hk']
    rfl

/-- **C82**, refuted for the Woodbury solvers: every name of the table that starts with `woodbury` is found, and the
construction of the solver raises `AttributeError`. -/
theorem woodbury_name_refuted (s : String) (k : Cls) (hk : (s, k) ∈ classes) (o : Options) :
    ("woodbury" ++ s, Choice.partialWoodbury k) ∈ matsolvers ∧
      select ("woodbury" ++ s) o = .error .attributeError := by
  refine ⟨List.mem_append_right _ (List.mem_map.2 ⟨(s, k), hk, rfl⟩), ?_⟩
  have : ∀ p ∈ classes, matsolvers.lookup ("woodbury" ++ p.1).toLower = some (.partialWoodbury p.2) := by
    decide +kernel
  unfold select
  rw [this _ hk]
  rfl

/-- **C82**, refuted for two of the classes: `SPQR_solve` objects can be built but never solve anything, and
`BlockInverse` objects cannot be built. -/
theorem broken_classes_refuted (lib : Lib K) (n : Nat) (es : Entries K) :
    ("spqr_solve", Cls.spqrSolve) ∈ classes ∧ ("blockinverse", Cls.blockInverse) ∈ classes ∧
    (∃ s, construct lib n es .spqrSolve = .ok s ∧ ∀ b, s.solve b = .error .nameError) ∧
    construct lib n es .blockInverse = .error .importError :=
  ⟨by decide +kernel, by decide +kernel, ⟨_, rfl, fun _ => rfl⟩, rfl⟩

/-- **C82**, refuted: options required by a matrix solver are not applied. Whatever `config` asks for, the solver
either has the option already or raises `TypeError`. -/
theorem override_refuted (o : Options) (cfg : List Bool) :
    (override o cfg = .ok o ∧ ∀ v ∈ cfg, o.bcTop = v) ∨
      (override o cfg = .error .typeError ∧ ∃ v ∈ cfg, o.bcTop ≠ v) := by
  induction cfg with
  | nil => left; exact ⟨rfl, by simp⟩
  | cons v t ih =>
    unfold override
    by_cases h : o.bcTop = v
    · rw [if_pos h]
      rcases ih with ⟨h1, h2⟩ | ⟨h1, w, h2, h3⟩
      · left
        refine ⟨h1, fun w hw => ?_⟩
        rcases List.mem_cons.1 hw with rfl | hw
        · exact h
        · exact h2 w hw
      · right; exact ⟨h1, w, by simp [h2], h3⟩
    · rw [if_neg h]
      right; exact ⟨rfl, v, by simp, h⟩

/-- **C82.** From the name to the solution: a name accepted by the solver, other than those of the three classes that
do not work, gives exact solutions. -/
theorem named_solver_exact (lib : Lib K) (hlib : lib.Correct) {n : Nat} (hn : 0 < n) (es : Entries K)
    (hr : InRange n es) (hd : (toMatrix n es).det ≠ 0) (name : String) (o o' : Options) (c : Choice)
    (hsel : select name o = .ok (c, o'))
    (hname : name.toLower ∉ ["dummysolver", "spqr_solve", "blockinverse"]) :
    ∃ k s, c = .cls k ∧ construct lib n es k = .ok s ∧ ∀ b, ∃ x, s.solve b = .ok x ∧ Solves (toMatrix n es) x b := by
  obtain ⟨-, k, rfl, hk⟩ := (select_iff name o o' c).1 hsel
  have hw : ∀ p ∈ classes, p.1 ∉ ["dummysolver", "spqr_solve", "blockinverse"] → p.2.Works := by
    intro p hp hne
    simp only [classes, List.mem_cons, List.not_mem_nil, or_false] at hp
    rcases hp with rfl | rfl | rfl | rfl | rfl | rfl | rfl | rfl | rfl | rfl | rfl | rfl | rfl | rfl | rfl | rfl <;>
      first
      | exact trivial
      | exact absurd (by simp) hne
  obtain ⟨s, h1, h2⟩ := solver_exact lib hlib hn es hr hd k (hw _ hk hname)
  exact ⟨k, s, rfl, h1, h2⟩

/-! ### The assumptions are consistent, and the classes behave on a concrete matrix -/

open Classical in
/-- A library of exact routines. -/
noncomputable def exactLib (K : Type) [Field K] [StarRing K] : Lib K where
  splu n M := if M.det = 0 then none else some fun t => matmul (t.op M)⁻¹
  umfSplu n M := if M.det = 0 then none else some (matmul M⁻¹)
  spsolve n M b := { matmul M⁻¹ b with cols := if b.cols = some 1 then none else b.cols }
  inv n M := if M.det = 0 then none else some M⁻¹
  luFactor n M := some (matmul M⁻¹)
  solveBanded n l u ab b := matmul (Matrix.of fun i j : Fin n => bandEntry l u ab i.val j.val)⁻¹ b
  bandedQR n M := some (matmul M⁻¹)

theorem mul_inv {n : Nat} {M : Matrix (Fin n) (Fin n) K} (h : M.det ≠ 0) : M * M⁻¹ = 1 :=
  Matrix.mul_nonsing_inv _ (isUnit_iff_ne_zero.2 h)

/-- The assumptions on the library can be met. -/
theorem exactLib_correct : (exactLib K).Correct where
  splu n M h := ⟨_, if_neg h, fun t b => solves_matmul (mul_inv (transpose_conjTranspose_det h t)) b⟩
  umfSplu n M h := ⟨_, if_neg h, fun b => solves_matmul (mul_inv h) b⟩
  spsolve n M h b := by
    have := (solves_matmul (mul_inv h) b).2
    refine ⟨⟨?_, this⟩, ?_⟩
    · simp only [exactLib, Arr.count]
      by_cases hb : b.cols = some 1
      · simp [hb]
      · simp [hb]
    · simp only [exactLib]
      by_cases hb : b.cols = some 1
      · right; simp [hb]
      · left; simp [hb]
  inv n M h := ⟨_, if_neg h, mul_inv h⟩
  luFactor n M h := ⟨_, rfl, fun b => solves_matmul (mul_inv h) b⟩
  solveBanded n M l u ab h _ _ hb b := by
    have : (Matrix.of fun i j : Fin n => bandEntry l u ab i.val j.val) = M := by ext i j; exact hb i j
    simp only [exactLib]
    rw [this]
    exact solves_matmul (mul_inv h) b
  bandedQR n M h := ⟨_, rfl, fun b => solves_matmul (mul_inv h) b⟩

/-- Upper triangular, with a stored zero and an unsymmetric band. -/
def bandExample : Entries ℚ := [(0, 0, 2), (0, 2, 5), (1, 1, 3), (2, 1, 0), (2, 2, 4)]

example : InRange 3 bandExample := by unfold InRange bandExample; decide

example : (toMatrix 3 bandExample).det ≠ 0 := by
  rw [Matrix.det_fin_three]
  simp [toMatrix, bandExample, List.filter]

/-- The storage of the example: two upper diagonals, one (zero) lower. -/
example : sparseToBanded 3 bandExample = .ok (1, 2, [[0, 0, 5], [0, 0, 0], [2, 3, 4], [0, 0, 0]]) := by decide +kernel

/-- A matrix with an empty last column does not broadcast. -/
example : sparseToBanded 3 [(0, 0, (1 : ℚ)), (1, 1, 1)] = .error .valueError := by decide +kernel

example : select "SuperLUColamdFactorizedTranspose" ⟨false⟩ = .ok (.cls (.superluFactorized .colamd .T), ⟨false⟩) := by
  decide +kernel

/-- The Woodbury hypotheses hold for a bordered matrix. -/
example : (!![1, 1, 1; 1, 2, 1; 0, 1, 3] : Matrix (Fin 3) (Fin 3) ℚ).det ≠ 0 ∧
    (border 1 (!![1, 1, 1; 1, 2, 1; 0, 1, 3] : Matrix (Fin 3) (Fin 3) ℚ)).det ≠ 0 := by
  constructor
  · simp [Matrix.det_fin_three]
    norm_num
  · rw [Matrix.det_fin_three]
    simp [border]

/-! ### Use by the boundary value solver -/

/-- The stored entries of a square matrix. -/
def ofMatrix {n : Nat} (M : Matrix (Fin n) (Fin n) K) : Entries K :=
  (List.finRange n).flatMap fun i => (List.finRange n).map fun j => (i.val, j.val, M i j)

theorem filter_sum (es : Entries K) (P : Nat × Nat × K → Bool) :
    ((es.filter P).map fun e => e.2.2).sum = (es.map fun e => if P e then e.2.2 else 0).sum := by
  induction es with
  | nil => rfl
  | cons e t ih =>
    by_cases h : P e
    · rw [List.filter_cons_of_pos h]; simp [h, ih]
    · rw [List.filter_cons_of_neg h]; simp [h, ih]

theorem sum_flatMap {α : Type} (l : List α) (f : α → List K) :
    (l.flatMap f).sum = (l.map fun a => (f a).sum).sum := by
  induction l with
  | nil => rfl
  | cons a t ih => simp [ih]

theorem toMatrix_ofMatrix {n : Nat} (M : Matrix (Fin n) (Fin n) K) : toMatrix n (ofMatrix M) = M := by
  ext i j
  unfold toMatrix
  rw [filter_sum]
  unfold ofMatrix
  rw [List.map_flatMap, sum_flatMap]
  have h1 : ∀ a : Fin n, (((List.finRange n).map fun j' : Fin n => (a.val, j'.val, M a j')).map
      fun e => if decide (e.1 = i.val ∧ e.2.1 = j.val) = true then e.2.2 else 0).sum = if a = i then M i j else 0 := by
    intro a
    rw [List.map_map, ← Fin.sum_univ_def]
    by_cases ha : a = i
    · subst ha
      rw [if_pos rfl, Finset.sum_eq_single j]
      · simp
      · intro b _ hb
        simp [Fin.val_inj, hb]
      · simp
    · rw [if_neg ha]
      apply Finset.sum_eq_zero
      intro b _
      simp [Fin.val_inj, ha]
  simp only [h1]
  rw [← Fin.sum_univ_def]
  simp

/-- Every working class can serve as inner solver of `woodbury_exact_partial`. -/
example (lib : Lib K) (hlib : lib.Correct) {n : Nat} (hn : 0 < n) (k : Cls) (hk : k.Works)
    (A : Matrix (Fin n) (Fin n) K) (hA : A.det ≠ 0) :
    ∃ s, construct lib n (ofMatrix A) k = .ok s ∧ ∀ b, ∃ x, s.solve b = .ok x ∧ Solves A x b := by
  have := solver_exact lib hlib hn (ofMatrix A) (by
    intro e he
    simp only [ofMatrix, List.mem_flatMap, List.mem_map] at he
    obtain ⟨i, -, j, -, rfl⟩ := he
    exact ⟨i.2, j.2⟩) (by rw [toMatrix_ofMatrix]; exact hA) k hk
  rwa [toMatrix_ofMatrix] at this

/-- The matrix with given rows; only used for square lists of rows. -/
def ofRows (A : Bvp.Rows K) (h : ∀ r ∈ A, r.length = A.length) : Matrix (Fin A.length) (Fin A.length) K :=
  fun i j => (A[i.val])[j.val]'(by rw [h _ (List.getElem_mem _)]; exact j.2)

/-- What `LinearBoundaryValueSolver` does with a class: `self.matsolver(sp.L_min, self)`, then `solve` on columns.
/repo/dedalus/core/solvers.py L391-393, L404-406. -/
def asBvp (lib : Lib K) (c : Cls) : Bvp.Matsolver K := fun A =>
  if h : ∀ r ∈ A, r.length = A.length then
    match construct lib A.length (ofMatrix (ofRows A h)) c with
    | .error _ => none
    | .ok s => some fun b =>
      match s.solve ⟨none, fun i _ => if hb : i.val < b.length then b[i.val] else 0⟩ with
      | .error _ => []
      | .ok x => List.ofFn fun i => x.val i 0
  else none

theorem zipWith_sum (r x : List K) (n : Nat) (hr : r.length = n) (hx : x.length = n) :
    (List.zipWith (· * ·) r x).sum = ∑ j : Fin n, r[j.val]'(by omega) * x[j.val]'(by omega) := by
  subst hr
  rw [← List.sum_ofFn]
  congr 1
  apply List.ext_getElem
  · simp [hx]
  · intro i h1 h2
    simp

/-- **C82.** The default factorisation (and every other SuperLU factorisation, and the two inverses) makes the
boundary value solver exact: the assumption of C46 on its matrix solver holds. -/
theorem bvp_exact (lib : Lib K) (hlib : lib.Correct) (hdet : lib.Detects) (c : Cls)
    (hc : (∃ p t, c = .superluFactorized p t) ∨ c = .sparseInverse ∨ c = .denseInverse) :
    Bvp.Exact (asBvp lib c) := by
  intro A s hs hsq b hb
  unfold asBvp at hs
  rw [dif_pos hsq] at hs
  have hM : toMatrix A.length (ofMatrix (ofRows A hsq)) = ofRows A hsq := toMatrix_ofMatrix _
  cases hco : construct lib A.length (ofMatrix (ofRows A hsq)) c with
  | error e => rw [hco] at hs; cases hs
  | ok sol =>
    rw [hco] at hs
    simp only [Option.some.injEq] at hs
    have hd : (toMatrix A.length (ofMatrix (ofRows A hsq))).det ≠ 0 := by
      intro h0
      rcases hc with ⟨p, t, rfl⟩ | rfl | rfl
      · simp only [construct, superlu] at hco
        cases t with
        | N =>
          simp only at hco
          rw [hdet.splu _ _ h0] at hco
          cases hco
        | T =>
          simp only at hco
          rw [hdet.splu _ _ (by rw [Matrix.det_transpose]; exact h0)] at hco
          cases hco
        | H =>
          simp only at hco
          rw [hdet.splu _ _ (by rw [Matrix.det_conjTranspose, h0, star_zero])] at hco
          cases hco
      · simp only [construct] at hco
        rw [hdet.inv _ _ h0] at hco
        cases hco
      · simp only [construct] at hco
        rw [hdet.inv _ _ h0] at hco
        cases hco
    have hsol : ∃ x, sol.solve ⟨none, fun i _ => if hb : i.val < b.length then b[i.val] else 0⟩ = .ok x ∧
        Solves (toMatrix A.length (ofMatrix (ofRows A hsq))) x
          ⟨none, fun i _ => if hb : i.val < b.length then b[i.val] else 0⟩ := by
      by_cases hn : 0 < A.length
      · obtain ⟨s', h1, h2⟩ := solver_exact lib hlib hn (ofMatrix (ofRows A hsq)) (by
          intro e he
          simp only [ofMatrix, List.mem_flatMap, List.mem_map] at he
          obtain ⟨i, -, j, -, rfl⟩ := he
          exact ⟨i.2, j.2⟩) hd c (by rcases hc with ⟨p, t, rfl⟩ | rfl | rfl <;> trivial)
        rw [hco] at h1
        cases h1
        exact h2 _
      · have hn0 : A.length = 0 := by omega
        have hempty : IsEmpty (Fin A.length) := by rw [hn0]; infer_instance
        have : ∃ x, sol.solve ⟨none, fun i _ => if hb : i.val < b.length then b[i.val] else 0⟩ = .ok x ∧
            x.cols = none := by
          rcases hc with ⟨p, t, rfl⟩ | rfl | rfl
          · obtain ⟨s', h1, h2⟩ := hlib.splu _ _ (transpose_conjTranspose_det hd t)
            simp only [construct, superlu] at hco
            cases t with
            | N =>
              rw [show lib.splu _ (toMatrix A.length (ofMatrix (ofRows A hsq))) = some s' from h1] at hco
              cases hco
              exact ⟨_, rfl, (h2 _ _).1⟩
            | T =>
              rw [show lib.splu _ (toMatrix A.length (ofMatrix (ofRows A hsq))).transpose = some s' from h1] at hco
              cases hco
              exact ⟨_, rfl, (h2 _ _).1⟩
            | H =>
              rw [show lib.splu _ (toMatrix A.length (ofMatrix (ofRows A hsq))).conjTranspose = some s' from h1] at hco
              cases hco
              exact ⟨_, rfl, (h2 _ _).1⟩
          · obtain ⟨W, h1, -⟩ := hlib.inv _ _ hd
            simp only [construct, h1] at hco
            cases hco
            exact ⟨_, rfl, rfl⟩
          · obtain ⟨W, h1, -⟩ := hlib.inv _ _ hd
            simp only [construct, h1] at hco
            cases hco
            exact ⟨_, rfl, rfl⟩
        obtain ⟨x, h1, h2⟩ := this
        exact ⟨x, h1, h2, fun c _ i => hempty.elim i⟩
    obtain ⟨x, hx, -, hxs⟩ := hsol
    have hsb : s b = List.ofFn fun i => x.val i 0 := by
      rw [← hs]
      simp only [hx]
    refine ⟨by rw [hsb]; simp, ?_⟩
    apply List.ext_getElem
    · simp [hb]
    · intro i h1 h2
      have hi : i < A.length := by simpa using h1
      have h3 := hxs 0 (by simp [Arr.count]) ⟨i, hi⟩
      simp only [h2, dif_pos] at h3
      rw [List.getElem_map, Bvp.dot, zipWith_sum _ _ A.length (hsq _ (List.getElem_mem _)) (by rw [hsb]; simp), ← h3, hM]
      apply Finset.sum_congr rfl
      intro j _
      simp [hsb, ofRows]

/-- The exact library reports singular matrices, so the hypotheses of `bvp_exact` can be met. -/
example : (exactLib K).Detects := ⟨fun _ _ h => if_pos h, fun _ _ h => if_pos h⟩

end Dedalus.Matsolv
