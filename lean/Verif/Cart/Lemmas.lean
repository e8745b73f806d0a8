import Mathlib.Analysis.Calculus.Deriv.Add
import Mathlib.Analysis.Calculus.Deriv.Mul
import Mathlib.Tactic.Ring
import Verif.Cart.Model
import Verif.Cart.Spec
import Verif.Contract.Props

/-!
# Lemmas on Cartesian operands
-/

namespace Dedalus.Cart

variable {K : Type} [RCLike K]

/-- The tensor indices of a signature. -/
def Fits (S : List CS) (idx : List Nat) : Prop := List.Forall₂ (· < ·) idx (S.map CS.dim)

/-- The operand stands for the tensor field `F` of signature `S`: its components are those of `F`, and `F` is constant along the axes
without a basis. -/
structure Stands (S : List CS) (F : List Nat → (Nat → ℝ) → K) (o : Opd K) : Prop where
  sig : o.sig = S
  value : ∀ idx, Fits S idx → o.value idx = some (F idx)
  const : ∀ a, o.basis a = false → ∀ idx, Fits S idx → Spec.Independent a (F idx)

/-- The Python value stands for `F`: an operand that does, or the number 0 if `F` is 0. -/
def Rep (S : List CS) (F : List Nat → (Nat → ℝ) → K) : Py K → Prop
  | .zero => ∀ idx, Fits S idx → F idx = fun _ => 0
  | .opd o => Stands S F o

theorem along_eq (a : Nat) : (along a : ((Nat → ℝ) → K) → _) = Spec.pd a := rfl

theorem pd_zero (a : Nat) : Spec.pd a (fun _ => (0 : K)) = fun _ => 0 := by
  funext x; simp [Spec.pd]

theorem pd_neg (a : Nat) (f : (Nat → ℝ) → K) : Spec.pd a (fun x => -f x) = fun x => -Spec.pd a f x := by
  funext x
  unfold Spec.pd
  exact deriv.neg

theorem pd_independent {a : Nat} {f : (Nat → ℝ) → K} (h : Spec.Independent a f) : Spec.pd a f = fun _ => 0 := by
  funext x
  unfold Spec.pd
  simp only [h x]
  exact deriv_const _ _

theorem independent_pd {a b : Nat} {f : (Nat → ℝ) → K} (h : Spec.Independent b f) (hab : b ≠ a) : Spec.Independent b (Spec.pd a f) := by
  intro x t
  unfold Spec.pd
  congr 1
  · funext s
    rw [Function.update_comm hab, h]
  · rw [Function.update_of_ne (Ne.symm hab)]

theorem Rep.congr {S : List CS} {F G : List Nat → (Nat → ℝ) → K} {p : Py K} (h : Rep S F p) (e : ∀ idx, Fits S idx → F idx = G idx) : Rep S G p := by
  cases p with
  | zero => intro idx hi; rw [← e idx hi]; exact h idx hi
  | opd o => exact ⟨h.sig, fun idx hi => by rw [← e idx hi]; exact h.value idx hi, fun a ha idx hi => by rw [← e idx hi]; exact h.const a ha idx hi⟩

theorem rep_differentiate {S : List CS} {F : List Nat → (Nat → ℝ) → K} {p : Py K} (a : Nat) (h : Rep S F p) :
    Rep S (fun idx => Spec.pd a (F idx)) (differentiate a p) := by
  cases p with
  | zero =>
    intro idx hi
    beta_reduce
    rw [h idx hi, pd_zero]
  | opd o =>
    simp only [differentiate]
    split_ifs with hb
    · refine ⟨h.sig, fun idx hi => ?_, fun b hbb idx hi => ?_⟩
      · show (o.value idx).map _ = _
        rw [h.value idx hi, Option.map_some, along_eq]
      · refine independent_pd (h.const b hbb idx hi) ?_
        rintro rfl
        exact absurd hb (by simpa using hbb)
    · intro idx hi
      exact pd_independent (h.const a (by simpa using hb) idx hi)

theorem differentiate_zero {o : Opd K} (a : Nat) : differentiate a (.opd o) = .zero ↔ o.basis a = false := by
  simp only [differentiate]
  split_ifs with h <;> simp [h]

theorem rep_neg {S : List CS} {F : List Nat → (Nat → ℝ) → K} {p : Py K} (h : Rep S F p) : Rep S (fun idx x => -F idx x) (neg p) := by
  cases p with
  | zero => intro idx hi; simp [h idx hi]
  | opd o =>
    refine ⟨h.sig, fun idx hi => ?_, fun a ha idx hi x t => ?_⟩
    · show (o.value idx).map _ = _
      rw [h.value idx hi]; rfl
    · exact congrArg Neg.neg (h.const a ha idx hi x t)

theorem neg_zero_iff (p : Py K) : neg p = .zero ↔ p = .zero := by cases p <;> simp [neg]

theorem rep_add {S : List CS} {F G : List Nat → (Nat → ℝ) → K} {p q : Py K} (h : Rep S F p) (h' : Rep S G q) :
    ∃ r, add p q = some r ∧ Rep S (fun idx x => F idx x + G idx x) r ∧ (r = .zero ↔ p = .zero ∧ q = .zero) := by
  cases p with
  | zero =>
    refine ⟨q, by cases q <;> rfl, h'.congr fun idx hi => ?_, by simp⟩
    funext x; simp [h idx hi]
  | opd a =>
    cases q with
    | zero =>
      refine ⟨.opd a, rfl, h.congr fun idx hi => ?_, by simp⟩
      funext x; simp [h' idx hi]
    | opd b =>
      refine ⟨_, if_pos (h.sig.trans h'.sig.symm), ⟨h.sig, fun idx hi => ?_, fun c hc idx hi x t => ?_⟩, by simp⟩
      · show (a.value idx).bind _ = _
        rw [h.value idx hi, h'.value idx hi]; rfl
      · have hc' : a.basis c = false ∧ b.basis c = false := by simpa using hc
        exact congrArg₂ (· + ·) (h.const c hc'.1 idx hi x t) (h'.const c hc'.2 idx hi x t)

theorem rep_sub {S : List CS} {F G : List Nat → (Nat → ℝ) → K} {p q : Py K} (h : Rep S F p) (h' : Rep S G q) :
    ∃ r, sub p q = some r ∧ Rep S (fun idx x => F idx x - G idx x) r ∧ (r = .zero ↔ p = .zero ∧ q = .zero) := by
  obtain ⟨r, e, hr, hz⟩ := rep_add h (rep_neg h')
  exact ⟨r, e, hr.congr fun idx _ => by funext x; ring, by rw [hz, neg_zero_iff]⟩

theorem rep_foldl {S : List CS} (n : Nat) (F : Nat → List Nat → (Nat → ℝ) → K) (l : Nat → Py K) (h : ∀ i < n, Rep S (F i) (l i)) :
    ∃ r, sum ((List.range n).map l) = some r ∧ Rep S (fun idx x => ∑ i ∈ Finset.range n, F i idx x) r ∧ (r = .zero ↔ ∀ i < n, l i = .zero) := by
  induction n with
  | zero => exact ⟨.zero, rfl, fun idx _ => by simp, by simp⟩
  | succ n ih =>
    obtain ⟨r, e, hr, hz⟩ := ih fun i hi => h i (by omega)
    obtain ⟨r', e', hr', hz'⟩ := rep_add hr (h n (by omega))
    refine ⟨r', ?_, hr'.congr fun idx _ => by funext x; rw [Finset.sum_range_succ], ?_⟩
    · unfold sum at e ⊢
      rw [List.range_succ, List.map_append, List.foldlM_append, e]
      simp [e']
    · rw [hz', hz]
      constructor
      · rintro ⟨a, b⟩ i hi
        rcases Nat.lt_succ_iff_lt_or_eq.1 hi with h | rfl
        exacts [a i h, b]
      · intro a; exact ⟨fun i hi => a i (by omega), a n (by omega)⟩

theorem fits_cons {cs : CS} {S : List CS} {i : Nat} {idx : List Nat} : Fits (cs :: S) (i :: idx) ↔ i < cs.dim ∧ Fits S idx := by
  unfold Fits; simp

theorem fits_length {S : List CS} {idx : List Nat} (h : Fits S idx) : idx.length = S.length := by
  have := List.Forall₂.length_eq h
  simpa using this

theorem stands_component {cs : CS} {S : List CS} {F : List Nat → (Nat → ℝ) → K} {o : Opd K} (h : Stands (cs :: S) F o) (i : Nat) (hi : i < cs.dim) :
    Stands S (fun idx => F (i :: idx)) (component 0 i o) := by
  refine ⟨by simp [component, h.sig], fun idx hidx => ?_, fun a ha idx hidx => h.const a ha _ (fits_cons.2 ⟨hi, hidx⟩)⟩
  show (Contract.cartesianComponent o.dims 0 i o.value idx).join = _
  have hd : o.dims = cs.dim :: S.map CS.dim := by simp [Opd.dims, h.sig]
  rw [hd, (Contract.cartesian_component_partial cs.dim (S.map CS.dim) i (i + 1) i o.value idx hidx (by omega)).1, h.value _ (fits_cons.2 ⟨hi, hidx⟩)]
  rfl

theorem stands_factor {cs part : CS} {S : List CS} {F : List Nat → (Nat → ℝ) → K} {o : Opd K} (h : Stands (cs :: S) F o)
    (hs : part.start - cs.start + part.dim ≤ cs.dim) :
    Stands (part :: S) (fun idx => F (match idx with | [] => [] | i :: idx => (part.start - cs.start + i) :: idx)) (factor 0 cs part o) := by
  have key : ∀ i idx, Fits (part :: S) (i :: idx) → Fits (cs :: S) ((part.start - cs.start + i) :: idx) := by
    intro i idx hf
    rw [fits_cons] at hf ⊢
    exact ⟨by omega, hf.2⟩
  refine ⟨by simp [factor, h.sig], fun idx hidx => ?_, fun a ha idx hidx => ?_⟩
  · cases idx with
    | nil => exact absurd (fits_length hidx) (by simp)
    | cons i idx =>
      show (Contract.productComponent o.dims 0 _ part.dim o.value (i :: idx)).join = _
      have hd : o.dims = cs.dim :: S.map CS.dim := by simp [Opd.dims, h.sig]
      rw [hd, (Contract.cartesian_component_partial cs.dim (S.map CS.dim) (part.start - cs.start) part.dim i o.value idx (fits_cons.1 hidx).2 (fits_cons.1 hidx).1).2,
        h.value _ (key i idx hidx)]
      rfl
  · cases idx with
    | nil => exact absurd (fits_length hidx) (by simp)
    | cons i idx => exact h.const a ha _ (key i idx hidx)

theorem fits_snoc {S : List CS} {cs : CS} : ∀ idx, Fits (S ++ [cs]) idx → ∃ I j, idx = I ++ [j] ∧ Fits S I ∧ j < cs.dim := by
  induction S with
  | nil =>
    intro idx hf
    match idx, hf with
    | [j], .cons hj .nil => exact ⟨[], j, rfl, .nil, hj⟩
  | cons c S ih =>
    intro idx hf
    cases idx with
    | nil => exact absurd (fits_length hf) (by simp)
    | cons i idx =>
      rw [List.cons_append, fits_cons] at hf
      obtain ⟨I, j, rfl, hI, hj⟩ := ih idx hf.2
      exact ⟨i :: I, j, rfl, fits_cons.2 ⟨hf.1, hI⟩, hj⟩

theorem fits_append {S : List CS} {cs : CS} {I : List Nat} {j : Nat} (h : Fits S I) (hj : j < cs.dim) : Fits (S ++ [cs]) (I ++ [j]) := by
  unfold Fits
  rw [List.map_append]
  exact List.rel_append h (List.Forall₂.cons hj .nil)

theorem rep_mul_unit {S : List CS} {F : List Nat → (Nat → ℝ) → K} {p : Py K} (h : Rep S F p) (cs : CS) (i : Nat) :
    Rep (S ++ [cs]) (fun idx x => F (idx.take S.length) x * if idx[S.length]? = some i then 1 else 0) (mul p (.opd (unit cs i))) ∧
    (mul p (.opd (unit cs i)) = .zero ↔ p = .zero) := by
  cases p with
  | zero =>
    refine ⟨fun idx hf => ?_, by simp [mul]⟩
    obtain ⟨I, j, rfl, hI, hj⟩ := fits_snoc idx hf
    have := h I hI
    beta_reduce
    rw [List.take_left' (fits_length hI)]
    simp [this]
  | opd o =>
    refine ⟨⟨by simp [h.sig, unit], fun idx hf => ?_, fun a ha idx hf x t => ?_⟩, by simp [mul]⟩
    · obtain ⟨I, j, rfl, hI, hj⟩ := fits_snoc idx hf
      have hl := fits_length hI
      show (o.value _).bind _ = _
      rw [h.sig, List.take_left' hl, List.drop_left' hl, h.value I hI]
      simp [unit, hj, ← hl]
    · obtain ⟨I, j, rfl, hI, hj⟩ := fits_snoc idx hf
      have ha' : o.basis a = false := by simpa [unit] using ha
      beta_reduce
      rw [List.take_left' (fits_length hI)]
      rw [h.const a ha' I hI x t]

end Dedalus.Cart
