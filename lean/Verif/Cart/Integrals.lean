import Mathlib.MeasureTheory.Integral.IntervalIntegral.Basic
import Mathlib.Tactic.FieldSimp
import Verif.Cart.Lemmas

/-!
# C76: Integrals, averages and interpolation over several coordinates

Model of `Integrate`, `Average` and `interpolate` on domains whose bases are all one-dimensional (`dedalus/core/operators.py` L1053-1285):
how the argument is split into coordinates and the one-dimensional operators are nested. The one-dimensional operators
themselves are C49, C58, C59, and `Multi.lean` lifts them to several coordinates.
-/

namespace Dedalus.Cart

variable {K : Type} [RCLike K]

/-- The `coord` argument: absent, a coordinate (by its axis), a Cartesian system, a direct product, or a list or tuple. -/
inductive CArg where
  | default
  | coord (a : Nat)
  | cart (axes : List Nat)
  | product (l : List CArg)
  | list (l : List CArg)

/-- One-dimensional integral, average or interpolation: the function with coordinate `a` replaced by a functional of it. The output
is constant along `a`. Operands without a basis along `a` have no implementation (`_check_args`, `dedalus/core/operators.py`
L1186-1193, L1259-1266; `basis.coordsys` of `None`, L1103-1104). Not modelled: the ValueError for a field one of whose tensor indices is
the coordinate itself (L1198-1199, L1271-1272). -/
def one (T : Nat → (ℝ → K) → K) (a : Nat) (o : Opd K) : Option (Opd K) :=
  if o.basis a then some ⟨o.sig, fun b => o.basis b && b != a, fun idx => (o.value idx).map fun f x => T a fun t => f (Function.update x a t)⟩ else none

/-- Dispatch on what is left of the argument: only single coordinates have an implementation (`input_coord_type`,
`dedalus/core/basis.py` L748, L770, L1062, L1087, L1255, L1281). -/
def dispatch (T : Nat → (ℝ → K) → K) (c : CArg) (o : Opd K) : Option (Opd K) :=
  match c with
  | .coord a => one T a o
  | _ => none

/-- The recursion over several coordinates, on the reversed list: `Integrate(operand, coord[:-1])` unless it has one element, then
`coord[-1]`, an IndexError for no element (`dedalus/core/operators.py` L1173-1176, L1246-1249). -/
def nested (T : Nat → (ℝ → K) → K) : List CArg → Opd K → Option (Opd K)
  | [], _ => none
  | [c], o => dispatch T c o
  | c :: cs, o => (nested T cs o).bind (dispatch T c)

/-- `Integrate(operand, coord)` and `Average(operand, coord)` with the splitting of the argument (`dedalus/core/operators.py` L1159-1183,
L1232-1256). `axes` are the axes of the operand's bases, in order. -/
def reduceOver (T : Nat → (ℝ → K) → K) (axes : List Nat) (c : CArg) (o : Opd K) : Option (Opd K) :=
  match c with
  | .default => nested T (axes.map .coord).reverse o
  | .cart l => nested T (l.map .coord).reverse o
  | .product l => nested T l.reverse o
  | .list l => nested T l.reverse o
  | .coord a => dispatch T (.coord a) o

/-- The functional of `Integrate` along an axis whose basis has the given bounds. -/
noncomputable def integralAlong (lo hi : Nat → ℝ) (a : Nat) (f : ℝ → K) : K := ∫ t in lo a..hi a, f t

/-- The functional of `Average`: the integral over the length of the interval. -/
noncomputable def averageAlong (lo hi : Nat → ℝ) (a : Nat) (f : ℝ → K) : K := (∫ t in lo a..hi a, f t) / ((hi a - lo a : ℝ) : K)

/-- `interpolate(arg, **positions)` (`dedalus/core/operators.py` L1053-1059): one coordinate after the other. -/
def interpolateAll (positions : List (Nat × ℝ)) (o : Opd K) : Option (Opd K) :=
  positions.foldlM (fun o p => one (fun _ f => f p.2) p.1 o) o

/-- Integrals over several coordinates: first over the first coordinate of the list. -/
noncomputable def Spec.integral (lo hi : Nat → ℝ) : List Nat → ((Nat → ℝ) → K) → (Nat → ℝ) → K
  | [], f => f
  | a :: as, f => Spec.integral lo hi as fun x => ∫ t in lo a..hi a, f (Function.update x a t)

/-- The volume of the box. -/
def Spec.volume (lo hi : Nat → ℝ) (as : List Nat) : ℝ := (as.map fun a => hi a - lo a).prod

theorem stands_one (T : Nat → (ℝ → K) → K) {S : List CS} {F : List Nat → (Nat → ℝ) → K} {o : Opd K} (h : Stands S F o) (a : Nat) (ha : o.basis a = true) :
    ∃ r, one T a o = some r ∧ Stands S (fun idx x => T a fun t => F idx (Function.update x a t)) r ∧ ∀ b, r.basis b = true ↔ o.basis b = true ∧ b ≠ a := by
  refine ⟨_, if_pos ha, ⟨h.sig, fun idx hidx => ?_, fun b hb idx hidx x t => ?_⟩, fun b => by simp⟩
  · show (o.value idx).map _ = _
    rw [h.value idx hidx]; rfl
  · beta_reduce
    congr 1
    funext s
    by_cases e : b = a
    · subst e; rw [Function.update_idem]
    · rw [Function.update_comm e]
      exact h.const b (by simpa [e] using hb) idx hidx _ _

theorem update_self {f : (Nat → ℝ) → K} (x : Nat → ℝ) (a : Nat) : f (Function.update x a (x a)) = f x := by rw [Function.update_eq_self]

/-- Apply the functionals from the last coordinate of the list to the first. -/
def iterate (T : Nat → (ℝ → K) → K) : List Nat → ((Nat → ℝ) → K) → (Nat → ℝ) → K
  | [], f => f
  | a :: as, f => fun x => T a fun t => iterate T as f (Function.update x a t)

theorem nested_exact (T : Nat → (ℝ → K) → K) {S : List CS} {F : List Nat → (Nat → ℝ) → K} {o : Opd K} (h : Stands S F o) :
    ∀ as : List Nat, as ≠ [] → as.Nodup → (∀ a ∈ as, o.basis a = true) →
      ∃ r, nested T (as.map .coord) o = some r ∧ Stands S (fun idx => iterate T as (F idx)) r ∧ ∀ b, r.basis b = true ↔ o.basis b = true ∧ b ∉ as := by
  intro as
  induction as with
  | nil => intro c; exact absurd rfl c
  | cons a as ih =>
    intro _ hn hb
    by_cases e : as = []
    · subst e
      obtain ⟨r, e, hr, hb'⟩ := stands_one T h a (hb a (by simp))
      exact ⟨r, e, hr, fun b => by rw [hb']; simp⟩
    · obtain ⟨q, eq, hq, hbq⟩ := ih e (List.nodup_cons.1 hn).2 fun b hb' => hb b (by simp [hb'])
      obtain ⟨r, er, hr, hb'⟩ := stands_one T hq a ((hbq a).2 ⟨hb a (by simp), (List.nodup_cons.1 hn).1⟩)
      refine ⟨r, ?_, hr, fun b => by rw [hb', hbq]; simp; tauto⟩
      obtain ⟨b, bs, rfl⟩ := List.exists_cons_of_ne_nil e
      simp only [List.map_cons, nested] at eq ⊢
      rw [eq]
      exact er

theorem iterate_snoc (T : Nat → (ℝ → K) → K) : ∀ (as : List Nat) (a : Nat) (f : (Nat → ℝ) → K), iterate T (as ++ [a]) f = iterate T as fun x => T a fun t => f (Function.update x a t)
  | [], a, f => rfl
  | b :: as, a, f => by
    funext x
    simp only [List.cons_append, iterate]
    rw [iterate_snoc T as a f]

theorem iterate_integral (lo hi : Nat → ℝ) : ∀ (as : List Nat) (f : (Nat → ℝ) → K), iterate (integralAlong lo hi) as.reverse f = Spec.integral lo hi as f
  | [], f => rfl
  | a :: as, f => by
    rw [List.reverse_cons, iterate_snoc, iterate_integral lo hi as]
    rfl

theorem iterate_average (lo hi : Nat → ℝ) : ∀ (as : List Nat) (f : (Nat → ℝ) → K) (x : Nat → ℝ),
    iterate (averageAlong lo hi) as f x = iterate (integralAlong lo hi) as f x / ((Spec.volume lo hi as : ℝ) : K)
  | [], f, x => by simp [iterate, Spec.volume]
  | a :: as, f, x => by
    simp only [iterate, averageAlong, integralAlong]
    have : (fun t => iterate (averageAlong lo hi) as f (Function.update x a t)) = fun t => iterate (integralAlong lo hi) as f (Function.update x a t) / ((Spec.volume lo hi as : ℝ) : K) := by
      funext t; rw [iterate_average lo hi as]
    rw [this]
    have e : (fun t => iterate (integralAlong lo hi) as f (Function.update x a t) / ((Spec.volume lo hi as : ℝ) : K)) =
        fun t => iterate (integralAlong lo hi) as f (Function.update x a t) * (((Spec.volume lo hi as : ℝ) : K))⁻¹ := by
      funext t; rw [div_eq_mul_inv]
    rw [e, intervalIntegral.integral_mul_const, show Spec.volume lo hi (a :: as) = (hi a - lo a) * Spec.volume lo hi as by simp [Spec.volume]]
    push_cast
    rw [div_eq_mul_inv, div_eq_mul_inv, mul_inv]
    ring_nf

/-- The arguments that stand for a list of coordinates. -/
def Lists (axes : List Nat) (as : List Nat) : CArg → Prop
  | .default => as = axes
  | .coord a => as = [a]
  | .cart l => as = l
  | .product l => l = as.map .coord
  | .list l => l = as.map .coord

theorem reduce_exact (T : Nat → (ℝ → K) → K) {S : List CS} {F : List Nat → (Nat → ℝ) → K} {o : Opd K} (h : Stands S F o) (axes as : List Nat) (c : CArg)
    (hc : Lists axes as c) (hne : as ≠ []) (hn : as.Nodup) (hb : ∀ a ∈ as, o.basis a = true) :
    ∃ r, reduceOver T axes c o = some r ∧ Stands S (fun idx => iterate T as.reverse (F idx)) r ∧ ∀ b, r.basis b = true ↔ o.basis b = true ∧ b ∉ as := by
  obtain ⟨r, e, hr, hb'⟩ := nested_exact T h as.reverse (by simpa using hne) (List.nodup_reverse.2 hn) (by simpa using hb)
  refine ⟨r, ?_, hr, by simpa using hb'⟩
  rw [List.map_reverse] at e
  cases c with
  | default => have hc : as = axes := hc; subst hc; exact e
  | coord a => have hc : as = [a] := hc; subst hc; exact e
  | cart l => have hc : as = l := hc; subst hc; exact e
  | product l => have hc : l = as.map .coord := hc; subst hc; exact e
  | list l => have hc : l = as.map .coord := hc; subst hc; exact e

/-- Integrating over several coordinates gives the iterated integral, and the result is constant along these coordinates, however the
coordinates are given: as the default, a Cartesian system, a direct product of coordinates, or a list. -/
theorem integrate_partial {S : List CS} {F : List Nat → (Nat → ℝ) → K} {o : Opd K} (h : Stands S F o) (lo hi : Nat → ℝ) (axes as : List Nat) (c : CArg)
    (hc : Lists axes as c) (hne : as ≠ []) (hn : as.Nodup) (hb : ∀ a ∈ as, o.basis a = true) :
    ∃ r, reduceOver (integralAlong lo hi) axes c o = some r ∧ Stands S (fun idx => Spec.integral lo hi as (F idx)) r ∧
      ∀ b, r.basis b = true ↔ o.basis b = true ∧ b ∉ as := by
  obtain ⟨r, e, hr, hb'⟩ := reduce_exact (integralAlong lo hi) h axes as c hc hne hn hb
  refine ⟨r, e, ?_, hb'⟩
  simpa only [iterate_integral] using hr

/-- The average is the integral over the volume. -/
theorem average_partial {S : List CS} {F : List Nat → (Nat → ℝ) → K} {o : Opd K} (h : Stands S F o) (lo hi : Nat → ℝ) (axes as : List Nat) (c : CArg)
    (hc : Lists axes as c) (hne : as ≠ []) (hn : as.Nodup) (hb : ∀ a ∈ as, o.basis a = true) :
    ∃ r, reduceOver (averageAlong lo hi) axes c o = some r ∧
      Stands S (fun idx x => Spec.integral lo hi as (F idx) x / ((Spec.volume lo hi as : ℝ) : K)) r := by
  obtain ⟨r, e, hr, -⟩ := reduce_exact (averageAlong lo hi) h axes as c hc hne hn hb
  refine ⟨r, e, ?_⟩
  have hv : Spec.volume lo hi as.reverse = Spec.volume lo hi as := by simp [Spec.volume, List.prod_reverse]
  refine Rep.congr (p := .opd r) hr fun idx _ => ?_
  funext x
  rw [iterate_average, iterate_integral, hv]

/-- Interpolating at several positions gives the function at these positions. -/
theorem interpolate_partial : ∀ (positions : List (Nat × ℝ)) {S : List CS} {F : List Nat → (Nat → ℝ) → K} {o : Opd K}, Stands S F o →
    (positions.map Prod.fst).Nodup → (∀ p ∈ positions, o.basis p.1 = true) →
    ∃ r, interpolateAll positions o = some r ∧ Stands S (fun idx x => F idx (positions.foldr (fun p y => Function.update y p.1 p.2) x)) r
  | [], S, F, o, h, _, _ => ⟨o, rfl, h⟩
  | p :: ps, S, F, o, h, hn, hb => by
    obtain ⟨q, e, hq, hbq⟩ := stands_one (fun _ f => f p.2) h p.1 (hb p (by simp))
    rw [List.map_cons, List.nodup_cons] at hn
    obtain ⟨r, e', hr⟩ := interpolate_partial ps hq hn.2 fun p' hp' => (hbq p'.1).2 ⟨hb p' (by simp [hp']), fun c => hn.1 (by rw [← c]; exact List.mem_map_of_mem hp')⟩
    refine ⟨r, ?_, hr⟩
    unfold interpolateAll at e' ⊢
    rw [List.foldlM_cons, e]
    exact e'

/-- The value at the positions does not depend on their order: every coordinate has its position. -/
theorem positions_apply (positions : List (Nat × ℝ)) (hn : (positions.map Prod.fst).Nodup) (x : Nat → ℝ) :
    (∀ p ∈ positions, positions.foldr (fun p y => Function.update y p.1 p.2) x p.1 = p.2) ∧
    ∀ a, a ∉ positions.map Prod.fst → positions.foldr (fun p y => Function.update y p.1 p.2) x a = x a := by
  induction positions with
  | nil => simp
  | cons q ps ih =>
    rw [List.map_cons, List.nodup_cons] at hn
    obtain ⟨ih1, ih2⟩ := ih hn.2
    refine ⟨fun p hp => ?_, fun a ha => ?_⟩
    · rw [List.foldr_cons]
      rcases List.mem_cons.1 hp with rfl | hp
      · rw [Function.update_self]
      · rw [Function.update_of_ne, ih1 p hp]
        rintro e
        exact hn.1 (by rw [← e]; exact List.mem_map_of_mem hp)
    · rw [List.map_cons, List.mem_cons, not_or] at ha
      rw [List.foldr_cons, Function.update_of_ne ha.1, ih2 a ha.2]

/-- Integrating or averaging a field without bases over its domain raises, although the integral over nothing is the field itself. -/
theorem integrate_constant_refuted (T : Nat → (ℝ → K) → K) (o : Opd K) : reduceOver T [] .default o = none := rfl

/-- Integrals, averages and interpolations along a coordinate on which the operand does not depend raise. -/
theorem integrate_axis_refuted (T : Nat → (ℝ → K) → K) (o : Opd K) (a : Nat) (axes : List Nat) (h : o.basis a = false) :
    reduceOver T axes (.coord a) o = none ∧ ∀ x, interpolateAll [(a, x)] o = none := by
  constructor
  · simp [reduceOver, dispatch, one, h]
  · intro x; simp [interpolateAll, one, h]

/-- Integrals over a direct product or a list with a Cartesian factor raise, for every operand, although the same factor alone is accepted. -/
theorem integrate_product_refuted (T : Nat → (ℝ → K) → K) (o : Opd K) (axes l : List Nat) (before after : List CArg) :
    reduceOver T axes (.product (before ++ .cart l :: after)) o = none ∧ reduceOver T axes (.list (before ++ .cart l :: after)) o = none := by
  have h : ∀ after before : List CArg, nested T (after ++ .cart l :: before) o = none := by
    intro after before
    induction after with
    | nil => cases before <;> simp [nested, dispatch]
    | cons c after ih =>
      cases after with
      | nil => simp only [List.cons_append, List.nil_append, nested] at ih ⊢; rw [ih]; rfl
      | cons d after => simp only [List.cons_append, nested] at ih ⊢; rw [ih]; rfl
  simp [reduceOver, List.reverse_append, h]

/-- A field on a box of two coordinates meets the hypotheses. -/
example : Stands [] (fun _ x => x 0 * x 1) (⟨[], fun a => decide (a < 2), fun _ => some fun x => x 0 * x 1⟩ : Opd ℝ) ∧ Lists [0, 1] [0, 1] .default ∧
    Lists [0, 1] [1, 0] (.list [.coord 1, .coord 0]) ∧ [1, 0].Nodup := by
  refine ⟨⟨rfl, fun _ _ => rfl, fun a ha _ _ x t => ?_⟩, rfl, rfl, by decide⟩
  have h0 : (0 : Nat) ≠ a := by rintro rfl; simp at ha
  have h1 : (1 : Nat) ≠ a := by rintro rfl; simp at ha
  simp [Function.update_of_ne h0, Function.update_of_ne h1]

end Dedalus.Cart
