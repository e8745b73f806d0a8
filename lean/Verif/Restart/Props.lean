import Verif.Restart.Lemmas

/-!
# C105: a saved state is restored on any number of processes
-/

namespace Dedalus.Restart

open Dedalus.Dist Dedalus.Global Dedalus.Output

variable {α T : Type}

theorem recorded_restores {B : Type} {read : B → Nat → Option (List (NDArr α))} {tasks : List Task} (gridSpace : Nat → List Bool) {max : Option Nat}
    {s0 : Nat} {ws : List (Write α (Record T) × (Nat → NDArr α))} {before after : Nat → Option (H5 (Record T) B)}
    (hw : ∀ x ∈ ws, Faithful tasks x.1 x.2) (h : Recorded read tasks max s0 ws before after) : Restores read tasks gridSpace max s0 ws after := by
  intro w x hx
  obtain ⟨file, hf, hr, ht⟩ := h.written w x hx
  refine ⟨file, hf, fun mesh s allow hs coords hc index hi => ?_⟩
  have hrec : pyGet file.scales index = some x.1.record := pyGet_of hr hi
  obtain ⟨out, h1, h2⟩ := loadFields_ok (coords := coords) (tasks := (view read tasks gridSpace file).tasks) (index := index) allow
    (P := fun y z => z.1 = y.1 ∧ if y.1.name ∈ tasks.map Task.name then Restored y.1 (gridSpace y.1.name) (x.2 y.1.name) coords z.2 else z = y) s.fields (by
    intro y hy
    rcases hs y hy with ⟨hok, t, htm, hn, hfit⟩ | ⟨ha, hm⟩
    · left
      obtain ⟨es, e, h1, h2, h3⟩ := ht t htm
      obtain ⟨es', h4, h5⟩ := (h.only _ file hf).2.2 t htm
      rw [h1] at h4
      obtain rfl := Option.some.inj h4
      have hm : y.1.name ∈ tasks.map Task.name := List.mem_map.mpr ⟨t, htm, hn⟩
      have hv : (view read tasks gridSpace file).tasks y.1.name = some ⟨gridSpace y.1.name, es⟩ := by
        show (if y.1.name ∈ tasks.map Task.name then _ else _) = _
        rw [if_pos hm, ← hn, h1]; rfl
      refine ⟨by rw [hv]; rfl, ?_⟩
      have hG := (hw x (List.mem_of_getElem? hx) t htm).1
      rw [← hG] at hfit
      rw [hn] at hfit h3
      obtain ⟨d, d1, d2⟩ := loadField_ok hok hfit h3 hc hv (pyGet_of h2 (by rw [h5]; exact hi))
      exact ⟨d, d1, rfl, by rw [if_pos hm]; exact d2⟩
    · right
      refine ⟨?_, ha, rfl, by rw [if_neg hm]⟩
      show (if y.1.name ∈ tasks.map Task.name then _ else _ : Option (Dset α)).isSome = false
      rw [if_neg hm]; rfl)
  refine ⟨out, ?_, h2⟩
  have hrec' : pyGet (view read tasks gridSpace file).scales index = some x.1.record := hrec
  simp only [loadState, hrec', h1]

/-- C105, output gathered on the root process. Any number of outputs on any mesh, then any of them is restored by a solver on any mesh. -/
theorem gather_restart (zero : α) (fill : Record T) (max : Option Nat) (hmax : ∀ m, max = some m → 0 < m) (mesh : List Nat) (tasks : List Task)
    (hT : TasksOK mesh tasks) (gridSpace : Nat → List Bool) (s0 : Nat) (before : Nat → Option (H5 (Record T) (gatherMode zero max tasks).File))
    (hb : ∀ s, s0 ≤ s → before s = none) (ws : List (Write α (Record T) × (Nat → NDArr α))) (hw : ∀ x ∈ ws, Faithful tasks x.1 x.2) :
    ∃ st, run (gatherMode zero max tasks) fill max tasks ⟨s0, 0, before⟩ (ws.map Prod.fst) = some st ∧
      Restores (gatherMode zero max tasks).read tasks gridSpace max s0 ws st.files := by
  obtain ⟨st, h1, h2⟩ := gather_output zero fill max hmax mesh tasks hT s0 before hb ws hw
  exact ⟨st, h1, recorded_restores gridSpace hw h2⟩

/-- C105, parallel output. -/
theorem parallel_restart (zero : α) (fill : Record T) (max : Option Nat) (hmax : ∀ m, max = some m → 0 < m) (mesh : List Nat) (tasks : List Task)
    (hT : TasksOK mesh tasks) (gridSpace : Nat → List Bool) (s0 : Nat) (before : Nat → Option (H5 (Record T) (parallelMode zero max tasks).File))
    (hb : ∀ s, s0 ≤ s → before s = none) (ws : List (Write α (Record T) × (Nat → NDArr α))) (hw : ∀ x ∈ ws, Faithful tasks x.1 x.2) :
    ∃ st, run (parallelMode zero max tasks) fill max tasks ⟨s0, 0, before⟩ (ws.map Prod.fst) = some st ∧
      Restores (parallelMode zero max tasks).read tasks gridSpace max s0 ws st.files := by
  obtain ⟨st, h1, h2⟩ := parallel_output zero fill max hmax mesh tasks hT s0 before hb ws hw
  exact ⟨st, h1, recorded_restores gridSpace hw h2⟩

/-- C105, output to process files that are joined by virtual datasets. -/
theorem virtual_restart (zero : α) (fill : Record T) (max : Option Nat) (hmax : ∀ m, max = some m → 0 < m) (mesh : List Nat) (tasks : List Task)
    (hT : TasksOK mesh tasks) (gridSpace : Nat → List Bool) (s0 : Nat)
    (before : Nat → Option (H5 (Record T) (virtualMode zero max (coordsList mesh) tasks).File))
    (hb : ∀ s, s0 ≤ s → before s = none) (ws : List (Write α (Record T) × (Nat → NDArr α))) (hw : ∀ x ∈ ws, Faithful tasks x.1 x.2) :
    ∃ st, run (virtualMode zero max (coordsList mesh) tasks) fill max tasks ⟨s0, 0, before⟩ (ws.map Prod.fst) = some st ∧
      Restores (virtualMode zero max (coordsList mesh) tasks).read tasks gridSpace max s0 ws st.files := by
  obtain ⟨st, h1, h2⟩ := virtual_output zero fill max hmax mesh tasks hT s0 before hb ws hw
  exact ⟨st, h1, recorded_restores gridSpace hw h2⟩

/-- C105. Gathering a field that was restored in coefficient space on all processes of the new run gives the saved array. -/
theorem restored_gather {mesh : List Nat} {f : FieldInfo} (h : FieldOK mesh f) {gs : List Bool} {G : NDArr α} (hG : G.shape = f.coeff.comps ++ f.coeff.shape)
    (field : List Nat → NDArr α) (hr : ∀ coords, List.Forall₂ (· < ·) coords mesh → Restored f gs G coords (.coeff (field coords))) :
    ∃ a, gather f.coeff field = some a ∧ Same a G :=
  gather_returns_global f.coeff h.coeff G hG field fun coords hc => (hr coords (h.mesh ▸ hc)).2

/-! ## What is refused -/

/-- C105. An index that is not in the file is refused, and the solver is as it was. -/
theorem bad_index (fl : ℚ → ℚ) (coords : List Nat) (file : SaveFile α T) (index : Int) (allow : Bool) (s : Solver α T)
    (h : (file.scales.length : Int) ≤ index ∨ index < -(file.scales.length : Int)) :
    loadState fl coords file index allow s = (s, .error .indexError) := by
  have : pyGet file.scales index = none := by
    unfold pyGet
    rcases h with h | h
    · rw [if_pos (by omega), List.getElem?_eq_none_iff]; omega
    · rw [if_neg (by omega), if_neg (by omega)]
  simp only [loadState, this]

theorem loadFields_missing (fl : ℚ → ℚ) (coords : List Nat) (tasks : Nat → Option (Dset α)) (index : Int) :
    ∀ fs : List (FieldInfo × Data α), (∃ y ∈ fs, tasks y.1.name = none) → ∃ out e, loadFields fl coords tasks index false fs = (out, some e) := by
  intro fs
  induction fs with
  | nil => rintro ⟨y, hy, _⟩; simp at hy
  | cons x fs ih =>
    rintro ⟨y, hy, hn⟩
    unfold loadFields
    by_cases hx : (tasks x.1.name).isSome = true
    · rw [if_pos hx]
      have hy' : y ∈ fs := by
        rcases List.mem_cons.mp hy with rfl | h
        · rw [hn] at hx; simp at hx
        · exact h
      cases loadField fl x.1 coords tasks index with
      | error e => exact ⟨_, e, rfl⟩
      | ok d =>
        obtain ⟨out, e, h⟩ := ih ⟨y, hy', hn⟩
        simp only [h]
        exact ⟨_, _, rfl⟩
    · rw [if_neg hx]
      exact ⟨_, _, rfl⟩

/-- C105. A state that lacks a field of the solver is refused unless missing fields are allowed. -/
theorem missing_refused (fl : ℚ → ℚ) (coords : List Nat) (file : SaveFile α T) (index : Int) (s : Solver α T)
    (h : ∃ y ∈ s.fields, file.tasks y.1.name = none) : ∃ e, (loadState fl coords file index false s).2 = .error e := by
  unfold loadState
  cases pyGet file.scales index with
  | none => exact ⟨_, rfl⟩
  | some r =>
    obtain ⟨out, e, he⟩ := loadFields_missing fl coords file.tasks index s.fields h
    simp only [he]
    exact ⟨_, rfl⟩

theorem loadFields_keeps (fl : ℚ → ℚ) (coords : List Nat) (tasks : Nat → Option (Dset α)) (index : Int) (allow : Bool) :
    ∀ fs : List (FieldInfo × Data α), List.Forall₂ (fun x z => z.1 = x.1 ∧ (tasks x.1.name = none → z = x)) fs
      (loadFields fl coords tasks index allow fs).1 := by
  intro fs
  induction fs with
  | nil => exact .nil
  | cons x fs ih =>
    have hrest : List.Forall₂ (fun (x z : FieldInfo × Data α) => z.1 = x.1 ∧ (tasks x.1.name = none → z = x)) fs fs :=
      List.forall₂_same.mpr fun _ _ => ⟨rfl, fun _ => rfl⟩
    unfold loadFields
    by_cases hx : (tasks x.1.name).isSome = true
    · rw [if_pos hx]
      cases loadField fl x.1 coords tasks index with
      | error e => exact .cons ⟨rfl, fun _ => rfl⟩ hrest
      | ok d => exact .cons ⟨rfl, fun h => by rw [h] at hx; simp at hx⟩ ih
    · rw [if_neg hx]
      cases allow with
      | true => exact .cons ⟨rfl, fun _ => rfl⟩ ih
      | false => exact .cons ⟨rfl, fun _ => rfl⟩ hrest

/-- C105. Fields that are not in the file keep their data. -/
theorem missing_kept (fl : ℚ → ℚ) (coords : List Nat) (file : SaveFile α T) (index : Int) (allow : Bool) (s : Solver α T) :
    List.Forall₂ (fun x z => z.1 = x.1 ∧ (file.tasks x.1.name = none → z = x)) s.fields (loadState fl coords file index allow s).1.fields := by
  unfold loadState
  cases pyGet file.scales index with
  | none => exact List.forall₂_same.mpr fun _ _ => ⟨rfl, fun _ => rfl⟩
  | some r => exact loadFields_keeps fl coords file.tasks index allow s.fields

/-- C105. Data that are in grid space along some axes and in coefficient space along others are refused. -/
theorem mixed_refused (fl : ℚ → ℚ) (f : FieldInfo) (coords : List Nat) (tasks : Nat → Option (Dset α)) (index : Int) (d : Dset α)
    (h : tasks f.name = some d) (h1 : true ∈ d.gridSpace) (h0 : false ∈ d.gridSpace) : loadField fl f coords tasks index = .error .valueError := by
  have a1 : ¬ d.gridSpace.all (· == true) = true := fun hh => by have := List.all_eq_true.mp hh _ h0; simp at this
  have a0 : ¬ d.gridSpace.all (· == false) = true := fun hh => by have := List.all_eq_true.mp hh _ h1; simp at this
  simp only [loadField, h, a1, a0, if_false, Bool.false_eq_true]

/-- C105. Coefficients of another resolution are refused. -/
theorem resolution_refused (fl : ℚ → ℚ) (f : FieldInfo) (coords : List Nat) (tasks : Nat → Option (Dset α)) (index : Int) (d : Dset α)
    (h : tasks f.name = some d) (h0 : false ∈ d.gridSpace) (e : NDArr α) (he : pyGet d.entries index = some e) (comps shape : List Nat)
    (hs : e.shape = comps ++ shape) (hl : shape.length = f.coeff.shape.length) (hne : shape ≠ f.coeff.shape) :
    loadField fl f coords tasks index = .error .valueError := by
  by_cases h1 : true ∈ d.gridSpace
  · exact mixed_refused fl f coords tasks index d h h1 h0
  have a1 : ¬ d.gridSpace.all (· == true) = true := fun hh => by have := List.all_eq_true.mp hh _ h0; simp at this
  have a0 : d.gridSpace.all (· == false) = true := List.all_eq_true.mpr fun b hb => by
    cases b with
    | false => rfl
    | true => exact absurd hb h1
  have hd : e.shape.drop (e.shape.length - f.coeff.shape.length) ≠ f.coeff.shape := by
    rw [hs, drop_tail _ _ _ hl.symm]; exact hne
  simp only [loadField, h, a1, a0, if_false, if_true, he, loadCoeff, Bool.false_eq_true, hd, ne_eq, not_false_eq_true]

/-! ## What does not hold -/

/-- A field on one process, of four coefficients. -/
def plainField (name : Nat) : FieldInfo := ⟨name, ⟨[true], [], [4], [1], [false], []⟩, [4], [true], [1]⟩

/-- C105 refuted for exceptions: a state that is refused because a field is missing has already changed the clock and the fields before it. -/
theorem failed_load_refuted : ∃ (file : SaveFile ℚ ℚ) (s : Solver ℚ ℚ) (r : Solver ℚ ℚ), loadState id [] file (-1) false s = (r, .error .ioError) ∧
    s.iteration = 7 ∧ r.iteration = 3 ∧ s.fields.length = 2 ∧ (∃ a, (s.fields.map Prod.snd)[0]? = some (.coeff a) ∧ a.get [0] = some 1) ∧
    (∃ a, (r.fields.map Prod.snd)[0]? = some (.coeff a) ∧ a.get [0] = some 5) ∧ (r.fields.map Prod.snd)[1]? = (s.fields.map Prod.snd)[1]? := by
  refine ⟨⟨[⟨1 / 2, 0, 1 / 8, 3, 1⟩], fun n => if n = 0 then some ⟨[false], [⟨[4], fun _ => some 5⟩]⟩ else none⟩,
    ⟨7, 0, 1, 0, [(plainField 0, .coeff ⟨[4], fun _ => some 1⟩), (plainField 1, .coeff ⟨[4], fun _ => some 1⟩)]⟩, _, rfl, rfl, rfl, rfl,
    ⟨_, rfl, rfl⟩, ⟨_, rfl, rfl⟩, rfl⟩

/-! ## Doubles -/

/-- Numbers that need no rounding. -/
theorem double_exact (x : ℚ) (hx : 0 ≤ x) (h : x.den ∣ x.num.toNat * 2 ^ (52 - Nat.log2 (x.num.toNat / x.den))) : double x = x := by
  obtain ⟨k, hk⟩ := h
  have hden : 0 < x.den := x.den_pos
  unfold double
  simp only [hk]
  have hr : roundHalfEven (x.den * k) x.den = k := by
    unfold roundHalfEven
    rw [Nat.mul_mod_right, Nat.mul_div_cancel_left _ hden, if_pos (Or.inl (by omega))]
  rw [hr]
  have h2 : (2 : ℚ) ^ (52 - Nat.log2 (x.num.toNat / x.den)) ≠ 0 := pow_ne_zero _ (by norm_num)
  rw [div_eq_iff h2]
  have hk' : ((x.num.toNat : ℚ)) * 2 ^ (52 - Nat.log2 (x.num.toNat / x.den)) = (x.den : ℚ) * k := by exact_mod_cast hk
  have hn : ((x.num.toNat : ℕ) : ℚ) = (x.num : ℚ) := by
    have : ((x.num.toNat : ℕ) : ℤ) = x.num := Int.toNat_of_nonneg (Rat.num_nonneg.mpr hx)
    exact_mod_cast this
  have hd : (x.den : ℚ) ≠ 0 := Nat.cast_ne_zero.mpr hden.ne'
  rw [hn] at hk'
  have hx' : x * (x.den : ℚ) = x.num := Rat.mul_den_eq_num x
  rw [← hx'] at hk'
  have : (x.den : ℚ) * (x * 2 ^ (52 - Nat.log2 (x.num.toNat / x.den))) = (x.den : ℚ) * k := by rw [← hk']; ring
  exact (mul_left_cancel₀ hd this).symm

theorem double_nat (m : Nat) : double m = m := double_exact m (Nat.cast_nonneg m) (by rw [Rat.den_natCast]; exact one_dvd _)

/-- C105 with doubles: if the scale of the saved data is a double (for example 1, 3/2 or 2), the grid that is loaded has as many points as the grid
that was saved. -/
theorem double_grid_partial {m n : Nat} (hn : 0 < n) (h1 : n = 1 → m = 1) (h : double ((m : ℚ) / n) = (m : ℚ) / n) :
    gridSize double (savedScale double m n) n = m := by
  unfold gridSize savedScale
  split
  · rename_i h'; exact (h1 h').symm
  · have hn' : (n : ℚ) ≠ 0 := Nat.cast_ne_zero.mpr (by omega)
    rw [h, div_mul_cancel₀ _ hn', double_nat, Int.ceil_natCast, Int.toNat_natCast]

/-- Fields at the usual scales. -/
theorem usual_scales {n : Nat} (hn : 1 < n) : gridSize double (savedScale double n n) n = n ∧ gridSize double (savedScale double (2 * n) n) n = 2 * n ∧
    (∀ k, n = 2 * k → gridSize double (savedScale double (3 * k) n) n = 3 * k) := by
  have hn' : (n : ℚ) ≠ 0 := Nat.cast_ne_zero.mpr (by omega)
  refine ⟨double_grid_partial (by omega) (by omega) ?_, double_grid_partial (by omega) (by omega) ?_, fun k hk => double_grid_partial (by omega) (by omega) ?_⟩
  · rw [div_self hn']; decide +kernel
  · rw [Nat.cast_mul, mul_div_assoc, div_self hn']; decide +kernel
  · have hk' : (k : ℚ) ≠ 0 := Nat.cast_ne_zero.mpr (by omega)
    rw [hk]
    have : ((3 * k : ℕ) : ℚ) / ((2 * k : ℕ) : ℚ) = 3 / 2 := by push_cast; field_simp
    rw [this]; decide +kernel

/-- C105 refuted for doubles: a field of size 21 that is saved on its grid at scale 5/4 has 27 points, but the scale computed from the file gives a grid
of 28 points, and loading fails. -/
theorem double_grid_refuted : gridSize double (5 / 4) 21 = 27 ∧ gridSize double (savedScale double 27 21) 21 = 28 := by decide +kernel

/-- A field of 21 points on one process. -/
def oddField : FieldInfo := ⟨0, ⟨[true], [], [21], [1], [false], []⟩, [21], [true], [1]⟩

/-- The state that was saved at that scale is refused by the solver that saved it. -/
theorem double_load_refuted (s : Solver ℚ ℚ) (d : Data ℚ) (hs : s.fields = [(oddField, d)]) :
    (loadState double [] (⟨[⟨0, 0, 0, 0, 1⟩], fun n => if n = 0 then some ⟨[true], [⟨[27], fun _ => some 5⟩]⟩ else none⟩ : SaveFile ℚ ℚ) (-1) false s).2 =
      .error .valueError := by
  have h0 : ¬ (0 : ℚ) ∈ List.zipWith (savedScale double) [27] oddField.sizes := by decide +kernel
  have h1 : (loadGlobal (oddField.grid double (List.zipWith (savedScale double) [27] oddField.sizes)) (⟨[27], fun _ => some 5⟩ : NDArr ℚ) []).isNone = true := by
    decide +kernel
  have h2 := Option.isNone_iff_eq_none.mp h1
  have key : loadGrid double oddField [] (⟨[27], fun _ => some 5⟩ : NDArr ℚ) = .error .valueError := by
    have e0 : List.drop ((⟨[27], fun _ => some 5⟩ : NDArr ℚ).shape.length - oddField.sizes.length) (⟨[27], fun _ => some 5⟩ : NDArr ℚ).shape = [27] := rfl
    simp only [loadGrid, e0]
    rw [if_neg h0, h2]
  have k2 : loadField double oddField [] (fun n => if n = 0 then some (⟨[true], [⟨[27], fun _ => some 5⟩]⟩ : Dset ℚ) else none) (-1) = .error .valueError := key
  have k3 : (loadFields double [] (fun n => if n = 0 then some (⟨[true], [⟨[27], fun _ => some 5⟩]⟩ : Dset ℚ) else none) (-1) false s.fields).2 =
      some .valueError := by
    rw [hs, loadFields, if_pos (show (Option.isSome _) = true from rfl)]
    simp only [k2]
  show (match (loadFields double [] (fun n => if n = 0 then some (⟨[true], [⟨[27], fun _ => some 5⟩]⟩ : Dset ℚ) else none) (-1) false s.fields).2 with
    | some e => Except.error e
    | none => Except.ok _) = _
  rw [k3]

/-! ## An example -/

/-- The tasks of `Verif.Output` are restored on a mesh of 4 processes: the vector field from its coefficients, the scalar field of grid size (3, 2, 6)
from its grid of (4, 2, 6) points. -/
def demoFields : List FieldInfo :=
  [⟨0, ⟨[false, true, true], [4], [6, 4, 8], [2, 1, 2], [false, false, false], [3]⟩, [6, 4, 8], [true, true, false], [1, 1, 1]⟩,
   ⟨1, ⟨[false, true, true], [4], [3, 2, 6], [1, 1, 1], [false, false, false], []⟩, [3, 2, 6], [true, true, false], [1, 1, 1]⟩]

def demoSpace (n : Nat) : List Bool := if n = 0 then [false, false, false] else [true, true, true]

theorem demo_fields : ∀ f ∈ demoFields, FieldOK [4] f ∧ ∃ t ∈ demoTasks, t.name = f.name ∧ Fits f (demoSpace t.name) (t.d.comps ++ t.d.shape) := by
  intro f hf
  simp only [demoFields, List.mem_cons, List.not_mem_nil, or_false] at hf
  rcases hf with rfl | rfl
  · refine ⟨⟨⟨rfl, rfl, .cons (by decide) (.cons (by decide) (.cons (by decide) .nil)), rfl, by decide⟩, rfl, rfl, by decide, rfl, rfl, rfl⟩,
      ⟨0, demoD⟩, by simp [demoTasks], rfl, ⟨by decide, .inl ⟨by decide, rfl⟩⟩⟩
  · refine ⟨⟨⟨rfl, rfl, .cons (by decide) (.cons (by decide) (.cons (by decide) .nil)), rfl, by decide⟩, rfl, rfl, by decide, rfl, rfl, rfl⟩,
      _, List.mem_cons_of_mem _ (List.mem_singleton.mpr rfl), rfl, ⟨by decide, .inr ⟨by decide, [4, 2, 6], rfl,
        .cons (by decide) (.cons (by decide) (.cons (by decide) .nil))⟩⟩⟩

/-- Five outputs, two to a file, on 2 by 3 processes; the fourth is restored on 4 processes. -/
example : ∃ (ws : List (Write Int (Record ℚ) × (Nat → NDArr Int))) (st : State (Record ℚ) _), ws.length = 5 ∧
    run (virtualMode (0 : Int) (some 2) (coordsList [2, 3]) demoTasks) ⟨0, 0, 0, 0, 0⟩ (some 2) demoTasks ⟨4, 0, fun _ => none⟩ (ws.map Prod.fst) = some st ∧
    ∃ file, st.files 5 = some file ∧ ∀ coords, List.Forall₂ (· < ·) coords [4] → ∀ s : Solver Int ℚ, s.fields.map Prod.fst = demoFields →
      ∃ fields, loadState id coords (view (virtualMode (0 : Int) (some 2) (coordsList [2, 3]) demoTasks).read demoTasks demoSpace file) 1 false s =
        (⟨30, 30, 3 / 10, 3 / 10, fields⟩, .ok (4, 1 / 100)) := by
  choose w hw using demo_write
  let rec_ (k : Nat) : Record ℚ := ⟨k / 10, 0, 1 / 100, 10 * k, k + 1⟩
  obtain ⟨st, h1, h2⟩ := virtual_restart (0 : Int) (⟨0, 0, 0, 0, 0⟩ : Record ℚ) (some 2) (by simp) [2, 3] demoTasks demoTasks_ok demoSpace 4 (fun _ => none)
    (fun _ _ => rfl) ((List.range 5).map fun k => (⟨rec_ k, (w k).fields⟩, demoArray k)) (by
      intro x hx
      obtain ⟨k, _, rfl⟩ := List.mem_map.mp hx
      exact hw k)
  refine ⟨_, st, by simp, h1, ?_⟩
  obtain ⟨file, f1, f2⟩ := h2 3 (⟨rec_ 3, (w 3).fields⟩, demoArray 3) rfl
  refine ⟨file, f1, fun coords hc s hs => ?_⟩
  obtain ⟨fields, e1, _⟩ := f2 [4] s false (fun y hy => .inl (demo_fields y.1 (hs ▸ List.mem_map_of_mem hy))) coords hc 1 (.inl rfl)
  refine ⟨fields, ?_⟩
  rw [e1]
  simp only [rec_]
  norm_num

end Dedalus.Restart
