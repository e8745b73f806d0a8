import Verif.Combine.Lemmas

/-!
# Combined left-hand side matrices of time steppers (C111)

`run` is what a program does to the matrices of one subproblem: build matrices,
take steps.  `dense` reads a number off a sparse matrix.  `wanted` are the
matrices a step has to solve with.
-/

namespace Dedalus.Combine

variable {K : Type}

/-- The names are distinct, the matrices have `n` rows, and they contain `m`
as `M` and `l` as `L`, one of which has an entry. -/
structure Builds (n : Nat) (ms : List (Name × Csr K)) (m l : Csr K) : Prop where
  names : (ms.map Prod.fst).Nodup
  sized : ∀ c ∈ ms.map Prod.snd, Sized n c
  hasM : (.M, m) ∈ ms
  hasL : (.L, l) ∈ ms
  entry : ∃ i j, i < n ∧ (HasEntry m i j ∨ HasEntry l i j)

/-- Matrices stored expanded have one pattern, that of the left-hand side, and
their numbers are those of the matrices they were made from. -/
theorem expanded_pattern [CommRing K] (n : Nat) (ms : List (Name × Csr K)) (s : State K)
    (hlen : 1 < ms.length) (hn : (ms.map Prod.fst).Nodup) (hs : ∀ c ∈ ms.map Prod.snd, Sized n c) :
    ∃ LHS, (build true ms s).LHS = some LHS ∧ (∀ i j, i < n → dense LHS i j = 0) ∧
      ∀ name c, (name, c) ∈ ms → ∃ e, (build true ms s).exp name = some e ∧ SamePattern e LHS ∧
        ∀ i j, i < n → dense e i j = dense c i j := by
  have hZ : ∃ Z, zerosWithPattern (ms.map Prod.snd) = some Z := by
    cases ms with
    | nil => cases hlen
    | cons x xs => exact ⟨_, rfl⟩
  obtain ⟨Z, hZ⟩ := hZ
  have sZ : Sized n Z.tocsr := by
    have := sized_tocsr Z
    rw [zeros_nrows n _ Z hZ hs] at this
    exact this
  have hnd : ((ms.map fun nm => (nm.1, (expandPattern nm.2 Z.tocsr).tocsr)).map Prod.fst).Nodup := by
    rw [List.map_map]
    exact hn
  simp only [build, if_pos hlen, if_true, hZ]
  refine ⟨_, rfl, fun i j hi => ?_, fun name c hc => ?_⟩
  · obtain ⟨hr, hb⟩ := zeros_tocsr_row n _ Z hZ hs i hi
    rw [dense_row _ i j _ (row_tocsr Z i (by rw [hr]; exact hi)), colSum_canonRow, hb]
    generalize ms.map Prod.snd = cs
    induction cs with
    | nil => rfl
    | cons c cs ih => rw [List.flatMap_cons, colSum_append, colSum_zero, ih, add_zero]
  · have hc' : c ∈ ms.map Prod.snd := List.mem_map.2 ⟨_, hc, rfl⟩
    exact ⟨_, setAll_mem _ _ _ _ hnd (List.mem_map.2 ⟨_, hc, rfl⟩), expand_pattern n _ Z hZ hs c hc',
      fun i j hi => expand_dense n c _ (hs c hc') sZ i j hi⟩

/-- The first matrices are built once, then any steps are taken: the last step
solves with the combination of its own coefficients, whatever the steps before
it wrote into the same arrays, with expanded matrices stored or not. -/
theorem combined_steps [DecidableEq K] [CommRing K] (stored : Bool) (sch : Scheme K) (n : Nat)
    (ms : List (Name × Csr K)) (m l : Csr K) (hb : Builds n ms m l)
    (ks : List (K × K)) (a b : K) (hk : ks.getLast? = some (a, b)) :
    ∃ s, run stored sch (.build ms :: ks.map fun ab => .step ab.1 ab.2) fresh = .ok s ∧
      List.Forall₂ (fun c w => ∀ i j, i < n → dense c i j = w i j) s.solvers (wanted m l sch a b) := by
  obtain ⟨h, hp, -⟩ := build_ready stored n ms m l fresh hb.names hb.sized hb.hasM hb.hasL hb.entry
  obtain ⟨s, e, -, hq, hl⟩ := steps_ready stored sch n m l ks _ h (fun a b e => by
    rw [hp] at e; cases e)
  exact ⟨s, e, hq a b (hl a b hk)⟩

/-- Storing expanded matrices does not change what any step solves with. -/
theorem stored_agrees [DecidableEq K] [CommRing K] (sch : Scheme K) (n : Nat)
    (ms : List (Name × Csr K)) (m l : Csr K) (hb : Builds n ms m l)
    (ks : List (K × K)) (hk : ks ≠ []) :
    ∃ s t, run true sch (.build ms :: ks.map fun ab => .step ab.1 ab.2) fresh = .ok s ∧
      run false sch (.build ms :: ks.map fun ab => .step ab.1 ab.2) fresh = .ok t ∧
      List.Forall₂ (fun c d => ∀ i j, i < n → dense c i j = dense d i j) s.solvers t.solvers := by
  obtain ⟨⟨a, b⟩, hl⟩ : ∃ ab, ks.getLast? = some ab := ⟨_, List.getLast?_eq_getLast_of_ne_nil hk⟩
  obtain ⟨s, e, h⟩ := combined_steps true sch n ms m l hb ks a b hl
  obtain ⟨t, e', h'⟩ := combined_steps false sch n ms m l hb ks a b hl
  refine ⟨s, t, e, e', ?_⟩
  revert h h'
  generalize s.solvers = cs, t.solvers = ds, wanted m l sch a b = ws
  intro h
  induction h generalizing ds with
  | nil => intro h'; cases h'; exact .nil
  | cons x xs ih =>
    intro h'
    cases h' with
    | cons y ys => exact .cons (fun i j hi => (x i j hi).trans (y i j hi).symm) (ih _ ys)

/-- Both matrices are built again after any program: a step with coefficients
other than those of the step before solves with the new matrices.  Without that
condition it does not (`rebuild_ignored_refuted`). -/
theorem rebuild_partial [DecidableEq K] [CommRing K] (stored : Bool) (sch : Scheme K) (n : Nat)
    (before : List (Op K)) (s : State K) (hrun : run stored sch before fresh = .ok s)
    (ms : List (Name × Csr K)) (m l : Csr K) (hb : Builds n ms m l)
    (a b : K) (hnew : s.params ≠ some (key sch a b)) :
    ∃ t, run stored sch (before ++ [.build ms, .step a b]) fresh = .ok t ∧
      List.Forall₂ (fun c w => ∀ i j, i < n → dense c i j = w i j) t.solvers (wanted m l sch a b) := by
  obtain ⟨h, hp, -⟩ := build_ready stored n ms m l s hb.names hb.sized hb.hasM hb.hasL hb.entry
  obtain ⟨t, e, -, -, hs⟩ := step_ready stored sch n m l a b _ h (by rw [hp]; exact hnew)
  refine ⟨t, ?_, hs⟩
  rw [run_append, hrun]
  show (run1 stored sch (.step a b) (build stored ms s)).bind _ = _
  rw [e]
  rfl

/-! ### Two 2×2 matrices with different patterns -/

/-- `[[1, 0], [0, 0]]`. -/
def mM : Csr ℤ := ⟨2, 2, [0, 1, 1], [0], [1]⟩

/-- `[[0, 5], [2, 3]]`, with its last row out of order. -/
def mL : Csr ℤ := ⟨2, 2, [0, 1, 3], [1, 1, 0], [5, 3, 2]⟩

/-- `[[0, 5], [2, 7]]`. -/
def mL' : Csr ℤ := ⟨2, 2, [0, 1, 3], [1, 0, 1], [5, 2, 7]⟩

theorem builds_two (l : Csr ℤ) (h : Sized 2 l) : Builds 2 [(.M, mM), (.L, l)] mM l where
  names := show [Name.M, Name.L].Nodup by decide
  sized := by
    intro c hc
    rcases List.mem_cons.1 hc with rfl | hc
    · exact ⟨rfl, rfl⟩
    · rw [List.map_cons, List.map_nil, List.mem_singleton] at hc
      rw [hc]
      exact h
  hasM := List.mem_cons_self
  hasL := List.mem_cons_of_mem _ List.mem_cons_self
  entry := ⟨0, 0, by decide, Or.inl ⟨0, 1, 1, rfl, rfl, List.mem_cons_self⟩⟩

example : Builds 2 [(.M, mM), (.L, mL)] mM mL := builds_two mL ⟨rfl, rfl⟩

/-- Steps of coefficients (1, 2) and (3, 1): the left-hand side is
`[[3, 5], [2, 3]]`. -/
example : (run true .multistep [.build [(.M, mM), (.L, mL)], .step 1 2, .step 3 1] fresh).toOption.map
    (fun s => s.solvers) = some [⟨2, 2, [0, 2, 4], [0, 1, 0, 1], [3, 5, 2, 3]⟩] := by decide +kernel

/-- A Runge-Kutta step of two stages. -/
example : (run true (.rungeKutta [1, 2]) [.build [(.M, mM), (.L, mL)], .step 10 0] fresh).toOption.map
    (fun s => s.solvers.map (·.data)) = some [[1, 50, 20, 30], [1, 100, 40, 60]] := by decide +kernel

example : (build true [(.M, mM), (.L, mL)] fresh).exp .M = some ⟨2, 2, [0, 2, 4], [0, 1, 0, 1], [1, 0, 0, 0]⟩ := by
  decide +kernel

example : ∃ s, run true .multistep [.build [(.M, mM), (.L, mL)], .step 1 2] fresh = .ok s ∧
    s.params ≠ some (key .multistep 3 2) := by
  obtain ⟨s, e, -⟩ := combined_steps true .multistep 2 _ mM mL (builds_two mL ⟨rfl, rfl⟩) [(1, 2)] 1 2 rfl
  refine ⟨s, e, ?_⟩
  have : (run true .multistep [.build [(.M, mM), (.L, mL)], .step 1 2] fresh).toOption.map (·.params) =
      some (some (1, 2)) := by decide +kernel
  have e' : run true .multistep [.build [(.M, mM), (.L, mL)], .step 1 2] fresh = .ok s := e
  rw [e'] at this
  have h : s.params = some (1, 2) := Option.some.inj this
  rw [h]
  decide

/-- Matrices built again between two steps of the same coefficients are
ignored: the second step still solves with the first matrices. -/
theorem rebuild_ignored_refuted : ∀ stored : Bool,
    ¬ ∀ (ms ms' : List (Name × Csr ℤ)) (m l m' l' : Csr ℤ) (a b : ℤ), Builds 2 ms m l → Builds 2 ms' m' l' →
      ∃ t, run stored .multistep [.build ms, .step a b, .build ms', .step a b] fresh = .ok t ∧
        List.Forall₂ (fun c w => ∀ i j, i < 2 → dense c i j = w i j) t.solvers (wanted m' l' .multistep a b) := by
  intro stored h
  obtain ⟨t, e, hf⟩ := h [(.M, mM), (.L, mL)] [(.M, mM), (.L, mL')] mM mL mM mL' 1 1
    (builds_two mL ⟨rfl, rfl⟩) (builds_two mL' ⟨rfl, rfl⟩)
  have hs : (run stored .multistep [.build [(.M, mM), (.L, mL)], .step 1 1, .build [(.M, mM), (.L, mL')], .step 1 1]
      fresh).toOption.map (fun s => s.solvers.map fun c => dense c 1 1) = some [3] := by
    cases stored <;> decide +kernel
  rw [e] at hs
  replace hs : t.solvers.map (fun c => dense c 1 1) = [3] := Option.some.inj hs
  generalize t.solvers = cs at hf hs
  cases hf with
  | cons hc hr =>
    have h7 := hc 1 1 (by decide)
    rw [List.map_cons] at hs
    rw [(List.cons.inj hs).1] at h7
    revert h7
    decide +kernel

/-- With expanded matrices stored, building one of the two matrices again
leaves its expanded copy as it was: the next step solves with the old one,
though the right-hand side uses the new one.  Without storing it uses the new
one. -/
theorem rebuild_one_refuted :
    ¬ ∀ (ms : List (Name × Csr ℤ)) (m l l' : Csr ℤ) (a b a' b' : ℤ), Builds 2 ms m l → Sized 2 l' → (a, b) ≠ (a', b') →
      ∃ t, run true .multistep [.build ms, .step a b, .build [(.L, l')], .step a' b'] fresh = .ok t ∧
        t.min .L = some l' ∧
        List.Forall₂ (fun c w => ∀ i j, i < 2 → dense c i j = w i j) t.solvers (wanted m l' .multistep a' b') := by
  intro h
  obtain ⟨t, e, -, hf⟩ := h [(.M, mM), (.L, mL)] mM mL mL' 1 1 1 2 (builds_two mL ⟨rfl, rfl⟩) ⟨rfl, rfl⟩ (by decide)
  have hs : (run true .multistep [.build [(.M, mM), (.L, mL)], .step 1 1, .build [(.L, mL')], .step 1 2]
      fresh).toOption.map (fun s => s.solvers.map fun c => dense c 1 1) = some [6] := by decide +kernel
  rw [e] at hs
  replace hs : t.solvers.map (fun c => dense c 1 1) = [6] := Option.some.inj hs
  generalize t.solvers = cs at hf hs
  cases hf with
  | cons hc hr =>
    have h14 := hc 1 1 (by decide)
    rw [List.map_cons] at hs
    rw [(List.cons.inj hs).1] at h14
    revert h14
    decide +kernel

/-- Without storing, one matrix can be built again. -/
theorem rebuild_one_minimal [DecidableEq K] [CommRing K] (sch : Scheme K) (n : Nat)
    (before : List (Op K)) (s : State K) (hrun : run false sch before fresh = .ok s)
    (m l : Csr K) (hm : s.min .M = some m) (sm : Sized n m) (sl : Sized n l)
    (a b : K) (hnew : s.params ≠ some (key sch a b)) :
    ∃ t, run false sch (before ++ [.build [(.L, l)], .step a b]) fresh = .ok t ∧
      List.Forall₂ (fun c w => ∀ i j, i < n → dense c i j = w i j) t.solvers (wanted m l sch a b) := by
  have h : Ready false n m l (build false [(.L, l)] s) := ⟨hm, rfl, sm, sl⟩
  obtain ⟨t, e, -, -, hs⟩ := step_ready false sch n m l a b _ h hnew
  refine ⟨t, ?_, hs⟩
  rw [run_append, hrun]
  show (run1 false sch (.step a b) (build false [(.L, l)] s)).bind _ = _
  rw [e]
  rfl

example : (run false .multistep [.build [(.M, mM), (.L, mL)], .step 1 1] fresh).toOption.map
    (fun s => (s.min .M, s.params)) = some (some mM, some (1, 1)) := by decide +kernel

/-- Matrices without any entry: combining the stored data arrays raises an
exception, combining the minimal matrices does not. -/
theorem empty_pattern_refuted :
    ∃ Z : Csr ℤ, Sized 1 Z ∧
      (∃ e, run true .multistep [.build [(.M, Z), (.L, Z)], .step 1 1] fresh = .error e) ∧
      ∃ s, run false .multistep [.build [(.M, Z), (.L, Z)], .step 1 1] fresh = .ok s :=
  ⟨⟨1, 1, [0, 0], [], []⟩, ⟨rfl, rfl⟩, ⟨.emptyBlas, rfl⟩, ⟨_, rfl⟩⟩

end Dedalus.Combine
