import Verif.Bvp.Lemmas
import Verif.Mats.Assemble
import Verif.Mats.Props

/-!
# C46: boundary value solvers solve every subproblem
-/

namespace Dedalus.Bvp

open Subsys

variable {K : Type} [Field K]

/-- What a history of calls (latest first) leaves: the cached solver of a subproblem solves the matrix built at
`builtAt`, there is one exactly if the subproblem was solved before, and the handler of the right-hand sides is due. -/
structure Inv {W : Type} (P : Linear K W) (hist : List (Call W)) (s : LSolver K) : Prop where
  due : s.rhs.divs.iter < s.rhs.iteration
  none : ∀ n, s.cache.lookup n = none ↔ builtAt n hist = none
  some : ∀ n f, s.cache.lookup n = some f → ∃ w sp, builtAt n hist = some w ∧ P.sps[n]? = some sp ∧
    sp.srcEq.length = sp.srcVar.length ∧ ∀ b, b.length = (minMatrix sp (P.A w n)).length →
      (f b).length = (minMatrix sp (P.A w n)).length ∧ (minMatrix sp (P.A w n)).map (fun r => dot r (f b)) = b

theorem solve_step {W : Type} {ms : Matsolver K} (hms : Exact ms) {P : Linear K W} (hok : ∀ sp ∈ P.sps, sp.Ok)
    (hsep : Separate P.sps) {hist : List (Call W)} {s s' : LSolver K} (hinv : Inv P hist s) (c : Call W)
    (h : LSolver.solve ms P c.w c.sel c.rebuild s = (s', .none)) :
    Inv P (c :: hist) s' ∧ s'.state.coeff = true ∧
    (∀ n ∈ c.sel, ∃ sp w, P.sps[n]? = .some sp ∧ builtAt n (c :: hist) = .some w ∧
      sp.Solved (P.A w n) s'.state.data (P.F c.w)) ∧
    ∀ a, (∀ n ∈ c.sel, ∀ sp, P.sps[n]? = .some sp → ∀ d ∈ sp.inputs, a ∉ d) → s'.state.data a = s.state.data a := by
  unfold LSolver.solve at h
  simp only at h
  set todo := if c.rebuild = true then c.sel else c.sel.filter fun n => (s.cache.lookup n).isNone with htodo
  cases hb : buildAll P c.w todo with
  | error e => rw [hb] at h; simp at h
  | ok mats =>
    rw [hb] at h
    simp only at h
    obtain ⟨hm1, hm2⟩ := buildAll_mem hb
    rcases hf : factorAll ms mats s.cache with ⟨cache, e⟩
    rw [hf] at h
    simp only at h
    cases e with
    | some e => simp at h
    | none =>
      simp only at h
      have hlk := factorAll_lookup hf
      obtain ⟨e1, e2, e3⟩ := evaluate_due (r := s.rhs) hinv.due (P.F c.w)
      cases hs : solveAll P cache (s.rhs.evaluate (P.F c.w)).F c.sel s.state.preset.data with
      | error e => rw [hs] at h; simp at h
      | ok X =>
        rw [hs] at h
        simp only [Prod.mk.injEq, and_true] at h
        rw [e1] at hs
        -- the cache after the call
        have hcache : ∀ n, (cache.lookup n = .none ↔ builtAt n (c :: hist) = .none) ∧
            ∀ f, cache.lookup n = .some f → ∃ w sp, builtAt n (c :: hist) = .some w ∧ P.sps[n]? = .some sp ∧
              sp.srcEq.length = sp.srcVar.length ∧ ∀ b, b.length = (minMatrix sp (P.A w n)).length →
                (f b).length = (minMatrix sp (P.A w n)).length ∧ (minMatrix sp (P.A w n)).map (fun r => dot r (f b)) = b := by
          intro n
          rcases hlk n with ⟨m, f, h1, h2, h3⟩ | ⟨h1, h2⟩
          · have hn : n ∈ todo := (hm1 n).1 (List.mem_map_of_mem (f := Prod.fst) h1)
            have hba : builtAt n (c :: hist) = .some c.w := by
              rw [htodo] at hn
              by_cases hr : c.rebuild = true
              · rw [if_pos hr] at hn
                simp [builtAt, hn, hr]
              · rw [if_neg hr] at hn
                obtain ⟨h5, h6⟩ := List.mem_filter.1 hn
                have := (hinv.none n).1 (by simpa using h6)
                simp [builtAt, h5, hr, this]
            obtain ⟨sp, h4, h5, rfl⟩ := hm2 n m h1
            refine ⟨by rw [h3, hba]; simp, fun f' hf' => ⟨c.w, sp, hba, h4, h5, ?_⟩⟩
            obtain rfl : f = f' := by rw [h3] at hf'; exact Option.some.inj hf'
            intro b hbl
            refine hms _ _ h2 ?_ b hbl
            intro r hr
            obtain ⟨i, _, rfl⟩ := List.mem_map.1 hr
            simp [minMatrix, h5]
          · have hn : n ∉ todo := fun hh => h1 ((hm1 n).2 hh)
            have hba : builtAt n (c :: hist) = builtAt n hist := by
              by_cases hsel : n ∈ c.sel
              · rw [htodo] at hn
                by_cases hr : c.rebuild = true
                · rw [if_pos hr] at hn; exact absurd hsel hn
                · rw [if_neg hr] at hn
                  have hsome : s.cache.lookup n ≠ .none := fun hh => hn (List.mem_filter.2 ⟨hsel, by simp [hh]⟩)
                  have : builtAt n hist ≠ .none := fun hh => hsome ((hinv.none n).2 hh)
                  obtain ⟨w, hw⟩ := Option.ne_none_iff_exists'.1 this
                  simp [builtAt, hsel, hr, hw]
              · simp [builtAt, hsel]
            rw [h2, hba]
            exact ⟨hinv.none n, hinv.some n⟩
        obtain ⟨r1, r2⟩ := solveAll_spec hok hsep (F := P.F c.w) (cache := cache)
          (fun n => match builtAt n (c :: hist) with | .some w => P.A w n | .none => fun _ _ => 0)
          (by
            intro n sp f hsp hl
            obtain ⟨w, sp', h1, h2, h3, h4⟩ := (hcache n).2 f hl
            obtain rfl : sp = sp' := by rw [hsp] at h2; exact Option.some.inj h2
            rw [h1]
            exact ⟨h3, h4⟩) hs
        subst h
        refine ⟨⟨?_, fun n => (hcache n).1, fun n => (hcache n).2⟩, rfl, fun n hn => ?_, fun a ha => r2 a ha⟩
        · show (s.rhs.evaluate (P.F c.w)).divs.iter < (((s.rhs.evaluate (P.F c.w)).iteration + 1 : Nat) : ℤ)
          rw [e3, e2]; push_cast; omega
        · obtain ⟨sp, h1, h2⟩ := r1 n hn
          have hb : ∃ w, builtAt n (c :: hist) = .some w := by
            simp only [builtAt, if_pos hn]
            split
            · exact ⟨_, rfl⟩
            · cases builtAt n hist with
              | none => exact ⟨_, rfl⟩
              | some w => exact ⟨_, rfl⟩
          obtain ⟨w, hw⟩ := hb
          refine ⟨sp, w, h1, hw, ?_⟩
          rw [hw] at h2
          exact h2

theorem run_inv {W : Type} {ms : Matsolver K} (hms : Exact ms) {P : Linear K W} (hok : ∀ sp ∈ P.sps, sp.Ok)
    (hsep : Separate P.sps) (edit : Nat → State K → State K) : ∀ (cs : List (Call W)) (k : Nat) (hist : List (Call W)) (s s' : LSolver K),
    Inv P hist s → run ms P edit cs k s = .some s' → Inv P (cs.reverse ++ hist) s'
  | [], k, hist, s, s', hinv, h => by
    obtain rfl : s = s' := by simpa [run] using h
    simpa using hinv
  | c :: cs, k, hist, s, s', hinv, h => by
    rw [run] at h
    rcases hs : LSolver.solve ms P c.w c.sel c.rebuild { s with state := edit k s.state } with ⟨s1, e⟩
    rw [hs] at h
    cases e with
    | some e => simp at h
    | none =>
      simp only at h
      have h1 := (solve_step hms hok hsep (hist := hist) (s := { s with state := edit k s.state }) ⟨hinv.due, hinv.none, hinv.some⟩ c hs).1
      have := run_inv hms hok hsep edit cs (k + 1) (c :: hist) s1 s' h1 h
      simpa using this

/-- C46. After any history of solves and edits of the state, a solve that returns leaves every chosen subproblem's
equations satisfied in each of its subsystems: the state fields are in coefficient space, every valid equation holds
with the right-hand sides evaluated at the call, and modes that are not valid are zero. The matrices are those of the
latest call that rebuilt them (or of the first call). -/
theorem linear_solve {W : Type} (ms : Matsolver K) (hms : Exact ms) (P : Linear K W) (hok : ∀ sp ∈ P.sps, sp.Ok)
    (hsep : Separate P.sps) (edit : Nat → State K → State K) (F0 : Store K) (X0 : State K) (cs : List (Call W))
    (s : LSolver K) (hrun : run ms P edit cs 0 (LSolver.new F0 X0) = .some s)
    (c : Call W) (X : State K) (s' : LSolver K) (h : LSolver.solve ms P c.w c.sel c.rebuild { s with state := X } = (s', .none)) :
    s'.state.coeff = true ∧ ∀ n ∈ c.sel, ∃ sp w, P.sps[n]? = .some sp ∧ builtAt n (c :: cs.reverse) = .some w ∧
      sp.Solved (P.A w n) s'.state.data (P.F c.w) := by
  have h0 : Inv P [] (LSolver.new F0 X0) :=
    ⟨by simp [LSolver.new, Rhs.new], fun n => by simp [LSolver.new, builtAt], fun n f hf => by simp [LSolver.new] at hf⟩
  have h1 := run_inv hms hok hsep edit cs 0 [] _ s h0 hrun
  simp only [List.append_nil] at h1
  obtain ⟨_, h2, h3, _⟩ := solve_step hms hok hsep (hist := cs.reverse) (s := { s with state := X }) ⟨h1.due, h1.none, h1.some⟩ c h
  exact ⟨h2, h3⟩

/-- C46. When a rebuild is asked for, or on the first solve, the matrices are those of the current data. -/
theorem builtAt_current {W : Type} (n : Nat) (c : Call W) (older : List (Call W)) (hn : n ∈ c.sel)
    (h : c.rebuild = true ∨ ∀ d ∈ older, n ∉ d.sel) : builtAt n (c :: older) = .some c.w := by
  rcases h with h | h
  · simp [builtAt, hn, h]
  · have : builtAt n older = .none := by
      induction older with
      | nil => rfl
      | cons d l ih =>
        simp only [builtAt, if_neg (h d (by simp))]
        exact ih fun e he => h e (by simp [he])
    simp only [builtAt, if_pos hn, this]
    split <;> rfl

/-- The coefficients of the state, whichever layout its data are in; `T` is the forward transform. -/
def coefficients (T : Store K → Store K) (s : State K) : Store K := if s.coeff then s.data else T s.data

/-- C46 (for a state held in coefficient space). Modes outside the chosen subproblems keep their coefficients. -/
theorem other_modes_partial {W : Type} (ms : Matsolver K) (P : Linear K W) (T : Store K → Store K) (w : W)
    (sel : List Nat) (rebuild : Bool) (s s' : LSolver K) (h : LSolver.solve ms P w sel rebuild s = (s', .none))
    (hc : s.state.coeff = true) (a : Addr)
    (ha : ∀ n ∈ sel, ∀ sp, P.sps[n]? = .some sp → ∀ d ∈ sp.inputs, a ∉ d) :
    coefficients T s'.state a = coefficients T s.state a := by
  have aux : ∀ (cache : List (Nat × (List K → List K))) F (ns : List Nat) (X X' : Store K), (∀ n ∈ ns, n ∈ sel) →
      solveAll P cache F ns X = .ok X' → X' a = X a := by
    intro cache F ns
    induction ns with
    | nil => intro X X' _ h; obtain rfl : X = X' := by simpa [solveAll] using h
             rfl
    | cons n ns ih =>
      intro X X' hns h
      rw [solveAll] at h
      cases hsp : P.sps[n]? with
      | none => rw [hsp] at h; simp at h
      | some sp =>
        cases hl : cache.lookup n with
        | none => rw [hsp, hl] at h; simp at h
        | some f =>
          rw [hsp, hl] at h
          rw [ih _ _ (fun m hm => hns m (by simp [hm])) h, solveOne_frame]
          exact ha n (hns n (by simp)) sp hsp
  unfold LSolver.solve at h
  simp only at h
  split at h
  · simp at h
  · split at h
    · simp at h
    · split at h
      · simp at h
      · rename_i X hX
        simp only [Prod.mk.injEq, and_true] at h
        subst h
        have := aux _ _ sel _ _ (fun _ h => h) hX
        simp only [coefficients, State.preset, if_true, hc]
        exact this

/-! ### Examples -/

/-- Exact solver for one equation in one unknown. -/
def ms1 : Matsolver ℚ
  | [[a]] => if a = 0 then .none else .some fun b => b.map (· / a)
  | _ => .none

theorem ms1_exact : Exact ms1 := by
  intro A s h _ b hb
  match A, h with
  | [[a]], h =>
    simp only [ms1] at h
    split at h
    · simp at h
    · rename_i ha
      obtain rfl := Option.some.inj h
      obtain ⟨x, rfl⟩ := List.length_eq_one_iff.1 hb
      simp only [List.map_cons, List.map_nil, List.length_cons, List.length_nil, true_and, dot, List.zipWith_cons_cons,
        List.zipWith_nil_right, List.sum_cons, List.sum_nil, add_zero]
      rw [mul_div_cancel₀ _ ha]

/-- A subproblem with one mode of the only field. -/
def one (n : Nat) : Sp := ⟨[[(0, [n])]], [[(0, [n])]], 1, 1, [0], [0]⟩

theorem one_ok (n : Nat) : (one n).Ok :=
  ⟨by simp [one], by simp [one], rfl, by simp [one], by simp [one], by simp [one], by simp [one], by simp [one], by simp [one]⟩

/-- Two modes; the coefficient of both equations is the outside number, the right-hand side is 6. -/
def prob : Linear ℚ ℚ := ⟨[one 0, one 1], fun w _ _ _ => w, fun _ _ => 6⟩

example : (∀ sp ∈ prob.sps, sp.Ok) ∧ Separate prob.sps := by
  refine ⟨?_, ?_⟩
  · intro sp hsp
    simp only [prob, List.mem_cons, List.not_mem_nil, or_false] at hsp
    rcases hsp with rfl | rfl <;> exact one_ok _
  · simp [Separate, prob, one]

/-- Both modes are solved with coefficient 2; without a rebuild the coefficient 3 is not seen, with it it is. -/
example : ∃ s, run ms1 prob (fun _ x => x) [⟨2, [0, 1], false⟩, ⟨3, [0], false⟩, ⟨3, [1], true⟩] 0
    (LSolver.new (fun _ => 0) ⟨false, fun _ => 9⟩) = .some s ∧ s.state.data (0, [0]) = 3 ∧ s.state.data (0, [1]) = 2 := by
  refine ⟨_, rfl, ?_, ?_⟩ <;> decide +kernel

/-- The transform of two grid values to a mean and a difference. -/
def T2 (g : Store ℚ) : Store ℚ := fun a => match a with
  | (0, [0]) => (g (0, [0]) + g (0, [1])) / 2
  | (0, [1]) => (g (0, [0]) - g (0, [1])) / 2
  | _ => 0

/-- C46, false in general: if the state is in grid space when only some subproblems are solved, the coefficients of
the other modes are lost: the grid values are relabelled as coefficients. -/
theorem other_modes_refuted : ∃ (s s' : LSolver ℚ), LSolver.solve ms1 prob 2 [0] false s = (s', .none) ∧
    (∀ n ∈ [0], ∀ sp, prob.sps[n]? = .some sp → ∀ d ∈ sp.inputs, ((0, [1]) : Addr) ∉ d) ∧
    coefficients T2 s.state (0, [1]) = 2 ∧ coefficients T2 s'.state (0, [1]) = 1 := by
  refine ⟨LSolver.new (fun _ => 0) ⟨false, fun a => if a = (0, [0]) then 5 else 1⟩, _, rfl, ?_, ?_, ?_⟩
  · intro n hn sp hsp d hd
    obtain rfl : n = 0 := by simpa using hn
    obtain rfl : sp = one 0 := by simpa [prob] using hsp.symm
    obtain rfl : d = [(0, [0])] := by simpa [one] using hd
    decide
  · decide +kernel
  · decide +kernel

/-! ### Newton iterations -/

theorem newtonLoop_spec {ms : Matsolver K} (hms : Exact ms) {F : Store K} {A : Nat → Nat → Nat → K} :
    ∀ (sps : List Sp) (n : Nat) {mats D D'}, (∀ sp ∈ sps, sp.Ok) → Separate sps → buildNewton A n sps = .ok mats →
      newtonLoop ms F mats D = .ok D' →
      (∀ (k : Nat) sp, sps[k]? = .some sp → sp.Solved (A (n + k)) D' F) ∧
      ∀ a, (∀ sp ∈ sps, ∀ c ∈ sp.inputs, a ∉ c) → D' a = D a
  | [], n, mats, D, D', _, _, hb, hl => by
    obtain rfl : mats = [] := by simpa [buildNewton] using hb.symm
    obtain rfl : D = D' := by simpa [newtonLoop] using hl
    simp
  | sp :: rest, n, mats, D, D', hok, hsep, hb, hl => by
    rw [buildNewton] at hb
    simp only [buildMatrix] at hb
    by_cases hsq : sp.srcEq.length ≠ sp.srcVar.length
    · rw [if_pos hsq] at hb; simp [bind, Except.bind] at hb
    · rw [if_neg hsq] at hb
      cases hr : buildNewton A (n + 1) rest with
      | error e => rw [hr] at hb; simp [bind, Except.bind] at hb
      | ok r =>
        rw [hr] at hb
        obtain rfl : mats = (sp, minMatrix sp (A n)) :: r := by simpa [bind, Except.bind] using hb.symm
        rw [newtonLoop] at hl
        cases hm : ms (minMatrix sp (A n)) with
        | none => rw [hm] at hl; simp at hl
        | some f =>
          rw [hm] at hl
          simp only at hl
          obtain ⟨h1, h2⟩ := List.pairwise_cons.1 hsep
          obtain ⟨h3, h4⟩ := newtonLoop_spec hms rest (n + 1) (fun q hq => hok q (by simp [hq])) h2 hr hl
          have hsq := not_not.1 hsq
          refine ⟨fun k q hq => ?_, fun a ha => ?_⟩
          · cases k with
            | zero =>
              simp only [List.getElem?_cons_zero, Option.some.injEq] at hq
              subst hq
              refine solved_congr ?_ (solveOne_solved (hok sp (by simp)) hsq (hms _ _ hm ?_) F D)
              · intro c hc a ha
                exact (h4 a fun q hq d hd had => h1 q hq c hc d hd ha had).symm
              · intro r hr
                obtain ⟨i, _, rfl⟩ := List.mem_map.1 hr
                simp [minMatrix, hsq]
            | succ k =>
              simp only [List.getElem?_cons_succ] at hq
              have := h3 k q hq
              rw [show n + 1 + k = n + (k + 1) by ring] at this
              exact this
          · rw [h4 a fun q hq => ha q (by simp [hq]), solveOne_frame]
            exact ha sp (by simp)

/-- What a history of iterations leaves: the handler is due and the perturbations vanish outside the subproblems. -/
structure NInv {W : Type} (P : Nonlinear K W) (s : NSolver K) : Prop where
  due : s.rhs.divs.iter < s.rhs.iteration
  pert : ∀ a, (∀ sp ∈ P.sps, ∀ c ∈ sp.inputs, a ∉ c) → s.pert a = 0

theorem newton_step {W : Type} {ms : Matsolver K} (hms : Exact ms) {P : Nonlinear K W} (hok : ∀ sp ∈ P.sps, sp.Ok)
    (hsep : Separate P.sps) {s s' : NSolver K} (hinv : NInv P s) (w : W) (d : K) (h : NSolver.newton ms P w d s = (s', .none)) :
    NInv P s' ∧ (∀ a, s'.X a = s.X a - d * s'.pert a) ∧
      ∀ (n : Nat) sp, P.sps[n]? = .some sp → sp.Solved (P.dF w s.X n) s'.pert (P.F w s.X) := by
  unfold NSolver.newton at h
  simp only at h
  obtain ⟨e1, e2, e3⟩ := evaluate_due (r := s.rhs) hinv.due (P.F w s.X)
  cases hb : buildNewton (P.dF w s.X) 0 P.sps with
  | error e => rw [hb] at h; simp at h
  | ok mats =>
    rw [hb] at h
    simp only at h
    cases hl : newtonLoop ms (s.rhs.evaluate (P.F w s.X)).F mats s.pert with
    | error e => rw [hl] at h; simp at h
    | ok D =>
      rw [hl] at h
      simp only [Prod.mk.injEq, and_true] at h
      rw [e1] at hl
      obtain ⟨h1, h2⟩ := newtonLoop_spec hms P.sps 0 hok hsep hb hl
      subst h
      refine ⟨⟨?_, fun a ha => ?_⟩, fun a => rfl, fun n sp hsp => ?_⟩
      · show (s.rhs.evaluate (P.F w s.X)).divs.iter < (((s.rhs.evaluate (P.F w s.X)).iteration + 1 : Nat) : ℤ)
        rw [e3, e2]; push_cast; omega
      · exact (h2 a ha).trans (hinv.pert a ha)
      · have := h1 n sp hsp
        rw [Nat.zero_add] at this
        exact this

theorem runNewton_inv {W : Type} {ms : Matsolver K} (hms : Exact ms) {P : Nonlinear K W} (hok : ∀ sp ∈ P.sps, sp.Ok)
    (hsep : Separate P.sps) (edit : Nat → Store K → Store K) : ∀ (l : List (W × K)) (k : Nat) (s s' : NSolver K),
    NInv P s → runNewton ms P edit l k s = .some s' → NInv P s'
  | [], k, s, s', hinv, h => by
    obtain rfl : s = s' := by simpa [runNewton] using h
    exact hinv
  | (w, d) :: l, k, s, s', hinv, h => by
    rw [runNewton] at h
    rcases hs : NSolver.newton ms P w d { s with X := edit k s.X } with ⟨s1, e⟩
    rw [hs] at h
    cases e with
    | some e => simp at h
    | none =>
      exact runNewton_inv hms hok hsep edit l (k + 1) s1 s'
        (newton_step hms hok hsep (s := { s with X := edit k s.X }) ⟨hinv.due, hinv.pert⟩ w d hs).1 h

/-- C46 (while no iteration has raised). After any history of iterations and edits of the state, an iteration that
returns subtracts `damping` times `D`, where `D` solves the linearised equations of every subproblem about the state
before the iteration, with that state's residual as right-hand side, and vanishes at invalid modes and outside all
subproblems. -/
theorem newton_partial {W : Type} (ms : Matsolver K) (hms : Exact ms) (P : Nonlinear K W) (hok : ∀ sp ∈ P.sps, sp.Ok)
    (hsep : Separate P.sps) (edit : Nat → Store K → Store K) (F0 X0 : Store K) (l : List (W × K)) (s : NSolver K)
    (hrun : runNewton ms P edit l 0 (NSolver.new F0 X0) = .some s)
    (w : W) (d : K) (X : Store K) (s' : NSolver K) (h : NSolver.newton ms P w d { s with X := X } = (s', .none)) :
    ∃ D : Store K, (∀ a, s'.X a = X a - d * D a) ∧
      (∀ (n : Nat) sp, P.sps[n]? = .some sp → sp.Solved (P.dF w X n) D (P.F w X)) ∧
      ∀ a, (∀ sp ∈ P.sps, ∀ c ∈ sp.inputs, a ∉ c) → D a = 0 := by
  have h0 : NInv P (NSolver.new F0 X0) := ⟨by simp [NSolver.new, Rhs.new], fun _ _ => rfl⟩
  have h1 := runNewton_inv hms hok hsep edit l 0 _ s h0 hrun
  obtain ⟨h2, h3, h4⟩ := newton_step hms hok hsep (s := { s with X := X }) ⟨h1.due, h1.pert⟩ w d h
  exact ⟨s'.pert, h3, h4, h2.pert⟩

/-- `x^2 - 4 = 0` for one mode. -/
def root : Nonlinear ℚ Unit := ⟨[one 0], fun _ X _ _ _ => 2 * X (0, [0]), fun _ X a => X a ^ 2 - 4⟩

/-- Two iterations from 1: 5/2 and 41/20. -/
example : (runNewton ms1 root (fun _ x => x) [((), 1), ((), 1)] 0 (NSolver.new (fun _ => 0) fun _ => 1)).map
    (fun s => s.X (0, [0])) = .some (41 / 20) := by
  decide +kernel

/-- C46, false in general: after an iteration that raised (singular matrix at 0) the right-hand side is not evaluated
again, so the next iteration uses the residual of the old state: from 3 it goes to 3 + 4/6 and not to 3 - 5/6. -/
theorem newton_after_exception_refuted :
    let first := NSolver.newton ms1 root () 1 (NSolver.new (fun _ => 0) fun _ => 0)
    let second := NSolver.newton ms1 root () 1 { first.1 with X := fun _ => 3 }
    first.2 = .some .singular ∧ second.2 = .none ∧ second.1.X (0, [0]) = 11 / 3 ∧
      (3 : ℚ) - (3 ^ 2 - 4) / (2 * 3) = 13 / 6 := by
  decide +kernel

/-! ### The equations themselves -/

/-- C46. If the matrix is the one assembled from the problem's expressions, solving a subsystem makes every valid
coefficient of each equation's expression equal to its right-hand side. `env` are the coefficients of all fields,
those of the variables being the ones stored in the state; the assumptions are those of C25. -/
theorem equations_hold {X : Type} [DecidableEq K] (S : Mats.Sub K) (idx : Symb.Expr K → Nat → X) (T : Mats.Sem K X)
    (env : Nat → X → K) (G : Nat → Symb.Sig) (vars : List (Nat × Symb.Sig)) (hG : ∀ v ∈ vars, v.2 = G v.1)
    (hnd : (vars.map Prod.fst).Nodup) (eqns : List (Mats.Eqn K))
    (hq : ∀ q ∈ eqns, ∀ x, q.expr = .some x → Mats.Good S idx T env x ∧ S.size x = q.size)
    (A : Mats.Mat K) (hA : Mats.assemble S (fun c => c) vars eqns = .some A)
    (sp : Sp) (st F : Store K) (ins outs : List Addr) (hins : ins.length = A.cols)
    (hH : Holds sp A.e st F ins outs)
    (hx : ∀ k (hk : k < vars.length) j, j < S.size (.fld (vars[k]).1 (vars[k]).2) →
      ∃ a, ins[((vars.map (fun v => S.size (.fld v.1 v.2))).take k).sum + j]? = .some a ∧
        st a = env (vars[k]).1 (idx (.fld (vars[k]).1 (vars[k]).2) j)) :
    ∀ n (hn : n < eqns.length) r x b, r < (eqns[n]).size → (eqns[n]).cond = true → (eqns[n]).expr = .some x →
      ((eqns.map Mats.Eqn.size).take n).sum + r ∈ sp.srcEq →
      outs[((eqns.map Mats.Eqn.size).take n).sum + r]? = .some b →
      Mats.eval T env x (idx x r) = F b := by
  intro n hn r x b hr hc he hmem hb
  obtain ⟨_, _, h3⟩ := Mats.assembled_matrix_value_partial S idx T env G vars hG hnd eqns hq A hA
    (fun j => match ins[j]? with | .some a => st a | .none => 0)
    (by
      intro k hk j hj
      obtain ⟨a, h1, h2⟩ := hx k hk j hj
      simp only [h1]
      exact h2)
  have h4 := h3 n hn r hr
  rw [hc, he] at h4
  simp only at h4
  rw [← h4, ← hH.1 _ hmem b hb, ← hins]
  rw [sum_zipIdx ins st (A.e (((eqns.map Mats.Eqn.size).take n).sum + r)) _ rfl]
  rw [Finset.sum_range, ← List.sum_ofFn]
  congr 1
  apply List.ext_getElem
  · simp
  · intro j h5 h6
    simp only [List.length_ofFn] at h5
    simp [readCol, h5]

end Dedalus.Bvp
