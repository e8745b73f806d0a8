import Verif.Step.Multistep
import Verif.Step.CoeffsProps
import Mathlib.Tactic.Module
import Mathlib.Tactic.Abel

namespace Dedalus.Step

variable {F ι X V : Type} [Field F] [AddCommGroup V] [Module F V]

theorem rotate_set {α : Type} (l : List α) (hl : l ≠ []) (v : α) :
    (rotate l).set 0 v = v :: l.dropLast := by
  unfold rotate
  rcases h : l.getLast? with _ | a
  · simp at h; exact absurd h hl
  · simp

/-- The last `s` timesteps after `n` steps, newest first, padded with the initial zeros. -/
def recent (s : Nat) (d : Nat → F) (n : Nat) : List F :=
  (List.range s).map fun j => if j < n then d (n - 1 - j) else 0

theorem recent_push (s : Nat) (hs : 0 < s) (d : Nat → F) (n : Nat) :
    (rotate (recent s d n)).set 0 (d n) = recent s d (n + 1) := by
  obtain ⟨s, rfl⟩ : ∃ s', s = s' + 1 := ⟨s - 1, by omega⟩
  rw [rotate_set _ (by simp [recent])]
  unfold recent
  rw [List.range_succ (n := s), List.map_append, List.map_singleton, List.dropLast_concat,
    ← List.range_succ (n := s), List.range_succ_eq_map, List.map_cons, List.map_map]
  congr 1
  apply List.map_congr_left
  intro j _
  simp only [Function.comp, Nat.succ_eq_add_one]
  by_cases h : j < n
  · rw [if_pos h, if_pos (by omega)]; congr 1; omega
  · rw [if_neg h, if_neg (by omega)]

/-- A history list holds `g 0 .. ` backwards from `n-1`. -/
def Hist {α : Type} (s n : Nat) (g : Nat → α) (l : List α) : Prop :=
  l.length = s ∧ ∀ j, j < s → j < n → l[j]? = some (g (n - 1 - j))

theorem hist_push {α : Type} {s n : Nat} (hs : 0 < s) {g : Nat → α} {l : List α} (h : Hist s n g l) :
    Hist s (n + 1) g ((rotate l).set 0 (g n)) := by
  obtain ⟨h1, h2⟩ := h
  have hne : l ≠ [] := by intro h; rw [h] at h1; simp at h1; omega
  rw [rotate_set l hne]
  refine ⟨by simp; omega, ?_⟩
  intro j hj hjn
  cases j with
  | zero => simp
  | succ j =>
    rw [List.getElem?_cons_succ, List.getElem?_dropLast, if_pos (by omega)]
    rw [h2 j (by omega) (by omega)]
    congr 2; omega

theorem accum_eq {W : Type} [AddCommGroup W] [Module F W] (sign : F) (g : Nat → W) :
    ∀ (ws : List F) (hs : List W) (y : W), (∀ j, j < ws.length → hs[j]? = some (g j)) →
      accum sign ws hs y = some (y + ∑ j ∈ Finset.range ws.length, (sign * ws[j]?.getD 0) • g j) := by
  intro ws
  induction ws generalizing g with
  | nil => intro hs y _; simp [accum]
  | cons w ws ih =>
    intro hs y h
    cases hs with
    | nil => have := h 0 (by simp); simp at this
    | cons h0 hs =>
      have e0 : h0 = g 0 := by simpa using h 0 (by simp)
      rw [accum, ih (fun j => g (j + 1)) hs _ (fun j hj => by simpa using h (j + 1) (by simpa using hj))]
      rw [List.length_cons, Finset.sum_range_succ']
      simp only [List.getElem?_cons_succ, List.getElem?_cons_zero, Option.getD_some, e0]
      congr 1
      abel

/-- Sum over the tail of a weight list. -/
theorem sum_tail {W : Type} [AddCommGroup W] [Module F W] (w : List F) (h : 0 < w.length) (g : Nat → W) :
    ∑ j ∈ Finset.range w.length, (w[j]?.getD 0) • g j =
      (w[0]?.getD 0) • g 0 + ∑ j ∈ Finset.range (w.drop 1).length, ((w.drop 1)[j]?.getD 0) • g (j + 1) := by
  obtain ⟨n, hn⟩ : ∃ n, w.length = n + 1 := ⟨w.length - 1, by omega⟩
  rw [List.length_drop, hn, Nat.add_sub_cancel, Finset.sum_range_succ', add_comm]
  congr 1
  apply Finset.sum_congr rfl
  intro j _
  rw [List.getElem?_drop, Nat.add_comm 1 j]

end Dedalus.Step

namespace Dedalus.Step

variable {F ι X V : Type} [Field F] [AddCommGroup V] [Module F V]

theorem coeffs_first (s : Scheme) (ks : List F) (it : Nat) (co : Coeffs F) (h : s.coeffs ks it = some co) :
    co.a.length = co.b.length ∧ co.a.length = co.c.length ∧ 2 ≤ co.a.length := by
  have hc : ∀ ks co, cnab1 (F := F) ks = some co → co.a.length = co.b.length ∧ co.a.length = co.c.length ∧ 2 ≤ co.a.length := by
    intro ks co h; unfold cnab1 at h; split at h <;> simp at h; subst h; simp
  have hs : ∀ ks co, sbdf1 (F := F) ks = some co → co.a.length = co.b.length ∧ co.a.length = co.c.length ∧ 2 ≤ co.a.length := by
    intro ks co h; unfold sbdf1 at h; split at h <;> simp at h; subst h; simp
  have h2 : ∀ ks it co, sbdf2 (F := F) ks it = some co → co.a.length = co.b.length ∧ co.a.length = co.c.length ∧ 2 ≤ co.a.length := by
    intro ks it co h; unfold sbdf2 at h
    split at h
    · exact hs _ _ h
    · split at h <;> simp at h; subst h; simp
  have h3 : ∀ ks it co, sbdf3 (F := F) ks it = some co → co.a.length = co.b.length ∧ co.a.length = co.c.length ∧ 2 ≤ co.a.length := by
    intro ks it co h; unfold sbdf3 at h
    split at h
    · exact h2 _ _ _ h
    · split at h <;> simp at h; subst h; simp
  cases s <;> simp only [Scheme.coeffs] at h
  · exact hc _ _ h
  · exact hs _ _ h
  · unfold cnab2 at h
    split at h
    · exact hc _ _ h
    · split at h <;> simp at h; subst h; simp
  · unfold mcnab2 at h
    split at h
    · exact hc _ _ h
    · split at h <;> simp at h; subst h; simp
  · exact h2 _ _ _ h
  · unfold cnlf2 at h
    split at h
    · exact hc _ _ h
    · split at h <;> simp at h; subst h; simp
  · exact h3 _ _ _ h
  · unfold sbdf4 at h
    split at h
    · exact h3 _ _ _ h
    · split at h <;> simp at h; subst h; simp

/-- Closed form of `buildRHS`, given the histories. -/
theorem buildRHS_eq {W : Type} [AddCommGroup W] [Module F W] (co : Coeffs F) (MX LX FX : List W) (m l f : Nat → W)
    (hl : co.a.length = co.b.length ∧ co.a.length = co.c.length ∧ 2 ≤ co.a.length)
    (hM : ∀ j, j + 1 < co.a.length → MX[j]? = some (m j))
    (hL : ∀ j, j + 1 < co.a.length → LX[j]? = some (l j))
    (hF : ∀ j, j + 1 < co.a.length → FX[j]? = some (f j)) :
    buildRHS co MX LX FX = some
      (∑ j ∈ Finset.range (co.c.drop 1).length, ((co.c.drop 1)[j]?.getD 0) • f j
        - ∑ j ∈ Finset.range (co.a.drop 1).length, ((co.a.drop 1)[j]?.getD 0) • m j
        - ∑ j ∈ Finset.range (co.b.drop 1).length, ((co.b.drop 1)[j]?.getD 0) • l j) := by
  obtain ⟨h1, h2, h3⟩ := hl
  unfold buildRHS
  obtain ⟨c1, hc1⟩ : ∃ c1, co.c[1]? = some c1 := by
    rw [List.getElem?_eq_getElem (by omega)]; exact ⟨_, rfl⟩
  rw [hc1, hF 0 (by omega)]
  simp only [Option.bind_eq_bind, Option.bind_some]
  rw [accum_eq 1 (fun j => f (j + 1)) (co.c.drop 2) (FX.drop 1) _ (by
    intro j hj
    rw [List.length_drop] at hj
    rw [List.getElem?_drop, Nat.add_comm 1 j]; exact hF (j + 1) (by omega))]
  simp only [Option.bind_some]
  rw [accum_eq (-1) m (co.a.drop 1) MX _ (by
    intro j hj
    rw [List.length_drop] at hj
    exact hM j (by omega))]
  simp only [Option.bind_some]
  rw [accum_eq (-1) l (co.b.drop 1) LX _ (by
    intro j hj
    rw [List.length_drop] at hj
    exact hL j (by omega))]
  have e := sum_tail (co.c.drop 1) (by simp; omega) f
  rw [List.drop_drop] at e
  rw [e]
  have e1 : (co.c.drop 1)[0]?.getD 0 = c1 := by rw [List.getElem?_drop]; simp [hc1]
  rw [e1]
  congr 1
  simp only [one_mul, neg_mul, neg_smul, Finset.sum_neg_distrib]
  abel

variable [DecidableEq F] [Fintype ι]

/-- Invariant of the timestepper after `n` steps. -/
structure Inv (P : Sys F ι X V) (s : Scheme) (d : Nat → F) (w : Nat → World F ι X V) (n : Nat) : Prop where
  dt : (w n).ms.dt = recent s.steps d n
  it : (w n).ms.iteration = n
  MX : Hist s.steps n (fun k i => P.M i ((w k).x i)) (w n).ms.MX
  LX : Hist s.steps n (fun k i => P.L i ((w k).x i)) (w n).ms.LX
  FX : Hist s.steps n (fun k => P.force (w k).time (w k).x) (w n).ms.FX
  cache : ∀ i, (w n).ms.solvers i = (w n).ms.params

theorem steps_pos (s : Scheme) : 0 < s.steps := by cases s <;> decide

theorem inv_init (P : Sys F ι X V) (s : Scheme) (d : Nat → F) (w : Nat → World F ι X V) (junk : ι → V)
    (h0 : (w 0).ms = initMS s junk) : Inv P s d w 0 := by
  refine ⟨?_, ?_, ?_, ?_, ?_, ?_⟩
  · rw [h0]; simp [initMS, recent, List.map_const']
  · rw [h0]; rfl
  · rw [h0]; exact ⟨by simp [initMS], by intro j _ h; omega⟩
  · rw [h0]; exact ⟨by simp [initMS], by intro j _ h; omega⟩
  · rw [h0]; exact ⟨by simp [initMS], by intro j _ h; omega⟩
  · rw [h0]; simp [initMS]

/-- What a successful step does. -/
theorem mstep_some (P : Sys F ι X V) (s : Scheme) (w w' : World F ι X V) (dt : F) (lg : StepLog F ι)
    (h : mstep P s w dt = some (w', lg)) :
    ∃ a0 b0 rhs, s.coeffs ((rotate w.ms.dt).set 0 dt) w.ms.iteration = some lg.co ∧
      lg.co.a[0]? = some a0 ∧ lg.co.b[0]? = some b0 ∧
      buildRHS lg.co w'.ms.MX w'.ms.LX w'.ms.FX = some rhs ∧
      w'.ms.dt = (rotate w.ms.dt).set 0 dt ∧ w'.ms.iteration = w.ms.iteration + 1 ∧
      w'.ms.MX = (rotate w.ms.MX).set 0 (fun i => P.M i (w.x i)) ∧
      w'.ms.LX = (rotate w.ms.LX).set 0 (fun i => P.L i (w.x i)) ∧
      w'.ms.FX = (rotate w.ms.FX).set 0 (P.force w.time w.x) ∧
      w'.ms.params = some (a0, b0) ∧ w'.time = w.time + dt ∧
      lg.refactored = decide (some (a0, b0) ≠ w.ms.params) ∧
      (∀ i, w'.ms.solvers i = if lg.refactored then some (a0, b0) else w.ms.solvers i) ∧
      (∀ i, w'.ms.solvers i = some (lg.used i)) ∧
      (∀ i, w'.x i = P.solve (lg.used i).1 (lg.used i).2 i (rhs i)) := by
  unfold mstep at h
  simp only [Option.bind_eq_bind, Option.bind_eq_some_iff] at h
  obtain ⟨co, hco, a0, ha, b0, hb, rhs, hr, h⟩ := h
  obtain ⟨hs, h⟩ := Option.dite_none_right_eq_some.1 h
  simp only [Option.some.injEq, Prod.mk.injEq] at h
  obtain ⟨rfl, rfl⟩ := h
  refine ⟨a0, b0, rhs, hco, ha, hb, hr, rfl, rfl, rfl, rfl, rfl, rfl, rfl, rfl, ?_, ?_, ?_⟩
  · intro i
    dsimp only
    split <;> rfl
  · intro i; simp
  · intro i; rfl

theorem inv_step (P : Sys F ι X V) (s : Scheme) (d : Nat → F) (w : Nat → World F ι X V) (n : Nat)
    (hi : Inv P s d w n) (lg : StepLog F ι) (h : mstep P s (w n) (d n) = some (w (n + 1), lg)) :
    Inv P s d w (n + 1) := by
  obtain ⟨a0, b0, rhs, hco, ha, hb, hr, h1, h2, h3, h4, h5, h6, h7, h8, h9, h10, h11⟩ := mstep_some P s _ _ _ _ h
  have hs := steps_pos s
  refine ⟨?_, ?_, ?_, ?_, ?_, ?_⟩
  · rw [h1, hi.dt, recent_push _ hs]
  · rw [h2, hi.it]
  · rw [h3]; exact hist_push hs hi.MX
  · rw [h4]; exact hist_push hs hi.LX
  · rw [h5]; exact hist_push hs hi.FX
  · intro i
    rw [h9 i, h6, h8]
    split
    · rfl
    · rename_i hne
      simp at hne
      rw [hi.cache i, ← hne]

theorem take_recent (s n : Nat) (d : Nat → F) :
    (recent s d (n + 1)).take (n + 1) = (List.range (min (n + 1) s)).map (fun j => d (n - j)) := by
  unfold recent
  rw [← List.map_take, List.take_range]
  apply List.map_congr_left
  intro j hj
  simp at hj
  rw [if_pos (by omega), Nat.add_sub_cancel]

theorem timesBefore_eq (T : Nat → F) (d : Nat → F) (hT : ∀ k, T (k + 1) = T k + d k) (m : Nat) :
    ∀ p, p ≤ m → timesBefore (T m) ((List.range p).map (fun j => d (m - 1 - j))) =
      (List.range p).map (fun j => T (m - 1 - j)) := by
  intro p
  induction p generalizing m with
  | zero => intro _; rfl
  | succ p ih =>
    intro hp
    rw [List.range_succ_eq_map, List.map_cons, List.map_cons, List.map_map, List.map_map, timesBefore]
    have e : T m - d (m - 1 - 0) = T (m - 1) := by
      have := hT (m - 1)
      rw [Nat.sub_add_cancel (by omega)] at this
      rw [this, Nat.sub_zero]; ring
    rw [e]
    congr 1
    have := ih (m - 1) (by omega)
    have e2 : ((fun j => d (m - 1 - j)) ∘ Nat.succ) = fun j => d (m - 1 - 1 - j) := by
      funext j; simp only [Function.comp]; congr 1; omega
    have e3 : ((fun j => T (m - 1 - j)) ∘ Nat.succ) = fun j => T (m - 1 - 1 - j) := by
      funext j; simp only [Function.comp]; congr 1; omega
    rw [e2, e3, this]

theorem sampleTimes_eq (T : Nat → F) (d : Nat → F) (hT : ∀ k, T (k + 1) = T k + d k) (n p : Nat)
    (hp : p + 1 ≤ n + 1) :
    sampleTimes (T n) ((List.range (p + 1)).map (fun j => d (n - j))) =
      (List.range (p + 2)).map (fun j => T (n + 1 - j)) := by
  rw [List.range_succ_eq_map, List.map_cons, List.map_map, sampleTimes, List.range_succ_eq_map, List.map_cons, List.map_map,
    List.range_succ_eq_map, List.map_cons, List.map_map]
  have e : ((fun j => d (n - j)) ∘ Nat.succ) = fun j => d (n - 1 - j) := by
    funext j; simp only [Function.comp]; congr 1; omega
  rw [e, timesBefore_eq T d hT n p (by omega)]
  simp only [Nat.sub_zero, hT]
  congr 2
  apply List.map_congr_left
  intro j _
  simp only [Function.comp]
  congr 1; omega

end Dedalus.Step
