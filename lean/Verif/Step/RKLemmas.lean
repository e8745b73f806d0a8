import Verif.Step.RKSpec
import Mathlib.Tactic.Abel
import Mathlib.Tactic.Module
import Mathlib.Data.List.FinRange

namespace Dedalus.Step

variable {F ι X V : Type} [Field F] [AddCommGroup V] [Module F V] [Fintype ι]

/-- The factorisations match the recorded timestep. -/
def CacheOK {s : Nat} (T : Tableau F s) (st : RKState F ι V s) : Prop :=
  ∀ k, st.params = some k → ∀ p (i : Fin s), st.solvers p i.succ = some (k * T.H i.succ i.succ)

theorem filter_sum {W : Type} [AddCommGroup W] {n : Nat} (g : Fin n → W) (i : Nat) :
    (((List.finRange n).filter (fun j => j.val < i)).map g).sum = ∑ j : Fin n, if j.val < i then g j else 0 := by
  rw [← List.sum_ofFn, List.ofFn_eq_map]
  induction List.finRange n with
  | nil => rfl
  | cons a l ih =>
    rw [List.filter_cons, List.map_cons, List.sum_cons, ← ih]
    by_cases h : a.val < i <;> simp [h]

/-- Loop invariant before stage `n+1`: `Xs 0 .. Xs n` are the stage values so far. -/
structure Good {s : Nat} (P : Sys F ι X V) (T : Tableau F s) (k t0 : F) (update : Bool)
    (w : RKWorld F ι X V s) (Xs : Fin (s + 1) → ι → X) (n : Fin (s + 1)) : Prop where
  x : w.x = Xs n
  time : w.time = if n = 0 then t0 else t0 + k * T.c n
  LX : ∀ j, (j < n ∨ j = 0) → w.rk.LX j = fun p => P.L p (Xs j p)
  FX : ∀ j, j < n → w.rk.FX j = P.force (if j = 0 then t0 else t0 + k * T.c j) (Xs j)
  params : w.rk.params = some k
  cache : ∀ p (i : Fin s), (update = false ∨ i.succ ≤ n) → w.rk.solvers p i.succ = some (k * T.H i.succ i.succ)

/-- The right-hand side of stage `i`. -/
def stageRHS {s : Nat} (P : Sys F ι X V) (T : Tableau F s) (k t0 : F) (Xs : Fin (s + 1) → ι → X)
    (i : Fin (s + 1)) (p : ι) : V :=
  P.M p (Xs 0 p) + ∑ j : Fin (s + 1), if j < i then
    (k * T.A i j) • P.force (if j = 0 then t0 else t0 + k * T.c j) (Xs j) p - (k * T.H i j) • P.L p (Xs j p) else 0

theorem stage_good {s : Nat} (P : Sys F ι X V) (T : Tableau F s) (k t0 : F) (update : Bool)
    (w : RKWorld F ι X V s) (Xs : Fin (s + 1) → ι → X) (i : Fin s)
    (h : Good P T k t0 update w Xs i.castSucc) :
    ∃ w' lg, rkStage P T k t0 update (fun p => P.M p (Xs 0 p)) w i = some (w', lg) ∧
      lg.result = w'.x ∧ (∀ p, lg.used p = k * T.H i.succ i.succ) ∧
      lg.forceTime = w.time ∧ lg.forceState = w.x ∧
      (∀ p, w'.x p = P.solve 1 (k * T.H i.succ i.succ) p (stageRHS P T k t0 Xs i.succ p)) ∧
      Good P T k t0 update w' (Function.update Xs i.succ w'.x) i.succ := by
  unfold rkStage
  have hLX : ∀ j : Fin (s + 1), j < i.succ → (if 0 < i.val then
      Function.update w.rk.LX i.castSucc (fun p => P.L p (w.x p)) else w.rk.LX) j = fun p => P.L p (Xs j p) := by
    intro j hj
    by_cases hji : j = i.castSucc
    · subst hji
      split
      · rw [Function.update_self, h.x]
      · rename_i h0
        apply h.LX
        right
        ext; simp; omega
    · have hlt : j < i.castSucc := by
        have := Fin.lt_def.1 hj
        rw [Fin.lt_def]
        have h2 : j.val ≠ i.castSucc.val := fun hh => hji (Fin.ext hh)
        simp at this h2 ⊢; omega
      split
      · rw [Function.update_of_ne hji]; exact h.LX j (Or.inl hlt)
      · exact h.LX j (Or.inl hlt)
  have hFX : ∀ j : Fin (s + 1), j < i.succ → (Function.update w.rk.FX i.castSucc (P.force w.time w.x)) j =
      P.force (if j = 0 then t0 else t0 + k * T.c j) (Xs j) := by
    intro j hj
    by_cases hji : j = i.castSucc
    · subst hji
      rw [Function.update_self, h.x, h.time]
    · have hlt : j < i.castSucc := by
        have := Fin.lt_def.1 hj
        rw [Fin.lt_def]
        have h2 : j.val ≠ i.castSucc.val := fun hh => hji (Fin.ext hh)
        simp at this h2 ⊢; omega
      rw [Function.update_of_ne hji]; exact h.FX j hlt
  have hsolv : ∀ p, (if update then fun p => Function.update (w.rk.solvers p) i.succ (some (k * T.H i.succ i.succ))
      else w.rk.solvers) p i.succ = some (k * T.H i.succ i.succ) := by
    intro p
    cases update with
    | true => simp
    | false => simpa using h.cache p i (Or.inl rfl)
  generalize hL' : (if 0 < i.val then
      Function.update w.rk.LX i.castSucc (fun p => P.L p (w.x p)) else w.rk.LX) = LX' at *
  generalize hF' : (Function.update w.rk.FX i.castSucc (P.force w.time w.x)) = FX' at *
  have hrhs : ((List.finRange (s + 1)).filter (fun j => j < i.succ)).foldl (fun (y : ι → V) j =>
    (y + (k * T.A i.succ j) • FX' j) + (-(k * T.H i.succ j)) • LX' j) (fun p => P.M p (Xs 0 p)) =
      stageRHS P T k t0 Xs i.succ := by
    have hfold : ∀ (l : List (Fin (s+1))) (y : ι → V), l.foldl (fun (y : ι → V) j =>
        (y + (k * T.A i.succ j) • FX' j) + (-(k * T.H i.succ j)) • LX' j) y =
        y + (l.map (fun j => (k * T.A i.succ j) • FX' j + (-(k * T.H i.succ j)) • LX' j)).sum := by
      intro l
      induction l with
      | nil => intro y; simp
      | cons a l ih => intro y; rw [List.foldl_cons, ih, List.map_cons, List.sum_cons]; abel
    rw [hfold]
    have := filter_sum (n := s + 1) (fun j => (k * T.A i.succ j) • FX' j + (-(k * T.H i.succ j)) • LX' j) i.succ.val
    have e : (fun j : Fin (s + 1) => decide (j < i.succ)) = fun j => decide (j.val < i.succ.val) := rfl
    rw [e, this]
    funext p
    unfold stageRHS
    simp only [Pi.add_apply, Finset.sum_apply]
    congr 1
    apply Finset.sum_congr rfl
    intro j _
    by_cases hj : j < i.succ
    · rw [if_pos hj, if_pos (Fin.lt_def.1 hj), hFX j hj, hLX j hj]
      simp only [Pi.add_apply, Pi.smul_apply, Pi.neg_apply, neg_smul, sub_eq_add_neg]
    · rw [if_neg hj, if_neg (fun hh => hj (Fin.lt_def.2 hh))]; rfl
  simp only [hrhs]
  generalize hS' : (if update = true then fun p => Function.update (w.rk.solvers p) i.succ (some (k * T.H i.succ i.succ))
      else w.rk.solvers) = S' at *
  have hall : ∀ p, (S' p i.succ).isSome := by intro p; rw [hsolv p]; rfl
  rw [dif_pos hall]
  have hused : ∀ p, (S' p i.succ).get (hall p) = k * T.H i.succ i.succ := by
    intro p; simp [hsolv p]
  refine ⟨_, _, rfl, rfl, hused, rfl, rfl, ?_, ?_⟩
  · intro p; simp only [hused]
  · have hne : ∀ j : Fin (s + 1), j < i.succ → j ≠ i.succ := fun j hj => ne_of_lt hj
    refine ⟨?_, ?_, ?_, ?_, h.params, ?_⟩
    · simp
    · simp [Fin.succ_ne_zero]
    · intro j hj
      have hj' : j < i.succ := by
        rcases hj with hj | hj
        · exact hj
        · rw [hj]; exact Fin.succ_pos i
      simp only [Function.update_of_ne (hne j hj')]
      exact hLX j hj'
    · intro j hj'
      simp only [Function.update_of_ne (hne j hj')]
      exact hFX j hj'
    · intro p i' hi'
      by_cases hii : i' = i
      · subst hii; exact hsolv p
      · simp only
        rw [← hS']
        cases update with
        | true =>
          have : i'.succ ≠ i.succ := fun hh => hii (Fin.succ_injective _ hh)
          simp only [if_true, Function.update_of_ne this]
          apply h.cache p i'
          right
          rcases hi' with hi' | hi'
          · simp at hi'
          · rw [Fin.le_def] at hi' ⊢
            have : i'.val ≠ i.val := fun hh => hii (Fin.ext hh)
            simp at hi' ⊢; omega
        | false => simpa using h.cache p i' (Or.inl rfl)

theorem loop_good {s : Nat} (P : Sys F ι X V) (T : Tableau F s) (k t0 : F) (update : Bool) :
    ∀ (m n : Nat) (hn : n + m = s) (w : RKWorld F ι X V s) (Xs : Fin (s + 1) → ι → X),
      Good P T k t0 update w Xs ⟨n, by omega⟩ →
      ∃ w' lgs Ys, rkLoop P T k t0 update (fun p => P.M p (Xs 0 p)) ((List.finRange s).drop n) w = some (w', lgs) ∧
        (∀ j : Fin (s + 1), j.val ≤ n → Ys j = Xs j) ∧ Good P T k t0 update w' Ys (Fin.last s) ∧
        lgs.length = m ∧
        (∀ i : Fin s, n ≤ i.val → ∀ p, Ys i.succ p = P.solve 1 (k * T.H i.succ i.succ) p (stageRHS P T k t0 Ys i.succ p)) ∧
        (∀ i : Fin s, n ≤ i.val → ∃ lg, lgs[i.val - n]? = some lg ∧ lg.result = Ys i.succ ∧
          (∀ p, lg.used p = k * T.H i.succ i.succ) ∧ lg.forceState = Ys i.castSucc ∧
          lg.forceTime = if i.castSucc = 0 then t0 else t0 + k * T.c i.castSucc) := by
  intro m
  induction m with
  | zero =>
    intro n hn w Xs h
    have e : (⟨n, by omega⟩ : Fin (s + 1)) = Fin.last s := by ext; simp; omega
    rw [List.drop_eq_nil_of_le (by simp; omega)]
    refine ⟨w, [], Xs, rfl, fun _ _ => rfl, e ▸ h, rfl, ?_, ?_⟩
    · intro i hi; have := i.isLt; omega
    · intro i hi; have := i.isLt; omega
  | succ m ih =>
    intro n hn w Xs h
    have hns : n < s := by omega
    have hd : (List.finRange s).drop n = ⟨n, hns⟩ :: (List.finRange s).drop (n + 1) := by
      rw [List.drop_eq_getElem_cons (by simpa using hns)]; simp
    obtain ⟨w1, lg, h1, h2, h3, h4, h5, h6, h7⟩ := stage_good P T k t0 update w Xs ⟨n, hns⟩ h
    have h0 : Function.update Xs (Fin.succ ⟨n, hns⟩) w1.x 0 = Xs 0 :=
      Function.update_of_ne (Fin.succ_ne_zero _).symm _ _
    obtain ⟨w', lgs, Ys, g1, g2, g3, g4, g5, g6⟩ := ih (n + 1) (by omega) w1 (Function.update Xs (Fin.succ ⟨n, hns⟩) w1.x) h7
    rw [h0] at g1
    have hY : ∀ j : Fin (s + 1), j.val ≤ n → Ys j = Xs j := by
      intro j hj
      rw [g2 j (by omega), Function.update_of_ne]
      intro hh; rw [hh] at hj; simp at hj
    have hYn : Ys (Fin.succ ⟨n, hns⟩) = w1.x := by rw [g2 _ (by simp)]; simp
    have hst : stageRHS P T k t0 Xs (Fin.succ ⟨n, hns⟩) = stageRHS P T k t0 Ys (Fin.succ ⟨n, hns⟩) := by
      funext p
      unfold stageRHS
      rw [hY 0 (by simp)]
      congr 1
      apply Finset.sum_congr rfl
      intro j _
      by_cases hj : j < Fin.succ ⟨n, hns⟩
      · rw [if_pos hj, if_pos hj, hY j (by have := Fin.lt_def.1 hj; simp at this; omega)]
      · rw [if_neg hj, if_neg hj]
    refine ⟨w', lg :: lgs, Ys, ?_, hY, g3, by simp [g4], ?_, ?_⟩
    · rw [hd, rkLoop, h1]
      simp [g1]
    · intro i hi p
      by_cases hin : i.val = n
      · have : i = ⟨n, hns⟩ := Fin.ext hin
        subst this
        rw [hYn, h6 p, hst]
      · exact g5 i (by omega) p
    · intro i hi
      by_cases hin : i.val = n
      · have : i = ⟨n, hns⟩ := Fin.ext hin
        subst this
        refine ⟨lg, by simp, by rw [h2, hYn], h3, ?_, ?_⟩
        · rw [h5, h.x, hY _ (by simp)]; rfl
        · rw [h4, h.time]; rfl
      · obtain ⟨lg', a1, a2⟩ := g6 i (by omega)
        refine ⟨lg', ?_, a2⟩
        rw [show i.val - n = (i.val - (n + 1)) + 1 by omega, List.getElem?_cons_succ]
        exact a1

end Dedalus.Step
