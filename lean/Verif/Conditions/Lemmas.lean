import Verif.Conditions.Spec
import Verif.Field.Lemmas

/-! # Lemmas for the conditions of operators -/

namespace Dedalus.Conditions

open Dedalus.Dist Dedalus.Field

variable {Dat V : Type} {W : World Dat} {rep : Nat → V → Nat → List ℚ → Dat} {trunc : Nat → Nat → ℚ → V → V} {v : Nat → V}

theorem isGrid_iff {l a : Nat} : isGrid W l a = true ↔ OnGrid W l a := by
  unfold isGrid OnGrid
  cases W.lays[l]? with
  | none => simp
  | some x => simp

theorem isLocal_iff {l a : Nat} : isLocal W l a = true ↔ Local W l a := by
  unfold isLocal Local
  cases W.lays[l]? with
  | none => simp
  | some x => simp

theorem allGrid_iff {l : Nat} : allGrid W l = true ↔ ∀ a, a < W.D → OnGrid W l a := by
  simp [allGrid, isGrid_iff]

theorem flag_onGrid {l a i : Nat} : gridFlag (W.env i) l a = some true ↔ OnGrid W l a := by
  unfold gridFlag OnGrid World.env
  cases W.lays[l]? with
  | none => simp
  | some x => simp

theorem flag_inCoeff {l a i : Nat} : gridFlag (W.env i) l a = some false ↔ InCoeff W l a := by
  unfold gridFlag InCoeff World.env
  cases W.lays[l]? with
  | none => simp
  | some x => simp

theorem flag_local {l a i : Nat} : locFlag (W.env i) l a = some true ↔ Local W l a := by
  unfold locFlag Local World.env
  cases W.lays[l]? with
  | none => simp
  | some x => simp

theorem coeff_or_grid (hc : IsChain (W.env 0)) {l a : Nat} (hl : l < W.lays.length) (ha : a < W.D) :
    (InCoeff W l a ∧ ¬ OnGrid W l a) ∨ (OnGrid W l a ∧ ¬ InCoeff W l a) := by
  obtain ⟨m, hm⟩ := level_exists hc l hl
  have hf := hm.flag a ha
  by_cases h : m ≤ a
  · simp only [h, decide_true] at hf
    right
    refine ⟨flag_onGrid.1 hf, fun hh => ?_⟩
    rw [flag_inCoeff.2 hh] at hf; cases hf
  · simp only [h, decide_false] at hf
    left
    refine ⟨flag_inCoeff.1 hf, fun hh => ?_⟩
    rw [flag_onGrid.2 hh] at hf; cases hf

/-- The only layout with all axes in grid space is the last. -/
theorem full_grid_last (hc : IsChain (W.env 0)) {l : Nat} (hl : l < W.lays.length) (h : ∀ a, a < W.D → OnGrid W l a) :
    l = W.lays.length - 1 := by
  by_contra hne
  have hlen : W.lays.length = W.paths.length + 1 := hc.length
  have hp : l < W.paths.length := by omega
  have hs := hc.step l W.lays[l] W.lays[l+1] W.paths[l] (List.getElem?_eq_getElem hl) (List.getElem?_eq_getElem (show l + 1 < W.lays.length by omega))
    (List.getElem?_eq_getElem hp)
  obtain ⟨m, hm⟩ := level_exists hc l hl
  have hgl : W.lays[l].grid.length = W.D := hm.len _ (List.getElem?_eq_getElem hl)
  have key : ∀ a : Nat, W.lays[l].grid[a]? ≠ some false := by
    intro a hh
    have ha : a < W.D := by
      rw [← hgl]
      by_contra hn
      rw [List.getElem?_eq_none (by omega)] at hh; cases hh
    obtain ⟨x, e1, e2⟩ := h a ha
    rw [List.getElem?_eq_getElem hl] at e1
    cases e1
    rw [hh] at e2; cases e2
  unfold StepOK at hs
  cases hk : W.paths[l].kind with
  | transform => rw [hk] at hs; exact key _ hs.2.1
  | transpose => rw [hk] at hs; exact key _ hs.2.2.1

theorem onGrid_last (hc : IsChain (W.env 0)) {a : Nat} (ha : a < W.D) : OnGrid W (W.lays.length - 1) a := by
  have := (level_last hc).flag a ha
  exact flag_onGrid.1 (this.trans (by simp))

theorem allGrid_last_iff (hc : IsChain (W.env 0)) {l : Nat} (hl : l < W.lays.length) :
    allGrid W l = true ↔ l = W.lays.length - 1 := by
  rw [allGrid_iff]
  constructor
  · exact full_grid_last hc hl
  · rintro rfl a ha; exact onGrid_last hc ha

/-- What a move of one field keeps, and the layouts `Q` it ends in. -/
def Sends (W : World Dat) (rep : Nat → V → Nat → List ℚ → Dat) (trunc : Nat → Nat → ℚ → V → V)
    (m : Env Dat → FState Dat → Option (FState Dat)) (P Q : Nat → Prop) : Prop :=
  ∀ i v f, Holds (W.env i) (rep i) v f → Lossless (trunc i) f.scales → P f.layout →
    ∃ f', m (W.env i) f = some f' ∧ Holds (W.env i) (rep i) v f' ∧ f'.scales = f.scales ∧ f'.cur = f.cur ∧ Q f'.layout

theorem sends_changeLayout (hw : Works W rep trunc) {l : Nat} (hl : l < W.lays.length) :
    Sends W rep trunc (fun E f => changeLayout E f l) (fun _ => True) (fun k => k = l) := by
  intro i v f h hL _
  obtain ⟨f', e1, ⟨⟨x, y, e2⟩, e3, e4, _⟩, e5⟩ := changeLayout_ok (hw i).1 (hw i).2 h (l := l) hl
  rw [truncDown_lossless hL] at e2
  exact ⟨f', e1, e2, e3, e4, e5⟩

theorem sends_function (hw : Works W rep trunc) {l : Nat} (hl : l < W.lays.length) :
    Sends W rep trunc (fun E f => if f.layout ≠ l then changeLayout E f l else some f) (fun _ => True) (fun k => k = l) := by
  intro i v f h hL _
  by_cases hf : f.layout ≠ l
  · simp only [if_pos hf]
    exact sends_changeLayout hw hl i v f h hL trivial
  · simp only [if_neg hf]
    exact ⟨f, rfl, h, rfl, rfl, not_not.1 hf⟩

theorem sends_grid (hw : Works W rep trunc) :
    Sends W rep trunc (fun E f => requireGrid E f none) (fun _ => True) (fun k => k = W.lays.length - 1) := by
  intro i v f h hL _
  obtain ⟨f', e1, e2, e3, e4, _, e5⟩ := requireGrid_ok (hw i).1 (hw i).2 h none (by simp)
  refine ⟨f', e1, e2, e3, e4, ?_⟩
  exact full_grid_last (hw 0).2 e2.inRange (fun a ha => flag_onGrid.1 (e5 a ha (Or.inl rfl)))

theorem sends_coeff (hw : Works W rep trunc) {a : Nat} (ha : a < W.D) :
    Sends W rep trunc (fun E f => requireCoeff E f (some a)) (fun _ => True) (fun k => InCoeff W k a) := by
  intro i v f h hL _
  obtain ⟨f', e1, ⟨⟨x, y, e2⟩, e3, e4, _⟩, _, _, e5⟩ := requireCoeff_ok (hw i).1 (hw i).2 h (some a) (by intro x hx; cases hx; exact ha)
  rw [truncDown_lossless hL] at e2
  exact ⟨f', e1, e2, e3, e4, flag_inCoeff.1 (e5 a ha (Or.inr rfl))⟩

theorem sends_local (hw : Works W rep trunc) {a : Nat} (ha : a < W.D) :
    Sends W rep trunc (fun E f => requireLocal E f a) (fun k => InCoeff W k a) (fun k => InCoeff W k a ∧ Local W k a) := by
  intro i v f h hL hP
  obtain ⟨f', e1, ⟨⟨x, y, e2⟩, e3, e4, _⟩, e5, e6⟩ := requireLocal_ok (hw i).1 (hw i).2 h (a := a) ha
  rw [truncDown_lossless hL] at e2
  exact ⟨f', e1, e2, e3, e4, flag_inCoeff.1 (e6.trans (flag_inCoeff.2 hP)), flag_local.1 e5⟩

theorem sends_local_grid (hw : Works W rep trunc) {a : Nat} (ha : a < W.D) :
    Sends W rep trunc (fun E f => requireLocal E f a) (fun k => OnGrid W k a) (fun k => OnGrid W k a ∧ Local W k a) := by
  intro i v f h hL hP
  obtain ⟨f', e1, ⟨⟨x, y, e2⟩, e3, e4, _⟩, e5, e6⟩ := requireLocal_ok (hw i).1 (hw i).2 h (a := a) ha
  rw [truncDown_lossless hL] at e2
  exact ⟨f', e1, e2, e3, e4, flag_onGrid.1 (e6.trans (flag_onGrid.2 hP)), flag_local.1 e5⟩

/-- What enforcing conditions keeps. -/
structure Kept (W : World Dat) (rep : Nat → V → Nat → List ℚ → Dat) (trunc : Nat → Nat → ℚ → V → V) (v : Nat → V)
    (args : List Nat) (h h' : Heap Dat) : Prop where
  hold : AllHold W rep trunc v h'
  scales : ∀ i, (h' i).scales = (h i).scales
  buffer : ∀ i, (h' i).cur = (h i).cur
  others : ∀ i, i ∉ args → h' i = h i

theorem Kept.refl {args : List Nat} {h : Heap Dat} (hh : AllHold W rep trunc v h) : Kept W rep trunc v args h h :=
  ⟨hh, fun _ => rfl, fun _ => rfl, fun _ _ => rfl⟩

theorem Kept.trans {args : List Nat} {a b c : Heap Dat} (h : Kept W rep trunc v args a b) (h' : Kept W rep trunc v args b c) :
    Kept W rep trunc v args a c :=
  ⟨h'.hold, fun i => (h'.scales i).trans (h.scales i), fun i => (h'.buffer i).trans (h.buffer i),
    fun i hi => (h'.others i hi).trans (h.others i hi)⟩

theorem Kept.mono {args args' : List Nat} {a b : Heap Dat} (h : Kept W rep trunc v args a b) (hs : ∀ i ∈ args, i ∈ args') :
    Kept W rep trunc v args' a b :=
  ⟨h.hold, h.scales, h.buffer, fun i hi => h.others i (fun hh => hi (hs i hh))⟩

theorem move_ok {m : Env Dat → FState Dat → Option (FState Dat)} {P Q : Nat → Prop} (hm : Sends W rep trunc m P Q) {h : Heap Dat}
    (hh : AllHold W rep trunc v h) {i : Nat} (hP : P (h i).layout) :
    ∃ h', move W m i h = some h' ∧ Kept W rep trunc v [i] h h' ∧ Q (h' i).layout := by
  obtain ⟨f', e1, e2, e3, e4, e5⟩ := hm i (v i) (h i) (hh i).1 (hh i).2 hP
  refine ⟨Function.update h i f', by simp only [move, e1, Option.map_some], ⟨fun j => ?_, fun j => ?_, fun j => ?_, fun j hj => ?_⟩, ?_⟩
  · by_cases hj : j = i
    · subst hj; rw [Function.update_self]; exact ⟨e2, by rw [e3]; exact (hh j).2⟩
    · rw [Function.update_of_ne hj]; exact hh j
  · by_cases hj : j = i
    · subst hj; rw [Function.update_self]; exact e3
    · rw [Function.update_of_ne hj]
  · by_cases hj : j = i
    · subst hj; rw [Function.update_self]; exact e4
    · rw [Function.update_of_ne hj]
  · rw [Function.update_of_ne (by simpa using hj)]
  · rw [Function.update_self]; exact e5

theorem moveAll_ok {m : Env Dat → FState Dat → Option (FState Dat)} {Q : Nat → Prop} (hm : Sends W rep trunc m (fun _ => True) Q) :
    ∀ (args : List Nat) (h : Heap Dat), AllHold W rep trunc v h →
    ∃ h', moveAll W m args h = some h' ∧ Kept W rep trunc v args h h' ∧ ∀ i ∈ args, Q (h' i).layout := by
  intro args
  induction args with
  | nil => intro h hh; exact ⟨h, rfl, Kept.refl hh, by simp⟩
  | cons i is ih =>
    intro h hh
    obtain ⟨h1, a1, a2, a3⟩ := move_ok hm hh (i := i) trivial
    obtain ⟨h2, b1, b2, b3⟩ := ih h1 a2.hold
    refine ⟨h2, by simp only [moveAll, a1, Option.bind_some, b1], (a2.mono (by simp)).trans (b2.mono (by simp +contextual)), fun j hj => ?_⟩
    by_cases hji : j ∈ is
    · exact b3 j hji
    · rcases List.mem_cons.1 hj with rfl | hj
      · rw [b2.others j hji]; exact a3
      · exact absurd hj hji

theorem dedup_one_iff {ls : List Nat} (hne : ls ≠ []) : (ls.dedup.length == 1) = true ↔ ∀ l ∈ ls, ∀ l' ∈ ls, l = l' := by
  rw [beq_iff_eq]
  constructor
  · intro h l hl l' hl'
    obtain ⟨x, hx⟩ := List.length_eq_one_iff.1 h
    have h1 := List.mem_dedup.2 hl
    have h2 := List.mem_dedup.2 hl'
    rw [hx, List.mem_singleton] at h1 h2
    rw [h1, h2]
  · intro h
    obtain ⟨x, hx⟩ := List.exists_mem_of_ne_nil _ hne
    have hsub : ∀ y ∈ ls.dedup, y = x := fun y hy => h y (List.mem_dedup.1 hy) x hx
    have hnd := List.nodup_dedup ls
    have hx' := List.mem_dedup.2 hx
    cases hd : ls.dedup with
    | nil => rw [hd] at hx'; cases hx'
    | cons a t =>
      rw [hd] at hsub hnd
      cases t with
      | nil => rfl
      | cons b t =>
        exfalso
        have e1 := hsub a (by simp)
        have e2 := hsub b (by simp)
        rw [e1, e2] at hnd
        simp at hnd

end Dedalus.Conditions
