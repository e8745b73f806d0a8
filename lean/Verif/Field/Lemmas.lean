import Verif.Field.Spec
import Mathlib.Tactic.Ring

namespace Dedalus.Field
open Dedalus.Dist
variable {Dat V : Type} {E : Env Dat} {rep : V → Nat → List ℚ → Dat} {trunc : Nat → ℚ → V → V}

/-- Truncation of the value by one path. -/
def truncPath (trunc : Nat → ℚ → V → V) (p : Path) (s : List ℚ) (v : V) : V :=
  match p.kind with
  | .transform => (match s[p.axis]? with | some x => trunc p.axis x v | none => v)
  | .transpose => v

theorem truncPath_lossless {s : List ℚ} (h : Lossless trunc s) (p : Path) (v : V) :
    truncPath trunc p s v = v := by
  unfold truncPath
  cases p.kind with
  | transpose => rfl
  | transform =>
    cases hx : s[p.axis]? with
    | none => simp
    | some x => simp [h _ _ _ hx]

/-- Number of leading axes in coefficient space. -/
structure Level (E : Env Dat) (i m : Nat) : Prop where
  le : m ≤ E.D
  flag : ∀ a, a < E.D → gridFlag E i a = some (decide (m ≤ a))
  len : ∀ l, E.lays[i]? = some l → l.grid.length = E.D

theorem Level.out (h : Level E i m) (hi : i < E.lays.length) (a : Nat) (ha : E.D ≤ a) : gridFlag E i a = none := by
  unfold gridFlag
  have := h.len E.lays[i] (by simp [hi])
  simp [hi]; omega

theorem level_zero (hc : IsChain E) : Level E 0 E.D := by
  obtain ⟨l0, h0, hg⟩ := hc.first
  refine ⟨le_rfl, fun a ha => ?_, ?_⟩
  · simp [gridFlag, h0, hg, List.getElem?_replicate, ha]
  · intro l hl; rw [h0] at hl; cases hl; simp [hg]

theorem level_succ (hc : IsChain E) {i m : Nat} {p : Path} (h : Level E i m) (hp : E.paths[i]? = some p) :
    (p.kind = .transform → m = p.axis + 1 ∧ Level E (i+1) p.axis) ∧ (p.kind = .transpose → Level E (i+1) m) := by
  have hi : i < E.paths.length := by
    by_contra hh
    rw [List.getElem?_eq_none (by omega)] at hp; cases hp
  have h1 : i < E.lays.length := by rw [hc.length]; omega
  have h2 : i + 1 < E.lays.length := by rw [hc.length]; omega
  obtain ⟨l, hl⟩ : ∃ l, E.lays[i]? = some l := ⟨_, List.getElem?_eq_getElem h1⟩
  obtain ⟨l', hl'⟩ : ∃ l, E.lays[i+1]? = some l := ⟨_, List.getElem?_eq_getElem h2⟩
  have hs := hc.step i l l' p hl hl' hp
  have hlen := h.len l hl
  have hfl : ∀ a, a < E.D → l.grid[a]? = some (decide (m ≤ a)) := by
    intro a ha
    have := h.flag a ha
    simpa [gridFlag, hl] using this
  unfold StepOK at hs
  constructor
  · intro hk
    rw [hk] at hs
    simp only at hs
    obtain ⟨_, hg, _, hset, hlo, hhi⟩ := hs
    have hax : p.axis < E.D := by
      by_contra hh
      rw [List.getElem?_eq_none (by omega)] at hg; cases hg
    have hm : p.axis < m := by
      have := hfl p.axis hax
      rw [hg] at this; simp at this; exact this
    have hm2 : m = p.axis + 1 := by
      by_contra hne
      have hlt : p.axis + 1 < E.D := by have := h.le; omega
      have e1 := hhi (p.axis+1) (by omega) (by omega)
      rw [hfl _ hlt] at e1
      simp at e1; omega
    refine ⟨hm2, by omega, fun a ha => ?_, ?_⟩
    · simp only [gridFlag, hl', Option.bind_some, hset]
      rw [List.getElem?_set]
      split
      · next he => subst he; simp [hlen, ha]
      · next he =>
        rw [hfl a ha]
        congr 1
        apply decide_eq_decide.2
        omega
    · intro x hx; rw [hl'] at hx; cases hx; simp [hset, hlen]
  · intro hk
    rw [hk] at hs
    simp only at hs
    obtain ⟨_, _, _, _, hset, _⟩ := hs
    refine ⟨h.le, fun a ha => ?_, ?_⟩
    · simp only [gridFlag, hl', Option.bind_some, hset]; exact hfl a ha
    · intro x hx; rw [hl'] at hx; cases hx; simp [hset, hlen]

theorem level_exists (hc : IsChain E) : ∀ i, i < E.lays.length → ∃ m, Level E i m := by
  intro i
  induction i with
  | zero => intro _; exact ⟨_, level_zero hc⟩
  | succ i ih =>
    intro hi
    obtain ⟨m, hm⟩ := ih (by omega)
    have hpi : i < E.paths.length := by have := hc.length; omega
    have := level_succ hc hm (List.getElem?_eq_getElem hpi)
    cases hk : E.paths[i].kind with
    | transform => exact ⟨_, (this.1 hk).2⟩
    | transpose => exact ⟨_, this.2 hk⟩

theorem Level.unique (h : Level E i m) (h' : Level E i m') : m = m' := by
  by_contra hne
  rcases Nat.lt_or_gt_of_ne hne with hlt | hlt
  · have e1 := h.flag m (by have := h'.le; omega)
    rw [h'.flag m (by have := h'.le; omega)] at e1
    simp at e1; omega
  · have e1 := h.flag m' (by have := h.le; omega)
    rw [h'.flag m' (by have := h.le; omega)] at e1
    simp at e1; omega

theorem level_last (hc : IsChain E) : Level E (E.lays.length - 1) 0 := by
  obtain ⟨l1, h1, hg⟩ := hc.last
  rw [List.getLast?_eq_getElem?] at h1
  refine ⟨by omega, fun a ha => ?_, ?_⟩
  · simp [gridFlag, h1, hg, List.getElem?_replicate, ha]
  · intro l hl; rw [h1] at hl; cases hl; simp [hg]

/-- Levels do not increase towards grid space. -/
theorem level_mono (hc : IsChain E) {i j m m' : Nat} (hij : i ≤ j) (hj : j < E.lays.length)
    (h : Level E i m) (h' : Level E j m') : m' ≤ m := by
  induction j, hij using Nat.le_induction generalizing m' with
  | base => exact (h'.unique h).le
  | succ k hk ih =>
    obtain ⟨mk, hmk⟩ := level_exists hc k (by omega)
    have h1 := ih (by omega) hmk
    have hpi : k < E.paths.length := by have := hc.length; omega
    have := level_succ hc hmk (List.getElem?_eq_getElem hpi)
    cases hkd : E.paths[k].kind with
    | transform =>
      have := this.1 hkd
      have e := h'.unique this.2
      omega
    | transpose =>
      have e := h'.unique (this.2 hkd)
      omega

/-- Where an axis changes from coefficient to grid space, there is its transform. -/
theorem transform_between (hc : IsChain E) {a i j mi mj : Nat} (ha : a < E.D) (hij : i ≤ j) (hj : j < E.lays.length)
    (h : Level E i mi) (h' : Level E j mj) (h1 : a < mi) (h2 : mj ≤ a) :
    ∃ k, i ≤ k ∧ k < j ∧ E.paths[k]? = some ⟨.transform, a⟩ := by
  induction j, hij using Nat.le_induction generalizing mj with
  | base => have := h.unique h'; omega
  | succ k hk ih =>
    obtain ⟨mk, hmk⟩ := level_exists hc k (by omega)
    have hpi : k < E.paths.length := by have := hc.length; omega
    have hs := level_succ hc hmk (List.getElem?_eq_getElem hpi)
    by_cases hak : mk ≤ a
    · obtain ⟨q, hq1, hq2, hq3⟩ := ih (by omega) hmk hak
      exact ⟨q, hq1, by omega, hq3⟩
    · cases hkd : E.paths[k].kind with
      | transform =>
        have h3 := hs.1 hkd
        have e := h'.unique h3.2
        refine ⟨k, hk, by omega, ?_⟩
        rw [List.getElem?_eq_getElem hpi]
        have hax : E.paths[k].axis = a := by omega
        cases hp : E.paths[k] with
        | mk kd ax => rw [hp] at hkd hax; simp at hkd hax; subst hkd; subst hax; rfl
      | transpose =>
        have e := h'.unique (hs.2 hkd)
        omega

theorem loc_at_transform (hc : IsChain E) {k a : Nat} (hp : E.paths[k]? = some ⟨.transform, a⟩) :
    locFlag E k a = some true ∧ locFlag E (k+1) a = some true := by
  have hi : k < E.paths.length := by
    by_contra hh
    rw [List.getElem?_eq_none (by omega)] at hp; cases hp
  have h1 : k < E.lays.length := by rw [hc.length]; omega
  have h2 : k + 1 < E.lays.length := by rw [hc.length]; omega
  have hs := hc.step k _ _ _ (List.getElem?_eq_getElem h1) (List.getElem?_eq_getElem h2) hp
  simp only [StepOK] at hs
  obtain ⟨hl, _, hl', _⟩ := hs
  constructor
  · simp only [locFlag, List.getElem?_eq_getElem h1, Option.bind_some]; exact hl
  · simp only [locFlag, List.getElem?_eq_getElem h2, Option.bind_some, hl']; exact hl

/-! ### One step -/

theorem towardsGrid_ok (hs : Sound E rep trunc) (hc : IsChain E) {v : V} {f : FState Dat} (h : Holds E rep v f)
    (hl : f.layout + 1 < E.lays.length) :
    ∃ f', towardsGrid E f = some f' ∧ Holds E rep v f' ∧ f'.layout = f.layout + 1 ∧ f'.scales = f.scales ∧
      f'.cur = f.cur ∧ f'.fresh = f.fresh := by
  have hp : f.layout < E.paths.length := by have := hc.length; omega
  refine ⟨{ (f.setMem f.cur (E.up E.paths[f.layout] f.scales f.data)) with layout := f.layout + 1 },
    by simp [towardsGrid, List.getElem?_eq_getElem hp], ⟨?_, hl, h.len, h.cur⟩, rfl, rfl, rfl, rfl⟩
  simp only [FState.data, FState.setMem, Function.update_self]
  have := h.data
  simp only [FState.data] at this
  rw [this]
  exact hs.up _ _ _ _ h.len (List.getElem?_eq_getElem hp)

theorem towardsCoeff_ok (hs : Sound E rep trunc) (hc : IsChain E) {v : V} {f : FState Dat} (h : Holds E rep v f)
    {l : Nat} {p : Path} (hl : f.layout = l + 1) (hpp : E.paths[l]? = some p) :
    ∃ f', towardsCoeff E f = some f' ∧ Holds E rep (truncPath trunc p f.scales v) f' ∧ f'.layout = l ∧
      f'.scales = f.scales ∧ f'.cur = f.cur ∧ f'.fresh = f.fresh := by
  have hir := h.inRange
  refine ⟨{ (f.setMem f.cur (E.down p f.scales f.data)) with layout := l },
    by simp [towardsCoeff, hl, hpp], ⟨?_, by simp only; omega, h.len, h.cur⟩, rfl, rfl, rfl, rfl⟩
  simp only [FState.data, FState.setMem, Function.update_self]
  have hd := h.data
  simp only [FState.data] at hd
  rw [hd, hl]
  obtain ⟨m, hm⟩ := level_exists hc l (by omega)
  cases p with
  | mk kd a =>
    cases kd with
    | transpose => exact hs.down_transpose l a v _ h.len hpp
    | transform =>
      have hlev := (level_succ hc hm hpp).1 rfl
      simp only at hlev
      have ha : a < f.scales.length := by rw [h.len]; have := hm.le; omega
      simp only [truncPath, List.getElem?_eq_getElem ha]
      exact hs.down_transform l a v _ _ h.len hpp (List.getElem?_eq_getElem ha)

/-! ### Loops -/

theorem loopUp (hs : Sound E rep trunc) (hc : IsChain E) (P : Nat → Bool) {v : V} {k : Nat} (hk : k < E.lays.length)
    (hP : P k = false) : ∀ (n : Nat) (f : FState Dat), Holds E rep v f → f.layout ≤ k → k - f.layout ≤ n →
    ∃ f', whileLoop (fun g => P g.layout) (towardsGrid E) n f = some f' ∧ Holds E rep v f' ∧ P f'.layout = false ∧
      f.layout ≤ f'.layout ∧ f'.layout ≤ k ∧ (∀ j, f.layout ≤ j → j < f'.layout → P j = true) ∧
      f'.scales = f.scales ∧ f'.cur = f.cur ∧ f'.fresh = f.fresh := by
  intro n
  induction n with
  | zero =>
    intro f h h1 h2
    have : f.layout = k := by omega
    refine ⟨f, ?_, h, by rw [this]; exact hP, le_rfl, h1, fun j a b => by omega, rfl, rfl, rfl⟩
    simp [whileLoop, this, hP]
  | succ n ih =>
    intro f h h1 h2
    by_cases hp : P f.layout = true
    · have hne : f.layout ≠ k := by intro e; rw [e, hP] at hp; cases hp
      obtain ⟨g, e1, hg, e2, e3, e4, e5⟩ := towardsGrid_ok hs hc h (by omega)
      obtain ⟨f', q1, q2, q3, q4, q5, q6, q7, q8, q9⟩ := ih g hg (by omega) (by omega)
      refine ⟨f', ?_, q2, q3, by omega, q5, ?_, by rw [q7, e3], by rw [q8, e4], by rw [q9, e5]⟩
      · simp only [whileLoop, hp, if_true, e1, Option.bind_some]; exact q1
      · intro j hj1 hj2
        by_cases hje : j = f.layout
        · rw [hje]; exact hp
        · exact q6 j (by omega) hj2
    · refine ⟨f, ?_, h, by simpa using hp, le_rfl, h1, fun j a b => by omega, rfl, rfl, rfl⟩
      simp [whileLoop, hp]

/-- Truncations met when going down `n` layouts to layout `lo`. -/
def truncDown (E : Env Dat) (trunc : Nat → ℚ → V → V) (s : List ℚ) (lo : Nat) : Nat → V → V
  | 0, v => v
  | n + 1, v =>
    match E.paths[lo + n]? with
    | some p => truncDown E trunc s lo n (truncPath trunc p s v)
    | none => v

theorem truncDown_lossless {s : List ℚ} (h : Lossless trunc s) (lo n : Nat) (v : V) :
    truncDown E trunc s lo n v = v := by
  induction n generalizing v with
  | zero => rfl
  | succ n ih =>
    unfold truncDown
    split
    · rw [ih, truncPath_lossless h]
    · rfl

theorem loopDown (hs : Sound E rep trunc) (hc : IsChain E) (P : Nat → Bool) {k : Nat}
    (hP : P k = false) : ∀ (n : Nat) (v : V) (f : FState Dat), Holds E rep v f → k ≤ f.layout → f.layout - k ≤ n →
    ∃ f', whileLoop (fun g => P g.layout) (towardsCoeff E) n f = some f' ∧
      Holds E rep (truncDown E trunc f.scales f'.layout (f.layout - f'.layout) v) f' ∧ P f'.layout = false ∧
      f'.layout ≤ f.layout ∧ k ≤ f'.layout ∧ (∀ j, f'.layout < j → j ≤ f.layout → P j = true) ∧
      f'.scales = f.scales ∧ f'.cur = f.cur ∧ f'.fresh = f.fresh := by
  intro n
  induction n with
  | zero =>
    intro v f h h1 h2
    have : f.layout = k := by omega
    refine ⟨f, ?_, by simpa [truncDown] using h, by rw [this]; exact hP, le_rfl, h1, fun j a b => by omega, rfl, rfl, rfl⟩
    simp [whileLoop, this, hP]
  | succ n ih =>
    intro v f h h1 h2
    by_cases hp : P f.layout = true
    · have hne : f.layout ≠ k := by intro e; rw [e, hP] at hp; cases hp
      obtain ⟨l, hl⟩ : ∃ l, f.layout = l + 1 := ⟨f.layout - 1, by omega⟩
      have hpi : l < E.paths.length := by have := hc.length; have := h.inRange; omega
      obtain ⟨g, e1, hg, e2, e3, e4, e5⟩ := towardsCoeff_ok hs hc h hl (List.getElem?_eq_getElem hpi)
      obtain ⟨f', q1, q2, q3, q4, q5, q6, q7, q8, q9⟩ := ih _ g hg (by omega) (by omega)
      refine ⟨f', ?_, ?_, q3, by omega, q5, ?_, by rw [q7, e3], by rw [q8, e4], by rw [q9, e5]⟩
      · simp only [whileLoop, hp, if_true, e1, Option.bind_some]; exact q1
      · have ed : f.layout - f'.layout = (g.layout - f'.layout) + 1 := by omega
        rw [ed, truncDown]
        have el : f'.layout + (g.layout - f'.layout) = l := by omega
        rw [el, List.getElem?_eq_getElem hpi]
        simp only
        rw [← e3]
        rw [e3] at q2 ⊢
        exact q2
      · intro j hj1 hj2
        by_cases hje : j = f.layout
        · rw [hje]; exact hp
        · exact q6 j hj1 (by omega)
    · refine ⟨f, ?_, by simpa [truncDown] using h, by simpa using hp, le_rfl, h1, fun j a b => by omega, rfl, rfl, rfl⟩
      simp [whileLoop, hp]

/-- What a moving operation guarantees: it succeeds, keeps the scales and the buffer, and only truncates
the value at the current scales. -/
structure Moved (E : Env Dat) (rep : V → Nat → List ℚ → Dat) (trunc : Nat → ℚ → V → V) (v : V) (f f' : FState Dat) : Prop where
  holds : ∃ lo n, Holds E rep (truncDown E trunc f.scales lo n v) f'
  scales : f'.scales = f.scales
  cur : f'.cur = f.cur
  fresh : f'.fresh = f.fresh

theorem changeLayout_ok (hs : Sound E rep trunc) (hc : IsChain E) {v : V} {f : FState Dat} (h : Holds E rep v f)
    {l : Nat} (hl : l < E.lays.length) :
    ∃ f', changeLayout E f l = some f' ∧ Moved E rep trunc v f f' ∧ f'.layout = l := by
  have hir := h.inRange
  unfold changeLayout
  split_ifs with h1 h2
  · obtain ⟨f', q1, q2, q3, q4, q5, q6, q7, q8, q9⟩ :=
      loopUp hs hc (fun j => decide (j < l)) hl (by simp) E.fuel f h (by omega) (by simp [Env.fuel]; omega)
    refine ⟨f', q1, ⟨⟨0, 0, q2⟩, q7, q8, q9⟩, ?_⟩
    simp at q3; omega
  · obtain ⟨f', q1, q2, q3, q4, q5, q6, q7, q8, q9⟩ :=
      loopDown hs hc (fun j => decide (j > l)) (k := l) (by simp) E.fuel v f h (by omega) (by simp [Env.fuel]; omega)
    refine ⟨f', q1, ⟨⟨_, _, q2⟩, q7, q8, q9⟩, ?_⟩
    simp at q3; omega
  · exact ⟨f, rfl, ⟨⟨0, 0, h⟩, rfl, rfl, rfl⟩, by omega⟩

theorem requireGrid_ok (hs : Sound E rep trunc) (hc : IsChain E) {v : V} {f : FState Dat} (h : Holds E rep v f)
    (axis : Option Nat) (hax : ∀ a, axis = some a → a < E.D) :
    ∃ f', requireGrid E f axis = some f' ∧ Holds E rep v f' ∧ f'.scales = f.scales ∧ f'.cur = f.cur ∧ f'.fresh = f.fresh ∧
      (∀ a, a < E.D → axis = none ∨ axis = some a → gridFlag E f'.layout a = some true) := by
  have hir := h.inRange
  have hll := level_last hc
  have hlen : E.lays.length - 1 < E.lays.length := by omega
  unfold requireGrid
  cases axis with
  | none =>
    obtain ⟨f', q1, q2, q3, q4, q5, q6, q7, q8, q9⟩ :=
      loopUp hs hc (fun j => (List.range E.D).any fun a => gridFlag E j a != some true) hlen
        (by simp; intro a ha; rw [hll.flag a ha]; simp) E.fuel f h (by omega) (by simp [Env.fuel]; omega)
    refine ⟨f', q1, q2, q7, q8, q9, ?_⟩
    intro a ha _
    simp at q3
    exact q3 a ha
  | some a =>
    have ha := hax a rfl
    obtain ⟨f', q1, q2, q3, q4, q5, q6, q7, q8, q9⟩ :=
      loopUp hs hc (fun j => gridFlag E j a != some true) hlen
        (by simp; rw [hll.flag a ha]; simp) E.fuel f h (by omega) (by simp [Env.fuel]; omega)
    refine ⟨f', q1, q2, q7, q8, q9, ?_⟩
    intro b hb hor
    rcases hor with hor | hor
    · cases hor
    · cases hor; simpa using q3

theorem requireCoeff_ok (hs : Sound E rep trunc) (hc : IsChain E) {v : V} {f : FState Dat} (h : Holds E rep v f)
    (axis : Option Nat) (hax : ∀ a, axis = some a → a < E.D) :
    ∃ f', requireCoeff E f axis = some f' ∧ Moved E rep trunc v f f' ∧
      Holds E rep (truncDown E trunc f.scales f'.layout (f.layout - f'.layout) v) f' ∧ f'.layout ≤ f.layout ∧
      (∀ a, a < E.D → axis = none ∨ axis = some a → gridFlag E f'.layout a = some false) := by
  have hir := h.inRange
  have hl0 := level_zero hc
  unfold requireCoeff
  cases axis with
  | none =>
    obtain ⟨f', q1, q2, q3, q4, q5, q6, q7, q8, q9⟩ :=
      loopDown hs hc (fun j => (List.range E.D).any fun a => gridFlag E j a == some true) (k := 0)
        (by simp; intro a ha; rw [hl0.flag a ha]; simpa using ha) E.fuel v f h (by omega) (by simp [Env.fuel]; omega)
    refine ⟨f', q1, ⟨⟨_, _, q2⟩, q7, q8, q9⟩, q2, q4, ?_⟩
    intro a ha _
    obtain ⟨m, hm⟩ := level_exists hc f'.layout q2.inRange
    simp at q3
    have := q3 a ha
    rw [hm.flag a ha] at this ⊢
    simpa using this
  | some a =>
    have ha := hax a rfl
    obtain ⟨f', q1, q2, q3, q4, q5, q6, q7, q8, q9⟩ :=
      loopDown hs hc (fun j => gridFlag E j a == some true) (k := 0)
        (by simp; rw [hl0.flag a ha]; simpa using ha) E.fuel v f h (by omega) (by simp [Env.fuel]; omega)
    refine ⟨f', q1, ⟨⟨_, _, q2⟩, q7, q8, q9⟩, q2, q4, ?_⟩
    intro b hb hor
    rcases hor with hor | hor
    · cases hor
    · cases hor
      obtain ⟨m, hm⟩ := level_exists hc f'.layout q2.inRange
      simp at q3
      rw [hm.flag a ha] at q3 ⊢
      simpa using q3

theorem requireLocal_ok (hs : Sound E rep trunc) (hc : IsChain E) {v : V} {f : FState Dat} (h : Holds E rep v f)
    {a : Nat} (ha : a < E.D) :
    ∃ f', requireLocal E f a = some f' ∧ Moved E rep trunc v f f' ∧ locFlag E f'.layout a = some true ∧
      gridFlag E f'.layout a = gridFlag E f.layout a := by
  have hir := h.inRange
  obtain ⟨m, hm⟩ := level_exists hc f.layout hir
  have hfl := hm.flag a ha
  unfold requireLocal
  split_ifs with hg
  · have hma : m ≤ a := by rw [hfl] at hg; simpa using hg
    obtain ⟨k, _, hk2, hk3⟩ := transform_between hc ha (Nat.zero_le _) hir (level_zero hc) hm ha hma
    have hloc := (loc_at_transform hc hk3).2
    obtain ⟨f', q1, q2, q3, q4, q5, q6, q7, q8, q9⟩ :=
      loopDown hs hc (fun j => locFlag E j a != some true) (k := k + 1)
        (by simp [hloc]) E.fuel v f h (by omega) (by simp [Env.fuel]; omega)
    refine ⟨f', q1, ⟨⟨_, _, q2⟩, q7, q8, q9⟩, by simpa using q3, ?_⟩
    obtain ⟨mk, hmk⟩ := level_exists hc k (by omega)
    have hlk := ((level_succ hc hmk hk3).1 rfl).2
    obtain ⟨m', hm'⟩ := level_exists hc f'.layout q2.inRange
    have := level_mono hc q5 q2.inRange hlk hm'
    simp only at this
    rw [hm'.flag a ha, hg]; simp; omega
  · have hma : a < m := by rw [hfl] at hg; simpa using hg
    obtain ⟨k, hk1, hk2, hk3⟩ := transform_between hc ha (by omega : f.layout ≤ E.lays.length - 1) (by omega) hm (level_last hc) hma (by omega)
    have hloc := (loc_at_transform hc hk3).1
    obtain ⟨f', q1, q2, q3, q4, q5, q6, q7, q8, q9⟩ :=
      loopUp hs hc (fun j => locFlag E j a != some true) (k := k) (by omega)
        (by simp [hloc]) E.fuel f h (by omega) (by simp [Env.fuel]; omega)
    refine ⟨f', q1, ⟨⟨0, 0, q2⟩, q7, q8, q9⟩, by simpa using q3, ?_⟩
    obtain ⟨mk, hmk⟩ := level_exists hc k (by omega)
    have hlk := ((level_succ hc hmk hk3).1 rfl).1
    obtain ⟨m', hm'⟩ := level_exists hc f'.layout q2.inRange
    have := level_mono hc q5 (by omega) hm' hmk
    simp only at hlk
    rw [hm'.flag a ha, hfl]; simp; omega

/-! ### Scales -/

/-- After the loop over the axes, the scales of the axes left in grid space already agree. -/
theorem matchScales_ok (hs : Sound E rep trunc) (hc : IsChain E) {v : V} {f : FState Dat} (h : Holds E rep v f)
    {new : List ℚ} : ∀ n, n ≤ E.D →
    (∀ a, n ≤ a → a < E.D → f.scales[a]? = new[a]?) →
    ∃ f', matchScales E f new n = some f' ∧ Moved E rep trunc v f f' ∧
      Holds E rep (truncDown E trunc f.scales f'.layout (f.layout - f'.layout) v) f' ∧ f'.layout ≤ f.layout ∧
      (∀ a, gridFlag E f'.layout a = some true → f.scales[a]? = new[a]?) := by
  intro n
  have hself : Moved E rep trunc v f f := ⟨⟨0, 0, h⟩, rfl, rfl, rfl⟩
  have hself2 : Holds E rep (truncDown E trunc f.scales f.layout (f.layout - f.layout) v) f := by
    simpa [truncDown] using h
  have hout : ∀ i m, i < E.lays.length → Level E i m → ∀ a, gridFlag E i a = some true → a < E.D ∧ m ≤ a := by
    intro i m hi hm a hg
    by_cases ha : a < E.D
    · rw [hm.flag a ha] at hg; simp at hg; exact ⟨ha, hg⟩
    · rw [hm.out hi a (by omega)] at hg; cases hg
  obtain ⟨m, hm⟩ := level_exists hc f.layout h.inRange
  induction n with
  | zero =>
    intro _ hall
    refine ⟨f, rfl, hself, hself2, le_rfl, ?_⟩
    intro a ha
    exact hall a (by omega) (hout _ _ h.inRange hm a ha).1
  | succ a ih =>
    intro hn hall
    unfold matchScales
    split_ifs with h1 h2
    · refine ⟨f, rfl, hself, hself2, le_rfl, ?_⟩
      intro b hb
      have := hout _ _ h.inRange hm b hb
      have h3 : a < m := by
        rw [hm.flag a (by omega)] at h1; simpa using h1
      exact hall b (by omega) this.1
    · obtain ⟨f', q1, q2, q3, q4, q5⟩ := requireCoeff_ok hs hc h (some a) (fun b hb => by cases hb; omega)
      refine ⟨f', q1, q2, q3, q4, ?_⟩
      intro b hb
      obtain ⟨m', hm'⟩ := level_exists hc f'.layout q3.inRange
      have hb' := hout _ _ q3.inRange hm' b hb
      have h3 : a < m' := by
        have := q5 a (by omega) (Or.inr rfl)
        rw [hm'.flag a (by omega)] at this; simpa using this
      exact hall b (by omega) hb'.1
    · apply ih (by omega)
      intro b hb1 hb2
      by_cases hbe : b = a
      · subst hbe; push Not at h2; exact h2
      · exact hall b (by omega) hb2

/-- Changing scales: it succeeds, the scales are as requested, and the value is only truncated. -/
theorem changeScales_ok (hs : Sound E rep trunc) (hc : IsChain E) {v : V} {f : FState Dat} (h : Holds E rep v f)
    {new : List ℚ} (hn : new.length = E.D) :
    ∃ f' lo, changeScales E f new = some f' ∧ Holds E rep (truncDown E trunc f.scales lo (f.layout - lo) v) f' ∧
      f'.scales = new ∧ f'.layout = lo ∧ lo ≤ f.layout ∧
      (∀ a, gridFlag E lo a = some true → f.scales[a]? = new[a]?) ∧
      (f'.cur = f.cur ∨ f'.cur = 0 ∨ E.fits new = false) ∧ f.fresh ≤ f'.fresh := by
  unfold changeScales
  split_ifs with he
  · refine ⟨f, f.layout, rfl, by simpa [truncDown] using h, he.symm, rfl, le_rfl, fun a _ => by rw [he], Or.inl rfl, le_rfl⟩
  · obtain ⟨g, q1, q2, q3, q4, q5⟩ := matchScales_ok hs hc h (new := new) E.D le_rfl (fun a h1 h2 => by omega)
    have hne : new ≠ g.scales := by rw [q2.scales]; exact he
    have hcur := q3.cur
    have hd := q3.data
    have hrep : rep (truncDown E trunc f.scales g.layout (f.layout - g.layout) v) g.layout g.scales =
        rep (truncDown E trunc f.scales g.layout (f.layout - g.layout) v) g.layout new := by
      apply hs.scales_irrelevant _ _ _ _ q3.len hn
      intro a ha
      rw [q2.scales]; exact q5 a ha
    simp only [q1, Option.bind_eq_bind, Option.bind_some]
    unfold presetScales
    rw [if_neg hne]
    split_ifs with hf
    · refine ⟨_, g.layout, rfl, ⟨?_, q3.inRange, hn, ?_⟩, rfl, rfl, q4, q5, Or.inr (Or.inl rfl), ?_⟩
      · simp only [FState.data, FState.setMem, Function.update_self]
        rw [← hrep]; exact hd
      · simp only [FState.setMem]; omega
      · simp [FState.setMem, q2.fresh]
    · refine ⟨_, g.layout, rfl, ⟨?_, q3.inRange, hn, ?_⟩, rfl, rfl, q4, q5, Or.inr (Or.inr (by simpa using hf)), ?_⟩
      · simp only [FState.data, FState.setMem, Function.update_self]
        rw [← hrep]; exact hd
      · simp only [FState.setMem]; omega
      · simp [FState.setMem, q2.fresh]

theorem presetScales_ok {f : FState Dat} (E : Env Dat) (hc : f.cur < f.fresh) (new : List ℚ) :
    (presetScales E f new).scales = new ∧ (presetScales E f new).cur < (presetScales E f new).fresh ∧
      (presetScales E f new).layout = f.layout ∧
      ((presetScales E f new).cur = f.cur ∨ (presetScales E f new).cur = 0 ∨ E.fits new = false) := by
  unfold presetScales
  split_ifs with h1 h2
  · exact ⟨h1.symm, hc, rfl, Or.inl rfl⟩
  · refine ⟨rfl, ?_, rfl, Or.inr (Or.inl rfl)⟩; simp only; omega
  · refine ⟨rfl, ?_, rfl, Or.inr (Or.inr (by simpa using h2))⟩; simp

theorem remedy_ok {D : Nat} {a : ScaleArg} {s : List ℚ} (h : 0 ∉ scalesMeant D s (some a)) :
    remedy D a = some (scalesMeant D s (some a)) := by
  unfold remedy
  cases a <;> simp only [scalesMeant] at h ⊢ <;> rw [if_neg h]

/-! ### Going all the way down from the grid -/

theorem truncDown_bottom (s : List ℚ) (lo : Nat) : ∀ n v p, lo + n < E.paths.length → E.paths[lo]? = some p →
    truncDown E trunc s lo (n+1) v = truncPath trunc p s (truncDown E trunc s (lo+1) n v) := by
  intro n
  induction n with
  | zero => intro v p _ hp; simp [truncDown, hp]
  | succ n ih =>
    intro v p hl hp
    rw [truncDown, truncDown]
    have e : lo + 1 + n = lo + (n + 1) := by omega
    rw [e, List.getElem?_eq_getElem hl]
    simp only
    exact ih _ p (by omega) hp

theorem truncDown_level (hc : IsChain E) (s : List ℚ) : ∀ n lo v m, Level E lo m → lo + n = E.lays.length - 1 →
    lo < E.lays.length →
    truncDown E trunc s lo n v = truncAll m trunc s v := by
  intro n
  induction n with
  | zero =>
    intro lo v m hm he hlo
    have := level_last hc
    rw [← he] at this
    have e := hm.unique this
    subst e
    simp [truncDown, truncAll]
  | succ n ih =>
    intro lo v m hm he hlo
    have hpi : lo < E.paths.length := by have := hc.length; omega
    obtain ⟨m', hm'⟩ := level_exists hc (lo+1) (by omega)
    rw [truncDown_bottom s lo n v E.paths[lo] (by have := hc.length; omega) (List.getElem?_eq_getElem hpi),
      ih (lo+1) v m' hm' (by omega) (by omega)]
    have hl := level_succ hc hm (List.getElem?_eq_getElem hpi)
    cases hk : E.paths[lo].kind with
    | transpose =>
      have := hm'.unique (hl.2 hk)
      subst this
      simp [truncPath, hk]
    | transform =>
      have h1 := hl.1 hk
      have := hm'.unique h1.2
      subst this
      rw [h1.1]
      simp only [truncPath, hk, truncAll, List.range_succ, List.foldl_append, List.foldl_cons, List.foldl_nil]
      all_goals (cases s[E.paths[lo].axis]? <;> rfl)

/-- Truncations at scales that lose nothing do not matter. -/
theorem truncAll_extend {s o : List ℚ} (ho : Lossless trunc o) {m D : Nat} (hmD : m ≤ D)
    (he : ∀ a, m ≤ a → a < D → s[a]? = o[a]?) (v : V) : truncAll D trunc s v = truncAll m trunc s v := by
  induction D, hmD using Nat.le_induction with
  | base => rfl
  | succ k hk ih =>
    have : truncAll (k+1) trunc s v = (match s[k]? with | some x => trunc k x (truncAll k trunc s v) | none => truncAll k trunc s v) := by
      simp only [truncAll, List.range_succ, List.foldl_append, List.foldl_cons, List.foldl_nil]
      all_goals (cases s[k]? <;> rfl)
    rw [this, he k hk (by omega), ← ih (fun a h1 h2 => he a h1 (by omega))]
    cases hx : o[k]? with
    | none => rfl
    | some x => exact ho k x _ hx

end Dedalus.Field
