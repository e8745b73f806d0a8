import Verif.Locked.Lemmas
import Verif.Field.Props

/-!
# C109: locked fields stay in their layouts
-/

namespace Dedalus.Locked

open Dedalus.Dist Dedalus.Field

variable {Dat V : Type} {E : Env Dat} {rep : V → Nat → List ℚ → Dat} {trunc : Nat → ℚ → V → V}

/-- Legal requests: the layout and the axis exist. -/
def LegalReq (E : Env Dat) : LOp → Prop
  | .get k => k.1 < E.lays.length
  | .changeScales _ => True
  | .changeLayout k => k < E.lays.length
  | .requireGrid a => ∀ x, a = some x → x < E.D
  | .requireCoeff a => ∀ x, a = some x → x < E.D
  | .requireLocal a => a < E.D
  | .towardsGrid => True

theorem changeScales_after {v : V} {l : LState Dat} (h : Rests E rep v l) (a : ScaleArg) :
    After E rep v l (changeScales E l a) ∧ (changeScales E l a).1 = l := by
  unfold changeScales
  cases remedy E.D a with
  | none => exact ⟨⟨h, SameLock.refl l, Or.inr rfl⟩, rfl⟩
  | some s =>
    simp only
    split
    · exact ⟨⟨h, SameLock.refl l, Or.inr rfl⟩, rfl⟩
    · exact ⟨⟨h, SameLock.refl l, Or.inl rfl⟩, rfl⟩

/-- One request. -/
theorem perform_after (hs : Sound E rep trunc) (hc : IsChain E) {v : V} {l : LState Dat} (h : Rests E rep v l)
    (hL : Lossless trunc l.f.scales) (o : LOp) (ho : LegalReq E o) :
    Rests E rep v (perform E l o).1.1 ∧ SameLock l (perform E l o).1.1 ∧
    (∀ k, o = .get k → ((perform E l o).1.2 = none → (perform E l o).2 = some (rep v k.1 l.f.scales)) ∧
      ((perform E l o).1.2 ≠ none → (perform E l o).2 = none)) := by
  have hir := h.holds.inRange
  cases o with
  | get k =>
    simp only [perform, getItem]
    have key : ∀ l', l' = l →
        (fun (r : Res Dat × Option Dat) => Rests E rep v r.1.1 ∧ SameLock l r.1.1 ∧
          ∀ k', LOp.get k = .get k' → (r.1.2 = none → r.2 = some (rep v k'.1 l.f.scales)) ∧ (r.1.2 ≠ none → r.2 = none))
          (match changeLayout E l' k.1 with
          | (l, none) => ((l, none), some l.f.data)
          | r => (r, none)) := by
      intro l' hl'
      subst hl'
      obtain ⟨c1, c2, c3⟩ := changeLayout_end hs hc h hL ho
      cases e : changeLayout E l' k.1 with
      | mk l2 x =>
        rw [e] at c1 c2 c3
        cases x with
        | none =>
          refine ⟨c1.rests, c1.same, fun k' hk' => ⟨fun _ => ?_, fun hh => absurd rfl hh⟩⟩
          cases hk'
          have hd := c1.rests.holds.data
          have h3 := c3 rfl
          have h4 := c1.same.scales
          simp only at hd h3 h4
          simp only [hd, h3, h4]
        | some x =>
          exact ⟨c1.rests, c1.same, fun k' hk' => ⟨fun hh => (nomatch hh), fun _ => rfl⟩⟩
    cases hk2 : k.2 with
    | none => exact key l rfl
    | some a =>
      obtain ⟨c1, c2⟩ := changeScales_after h (E := E) (rep := rep) a
      cases e : changeScales E l a with
      | mk l2 x =>
        rw [e] at c1 c2
        simp only [e]
        cases x with
        | none => exact key l2 c2
        | some x => exact ⟨c1.rests, c1.same, fun k' hk' => ⟨fun hh => (nomatch hh), fun _ => rfl⟩⟩
  | changeScales a =>
    obtain ⟨c1, _⟩ := changeScales_after h (E := E) (rep := rep) a
    exact ⟨c1.rests, c1.same, fun _ hh => (nomatch hh)⟩
  | changeLayout k =>
    obtain ⟨c1, _⟩ := changeLayout_end hs hc h hL ho
    exact ⟨c1.rests, c1.same, fun _ hh => (nomatch hh)⟩
  | requireGrid a =>
    have c := requireGrid_end hs hc h ho
    exact ⟨c.rests, c.same, fun _ hh => (nomatch hh)⟩
  | requireCoeff a =>
    have c := requireCoeff_end hs hc h hL ho
    exact ⟨c.rests, c.same, fun _ hh => (nomatch hh)⟩
  | requireLocal a =>
    have c := requireLocal_end hs hc h hL ho
    by_cases hg : gridFlag E l.f.layout a = some true
    · exact ⟨(c.1 hg).rests, (c.1 hg).same, fun _ hh => (nomatch hh)⟩
    · exact ⟨(c.2 hg).rests, (c.2 hg).same, fun _ hh => (nomatch hh)⟩
  | towardsGrid =>
    simp only [perform]
    by_cases hl : l.f.layout + 1 < E.lays.length
    · obtain ⟨g1, g2⟩ := towardsGrid_step hs hc h hl
      by_cases hp : Permits l (l.f.layout + 1)
      · obtain ⟨l', e1, e2, e3, e4⟩ := g1 hp
        rw [e1]
        exact ⟨e2, e3, fun _ hh => (nomatch hh)⟩
      · rw [g2 hp]
        exact ⟨h, SameLock.refl l, fun _ hh => (nomatch hh)⟩
    · have : towardsGrid E l = (l, some .index) := by simp only [towardsGrid]; rw [if_neg hl]
      rw [this]
      exact ⟨h, SameLock.refl l, fun _ hh => (nomatch hh)⟩

/-- **C109 (part: reads and moves).** A field that is locked to layouts and in one of them, with scales that lose no mode, is
asked for any sequence of reads, changes of scales and layout and `require_…` calls, and used further after those that raise:
after every request, granted or not, it is in a layout it is locked to, has the scales, the buffer and the locks it had, and
holds its value. A read that does not raise returns the value in the layout asked for. -/
theorem locked_stays (hs : Sound E rep trunc) (hc : IsChain E) (v : V) (ops : List LOp) :
    ∀ (l : LState Dat), Rests E rep v l → Lossless trunc l.f.scales → (∀ o ∈ ops, LegalReq E o) →
    (performAll E l ops).length = ops.length ∧
    ∀ (i : Nat) (o : LOp) (r : Res Dat × Option Dat), ops[i]? = some o → (performAll E l ops)[i]? = some r →
      Rests E rep v r.1.1 ∧ SameLock l r.1.1 ∧
      ∀ k, o = .get k → (r.1.2 = none → r.2 = some (rep v k.1 l.f.scales)) ∧ (r.1.2 ≠ none → r.2 = none) := by
  induction ops with
  | nil => intro l _ _ _; exact ⟨rfl, fun i o r h => by simp at h⟩
  | cons o os ih =>
    intro l h hL hleg
    obtain ⟨p1, p2, p3⟩ := perform_after hs hc h hL o (hleg o (by simp))
    obtain ⟨q1, q2⟩ := ih (perform E l o).1.1 p1 (by rw [p2.scales]; exact hL) (fun o' ho' => hleg o' (by simp [ho']))
    refine ⟨by simp only [performAll, List.length_cons, q1], fun i o' r e1 e2 => ?_⟩
    cases i with
    | zero =>
      simp only [performAll, List.getElem?_cons_zero, Option.some.injEq] at e1 e2
      subst e1 e2
      exact ⟨p1, p2, p3⟩
    | succ i =>
      simp only [performAll, List.getElem?_cons_succ] at e1 e2
      obtain ⟨a, b, c⟩ := q2 i o' r e1 e2
      refine ⟨a, p2.trans b, ?_⟩
      rw [p2.scales] at c
      exact c

/-- **C109 (part: which moves are granted).** A move to a layout is granted if and only if the field is locked to every layout
on the way; then the field is in the layout asked for. Otherwise ValueError is raised. -/
theorem locked_move_iff (hs : Sound E rep trunc) (hc : IsChain E) (v : V) (l : LState Dat) (h : Rests E rep v l)
    (hL : Lossless trunc l.f.scales) (k : Nat) (hk : k < E.lays.length) :
    ((changeLayout E l k).2 = none ↔ ∀ j, OnTheWay l.f.layout k j → Permits l j) ∧
    ((changeLayout E l k).2 = none → (changeLayout E l k).1.f.layout = k) ∧
    ((changeLayout E l k).2 ≠ none → (changeLayout E l k).2 = some .value) := by
  obtain ⟨c1, c2, c3⟩ := changeLayout_end hs hc h hL hk
  exact ⟨c2, c3, fun hn => c1.exc.resolve_left hn⟩

/-- **C109 (part: what is granted).** If `require_grid_space`, `require_coeff_space` or `require_local` does not raise, the
axis (all axes, if none is given) is in grid space, in coefficient space, or local. If it raises, it is ValueError, and the next
layout in the direction of the request is not one the field is locked to. -/
theorem locked_requires (hs : Sound E rep trunc) (hc : IsChain E) (v : V) (l : LState Dat) (h : Rests E rep v l)
    (hL : Lossless trunc l.f.scales) (b : Option Nat) (hb : ∀ x, b = some x → x < E.D) (a : Nat) (ha : a < E.D)
    (hab : b = none ∨ b = some a) :
    ((requireGrid E l b).2 = none → gridFlag E (requireGrid E l b).1.f.layout a = some true) ∧
    ((requireGrid E l b).2 ≠ none → (requireGrid E l b).2 = some .value ∧ ¬ Permits l ((requireGrid E l b).1.f.layout + 1)) ∧
    ((requireCoeff E l b).2 = none → gridFlag E (requireCoeff E l b).1.f.layout a = some false) ∧
    ((requireCoeff E l b).2 ≠ none → (requireCoeff E l b).2 = some .value ∧ ¬ Permits l ((requireCoeff E l b).1.f.layout - 1)) ∧
    ((requireLocal E l a).2 = none → locFlag E (requireLocal E l a).1.f.layout a = some true) ∧
    ((requireLocal E l a).2 ≠ none → (requireLocal E l a).2 = some .value) := by
  have g := requireGrid_end hs hc h hb
  have c := requireCoeff_end hs hc h hL hb
  have lo := requireLocal_end hs hc h hL ha
  refine ⟨fun hn => ?_, fun hn => ?_, fun hn => ?_, fun hn => ?_, fun hn => ?_, fun hn => ?_⟩
  · rcases g.ends with ⟨_, e⟩ | ⟨e, _⟩
    · rcases hab with rfl | rfl
      · have e' : ((List.range E.D).any fun a => gridFlag E (requireGrid E l none).1.f.layout a != some true) = false := e
        rw [List.any_eq_false] at e'
        simpa using e' a (List.mem_range.2 ha)
      · have e' : (gridFlag E (requireGrid E l (some a)).1.f.layout a != some true) = false := e
        simpa using e'
    · rw [hn] at e; cases e
  · rcases g.ends with ⟨e, _⟩ | ⟨e, _, e'⟩
    · exact absurd e hn
    · exact ⟨e, e'⟩
  · have hin := c.rests.holds.inRange
    obtain ⟨m, hm⟩ := level_exists hc _ hin
    have hfl := hm.flag a ha
    rcases c.ends with ⟨_, e⟩ | ⟨e, _⟩
    · have hne : gridFlag E (requireCoeff E l b).1.f.layout a ≠ some true := by
        rcases hab with rfl | rfl
        · have e' : ((List.range E.D).any fun a => gridFlag E (requireCoeff E l none).1.f.layout a == some true) = false := e
          rw [List.any_eq_false] at e'
          simpa using e' a (List.mem_range.2 ha)
        · have e' : (gridFlag E (requireCoeff E l (some a)).1.f.layout a == some true) = false := e
          simpa using e'
      rw [hfl] at hne ⊢
      simpa using hne
    · rw [hn] at e; cases e
  · rcases c.ends with ⟨e, _⟩ | ⟨e, _, _, e'⟩
    · exact absurd e hn
    · exact ⟨e, e'⟩
  · by_cases hg : gridFlag E l.f.layout a = some true
    · rcases (lo.1 hg).ends with ⟨_, e⟩ | ⟨e, _⟩
      · simpa using e
      · rw [hn] at e; cases e
    · rcases (lo.2 hg).ends with ⟨_, e⟩ | ⟨e, _⟩
      · simpa using e
      · rw [hn] at e; cases e
  · by_cases hg : gridFlag E l.f.layout a = some true
    · exact (lo.1 hg).after.exc.resolve_left hn
    · exact (lo.2 hg).after.exc.resolve_left hn

/-- **C109 (part: scales).** A change of scales is granted if and only if it asks for the scales the field has; in any case the
field is as before. -/
theorem locked_scales (l : LState Dat) (hz : 0 ∉ l.f.scales) (a : ScaleArg) :
    ((changeScales E l a).2 = none ↔ scalesMeant E.D [] (some a) = l.f.scales) ∧
    ((changeScales E l a).2 ≠ none → (changeScales E l a).2 = some .value) ∧ (changeScales E l a).1 = l := by
  unfold changeScales
  by_cases h0 : 0 ∈ scalesMeant E.D [] (some a)
  · have : remedy E.D a = none := by
      unfold remedy
      cases a <;> simp only [scalesMeant] at h0 ⊢ <;> rw [if_pos h0]
    rw [this]
    refine ⟨⟨fun hh => (nomatch hh), fun hh => ?_⟩, fun _ => rfl, rfl⟩
    rw [hh] at h0; exact absurd h0 hz
  · rw [remedy_ok h0]
    simp only
    by_cases he : scalesMeant E.D [] (some a) = l.f.scales
    · rw [if_neg (by simpa using he)]
      exact ⟨⟨fun _ => he, fun _ => rfl⟩, fun hh => absurd rfl hh, rfl⟩
    · rw [if_pos he]
      exact ⟨⟨fun hh => (nomatch hh), fun hh => absurd hh he⟩, fun _ => rfl, rfl⟩

/-- **C109 (part: locking an axis to the grid).** A field with an axis in grid space is locked to the grid along this axis: then it
rests there, it can move to exactly the layouts with this axis in grid space, it can always be taken to grid space, and the
axis can always be made local. -/
theorem axis_lock_moves (hs : Sound E rep trunc) (hc : IsChain E) (v : V) (l : LState Dat) (h : Holds E rep v l.f)
    (hL : Lossless trunc l.f.scales) (a : Nat) (ha : a < E.D) (hg : gridFlag E l.f.layout a = some true) :
    Rests E rep v (lockAxisToGrid E l a) ∧
    (∀ k, k < E.lays.length → ((changeLayout E (lockAxisToGrid E l a) k).2 = none ↔ gridFlag E k a = some true)) ∧
    (∀ b, (∀ x, b = some x → x < E.D) → (requireGrid E (lockAxisToGrid E l a) b).2 = none) ∧
    (requireLocal E (lockAxisToGrid E l a) a).2 = none ∧
    locFlag E (requireLocal E (lockAxisToGrid E l a) a).1.f.layout a = some true := by
  have hir := h.inRange
  have hper : ∀ n, Permits (lockAxisToGrid E l a) n ↔ n < E.lays.length ∧ gridFlag E n a = some true := by
    intro n
    unfold Permits lockAxisToGrid
    constructor
    · rintro ⟨es, e1, e2⟩
      cases e1
      simpa using e2
    · intro hh
      exact ⟨_, rfl, by simpa using hh⟩
  have hrest : Rests E rep v (lockAxisToGrid E l a) := ⟨h, (hper _).2 ⟨hir, hg⟩⟩
  refine ⟨hrest, fun k hk => ?_, fun b hb => ?_, ?_⟩
  · obtain ⟨_, c2, _⟩ := changeLayout_end hs hc hrest hL hk
    rw [c2]
    constructor
    · intro hw
      by_cases he : k = l.f.layout
      · rw [he]; exact hg
      · refine ((hper k).1 (hw k ?_)).2
        show OnTheWay l.f.layout k k
        unfold OnTheWay; omega
    · intro hk' j hj
      have hj : OnTheWay l.f.layout k j := hj
      rcases hj with hj | hj
      · exact (hper j).2 ⟨by omega, gridFlag_mono hc ha (by omega) (by omega) hg⟩
      · exact (hper j).2 ⟨by omega, gridFlag_mono hc ha hj.1 (by omega) hk'⟩
  · have c := requireGrid_end hs hc hrest hb
    rcases c.ends with ⟨e, _⟩ | ⟨_, e1, e2⟩
    · exact e
    · exfalso
      have hr := c.rests.holds.inRange
      have hlast : (requireGrid E (lockAxisToGrid E l a) b).1.f.layout ≠ E.lays.length - 1 := by
        intro hh
        rw [hh] at e1
        cases b with
        | none =>
          have : ((List.range E.D).any fun a => gridFlag E (E.lays.length - 1) a != some true) = true := e1
          rw [List.any_eq_true] at this
          obtain ⟨x, hx, hx'⟩ := this
          rw [List.mem_range] at hx
          simp [gridFlag_last hc hx] at hx'
        | some x =>
          have : (gridFlag E (E.lays.length - 1) x != some true) = true := e1
          simp [gridFlag_last hc (hb x rfl)] at this
      have hle : l.f.layout ≤ (requireGrid E (lockAxisToGrid E l a) b).1.f.layout := c.le
      exact e2 ((hper _).2 ⟨by omega, gridFlag_mono hc ha (by omega) (by omega) hg⟩)
  · have c := (requireLocal_end hs hc hrest hL ha).1 hg
    have hr := c.rests.permitted
    have hrg := ((hper _).1 ((c.same.permits _).1 hr)).2
    rcases c.ends with ⟨e, e'⟩ | ⟨_, e1, e0, e2⟩
    · exact ⟨e, by simpa using e'⟩
    · exfalso
      have hin := c.rests.holds.inRange
      obtain ⟨m, hm⟩ := level_exists hc _ hin
      have hfl := hm.flag a ha
      rw [hrg] at hfl; simp at hfl
      obtain ⟨k, _, hk2, hk3⟩ := transform_between hc ha (Nat.zero_le _) hin (level_zero hc) hm ha (by omega)
      obtain ⟨mk, hmk⟩ := level_exists hc (k+1) (by omega)
      have hk4 := loc_at_transform hc hk3
      have hgk : gridFlag E (k+1) a = some true := by
        obtain ⟨m', hm'⟩ := level_exists hc k (by omega)
        have := (level_succ hc hm' hk3).1 rfl
        rw [this.2.flag a ha]; simp
      by_cases he : k + 1 = (requireLocal E (lockAxisToGrid E l a) a).1.f.layout
      · rw [← he, hk4.2] at e1; simp at e1
      · exact e2 ((hper _).2 ⟨by omega, gridFlag_mono hc ha (show k + 1 ≤ _ by omega) (by omega) hgk⟩)

/-- **C109 (part: unlocking).** `unlock` returns a field of the same value in the same layout at the same scales, with the data in
memory of its own (the memory of `new`). -/
theorem unlock_same (v : V) (l : LState Dat) (h : Holds E rep v l.f) (new : FState Dat) (hn : new.cur < new.fresh) :
    ∃ f, unlock E new l = some f ∧ Holds E rep v f ∧ f.layout = l.f.layout ∧ f.scales = l.f.scales ∧ f.data = l.f.data := by
  obtain ⟨p1, p2, p3, _⟩ := presetScales_ok E hn l.f.scales
  have hd : ∀ g : FState Dat, (g.setMem g.cur l.f.data).data = l.f.data := fun g => by simp [FState.setMem, FState.data]
  refine ⟨(presetLayout (presetScales E new l.f.scales) l.f.layout).setMem (presetScales E new l.f.scales).cur l.f.data, rfl,
    ⟨?_, h.inRange, ?_, p2⟩, rfl, p1, hd _⟩
  · have : ((presetLayout (presetScales E new l.f.scales) l.f.layout).setMem (presetScales E new l.f.scales).cur l.f.data).data
        = l.f.data := hd (presetLayout (presetScales E new l.f.scales) l.f.layout)
    rw [this, h.data]
    show rep v l.f.layout l.f.scales = rep v l.f.layout (presetScales E new l.f.scales).scales
    rw [p1]
  · show (presetScales E new l.f.scales).scales.length = E.D
    rw [p1]; exact h.len

/-- **C109 (part: the layout `Lock` chooses).** It is one of the layouts given and none of them is closer to the operand's layout. -/
theorem closest_nearest (layouts : List Nat) (hne : layouts ≠ []) (cur : Nat) :
    ∃ k, closest layouts cur = some k ∧ k ∈ layouts ∧ ∀ j ∈ layouts, dist k cur ≤ dist j cur := by
  unfold closest
  by_cases hm : cur ∈ layouts
  · rw [if_pos hm]
    exact ⟨cur, rfl, hm, fun j _ => by simp [dist]⟩
  · rw [if_neg hm]
    obtain ⟨i, y, e1, e2, e3, _⟩ := argmin_spec (layouts.map fun (i : Nat) => Int.natAbs ((i : Int) - (cur : Int))) (by simpa using hne)
    rw [List.getElem?_map] at e2
    cases e4 : layouts[i]? with
    | none => rw [e4] at e2; cases e2
    | some k =>
      rw [e4] at e2
      simp only [Option.map_some, Option.some.injEq] at e2
      refine ⟨k, by rw [e1]; simpa using e4, List.mem_of_getElem? e4, fun j hj => ?_⟩
      have := e3 (Int.natAbs ((j : Int) - (cur : Int))) (List.mem_map.2 ⟨j, hj, rfl⟩)
      unfold dist
      omega

/-- **C109 (part: the operator `Lock`).** Evaluated on a field, at scales that lose no mode, `Lock(u, *layouts)` gives a locked
field with the value of the operand at the dealias scales, in one of the layouts given; the operand keeps its value. Missing from
the full claim: the result should be able to move among the layouts given, see `lock_moves_refuted`. -/
theorem lock_value_partial (hs : Sound E rep trunc) (hc : IsChain E) (v : V) (arg new : FState Dat) (h : Holds E rep v arg)
    (hL : Lossless trunc arg.scales) (dealias : List ℚ) (hd : dealias.length = E.D) (hLd : Lossless trunc dealias)
    (layouts : List Nat) (hne : layouts ≠ []) (hin : ∀ k ∈ layouts, k < E.lays.length) (hn : new.cur < new.fresh) :
    ∃ arg' out, evalLock E dealias layouts arg new = some (arg', out) ∧ Holds E rep v arg' ∧ Holds E rep v out.f ∧
      out.f.layout ∈ layouts ∧ out.f.scales = dealias ∧
      (arg.scales = dealias → ∀ j ∈ layouts, dist out.f.layout arg.layout ≤ dist j arg.layout) := by
  obtain ⟨f1, lo, a1, a2, a3, a4, a5, _⟩ := changeScales_ok hs hc h hd
  rw [truncDown_lossless hL] at a2
  obtain ⟨k, b1, b2, b3⟩ := closest_nearest layouts hne f1.layout
  obtain ⟨f2, c1, ⟨⟨x, y, c2⟩, c3, c4, c5⟩, c6⟩ := changeLayout_ok hs hc a2 (hin k b2)
  rw [truncDown_lossless (by rw [a3]; exact hLd)] at c2
  obtain ⟨p1, p2, p3, _⟩ := presetScales_ok E hn dealias
  refine ⟨f2, lockOperate layouts f2 ⟨presetScales E new dealias, none⟩, ?_, c2, ⟨?_, ?_, ?_, p2⟩, ?_, p1, ?_⟩
  · simp only [evalLock, a1, Option.bind_eq_bind, Option.bind_some, b1, c1]
  · have : (lockOperate layouts f2 ⟨presetScales E new dealias, none⟩).f.data = f2.data := by
      simp [lockOperate, lockToLayouts, FState.setMem, FState.data]
    rw [this, c2.data]
    show rep v f2.layout f2.scales = rep v f2.layout (presetScales E new dealias).scales
    rw [p1, c3, a3]
  · exact c2.inRange
  · show (presetScales E new dealias).scales.length = E.D
    rw [p1]; exact hd
  · show f2.layout ∈ layouts
    rw [c6]; exact b2
  · intro he j hj
    have h0 : f1 = arg := by
      have : Field.changeScales E arg dealias = some arg := by
        unfold Field.changeScales; rw [if_pos he.symm]
      rw [a1] at this; exact Option.some.inj this
    show dist f2.layout arg.layout ≤ dist j arg.layout
    rw [c6, ← h0]; exact b3 j hj

/-- **C109 (part: the operator `Lock`).** What the operator returns cannot move at all: `lock_to_layouts` is called with the list of
layouts as a single argument, and a list is never equal to a layout. Every move to another layout raises ValueError, be it one of
the layouts given or not. -/
theorem lock_output_fixed (hc : IsChain E) (dealias : List ℚ) (layouts : List Nat) (arg new arg' : FState Dat) (out : LState Dat)
    (he : evalLock E dealias layouts arg new = some (arg', out)) (hin : out.f.layout < E.lays.length)
    (k : Nat) (hk : k < E.lays.length) (hne : k ≠ out.f.layout) :
    changeLayout E out k = (out, some .value) := by
  have hal : out.allowed = some [.list layouts] := by
    simp only [evalLock, Option.bind_eq_bind, Option.bind_eq_some_iff] at he
    obtain ⟨f1, _, k', _, f2, _, e⟩ := he
    cases e; rfl
  have hn : ∀ n, ¬ Entry.layout n ∈ ([.list layouts] : List Entry) := by intro n; simp
  have hfuel : E.fuel = (E.fuel - 1) + 1 := by simp only [Env.fuel]; omega
  unfold changeLayout
  split_ifs with h1 h2
  · rw [hfuel, loop]
    have e1 : towardsGrid E out = (out, some .value) := by
      simp only [towardsGrid, hal]
      rw [if_pos (by omega), if_neg (hn _)]
    simp [h1, e1]
  · rw [hfuel, loop]
    have e1 : towardsCoeff E out = (out, some .value) := by
      simp only [towardsCoeff, hal]
      rw [if_neg (hn _)]
    simp [h2, e1]
  · omega

/-- **C109 (part: single steps down).** `towards_coeff_space`, called outside coefficient space, takes the field to the layout below
if it is locked to it and raises ValueError otherwise. Missing: coefficient space itself, see `step_below_coefficients_refuted`. -/
theorem step_down_partial (hs : Sound E rep trunc) (hc : IsChain E) (v : V) (l : LState Dat) (h : Rests E rep v l)
    (hL : Lossless trunc l.f.scales) (k : Nat) (hl : l.f.layout = k + 1) :
    (Permits l k → ∃ l', towardsCoeff E l = (l', none) ∧ Rests E rep v l' ∧ SameLock l l' ∧ l'.f.layout = k) ∧
    (¬ Permits l k → towardsCoeff E l = (l, some .value)) :=
  towardsCoeff_step hs hc h hL hl

/-! ### A concrete case: one axis, whose transform doubles the numbers -/

/-- One axis; grid data are twice the coefficients. -/
def doubleEnv : Env ℚ where
  D := 1
  lays := [⟨[true], [false]⟩, ⟨[true], [true]⟩]
  paths := [⟨.transform, 0⟩]
  up := fun _ _ d => 2 * d
  down := fun _ _ d => d / 2
  fits := fun _ => true
  junk := 0

/-- The representation: the value, doubled on the grid. -/
def doubleRep : ℚ → Nat → List ℚ → ℚ := fun v l _ => 2 ^ l * v

theorem double_chain : IsChain doubleEnv :=
  built_layouts_chain doubleEnv 1 [] (by decide) (by decide) (by decide)

theorem double_sound : Sound doubleEnv doubleRep (fun _ _ v => v) := by
  refine ⟨fun i p v s _ _ => ?_, fun i a v s x _ _ _ => ?_, fun i a v s _ hp => ?_, fun _ _ _ _ _ _ _ => rfl⟩
  · show 2 * (2 ^ i * v) = 2 ^ (i+1) * v
    ring
  · show 2 ^ (i+1) * v / 2 = 2 ^ i * v
    ring
  · cases i with
    | zero => cases hp
    | succ i => simp [doubleEnv] at hp

/-- The value 3, on the grid at scale 1. -/
def gridField : FState ℚ := ⟨fun _ => 6, 0, 1, 1, [1]⟩
/-- The value 3, as coefficients at scale 1. -/
def coeffField : FState ℚ := ⟨fun _ => 3, 0, 1, 0, [1]⟩
/-- A new field. -/
def newField : FState ℚ := ⟨fun _ => 0, 0, 1, 0, [1]⟩

theorem grid_holds : Holds doubleEnv doubleRep 3 gridField := ⟨by norm_num [FState.data, gridField, doubleRep], by decide, rfl, by decide⟩
theorem coeff_holds : Holds doubleEnv doubleRep 3 coeffField := ⟨by norm_num [FState.data, coeffField, doubleRep], by decide, rfl, by decide⟩
theorem coeff_rests : Rests doubleEnv doubleRep 3 ⟨coeffField, some [.layout 0, .layout 1]⟩ :=
  ⟨coeff_holds, _, rfl, by decide⟩
theorem double_lossless (s : List ℚ) : Lossless (fun _ _ (v : ℚ) => v) s := fun _ _ _ _ => rfl

-- A field locked to both layouts moves to the grid and is read there as coefficients.
example : ((performAll doubleEnv ⟨coeffField, some [.layout 0, .layout 1]⟩ [.changeLayout 1, .get (0, none)]).map fun r => (r.1.2, r.2))
    = [(none, none), (none, some 3)] := by decide +kernel
-- Locked to coefficient space it refuses to move.
example : ((performAll doubleEnv ⟨coeffField, some [.layout 0]⟩ [.changeLayout 1, .changeScales (.num 2), .get (0, none)]).map fun r => (r.1.2, r.2))
    = [(some .value, none), (some .value, none), (none, some 3)] := by decide +kernel
example := locked_stays double_sound double_chain 3 [.changeLayout 1, .get (0, none)] _ coeff_rests (double_lossless _)
  (by intro o ho; simp at ho; rcases ho with rfl | rfl <;> simp [LegalReq, doubleEnv])
example := locked_move_iff double_sound double_chain 3 _ coeff_rests (double_lossless _) 1 (by decide)
example := locked_requires double_sound double_chain 3 _ coeff_rests (double_lossless _) none (by simp) 0 (by decide) (Or.inl rfl)
example := locked_scales (E := doubleEnv) ⟨coeffField, none⟩ (by decide +kernel) (.num 2)
example := axis_lock_moves double_sound double_chain 3 ⟨gridField, none⟩ grid_holds (double_lossless _) 0 (by decide) (by decide)
example := unlock_same 3 ⟨gridField, none⟩ grid_holds newField (by decide)
example := lock_value_partial double_sound double_chain 3 gridField newField grid_holds (double_lossless _) [1] rfl
  (double_lossless _) [0, 1] (by decide) (by decide) (by decide)
example : closest [0, 4, 2] 3 = some 4 := by decide
example := step_down_partial double_sound double_chain 3 ⟨gridField, some [.layout 0, .layout 1]⟩
  ⟨grid_holds, _, rfl, by decide⟩ (double_lossless _) 0 rfl

/-- **C109 (refuted in general).** It is not true that the result of `Lock(u, *layouts)` moves among the layouts given: with both
layouts of a field of one axis, taking the result from the grid to coefficients raises ValueError. -/
theorem lock_moves_refuted :
    ¬ ∀ (Dat V : Type) (E : Env Dat) (rep : V → Nat → List ℚ → Dat) (trunc : Nat → ℚ → V → V) (v : V) (arg new arg' : FState Dat)
        (out : LState Dat) (dealias : List ℚ) (layouts : List Nat) (k : Nat), Sound E rep trunc → IsChain E → Holds E rep v arg →
        Lossless trunc arg.scales → Lossless trunc dealias → dealias.length = E.D → new.cur < new.fresh →
        (∀ j ∈ layouts, j < E.lays.length) → evalLock E dealias layouts arg new = some (arg', out) → k ∈ layouts →
        (∀ j, OnTheWay out.f.layout k j → j ∈ layouts) → (changeLayout E out k).2 = none := by
  intro H
  obtain ⟨arg', out, e1, e2, e3, e4, e5, e6⟩ := lock_value_partial double_sound double_chain 3 gridField newField grid_holds
    (double_lossless _) [1] rfl (double_lossless _) [0, 1] (by decide) (by decide) (by decide)
  have e7 := e6 rfl 1 (by simp)
  have hl1 : out.f.layout = 1 := by
    simp only [dist, gridField] at e7
    omega
  have h1 := H ℚ ℚ doubleEnv doubleRep (fun _ _ v => v) 3 gridField newField arg' out [1] [0, 1] 0 double_sound double_chain grid_holds
    (double_lossless _) (double_lossless _) rfl (by decide) (by decide) e1 (by simp) (fun j hj => by
      rw [hl1] at hj; unfold OnTheWay at hj; simp; omega)
  have h2 := lock_output_fixed double_chain [1] [0, 1] gridField newField arg' out e1 (by rw [hl1]; decide) 0 (by decide) (by omega)
  rw [h2] at h1
  cases h1

/-- **C109 (refuted in general).** It is not true that a locked field can never get into another layout: assigning data in a layout
the field is not locked to is not refused. -/
theorem write_escapes_refuted :
    ¬ ∀ (Dat V : Type) (E : Env Dat) (rep : V → Nat → List ℚ → Dat) (trunc : Nat → ℚ → V → V) (v : V) (l : LState Dat) (k : Key)
        (d : Dat), Sound E rep trunc → IsChain E → Rests E rep v l → k.1 < E.lays.length → (setItem E l k d).2 = none →
        Permits (setItem E l k d).1 (setItem E l k d).1.f.layout := by
  intro H
  have h := H ℚ ℚ doubleEnv doubleRep (fun _ _ v => v) 3 ⟨coeffField, some [.layout 0]⟩ (1, none) 5 double_sound double_chain
    ⟨coeff_holds, _, rfl, by decide⟩ (by decide) rfl
  obtain ⟨es, e1, e2⟩ := h
  cases e1
  revert e2
  decide

/-- **C109 (refuted in general).** It is not true that `towards_coeff_space` keeps the value of a field: in coefficient space the
layout it asks for is `layouts[-1]`, the grid. If the field is locked to both, nothing is raised, and the coefficients are
transformed as if they were grid data. -/
theorem step_below_coefficients_refuted :
    ¬ ∀ (Dat V : Type) (E : Env Dat) (rep : V → Nat → List ℚ → Dat) (trunc : Nat → ℚ → V → V) (v : V) (l : LState Dat),
        Sound E rep trunc → IsChain E → Rests E rep v l → Lossless trunc l.f.scales → (towardsCoeff E l).2 = none →
        Holds E rep v (towardsCoeff E l).1.f := by
  intro H
  have h := H ℚ ℚ doubleEnv doubleRep (fun _ _ v => v) 3 ⟨coeffField, some [.layout 0, .layout 1]⟩ double_sound double_chain
    coeff_rests (double_lossless _) (by decide +kernel)
  have hd := h.data
  have e1 : (towardsCoeff doubleEnv ⟨coeffField, some [.layout 0, .layout 1]⟩).1.f.data = 3 / 2 := by decide +kernel
  have e2 : (towardsCoeff doubleEnv ⟨coeffField, some [.layout 0, .layout 1]⟩).1.f.layout = 0 := by decide +kernel
  rw [e1, e2] at hd
  norm_num [doubleRep] at hd

end Dedalus.Locked
