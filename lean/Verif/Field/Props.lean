import Verif.Field.Lemmas
import Verif.Dist.ChainProps
import Mathlib.Algebra.Group.Basic
import Mathlib.Tactic.Linarith
import Mathlib.Tactic.Positivity
import Mathlib.Tactic.NormNum

/-!
# Properties C06, C07 and C45: field data follow layout and scale changes
-/

namespace Dedalus.Field
open Dedalus.Dist
variable {Dat V : Type} {E : Env Dat} {rep : V → Nat → List ℚ → Dat} {trunc : Nat → ℚ → V → V}

/-- The distributor's layouts form a chain in the sense used here, for every mesh (from C02). -/
theorem built_layouts_chain (E : Env Dat) (P : Nat) (mesh : List Nat)
    (hlen : (trimMesh mesh).length < E.D) (hP : (trimMesh mesh).foldl (· * ·) 1 = P)
    (hb : buildLayouts E.D P mesh = some (E.lays, E.paths)) : IsChain E := by
  obtain ⟨ls, ps, l1, h0, h1, h2, h3, h4, h5, h6, _, _, h7⟩ := layout_chain E.D P mesh hlen hP
  rw [h0] at hb
  simp only [Option.some.injEq, Prod.mk.injEq] at hb
  obtain ⟨rfl, rfl⟩ := hb
  exact ⟨by omega, ⟨_, h3, rfl⟩, ⟨l1, h4, h5⟩, h6, fun l hl => (h7 l hl).1⟩

theorem moved_lossless {v : V} {f f' : FState Dat} (h : Moved E rep trunc v f f') (hl : Lossless trunc f.scales) :
    Holds E rep v f' := by
  obtain ⟨lo, n, hh⟩ := h.holds
  rwa [truncDown_lossless hl] at hh

/-! ### C06 -/

/-- Layout requests are met: `change_layout` ends in that layout, `require_grid_space` and
`require_coeff_space` with the axis (or all axes) in that space, `require_local` with the axis local and
still in the same space, and none of them changes the scales or fails. -/
theorem layout_requests_met (hs : Sound E rep trunc) (hc : IsChain E) {v : V} {f : FState Dat} (h : Holds E rep v f) :
    (∀ l, l < E.lays.length → ∃ f', changeLayout E f l = some f' ∧ f'.layout = l ∧ f'.scales = f.scales) ∧
    (∃ f', requireGrid E f none = some f' ∧ f'.scales = f.scales ∧ ∀ a, a < E.D → gridFlag E f'.layout a = some true) ∧
    (∀ a, a < E.D → ∃ f', requireGrid E f (some a) = some f' ∧ f'.scales = f.scales ∧ gridFlag E f'.layout a = some true) ∧
    (∃ f', requireCoeff E f none = some f' ∧ f'.scales = f.scales ∧ ∀ a, a < E.D → gridFlag E f'.layout a = some false) ∧
    (∀ a, a < E.D → ∃ f', requireCoeff E f (some a) = some f' ∧ f'.scales = f.scales ∧ gridFlag E f'.layout a = some false) ∧
    (∀ a, a < E.D → ∃ f', requireLocal E f a = some f' ∧ f'.scales = f.scales ∧ locFlag E f'.layout a = some true ∧
      gridFlag E f'.layout a = gridFlag E f.layout a) := by
  refine ⟨fun l hl => ?_, ?_, fun a ha => ?_, ?_, fun a ha => ?_, fun a ha => ?_⟩
  · obtain ⟨f', q1, q2, q3⟩ := changeLayout_ok hs hc h hl
    exact ⟨f', q1, q3, q2.scales⟩
  · obtain ⟨f', q1, _, q3, _, _, q6⟩ := requireGrid_ok hs hc h none (fun a ha => by cases ha)
    exact ⟨f', q1, q3, fun a ha => q6 a ha (Or.inl rfl)⟩
  · obtain ⟨f', q1, _, q3, _, _, q6⟩ := requireGrid_ok hs hc h (some a) (fun b hb => by cases hb; exact ha)
    exact ⟨f', q1, q3, q6 a ha (Or.inr rfl)⟩
  · obtain ⟨f', q1, q2, _, _, q6⟩ := requireCoeff_ok hs hc h none (fun a ha => by cases ha)
    exact ⟨f', q1, q2.scales, fun a ha => q6 a ha (Or.inl rfl)⟩
  · obtain ⟨f', q1, q2, _, _, q6⟩ := requireCoeff_ok hs hc h (some a) (fun b hb => by cases hb; exact ha)
    exact ⟨f', q1, q2.scales, q6 a ha (Or.inr rfl)⟩
  · obtain ⟨f', q1, q2, q3, q4⟩ := requireLocal_ok hs hc h ha
    exact ⟨f', q1, q2.scales, q3, q4⟩

theorem ok_of_key {D : Nat} {s : List ℚ} (hs : OKScales D trunc s) (k : Option ScaleArg)
    (hk : ∀ a, k = some a → OKScales D trunc (scalesMeant D [] (some a))) : OKScales D trunc (scalesMeant D s k) := by
  cases k with
  | none => exact hs
  | some a =>
    have := hk a rfl
    cases a <;> exact this

/-- `change_scales` with a legal argument, at legal current scales. -/
theorem changeScales_value (hs : Sound E rep trunc) (hc : IsChain E) {v : V} {f : FState Dat} (h : Holds E rep v f)
    (hsc : OKScales E.D trunc f.scales) {a : ScaleArg} (ha : OKScales E.D trunc (scalesMeant E.D [] (some a))) :
    ∃ f', (remedy E.D a).bind (changeScales E f) = some f' ∧ Holds E rep v f' ∧
      f'.scales = scalesMeant E.D f.scales (some a) := by
  have he : scalesMeant E.D [] (some a) = scalesMeant E.D f.scales (some a) := by cases a <;> rfl
  rw [he] at ha
  obtain ⟨f', lo, q1, q2, q3, _⟩ := changeScales_ok hs hc h ha.1
  rw [truncDown_lossless hsc.2.2] at q2
  refine ⟨f', ?_, q2, q3⟩
  rw [remedy_ok ha.2.1]; exact q1

/-- State in which a write stores its data. -/
def writeState (E : Env Dat) (f : FState Dat) : Option ScaleArg → FState Dat
  | none => f
  | some a => presetScales E f (scalesMeant E.D f.scales (some a))

/-- **C06.** Whatever sequence of reads, writes, scale changes and layout requests the user makes (legal
layouts and axes, scales that resolve the field), nothing fails, every read returns the representation, in
the layout and scales asked for, of the last value written, and the field ends holding that value at the
last scales requested. -/
theorem field_history (hs : Sound E rep trunc) (hc : IsChain E) : ∀ (ops : List (UOp V)) (v : V) (f : FState Dat),
    Holds E rep v f → OKScales E.D trunc f.scales → (∀ o ∈ ops, Legal E trunc o) →
    ∃ f', performAll E f (concrete rep E.D f.scales ops) = some (f', (specRun rep E.D v f.scales ops).2.2) ∧
      Holds E rep (specRun rep E.D v f.scales ops).1 f' ∧ f'.scales = (specRun rep E.D v f.scales ops).2.1 := by
  intro ops
  induction ops with
  | nil => intro v f h _ _; exact ⟨f, rfl, h, rfl⟩
  | cons o os ih =>
    intro v f h hsc hleg
    have hos : ∀ o ∈ os, Legal E trunc o := fun o ho => hleg o (by simp [ho])
    have ho := hleg o (by simp)
    -- a step that keeps the value and scales
    have keep : ∀ (op : Op Dat) (f' : FState Dat), perform E f op = some (f', none) → Moved E rep trunc v f f' →
        ∃ f'', performAll E f (op :: concrete rep E.D f.scales os) =
            some (f'', none :: (specRun rep E.D v f.scales os).2.2) ∧
          Holds E rep (specRun rep E.D v f.scales os).1 f'' ∧ f''.scales = (specRun rep E.D v f.scales os).2.1 := by
      intro op f' hp hm
      obtain ⟨f'', e1, e2, e3⟩ := ih v f' (moved_lossless hm hsc.2.2) (by rw [hm.scales]; exact hsc) hos
      rw [hm.scales] at e1 e2 e3
      refine ⟨f'', ?_, e2, e3⟩
      simp only [performAll, hp, Option.bind_eq_bind, Option.bind_some, e1]
    cases o with
    | get k =>
      obtain ⟨l, sa⟩ := k
      simp only [Legal] at ho
      have hok := ok_of_key hsc sa ho.2
      have : ∃ g, (match sa with | none => some f | some a => (remedy E.D a).bind (changeScales E f)) = some g ∧
          Holds E rep v g ∧ g.scales = scalesMeant E.D f.scales sa := by
        cases sa with
        | none => exact ⟨f, rfl, h, rfl⟩
        | some a => exact changeScales_value hs hc h hsc (ho.2 a rfl)
      obtain ⟨g, g1, g2, g3⟩ := this
      obtain ⟨f', q1, q2, q3⟩ := changeLayout_ok hs hc g2 ho.1
      have hh := moved_lossless q2 (by rw [g3]; exact hok.2.2)
      have hf's : f'.scales = scalesMeant E.D f.scales sa := by rw [q2.scales, g3]
      obtain ⟨f'', e1, e2, e3⟩ := ih v f' hh (by rw [hf's]; exact hok) hos
      rw [hf's] at e1 e2 e3
      refine ⟨f'', ?_, e2, e3⟩
      have hget : getItem E f (l, sa) = some (f', f'.data) := by
        unfold getItem
        cases sa with
        | none =>
          simp only at g1
          simp only [Option.bind_eq_bind, Option.bind_some]
          cases g1
          rw [q1]; rfl
        | some a =>
          simp only at g1
          simp only [Option.bind_eq_bind, g1, Option.bind_some, q1]
      have hdat := hh.data
      rw [q3, hf's] at hdat
      simp only [concrete, performAll, perform, hget, Option.map_some, Option.bind_eq_bind, Option.bind_some, e1,
        specRun, hdat]
    | write k w =>
      obtain ⟨l, sa⟩ := k
      simp only [Legal] at ho
      have hok := ok_of_key hsc sa ho.2
      let g : FState Dat := writeState E f sa
      have hg : g.scales = scalesMeant E.D f.scales sa ∧ g.cur < g.fresh := by
        cases sa with
        | none => exact ⟨rfl, h.cur⟩
        | some a => exact ⟨(presetScales_ok E h.cur _).1, (presetScales_ok E h.cur _).2.1⟩
      have hset : setItem E f (l, sa) (rep w l (scalesMeant E.D f.scales sa)) =
          some ((presetLayout g l).setMem g.cur (rep w l (scalesMeant E.D f.scales sa))) := by
        unfold setItem
        cases sa with
        | none => rfl
        | some a =>
          simp only [remedy_ok hok.2.1]; rfl
      have hh : Holds E rep w ((presetLayout g l).setMem g.cur (rep w l (scalesMeant E.D f.scales sa))) := by
        refine ⟨?_, ho.1, ?_, hg.2⟩
        · simp [FState.data, FState.setMem, presetLayout, hg.1]
        · simp [FState.setMem, presetLayout, hg.1, hok.1]
      have hsc' : ((presetLayout g l).setMem g.cur (rep w l (scalesMeant E.D f.scales sa))).scales =
          scalesMeant E.D f.scales sa := hg.1
      obtain ⟨f'', e1, e2, e3⟩ := ih w _ hh (by rw [hsc']; exact hok) hos
      rw [hsc'] at e1 e2 e3
      refine ⟨f'', ?_, e2, e3⟩
      simp only [concrete, performAll, perform, hset, Option.map_some, Option.bind_eq_bind, Option.bind_some, e1, specRun]
    | changeScales a =>
      simp only [Legal] at ho
      obtain ⟨f', q1, q2, q3⟩ := changeScales_value hs hc h hsc ho
      have hok := ok_of_key hsc (some a) (fun b hb => by cases hb; exact ho)
      obtain ⟨f'', e1, e2, e3⟩ := ih v f' q2 (by rw [q3]; exact hok) hos
      rw [q3] at e1 e2 e3
      refine ⟨f'', ?_, e2, e3⟩
      simp only [concrete, performAll, perform, q1, Option.map_some, Option.bind_eq_bind, Option.bind_some, e1, specRun]
    | changeLayout l =>
      obtain ⟨f', q1, q2, _⟩ := changeLayout_ok hs hc h ho
      exact keep (.changeLayout l) f' (by simp [perform, q1]) q2
    | requireGrid a =>
      obtain ⟨f', q1, q2, q3, q4, q5, _⟩ := requireGrid_ok hs hc h a ho
      exact keep (.requireGrid a) f' (by simp [perform, q1]) ⟨⟨0, 0, q2⟩, q3, q4, q5⟩
    | requireCoeff a =>
      obtain ⟨f', q1, q2, _⟩ := requireCoeff_ok hs hc h a ho
      exact keep (.requireCoeff a) f' (by simp [perform, q1]) q2
    | requireLocal a =>
      obtain ⟨f', q1, q2, _⟩ := requireLocal_ok hs hc h ho
      exact keep (.requireLocal a) f' (by simp [perform, q1]) q2

/-- At scales that lose modes a scale change loses nothing but modes the *old* grid cannot hold: the
value is truncated, at the old scales, only along axes that had to be transformed. In particular
a field in coefficient space loses nothing whatever the new scales are. -/
theorem changeScales_from_coeff (hs : Sound E rep trunc) (hc : IsChain E) {v : V} {f : FState Dat} (h : Holds E rep v f)
    (h0 : f.layout = 0) {new : List ℚ} (hn : new.length = E.D) :
    ∃ f', changeScales E f new = some f' ∧ Holds E rep v f' ∧ f'.scales = new ∧ f'.layout = 0 := by
  obtain ⟨f', lo, q1, q2, q3, q4, q5, _⟩ := changeScales_ok hs hc h hn
  have : lo = 0 := by omega
  subst this
  rw [h0] at q2
  exact ⟨f', q1, by simpa [truncDown] using q2, q3, q4⟩

/-! ### C45 -/

/-- **C45, low pass.** Whatever the layout of the field, `low_pass_filter` removes exactly the modes the grid at the
filter scales cannot hold, along all axes, and leaves the field at its original scales. -/
theorem low_pass_truncates (hs : Sound E rep trunc) (hc : IsChain E) {v : V} {f : FState Dat} (h : Holds E rep v f)
    (hsc : OKScales E.D trunc f.scales) {s : List ℚ} (hn : s.length = E.D) :
    ∃ f', lowPass E f s = some f' ∧ Holds E rep (truncAll E.D trunc s v) f' ∧ f'.scales = f.scales := by
  obtain ⟨f1, lo1, a1, a2, a3, _⟩ := changeScales_ok hs hc h hn
  rw [truncDown_lossless hsc.2.2] at a2
  obtain ⟨f2, b1, b2, b3, b4, b5, b6⟩ := requireGrid_ok hs hc a2 none (fun a ha => by cases ha)
  obtain ⟨f3, lo, c1, c2, c3, c4, c5, c6, _⟩ := changeScales_ok hs hc b2 hsc.1
  have hf2 : f2.scales = s := by rw [b3, a3]
  refine ⟨f3, ?_, ?_, c3⟩
  · simp only [lowPass, a1, b1, Option.bind_eq_bind, Option.bind_some]; exact c1
  · obtain ⟨m2, hm2⟩ := level_exists hc f2.layout b2.inRange
    have hlo : lo < E.lays.length := by have := b2.inRange; omega
    obtain ⟨m, hm⟩ := level_exists hc lo hlo
    -- from the layout reached to the last one nothing is left to transform
    have htop : truncDown E trunc s lo (f2.layout - lo) v = truncAll m trunc s v := by
      have hz : m2 = 0 := by
        by_contra hne
        have hD : 0 < E.D := by have := hm2.le; omega
        have h1 := b6 0 hD (Or.inl rfl)
        rw [hm2.flag 0 hD] at h1
        simp at h1; omega
      subst hz
      -- same induction as for the last layout, starting at any layout fully in grid space
      have key : ∀ n lo v m, Level E lo m → lo + n = f2.layout → truncDown E trunc s lo n v = truncAll m trunc s v := by
        intro n
        induction n with
        | zero =>
          intro lo v m hm he
          have he : lo = f2.layout := by omega
          subst he
          have e := hm.unique hm2
          subst e
          simp [truncDown, truncAll]
        | succ n ih =>
          intro lo v m hm he
          have := b2.inRange
          have hpi : lo < E.paths.length := by have := hc.length; omega
          obtain ⟨m', hm'⟩ := level_exists hc (lo+1) (by omega)
          rw [truncDown_bottom s lo n v E.paths[lo] (by have := hc.length; omega) (List.getElem?_eq_getElem hpi),
            ih (lo+1) v m' hm' (by omega)]
          have hl := level_succ hc hm (List.getElem?_eq_getElem hpi)
          cases hk : E.paths[lo].kind with
          | transpose =>
            have := hm'.unique (hl.2 hk)
            subst this
            simp [truncPath, hk]
          | transform =>
            have h1 := hl.1 hk
            have := hm'.unique h1.2
            subst this
            rw [h1.1]
            simp only [truncPath, hk, truncAll, List.range_succ, List.foldl_append, List.foldl_cons, List.foldl_nil]
            all_goals (cases s[E.paths[lo].axis]? <;> rfl)
      exact key _ lo v m hm (by omega)
    rw [hf2, htop] at c2
    have hext : truncAll E.D trunc s v = truncAll m trunc s v := by
      apply truncAll_extend hsc.2.2 hm.le
      intro a h1 h2
      have := c6 a (by rw [hm.flag a h2]; simpa using h1)
      rw [hf2] at this; exact this
    rw [hext]; exact c2

/-- **C45, high pass.** `high_pass_filter` leaves exactly what the low-pass filter at the same scales would
remove. (Differences of coefficient data represent differences of values.) -/
theorem high_pass_complement [AddCommGroup V] (hs : Sound E rep trunc) (hc : IsChain E) (sub : Dat → Dat → Dat)
    (hsub : ∀ v w s, sub (rep v 0 s) (rep w 0 s) = rep (v - w) 0 s)
    {v : V} {f : FState Dat} (h : Holds E rep v f)
    (hsc : OKScales E.D trunc f.scales) {s : List ℚ} (hn : s.length = E.D) :
    ∃ f', highPass E sub f s = some f' ∧ Holds E rep (v - truncAll E.D trunc s v) f' ∧ f'.scales = f.scales := by
  have hpos : 0 < E.lays.length := by have := h.inRange; omega
  obtain ⟨f1, a1, a2, a3⟩ := changeLayout_ok hs hc h hpos
  have hh1 := moved_lossless a2 hsc.2.2
  obtain ⟨f2, b1, b2, b3⟩ := low_pass_truncates hs hc hh1 (by rw [a2.scales]; exact hsc) hn
  obtain ⟨f3, c1, c2, c3⟩ := changeLayout_ok hs hc b2 hpos
  have hf3 : f3.scales = f.scales := by rw [c2.scales, b3, a2.scales]
  have hh3 := moved_lossless c2 (by rw [b3, a2.scales]; exact hsc.2.2)
  have hd1 := hh1.data
  rw [a3, a2.scales] at hd1
  have hd3 := hh3.data
  rw [c3, hf3] at hd3
  refine ⟨(presetLayout f3 0).setMem f3.cur (sub f1.data f3.data), ?_, ⟨?_, hpos, ?_, hh3.cur⟩, hf3⟩
  · simp only [highPass, getItem, a1, b1, c1, Option.bind_eq_bind, Option.bind_some, setItem]
    rfl
  · simp only [FState.data, FState.setMem, presetLayout, Function.update_self]
    have e1 : f1.mem f1.cur = rep v 0 f.scales := hd1
    have e3 : f3.mem f3.cur = rep (truncAll E.D trunc s v) 0 f.scales := hd3
    rw [e1, e3, hsub, hf3]
  · simp only [FState.setMem, presetLayout]; rw [hf3]; exact hsc.1

/-- A second low-pass filter at the same scales changes nothing. -/
theorem low_pass_idempotent (hid : ∀ a x v, trunc a x (trunc a x v) = trunc a x v)
    (hcomm : ∀ a b x y v, trunc a x (trunc b y v) = trunc b y (trunc a x v)) (D : Nat) (s : List ℚ) (v : V) :
    truncAll D trunc s (truncAll D trunc s v) = truncAll D trunc s v := by
  have hone : ∀ k v, truncAll (k+1) trunc s v =
      (match s[k]? with | some x => trunc k x (truncAll k trunc s v) | none => truncAll k trunc s v) := by
    intro k v
    simp only [truncAll, List.range_succ, List.foldl_append, List.foldl_cons, List.foldl_nil]
    all_goals (cases s[k]? <;> rfl)
  have hpush : ∀ k a x v, truncAll k trunc s (trunc a x v) = trunc a x (truncAll k trunc s v) := by
    intro k
    induction k with
    | zero => intro a x v; rfl
    | succ k ih =>
      intro a x v
      rw [hone, hone, ih]
      cases s[k]? with
      | none => rfl
      | some y => exact hcomm k a y x _
  induction D with
  | zero => rfl
  | succ k ih =>
    rw [hone, hone]
    cases s[k]? with
    | none => exact ih
    | some x => simp only; rw [hpush, hid, ih]

/-- **C45, projections.** Filtering twice is filtering once, for both filters (truncations are linear,
idempotent and commute). -/
theorem filters_twice [AddCommGroup V] (hs : Sound E rep trunc) (hc : IsChain E) (sub : Dat → Dat → Dat)
    (hsub : ∀ v w s, sub (rep v 0 s) (rep w 0 s) = rep (v - w) 0 s)
    (hid : ∀ a x v, trunc a x (trunc a x v) = trunc a x v)
    (hcomm : ∀ a b x y v, trunc a x (trunc b y v) = trunc b y (trunc a x v))
    (hadd : ∀ a x v w, trunc a x (v - w) = trunc a x v - trunc a x w)
    {v : V} {f : FState Dat} (h : Holds E rep v f)
    (hsc : OKScales E.D trunc f.scales) {s : List ℚ} (hn : s.length = E.D) :
    (∃ f1 f2 w, lowPass E f s = some f1 ∧ lowPass E f1 s = some f2 ∧ Holds E rep w f1 ∧ Holds E rep w f2) ∧
    (∃ f1 f2 w, highPass E sub f s = some f1 ∧ highPass E sub f1 s = some f2 ∧ Holds E rep w f1 ∧ Holds E rep w f2) := by
  have hT : ∀ D v w, truncAll D trunc s (v - w) = truncAll D trunc s v - truncAll D trunc s w := by
    intro D
    induction D with
    | zero => intro v w; rfl
    | succ k ih =>
      intro v w
      simp only [truncAll, List.range_succ, List.foldl_append, List.foldl_cons, List.foldl_nil] at ih ⊢
      rw [ih]
      cases s[k]? with
      | none => rfl
      | some x => exact hadd _ _ _ _
  constructor
  · obtain ⟨f1, a1, a2, a3⟩ := low_pass_truncates hs hc h hsc hn
    obtain ⟨f2, b1, b2, b3⟩ := low_pass_truncates hs hc a2 (by rw [a3]; exact hsc) hn
    rw [low_pass_idempotent hid hcomm] at b2
    exact ⟨f1, f2, _, a1, b1, a2, b2⟩
  · obtain ⟨f1, a1, a2, a3⟩ := high_pass_complement hs hc sub hsub h hsc hn
    obtain ⟨f2, b1, b2, b3⟩ := high_pass_complement hs hc sub hsub a2 (by rw [a3]; exact hsc) hn
    rw [hT, low_pass_idempotent hid hcomm, sub_self, sub_zero] at b2
    exact ⟨f1, f2, _, a1, b1, a2, b2⟩

/-! ### A concrete environment, for any distributor

Values are arrays of coefficients; the grid at scale `x` along an axis holds the modes below `N x`. -/

namespace Demo

/-- Multi-indices below `N` to values. -/
abbrev Val (N : Nat) := (Nat → Fin N) → ℚ
/-- Keep the modes below `N x` along an axis. -/
def cut (N : Nat) (a : Nat) (x : ℚ) (v : Val N) : Val N := fun k => if ((k a : Nat) : ℚ) < N * x then v k else 0
/-- Coefficients that the layout's grid axes can hold. -/
def env (N : Nat) (D : Nat) (lays : List Lay) (paths : List Path) (fits : List ℚ → Bool) : Env (Val N) where
  D := D
  lays := lays
  paths := paths
  up := fun p s d => match p.kind with
    | .transform => (match s[p.axis]? with | some x => cut N p.axis x d | none => d)
    | .transpose => d
  down := fun _ _ d => d
  fits := fits
  junk := fun _ => 0
/-- The mode is held by every axis that is in grid space. -/
def Resolved {N : Nat} (E : Env (Val N)) (i : Nat) (s : List ℚ) (k : Nat → Fin N) : Prop :=
  ∀ a x, gridFlag E i a = some true → s[a]? = some x → ((k a : Nat) : ℚ) < N * x
open Classical in
/-- Representation: modes that the axes in grid space can hold. -/
noncomputable def repr {N : Nat} (E : Env (Val N)) (v : Val N) (i : Nat) (s : List ℚ) : Val N :=
  fun k => if Resolved E i s k then v k else 0

theorem sound (N : Nat) (D : Nat) (lays : List Lay) (paths : List Path) (fits : List ℚ → Bool)
    (hc : IsChain (env N D lays paths fits)) :
    Sound (env N D lays paths fits) (repr (env N D lays paths fits)) (cut N) := by
  have hgrid : ∀ i p, paths[i]? = some p → ∀ a, gridFlag (env N D lays paths fits) (i+1) a = some true ↔
      (gridFlag (env N D lays paths fits) i a = some true ∨ (p.kind = .transform ∧ a = p.axis)) := by
    intro i p hp a
    have hi : i < paths.length := by
      by_contra hh
      rw [List.getElem?_eq_none (by omega)] at hp; cases hp
    have hll : lays.length = paths.length + 1 := hc.length
    obtain ⟨m, hm⟩ := level_exists hc i (by show i < lays.length; omega)
    have hls := level_succ hc hm hp
    by_cases ha : a < D
    · rw [hm.flag a ha]
      cases hk : p.kind with
      | transform =>
        have h1 := hls.1 hk
        rw [h1.2.flag a ha]; simp; omega
      | transpose =>
        rw [(hls.2 hk).flag a ha]; simp
    · have hDa : (env N D lays paths fits).D ≤ a := by show D ≤ a; omega
      have o1 := hm.out (by show i < lays.length; omega) a hDa
      cases hk : p.kind with
      | transform =>
        have h1 := hls.1 hk
        rw [o1, h1.2.out (by show i+1 < lays.length; omega) a hDa]
        have h2 : m ≤ D := hm.le
        simp; omega
      | transpose =>
        rw [o1, (hls.2 hk).out (by show i+1 < lays.length; omega) a hDa]; simp
  have htp : ∀ i a s k, paths[i]? = some ⟨.transpose, a⟩ →
      (Resolved (env N D lays paths fits) (i+1) s k ↔ Resolved (env N D lays paths fits) i s k) := by
    intro i a s k hp
    simp only [Resolved, hgrid i _ hp]; simp
  have htf : ∀ i a s k y, paths[i]? = some ⟨.transform, a⟩ → s[a]? = some y →
      (Resolved (env N D lays paths fits) (i+1) s k ↔
        (Resolved (env N D lays paths fits) i s k ∧ ((k a : Nat) : ℚ) < N * y)) := by
    intro i a s k y hp hy
    simp only [Resolved, hgrid i _ hp]
    constructor
    · intro h
      exact ⟨fun b x h1 h2 => h b x (Or.inl h1) h2, h a y (Or.inr ⟨trivial, rfl⟩) hy⟩
    · rintro ⟨h1, h2⟩ b x (h3 | ⟨_, h3⟩) h4
      · exact h1 b x h3 h4
      · subst h3; rw [hy] at h4; cases h4; exact h2
  have hax : ∀ (i a : Nat) (s : List ℚ), paths[i]? = some (⟨.transform, a⟩ : Path) → s.length = D → ∃ y, s[a]? = some y := by
    intro i a s hp hlen
    have hi : i < paths.length := by
      by_contra hh
      rw [List.getElem?_eq_none (by omega)] at hp; cases hp
    have hll : lays.length = paths.length + 1 := hc.length
    obtain ⟨m, hm⟩ := level_exists hc i (by show i < lays.length; omega)
    have h1 := ((level_succ hc hm hp).1 rfl).1
    have h2 : m ≤ D := hm.le
    simp only at h1
    exact ⟨_, List.getElem?_eq_getElem (by omega)⟩
  refine ⟨?_, ?_, ?_, ?_⟩
  · intro i p v s hlen hp
    funext k
    obtain ⟨kd, ax⟩ := p
    cases kd with
    | transpose =>
      show repr (env N D lays paths fits) v i s k = repr (env N D lays paths fits) v (i+1) s k
      unfold repr
      by_cases h : Resolved (env N D lays paths fits) i s k
      · rw [if_pos h, if_pos ((htp i ax s k hp).2 h)]
      · rw [if_neg h, if_neg (fun h' => h ((htp i ax s k hp).1 h'))]
    | transform =>
      obtain ⟨y, hy⟩ := hax i ax s hp hlen
      have e1 : (env N D lays paths fits).up ⟨.transform, ax⟩ s (repr (env N D lays paths fits) v i s) k =
          cut N ax y (repr (env N D lays paths fits) v i s) k := by
        simp only [env, hy]
      rw [e1]
      unfold cut repr
      have hiff := htf i ax s k y hp hy
      by_cases h : Resolved (env N D lays paths fits) i s k
      · by_cases h2 : ((k ax : Nat) : ℚ) < N * y
        · rw [if_pos h2, if_pos h, if_pos (hiff.2 ⟨h, h2⟩)]
        · rw [if_neg h2, if_neg (fun h' => h2 (hiff.1 h').2)]
      · rw [if_neg h, if_neg (fun h' => h (hiff.1 h').1)]; simp
  · intro i a v s x hlen hp hx
    funext k
    show repr (env N D lays paths fits) v (i+1) s k = repr (env N D lays paths fits) (cut N a x v) i s k
    unfold repr cut
    have hiff := htf i a s k x hp hx
    by_cases h : Resolved (env N D lays paths fits) i s k
    · by_cases h2 : ((k a : Nat) : ℚ) < N * x
      · rw [if_pos h2, if_pos h, if_pos (hiff.2 ⟨h, h2⟩)]
      · rw [if_pos h, if_neg h2, if_neg (fun h' => h2 (hiff.1 h').2)]
    · rw [if_neg h, if_neg (fun h' => h (hiff.1 h').1)]
  · intro i a v s hlen hp
    funext k
    show repr (env N D lays paths fits) v (i+1) s k = repr (env N D lays paths fits) v i s k
    unfold repr
    by_cases h : Resolved (env N D lays paths fits) i s k
    · rw [if_pos h, if_pos ((htp i a s k hp).2 h)]
    · rw [if_neg h, if_neg (fun h' => h ((htp i a s k hp).1 h'))]
  · intro v i s s' h1 h2 h3
    funext k
    have : Resolved (env N D lays paths fits) i s k ↔ Resolved (env N D lays paths fits) i s' k := by
      constructor
      · intro h a x q1 q2; exact h a x q1 (by rw [h3 a q1]; exact q2)
      · intro h a x q1 q2; exact h a x q1 (by rw [← h3 a q1]; exact q2)
    unfold repr
    by_cases h : Resolved (env N D lays paths fits) i s k
    · rw [if_pos h, if_pos (this.1 h)]
    · rw [if_neg h, if_neg (fun h' => h (this.2 h'))]

/-- Scales of at least one lose nothing. -/
theorem lossless (N : Nat) (s : List ℚ) (h : ∀ x ∈ s, 1 ≤ x) : Lossless (cut N) s := by
  intro a x v hx
  have h1 := h x (List.mem_of_getElem? hx)
  funext k
  unfold cut
  rw [if_pos]
  have h2 : ((k a : Nat) : ℚ) < N := by exact_mod_cast (k a).isLt
  have h3 : (N : ℚ) * 1 ≤ N * x := mul_le_mul_of_nonneg_left h1 (by positivity)
  linarith

end Demo

/-- The hypotheses hold together: two axes over a mesh of 3 processes, 4 modes per axis, a field at
scales (3/2, 1) with a nonzero value, in the second layout. -/
example : ∃ (E : Env (Demo.Val 4)) (rep : Demo.Val 4 → Nat → List ℚ → Demo.Val 4) (f : FState (Demo.Val 4)),
    IsChain E ∧ Sound E rep (Demo.cut 4) ∧ E.D = 2 ∧ E.lays.length = 4 ∧ Holds E rep (fun k => (k 0 : Nat) + 1) f ∧
    f.layout = 2 ∧ OKScales E.D (Demo.cut 4) f.scales := by
  obtain ⟨ls, ps, l1, h0, h1, _⟩ := layout_chain 2 3 [3] (by decide) (by decide)
  have hc : IsChain (Demo.env 4 2 ls ps fun _ => true) := built_layouts_chain _ 3 [3] (by simp [Demo.env]; decide) (by decide) h0
  refine ⟨_, _, ⟨fun _ => Demo.repr (Demo.env 4 2 ls ps fun _ => true) (fun k => (k 0 : Nat) + 1) 2 [3/2, 1], 0, 1, 2, [3/2, 1]⟩,
    hc, Demo.sound 4 2 ls ps _ hc, rfl, h1, ⟨rfl, ?_, rfl, Nat.zero_lt_one⟩, rfl, rfl, by norm_num, ?_⟩
  · show 2 < ls.length
    rw [h1]; decide
  · apply Demo.lossless
    intro x hx
    simp at hx
    rcases hx with rfl | rfl <;> norm_num

/-! ### C07 -/

/-- A state in the dealias buffer. -/
def InBuf (f : FState Dat) : Prop := f.cur = 0

theorem loop_cur {cond : FState Dat → Bool} {step : FState Dat → Option (FState Dat)}
    (hst : ∀ g g', step g = some g' → g'.cur = g.cur) : ∀ n f f', whileLoop cond step n f = some f' → f'.cur = f.cur := by
  intro n
  induction n with
  | zero =>
    intro f f' h
    simp only [whileLoop] at h
    split_ifs at h
    cases h; rfl
  | succ n ih =>
    intro f f' h
    simp only [whileLoop] at h
    split_ifs at h
    · obtain ⟨g, h1, h2⟩ := Option.bind_eq_some_iff.1 h
      rw [ih _ _ h2, hst _ _ h1]
    · cases h; rfl

theorem towardsGrid_cur (g g' : FState Dat) (h : towardsGrid E g = some g') : g'.cur = g.cur := by
  unfold towardsGrid at h
  split at h
  · cases h; rfl
  · cases h

theorem towardsCoeff_cur (g g' : FState Dat) (h : towardsCoeff E g = some g') : g'.cur = g.cur := by
  unfold towardsCoeff at h
  split at h
  · cases h
  · split at h
    · cases h; rfl
    · cases h

theorem changeLayout_cur {f f' : FState Dat} {l : Nat} (h : changeLayout E f l = some f') : f'.cur = f.cur := by
  unfold changeLayout at h
  split_ifs at h
  · exact loop_cur towardsGrid_cur _ _ _ h
  · exact loop_cur towardsCoeff_cur _ _ _ h
  · cases h; rfl

theorem requireGrid_cur {f f' : FState Dat} {a : Option Nat} (h : requireGrid E f a = some f') : f'.cur = f.cur := by
  unfold requireGrid at h
  cases a <;> exact loop_cur towardsGrid_cur _ _ _ h

theorem requireCoeff_cur {f f' : FState Dat} {a : Option Nat} (h : requireCoeff E f a = some f') : f'.cur = f.cur := by
  unfold requireCoeff at h
  cases a <;> exact loop_cur towardsCoeff_cur _ _ _ h

theorem requireLocal_cur {f f' : FState Dat} {a : Nat} (h : requireLocal E f a = some f') : f'.cur = f.cur := by
  unfold requireLocal at h
  split_ifs at h
  · exact loop_cur towardsCoeff_cur _ _ _ h
  · exact loop_cur towardsGrid_cur _ _ _ h

theorem matchScales_cur {f : FState Dat} {new : List ℚ} : ∀ n f', matchScales E f new n = some f' → f'.cur = f.cur := by
  intro n
  induction n with
  | zero => intro f' h; cases h; rfl
  | succ n ih =>
    intro f' h
    unfold matchScales at h
    split_ifs at h
    · cases h; rfl
    · exact requireCoeff_cur h
    · exact ih _ h

theorem changeScales_cur {f f' : FState Dat} {new : List ℚ} (hf : E.fits new = true) (hc : f.cur = 0)
    (h : changeScales E f new = some f') : f'.cur = 0 := by
  unfold changeScales at h
  split_ifs at h
  · cases h; exact hc
  · simp only [Option.bind_eq_bind] at h
    obtain ⟨g, h1, h2⟩ := Option.bind_eq_some_iff.1 h
    cases h2
    have hg := matchScales_cur _ _ h1
    simp only [presetScales, hf, if_true]
    split_ifs
    · simp only [FState.setMem]; omega
    · rfl

theorem remedy_eq {D : Nat} {a : ScaleArg} {s : List ℚ} (h : remedy D a = some s) : s = scalesMeant D [] (some a) := by
  unfold remedy at h
  cases a <;> (simp only at h; split_ifs at h; cases h; rfl)

theorem perform_cur {f f' : FState Dat} {s : List ℚ} {o : UOp V} {r : Option Dat} (hc : f.cur = 0) (ho : FitsOp E o)
    {op : Op Dat} (hop : op ∈ concrete rep E.D s [o]) (h : perform E f op = some (f', r)) : f'.cur = 0 := by
  have hrs : ∀ a g, E.fits (scalesMeant E.D [] (some a)) = true → (remedy E.D a).bind (changeScales E f) = some g → g.cur = 0 := by
    intro a g hfit hb
    obtain ⟨s', e1, e2⟩ := Option.bind_eq_some_iff.1 hb
    rw [← remedy_eq e1] at hfit
    exact changeScales_cur hfit hc e2
  cases o with
  | get k =>
    simp only [concrete, List.mem_singleton] at hop
    subst hop
    simp only [perform, Option.map_eq_some_iff, Prod.mk.injEq, Prod.exists] at h
    obtain ⟨g, d, h1, rfl, _⟩ := h
    obtain ⟨l, sa⟩ := k
    unfold getItem at h1
    cases sa with
    | none =>
      simp only [Option.bind_eq_bind, Option.bind_some] at h1
      obtain ⟨q, e1, e2⟩ := Option.bind_eq_some_iff.1 h1
      cases e2
      rw [changeLayout_cur e1, hc]
    | some a =>
      simp only [Option.bind_eq_bind] at h1
      obtain ⟨q0, e0, e00⟩ := Option.bind_eq_some_iff.1 h1
      obtain ⟨q, e1, e2⟩ := Option.bind_eq_some_iff.1 e00
      cases e2
      rw [changeLayout_cur e1, hrs a q0 (ho a rfl) e0]
  | write k w =>
    simp only [concrete, List.mem_singleton] at hop
    subst hop
    simp only [perform, Option.map_eq_some_iff, Prod.mk.injEq] at h
    obtain ⟨g, h1, rfl, _⟩ := h
    obtain ⟨l, sa⟩ := k
    unfold setItem at h1
    cases sa with
    | none =>
      simp only [Option.bind_eq_bind, Option.bind_some, Option.some.injEq] at h1
      subst h1
      exact hc
    | some a =>
      simp only [Option.bind_eq_bind] at h1
      obtain ⟨q0, e0, e00⟩ := Option.bind_eq_some_iff.1 h1
      cases e00
      obtain ⟨s', e1, rfl⟩ := Option.map_eq_some_iff.1 e0
      have hfit := ho a rfl
      rw [← remedy_eq e1] at hfit
      simp only [presetScales, hfit, if_true]
      split_ifs
      · exact hc
      · rfl
  | changeScales a =>
    simp only [concrete, List.mem_singleton] at hop
    subst hop
    simp only [perform, Option.map_eq_some_iff, Prod.mk.injEq] at h
    obtain ⟨g, h1, rfl, _⟩ := h
    exact hrs a g ho h1
  | changeLayout l =>
    simp only [concrete, List.mem_singleton] at hop
    subst hop
    simp only [perform, Option.map_eq_some_iff, Prod.mk.injEq] at h
    obtain ⟨g, h1, rfl, _⟩ := h
    rw [changeLayout_cur h1, hc]
  | requireGrid a =>
    simp only [concrete, List.mem_singleton] at hop
    subst hop
    simp only [perform, Option.map_eq_some_iff, Prod.mk.injEq] at h
    obtain ⟨g, h1, rfl, _⟩ := h
    rw [requireGrid_cur h1, hc]
  | requireCoeff a =>
    simp only [concrete, List.mem_singleton] at hop
    subst hop
    simp only [perform, Option.map_eq_some_iff, Prod.mk.injEq] at h
    obtain ⟨g, h1, rfl, _⟩ := h
    rw [requireCoeff_cur h1, hc]
  | requireLocal a =>
    simp only [concrete, List.mem_singleton] at hop
    subst hop
    simp only [perform, Option.map_eq_some_iff, Prod.mk.injEq] at h
    obtain ⟨g, h1, rfl, _⟩ := h
    rw [requireLocal_cur h1, hc]

/-- Concrete operations of a list, one at a time. -/
theorem concrete_cons (s : List ℚ) (o : UOp V) (os : List (UOp V)) (D : Nat) (v : V) :
    ∃ op, concrete rep D s [o] = [op] ∧
      concrete rep D s (o :: os) = op :: concrete rep D (specRun rep D v s [o]).2.1 os := by
  cases o <;> exact ⟨_, rfl, rfl⟩

theorem specRun_append (s : List ℚ) (o : UOp V) (os : List (UOp V)) (D : Nat) (v : V) :
    (specRun rep D v s (o :: os)).2.1 =
      (specRun rep D (specRun rep D v s [o]).1 (specRun rep D v s [o]).2.1 os).2.1 := by
  cases o <;> rfl

theorem performAll_cur : ∀ (os : List (UOp V)) (s : List ℚ) (v : V) (f f' : FState Dat) (rs : List (Option Dat)),
    f.cur = 0 → (∀ o ∈ os, FitsOp E o) → performAll E f (concrete rep E.D s os) = some (f', rs) → f'.cur = 0 := by
  intro os
  induction os with
  | nil => intro s v f f' rs hc _ h; simp [concrete, performAll] at h; rw [← h.1]; exact hc
  | cons o os ih =>
    intro s v f f' rs hc hf h
    obtain ⟨op, e1, e2⟩ := concrete_cons (rep := rep) s o os E.D v
    rw [e2] at h
    simp only [performAll, Option.bind_eq_bind] at h
    obtain ⟨⟨g, r⟩, h1, h2⟩ := Option.bind_eq_some_iff.1 h
    obtain ⟨⟨g', r'⟩, h3, h4⟩ := Option.bind_eq_some_iff.1 h2
    cases h4
    have hg := perform_cur (rep := rep) (s := s) hc (hf o (by simp)) (by rw [e1]; simp) h1
    exact ih _ v g _ _ hg (fun o ho => hf o (by simp [ho])) h3

theorem specRun_noWrite : ∀ (os : List (UOp V)) (s : List ℚ) (v : V) (D : Nat), (∀ o ∈ os, NoWrite o) →
    (specRun rep D v s os).1 = v := by
  intro os
  induction os with
  | nil => intros; rfl
  | cons o os ih =>
    intro s v D h
    have h2 : ∀ o ∈ os, NoWrite o := fun o ho => h o (by simp [ho])
    have h1 := h o (by simp)
    cases o with
    | write k w => exact h1.elim
    | _ => exact ih _ _ _ h2

theorem specRun_ok : ∀ (os : List (UOp V)) (s : List ℚ) (v : V), OKScales E.D trunc s → (∀ o ∈ os, Legal E trunc o) →
    OKScales E.D trunc (specRun rep E.D v s os).2.1 := by
  intro os
  induction os with
  | nil => intro s v h _; exact h
  | cons o os ih =>
    intro s v h hl
    have h2 : ∀ o ∈ os, Legal E trunc o := fun o ho => hl o (by simp [ho])
    have h1 := hl o (by simp)
    cases o with
    | get k => simp only [specRun]; exact ih _ _ (ok_of_key h k.2 h1.2) h2
    | write k w => simp only [specRun]; exact ih _ _ (ok_of_key h k.2 h1.2) h2
    | changeScales a =>
      simp only [specRun]
      exact ih _ _ (ok_of_key h (some a) (fun b hb => by cases hb; exact h1)) h2
    | changeLayout l => simp only [specRun]; exact ih _ _ h h2
    | requireGrid l => simp only [specRun]; exact ih _ _ h h2
    | requireCoeff l => simp only [specRun]; exact ih _ _ h h2
    | requireLocal l => simp only [specRun]; exact ih _ _ h h2

/-- In coefficient space the data do not depend on the scales. -/
theorem rep_zero (hs : Sound E rep trunc) (hc : IsChain E) (v : V) {i : Nat} (hi : i < E.lays.length)
    (hg : ∀ a, a < E.D → gridFlag E i a = some false) {s s' : List ℚ} (h : s.length = E.D) (h' : s'.length = E.D) :
    rep v i s = rep v i s' := by
  apply hs.scales_irrelevant v i s s' h h'
  intro a ha
  obtain ⟨m, hm⟩ := level_exists hc i hi
  by_cases h : a < E.D
  · rw [hg a h] at ha; cases ha
  · rw [hm.out hi a (by omega)] at ha; cases ha

/-- Full coefficient space is layout 0: the first path towards the grid is a transform, since a transpose
needs an axis in grid space. -/
theorem coeff_is_zero (hc : IsChain E) {i : Nat} (hi : i < E.lays.length) (hs : ∀ a, a < E.D → gridFlag E i a = some false) :
    i = 0 := by
  by_contra hne
  have hpl : 0 < E.paths.length := by have := hc.length; omega
  have hp := List.getElem?_eq_getElem hpl
  have hk : E.paths[0].kind = .transform := by
    by_contra hk
    have hk : E.paths[0].kind = .transpose := by
      cases h : E.paths[0].kind with
      | transform => exact absurd h hk
      | transpose => rfl
    have hl1 : 0 + 1 < E.lays.length := by have := hc.length; omega
    obtain ⟨l0, h0, hg⟩ := hc.first
    have hst := hc.step 0 l0 _ _ h0 (List.getElem?_eq_getElem hl1) hp
    simp only [StepOK, hk, hg] at hst
    have h4 := hst.2.2.2.1
    rw [List.getElem?_replicate] at h4
    split_ifs at h4
    simp at h4
  have h1 := (level_succ hc (level_zero hc) hp).1 hk
  obtain ⟨m, hm⟩ := level_exists hc i hi
  have := level_mono hc (by omega : 0 + 1 ≤ i) hi h1.2 hm
  have h2 := hs E.paths[0].axis (by omega)
  rw [hm.flag _ (by omega)] at h2
  simp at h2; omega

/-- **C07 (partial).** A history of user operations and solver steps in which every scale asked for fits into the
buffer allocated for the dealias scales: every step gathers the current value of the field, and after
it the field holds the solution, in whatever layout and scales the user looks at it. Missing: scales above the
dealias scales (see `solver_sees_current_data_refuted`). -/
theorem solver_sees_current_data_partial (hs : Sound E rep trunc) (hc : IsChain E)
    (lift : (V → V) → Dat → Dat) (hlift : ∀ φ v s, lift φ (rep v 0 s) = rep (φ v) 0 s) :
    ∀ (ops : List (USolverOp V)) (v : V) (s : SolverView Dat), Holds E rep v s.field → OKScales E.D trunc s.field.scales →
      s.field.cur = 0 → (s.view = none ∨ s.view = some 0) →
      (∀ o ∈ ops, LegalSolver E trunc o) → (∀ o ∈ ops, FitsSolver E o) →
      ∃ s', runSolver E s (concreteSolver rep lift E.D v s.field.scales ops) =
          some (s', (specSolver rep E.D v s.field.scales ops).2.2) ∧
        Holds E rep (specSolver rep E.D v s.field.scales ops).1 s'.field ∧
        s'.field.scales = (specSolver rep E.D v s.field.scales ops).2.1 := by
  intro ops
  induction ops with
  | nil => intro v s h _ _ _ _ _; exact ⟨s, rfl, h, rfl⟩
  | cons o os ih =>
    intro v s h hsc hcur hview hleg hfit
    have hleg' : ∀ o ∈ os, LegalSolver E trunc o := fun o ho => hleg o (by simp [ho])
    have hfit' : ∀ o ∈ os, FitsSolver E o := fun o ho => hfit o (by simp [ho])
    have ho := hleg o (by simp)
    have hf := hfit o (by simp)
    cases o with
    | user o =>
      obtain ⟨f', q1, q2, q3⟩ := field_history hs hc [o] v s.field h hsc (by simpa [LegalSolver] using ho)
      have hcur' := performAll_cur [o] s.field.scales v s.field f' _ hcur (by simpa [FitsSolver] using hf) q1
      have hok' := specRun_ok (rep := rep) [o] s.field.scales v hsc (by simpa [LegalSolver] using ho)
      obtain ⟨s', e1, e2, e3⟩ := ih _ { s with field := f' } q2 (by rw [q3]; exact hok') hcur' hview hleg' hfit'
      simp only [q3] at e1 e2 e3
      refine ⟨s', ?_, e2, e3⟩
      obtain ⟨op, c1, _⟩ := concrete_cons (rep := rep) s.field.scales o [] E.D v
      rw [c1] at q1
      simp only [performAll, Option.bind_eq_bind] at q1
      obtain ⟨⟨g, r⟩, h1, h2⟩ := Option.bind_eq_some_iff.1 q1
      simp only [Option.bind_some, Option.some.injEq, Prod.mk.injEq] at h2
      obtain ⟨rfl, h2⟩ := h2
      simp only [concreteSolver, c1, List.map_cons, List.map_nil, List.cons_append, List.nil_append, runSolver,
        Option.bind_eq_bind, h1, Option.bind_some, e1, specSolver, ← h2]
    | step evals sol =>
      simp only [LegalSolver] at ho
      simp only [FitsSolver] at hf
      obtain ⟨f1, a1, a2, a3, a4, a5⟩ := requireCoeff_ok hs hc h none (fun a ha => by cases ha)
      have hh1 := moved_lossless a2 hsc.2.2
      have hz : f1.layout = 0 := coeff_is_zero hc hh1.inRange (fun a ha => a5 a ha (Or.inl rfl))
      have hcur1 : f1.cur = 0 := by rw [a2.cur]; exact hcur
      have hv : s.view.getD f1.cur = 0 := by rcases hview with hv | hv <;> simp [hv, hcur1]
      obtain ⟨f2, b1, b2, b3⟩ := field_history hs hc evals v f1 hh1 (by rw [a2.scales]; exact hsc) (fun o ho' => (ho o ho').1)
      have hcur2 := performAll_cur evals f1.scales v f1 f2 _ hcur1 hf b1
      have hok2 := specRun_ok (rep := rep) evals s.field.scales v hsc (fun o ho' => (ho o ho').1)
      rw [a2.scales] at b1 b3
      have hd1 := hh1.data
      rw [hz, a2.scales] at hd1
      have hx0 : f1.mem 0 = rep v 0 s.field.scales := by rw [← hd1, FState.data, hcur1]
      have hpos : 0 < E.lays.length := by have := h.inRange; omega
      let f3 : FState Dat := (presetLayout f2 0).setMem 0 (lift sol (f1.mem 0))
      have hs0 : ∀ a, a < E.D → gridFlag E 0 a = some false := by
        intro a ha
        have := (level_zero hc).flag a ha
        rw [this]; simp; omega
      have hh3 : Holds E rep (sol v) f3 := by
        refine ⟨?_, hpos, ?_, ?_⟩
        · show (Function.update f2.mem 0 (lift sol (f1.mem 0))) f2.cur = rep (sol v) 0 f2.scales
          rw [hcur2, Function.update_self, hx0, hlift, b3]
          exact rep_zero hs hc _ hpos hs0 hsc.1 hok2.1
        · show f2.scales.length = E.D
          rw [b3]; exact hok2.1
        · exact b2.cur
      obtain ⟨s', e1, e2, e3⟩ := ih (sol v) ⟨f3, some 0⟩ hh3 (by show OKScales E.D trunc f2.scales; rw [b3]; exact hok2)
        hcur2 (Or.inr rfl) hleg' hfit'
      have hf3 : f3.scales = (specRun rep E.D v s.field.scales evals).2.1 := b3
      simp only [hf3] at e1 e2 e3
      refine ⟨s', ?_, e2, e3⟩
      have hstep : solverStep E (concrete rep E.D s.field.scales evals) (lift sol) s = some (⟨f3, some 0⟩, rep v 0 s.field.scales) := by
        simp only [solverStep, a1, Option.bind_eq_bind, Option.bind_some, b1, hv, hx0, f3]
      simp only [concreteSolver, runSolver, hstep, Option.bind_eq_bind, Option.bind_some, e1, specSolver]

/-- One axis on one process; the raw data is a single number and transforms do nothing to it. Scales up to the
dealias scale 3/2 fit into the buffer. -/
def tinyEnv : Env ℚ where
  D := 1
  lays := [⟨[true], [false]⟩, ⟨[true], [true]⟩]
  paths := [⟨.transform, 0⟩]
  up := fun _ _ d => d
  down := fun _ _ d => d
  fits := fun s => s.all (· ≤ 3/2)
  junk := 0

theorem tiny_chain : IsChain tinyEnv :=
  built_layouts_chain tinyEnv 1 [] (by decide) (by decide) (by decide)

theorem tiny_sound : Sound tinyEnv (fun (v : ℚ) _ _ => v) (fun _ _ v => v) :=
  ⟨fun _ _ _ _ _ _ => rfl, fun _ _ _ _ _ _ _ _ => rfl, fun _ _ _ _ _ _ => rfl, fun _ _ _ _ _ _ _ => rfl⟩

/-- A new field at scale 1, in coefficient space. -/
def tinyField : FState ℚ := ⟨fun _ => 0, 0, 1, 0, [1]⟩

/-- A step, a look at the field at twice the resolution, another step, another look. Both steps add one. -/
def tinyHistory : List (USolverOp ℚ) :=
  [.step [] (· + 1), .user (.get (1, some (.num 2))), .step [] (· + 1), .user (.get (0, none))]

/-- **C07 (refuted in general).** It is not true that after every step the field holds the solution: the
solver's views of the field are made at the first step and kept; if the user asks for the field at scales
above the dealias scales, the field moves to a new buffer, and later steps read and write the old one.
In the witness the user sees 1 after two steps that each add one (the right-hand side does not contain the
field, so that nothing moves it back). -/
theorem solver_sees_current_data_refuted :
    ¬ ∀ (Dat V : Type) (E : Env Dat) (rep : V → Nat → List ℚ → Dat) (trunc : Nat → ℚ → V → V) (lift : (V → V) → Dat → Dat)
      (ops : List (USolverOp V)) (v : V) (s : SolverView Dat), Sound E rep trunc → IsChain E →
      (∀ φ v s, lift φ (rep v 0 s) = rep (φ v) 0 s) →
      Holds E rep v s.field → OKScales E.D trunc s.field.scales → s.field.cur = 0 → s.view = none →
      (∀ o ∈ ops, LegalSolver E trunc o) →
      ∃ s', runSolver E s (concreteSolver rep lift E.D v s.field.scales ops) =
          some (s', (specSolver rep E.D v s.field.scales ops).2.2) := by
  intro hall
  obtain ⟨s', hs'⟩ := hall ℚ ℚ tinyEnv (fun v _ _ => v) (fun _ _ v => v) (fun φ => φ) tinyHistory 0 ⟨tinyField, none⟩
    tiny_sound tiny_chain (fun _ _ _ => rfl) ⟨rfl, by decide, rfl, by decide⟩
    ⟨rfl, by decide, fun _ _ _ _ => rfl⟩ rfl rfl (by
      intro o ho
      simp only [tinyHistory, List.mem_cons, List.not_mem_nil, or_false] at ho
      rcases ho with rfl | rfl | rfl | rfl
      · intro o ho; simp at ho
      · refine ⟨by decide, ?_⟩
        intro a ha; cases ha
        exact ⟨rfl, by decide, fun _ _ _ _ => rfl⟩
      · intro o ho; simp at ho
      · refine ⟨by decide, ?_⟩
        intro a ha; cases ha)
  have h1 : (runSolver tinyEnv ⟨tinyField, none⟩ (concreteSolver (fun (v : ℚ) _ _ => v) (fun φ => φ) 1 0 [1] tinyHistory)).map (·.2) =
      some [some 0, some 1, some 1, some 1] := by decide +kernel
  have h2 : (specSolver (fun (v : ℚ) _ _ => v) 1 (0 : ℚ) [1] tinyHistory).2.2 = [some 0, some 1, some 1, some 2] := by decide +kernel
  have h3 := congrArg (Option.map (·.2)) hs'
  rw [show tinyEnv.D = 1 from rfl] at h3
  rw [show (SolverView.field ⟨tinyField, none⟩).scales = [1] from rfl] at h3
  rw [h1, h2] at h3
  simp at h3

/-- The history without the excursion to twice the resolution meets the hypotheses of the partial theorem. -/
example : ∀ o ∈ [USolverOp.step [] (· + 1), .user (.get (1, some (.num (3/2)))), .step [.changeScales (.num (3/2))] (· + (1:ℚ))],
    LegalSolver tinyEnv (fun _ _ v => v) o ∧ FitsSolver tinyEnv o := by
  intro o ho
  simp only [List.mem_cons, List.not_mem_nil, or_false] at ho
  rcases ho with rfl | rfl | rfl
  · exact ⟨fun o ho => by simp at ho, fun o ho => by simp at ho⟩
  · refine ⟨⟨by decide, ?_⟩, ?_⟩
    · intro a ha; cases ha
      exact ⟨rfl, by decide +kernel, fun _ _ _ _ => rfl⟩
    · intro a ha; cases ha; decide +kernel
  · refine ⟨?_, ?_⟩
    · intro o ho; simp only [List.mem_cons, List.not_mem_nil, or_false] at ho; subst ho
      exact ⟨⟨rfl, by decide +kernel, fun _ _ _ _ => rfl⟩, trivial⟩
    · intro o ho; simp only [List.mem_cons, List.not_mem_nil, or_false] at ho; subst ho
      simp only [FitsOp]; decide +kernel

end Dedalus.Field
