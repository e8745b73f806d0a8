import Verif.Plot.Lemmas
import Mathlib.Data.Rat.Floor

/-!
# Figures with many images (C108)
-/

namespace Dedalus.Plot

open Spec

variable {K : Type} [Field K] [LinearOrder K] [IsStrictOrderedRing K]

/-! ### Figures -/

/-- Height of the images, pads and margins together. -/
theorem composite_pos {image : Box K} {pad margin : Frame K} (h : Sensible image pad margin) (nrows ncols : Nat)
    (hr : 1 ≤ nrows) (hc : 1 ≤ ncols) :
    0 < (composite nrows ncols image pad margin).x ∧ 0 < (composite nrows ncols image pad margin).y := by
  obtain ⟨hw, hh, ⟨p1, p2, p3, p4⟩, m1, m2, m3, m4⟩ := h
  have hr' : (1 : K) ≤ nrows := by exact_mod_cast hr
  have hc' : (1 : K) ≤ ncols := by exact_mod_cast hc
  have a1 : 0 < (pad.left + image.x + pad.right) * ncols := mul_pos (by linarith) (by linarith)
  have a2 : 0 < (pad.bottom + image.y + pad.top) * nrows := mul_pos (by linarith) (by linarith)
  constructor <;> simp only [composite, Frame.add, Box.add, Box.scale, Box.xbox, Box.ybox, zero_mul] <;> linarith

/-- What the constructor computes: one factor for both directions, at least the given scale, and the rest of the
width split between the left and the right margin. -/
theorem multiFigure_eq [FloorRing K] {nrows ncols : Nat} {image : Box K} {pad margin : Frame K} {scale : K}
    {f : Figure K} (h : multiFigure nrows ncols image pad margin scale = .ok f)
    (hs : Sensible image pad margin) (hr : 1 ≤ nrows) (hc : 1 ≤ ncols) (hsc : 0 < scale) :
    ∃ s e : K, scale ≤ s ∧ 0 ≤ e ∧ f.nrows = nrows ∧ f.ncols = ncols ∧ f.image = image.scale s ∧ f.pad = pad.scale s ∧
      f.margin = ⟨s * margin.top, s * margin.bottom, s * margin.left + e, s * margin.right + e⟩ ∧
      f.fig.x = s * (composite nrows ncols image pad margin).x + 2 * e ∧
      f.fig.y = s * (composite nrows ncols image pad margin).y ∧
      f.fig.x = f.width ∧ f.fig.y = f.height ∧
      f.height = ⌈scale * (composite nrows ncols image pad margin).y⌉ := by
  obtain ⟨hx, hy⟩ := composite_pos hs nrows ncols hr hc
  have hy0 := ne_of_gt hy
  unfold multiFigure at h
  simp only at h
  rw [if_neg hy0] at h
  obtain rfl := Except.ok.inj h
  clear h
  generalize hS : (⌈scale * (composite nrows ncols image pad margin).y⌉ : K) /
    (composite nrows ncols image pad margin).y = s
  generalize hE : (⌈s * (composite nrows ncols image pad margin).x⌉ : K) -
    s * (composite nrows ncols image pad margin).x = e
  have ey : s * (composite nrows ncols image pad margin).y =
      (⌈scale * (composite nrows ncols image pad margin).y⌉ : K) := by
    rw [← hS]; field_simp
  have ss : scale ≤ s := by
    rw [← hS, le_div_iff₀ hy]
    exact Int.le_ceil _
  have he : 0 ≤ e := by
    rw [← hE, sub_nonneg]
    exact Int.le_ceil _
  have cx : (composite nrows ncols (image.scale s) (pad.scale s)
      ⟨(margin.scale s).top, (margin.scale s).bottom, (margin.scale s).left + e / 2,
        (margin.scale s).right + e / 2⟩).x = s * (composite nrows ncols image pad margin).x + e := by
    simp only [composite, Frame.add, Frame.scale, Box.add, Box.scale, Box.xbox, Box.ybox]
    ring
  have cy : (composite nrows ncols (image.scale s) (pad.scale s)
      ⟨(margin.scale s).top, (margin.scale s).bottom, (margin.scale s).left + e / 2,
        (margin.scale s).right + e / 2⟩).y = s * (composite nrows ncols image pad margin).y := by
    simp only [composite, Frame.add, Frame.scale, Box.add, Box.scale, Box.xbox, Box.ybox]
    ring
  have wx : s * (composite nrows ncols image pad margin).x + e =
      (⌈s * (composite nrows ncols image pad margin).x⌉ : K) := by rw [← hE]; ring
  refine ⟨s, e / 2, ss, by linarith, rfl, rfl, rfl, rfl, rfl, ?_, cy, ?_, ?_, ?_⟩
  · simp only [cx]; ring
  · simp only [cx, wx, round_intCast]
  · simp only [cy, ey, round_intCast]
  · simp only [cy, ey, round_intCast]

/-- The width is the scaled width, rounded up. -/
theorem width_ceil [FloorRing K] {nrows ncols : Nat} {image : Box K} {pad margin : Frame K} {scale : K}
    {f : Figure K} (h : multiFigure nrows ncols image pad margin scale = .ok f)
    (hs : Sensible image pad margin) (hr : 1 ≤ nrows) (hc : 1 ≤ ncols) :
    ∃ s, f.fig.y = s * (composite nrows ncols image pad margin).y ∧
      (f.width : K) < s * (composite nrows ncols image pad margin).x + 1 := by
  obtain ⟨hx, hy⟩ := composite_pos hs nrows ncols hr hc
  have hy0 := ne_of_gt hy
  unfold multiFigure at h
  simp only at h
  rw [if_neg hy0] at h
  obtain rfl := Except.ok.inj h
  clear h
  generalize hS : (⌈scale * (composite nrows ncols image pad margin).y⌉ : K) /
    (composite nrows ncols image pad margin).y = s
  generalize hE : (⌈s * (composite nrows ncols image pad margin).x⌉ : K) -
    s * (composite nrows ncols image pad margin).x = e
  have cx : (composite nrows ncols (image.scale s) (pad.scale s)
      ⟨(margin.scale s).top, (margin.scale s).bottom, (margin.scale s).left + e / 2,
        (margin.scale s).right + e / 2⟩).x = s * (composite nrows ncols image pad margin).x + e := by
    simp only [composite, Frame.add, Frame.scale, Box.add, Box.scale, Box.xbox, Box.ybox]
    ring
  have wx : s * (composite nrows ncols image pad margin).x + e =
      (⌈s * (composite nrows ncols image pad margin).x⌉ : K) := by rw [← hE]; ring
  refine ⟨s, ?_, ?_⟩
  · simp only [composite, Frame.add, Frame.scale, Box.add, Box.scale, Box.xbox, Box.ybox]
    ring
  · simp only [cx, wx, round_intCast]
    exact Int.ceil_lt_add_one _

/-- **Figures have whole sizes** in inches, with the images, pads and margins scaled by one factor that is at least
the given one, and with the height rounded up. What the width lacks goes to the margins. -/
theorem figure_whole [FloorRing K] (nrows ncols : Nat) (image : Box K) (pad margin : Frame K) (scale : K)
    (f : Figure K) (h : multiFigure nrows ncols image pad margin scale = .ok f)
    (hs : Sensible image pad margin) (hr : 1 ≤ nrows) (hc : 1 ≤ ncols) (hsc : 0 < scale) :
    f.fig.x = f.width ∧ f.fig.y = f.height ∧
    scale * (margin.bottom + (pad.bottom + image.y + pad.top) * nrows + margin.top) ≤ f.height ∧
    (f.height : K) < scale * (margin.bottom + (pad.bottom + image.y + pad.top) * nrows + margin.top) + 1 ∧
    ∃ s, scale ≤ s ∧ f.image.x = s * image.x ∧ f.image.y = s * image.y ∧
      s * (margin.bottom + (pad.bottom + image.y + pad.top) * nrows + margin.top) = f.height ∧
      s * (margin.left + (pad.left + image.x + pad.right) * ncols + margin.right) ≤ f.width ∧
      (f.width : K) < s * (margin.left + (pad.left + image.x + pad.right) * ncols + margin.right) + 1 := by
  obtain ⟨hx, hy⟩ := composite_pos hs nrows ncols hr hc
  have hcx : (composite nrows ncols image pad margin).x =
      margin.left + (pad.left + image.x + pad.right) * ncols + margin.right := by
    simp only [composite, Frame.add, Box.add, Box.scale, Box.xbox, Box.ybox]; ring
  have hcy : (composite nrows ncols image pad margin).y =
      margin.bottom + (pad.bottom + image.y + pad.top) * nrows + margin.top := by
    simp only [composite, Frame.add, Box.add, Box.scale, Box.xbox, Box.ybox]; ring
  obtain ⟨s, e, hse, he, _, _, him, _, _, hfx, hfy, hw, hh, hceil⟩ := multiFigure_eq h hs hr hc hsc
  have hwe := width_ceil h hs hr hc
  rw [← hcx, ← hcy]
  refine ⟨hw, hh, ?_, ?_, s, hse, ?_, ?_, ?_, ?_, ?_⟩
  · rw [hceil]; exact Int.le_ceil _
  · rw [hceil]; exact Int.ceil_lt_add_one _
  · rw [him]; simp only [Box.scale]; ring
  · rw [him]; simp only [Box.scale]; ring
  · rw [← hh, hfy]
  · rw [← hw, hfx]; linarith
  · obtain ⟨s', hs'y, hs'w⟩ := hwe
    have : s' = s := by
      have := hs'y.symm.trans hfy
      exact mul_right_cancel₀ (ne_of_gt hy) this
    rw [← this]
    exact hs'w

/-- Every rectangle of fractions of an image lands inside that image, in fractions of the figure. -/
theorem addAxes_eq [FloorRing K] {nrows ncols : Nat} {image : Box K} {pad margin : Frame K} {scale : K}
    {f : Figure K} (h : multiFigure nrows ncols image pad margin scale = .ok f)
    (hs : Sensible image pad margin) (hr : 1 ≤ nrows) (hc : 1 ≤ ncols) (hsc : 0 < scale) :
    ∃ s e : K, scale ≤ s ∧ 0 ≤ e ∧ 0 < f.fig.x ∧ 0 < f.fig.y ∧
      f.fig.x = s * (margin.left + (pad.left + image.x + pad.right) * ncols + margin.right) + 2 * e ∧
      f.fig.y = s * (margin.bottom + (pad.bottom + image.y + pad.top) * nrows + margin.top) ∧
      ∀ (i j : Int) (r : Rect K), addAxes f i j r = .ok
        ⟨(s * (margin.left + (pad.left + image.x + pad.right) * j + pad.left + r.left * image.x) + e) / f.fig.x,
         (s * (margin.bottom + (pad.bottom + image.y + pad.top) * (nrows - 1 - i) + pad.bottom +
            r.bottom * image.y)) / f.fig.y,
         (s * (r.width * image.x)) / f.fig.x, (s * (r.height * image.y)) / f.fig.y⟩ := by
  obtain ⟨hx, hy⟩ := composite_pos hs nrows ncols hr hc
  have hcx : (composite nrows ncols image pad margin).x =
      margin.left + (pad.left + image.x + pad.right) * ncols + margin.right := by
    simp only [composite, Frame.add, Box.add, Box.scale, Box.xbox, Box.ybox]; ring
  have hcy : (composite nrows ncols image pad margin).y =
      margin.bottom + (pad.bottom + image.y + pad.top) * nrows + margin.top := by
    simp only [composite, Frame.add, Box.add, Box.scale, Box.xbox, Box.ybox]; ring
  obtain ⟨s, e, hse, he, hn, _, him, hpad, hmar, hfx, hfy, hw, hh, hceil⟩ := multiFigure_eq h hs hr hc hsc
  have hspos : 0 < s := lt_of_lt_of_le hsc hse
  have fxp : 0 < f.fig.x := by rw [hfx]; have := mul_pos hspos hx; linarith
  have fyp : 0 < f.fig.y := by rw [hfy]; exact mul_pos hspos hy
  refine ⟨s, e, hse, he, fxp, fyp, by rw [hfx, hcx], by rw [hfy, hcy], ?_⟩
  intro i j r
  unfold addAxes
  rw [if_neg (by rintro (h | h) <;> linarith)]
  simp only [hn, him, hpad, hmar, Frame.add, Frame.scale, Frame.bottomLeft, Box.add, Box.scale, Box.xbox, Box.ybox,
    Box.mul, Box.div, Except.ok.injEq, Rect.mk.injEq]
  push_cast
  refine ⟨?_, ?_, ?_, ?_⟩ <;> (congr 1; ring)

/-- **Axes lie inside the figure**: for every row and column of the figure and every rectangle within its image. -/
theorem axes_inside [FloorRing K] (nrows ncols : Nat) (image : Box K) (pad margin : Frame K) (scale : K)
    (f : Figure K) (h : multiFigure nrows ncols image pad margin scale = .ok f)
    (hs : Sensible image pad margin) (hsc : 0 < scale) (i j : Nat) (hi : i < nrows) (hj : j < ncols)
    (r : Rect K) (hu : InUnit r) : ∃ q, addAxes f i j r = .ok q ∧ InUnit q := by
  obtain ⟨s, e, hse, he, fxp, fyp, hfx, hfy, ha⟩ := addAxes_eq h hs (by omega) (by omega) hsc
  refine ⟨_, ha i j r, ?_⟩
  obtain ⟨u1, u2, u3, u4, u5, u6⟩ := hu
  obtain ⟨hw, hh, ⟨p1, p2, p3, p4⟩, m1, m2, m3, m4⟩ := hs
  have hspos : 0 < s := lt_of_lt_of_le hsc hse
  have hi0 : (0 : K) ≤ i := Nat.cast_nonneg i
  have hj0 : (0 : K) ≤ j := Nat.cast_nonneg j
  have hi1 : (i : K) + 1 ≤ nrows := by exact_mod_cast hi
  have hj1 : (j : K) + 1 ≤ ncols := by exact_mod_cast hj
  have sw : 0 < pad.left + image.x + pad.right := by linarith
  have sh : 0 < pad.bottom + image.y + pad.top := by linarith
  have a1 : 0 ≤ (pad.left + image.x + pad.right) * (j : K) := mul_nonneg sw.le hj0
  have a2 : 0 ≤ (pad.bottom + image.y + pad.top) * ((nrows : K) - 1 - i) := mul_nonneg sh.le (by linarith)
  have a3 : 0 ≤ r.left * image.x := mul_nonneg u1 hw.le
  have a4 : 0 ≤ r.bottom * image.y := mul_nonneg u2 hh.le
  have a5 : 0 ≤ r.width * image.x := mul_nonneg u3 hw.le
  have a6 : 0 ≤ r.height * image.y := mul_nonneg u4 hh.le
  have b1 : (pad.left + image.x + pad.right) * ((j : K) + 1) ≤ (pad.left + image.x + pad.right) * ncols :=
    mul_le_mul_of_nonneg_left hj1 sw.le
  have b2 : (pad.bottom + image.y + pad.top) * ((nrows : K) - i) ≤ (pad.bottom + image.y + pad.top) * nrows :=
    mul_le_mul_of_nonneg_left (by linarith) sh.le
  have b3 : (r.left + r.width) * image.x ≤ 1 * image.x := mul_le_mul_of_nonneg_right u5 hw.le
  have b4 : (r.bottom + r.height) * image.y ≤ 1 * image.y := mul_le_mul_of_nonneg_right u6 hh.le
  simp only [Int.cast_natCast]
  refine ⟨?_, ?_, ?_, ?_, ?_, ?_⟩
  · exact div_nonneg (add_nonneg (mul_nonneg hspos.le (by linarith)) he) fxp.le
  · exact div_nonneg (mul_nonneg hspos.le (by linarith)) fyp.le
  · exact div_nonneg (mul_nonneg hspos.le a5) fxp.le
  · exact div_nonneg (mul_nonneg hspos.le a6) fyp.le
  · rw [← add_div, div_le_one fxp, hfx]
    have : s * (margin.left + (pad.left + image.x + pad.right) * j + pad.left + r.left * image.x + r.width * image.x) ≤
        s * (margin.left + (pad.left + image.x + pad.right) * ncols + margin.right) :=
      mul_le_mul_of_nonneg_left (by linarith) hspos.le
    linarith
  · rw [← add_div, div_le_one fyp, hfy]
    have : s * (margin.bottom + (pad.bottom + image.y + pad.top) * ((nrows : K) - 1 - i) + pad.bottom +
          r.bottom * image.y + r.height * image.y) ≤
        s * (margin.bottom + (pad.bottom + image.y + pad.top) * nrows + margin.top) :=
      mul_le_mul_of_nonneg_left (by linarith) hspos.le
    linarith

/-- **Margins and pads are kept**: in inches, axes are away from the edges of the figure by the margin and the pad at
least, times the same factor that images are scaled by. -/
theorem axes_padding [FloorRing K] (nrows ncols : Nat) (image : Box K) (pad margin : Frame K) (scale : K)
    (f : Figure K) (h : multiFigure nrows ncols image pad margin scale = .ok f)
    (hs : Sensible image pad margin) (hsc : 0 < scale) (hr : 1 ≤ nrows) (hc : 1 ≤ ncols) :
    ∃ s, f.image.x = s * image.x ∧ f.image.y = s * image.y ∧
    ∀ (i j : Nat) (r q : Rect K), i < nrows → j < ncols → InUnit r → addAxes f i j r = .ok q →
      s * (margin.left + pad.left) ≤ q.left * f.width ∧
      s * (margin.right + pad.right) ≤ (1 - (q.left + q.width)) * f.width ∧
      s * (margin.bottom + pad.bottom) ≤ q.bottom * f.height ∧
      s * (margin.top + pad.top) ≤ (1 - (q.bottom + q.height)) * f.height := by
  obtain ⟨s', _, _, _, _, _, him, _, _, _, hfy', hwd, hht, _⟩ := multiFigure_eq h hs hr hc hsc
  obtain ⟨s, e, hse, he, fxp, fyp, hfx, hfy, ha⟩ := addAxes_eq h hs hr hc hsc
  have hss : s' = s := by
    obtain ⟨_, hy⟩ := composite_pos hs nrows ncols hr hc
    have hcy : (composite nrows ncols image pad margin).y =
        margin.bottom + (pad.bottom + image.y + pad.top) * nrows + margin.top := by
      simp only [composite, Frame.add, Box.add, Box.scale, Box.xbox, Box.ybox]; ring
    rw [← hcy] at hfy
    exact mul_right_cancel₀ (ne_of_gt hy) (hfy'.symm.trans hfy)
  subst hss
  refine ⟨s', by rw [him]; simp only [Box.scale]; ring, by rw [him]; simp only [Box.scale]; ring, ?_⟩
  intro i j r q hi hj hu hq
  rw [ha] at hq
  obtain rfl := Except.ok.inj hq
  obtain ⟨u1, u2, u3, u4, u5, u6⟩ := hu
  obtain ⟨hw, hh, ⟨p1, p2, p3, p4⟩, m1, m2, m3, m4⟩ := hs
  have hspos : 0 < s' := lt_of_lt_of_le hsc hse
  have hi0 : (0 : K) ≤ i := Nat.cast_nonneg i
  have hj0 : (0 : K) ≤ j := Nat.cast_nonneg j
  have hi1 : (i : K) + 1 ≤ nrows := by exact_mod_cast hi
  have hj1 : (j : K) + 1 ≤ ncols := by exact_mod_cast hj
  have sw : 0 < pad.left + image.x + pad.right := by linarith
  have sh : 0 < pad.bottom + image.y + pad.top := by linarith
  have a1 : 0 ≤ (pad.left + image.x + pad.right) * (j : K) := mul_nonneg sw.le hj0
  have a2 : 0 ≤ (pad.bottom + image.y + pad.top) * ((nrows : K) - 1 - i) := mul_nonneg sh.le (by linarith)
  have a3 : 0 ≤ r.left * image.x := mul_nonneg u1 hw.le
  have a4 : 0 ≤ r.bottom * image.y := mul_nonneg u2 hh.le
  have b1 : (pad.left + image.x + pad.right) * ((j : K) + 1) ≤ (pad.left + image.x + pad.right) * ncols :=
    mul_le_mul_of_nonneg_left hj1 sw.le
  have b2 : (pad.bottom + image.y + pad.top) * ((nrows : K) - i) ≤ (pad.bottom + image.y + pad.top) * nrows :=
    mul_le_mul_of_nonneg_left (by linarith) sh.le
  have b3 : (r.left + r.width) * image.x ≤ 1 * image.x := mul_le_mul_of_nonneg_right u5 hw.le
  have b4 : (r.bottom + r.height) * image.y ≤ 1 * image.y := mul_le_mul_of_nonneg_right u6 hh.le
  simp only [Int.cast_natCast]
  rw [← hwd, ← hht]
  refine ⟨?_, ?_, ?_, ?_⟩
  · rw [div_mul_cancel₀ _ (ne_of_gt fxp)]
    have := mul_le_mul_of_nonneg_left (show margin.left + pad.left ≤
      margin.left + (pad.left + image.x + pad.right) * (j : K) + pad.left + r.left * image.x by linarith) hspos.le
    linarith
  · rw [← add_div, sub_mul, div_mul_cancel₀ _ (ne_of_gt fxp), one_mul, hfx]
    have := mul_le_mul_of_nonneg_left (show margin.left + (pad.left + image.x + pad.right) * (j : K) + pad.left +
      r.left * image.x + r.width * image.x + (margin.right + pad.right) ≤
      margin.left + (pad.left + image.x + pad.right) * ncols + margin.right by linarith) hspos.le
    linarith
  · rw [div_mul_cancel₀ _ (ne_of_gt fyp)]
    exact mul_le_mul_of_nonneg_left (by linarith) hspos.le
  · rw [← add_div, sub_mul, div_mul_cancel₀ _ (ne_of_gt fyp), one_mul, hfy]
    have := mul_le_mul_of_nonneg_left (show margin.bottom + (pad.bottom + image.y + pad.top) * ((nrows : K) - 1 - i) +
      pad.bottom + r.bottom * image.y + r.height * image.y + (margin.top + pad.top) ≤
      margin.bottom + (pad.bottom + image.y + pad.top) * nrows + margin.top by linarith) hspos.le
    linarith

/-- **Images do not overlap**: axes in different columns are side by side, the smaller column on the left; axes in
different rows are above each other, the smaller row on top. -/
theorem axes_apart [FloorRing K] (nrows ncols : Nat) (image : Box K) (pad margin : Frame K) (scale : K)
    (f : Figure K) (h : multiFigure nrows ncols image pad margin scale = .ok f)
    (hs : Sensible image pad margin) (hsc : 0 < scale) (hr : 1 ≤ nrows) (hc : 1 ≤ ncols)
    (i j i' j' : Nat) (r r' q q' : Rect K) (hu : InUnit r) (hu' : InUnit r')
    (hq : addAxes f i j r = .ok q) (hq' : addAxes f i' j' r' = .ok q') :
    (j < j' → q.left + q.width ≤ q'.left) ∧ (i < i' → q'.bottom + q'.height ≤ q.bottom) := by
  obtain ⟨s, e, hse, he, fxp, fyp, hfx, hfy, ha⟩ := addAxes_eq h hs hr hc hsc
  rw [ha] at hq hq'
  obtain rfl := Except.ok.inj hq
  obtain rfl := Except.ok.inj hq'
  obtain ⟨u1, u2, u3, u4, u5, u6⟩ := hu
  obtain ⟨v1, v2, v3, v4, v5, v6⟩ := hu'
  obtain ⟨hw, hh, ⟨p1, p2, p3, p4⟩, m1, m2, m3, m4⟩ := hs
  have hspos : 0 < s := lt_of_lt_of_le hsc hse
  have sw : 0 < pad.left + image.x + pad.right := by linarith
  have sh : 0 < pad.bottom + image.y + pad.top := by linarith
  simp only [Int.cast_natCast]
  constructor
  · intro hjj
    have hj1 : (j : K) + 1 ≤ j' := by exact_mod_cast hjj
    have b1 : (pad.left + image.x + pad.right) * ((j : K) + 1) ≤ (pad.left + image.x + pad.right) * j' :=
      mul_le_mul_of_nonneg_left hj1 sw.le
    have b3 : (r.left + r.width) * image.x ≤ 1 * image.x := mul_le_mul_of_nonneg_right u5 hw.le
    have a3 : 0 ≤ r'.left * image.x := mul_nonneg v1 hw.le
    rw [← add_div]
    refine div_le_div_of_nonneg_right ?_ fxp.le
    have : s * (margin.left + (pad.left + image.x + pad.right) * j + pad.left + r.left * image.x + r.width * image.x) ≤
        s * (margin.left + (pad.left + image.x + pad.right) * j' + pad.left + r'.left * image.x) :=
      mul_le_mul_of_nonneg_left (by linarith) hspos.le
    linarith
  · intro hii
    have hi1 : (i : K) + 1 ≤ i' := by exact_mod_cast hii
    have b1 : (pad.bottom + image.y + pad.top) * ((nrows : K) - 1 - i') ≤
        (pad.bottom + image.y + pad.top) * ((nrows : K) - 2 - i) :=
      mul_le_mul_of_nonneg_left (by linarith) sh.le
    have b3 : (r'.bottom + r'.height) * image.y ≤ 1 * image.y := mul_le_mul_of_nonneg_right v6 hh.le
    have a3 : 0 ≤ r.bottom * image.y := mul_nonneg u2 hh.le
    rw [← add_div]
    refine div_le_div_of_nonneg_right ?_ fyp.le
    have : s * (margin.bottom + (pad.bottom + image.y + pad.top) * ((nrows : K) - 1 - i') + pad.bottom +
          r'.bottom * image.y + r'.height * image.y) ≤
        s * (margin.bottom + (pad.bottom + image.y + pad.top) * ((nrows : K) - 1 - i) + pad.bottom +
          r.bottom * image.y) :=
      mul_le_mul_of_nonneg_left (by linarith) hspos.le
    linarith

/-- **Images keep their shape**: in inches, the axes for the whole image have its width and height, both times the
same factor, which is at least the scale; other rectangles are those fractions of it. -/
theorem axes_shape [FloorRing K] (nrows ncols : Nat) (image : Box K) (pad margin : Frame K) (scale : K)
    (f : Figure K) (h : multiFigure nrows ncols image pad margin scale = .ok f)
    (hs : Sensible image pad margin) (hsc : 0 < scale) (hr : 1 ≤ nrows) (hc : 1 ≤ ncols) :
    ∃ s, scale ≤ s ∧ ∀ (i j : Nat) (r q : Rect K), addAxes f i j r = .ok q →
      q.width * f.width = s * (r.width * image.x) ∧ q.height * f.height = s * (r.height * image.y) := by
  obtain ⟨_, _, _, _, _, _, _, _, _, _, _, hw, hh, _⟩ := multiFigure_eq h hs hr hc hsc
  obtain ⟨s, e, hse, he, fxp, fyp, hfx, hfy, ha⟩ := addAxes_eq h hs hr hc hsc
  refine ⟨s, hse, fun i j r q hq => ?_⟩
  rw [ha] at hq
  obtain rfl := Except.ok.inj hq
  rw [← hw, ← hh]
  exact ⟨div_mul_cancel₀ _ (ne_of_gt fxp), div_mul_cancel₀ _ (ne_of_gt fyp)⟩

/-- A figure of two rows and three columns. -/
example : ∃ f, multiFigure 2 3 (⟨2, 1⟩ : Box ℚ) ⟨1/4, 1/4, 1/4, 1/4⟩ ⟨1/10, 0, 0, 0⟩ 1 = .ok f ∧
    Sensible (⟨2, 1⟩ : Box ℚ) ⟨1/4, 1/4, 1/4, 1/4⟩ ⟨1/10, 0, 0, 0⟩ ∧ f.height = 4 ∧ f.width = 10 := by
  have h : (multiFigure 2 3 (⟨2, 1⟩ : Box ℚ) ⟨1/4, 1/4, 1/4, 1/4⟩ ⟨1/10, 0, 0, 0⟩ 1).toOption.map
      (fun f => (f.height, f.width)) = some (4, 10) := by decide +kernel
  cases e : multiFigure 2 3 (⟨2, 1⟩ : Box ℚ) ⟨1/4, 1/4, 1/4, 1/4⟩ ⟨1/10, 0, 0, 0⟩ 1 with
  | error => rw [e] at h; cases h
  | ok f =>
    rw [e] at h
    obtain ⟨h1, h2⟩ := Prod.mk.inj (Option.some.inj h)
    exact ⟨f, rfl, ⟨by norm_num, by norm_num, by norm_num, by norm_num⟩, h1, h2⟩

end Dedalus.Plot
