import Verif.BasisOps.Spec
import Mathlib.Tactic.Ring
import Mathlib.Tactic.Linarith
import Mathlib.Data.List.Perm.Basic

/-! # Lemmas on the arithmetic of bases -/

namespace Dedalus.BasisOps

/-- The sum of two compatible bases. -/
def join : Basis → Basis → Basis
  | .jacobi x, .jacobi y => .jacobi { x with size := max x.size y.size, a := max x.a y.a, b := max x.b y.b }
  | .annulus x, .annulus y => .annulus { x with shape := max2 x.shape y.shape, k := max x.k y.k }
  | .disk x, .disk y => .disk { x with shape := max2 x.shape y.shape, k := max x.k y.k }
  | .sphere x, .sphere y => .sphere { x with shape := max2 x.shape y.shape }
  | .shellRadial x, .shellRadial y => .shellRadial { x with size := max x.size y.size, k := max x.k y.k }
  | .ballRadial x, .ballRadial y => .ballRadial { x with size := max x.size y.size, k := max x.k y.k }
  | .shell x, .shell y => .shell { x with shape := max3 x.shape y.shape, k := max x.k y.k }
  | .ball x, .ball y => .ball { x with shape := max3 x.shape y.shape, k := max x.k y.k }
  | x, _ => x

theorem Compatible.refl (x : Basis) : Compatible x x := by
  cases x <;> simp only [Compatible]
  all_goals first | exact ⟨_, _, _, rfl⟩ | exact ⟨_, _, rfl⟩ | exact ⟨_, rfl⟩

theorem Compatible.symm {x y : Basis} (h : Compatible x y) : Compatible y x := by
  cases x <;> cases y <;> simp only [Compatible] at h ⊢
  case fourier.fourier => exact h.symm
  case jacobi.jacobi => obtain ⟨s, a, b, rfl⟩ := h; exact ⟨_, _, _, rfl⟩
  case sphere.sphere => obtain ⟨s, rfl⟩ := h; exact ⟨_, rfl⟩
  all_goals (obtain ⟨s, a, rfl⟩ := h; exact ⟨_, _, rfl⟩)

theorem Compatible.trans {x y z : Basis} (h : Compatible x y) (g : Compatible y z) : Compatible x z := by
  cases x <;> cases y <;> simp only [Compatible] at h <;> cases z <;> simp only [Compatible] at g ⊢
  case fourier.fourier => exact h.trans g
  case jacobi.jacobi => obtain ⟨s, a, b, rfl⟩ := h; obtain ⟨_, _, _, rfl⟩ := g; exact ⟨_, _, _, rfl⟩
  case sphere.sphere => obtain ⟨s, rfl⟩ := h; obtain ⟨_, rfl⟩ := g; exact ⟨_, rfl⟩
  all_goals (obtain ⟨s, a, rfl⟩ := h; obtain ⟨_, _, rfl⟩ := g; exact ⟨_, _, rfl⟩)

theorem Compatible.sameLibrary {x y : Basis} (h : Compatible x y) : SameLibrary x y := by
  cases x <;> cases y <;> simp only [Compatible] at h <;> simp only [SameLibrary]
  all_goals (obtain ⟨_, _, rfl⟩ := h; exact ⟨rfl, rfl⟩)

theorem compatible_join {x y : Basis} : Compatible x (join x y) := by
  cases x <;> cases y <;> simp only [join, Compatible]
  all_goals first | exact ⟨_, _, _, rfl⟩ | exact ⟨_, _, rfl⟩ | exact ⟨_, rfl⟩

/-! ### Sums -/

theorem plus_compatible {x y : Basis} (h : Compatible x y) : plus (some x) (some y) = .ok (join x y) := by
  cases x <;> cases y <;> simp only [Compatible] at h
  case fourier.fourier => subst h; simp [plus, binary, Basis.add, join]
  case jacobi.jacobi x y =>
    obtain ⟨s, a, b, rfl⟩ := h
    simp only [plus, binary, Basis.add, join]
    by_cases e : ({ x with size := s, a := a, b := b } : Jac) = x
    · rw [if_pos e]
      have h1 : s = x.size := congrArg Jac.size e
      have h2 : a = x.a := congrArg Jac.a e
      have h3 : b = x.b := congrArg Jac.b e
      simp [h1, h2, h3]
    · rw [if_neg e, if_pos (by simp [Jac.grid])]
  case sphere.sphere x y =>
    obtain ⟨s, rfl⟩ := h
    simp only [plus, binary, Basis.add, join]
    by_cases e : ({ x with shape := s } : Sph) = x
    · rw [if_pos e]
      have h1 : s = x.shape := congrArg Sph.shape e
      simp [h1, max2]
    · rw [if_neg e, if_neg (by simp), if_pos (by simp [Sph.grid])]
  case annulus.annulus x y =>
    obtain ⟨s, k, rfl⟩ := h
    simp only [plus, binary, Basis.add, join]
    by_cases e : ({ x with shape := s, k := k } : Pol) = x
    · rw [if_pos e]
      have h1 : s = x.shape := congrArg Pol.shape e
      have h2 : k = x.k := congrArg Pol.k e
      simp [h1, h2, max2]
    · rw [if_neg e, if_pos (by simp [Pol.grid])]
  case disk.disk x y =>
    obtain ⟨s, k, rfl⟩ := h
    simp only [plus, binary, Basis.add, join]
    by_cases e : ({ x with shape := s, k := k } : Pol) = x
    · rw [if_pos e]
      have h1 : s = x.shape := congrArg Pol.shape e
      have h2 : k = x.k := congrArg Pol.k e
      simp [h1, h2, max2]
    · rw [if_neg e, if_pos (by simp [Pol.grid])]
  case shellRadial.shellRadial x y =>
    obtain ⟨s, k, rfl⟩ := h
    simp only [plus, binary, Basis.add, join]
    by_cases e : ({ x with size := s, k := k } : Rad) = x
    · rw [if_pos e]
      have h1 : s = x.size := congrArg Rad.size e
      have h2 : k = x.k := congrArg Rad.k e
      simp [h1, h2]
    · rw [if_neg e, if_pos (by simp [Rad.grid])]
  case ballRadial.ballRadial x y =>
    obtain ⟨s, k, rfl⟩ := h
    simp only [plus, binary, Basis.add, join]
    by_cases e : ({ x with size := s, k := k } : Rad) = x
    · rw [if_pos e]
      have h1 : s = x.size := congrArg Rad.size e
      have h2 : k = x.k := congrArg Rad.k e
      simp [h1, h2]
    · rw [if_neg e, if_pos (by simp [Rad.grid])]
  case shell.shell x y =>
    obtain ⟨s, k, rfl⟩ := h
    simp only [plus, binary, Basis.add, join]
    by_cases e : ({ x with shape := s, k := k } : Vol) = x
    · rw [if_pos e]
      have h1 : s = x.shape := congrArg Vol.shape e
      have h2 : k = x.k := congrArg Vol.k e
      simp [h1, h2, max3]
    · rw [if_neg e, if_pos (by simp [Vol.grid])]
  case ball.ball x y =>
    obtain ⟨s, k, rfl⟩ := h
    simp only [plus, binary, Basis.add, join]
    by_cases e : ({ x with shape := s, k := k } : Vol) = x
    · rw [if_pos e]
      have h1 : s = x.shape := congrArg Vol.shape e
      have h2 : k = x.k := congrArg Vol.k e
      simp [h1, h2, max3]
    · rw [if_neg e, if_pos (by simp [Vol.grid])]

theorem jac_grid {x y : Jac} (h : x.grid = y.grid) : ∃ s a b, y = { x with size := s, a := a, b := b } := by
  cases x; cases y; simp only [Jac.grid, Jac.mk.injEq] at h; obtain ⟨rfl, rfl, rfl, rfl, rfl, rfl, -⟩ := h; exact ⟨_, _, _, rfl⟩

theorem pol_grid {x y : Pol} (h : x.grid = y.grid) : ∃ s k, y = { x with shape := s, k := k } := by
  cases x; cases y; simp only [Pol.grid, Pol.mk.injEq] at h; obtain ⟨rfl, rfl, rfl, rfl, rfl, rfl, rfl, -⟩ := h; exact ⟨_, _, rfl⟩

theorem sph_grid {x y : Sph} (h : x.grid = y.grid) : ∃ s, y = { x with shape := s } := by
  cases x; cases y; simp only [Sph.grid, Sph.mk.injEq] at h; obtain ⟨rfl, rfl, rfl, rfl, rfl, rfl, -⟩ := h; exact ⟨_, rfl⟩

theorem rad_grid {x y : Rad} (h : x.grid = y.grid) (d : x.dtype = y.dtype) (e : x.radiusLibrary = y.radiusLibrary) :
    ∃ s k, y = { x with size := s, k := k } := by
  cases x; cases y; simp only [Rad.grid, Rad.mk.injEq] at h d e; subst d e; obtain ⟨rfl, -, rfl, rfl, rfl, -⟩ := h; exact ⟨_, _, rfl⟩

theorem vol_grid {x y : Vol} (h : x.grid = y.grid) : ∃ s k, y = { x with shape := s, k := k } := by
  cases x; cases y; simp only [Vol.grid, Vol.mk.injEq] at h
  obtain ⟨rfl, rfl, rfl, rfl, rfl, rfl, rfl, rfl, -⟩ := h; exact ⟨_, _, rfl⟩

theorem plus_incompatible {x y : Basis} (h : ¬ Compatible x y) (u : SameLibrary x y) : ∃ e, plus (some x) (some y) = .error e := by
  cases x <;> cases y <;> simp only [Compatible] at h <;> simp only [plus, binary, Basis.add, ni, Basis.cls, reduceIte] <;>
    first
    | exact ⟨_, rfl⟩
    | skip
  case fourier.fourier => exact ⟨_, by rw [if_neg h]⟩
  case jacobi.jacobi x y =>
    have g : ¬ x.grid = y.grid := fun g => h (jac_grid g)
    have n : ¬ y = x := fun e => g (e ▸ rfl)
    exact ⟨_, by rw [if_neg n, if_neg g]⟩
  case annulus.annulus x y =>
    have g : ¬ x.grid = y.grid := fun g => h (pol_grid g)
    have n : ¬ y = x := fun e => g (e ▸ rfl)
    exact ⟨_, by rw [if_neg n, if_neg g]⟩
  case disk.disk x y =>
    have g : ¬ x.grid = y.grid := fun g => h (pol_grid g)
    have n : ¬ y = x := fun e => g (e ▸ rfl)
    exact ⟨_, by rw [if_neg n, if_neg g]⟩
  case sphere.sphere x y =>
    have g : ¬ x.grid = y.grid := fun g => h (sph_grid g)
    have n : ¬ y = x := fun e => g (e ▸ rfl)
    rw [if_neg n, if_neg g]
    by_cases r : x.radius = y.radius <;> simp [r]
  case shellRadial.shellRadial x y =>
    have g : ¬ x.grid = y.grid := fun g => h (rad_grid g u.1 u.2)
    have n : ¬ y = x := fun e => g (e ▸ rfl)
    exact ⟨_, by rw [if_neg n, if_neg g]⟩
  case ballRadial.ballRadial x y =>
    have g : ¬ x.grid = y.grid := fun g => h (rad_grid g u.1 u.2)
    have n : ¬ y = x := fun e => g (e ▸ rfl)
    exact ⟨_, by rw [if_neg n, if_neg g]⟩
  case shell.shell x y =>
    have g : ¬ x.grid = y.grid := fun g => h (vol_grid g)
    have n : ¬ y = x := fun e => g (e ▸ rfl)
    exact ⟨_, by rw [if_neg n, if_neg g]⟩
  case ball.ball x y =>
    have g : ¬ x.grid = y.grid := fun g => h (vol_grid g)
    have n : ¬ y = x := fun e => g (e ▸ rfl)
    exact ⟨_, by rw [if_neg n, if_neg g]⟩

theorem within_join_left {x y : Basis} (h : Compatible x y) : Within x (join x y) := by
  refine ⟨compatible_join, ?_⟩
  cases x <;> cases y <;> simp only [Compatible] at h <;>
    simp [join, resolution, parameters, max2, max3]

theorem within_join_right {x y : Basis} (h : Compatible x y) : Within y (join x y) := by
  refine ⟨h.symm.trans compatible_join, ?_⟩
  cases x <;> cases y <;> simp only [Compatible] at h <;>
    simp [join, resolution, parameters, max2, max3]

theorem join_within {x y t : Basis} (hx : Within x t) (hy : Within y t) : Within (join x y) t := by
  have c : Compatible x y := hx.1.trans hy.1.symm
  obtain ⟨cx, x1, x2, x3, x4, x5⟩ := hx
  obtain ⟨cy, y1, y2, y3, y4, y5⟩ := hy
  refine ⟨compatible_join.symm.trans cx, ?_⟩
  cases x <;> cases y <;> simp only [Compatible] at c <;> cases t <;> simp only [Compatible] at cx <;>
    simp only [join, resolution, parameters, max2, max3] at * <;>
    simp only [Int.cast_max, sup_le_iff, le_refl, true_and, and_true, *]

theorem Within.antisymm {s t : Basis} (h : Within s t) (g : Within t s) : s = t := by
  obtain ⟨c, x1, x2, x3, x4, x5⟩ := h
  obtain ⟨-, y1, y2, y3, y4, y5⟩ := g
  cases s <;> cases t <;> simp only [Compatible] at c <;>
    simp only [resolution, parameters, Int.cast_le] at *
  case fourier.fourier => rw [c]
  case jacobi.jacobi =>
    obtain ⟨s, a, b, rfl⟩ := c
    simp only at *
    rw [le_antisymm y3 x3, le_antisymm y4 x4, le_antisymm y5 x5]
  case sphere.sphere x _ =>
    obtain ⟨s, rfl⟩ := c
    simp only at *
    have e : s = x.shape := Prod.ext (le_antisymm y1 x1) (le_antisymm y2 x2)
    rw [e]
  case shellRadial.shellRadial =>
    obtain ⟨s, k, rfl⟩ := c
    simp only at *
    rw [le_antisymm y3 x3, le_antisymm y4 x4]
  case ballRadial.ballRadial =>
    obtain ⟨s, k, rfl⟩ := c
    simp only at *
    rw [le_antisymm y3 x3, le_antisymm y4 x4]
  case annulus.annulus x _ =>
    obtain ⟨s, k, rfl⟩ := c
    simp only at *
    have e : s = x.shape := Prod.ext (le_antisymm y1 x1) (le_antisymm y3 x3)
    have f : k = x.k := le_antisymm y4 x4
    rw [e, f]
  case disk.disk x _ =>
    obtain ⟨s, k, rfl⟩ := c
    simp only at *
    have e : s = x.shape := Prod.ext (le_antisymm y1 x1) (le_antisymm y3 x3)
    have f : k = x.k := le_antisymm y4 x4
    rw [e, f]
  case shell.shell x _ =>
    obtain ⟨s, k, rfl⟩ := c
    simp only at *
    have e : s = x.shape := Prod.ext (le_antisymm y1 x1) (Prod.ext (le_antisymm y2 x2) (le_antisymm y3 x3))
    have f : k = x.k := le_antisymm y4 x4
    rw [e, f]
  case ball.ball x _ =>
    obtain ⟨s, k, rfl⟩ := c
    simp only at *
    have e : s = x.shape := Prod.ext (le_antisymm y1 x1) (Prod.ext (le_antisymm y2 x2) (le_antisymm y3 x3))
    have f : k = x.k := le_antisymm y4 x4
    rw [e, f]

theorem Within.trans {r s t : Basis} (h : Within r s) (g : Within s t) : Within r t :=
  ⟨h.1.trans g.1, h.2.1.trans g.2.1, h.2.2.1.trans g.2.2.1, h.2.2.2.1.trans g.2.2.2.1, h.2.2.2.2.1.trans g.2.2.2.2.1,
    h.2.2.2.2.2.trans g.2.2.2.2.2⟩

theorem Within.refl (s : Basis) : Within s s := ⟨Compatible.refl s, le_rfl, le_rfl, le_rfl, le_rfl, le_rfl⟩

theorem Smallest.unique {l m : List Basis} {s t : Basis} (hs : Smallest l s) (ht : Smallest m t) (h : ∀ b, b ∈ l ↔ b ∈ m) : s = t :=
  Within.antisymm (hs.2 t fun b hb => ht.1 b ((h b).mp hb)) (ht.2 s fun b hb => hs.1 b ((h b).mpr hb))

theorem SameLibrary.of_compatible {x y z : Basis} (h : Compatible x y) (g : SameLibrary x z) : SameLibrary y z := by
  cases x <;> cases y <;> simp only [Compatible] at h <;> cases z <;> simp only [SameLibrary] at g ⊢
  all_goals (obtain ⟨_, _, rfl⟩ := h; exact g)

theorem sumFrom_iff (l : List Basis) : ∀ (x : Basis) (_ : ∀ b ∈ x :: l, ∀ c ∈ x :: l, SameLibrary b c) (s : Basis),
    sumFrom x l = .ok s ↔ (∀ b ∈ l, Compatible x b) ∧ Smallest (x :: l) s := by
  induction l with
  | nil =>
    intro x _ s
    simp only [sumFrom, Except.ok.injEq]
    constructor
    · rintro rfl
      exact ⟨by simp, fun b hb => by rw [List.mem_singleton.mp hb]; exact Within.refl _, fun t ht => ht _ (by simp)⟩
    · rintro ⟨-, h1, h2⟩
      exact Within.antisymm (h1 x (by simp)) (h2 x fun b hb => by rw [List.mem_singleton.mp hb]; exact Within.refl _)
  | cons y l ih =>
    intro x u s
    by_cases c : Compatible x y
    · have step : sumFrom x (y :: l) = sumFrom (join x y) l := by
        rw [sumFrom, plus_compatible c]; rfl
      have xj : Compatible x (join x y) := compatible_join
      rw [step, ih (join x y)]
      · constructor
        · rintro ⟨hc, h1, h2⟩
          refine ⟨?_, ?_, ?_⟩
          · intro b hb
            rcases List.mem_cons.mp hb with rfl | hb
            · exact c
            · exact xj.trans (hc b hb)
          · intro b hb
            rcases List.mem_cons.mp hb with rfl | hb
            · exact (within_join_left c).trans (h1 _ (by simp))
            rcases List.mem_cons.mp hb with rfl | hb
            · exact (within_join_right c).trans (h1 _ (by simp))
            · exact h1 b (by simp [hb])
          · intro t ht
            refine h2 t fun b hb => ?_
            rcases List.mem_cons.mp hb with rfl | hb
            · exact join_within (ht x (by simp)) (ht y (by simp))
            · exact ht b (by simp [hb])
        · rintro ⟨hc, h1, h2⟩
          refine ⟨?_, ?_, ?_⟩
          · intro b hb
            exact xj.symm.trans (hc b (by simp [hb]))
          · intro b hb
            rcases List.mem_cons.mp hb with rfl | hb
            · exact join_within (h1 x (by simp)) (h1 y (by simp))
            · exact h1 b (by simp [hb])
          · intro t ht
            refine h2 t fun b hb => ?_
            rcases List.mem_cons.mp hb with rfl | hb
            · exact (within_join_left c).trans (ht _ (by simp))
            rcases List.mem_cons.mp hb with rfl | hb
            · exact (within_join_right c).trans (ht _ (by simp))
            · exact ht b (by simp [hb])
      · intro b hb d hd
        rcases List.mem_cons.mp hb with rfl | hb <;> rcases List.mem_cons.mp hd with rfl | hd
        · exact (Compatible.refl _).sameLibrary
        · exact SameLibrary.of_compatible xj (u x (by simp) d (by simp [hd]))
        · have := SameLibrary.of_compatible xj (u x (by simp) b (by simp [hb]))
          revert this
          generalize join x y = j
          cases j <;> cases b <;> simp only [SameLibrary] <;> first | exact fun h => ⟨h.1.symm, h.2.symm⟩ | exact id
        · exact u b (by simp [hb]) d (by simp [hd])
    · obtain ⟨e, he⟩ := plus_incompatible c (u x (by simp) y (by simp))
      have step : sumFrom x (y :: l) = .error e := by rw [sumFrom, he]; rfl
      rw [step]
      constructor
      · intro h; cases h
      · rintro ⟨h, -⟩
        exact absurd (h y (by simp)) c

theorem plus_none (s : Basis) : plus (some s) none = .ok s := by cases s <;> rfl

theorem sumBasis_eq (l : List (Option Basis)) :
    sumBasis l = match l.filterMap id with
      | [] => .ok none
      | x :: xs => (sumFrom x xs).map some := by
  unfold sumBasis
  cases h : l.filterMap id with
  | nil => rfl
  | cons x xs =>
    dsimp only
    split
    · cases sumFrom x xs with
      | error e => rfl
      | ok s => show Except.map some (plus (some s) none) = _; rw [plus_none]; try rfl
    · rfl

/-- A sum, if it is defined, is the smallest basis. -/
theorem sumBasis_iff (l : List (Option Basis)) (u : ∀ b c, some b ∈ l → some c ∈ l → SameLibrary b c) (o : Option Basis) :
    sumBasis l = .ok o ↔
      (∀ b c, some b ∈ l → some c ∈ l → Compatible b c) ∧
        match o with
        | none => ∀ b, ¬ some b ∈ l
        | some s => (∃ b, some b ∈ l) ∧ Smallest (l.filterMap id) s := by
  rw [sumBasis_eq]
  have mem : ∀ b, b ∈ l.filterMap id ↔ some b ∈ l := by simp
  cases h : l.filterMap id with
  | nil =>
    rw [h] at mem
    have no : ∀ b, ¬ some b ∈ l := fun b hb => by simpa using (mem b).mpr hb
    cases o with
    | none => simp [no]
    | some s => simp [no]
  | cons x xs =>
    rw [h] at mem
    have hx : some x ∈ l := (mem x).mp (by simp)
    have uu : ∀ b ∈ x :: xs, ∀ c ∈ x :: xs, SameLibrary b c := fun b hb c hc => u b c ((mem b).mp hb) ((mem c).mp hc)
    dsimp only
    cases o with
    | none =>
      constructor
      · intro h
        cases h' : sumFrom x xs <;> rw [h'] at h <;> cases h
      · rintro ⟨-, h⟩
        exact absurd hx (h x)
    | some s =>
      have : (Except.map some (sumFrom x xs) : Except Err (Option Basis)) = .ok (some s) ↔ sumFrom x xs = .ok s := by
        cases sumFrom x xs <;> simp [Except.map]
      rw [this, sumFrom_iff xs x uu]
      constructor
      · rintro ⟨hc, hs⟩
        refine ⟨?_, ⟨x, hx⟩, hs⟩
        have all : ∀ b ∈ x :: xs, Compatible x b := by
          intro b hb
          rcases List.mem_cons.mp hb with rfl | hb
          · exact Compatible.refl _
          · exact hc b hb
        intro b c hb hc
        exact (all b ((mem b).mpr hb)).symm.trans (all c ((mem c).mpr hc))
      · rintro ⟨hc, -, hs⟩
        exact ⟨fun b hb => hc x b hx ((mem b).mp (by simp [hb])), hs⟩

theorem smallest_append {l m : List Basis} {s t r : Basis} (hs : Smallest l s) (ht : Smallest m t) :
    Smallest (l ++ m) r ↔ Smallest [s, t] r := by
  have key : ∀ x, (∀ b ∈ l ++ m, Within b x) ↔ ∀ b ∈ [s, t], Within b x := by
    intro x
    constructor
    · intro h b hb
      rcases List.mem_cons.mp hb with rfl | hb
      · exact hs.2 x fun b hb => h b (by simp [hb])
      · rw [List.mem_singleton.mp hb]
        exact ht.2 x fun b hb => h b (by simp [hb])
    · intro h b hb
      rcases List.mem_append.mp hb with hb | hb
      · exact (hs.1 b hb).trans (h s (by simp))
      · exact (ht.1 b hb).trans (h t (by simp))
  simp only [Smallest, key]

/-! ### Products -/

@[simp] theorem jac_clone (x : Jac) (s : Nat) (a b : ℚ) : ({ x with size := s, a := a, b := b } : Jac).grid = x.grid := rfl
@[simp] theorem pol_clone (x : Pol) (s : Nat × Nat) (k : Int) : ({ x with shape := s, k := k } : Pol).grid = x.grid := rfl
@[simp] theorem sph_clone (x : Sph) (s : Nat × Nat) : ({ x with shape := s } : Sph).grid = x.grid := rfl
@[simp] theorem rad_clone (x : Rad) (s : Nat) (k : Int) : ({ x with size := s, k := k } : Rad).grid = x.grid := rfl
@[simp] theorem vol_clone (x : Vol) (s : Nat × Nat × Nat) (k : Int) : ({ x with shape := s, k := k } : Vol).grid = x.grid := rfl
@[simp] theorem vol_clone_radial (x : Vol) (s : Nat × Nat × Nat) (k : Int) :
    ({ x with shape := s, k := k } : Vol).radial.grid = x.radial.grid := rfl

theorem vol_radial_grid {x y : Vol} (h : x.grid = y.grid) : x.radial.grid = y.radial.grid := by
  obtain ⟨s, k, rfl⟩ := vol_grid h; rfl

/-- The product of two Jacobi bases with the same grid. -/
def jmul (x y : Jac) : Jac := if y = x then x else { x with size := max x.size y.size, a := x.a0, b := x.b0 }

theorem jmul_grid (x y : Jac) : (jmul x y).grid = x.grid := by unfold jmul; split <;> simp

theorem times_jacobi (x y : Jac) : times (some (.jacobi x)) (some (.jacobi y)) =
    if x.grid = y.grid then .ok (.jacobi (jmul x y)) else .error .typeError := by
  simp only [times, binary, Basis.mul, ni, Basis.cls, jmul]
  by_cases h : y = x
  · subst h; simp
  · by_cases g : x.grid = y.grid <;> simp [h, g]

theorem jmul_assoc {x y z : Jac} (h : x.grid = y.grid) (g : y.grid = z.grid) : jmul (jmul x y) z = jmul x (jmul y z) := by
  obtain ⟨s, a, b, rfl⟩ := jac_grid h
  obtain ⟨s', a', b', rfl⟩ := jac_grid (h.trans g)
  obtain ⟨c, bd, dl, lib, a0, b0, sx, ax, bx⟩ := x
  simp only [jmul, Jac.mk.injEq, true_and]
  split_ifs <;> simp_all

theorem times_fourier (i j : Nat) : times (some (.fourier i)) (some (.fourier j)) = if i = j then .ok (.fourier i) else .error .typeError := by
  by_cases h : i = j <;> simp [times, binary, Basis.mul, ni, Basis.cls, h]

theorem times_annulus (x y : Pol) : times (some (.annulus x)) (some (.annulus y)) =
    if x.grid = y.grid then .ok (.annulus { x with shape := max2 x.shape y.shape, k := x.k + y.k }) else .error .typeError := by
  by_cases h : x.grid = y.grid <;> simp [times, binary, Basis.mul, ni, Basis.cls, h]

theorem times_disk (x y : Pol) : times (some (.disk x)) (some (.disk y)) =
    if x.grid = y.grid then .ok (.disk { x with shape := max2 x.shape y.shape, k := 0 }) else .error .typeError := by
  by_cases h : x.grid = y.grid <;> simp [times, binary, Basis.mul, ni, Basis.cls, h]

theorem times_sphere (x y : Sph) : ∃ e, times (some (.sphere x)) (some (.sphere y)) =
    if x.grid = y.grid then .ok (.sphere { x with shape := max2 x.shape y.shape }) else .error e := by
  by_cases h : x.grid = y.grid
  · refine ⟨.typeError, ?_⟩
    obtain ⟨s, rfl⟩ := sph_grid h
    simp only [times, binary, Basis.mul, ni, Basis.cls, if_pos h]
    by_cases e : ({ x with shape := s } : Sph) = x
    · rw [if_pos e]
      have h1 : s = x.shape := congrArg Sph.shape e
      simp [h1, max2]
    · rw [if_neg e]; simp
  · have n : ¬ y = x := fun e => h (e ▸ rfl)
    by_cases r : x.radius = y.radius
    · exact ⟨.typeError, by simp [times, binary, Basis.mul, ni, Basis.cls, h, n, r]⟩
    · exact ⟨.notImplemented, by simp [times, binary, Basis.mul, h, n, r]⟩

theorem times_shellRadial (x y : Rad) : times (some (.shellRadial x)) (some (.shellRadial y)) =
    if x.grid = y.grid then .ok (.shellRadial { x with size := max x.size y.size, k := x.k + y.k }) else .error .typeError := by
  by_cases h : x.grid = y.grid <;> simp [times, binary, Basis.mul, Basis.cls, mulShellRadial, h]

theorem times_ballRadial (x y : Rad) : times (some (.ballRadial x)) (some (.ballRadial y)) =
    if x.grid = y.grid then .ok (.ballRadial { x with size := max x.size y.size, k := max x.k y.k }) else .error .typeError := by
  by_cases h : x.grid = y.grid <;> simp [times, binary, Basis.mul, Basis.cls, mulBallRadial, h]

theorem times_shell (x y : Vol) : times (some (.shell x)) (some (.shell y)) =
    if x.grid = y.grid then .ok (.shell { x with shape := max3 x.shape y.shape, k := x.k + y.k }) else .error .typeError := by
  by_cases h : x.grid = y.grid
  · rw [if_pos h]
    obtain ⟨s, k, rfl⟩ := vol_grid h
    simp [times, binary, Basis.mul, radialK, mulShellRadial, Except.map, Vol.radial, Rad.grid]
  · simp [times, binary, Basis.mul, ni, Basis.cls, h]

theorem times_shell_radial (x : Vol) (y : Rad) : times (some (.shell x)) (some (.shellRadial y)) =
    if y.grid = x.radial.grid then .ok (.shell { x with k := y.k + x.k }) else .error .typeError := by
  by_cases h : y.grid = x.radial.grid
  · simp [times, binary, Basis.mul, radialK, mulShellRadial, h, Except.map, Vol.radial]
  · simp [times, binary, Basis.mul, radialK, mulShellRadial, h, Except.map]

theorem times_radial_shell (x : Vol) (y : Rad) : times (some (.shellRadial y)) (some (.shell x)) =
    if y.grid = x.radial.grid then .ok (.shell { x with k := y.k + x.k }) else .error .typeError := by
  by_cases h : y.grid = x.radial.grid
  · simp [times, binary, Basis.mul, ni, Basis.cls, radialK, mulShellRadial, h, Except.map, Vol.radial]
  · simp [times, binary, Basis.mul, ni, Basis.cls, radialK, mulShellRadial, h, Except.map]

theorem times_ball (x y : Vol) : times (some (.ball x)) (some (.ball y)) =
    if x.grid = y.grid then .ok (.ball { x with shape := max3 x.shape y.shape, k := 0 }) else .error .typeError := by
  by_cases h : x.grid = y.grid <;> simp [times, binary, Basis.mul, ni, Basis.cls, h]

@[simp] theorem vol_clone_k (x : Vol) (k : Int) : ({ x with k := k } : Vol).grid = x.grid := rfl
@[simp] theorem vol_clone_k_radial (x : Vol) (k : Int) : ({ x with k := k } : Vol).radial.grid = x.radial.grid := rfl

theorem max2_assoc (s t r : Nat × Nat) : max2 (max2 s t) r = max2 s (max2 t r) := by simp [max2, max_assoc]
theorem max3_assoc (s t r : Nat × Nat × Nat) : max3 (max3 s t) r = max3 s (max3 t r) := by simp [max3, max_assoc]

theorem product_grouping_same (x y z : Basis) (h : x.cls = y.cls ∧ y.cls = z.cls) (e : Basis) :
    ((times (some x) (some y)).bind fun p => times (some p) (some z)) = .ok e ↔
      ((times (some y) (some z)).bind fun p => times (some x) (some p)) = .ok e := by
  obtain ⟨h1, h2⟩ := h
  cases x <;> cases y <;> simp [Basis.cls] at h1 <;> cases z <;> simp [Basis.cls] at h2
  case fourier i j k =>
    by_cases b : j = k
    · subst b
      by_cases a : i = j <;> simp [times_fourier, a, Except.bind]
    · by_cases a : i = j <;> simp [times_fourier, a, b, Except.bind]
  case jacobi x y z =>
    by_cases a : x.grid = y.grid
    · by_cases b : y.grid = z.grid
      · simp [times_jacobi, a, b, Except.bind, jmul_grid, jmul_assoc a b]
      · simp [times_jacobi, a, b, Except.bind, jmul_grid]
    · by_cases b : y.grid = z.grid
      · simp [times_jacobi, a, b, Except.bind, jmul_grid]
        simp [← b, a]
      · simp [times_jacobi, a, b, Except.bind]
  case annulus x y z =>
    by_cases a : x.grid = y.grid <;> by_cases b : y.grid = z.grid <;>
      simp [times_annulus, a, b, Except.bind, max2_assoc, add_assoc]
    all_goals simp [← b, a]
  case disk x y z =>
    by_cases a : x.grid = y.grid <;> by_cases b : y.grid = z.grid <;>
      simp [times_disk, a, b, Except.bind, max2_assoc]
    all_goals simp [← b, a]
  case sphere x y z =>
    obtain ⟨e1, h1⟩ := times_sphere x y
    obtain ⟨e2, h2⟩ := times_sphere y z
    obtain ⟨e3, h3⟩ := times_sphere { x with shape := max2 x.shape y.shape } z
    obtain ⟨e4, h4⟩ := times_sphere x { y with shape := max2 y.shape z.shape }
    by_cases a : x.grid = y.grid <;> by_cases b : y.grid = z.grid <;>
      simp [h1, h2, h3, h4, a, b, Except.bind, max2_assoc]
    all_goals simp [← b, a]
  case shellRadial x y z =>
    by_cases a : x.grid = y.grid <;> by_cases b : y.grid = z.grid <;>
      simp [times_shellRadial, a, b, Except.bind, max_assoc, add_assoc]
    all_goals simp [← b, a]
  case ballRadial x y z =>
    by_cases a : x.grid = y.grid <;> by_cases b : y.grid = z.grid <;>
      simp [times_ballRadial, a, b, Except.bind, max_assoc]
    all_goals simp [← b, a]
  case shell x y z =>
    by_cases a : x.grid = y.grid <;> by_cases b : y.grid = z.grid <;>
      simp [times_shell, a, b, Except.bind, max3_assoc, add_assoc]
    all_goals simp [← b, a]
  case ball x y z =>
    by_cases a : x.grid = y.grid <;> by_cases b : y.grid = z.grid <;>
      simp [times_ball, a, b, Except.bind, max3_assoc]
    all_goals simp [← b, a]

theorem product_grouping_shell (x y z : Basis) (h : InShell x ∧ InShell y ∧ InShell z) (e : Basis) :
    ((times (some x) (some y)).bind fun p => times (some p) (some z)) = .ok e ↔
      ((times (some y) (some z)).bind fun p => times (some x) (some p)) = .ok e := by
  by_cases c : x.cls = y.cls ∧ y.cls = z.cls
  · exact product_grouping_same x y z c e
  obtain ⟨h1, h2, h3⟩ := h
  cases x <;> simp only [InShell] at h1 <;> cases y <;> simp only [InShell] at h2 <;> cases z <;> simp only [InShell] at h3 <;>
    simp [Basis.cls] at c
  case shellRadial.shellRadial.shell x y z =>
    by_cases a : x.grid = y.grid <;> by_cases b : y.grid = z.radial.grid <;>
      simp [times_radial_shell, times_shellRadial, a, b, Except.bind, add_assoc]
    all_goals simp [← b, a]
  case shellRadial.shell.shellRadial x y z =>
    by_cases a : x.grid = y.radial.grid <;> by_cases b : z.grid = y.radial.grid <;>
      simp [times_radial_shell, times_shell_radial, a, b, Except.bind]
    all_goals ring_nf
  case shellRadial.shell.shell x y z =>
    by_cases a : x.grid = y.radial.grid <;> by_cases b : y.grid = z.grid <;>
      simp [times_radial_shell, times_shell, a, b, Except.bind, add_assoc]
  case shell.shellRadial.shellRadial x y z =>
    by_cases a : y.grid = x.radial.grid
    · by_cases b : y.grid = z.grid
      · have c : z.grid = x.radial.grid := b.symm.trans a
        have k : z.k + (y.k + x.k) = y.k + z.k + x.k := by ring
        simp [times_shell_radial, times_shellRadial, a, c, Except.bind, k]
      · have c : ¬ z.grid = x.radial.grid := fun c => b (a.trans c.symm)
        simp [times_shell_radial, times_shellRadial, a, c, Except.bind, Ne.symm c]
    · by_cases b : y.grid = z.grid <;>
        simp [times_shell_radial, times_shellRadial, a, b, Except.bind]
      rw [← b]; simp [a]
  case shell.shellRadial.shell x y z =>
    by_cases b : x.grid = z.grid
    · have r := vol_radial_grid b
      have k : y.k + x.k + z.k = x.k + (y.k + z.k) := by ring
      by_cases a : y.grid = z.radial.grid <;>
        simp [times_radial_shell, times_shell, times_shell_radial, a, b, r, Except.bind, k]
    · by_cases a : y.grid = x.radial.grid <;> by_cases d : y.grid = z.radial.grid <;>
        simp [times_radial_shell, times_shell, times_shell_radial, a, b, d, Except.bind]
      · rw [a] at d; simp [d, times_shell, b]
      · rw [a] at d; simp [d]
      · rw [d] at a; simp [a]
  case shell.shell.shellRadial x y z =>
    by_cases a : x.grid = y.grid
    · have r := vol_radial_grid a
      have k : z.k + (x.k + y.k) = x.k + (z.k + y.k) := by ring
      by_cases b : z.grid = y.radial.grid <;>
        simp [times_shell_radial, times_shell, a, b, r, Except.bind, k]
    · by_cases b : z.grid = y.radial.grid <;>
        simp [times_shell_radial, times_shell, a, b, Except.bind]

end Dedalus.BasisOps
