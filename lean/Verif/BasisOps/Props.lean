import Verif.BasisOps.Lemmas

/-!
# Theorems: the bases of sums and products

* C90: the basis of a sum (`sum_basis`, `sum_basis_fails`, `sum_order`, `sum_grouping`).
* C91: the basis of a product (`product_order`, `product_resolution_partial`, `product_resolution_refuted`, `product_grouping_partial`,
  `product_grouping_refuted`, `ncc_product_contains_operand`, `ncc_product_resolution_partial`, `ncc_product_resolution_refuted`).
* C92: sums of fields of different resolution in an annulus (`annulus_sum_partial`, `annulus_sum_raises`, `axisymmetric_sum_refuted`).
-/

namespace Dedalus.BasisOps

/-! ## Sums -/

/-- C90. The sum of fields with compatible bases (`None` for constants) has the smallest basis that contains all of them. -/
theorem sum_basis (l : List (Option Basis)) (hl : ∃ b, some b ∈ l)
    (hc : ∀ b c, some b ∈ l → some c ∈ l → Compatible b c) :
    ∃ s, sumBasis l = .ok (some s) ∧ Smallest (l.filterMap id) s := by
  rw [sumBasis_eq]
  have mem : ∀ b, b ∈ l.filterMap id ↔ some b ∈ l := by simp
  cases h : l.filterMap id with
  | nil =>
    obtain ⟨b, hb⟩ := hl
    rw [← mem, h] at hb
    exact absurd hb (by simp)
  | cons x xs =>
    rw [h] at mem
    have cs : ∀ (xs : List Basis) (x : Basis), (∀ b ∈ xs, Compatible x b) → ∃ s, sumFrom x xs = .ok s := by
      intro xs
      induction xs with
      | nil => intro x _; exact ⟨x, rfl⟩
      | cons y ys ih =>
        intro x hx
        obtain ⟨s, hs⟩ := ih (join x y) fun b hb => compatible_join.symm.trans (hx b (by simp [hb]))
        exact ⟨s, by rw [sumFrom, plus_compatible (hx y (by simp))]; exact hs⟩
    obtain ⟨s, hs⟩ := cs xs x fun b hb => hc x b ((mem x).mp (by simp)) ((mem b).mp (by simp [hb]))
    refine ⟨s, by dsimp only; rw [hs]; rfl, ?_⟩
    refine ((sumFrom_iff xs x ?_ s).mp hs).2
    intro b hb c hc'
    exact (hc b c ((mem b).mp hb) ((mem c).mp hc')).sameLibrary

/-- C90. A sum of constants is a constant. -/
theorem sum_constants (l : List (Option Basis)) (h : ∀ b ∈ l, b = none) : sumBasis l = .ok none := by
  rw [sumBasis_eq]
  have : l.filterMap id = [] := by
    rw [List.filterMap_eq_nil_iff]
    intro b hb
    rw [h b hb]; rfl
  rw [this]

/-- C90. A sum raises an exception if two of the bases are not compatible. -/
theorem sum_basis_fails (l : List (Option Basis)) (u : ∀ b c, some b ∈ l → some c ∈ l → SameLibrary b c) {b c : Basis}
    (hb : some b ∈ l) (hc : some c ∈ l) (h : ¬ Compatible b c) : ∃ e, sumBasis l = .error e := by
  cases g : sumBasis l with
  | error e => exact ⟨e, rfl⟩
  | ok o => exact absurd (((sumBasis_iff l u o).mp g).1 b c hb hc) h

/-- C90. The basis of a sum, and whether there is one, does not depend on the order of the addends. -/
theorem sum_order {l l' : List (Option Basis)} (p : l.Perm l') (u : ∀ b c, some b ∈ l → some c ∈ l → SameLibrary b c) (o : Option Basis) :
    sumBasis l = .ok o ↔ sumBasis l' = .ok o := by
  have hm : ∀ b, some b ∈ l ↔ some b ∈ l' := fun b => p.mem_iff
  have u' : ∀ b c, some b ∈ l' → some c ∈ l' → SameLibrary b c := fun b c hb hc => u b c ((hm b).mpr hb) ((hm c).mpr hc)
  rw [sumBasis_iff l u, sumBasis_iff l' u']
  cases o with
  | none => simp only [hm]
  | some s =>
    have : Smallest (l.filterMap id) s ↔ Smallest (l'.filterMap id) s := by
      simp only [Smallest, List.mem_filterMap, id, exists_eq_right, hm]
    simp only [hm, this]

/-- C90. The basis of a sum does not depend on how the addends are grouped: a sum of two sums has the basis of the whole sum. -/
theorem sum_grouping (l m : List (Option Basis)) (u : ∀ b c, some b ∈ l ++ m → some c ∈ l ++ m → SameLibrary b c) (o : Option Basis) :
    sumBasis (l ++ m) = .ok o ↔ ∃ s t, sumBasis l = .ok s ∧ sumBasis m = .ok t ∧ sumBasis [s, t] = .ok o := by
  have ul : ∀ b c, some b ∈ l → some c ∈ l → SameLibrary b c := fun b c hb hc => u b c (by simp [hb]) (by simp [hc])
  have um : ∀ b c, some b ∈ m → some c ∈ m → SameLibrary b c := fun b c hb hc => u b c (by simp [hb]) (by simp [hc])
  have one : ∀ s : Basis, sumBasis [some s, none] = .ok (some s) := fun s => by
    rw [sumBasis_eq]; rfl
  have two : ∀ s : Basis, sumBasis [none, some s] = .ok (some s) := fun s => by
    rw [sumBasis_eq]; rfl
  have fm : (l ++ m).filterMap id = l.filterMap id ++ m.filterMap id := List.filterMap_append
  by_cases hl : ∃ b, some b ∈ l
  · by_cases hm : ∃ b, some b ∈ m
    · obtain ⟨b, hb⟩ := hl
      obtain ⟨c, hc⟩ := hm
      constructor
      · intro h
        have h' := (sumBasis_iff _ u o).mp h
        obtain ⟨s, hs, ss⟩ := sum_basis l ⟨b, hb⟩ fun b c hb hc => h'.1 b c (by simp [hb]) (by simp [hc])
        obtain ⟨t, ht, tt⟩ := sum_basis m ⟨c, hc⟩ fun b c hb hc => h'.1 b c (by simp [hb]) (by simp [hc])
        have cb : Compatible b s := (ss.1 b (by simpa using hb)).1
        have cc : Compatible c t := (tt.1 c (by simpa using hc)).1
        have cst : Compatible s t := (cb.symm.trans (h'.1 b c (by simp [hb]) (by simp [hc]))).trans cc
        refine ⟨some s, some t, hs, ht, ?_⟩
        have uu : ∀ x y, some x ∈ [some s, some t] → some y ∈ [some s, some t] → SameLibrary x y := by
          intro x y hx hy
          have hx' : Compatible s x := by
            rcases List.mem_cons.mp hx with e | e
            · cases e; exact Compatible.refl _
            · cases List.mem_singleton.mp e; exact cst
          have hy' : Compatible s y := by
            rcases List.mem_cons.mp hy with e | e
            · cases e; exact Compatible.refl _
            · cases List.mem_singleton.mp e; exact cst
          exact (hx'.symm.trans hy').sameLibrary
        obtain ⟨r, hr, rr⟩ := sum_basis [some s, some t] ⟨s, by simp⟩ (by
          intro x y hx hy
          have hx' : Compatible s x := by
            rcases List.mem_cons.mp hx with e | e
            · cases e; exact Compatible.refl _
            · cases List.mem_singleton.mp e; exact cst
          have hy' : Compatible s y := by
            rcases List.mem_cons.mp hy with e | e
            · cases e; exact Compatible.refl _
            · cases List.mem_singleton.mp e; exact cst
          exact hx'.symm.trans hy')
        cases o with
        | none => exact absurd (by simp [hb]) (h'.2 b)
        | some r' =>
          have r2 := h'.2.2
          rw [fm, smallest_append ss tt] at r2
          rw [hr, Smallest.unique rr r2 fun b => Iff.rfl]
      · rintro ⟨s, t, hs, ht, h⟩
        have hs' := (sumBasis_iff l ul s).mp hs
        have ht' := (sumBasis_iff m um t).mp ht
        cases s with
        | none => exact absurd hb (hs'.2 b)
        | some s =>
          cases t with
          | none => exact absurd hc (ht'.2 c)
          | some t =>
            have cb : Compatible b s := (hs'.2.2.1 b (by simpa using hb)).1
            have cc : Compatible c t := (ht'.2.2.1 c (by simpa using hc)).1
            have cst : Compatible s t := by
              by_contra hn
              have sl : SameLibrary s t := by
                have h1 := SameLibrary.of_compatible cb (u b c (by simp [hb]) (by simp [hc]))
                have h2 : SameLibrary c s := by
                  revert h1
                  cases s <;> cases c <;> simp only [SameLibrary] <;> first | exact fun h => ⟨h.1.symm, h.2.symm⟩ | exact id
                have h3 := SameLibrary.of_compatible cc h2
                revert h3
                cases s <;> cases t <;> simp only [SameLibrary] <;> first | exact fun h => ⟨h.1.symm, h.2.symm⟩ | exact id
              obtain ⟨e, he⟩ := plus_incompatible hn sl
              have : sumBasis [some s, some t] = .error e := by
                rw [sumBasis_eq]
                show Except.map some (sumFrom s [t]) = _
                rw [sumFrom, he]; rfl
              rw [this] at h; cases h
            have hr := (sumBasis_iff [some s, some t] (by
              intro x y hx hy
              have hx' : Compatible s x := by
                rcases List.mem_cons.mp hx with e | e
                · cases e; exact Compatible.refl _
                · cases List.mem_singleton.mp e; exact cst
              have hy' : Compatible s y := by
                rcases List.mem_cons.mp hy with e | e
                · cases e; exact Compatible.refl _
                · cases List.mem_singleton.mp e; exact cst
              exact (hx'.symm.trans hy').sameLibrary) o).mp h
            cases o with
            | none => exact absurd (by simp) (hr.2 s)
            | some r =>
              refine (sumBasis_iff _ u (some r)).mpr ⟨?_, ⟨b, by simp [hb]⟩, ?_⟩
              · have all : ∀ x, some x ∈ l ++ m → Compatible s x := by
                  intro x hx
                  rcases List.mem_append.mp hx with hx | hx
                  · exact (hs'.2.2.1 x (by simpa using hx)).1.symm
                  · exact cst.trans (ht'.2.2.1 x (by simpa using hx)).1.symm
                intro x y hx hy
                exact (all x hx).symm.trans (all y hy)
              · rw [fm, smallest_append hs'.2.2 ht'.2.2]
                exact hr.2.2
    · have no : ∀ b, ¬ some b ∈ m := fun b hb => hm ⟨b, hb⟩
      have hmn : sumBasis m = .ok none := (sumBasis_iff m um none).mpr ⟨fun b c hb => absurd hb (no b), no⟩
      have e : sumBasis (l ++ m) = sumBasis l := by
        rw [sumBasis_eq, sumBasis_eq, fm]
        have : m.filterMap id = [] := by
          rw [List.filterMap_eq_nil_iff]
          intro b hb
          cases b with
          | none => rfl
          | some b => exact absurd hb (no b)
        rw [this, List.append_nil]
      rw [e]
      constructor
      · intro h
        cases o with
        | none => exact ⟨none, none, h, hmn, by rw [sumBasis_eq]; rfl⟩
        | some s => exact ⟨some s, none, h, hmn, one s⟩
      · rintro ⟨s, t, hs, ht, h⟩
        rw [hmn] at ht
        cases ht
        cases s with
        | none => rw [sumBasis_eq] at h; cases h; exact hs
        | some s => rw [one] at h; cases h; exact hs
  · have no : ∀ b, ¬ some b ∈ l := fun b hb => hl ⟨b, hb⟩
    have hln : sumBasis l = .ok none := (sumBasis_iff l ul none).mpr ⟨fun b c hb => absurd hb (no b), no⟩
    have e : sumBasis (l ++ m) = sumBasis m := by
      rw [sumBasis_eq, sumBasis_eq, fm]
      have : l.filterMap id = [] := by
        rw [List.filterMap_eq_nil_iff]
        intro b hb
        cases b with
        | none => rfl
        | some b => exact absurd hb (no b)
      rw [this, List.nil_append]
    rw [e]
    constructor
    · intro h
      cases o with
      | none => exact ⟨none, none, hln, h, by rw [sumBasis_eq]; rfl⟩
      | some s => exact ⟨none, some s, hln, h, two s⟩
    · rintro ⟨s, t, hs, ht, h⟩
      rw [hln] at hs
      cases hs
      cases t with
      | none => rw [sumBasis_eq] at h; cases h; exact ht
      | some s => rw [two] at h; cases h; exact ht

/-- An annulus basis for the examples. -/
def annulusOf (n m : Nat) (k : Int) (d : DType := .float64) : Basis := .annulus ⟨0, d, 0, 0, 0, 0, 0, (n, m), k⟩

/-- Two fields of different resolution and `k` and a constant. -/
example : sumBasis [some (annulusOf 8 32 0), none, some (annulusOf 16 24 1)] = .ok (some (annulusOf 16 32 1)) := by decide +kernel

example : ∃ s, sumBasis [some (annulusOf 8 32 0), none, some (annulusOf 16 24 1)] = .ok (some s) ∧
    Smallest [annulusOf 8 32 0, annulusOf 16 24 1] s :=
  sum_basis _ ⟨annulusOf 8 32 0, by simp⟩ (by
    have c : ∀ n m k, Compatible (annulusOf 0 0 0) (annulusOf n m k) := fun n m k => ⟨_, _, rfl⟩
    intro b d hb hd
    simp only [List.mem_cons, Option.some.injEq, reduceCtorEq, List.not_mem_nil, or_false, false_or] at hb hd
    rcases hb with rfl | rfl <;> rcases hd with rfl | rfl <;> exact (c _ _ _).symm.trans (c _ _ _))

example (o : Option Basis) : sumBasis [some (annulusOf 8 32 0), some (annulusOf 16 24 1)] = .ok o ↔
    sumBasis [some (annulusOf 16 24 1), some (annulusOf 8 32 0)] = .ok o :=
  sum_order (List.Perm.swap ..) (by
    intro b c hb hc
    simp only [List.mem_cons, Option.some.injEq, List.not_mem_nil, or_false] at hb hc
    rcases hb with rfl | rfl <;> rcases hc with rfl | rfl <;> trivial) o

/-- An annulus and a disk cannot be added. -/
example : ∃ e, sumBasis [some (annulusOf 8 32 0), some (.disk ⟨0, .float64, 0, 0, 0, 0, 0, (8, 32), 0⟩)] = .error e :=
  sum_basis_fails _ (by
    intro b c hb hc
    simp only [List.mem_cons, Option.some.injEq, List.not_mem_nil, or_false] at hb hc
    rcases hb with rfl | rfl <;> rcases hc with rfl | rfl <;> trivial) (List.mem_cons_self) (List.mem_cons_of_mem _ List.mem_cons_self) id

/-! ## Products -/

theorem times_comm (x y : Basis) (u : SameLibrary x y) (e : Basis) : times (some x) (some y) = .ok e ↔ times (some y) (some x) = .ok e := by
  cases x <;> cases y
  case fourier.fourier i j =>
    simp only [times, binary, Basis.mul, ni, Basis.cls]
    by_cases h : i = j
    · subst h; simp
    · rw [if_neg h, if_neg (Ne.symm h)]
  case jacobi.jacobi x y =>
    simp only [times, binary, Basis.mul, ni, Basis.cls]
    by_cases h : y = x
    · subst h; simp
    · rw [if_neg h, if_neg (Ne.symm h)]
      by_cases g : x.grid = y.grid
      · obtain ⟨s, a, b, rfl⟩ := jac_grid g
        simp [Jac.grid, max_comm]
      · rw [if_neg g, if_neg (Ne.symm g)]
  case annulus.annulus x y =>
    simp only [times, binary, Basis.mul, ni, Basis.cls]
    by_cases g : x.grid = y.grid
    · obtain ⟨s, k, rfl⟩ := pol_grid g
      simp [Pol.grid, max2, max_comm, add_comm]
    · rw [if_neg g, if_neg (Ne.symm g)]
  case disk.disk x y =>
    simp only [times, binary, Basis.mul, ni, Basis.cls]
    by_cases g : x.grid = y.grid
    · obtain ⟨s, k, rfl⟩ := pol_grid g
      simp [Pol.grid, max2, max_comm]
    · rw [if_neg g, if_neg (Ne.symm g)]
  case sphere.sphere x y =>
    simp only [times, binary, Basis.mul, ni, Basis.cls]
    by_cases h : y = x
    · subst h; simp
    · rw [if_neg h, if_neg (Ne.symm h)]
      by_cases g : x.grid = y.grid
      · obtain ⟨s, rfl⟩ := sph_grid g
        simp [Sph.grid, max2, max_comm]
      · rw [if_neg g, if_neg (Ne.symm g)]
        by_cases r : x.radius = y.radius
        · simp [r]
        · simp [r, Ne.symm r]
  case shellRadial.shellRadial x y =>
    simp only [times, binary, Basis.mul, Basis.cls, mulShellRadial]
    by_cases g : x.grid = y.grid
    · obtain ⟨s, k, rfl⟩ := rad_grid g u.1 u.2
      simp [Rad.grid, max_comm, add_comm]
    · rw [if_neg g, if_neg (Ne.symm g)]
  case ballRadial.ballRadial x y =>
    simp only [times, binary, Basis.mul, Basis.cls, mulBallRadial]
    by_cases g : x.grid = y.grid
    · obtain ⟨s, k, rfl⟩ := rad_grid g u.1 u.2
      simp [Rad.grid, max_comm]
    · rw [if_neg g, if_neg (Ne.symm g)]
  case shell.shell x y =>
    simp only [times, binary, Basis.mul, ni, Basis.cls, radialK, mulShellRadial]
    by_cases g : x.grid = y.grid
    · obtain ⟨s, k, rfl⟩ := vol_grid g
      simp [Vol.grid, Vol.radial, Rad.grid, max3, max_comm, add_comm, Except.map]
    · rw [if_neg g, if_neg (Ne.symm g)]
  case ball.ball x y =>
    simp only [times, binary, Basis.mul, ni, Basis.cls]
    by_cases g : x.grid = y.grid
    · obtain ⟨s, k, rfl⟩ := vol_grid g
      simp [Vol.grid, max3, max_comm]
    · rw [if_neg g, if_neg (Ne.symm g)]
  case shell.shellRadial x y =>
    simp only [times, binary, Basis.mul, ni, Basis.cls]
    cases h : radialK mulShellRadial y x.radial <;> simp [Except.map]
  case shellRadial.shell x y =>
    simp only [times, binary, Basis.mul, ni, Basis.cls]
    cases h : radialK mulShellRadial x y.radial <;> simp [Except.map]
  case ball.ballRadial x y =>
    simp only [times, binary, Basis.mul, ni, Basis.cls]
    cases h : radialK mulBallRadial y x.radial <;> simp [Except.map]
  case ballRadial.ball x y =>
    simp only [times, binary, Basis.mul, ni, Basis.cls]
    cases h : radialK mulBallRadial x y.radial <;> simp [Except.map]
  case shellRadial.sphere x y =>
    simp only [times, binary, Basis.mul, ni, Basis.cls, unified]
    by_cases c : x.coordsys = y.coordsys <;> by_cases d : x.dtype = y.dtype <;> simp [c, d, bind, Except.bind, pure, Except.pure]
  case sphere.shellRadial x y =>
    simp only [times, binary, Basis.mul, ni, Basis.cls, unified]
    by_cases c : y.coordsys = x.coordsys <;> by_cases d : y.dtype = x.dtype <;> simp [c, d, bind, Except.bind, pure, Except.pure]
  all_goals simp [times, binary, Basis.mul, ni, Basis.cls]

theorem times_of_product {x y : Basis} {o : Option Basis} (h : productBasis .grid (some x) (some y) = .ok o) :
    ∃ z, o = some z ∧ times (some x) (some y) = .ok z := by
  have e : (times (some x) (some y)).map some = .ok o := h
  cases c : times (some x) (some y) <;> rw [c] at e <;> simp [Except.map] at e
  exact ⟨_, e.symm, rfl⟩

/-- C91. The basis of a product on the grid does not depend on the order of the two factors. -/
theorem product_order (x y : Basis) (u : SameLibrary x y) (o : Option Basis) :
    productBasis .grid (some x) (some y) = .ok o ↔ productBasis .grid (some y) (some x) = .ok o := by
  constructor
  · intro h
    obtain ⟨z, rfl, hz⟩ := times_of_product h
    show (times (some y) (some x)).map some = _
    rw [(times_comm x y u z).mp hz]; rfl
  · intro h
    obtain ⟨z, rfl, hz⟩ := times_of_product h
    show (times (some x) (some y)).map some = _
    rw [(times_comm x y u z).mpr hz]; rfl

/-- C91 (partial). The product has, in every direction, the modes of the factor that has more of them. Missing: products of a radial basis with
a shell or ball basis (see `product_resolution_refuted`). -/
theorem product_resolution_partial {x y z : Basis} (h : ¬ Mixed x y) (p : productBasis .grid (some x) (some y) = .ok (some z)) :
    resolution z = maxRes (resolution x) (resolution y) := by
  have e : times (some x) (some y) = .ok z := by
    obtain ⟨w, e, hw⟩ := times_of_product p
    cases e; exact hw
  cases x <;> cases y <;> simp only [Mixed, not_true_eq_false] at h <;>
    simp only [times, binary, Basis.mul, ni, Basis.cls, mulShellRadial, mulBallRadial, radialK, reduceCtorEq, Nat.reduceEqDiff, if_false] at e
  case fourier.fourier i j =>
    by_cases c : i = j
    · rw [if_pos c] at e; cases e; simp [resolution, maxRes]
    · rw [if_neg c] at e; simp at e
  case jacobi.jacobi x y =>
    by_cases c : y = x
    · rw [if_pos c] at e; cases e; subst c; simp [resolution, maxRes]
    · rw [if_neg c] at e
      by_cases g : x.grid = y.grid
      · rw [if_pos g] at e; cases e; simp [resolution, maxRes]
      · rw [if_neg g] at e; simp at e
  case annulus.annulus x y =>
    by_cases g : x.grid = y.grid
    · rw [if_pos g] at e; cases e; simp [resolution, maxRes, max2]
    · rw [if_neg g] at e; simp at e
  case disk.disk x y =>
    by_cases g : x.grid = y.grid
    · rw [if_pos g] at e; cases e; simp [resolution, maxRes, max2]
    · rw [if_neg g] at e; simp at e
  case sphere.sphere x y =>
    by_cases c : y = x
    · rw [if_pos c] at e; cases e; subst c; simp [resolution, maxRes]
    · rw [if_neg c] at e
      by_cases r : x.radius = y.radius
      · rw [if_neg (by simp [r])] at e
        by_cases g : x.grid = y.grid
        · rw [if_pos g] at e; cases e; simp [resolution, maxRes, max2]
        · rw [if_neg g] at e; simp at e
      · rw [if_pos r] at e; simp at e
  case shellRadial.shellRadial x y =>
    by_cases g : x.grid = y.grid
    · rw [if_pos g] at e; cases e; simp [resolution, maxRes]
    · rw [if_neg g] at e; simp at e
  case ballRadial.ballRadial x y =>
    by_cases g : x.grid = y.grid
    · rw [if_pos g] at e; cases e; simp [resolution, maxRes]
    · rw [if_neg g] at e; simp at e
  case shell.shell x y =>
    by_cases g : x.grid = y.grid
    · rw [if_pos g] at e
      obtain ⟨s, k, rfl⟩ := vol_grid g
      simp [Vol.radial, Rad.grid, Except.map] at e
      subst e; simp [resolution, maxRes, max3]
    · rw [if_neg g] at e; simp at e
  case ball.ball x y =>
    by_cases g : x.grid = y.grid
    · rw [if_pos g] at e; cases e; simp [resolution, maxRes, max3]
    · rw [if_neg g] at e; simp at e
  case shellRadial.sphere x y =>
    by_cases c : x.coordsys = y.coordsys <;> by_cases d : x.dtype = y.dtype <;>
      simp [c, d, unified, bind, Except.bind, pure, Except.pure] at e
    subst e; simp [resolution, maxRes]
  case sphere.shellRadial y x =>
    by_cases c : x.coordsys = y.coordsys <;> by_cases d : x.dtype = y.dtype <;>
      simp [c, d, unified, bind, Except.bind, pure, Except.pure] at e
    subst e; simp [resolution, maxRes]
  all_goals simp at e

/-- A shell basis and a radial basis of a shell, with the given sizes and `k`. -/
def shellOf (n m r : Nat) (k : Int) : Basis := .shell ⟨0, .float64, 0, 0, (1, 1, 1), 0, 0, 0, (n, m, r), k⟩
def shellRadialOf (r : Nat) (k : Int) : Basis := .shellRadial ⟨0, .float64, 0, 0, 1, 0, r, k⟩

/-- A ball basis and a radial basis of a ball. -/
def ballOf (n m r : Nat) (k : Int) : Basis := .ball ⟨0, .float64, 0, 0, (1, 1, 1), 0, 0, 0, (n, m, r), k⟩
def ballRadialOf (r : Nat) (k : Int) : Basis := .ballRadial ⟨0, .float64, 0, 0, 1, 0, r, k⟩

/-- A sphere basis. -/
def sphereOf (n m : Nat) : Basis := .sphere ⟨0, .float64, 0, (1, 1), 0, 0, (n, m)⟩

example : resolution (annulusOf 16 32 3) = maxRes (resolution (annulusOf 8 32 1)) (resolution (annulusOf 16 24 2)) :=
  product_resolution_partial (x := annulusOf 8 32 1) (y := annulusOf 16 24 2) id (by decide +kernel)

example : productBasis .grid (some (shellRadialOf 8 1)) (some (shellRadialOf 12 2)) = .ok (some (shellRadialOf 12 3)) :=
  (product_order (shellRadialOf 8 1) (shellRadialOf 12 2) ⟨rfl, rfl⟩ _).mpr (by decide +kernel)

/-- C91 (refuted). The product of a field on a shell (or ball) with 16 radial modes and a radial field with 32 of them has 16 radial modes. -/
theorem product_resolution_refuted :
    (times (some (shellRadialOf 32 0)) (some (shellOf 8 8 16 0)) = .ok (shellOf 8 8 16 0) ∧
      (resolution (shellOf 8 8 16 0)).2.2 < (resolution (shellRadialOf 32 0)).2.2) ∧
    (times (some (ballOf 8 8 16 0)) (some (ballRadialOf 32 0)) = .ok (ballOf 8 8 16 0) ∧
      (resolution (ballOf 8 8 16 0)).2.2 < (resolution (ballRadialOf 32 0)).2.2) := by
  refine ⟨⟨?_, ?_⟩, ?_, ?_⟩ <;> decide +kernel

/-- C91 (partial). The basis of a product of three factors of the same class, or of shell and shell radial bases, does not depend on the
grouping. Missing: other products (see `product_grouping_refuted`). -/
theorem product_grouping_partial (x y z : Basis) (h : (x.cls = y.cls ∧ y.cls = z.cls) ∨ (InShell x ∧ InShell y ∧ InShell z)) (e : Basis) :
    ((times (some x) (some y)).bind fun p => times (some p) (some z)) = .ok e ↔
      ((times (some y) (some z)).bind fun p => times (some x) (some p)) = .ok e := by
  rcases h with h | h
  · exact product_grouping_same x y z h e
  · exact product_grouping_shell x y z h e

/-- C91 (refuted). In a ball the parameter `k` of the product depends on the grouping; with a field on a sphere and two radial fields of a shell
the number of radial modes does. -/
theorem product_grouping_refuted :
    (((times (some (ballRadialOf 8 2)) (some (ballOf 8 8 8 0))).bind fun p => times (some p) (some (ballOf 8 8 8 0))) = .ok (ballOf 8 8 8 0) ∧
      ((times (some (ballOf 8 8 8 0)) (some (ballOf 8 8 8 0))).bind fun p => times (some (ballRadialOf 8 2)) (some p)) = .ok (ballOf 8 8 8 2)) ∧
    (((times (some (shellRadialOf 32 0)) (some (shellRadialOf 16 0))).bind fun p => times (some p) (some (sphereOf 8 8))) = .ok (shellOf 8 8 32 0) ∧
      ((times (some (shellRadialOf 16 0)) (some (sphereOf 8 8))).bind fun p => times (some (shellRadialOf 32 0)) (some p)) = .ok (shellOf 8 8 16 0)) := by
  refine ⟨⟨?_, ?_⟩, ?_, ?_⟩ <;> decide +kernel

/-! ## Products with coefficients -/

theorem matmul_of_product {n x z : Basis}
    (h : productBasis .firstOperand (some x) (some n) = .ok (some z) ∨ productBasis .secondOperand (some n) (some x) = .ok (some z)) :
    matmul (some n) (some x) = .ok z := by
  have e : (matmul (some n) (some x)).map some = .ok (some z) := h.elim id id
  cases c : matmul (some n) (some x) <;> rw [c] at e <;> simp [Except.map] at e
  rw [e]

/-- C91. The product of a coefficient `n` (with `k ≥ 0`) and an operand `x` in an equation has a basis that contains the basis of the operand: no modes of
the operand are lost, and the conversion to the basis of the product is upwards. -/
theorem ncc_product_contains_operand {n x z : Basis} (k : 0 ≤ kOf n)
    (h : productBasis .firstOperand (some x) (some n) = .ok (some z) ∨ productBasis .secondOperand (some n) (some x) = .ok (some z)) :
    Within x z := by
  have e := matmul_of_product h
  cases x <;> cases n <;>
    simp only [matmul, Basis.rmatmul, Basis.mul, ni, mulShellRadial, mulBallRadial, radialK, reduceCtorEq] at e <;>
    simp only [kOf] at k
  case fourier.fourier i j =>
    by_cases c : i = j
    · rw [if_pos c] at e; cases e; exact Within.refl _
    · rw [if_neg c] at e; simp at e
  case jacobi.jacobi x y =>
    by_cases c : y = x
    · rw [if_pos c] at e; cases e; exact Within.refl _
    · rw [if_neg c] at e
      by_cases g : x.grid = y.grid
      · rw [if_pos g] at e; cases e
        exact ⟨⟨_, _, _, rfl⟩, by simp [resolution, parameters]⟩
      · rw [if_neg g] at e; simp at e
  case annulus.annulus x y =>
    by_cases g : x.grid = y.grid
    · rw [if_pos g] at e; cases e
      have : (0 : ℚ) ≤ y.k := by exact_mod_cast k
      exact ⟨⟨_, _, rfl⟩, by simp [resolution, parameters, max2, this]⟩
    · rw [if_neg g] at e; simp at e
  case disk.disk x y =>
    by_cases g : x.grid = y.grid
    · rw [if_pos g] at e; cases e
      exact ⟨⟨_, _, rfl⟩, by simp [resolution, parameters, max2]⟩
    · rw [if_neg g] at e; simp at e
  case sphere.sphere x y =>
    by_cases c : y = x
    · rw [if_pos c] at e; cases e; exact Within.refl _
    · rw [if_neg c] at e
      by_cases r : x.radius = y.radius
      · rw [if_neg (by simp [r])] at e
        by_cases g : x.grid = y.grid
        · rw [if_pos g] at e; cases e
          exact ⟨⟨_, rfl⟩, by simp [resolution, parameters, max2]⟩
        · rw [if_neg g] at e; simp at e
      · rw [if_pos r] at e; simp at e
  case shellRadial.shellRadial x y =>
    by_cases g : x.grid = y.grid
    · rw [if_pos g] at e; cases e
      have : (0 : ℚ) ≤ y.k := by exact_mod_cast k
      exact ⟨⟨_, _, rfl⟩, by simp [resolution, parameters, this]⟩
    · rw [if_neg g] at e; simp at e
  case ballRadial.ballRadial x y =>
    by_cases g : x.grid = y.grid
    · rw [if_pos g] at e; cases e
      exact ⟨⟨_, _, rfl⟩, by simp [resolution, parameters]⟩
    · rw [if_neg g] at e; simp at e
  case shell.shellRadial x y =>
    by_cases g : x.radial.grid = y.grid
    · rw [if_pos g] at e; cases e
      have : (0 : ℚ) ≤ y.k := by exact_mod_cast k
      exact ⟨⟨_, _, rfl⟩, by simp [resolution, parameters, Vol.radial, this]⟩
    · rw [if_neg g] at e; simp [Except.map] at e
  case shell.shell x y =>
    by_cases h : y.shape.1 = 1
    · rw [if_neg (by simp [h])] at e
      by_cases g : x.radial.grid = y.radial.grid
      · rw [if_pos g] at e; cases e
        have : (0 : ℚ) ≤ y.k := by exact_mod_cast k
        exact ⟨⟨_, _, rfl⟩, by simp [resolution, parameters, Vol.radial, this]⟩
      · rw [if_neg g] at e; simp [Except.map] at e
    · rw [if_pos h] at e; simp at e
  case ball.ballRadial x y =>
    by_cases g : x.radial.grid = y.grid
    · rw [if_pos g] at e; cases e
      exact ⟨⟨_, _, rfl⟩, by simp [resolution, parameters, Vol.radial]⟩
    · rw [if_neg g] at e; simp [Except.map] at e
  case ball.ball x y =>
    by_cases g : x.radial.grid = y.radial.grid
    · rw [if_pos g] at e; cases e
      exact ⟨⟨_, _, rfl⟩, by simp [resolution, parameters, Vol.radial]⟩
    · rw [if_neg g] at e; simp [Except.map] at e

/-- C91 (partial). The product of a coefficient and an operand has, in every direction, the modes of the one that has more of them.
Missing: operands on shells and balls (see `ncc_product_resolution_refuted`). -/
theorem ncc_product_resolution_partial {n x z : Basis} (v : ¬ IsVolume x)
    (h : productBasis .firstOperand (some x) (some n) = .ok (some z) ∨ productBasis .secondOperand (some n) (some x) = .ok (some z)) :
    resolution z = maxRes (resolution n) (resolution x) := by
  have e := matmul_of_product h
  cases x <;> simp only [IsVolume, not_true_eq_false] at v <;> cases n <;>
    simp only [matmul, Basis.rmatmul, Basis.mul, ni, mulShellRadial, mulBallRadial, reduceCtorEq] at e
  case fourier.fourier i j =>
    by_cases c : i = j
    · rw [if_pos c] at e; cases e; simp [resolution, maxRes]
    · rw [if_neg c] at e; simp at e
  case jacobi.jacobi x y =>
    by_cases c : y = x
    · rw [if_pos c] at e; cases e; subst c; simp [resolution, maxRes]
    · rw [if_neg c] at e
      by_cases g : x.grid = y.grid
      · rw [if_pos g] at e; cases e; simp [resolution, maxRes, max_comm]
      · rw [if_neg g] at e; simp at e
  case sphere.sphere x y =>
    by_cases c : y = x
    · rw [if_pos c] at e; cases e; subst c; simp [resolution, maxRes]
    · rw [if_neg c] at e
      by_cases r : x.radius = y.radius
      · rw [if_neg (by simp [r])] at e
        by_cases g : x.grid = y.grid
        · rw [if_pos g] at e; cases e; simp [resolution, maxRes, max2, max_comm]
        · rw [if_neg g] at e; simp at e
      · rw [if_pos r] at e; simp at e
  case annulus.annulus x y =>
    by_cases g : x.grid = y.grid
    · rw [if_pos g] at e; cases e; simp [resolution, maxRes, max2, max_comm]
    · rw [if_neg g] at e; simp at e
  case disk.disk x y =>
    by_cases g : x.grid = y.grid
    · rw [if_pos g] at e; cases e; simp [resolution, maxRes, max2, max_comm]
    · rw [if_neg g] at e; simp at e
  case shellRadial.shellRadial x y =>
    by_cases g : x.grid = y.grid
    · rw [if_pos g] at e; cases e; simp [resolution, maxRes, max_comm]
    · rw [if_neg g] at e; simp at e
  case ballRadial.ballRadial x y =>
    by_cases g : x.grid = y.grid
    · rw [if_pos g] at e; cases e; simp [resolution, maxRes, max_comm]
    · rw [if_neg g] at e; simp at e

/-- C91 (refuted). On shells and balls the modes of the coefficient are not kept. -/
theorem ncc_product_resolution_refuted :
    (matmul (some (shellRadialOf 32 0)) (some (shellOf 8 8 16 0)) = .ok (shellOf 8 8 16 0) ∧
      (resolution (shellOf 8 8 16 0)).2.2 < (resolution (shellRadialOf 32 0)).2.2) ∧
    (matmul (some (ballOf 8 32 16 0)) (some (ballOf 8 8 16 0)) = .ok (ballOf 8 8 16 0) ∧
      (resolution (ballOf 8 8 16 0)).2.1 < (resolution (ballOf 8 32 16 0)).2.1) := by
  refine ⟨⟨?_, ?_⟩, ?_, ?_⟩ <;> decide +kernel

example : Within (annulusOf 8 32 1) (annulusOf 16 32 3) :=
  ncc_product_contains_operand (n := annulusOf 16 24 2) (by decide) (.inr (by decide +kernel))

example : resolution (annulusOf 16 32 3) = maxRes (resolution (annulusOf 16 24 2)) (resolution (annulusOf 8 32 1)) :=
  ncc_product_resolution_partial (x := annulusOf 8 32 1) id (.inl (by decide +kernel))

/-- C91. A constant factor does not change the basis, in any role, and the product of two constants is a constant. -/
theorem product_constant (role : Role) (b : Option Basis) : productBasis role b none = .ok b ∧ productBasis role none b = .ok b := by
  cases b with
  | none => exact ⟨rfl, rfl⟩
  | some b => cases role <;> cases b <;> exact ⟨rfl, rfl⟩

/-! ## Sums of fields of different resolution -/

/-- C92 (partial). In an annulus the sum of two fields on the same basis has the sums of the coefficients. Missing: bases of different
resolution (see `annulus_sum_raises`, `axisymmetric_sum_refuted`). -/
theorem annulus_sum_partial (x : Pol) (u v : Data) (hu : u.shape = x.coeffShape) (hv : v.shape = x.coeffShape) :
    ∃ d, addAnnulus x x u v = some d ∧ d.shape = x.coeffShape ∧
      ∀ i j, i < d.shape.1 → j < d.shape.2 → d.get i j = coefficient u i j + coefficient v i j := by
  have p : plus (some (.annulus x)) (some (.annulus x)) = .ok (.annulus x) := by simp [plus, binary, Basis.add]
  have q : Basis.eq (.annulus x) (.annulus x) = true := by simp [Basis.eq]
  simp only [addAnnulus, p, q, Bool.and_true, if_true]
  refine ⟨⟨x.coeffShape, fun i j => u.get (if u.shape.1 = 1 then 0 else i) (if u.shape.2 = 1 then 0 else j)
      + v.get (if v.shape.1 = 1 then 0 else i) (if v.shape.2 = 1 then 0 else j)⟩, ?_, rfl, ?_⟩
  · simp [npAdd, broadcast, hu, hv]
  · intro i j hi hj
    simp only at hi hj
    have e1 : (if x.coeffShape.1 = 1 then 0 else i) = i := by split <;> omega
    have e2 : (if x.coeffShape.2 = 1 then 0 else j) = j := by split <;> omega
    simp only [coefficient, hu, hv, e1, e2, hi, hj, and_self, if_true]

/-- C92. Sums of fields with different numbers of azimuthal modes raise, for real data with more than two modes, and for complex data with more than one. -/
theorem annulus_sum_raises (x : Pol) (n : Nat × Nat) (u v : Data) (hne : x.shape.1 ≠ n.1)
    (hx : (if x.dtype = .float64 then 2 else 1) < x.shape.1) (hn : x.dtype = .float64 ∧ 0 < n.1 ∨ 1 < n.1)
    (hu : u.shape = x.coeffShape) (hv : v.shape = ({ x with shape := n } : Pol).coeffShape) :
    addAnnulus x { x with shape := n } u v = none ∧ addAnnulus { x with shape := n } x v u = none := by
  have key : ∀ (s : Nat × Nat) (a b : Data), a.shape.1 ≠ b.shape.1 → a.shape.1 ≠ 1 → b.shape.1 ≠ 1 → npAdd s a b = none := by
    intro s a b h1 h2 h3
    simp [npAdd, broadcast, h1, h2, h3]
  have hs : u.shape.1 ≠ v.shape.1 ∧ u.shape.1 ≠ 1 ∧ v.shape.1 ≠ 1 := by
    rw [hu, hv]
    simp only [Pol.coeffShape]
    cases hd : x.dtype
    · rw [hd] at hx hn
      simp only [if_true] at hx
      simp only [true_and] at hn
      rw [if_pos (show x.shape.1 > 1 by omega)]
      by_cases h : n.1 > 1
      · simp only [if_pos h]; omega
      · simp only [if_neg h]; omega
    · rw [hd] at hx hn
      simp only [reduceCtorEq, if_false, false_and, false_or] at hx hn
      simp only
      omega
  constructor
  · unfold addAnnulus
    split
    · split
      · exact key _ _ _ hs.1 hs.2.1 hs.2.2
      · rfl
    · rfl
  · unfold addAnnulus
    split
    · split
      · exact key _ _ _ hs.1.symm hs.2.2 hs.2.1
      · rfl
    · rfl

/-- C92 (refuted). For complex data, the sum of an axisymmetric field `u` (on `annulus.radial_basis`) and a field `v` on the annulus adds the
coefficients of `u` to all azimuthal modes of `v`, not only to the azimuthal average: for every resolution the coefficient `(i, j)` of the
result is wrong whenever `i > 0` and `u` has a coefficient `j`. -/
theorem axisymmetric_sum_refuted (y : Pol) (hd : y.dtype = .complex128) (u v : Data) (hy : 1 < y.shape.1)
    (hu : u.shape = (1, y.shape.2)) (hv : v.shape = y.shape) :
    ∃ d, addAnnulus { y with shape := (1, y.shape.2) } y u v = some d ∧ d.shape = y.shape ∧
      ∀ i j, i < y.shape.1 → j < y.shape.2 → d.get i j = u.get 0 j + v.get i j ∧
        (0 < i → u.get 0 j ≠ 0 → d.get i j ≠ coefficient u i j + coefficient v i j) := by
  have p : plus (some (.annulus { y with shape := (1, y.shape.2) })) (some (.annulus y)) = .ok (.annulus y) := by
    have c : Compatible (.annulus { y with shape := (1, y.shape.2) }) (.annulus y) := ⟨_, _, rfl⟩
    rw [plus_compatible c]
    have : max 1 y.shape.1 = y.shape.1 := by omega
    simp [join, max2, this]
  have q1 : Basis.eq (.annulus { y with shape := (1, y.shape.2) }) (.annulus y) = true := by simp [Basis.eq, Pol.grid]
  have q2 : Basis.eq (.annulus y) (.annulus y) = true := by simp [Basis.eq]
  have cs : y.coeffShape = y.shape := by simp [Pol.coeffShape, hd]
  have n1 : ¬ 1 = y.shape.1 := by omega
  have n2 : ¬ y.shape.1 = 1 := by omega
  simp only [addAnnulus, p, q1, q2, Bool.and_true, if_true, cs]
  refine ⟨⟨y.shape, fun i j => u.get 0 (if y.shape.2 = 1 then 0 else j) + v.get i (if y.shape.2 = 1 then 0 else j)⟩, ?_, rfl, ?_⟩
  · simp [npAdd, broadcast, hu, hv, n1, n2]
  · intro i j hi hj
    have e2 : (if y.shape.2 = 1 then 0 else j) = j := by split <;> omega
    simp only [e2, true_and]
    intro hi0 hne
    simp only [coefficient, hu, hv, hi, hj, and_self, if_true, if_neg (show ¬ (i < 1 ∧ True) by omega)]
    intro h
    exact hne (by linarith)

/-- An axisymmetric field equal to its first coefficient, and zero, on an annulus with four azimuthal modes. -/
example : ∃ d, addAnnulus ⟨0, .complex128, 0, 0, 0, 0, 0, (1, 3), 0⟩ ⟨0, .complex128, 0, 0, 0, 0, 0, (4, 3), 0⟩ ⟨(1, 3), fun _ _ => 1⟩ ⟨(4, 3), fun _ _ => 0⟩ = some d ∧
    d.get 2 0 ≠ coefficient ⟨(1, 3), fun _ _ => 1⟩ 2 0 + coefficient ⟨(4, 3), fun _ _ => 0⟩ 2 0 := by
  obtain ⟨d, h1, -, h2⟩ := axisymmetric_sum_refuted ⟨0, .complex128, 0, 0, 0, 0, 0, (4, 3), 0⟩ rfl ⟨(1, 3), fun _ _ => 1⟩ ⟨(4, 3), fun _ _ => 0⟩
    (by decide) rfl rfl
  exact ⟨d, h1, (h2 2 0 (by decide) (by decide)).2 (by decide) (by decide)⟩

/-- Real data: 1 and 8 azimuthal modes. -/
example : addAnnulus ⟨0, .float64, 0, 0, 0, 0, 0, (8, 3), 0⟩ ⟨0, .float64, 0, 0, 0, 0, 0, (1, 3), 0⟩ ⟨(8, 3), fun _ _ => 1⟩ ⟨(2, 3), fun _ _ => 0⟩ = none :=
  (annulus_sum_raises ⟨0, .float64, 0, 0, 0, 0, 0, (8, 3), 0⟩ (1, 3) _ _ (by decide) (by decide) (by decide) rfl rfl).1

end Dedalus.BasisOps
