import Verif.Conditions.Lemmas
import Verif.Field.Props

/-!
# C110: operators bring their arguments into a layout they work in
-/

namespace Dedalus.Conditions

open Dedalus.Dist Dedalus.Field

variable {Dat V : Type} {W : World Dat} {rep : Nat → V → Nat → List ℚ → Dat} {trunc : Nat → Nat → ℚ → V → V}

/-- **C110 (part: the check).** `check_conditions` holds exactly if the layouts of the arguments are those the operator needs. -/
theorem check_iff_ready (hc : IsChain (W.env 0)) (k : Kind) (args : List Nat) (hw : WellFormed W k args) (h : Heap Dat)
    (hin : ∀ i ∈ args, (h i).layout < W.lays.length) :
    ∃ b, check W k args h = some b ∧ (b = true ↔ Ready W k (args.map fun i => (h i).layout)) := by
  have hhead : args ≠ [] → ∃ i is, args = i :: is ∧ (h i).layout < W.lays.length := by
    intro hne
    cases args with
    | nil => exact absurd rfl hne
    | cons i is => exact ⟨i, is, rfl, hin i (by simp)⟩
  unfold check
  cases k with
  | free => exact ⟨true, rfl, by simp [Ready]⟩
  | grid =>
    obtain ⟨i, is, rfl, hi⟩ := hhead hw
    exact ⟨_, rfl, by simp [Ready, allGrid_iff]⟩
  | gridLayout =>
    obtain ⟨i, is, rfl, hi⟩ := hhead hw
    refine ⟨_, rfl, ?_⟩
    rw [beq_iff_eq, ← allGrid_last_iff hc hi]
    simp [Ready, allGrid_iff]
  | product =>
    obtain ⟨i, j, rfl⟩ := List.length_eq_two.1 hw
    refine ⟨_, rfl, ?_⟩
    simp only [Bool.and_eq_true, beq_iff_eq, allGrid_iff, Ready, List.map_cons, List.map_nil, List.mem_cons,
      List.not_mem_nil, or_false, forall_eq_or_imp, forall_eq]
    constructor
    · rintro ⟨a, b⟩
      rw [← b]
      exact ⟨⟨a, a⟩, by simp⟩
    · rintro ⟨⟨a, _⟩, b⟩
      exact ⟨a, b.1.2⟩
  | sum =>
    have hne : args ≠ [] := hw
    exact ⟨_, rfl, dedup_one_iff (by simpa using hne)⟩
  | gradient =>
    have hne : args ≠ [] := hw
    exact ⟨_, rfl, dedup_one_iff (by simpa using hne)⟩
  | function l => exact ⟨_, rfl, by simp [Ready]⟩
  | spectral a coupled =>
    obtain ⟨i, is, rfl, hi⟩ := hhead hw.2
    refine ⟨_, rfl, ?_⟩
    have hcg := coeff_or_grid hc hi hw.1
    have e1 := @isGrid_iff _ W (h i).layout a
    have e2 := @isLocal_iff _ W (h i).layout a
    simp only [Ready, List.map_cons, List.head?_cons, Option.some.injEq, forall_eq']
    cases coupled <;> cases hg : isGrid W (h i).layout a <;> cases hl : isLocal W (h i).layout a <;> simp_all
  | convert a coupled =>
    obtain ⟨i, is, rfl, hi⟩ := hhead hw.2
    refine ⟨_, rfl, ?_⟩
    have hcg := coeff_or_grid hc hi hw.1
    have e1 := @isGrid_iff _ W (h i).layout a
    have e2 := @isLocal_iff _ W (h i).layout a
    simp only [Ready, List.map_cons, List.head?_cons, Option.some.injEq, forall_eq']
    cases coupled <;> cases hg : isGrid W (h i).layout a <;> cases hl : isLocal W (h i).layout a <;> simp_all
  | convertConstant a one =>
    obtain ⟨i, is, rfl, hi⟩ := hhead hw.2
    refine ⟨_, rfl, ?_⟩
    have hcg := coeff_or_grid hc hi hw.1
    have e1 := @isGrid_iff _ W (h i).layout a
    have e2 := @isLocal_iff _ W (h i).layout a
    simp only [Ready, List.map_cons, List.head?_cons, Option.some.injEq, forall_eq']
    cases one <;> cases hg : isGrid W (h i).layout a <;> cases hl : isLocal W (h i).layout a <;> simp_all
  | radial a =>
    obtain ⟨i, is, rfl, hi⟩ := hhead hw.2
    refine ⟨_, rfl, ?_⟩
    have hcg := coeff_or_grid hc hi hw.1
    have e1 := @isGrid_iff _ W (h i).layout a
    have e2 := @isLocal_iff _ W (h i).layout a
    simp only [Ready, List.map_cons, List.head?_cons, Option.some.injEq, forall_eq']
    cases hg : isGrid W (h i).layout a <;> cases hl : isLocal W (h i).layout a <;> simp_all

/-- **C110 (part: enforcing).** Whatever layouts the arguments are in, at scales that lose no mode, and also if the same field occurs
several times, enforcing the conditions succeeds; then the arguments are in layouts the operator needs, all fields hold the values
they held, at the same scales in the same buffers, and fields that are not arguments are untouched. -/
theorem enforce_ready (hwk : Works W rep trunc) (v : Nat → V) (k : Kind) (args : List Nat) (hw : WellFormed W k args)
    (h : Heap Dat) (hh : AllHold W rep trunc v h) :
    ∃ h', enforce W k args h = some h' ∧ Ready W k (args.map fun i => (h' i).layout) ∧ AllHold W rep trunc v h' ∧
      (∀ i, (h' i).scales = (h i).scales ∧ (h' i).cur = (h i).cur) ∧ ∀ i, i ∉ args → h' i = h i := by
  have hhead : args ≠ [] → ∃ i is, args = i :: is := by
    intro hne
    cases args with
    | nil => exact absurd rfl hne
    | cons i is => exact ⟨i, is, rfl⟩
  have fin : ∀ h', enforce W k args h = some h' → Kept W rep trunc v args h h' → Ready W k (args.map fun i => (h' i).layout) →
      ∃ h', enforce W k args h = some h' ∧ Ready W k (args.map fun i => (h' i).layout) ∧ AllHold W rep trunc v h' ∧
      (∀ i, (h' i).scales = (h i).scales ∧ (h' i).cur = (h i).cur) ∧ ∀ i, i ∉ args → h' i = h i :=
    fun h' e1 e2 e3 => ⟨h', e1, e3, e2.hold, fun i => ⟨e2.scales i, e2.buffer i⟩, e2.others⟩
  have hc := (hwk 0).2
  have hir : ∀ i, (h i).layout < W.lays.length := fun i => (hh i).1.inRange
  cases k with
  | free => exact fin h rfl (Kept.refl hh) trivial
  | grid =>
    obtain ⟨i, is, rfl⟩ := hhead hw
    obtain ⟨h', e1, e2, e3⟩ := move_ok (sends_grid hwk) hh (i := i) trivial
    refine fin h' (by simp only [enforce, List.head?_cons, Option.bind_some, e1]) (e2.mono (by simp)) ?_
    simp only [Ready, List.map_cons, List.head?_cons, Option.some.injEq, forall_eq']
    rw [e3]; exact fun a ha => onGrid_last hc ha
  | gridLayout =>
    obtain ⟨i, is, rfl⟩ := hhead hw
    obtain ⟨h', e1, e2, e3⟩ := move_ok (sends_grid hwk) hh (i := i) trivial
    refine fin h' (by simp only [enforce, List.head?_cons, Option.bind_some, e1]) (e2.mono (by simp)) ?_
    simp only [Ready, List.map_cons, List.head?_cons, Option.some.injEq, forall_eq']
    rw [e3]; exact fun a ha => onGrid_last hc ha
  | product =>
    obtain ⟨h', e1, e2, e3⟩ := moveAll_ok (sends_grid hwk) args h hh
    refine fin h' e1 e2 ⟨fun l hl a ha => ?_, fun l hl l' hl' => ?_⟩
    · obtain ⟨i, hi, rfl⟩ := List.mem_map.1 hl
      rw [e3 i hi]; exact onGrid_last hc ha
    · obtain ⟨i, hi, rfl⟩ := List.mem_map.1 hl
      obtain ⟨j, hj, rfl⟩ := List.mem_map.1 hl'
      rw [e3 i hi, e3 j hj]
  | sum =>
    obtain ⟨i0, is, hargs⟩ := hhead hw
    obtain ⟨h', e1, e2, e3⟩ := moveAll_ok (sends_changeLayout hwk (hir i0)) args h hh
    refine fin h' (by simp only [enforce, hargs, List.head?_cons, Option.bind_some]; rw [← hargs]; exact e1) e2 fun l hl l' hl' => ?_
    obtain ⟨i, hi, rfl⟩ := List.mem_map.1 hl
    obtain ⟨j, hj, rfl⟩ := List.mem_map.1 hl'
    rw [e3 i hi, e3 j hj]
  | gradient =>
    obtain ⟨i0, is, hargs⟩ := hhead hw
    obtain ⟨h', e1, e2, e3⟩ := moveAll_ok (sends_changeLayout hwk (l := 0) (by have := hir i0; omega)) args h hh
    refine fin h' e1 e2 fun l hl l' hl' => ?_
    obtain ⟨i, hi, rfl⟩ := List.mem_map.1 hl
    obtain ⟨j, hj, rfl⟩ := List.mem_map.1 hl'
    rw [e3 i hi, e3 j hj]
  | function l =>
    obtain ⟨h', e1, e2, e3⟩ := moveAll_ok (sends_function hwk hw) args h hh
    refine fin h' e1 e2 fun l' hl' => ?_
    obtain ⟨i, hi, rfl⟩ := List.mem_map.1 hl'
    exact e3 i hi
  | spectral a coupled =>
    obtain ⟨i, is, rfl⟩ := hhead hw.2
    obtain ⟨h1, a1, a2, a3⟩ := move_ok (sends_coeff hwk hw.1) hh (i := i) trivial
    cases coupled with
    | false =>
      refine fin h1 (by simp [enforce, a1]) (a2.mono (by simp)) ?_
      simpa [Ready] using a3
    | true =>
      obtain ⟨h2, b1, b2, b3⟩ := move_ok (sends_local hwk hw.1) a2.hold (i := i) a3
      refine fin h2 (by simp [enforce, a1, b1]) ((a2.trans b2).mono (by simp)) ?_
      simpa [Ready] using b3
  | convert a coupled =>
    obtain ⟨i, is, rfl⟩ := hhead hw.2
    by_cases hb : (!isGrid W (h i).layout a && coupled) = true
    · simp only [Bool.and_eq_true, Bool.not_eq_true'] at hb
      have hco : InCoeff W (h i).layout a := by
        rcases coeff_or_grid hc (hir i) hw.1 with hx | hx
        · exact hx.1
        · rw [isGrid_iff.2 hx.1] at hb; exact absurd hb.1 (by simp)
      obtain ⟨h2, b1, b2, b3⟩ := move_ok (sends_local hwk hw.1) hh (i := i) hco
      refine fin h2 (by simp [enforce, b1, hb.1, hb.2]) (b2.mono (by simp)) ?_
      simp only [Ready, List.map_cons, List.head?_cons, Option.some.injEq, forall_eq']
      exact Or.inr ⟨b3.1, fun _ => b3.2⟩
    · refine fin h (by simp only [enforce, List.head?_cons, Option.bind_some]; rw [if_neg hb]) (Kept.refl hh) ?_
      simp only [Ready, List.map_cons, List.head?_cons, Option.some.injEq, forall_eq']
      rcases coeff_or_grid hc (hir i) hw.1 with hx | hx
      · right
        refine ⟨hx.1, fun hcc => ?_⟩
        exfalso; apply hb
        simp only [Bool.and_eq_true, Bool.not_eq_true', hcc, and_true]
        by_contra hn
        exact hx.2 (isGrid_iff.1 (by simpa using hn))
      · exact Or.inl hx.1
  | convertConstant a one =>
    obtain ⟨i, is, rfl⟩ := hhead hw.2
    cases one with
    | false =>
      obtain ⟨h1, a1, a2, a3⟩ := move_ok (sends_coeff hwk hw.1) hh (i := i) trivial
      refine fin h1 (by simp [enforce, a1]) (a2.mono (by simp)) ?_
      simpa [Ready] using a3
    | true =>
      cases hg : isGrid W (h i).layout a with
      | true =>
        obtain ⟨h2, b1, b2, b3⟩ := move_ok (sends_local_grid hwk hw.1) hh (i := i) (isGrid_iff.1 hg)
        refine fin h2 (by simp [enforce, b1, hg]) (b2.mono (by simp)) ?_
        simp only [Ready, List.map_cons, List.head?_cons, Option.some.injEq, forall_eq']
        exact Or.inr ⟨trivial, b3⟩
      | false =>
        refine fin h (by simp [enforce, hg]) (Kept.refl hh) ?_
        simp only [Ready, List.map_cons, List.head?_cons, Option.some.injEq, forall_eq']
        rcases coeff_or_grid hc (hir i) hw.1 with hx | hx
        · exact Or.inl hx.1
        · rw [isGrid_iff.2 hx.1] at hg; cases hg
  | radial a =>
    obtain ⟨i, is, rfl⟩ := hhead hw.2
    obtain ⟨h1, a1, a2, a3⟩ := move_ok (sends_coeff hwk hw.1) hh (i := i) trivial
    obtain ⟨h2, b1, b2, b3⟩ := move_ok (sends_local hwk hw.1) a2.hold (i := i) a3
    refine fin h2 (by simp [enforce, a1, b1]) ((a2.trans b2).mono (by simp)) ?_
    simpa [Ready] using b3

/-- **C110 (part: enforcing and checking agree).** After enforcing the conditions they hold, as checked. -/
theorem enforce_then_check (hwk : Works W rep trunc) (v : Nat → V) (k : Kind) (args : List Nat) (hw : WellFormed W k args)
    (h : Heap Dat) (hh : AllHold W rep trunc v h) : ∃ h', enforce W k args h = some h' ∧ check W k args h' = some true := by
  obtain ⟨h', e1, e2, e3, _⟩ := enforce_ready hwk v k args hw h hh
  obtain ⟨b, c1, c2⟩ := check_iff_ready (hwk 0).2 k args hw h' (fun i _ => (e3 i).1.inRange)
  rw [c2.2 e2] at c1
  exact ⟨h', e1, c1⟩

/-- **C110 (part: some layout serves).** For every operator there is a layout such that the conditions hold once all arguments are in
this layout. So the evaluator, which takes the fields through all layouts (C13), gets every operator evaluated. -/
theorem layout_serves (hc : IsChain (W.env 0)) (k : Kind) (args : List Nat) (hw : WellFormed W k args) :
    ∃ n, n < W.lays.length ∧ ∀ h : Heap Dat, (∀ i ∈ args, (h i).layout = n) → check W k args h = some true := by
  have hlen : W.lays.length = W.paths.length + 1 := hc.length
  have key : ∀ n, n < W.lays.length → (∀ ls : List Nat, (∀ l ∈ ls, l = n) → Ready W k ls) →
      ∃ n, n < W.lays.length ∧ ∀ h : Heap Dat, (∀ i ∈ args, (h i).layout = n) → check W k args h = some true := by
    intro n hn hr
    refine ⟨n, hn, fun h hl => ?_⟩
    obtain ⟨b, c1, c2⟩ := check_iff_ready hc k args hw h (fun i hi => by rw [hl i hi]; exact hn)
    rw [c2.2 (hr _ (fun l hl' => by obtain ⟨i, hi, rfl⟩ := List.mem_map.1 hl'; exact hl i hi))] at c1
    exact c1
  have hd : ∀ (ls : List Nat) (n l : Nat), (∀ l ∈ ls, l = n) → ls.head? = some l → l = n := by
    intro ls n l h1 h2
    exact h1 l (List.mem_of_head? h2)
  have coeffLocal : ∀ a, a < W.D → ∃ n, n < W.lays.length ∧ InCoeff W n a ∧ Local W n a := by
    intro a ha
    obtain ⟨n, _, hn2, hn3⟩ := transform_between hc ha (Nat.zero_le _) (show (W.env 0).lays.length - 1 < (W.env 0).lays.length by
      show W.lays.length - 1 < W.lays.length; omega) (level_zero hc) (level_last hc) ha (by omega)
    have hn2 : n < W.lays.length - 1 := hn2
    have hn4 := loc_at_transform hc hn3
    refine ⟨n, by omega, ?_, flag_local.1 hn4.1⟩
    have hs := hc.step n W.lays[n] W.lays[n+1] _ (List.getElem?_eq_getElem (by show n < W.lays.length; omega))
      (List.getElem?_eq_getElem (by show n + 1 < W.lays.length; omega)) hn3
    exact ⟨W.lays[n], List.getElem?_eq_getElem (by omega), hs.2.1⟩
  cases k with
  | free => exact key 0 (by omega) (fun _ _ => trivial)
  | grid => exact key (W.lays.length - 1) (by omega) (fun ls hl l hh a ha => by rw [hd ls _ l hl hh]; exact onGrid_last hc ha)
  | gridLayout => exact key (W.lays.length - 1) (by omega) (fun ls hl l hh a ha => by rw [hd ls _ l hl hh]; exact onGrid_last hc ha)
  | product => exact key (W.lays.length - 1) (by omega) (fun ls hl =>
      ⟨fun l hh a ha => by rw [hl l hh]; exact onGrid_last hc ha, fun l hh l' hh' => by rw [hl l hh, hl l' hh']⟩)
  | sum => exact key 0 (by omega) (fun ls hl l hh l' hh' => by rw [hl l hh, hl l' hh'])
  | gradient => exact key 0 (by omega) (fun ls hl l hh l' hh' => by rw [hl l hh, hl l' hh'])
  | function l => exact key l hw (fun ls hl => hl)
  | spectral a coupled =>
    obtain ⟨n, n1, n2, n3⟩ := coeffLocal a hw.1
    exact key n n1 (fun ls hl l hh => by rw [hd ls _ l hl hh]; exact ⟨n2, fun _ => n3⟩)
  | convert a coupled =>
    obtain ⟨n, n1, n2, n3⟩ := coeffLocal a hw.1
    exact key n n1 (fun ls hl l hh => by rw [hd ls _ l hl hh]; exact Or.inr ⟨n2, fun _ => n3⟩)
  | convertConstant a one =>
    obtain ⟨n, n1, n2, n3⟩ := coeffLocal a hw.1
    exact key n n1 (fun ls hl l hh => by rw [hd ls _ l hl hh]; exact Or.inl n2)
  | radial a =>
    obtain ⟨n, n1, n2, n3⟩ := coeffLocal a hw.1
    exact key n n1 (fun ls hl l hh => by rw [hd ls _ l hl hh]; exact ⟨n2, n3⟩)

theorem whileLoop_idle {cond : FState Dat → Bool} {step : FState Dat → Option (FState Dat)} {f : FState Dat} (h : cond f = false) (n : Nat) :
    whileLoop cond step n f = some f := by
  cases n <;> simp [whileLoop, h]

theorem move_idle {m : Env Dat → FState Dat → Option (FState Dat)} {i : Nat} {h : Heap Dat} (hm : m (W.env i) (h i) = some (h i)) :
    move W m i h = some h := by
  simp [move, hm]

theorem moveAll_idle {m : Env Dat → FState Dat → Option (FState Dat)} {h : Heap Dat} : ∀ (args : List Nat),
    (∀ i ∈ args, m (W.env i) (h i) = some (h i)) → moveAll W m args h = some h := by
  intro args
  induction args with
  | nil => intro _; rfl
  | cons i is ih =>
    intro hm
    simp only [moveAll, move_idle (hm i (by simp)), Option.bind_some]
    exact ih (fun j hj => hm j (by simp [hj]))

theorem requireGrid_idle {i : Nat} {f : FState Dat} (h : ∀ a, a < W.D → OnGrid W f.layout a) : requireGrid (W.env i) f none = some f := by
  refine whileLoop_idle ?_ _
  rw [List.any_eq_false]
  intro a ha
  have : gridFlag (W.env i) f.layout a = some true := flag_onGrid.2 (h a (List.mem_range.1 ha))
  simp [this]

theorem requireCoeff_idle {i a : Nat} {f : FState Dat} (h : InCoeff W f.layout a) : requireCoeff (W.env i) f (some a) = some f := by
  refine whileLoop_idle ?_ _
  have : gridFlag (W.env i) f.layout a = some false := flag_inCoeff.2 h
  simp [this]

theorem requireLocal_idle {i a : Nat} {f : FState Dat} (h : Local W f.layout a) : requireLocal (W.env i) f a = some f := by
  have : locFlag (W.env i) f.layout a = some true := flag_local.2 h
  unfold requireLocal
  split
  · exact whileLoop_idle (by simp [this]) _
  · exact whileLoop_idle (by simp [this]) _

/-- **C110 (part: nothing is moved needlessly).** If the conditions hold, enforcing them changes nothing, for all operators except
Cartesian gradients and those of direct products. Missing: these gradients, see `gradient_idle_refuted`. -/
theorem enforce_idle_partial (hc : IsChain (W.env 0)) (k : Kind) (hk : k ≠ .gradient) (args : List Nat) (hw : WellFormed W k args)
    (h : Heap Dat) (hin : ∀ i ∈ args, (h i).layout < W.lays.length) (hr : check W k args h = some true) :
    enforce W k args h = some h := by
  obtain ⟨b, c1, c2⟩ := check_iff_ready hc k args hw h hin
  rw [hr] at c1
  have hr := c2.1 (Option.some.inj c1).symm
  have hhead : args ≠ [] → ∃ i is, args = i :: is := by
    intro hne
    cases args with
    | nil => exact absurd rfl hne
    | cons i is => exact ⟨i, is, rfl⟩
  cases k with
  | free => rfl
  | grid =>
    obtain ⟨i, is, rfl⟩ := hhead hw
    exact move_idle (m := fun E f => requireGrid E f none) (requireGrid_idle (hr _ rfl))
  | gridLayout =>
    obtain ⟨i, is, rfl⟩ := hhead hw
    exact move_idle (m := fun E f => requireGrid E f none) (requireGrid_idle (hr _ rfl))
  | product => exact moveAll_idle args (fun i hi => requireGrid_idle (hr.1 _ (List.mem_map.2 ⟨i, hi, rfl⟩)))
  | sum =>
    obtain ⟨i0, is, hargs⟩ := hhead hw
    have : moveAll W (fun E f => changeLayout E f (h i0).layout) args h = some h := by
      refine moveAll_idle args (fun i hi => ?_)
      have : (h i).layout = (h i0).layout := hr _ (List.mem_map.2 ⟨i, hi, rfl⟩) _ (List.mem_map.2 ⟨i0, by simp [hargs], rfl⟩)
      simp [changeLayout, this]
    simp only [enforce, hargs, List.head?_cons, Option.bind_some]
    rw [← hargs]; exact this
  | gradient => exact absurd rfl hk
  | function l =>
    refine moveAll_idle args (fun i hi => ?_)
    have : (h i).layout = l := hr _ (List.mem_map.2 ⟨i, hi, rfl⟩)
    simp [this]
  | spectral a coupled =>
    obtain ⟨i, is, rfl⟩ := hhead hw.2
    obtain ⟨r1, r2⟩ := hr _ rfl
    simp only [enforce, List.head?_cons, Option.bind_some]
    rw [move_idle (requireCoeff_idle r1)]
    cases coupled with
    | false => rfl
    | true => exact move_idle (m := fun E f => requireLocal E f a) (requireLocal_idle (r2 rfl))
  | convert a coupled =>
    obtain ⟨i, is, rfl⟩ := hhead hw.2
    simp only [enforce, List.head?_cons, Option.bind_some]
    split
    · rename_i hb
      simp only [Bool.and_eq_true, Bool.not_eq_true'] at hb
      rcases hr _ rfl with r | ⟨_, r⟩
      · rw [isGrid_iff.2 r] at hb; exact absurd hb.1 (by simp)
      · exact move_idle (m := fun E f => requireLocal E f a) (requireLocal_idle (r hb.2))
    · rfl
  | convertConstant a one =>
    obtain ⟨i, is, rfl⟩ := hhead hw.2
    simp only [enforce, List.head?_cons, Option.bind_some]
    cases one with
    | false =>
      rcases hr _ rfl with r | ⟨r, _⟩
      · exact move_idle (m := fun E f => requireCoeff E f (some a)) (requireCoeff_idle r)
      · cases r
    | true =>
      cases hg : isGrid W (h i).layout a with
      | false => rfl
      | true =>
        rcases hr _ rfl with r | ⟨_, _, r⟩
        · exfalso
          rcases coeff_or_grid hc (hin i (by simp)) hw.1 with hx | hx
          · exact hx.2 (isGrid_iff.1 hg)
          · exact hx.2 r
        · exact move_idle (m := fun E f => requireLocal E f a) (requireLocal_idle r)
  | radial a =>
    obtain ⟨i, is, rfl⟩ := hhead hw.2
    obtain ⟨r1, r2⟩ := hr _ rfl
    simp only [enforce, List.head?_cons, Option.bind_some]
    rw [move_idle (requireCoeff_idle r1)]
    exact move_idle (m := fun E f => requireLocal E f a) (requireLocal_idle r2)

/-! ### A concrete case: two axes on two processes -/

/-- Two axes, the first distributed over two processes in coefficient space; transforms and transposes act on a single number,
transforms double it. -/
def twoWorld : World ℚ where
  D := 2
  lays := [⟨[false, true], [false, false]⟩, ⟨[false, true], [false, true]⟩, ⟨[true, false], [false, true]⟩,
    ⟨[true, false], [true, true]⟩]
  paths := [⟨.transform, 1⟩, ⟨.transpose, 0⟩, ⟨.transform, 0⟩]
  up := fun _ p _ d => match p.kind with | .transform => 2 * d | .transpose => d
  down := fun _ p _ d => match p.kind with | .transform => d / 2 | .transpose => d
  fits := fun _ _ => true
  junk := fun _ => 0

theorem two_chain (i : Nat) : IsChain (twoWorld.env i) :=
  built_layouts_chain (twoWorld.env i) 2 [2] (by show _ < 2; decide) (by decide) (by show buildLayouts 2 2 [2] = some (twoWorld.lays, twoWorld.paths); decide)

/-- The data in the four layouts. -/
def twoRep : Nat → ℚ → Nat → List ℚ → ℚ := fun _ v l _ => (match l with | 0 => 1 | 1 => 2 | 2 => 2 | _ => 4) * v

theorem two_works : Works twoWorld twoRep (fun _ _ _ v => v) := by
  intro i
  refine ⟨⟨fun j p v s _ hp => ?_, fun j a v s x _ hp _ => ?_, fun j a v s _ hp => ?_, fun _ _ _ _ _ _ _ => rfl⟩, two_chain i⟩
  · have hp : twoWorld.paths[j]? = some p := hp
    match j, hp with
    | 0, hp => cases hp; show 2 * (1 * v) = 2 * v; ring
    | 1, hp => cases hp; show 2 * v = 2 * v; rfl
    | 2, hp => cases hp; show 2 * (2 * v) = 4 * v; ring
    | j + 3, hp => simp [twoWorld] at hp
  · have hp : twoWorld.paths[j]? = some ⟨.transform, a⟩ := hp
    match j, hp with
    | 0, hp => cases hp; show 2 * v / 2 = 1 * v; ring
    | 1, hp => cases hp
    | 2, hp => cases hp; show 4 * v / 2 = 2 * v; ring
    | j + 3, hp => simp [twoWorld] at hp
  · have hp : twoWorld.paths[j]? = some ⟨.transpose, a⟩ := hp
    match j, hp with
    | 0, hp => cases hp
    | 1, hp => cases hp; show 2 * v = 2 * v; rfl
    | 2, hp => cases hp
    | j + 3, hp => simp [twoWorld] at hp

/-- Field 0 on the grid, the others in coefficient space; all of value 1. -/
def twoHeap : Heap ℚ := fun i => if i = 0 then ⟨fun _ => 4, 0, 1, 3, [1, 1]⟩ else ⟨fun _ => 1, 0, 1, 0, [1, 1]⟩

theorem two_hold : AllHold twoWorld twoRep (fun _ _ _ v => v) (fun _ => 1) twoHeap := by
  intro i
  refine ⟨?_, fun _ _ _ _ => rfl⟩
  unfold twoHeap
  split
  · exact ⟨by norm_num [FState.data, twoRep], show 3 < twoWorld.lays.length by decide, rfl, Nat.zero_lt_one⟩
  · exact ⟨by norm_num [FState.data, twoRep], show 0 < twoWorld.lays.length by decide, rfl, Nat.zero_lt_one⟩

example := enforce_ready two_works (fun _ => (1 : ℚ)) .product [0, 1] rfl twoHeap two_hold
example := enforce_then_check two_works (fun _ => (1 : ℚ)) (.spectral 1 true) [0] ⟨by decide, by simp⟩ twoHeap two_hold
example := check_iff_ready (two_chain 0) (.radial 1) [1] ⟨by decide, by simp⟩ twoHeap (by intro i hi; simp at hi; subst hi; decide)
example := layout_serves (two_chain 0) (.convertConstant 0 false) [1] ⟨by decide, by simp⟩
-- A product takes its arguments to the grid, whose data are four times the coefficients.
example : ((enforce twoWorld .product [0, 1] twoHeap).map fun h => ((h 0).layout, (h 1).layout, (h 1).data)) = some (3, 3, 4) := by
  decide +kernel
-- A coupled operator along the first axis needs its data on one process: after the transpose.
example : ((enforce twoWorld (.spectral 0 true) [1] twoHeap).map fun h => (h 1).layout) = some 2 := by decide +kernel
example := enforce_idle_partial (two_chain 0) .grid (by simp) [0] (by simp [WellFormed]) twoHeap
  (by intro i hi; simp at hi; subst hi; decide) (by decide)

/-- **C110 (refuted in general).** It is not true that enforcing conditions that hold changes nothing: a Cartesian gradient whose
derivatives are all on the grid could be assembled there, but they are taken to coefficient space. -/
theorem gradient_idle_refuted :
    ¬ ∀ (Dat : Type) (W : World Dat) (k : Kind) (args : List Nat) (h : Heap Dat), IsChain (W.env 0) → WellFormed W k args →
        (∀ i ∈ args, (h i).layout < W.lays.length) → check W k args h = some true → enforce W k args h = some h := by
  intro H
  have h := H ℚ twoWorld .gradient [0] twoHeap (two_chain 0) (by simp [WellFormed]) (by intro i hi; simp at hi; subst hi; decide)
    (by decide)
  have e : (enforce twoWorld .gradient [0] twoHeap).map (fun h => (h 0).layout) = some 0 := by decide +kernel
  rw [h] at e
  revert e
  decide

end Dedalus.Conditions
