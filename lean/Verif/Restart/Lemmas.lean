import Verif.Restart.Spec
import Verif.Output.Props
import Mathlib.Tactic.Linarith
import Mathlib.Tactic.FieldSimp

/-!
# Lemmas about restarts
-/

namespace Dedalus.Restart

open Dedalus.Dist Dedalus.Global Dedalus.Output

variable {α T : Type}

theorem gridSize_saved {m n : Nat} (hn : 0 < n) (h1 : n = 1 → m = 1) : gridSize id (savedScale id m n) n = m := by
  unfold gridSize savedScale
  split
  · rename_i h; exact (h1 h).symm
  · have hn' : (n : ℚ) ≠ 0 := Nat.cast_ne_zero.mpr (by omega)
    simp only [id]
    rw [div_mul_cancel₀ _ hn', Int.ceil_natCast, Int.toNat_natCast]

theorem grid_saved {grid sizes : List Nat} (h : List.Forall₂ (fun m n => 0 < m ∧ (n = 1 → m = 1)) grid sizes) (hp : ∀ n ∈ sizes, 0 < n) :
    List.zipWith (gridSize id) (List.zipWith (savedScale id) grid sizes) sizes = grid := by
  induction h with
  | nil => rfl
  | cons h _ ih =>
    simp only [List.zipWith_cons_cons]
    rw [gridSize_saved (hp _ (List.mem_cons_self)) h.2, ih fun n hn => hp n (List.mem_cons_of_mem _ hn)]

theorem scales_nonzero {grid sizes : List Nat} (h : List.Forall₂ (fun m n => 0 < m ∧ (n = 1 → m = 1)) grid sizes) (hp : ∀ n ∈ sizes, 0 < n) :
    (0 : ℚ) ∉ List.zipWith (savedScale id) grid sizes := by
  induction h with
  | nil => simp
  | @cons m n _ _ h _ ih =>
    simp only [List.zipWith_cons_cons, List.mem_cons, not_or]
    refine ⟨?_, ih fun n hn => hp n (List.mem_cons_of_mem _ hn)⟩
    have hm : (0 : ℚ) < m := Nat.cast_pos.mpr h.1
    have hn : (0 : ℚ) < n := Nat.cast_pos.mpr (hp _ List.mem_cons_self)
    exact (div_pos hm hn).ne

theorem drop_tail (a b : List Nat) (n : Nat) (h : n = b.length) : (a ++ b).drop ((a ++ b).length - n) = b := by
  rw [List.length_append, h, Nat.add_sub_cancel, List.drop_left]

theorem run_inside : ∀ (axs : List Axis), (∀ ax ∈ axs, AxOK ax) → ∀ (c idx : List Nat), List.Forall₂ (· < ·) c (axs.map (·.mesh)) →
    List.Forall₂ (· < ·) idx (lens axs c) → List.Forall₂ (· < ·) (List.zipWith (· + ·) (starts axs c) idx) (axs.map (·.size)) := by
  intro axs
  induction axs with
  | nil =>
    intro _ c idx hc hi
    cases hc
    cases hi
    exact .nil
  | cons ax axs ih =>
    intro hk c idx hc hi
    rw [List.map_cons] at hc
    cases hc with
    | cons h hc =>
      rw [lens, List.zipWith_cons_cons] at hi
      cases hi with
      | cons h' hi =>
        rw [starts, List.zipWith_cons_cons, List.zipWith_cons_cons, List.map_cons]
        refine .cons ?_ (ih (fun a ha => hk a (List.mem_cons_of_mem _ ha)) _ _ hc hi)
        have := run_le (hk ax List.mem_cons_self) h
        beta_reduce
        omega

/-- The part of the same array. -/
theorem holds_same {d : Distn} (hd : d.OK) {e G : NDArr α} (hs : Same e G) (hG : G.shape = d.comps ++ d.shape) {coords : List Nat}
    (hc : List.Forall₂ (· < ·) coords d.mesh) {a : NDArr α} (h : Holds d e coords a) : Holds d G coords a := by
  obtain ⟨ext, axs, e1, e2, e3, e4, e5⟩ := axes_of_ok d hd
  have hmem : coords ∈ coordsList d.mesh := (mem_coordsList _ _).2 hc
  rw [(coords_bridge _ _ _ e1).1, List.mem_map] at hmem
  obtain ⟨c, hc', rfl⟩ := hmem
  rw [holds_iff d e1 e2 hc'] at h ⊢
  refine ⟨h.1, fun t idx ht hi => ?_⟩
  rw [h.2 t idx ht hi]
  apply hs.2
  rw [hs.1, hG]
  refine forall₂_append ht ?_
  rw [← e5]
  refine run_inside axs e3 c idx ?_ hi
  rw [e4]
  exact (mem_coordsList _ _).1 hc'

/-- The grid layout is legal. -/
theorem grid_ok {mesh : List Nat} {f : FieldInfo} (h : FieldOK mesh f) {grid : List Nat} (hg : grid.length = f.sizes.length) {scales : List ℚ}
    (hs : List.zipWith (gridSize id) scales f.sizes = grid) : (f.grid id scales).OK where
  constant := by
    show f.coeff.constant.length = f.gridLoc.length
    rw [h.coeff.constant, h.loc]
  shape := by
    show (List.zipWith (gridSize id) scales f.sizes).length = f.gridLoc.length
    rw [hs, hg, h.sizes, h.coeff.shape, h.loc]
  chunks := by
    show List.Forall₂ (fun c n => 0 < c ∧ c ∣ n) f.gridChunks (List.zipWith (gridSize id) scales f.sizes)
    rw [hs, h.chunks]
    have : ∀ (l g : List Nat), g.length = l.length → List.Forall₂ (fun c n => 0 < c ∧ c ∣ n) (l.map fun _ => 1) g := by
      intro l
      induction l with
      | nil => intro g hg; rw [List.length_eq_zero_iff.mp hg]; exact .nil
      | cons _ l ih =>
        intro g hg
        cases g with
        | nil => simp at hg
        | cons x g => exact .cons ⟨Nat.one_pos, one_dvd _⟩ (ih g (by simpa using hg))
    exact this _ _ hg
  mesh := by
    show f.coeff.mesh.length = f.gridLoc.count false
    rw [h.coeff.mesh, h.count]
  pos := h.coeff.pos

/-- Loading an entry that fits. -/
theorem loadField_ok {mesh : List Nat} {f : FieldInfo} (h : FieldOK mesh f) {gs : List Bool} {G e : NDArr α} (hF : Fits f gs G.shape) (hs : Same e G)
    {coords : List Nat} (hc : List.Forall₂ (· < ·) coords mesh) {tasks : Nat → Option (Dset α)} {es : List (NDArr α)}
    (ht : tasks f.name = some ⟨gs, es⟩) {index : Int} (he : pyGet es index = some e) :
    ∃ d, loadField id f coords tasks index = .ok d ∧ Restored f gs G coords d := by
  have hc' : List.Forall₂ (· < ·) coords f.coeff.mesh := h.mesh ▸ hc
  rcases hF.kind with ⟨hk, hsh⟩ | ⟨hk, grid, hsh, hg⟩
  · have hn : ¬ gs.all (· == true) = true := by
      intro hall
      obtain ⟨b, l, rfl⟩ := List.exists_cons_of_ne_nil hF.layout
      have := hk b List.mem_cons_self
      subst this
      simp at hall
    have ha : gs.all (· == false) = true := List.all_eq_true.mpr fun b hb => by rw [hk b hb]; rfl
    have hes : e.shape = f.coeff.comps ++ f.coeff.shape := hs.1.trans hsh
    obtain ⟨a, h1, h2⟩ := load_gives_owned_part f.coeff h.coeff e hes coords hc'
    refine ⟨.coeff a, ?_, hk, holds_same h.coeff hs hsh hc' h2⟩
    have hd : ¬ (e.shape.drop (e.shape.length - f.coeff.shape.length) ≠ f.coeff.shape) := by
      rw [hes, drop_tail _ _ _ rfl]; simp
    simp only [loadField, ht, hn, if_false, ha, if_true, he, loadCoeff, hd, h1, Bool.false_eq_true]
  · have ha : gs.all (· == true) = true := List.all_eq_true.mpr fun b hb => by rw [hk b hb]; rfl
    have hes : e.shape = f.coeff.comps ++ grid := hs.1.trans hsh
    have hd : e.shape.drop (e.shape.length - f.sizes.length) = grid := by rw [hes, drop_tail _ _ _ hg.length_eq.symm]
    have hz := scales_nonzero hg h.pos
    have hg' := grid_saved hg h.pos
    have hok := grid_ok h hg.length_eq hg'
    have hsh' : G.shape = (f.grid id (List.zipWith (savedScale id) grid f.sizes)).comps ++
        (f.grid id (List.zipWith (savedScale id) grid f.sizes)).shape := by
      show _ = f.coeff.comps ++ List.zipWith (gridSize id) _ f.sizes
      rw [hg', hsh]
    obtain ⟨a, h1, h2⟩ := load_gives_owned_part _ hok e (hs.1.trans hsh') coords hc'
    refine ⟨.grid (List.zipWith (savedScale id) grid f.sizes) a, ?_, hk, holds_same hok hs hsh' hc' h2, hsh'.symm⟩
    simp only [loadField, ht, ha, if_true, he, loadGrid, hd, hz, if_false, h1]

theorem pyGet_of {β : Type} {l : List β} {i : Nat} {x : β} (h : l[i]? = some x) {index : Int} (hi : index = i ∨ index = i - (l.length : Int)) :
    pyGet l index = some x := by
  have hl : i < l.length := (List.getElem?_eq_some_iff.mp h).1
  unfold pyGet
  rcases hi with rfl | rfl
  · rw [if_pos (by omega), Int.toNat_natCast, h]
  · rw [if_neg (by omega), if_pos (by omega)]
    have : ((i : Int) - l.length + l.length).toNat = i := by omega
    rw [this, h]

/-- The loop over fields that are in the file or may be missing. -/
theorem loadFields_ok {coords : List Nat} {tasks : Nat → Option (Dset α)} {index : Int} (allow : Bool) {P : FieldInfo × Data α → FieldInfo × Data α → Prop} :
    ∀ (fs : List (FieldInfo × Data α)), (∀ y ∈ fs, ((tasks y.1.name).isSome = true ∧ ∃ d, loadField id y.1 coords tasks index = .ok d ∧ P y (y.1, d)) ∨
      ((tasks y.1.name).isSome = false ∧ allow = true ∧ P y y)) →
    ∃ out, loadFields id coords tasks index allow fs = (out, none) ∧ List.Forall₂ P fs out := by
  intro fs
  induction fs with
  | nil => intro _; exact ⟨[], rfl, .nil⟩
  | cons y fs ih =>
    intro h
    obtain ⟨out, e1, e2⟩ := ih fun z hz => h z (List.mem_cons_of_mem _ hz)
    rcases h y List.mem_cons_self with ⟨h1, d, h2, h3⟩ | ⟨h1, rfl, h3⟩
    · refine ⟨(y.1, d) :: out, ?_, .cons h3 e2⟩
      simp only [loadFields, h1, if_true, h2, e1]
    · refine ⟨y :: out, ?_, .cons h3 e2⟩
      simp only [loadFields, h1, if_true, if_false, e1, Bool.false_eq_true]

end Dedalus.Restart
