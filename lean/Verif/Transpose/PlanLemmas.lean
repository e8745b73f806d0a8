import Verif.Transpose.Plan
import Verif.Dist.BlockLemmas
import Mathlib.Data.List.Nodup

namespace Dedalus.Transpose
open Dedalus.Dist

variable {K α : Type}

/-- Effect of moving one field alone. -/
def movedUp (P : Plans K α) (f : Fld K α) : Fld K α :=
  { f with upper := true, comps := if P.hasPlan f.key then f.comps.map (P.up f.key) else f.comps }
def movedDown (P : Plans K α) (f : Fld K α) : Fld K α :=
  { f with upper := false, comps := if P.hasPlan f.key then f.comps.map (P.down f.key) else f.comps }

theorem incSingle_eq (P : Plans K α) (s : Store K α) (i : Nat) :
    incSingle P s i = Function.update s i (movedUp P (s i)) := by
  unfold incSingle movedUp; split <;> simp_all

theorem decSingle_eq (P : Plans K α) (s : Store K α) (i : Nat) :
    decSingle P s i = Function.update s i (movedDown P (s i)) := by
  unfold decSingle movedDown; split <;> simp_all

theorem foldl_update (g : Fld K α → Fld K α) (is : List Nat) (hn : is.Nodup) (s : Store K α) :
    is.foldl (fun s i => Function.update s i (g (s i))) s = fun j => if j ∈ is then g (s j) else s j := by
  induction is generalizing s with
  | nil => simp
  | cons i is ih =>
    rw [List.foldl_cons, ih (List.nodup_cons.1 hn).2]
    have hi := (List.nodup_cons.1 hn).1
    funext j
    by_cases hj : j = i
    · subst hj; simp [hi]
    · simp [hj]

theorem splitBack_eq (T : α → α) (u : Bool) (is : List Nat) (hn : is.Nodup) :
    ∀ (pre : List α) (s0 s : Store K α), (∀ i ∈ is, s i = s0 i) →
      splitBack (pre ++ (is.flatMap (fun i => (s0 i).comps)).map T) u is pre.length s =
        fun j => if j ∈ is then { (s j) with upper := u, comps := (s j).comps.map T } else s j := by
  induction is with
  | nil => intro pre s0 s _; simp [splitBack]
  | cons i is ih =>
    intro pre s0 s hs
    obtain ⟨hi, hn'⟩ := List.nodup_cons.1 hn
    rw [splitBack]
    simp only [List.flatMap_cons, List.map_append]
    have hsi := hs i (by simp)
    have h1 : List.take (s i).comps.length (List.drop pre.length
        (pre ++ ((s0 i).comps.map T ++ (is.flatMap fun i => (s0 i).comps).map T))) = (s i).comps.map T := by
      rw [List.drop_left, hsi, List.take_left' (by simp)]
    rw [h1]
    have h2 := ih hn' (pre ++ (s0 i).comps.map T) s0
      (Function.update s i { (s i) with upper := u, comps := (s i).comps.map T }) (by
        intro k hk
        have : k ≠ i := fun h => hi (h ▸ hk)
        rw [Function.update_of_ne this]; exact hs k (by simp [hk]))
    rw [List.length_append, List.length_map, ← hsi] at h2
    rw [hsi] at h2 ⊢
    rw [← List.append_assoc]
    rw [h2]
    funext j
    by_cases hj : j = i
    · subst hj; simp [hi, hsi]
    · simp [hj]

/-- groups only contain indices of their own key, cover the list once -/
structure GroupInv (s : Store K α) (is : List Nat) (gs : List (K × List Nat)) : Prop where
  key : ∀ g ∈ gs, ∀ i ∈ g.2, (s i).key = g.1
  perm : (gs.flatMap (·.2)).Perm is

theorem insertGroup_inv [DecidableEq K] (s : Store K α) (i : Nat) (gs : List (K × List Nat)) :
    (∀ g ∈ gs, ∀ i ∈ g.2, (s i).key = g.1) →
    (∀ g ∈ insertGroup (s i).key i gs, ∀ j ∈ g.2, (s j).key = g.1) ∧
      ((insertGroup (s i).key i gs).flatMap (·.2)).Perm (gs.flatMap (·.2) ++ [i]) := by
  induction gs with
  | nil => intro _; simp [insertGroup]
  | cons g gs ih =>
    intro h
    obtain ⟨k', is⟩ := g
    rw [insertGroup]
    split
    · rename_i hk
      constructor
      · intro g hg j hj
        rcases List.mem_cons.1 hg with rfl | hg
        · simp at hj
          rcases hj with hj | rfl
          · exact h (k', is) (by simp) j hj
          · exact hk
        · exact h g (by simp [hg]) j hj
      · simp only [List.flatMap_cons, List.append_assoc]
        exact (List.Perm.append_left _ List.perm_append_comm)
    · obtain ⟨h1, h2⟩ := ih (fun g hg => h g (by simp [hg]))
      constructor
      · intro g hg j hj
        rcases List.mem_cons.1 hg with rfl | hg
        · exact h _ (by simp) j hj
        · exact h1 g hg j hj
      · simp only [List.flatMap_cons, List.append_assoc]
        exact List.Perm.append_left _ h2

theorem groupPlans_inv [DecidableEq K] (s : Store K α) (is : List Nat) :
    GroupInv s is (groupPlans s is) := by
  unfold groupPlans
  have : ∀ (is done : List Nat) gs, GroupInv s done gs →
      GroupInv s (done ++ is) (is.foldl (fun gs i => insertGroup (s i).key i gs) gs) := by
    intro is
    induction is with
    | nil => intro done gs h; simpa using h
    | cons i is ih =>
      intro done gs h
      rw [List.foldl_cons]
      obtain ⟨h1, h2⟩ := insertGroup_inv s i gs h.key
      have := ih (done ++ [i]) _ ⟨h1, h2.trans (h.perm.append_right _)⟩
      simpa using this
  simpa using this is [] [] ⟨by simp, by simp⟩

theorem incGroupOne_eq (P : Plans K α) (s : Store K α) (g : K × List Nat) (hn : g.2.Nodup)
    (hk : ∀ i ∈ g.2, (s i).key = g.1) :
    incGroupOne P s g = fun j => if j ∈ g.2 then movedUp P (s j) else s j := by
  obtain ⟨k, is⟩ := g
  simp only at hn hk
  unfold incGroupOne
  by_cases hp : P.hasPlan k
  · rw [if_pos hp]
    simp only
    split
    · rename_i i
      have hki := hk i (by simp)
      funext j
      by_cases hj : j = i
      · subst hj; simp [movedUp, hki, hp]
      · simp [hj]
    · have := splitBack_eq (K := K) (P.up k) true is hn [] s s (fun _ _ => rfl)
      simp only [List.nil_append, List.length_nil] at this
      rw [this]
      funext j
      by_cases hj : j ∈ is
      · simp [hj, movedUp, hk j hj, hp]
      · simp [hj]
  · rw [if_neg hp, foldl_update (fun f => { f with upper := true }) is hn]
    funext j
    by_cases hj : j ∈ is
    · simp [hj, movedUp, hk j hj, hp]
    · simp [hj]

theorem decGroupOne_eq (P : Plans K α) (s : Store K α) (g : K × List Nat) (hn : g.2.Nodup)
    (hk : ∀ i ∈ g.2, (s i).key = g.1) (hp : P.hasPlan g.1 = true) :
    decGroupOne P s g = fun j => if j ∈ g.2 then movedDown P (s j) else s j := by
  obtain ⟨k, is⟩ := g
  simp only at hn hk hp
  unfold decGroupOne
  · rw [if_pos hp]
    simp only
    split
    · rename_i i
      have hki := hk i (by simp)
      funext j
      by_cases hj : j = i
      · subst hj; simp [movedDown, hki, hp]
      · simp [hj]
    · have := splitBack_eq (K := K) (P.down k) false is hn [] s s (fun _ _ => rfl)
      simp only [List.nil_append, List.length_nil] at this
      rw [this]
      funext j
      by_cases hj : j ∈ is
      · simp [hj, movedDown, hk j hj, hp]
      · simp [hj]

theorem foldl_groups' (F : Store K α → K × List Nat → Store K α) (mv : Fld K α → Fld K α)
    (hmv : ∀ f, (mv f).key = f.key) (ok : K × List Nat → Prop)
    (hF : ∀ s g, g.2.Nodup → (∀ i ∈ g.2, (s i).key = g.1) → ok g →
      F s g = fun j => if j ∈ g.2 then mv (s j) else s j) :
    ∀ (gs : List (K × List Nat)) (s : Store K α), (gs.flatMap (·.2)).Nodup →
      (∀ g ∈ gs, ∀ i ∈ g.2, (s i).key = g.1) → (∀ g ∈ gs, ok g) →
      gs.foldl F s = fun j => if j ∈ gs.flatMap (·.2) then mv (s j) else s j := by
  intro gs
  induction gs with
  | nil => intro s _ _ _; simp
  | cons g gs ih =>
    intro s hn hk hok
    rw [List.flatMap_cons, List.nodup_append] at hn
    obtain ⟨hn1, hn2, hd⟩ := hn
    have h1 := hF s g hn1 (hk g (by simp)) (hok g (by simp))
    rw [List.foldl_cons, ih _ hn2 _ (fun g' hg' => hok g' (by simp [hg']))]
    · rw [h1]
      funext j
      by_cases hj : j ∈ g.2
      · have : j ∉ gs.flatMap (·.2) := fun h => hd j hj j h rfl
        simp only [hj, this, if_true, if_false, true_or, List.flatMap_cons, List.mem_append]
      · by_cases hj2 : j ∈ gs.flatMap (·.2)
        · simp only [hj, hj2, if_true, if_false, or_true, List.flatMap_cons, List.mem_append]
        · simp only [hj, hj2, if_false, or_self, List.flatMap_cons, List.mem_append]
    · intro g' hg' i hi
      rw [h1]
      have := hk g' (by simp [hg']) i hi
      simp only
      split
      · rw [hmv]; exact this
      · exact this

theorem layoutElements_partner (loc constant : List Bool) (mesh shape chunks : List Nat)
    (axis : Nat) (pre post : List Nat) (c c' : Nat)
    (hpre : pre.length = (loc.take axis).count false) (hax : loc[axis]? = some false) :
    match layoutElements loc mesh shape chunks constant false (pre ++ c :: post),
      layoutElements loc mesh shape chunks constant false (pre ++ c' :: post) with
    | some els, some els' => els.length = els'.length ∧ ∀ a, a ≠ axis → els[a]? = els'[a]?
    | none, none => True
    | _, _ => False := by
  -- scatter of the two coordinate lists
  have hsc : ∀ (loc : List Bool) (axis : Nat) (pre : List Nat), pre.length = (loc.take axis).count false →
      loc[axis]? = some false →
      (scatterNonlocal 0 loc (pre ++ c :: post) = none ∧ scatterNonlocal 0 loc (pre ++ c' :: post) = none) ∨
      ∃ e e', scatterNonlocal 0 loc (pre ++ c :: post) = some e ∧
        scatterNonlocal 0 loc (pre ++ c' :: post) = some e' ∧ e.length = e'.length ∧
        ∀ a, a ≠ axis → e[a]? = e'[a]? := by
    intro loc
    induction loc with
    | nil => intro axis pre _ h; simp at h
    | cons l ls ih =>
      intro axis pre hp hx
      cases l with
      | true =>
        cases axis with
        | zero => simp at hx
        | succ axis =>
          simp at hp hx
          rcases ih axis pre hp (by simpa using hx) with ⟨h1, h2⟩ | ⟨e, e', h1, h2, h3, h4⟩
          · left; simp [scatterNonlocal, h1, h2]
          · right
            refine ⟨0 :: e, 0 :: e', by simp [scatterNonlocal, h1], by simp [scatterNonlocal, h2],
              by simp [h3], ?_⟩
            intro a ha
            cases a with
            | zero => rfl
            | succ a => simpa using h4 a (by omega)
      | false =>
        cases axis with
        | zero =>
          simp at hp
          subst hp
          simp only [List.nil_append, scatterNonlocal]
          rcases scatterNonlocal 0 ls post with _ | e
          · left; simp
          · right
            refine ⟨c :: e, c' :: e, rfl, rfl, by simp, ?_⟩
            intro a ha
            cases a with
            | zero => exact absurd rfl ha
            | succ a => rfl
        | succ axis =>
          simp at hp hx
          cases pre with
          | nil => simp at hp
          | cons v pre =>
            simp at hp
            rcases ih axis pre hp (by simpa using hx) with ⟨h1, h2⟩ | ⟨e, e', h1, h2, h3, h4⟩
            · left; simp [scatterNonlocal, h1, h2]
            · right
              refine ⟨v :: e, v :: e', by simp [scatterNonlocal, h1], by simp [scatterNonlocal, h2],
                by simp [h3], ?_⟩
              intro a ha
              cases a with
              | zero => rfl
              | succ a => simpa using h4 a (by omega)
  unfold layoutElements
  rcases h0 : scatterNonlocal 1 loc mesh with _ | em
  · simp
  rcases hsc loc axis pre hpre hax with ⟨h1, h2⟩ | ⟨e, e', h1, h2, h3, h4⟩
  · simp [h1, h2]
  · simp only [h1, h2]
    rcases axesOf loc shape chunks em constant with _ | axs
    · simp
    · simp only [Option.map_some]
      refine ⟨by simp [h3], ?_⟩
      intro a ha
      rw [List.getElem?_zipWith, List.getElem?_zipWith, h4 a ha]

end Dedalus.Transpose
