import Verif.Ghost.Model
import Verif.Ghost.Spec
import Verif.Dist.BlockLemmas
import Mathlib.Tactic.Ring

namespace Dedalus.Ghost
open Dist Spec

theorem elements_nil : elements [] [] [] [] = some [] := rfl

theorem elements_local (axes : List (Option Nat)) (n : Nat) (ns : List Nat) (c : Bool) (cs : List Bool) (p : Coords) :
    elements (none :: axes) (n :: ns) (c :: cs) p = (elements axes ns cs p).map (localElements false ⟨true, n, 1, 1, c⟩ 0 :: ·) := by
  simp only [elements, layoutElements, List.map_cons, Option.isNone_none, List.filterMap_cons_none (f := id) (a := none) rfl, scatterNonlocal]
  cases scatterNonlocal 1 (axes.map Option.isNone) (axes.filterMap id) with
  | none => simp
  | some M =>
    cases scatterNonlocal 0 (axes.map Option.isNone) p with
    | none => simp
    | some X =>
      simp only [Option.map_some, axesOf]
      cases axesOf (axes.map Option.isNone) ns (ns.map fun _ => 1) M cs <;> simp

theorem elements_dist (axes : List (Option Nat)) (m n : Nat) (ns : List Nat) (c : Bool) (cs : List Bool) (x : Nat) (p : Coords) :
    elements (some m :: axes) (n :: ns) (c :: cs) (x :: p) = (elements axes ns cs p).map (localElements false ⟨false, n, 1, m, c⟩ x :: ·) := by
  simp only [elements, layoutElements, List.map_cons, Option.isNone_some, List.filterMap_cons_some (f := id) (a := some m) rfl, scatterNonlocal]
  cases scatterNonlocal 1 (axes.map Option.isNone) (axes.filterMap id) with
  | none => simp
  | some M =>
    cases scatterNonlocal 0 (axes.map Option.isNone) p with
    | none => simp
    | some X =>
      simp only [Option.map_some, axesOf]
      cases axesOf (axes.map Option.isNone) ns (ns.map fun _ => 1) M cs <;> simp

/-- Elements do not depend on the flag of constant axes (without `broadcast`). -/
theorem localElements_flag (l : Bool) (n m : Nat) (c c' : Bool) (x : Nat) :
    localElements false ⟨l, n, 1, m, c⟩ x = localElements false ⟨l, n, 1, m, c'⟩ x := rfl

theorem local_one (c : Bool) : localElements false ⟨true, 1, 1, 1, c⟩ 0 = [0] := by
  cases c <;> rfl

theorem dist_one {m : Nat} (hm : 0 < m) (c : Bool) (x : Nat) :
    localElements false ⟨false, 1, 1, m, c⟩ x = if x = 0 then [0] else [] := by
  have hb : ceilDiv 1 m = 1 := by
    unfold ceilDiv
    rw [show 1 + m - 1 = m by omega, Nat.div_self hm]
  have h1 : ceilDiv 1 1 = 1 := rfl
  by_cases h : x = 0
  · subst h
    rw [if_pos rfl]
    simp only [localElements, localChunks, h1, hb, arange, Bool.false_and, Bool.false_eq_true, if_false, Nat.mul_zero]
    rfl
  · rw [if_neg h]
    have e1 : min 1 (1 * x) = 1 := by omega
    have e2 : min 1 (1 * (x + 1)) = 1 := by omega
    simp only [localElements, localChunks, h1, hb, arange, Bool.false_and, Bool.false_eq_true, if_false, e1, e2]
    rfl

theorem fits_nil : fits [] [] = true := rfl

theorem fits_cons (n m : Nat) (s t : List Nat) : fits (n :: s) (m :: t) = ((decide (n = m) || decide (n = 1)) && fits s t) := by
  unfold fits
  simp only [List.length_cons, List.zipWith_cons_cons, List.all_cons, id, Nat.add_right_cancel_iff]
  rcases decide (s.length = t.length) <;> simp

theorem fits_append {s t : List Nat} (h : fits s t = true) (s' t' : List Nat) : fits (s ++ s') (t ++ t') = fits s' t' := by
  induction s generalizing t with
  | nil =>
    cases t with
    | nil => rfl
    | cons _ _ => simp [fits] at h
  | cons n s ih =>
    cases t with
    | nil => simp [fits] at h
    | cons m t =>
      rw [fits_cons, Bool.and_eq_true] at h
      rw [List.cons_append, List.cons_append, fits_cons, h.1, Bool.true_and, ih h.2]

theorem fits_self (s : List Nat) : fits s s = true := by
  induction s with
  | nil => rfl
  | cons n s ih => rw [fits_cons, ih]; simp

theorem fits_ones (s : List Nat) : fits (List.replicate s.length 1) s = true := by
  induction s with
  | nil => rfl
  | cons n s ih => rw [List.length_cons, List.replicate_succ, fits_cons, ih]; simp

theorem clip_append {s i : List Nat} (h : s.length = i.length) (s' i' : List Nat) : clip (s ++ s') (i ++ i') = clip s i ++ clip s' i' := by
  unfold clip
  exact List.zipWith_append h

theorem clip_index {t ts : List Nat} (h : Index t ts) : clip ts t = t := by
  unfold Index at h
  induction h with
  | nil => rfl
  | @cons k n t ts hk _ ih =>
    show (if n = 1 then 0 else k) :: clip ts t = k :: t
    rw [ih]
    congr 1
    split
    · omega
    · rfl

/-- One argument, after broadcasting: the points of the argument on the root of the group of process `p` match the points of the product on `p`. -/
theorem core (axes : List (Option Nat)) (hm : ∀ m, some m ∈ axes → 0 < m) (c : List Bool) (ns : List Nat) (o : List Bool) (Ns : List Nat)
    (hl : axes.length = c.length) (hc : Compatible c ns o Ns) (p : Coords) (hp : p.length = (axes.filterMap id).length) :
    ∃ E E', elements axes Ns o p = some E ∧
      elements axes ns c (root (deployDims (o.map (!·)) c (axes.map Option.isNone)) p) = some E' ∧
      fits (E'.map List.length) (E.map List.length) = true ∧
      ∀ i g, At E i g → At E' (clip (E'.map List.length) i) (restrict c g) := by
  induction axes generalizing c ns o Ns p with
  | nil =>
    obtain rfl : c = [] := List.length_eq_zero_iff.1 hl.symm
    obtain rfl : p = [] := List.length_eq_zero_iff.1 hp
    cases ns <;> cases o <;> cases Ns <;> simp only [Compatible] at hc
    refine ⟨[], [], rfl, rfl, rfl, ?_⟩
    intro i g h
    cases i <;> cases g <;> simp only [At] at h ⊢
    simp [clip, restrict, At]
  | cons a axes ih =>
    cases c with
    | nil => simp at hl
    | cons c cs =>
    cases ns with
    | nil => simp [Compatible] at hc
    | cons n ns =>
    cases o with
    | nil => simp [Compatible] at hc
    | cons o os =>
    cases Ns with
    | nil => simp [Compatible] at hc
    | cons N Ns =>
    obtain ⟨hx, hc⟩ := hc
    have hm' : ∀ m, some m ∈ axes → 0 < m := fun m h => hm m (List.mem_cons_of_mem _ h)
    have hl' : axes.length = cs.length := by simpa using hl
    -- it is enough to compare the lists along the first axis
    have key : ∀ (l l' : List Nat) (p : Coords), p.length = (axes.filterMap id).length →
        (l'.length = l.length ∨ l'.length = 1) →
        (∀ k x : Nat, l[k]? = some x → l'[if l'.length = 1 then 0 else k]? = some (if c then 0 else x)) →
        ∀ {A B : Option (List (List Nat))}, A = (elements axes Ns os p).map (l :: ·) →
        B = (elements axes ns cs (root (deployDims (os.map (!·)) cs (axes.map Option.isNone)) p)).map (l' :: ·) →
        ∃ E E', A = some E ∧ B = some E' ∧ fits (E'.map List.length) (E.map List.length) = true ∧
          ∀ i g, At E i g → At E' (clip (E'.map List.length) i) (restrict (c :: cs) g) := by
      intro l l' p hp h1 h2 A B hA hB
      obtain ⟨E, E', e1, e2, e3, e4⟩ := ih hm' cs ns os Ns hl' hc p hp
      refine ⟨l :: E, l' :: E', by rw [hA, e1]; rfl, by rw [hB, e2]; rfl, ?_, ?_⟩
      · rw [List.map_cons, List.map_cons, fits_cons, e3]
        rcases h1 with h1 | h1 <;> simp [h1]
      · intro i g h
        cases i with
        | nil => simp [At] at h
        | cons k i =>
        cases g with
        | nil => simp [At] at h
        | cons x g =>
        exact ⟨h2 k x h.1, e4 i g h.2⟩
    have same : ∀ l : List Nat, (c = true → ∀ x ∈ l, x = 0) → ∀ k x : Nat, l[k]? = some x → l[if l.length = 1 then 0 else k]? = some (if c then 0 else x) := by
      intro l h k x hk
      have hkl : k < l.length := (List.getElem?_eq_some_iff.1 hk).1
      have e : (if l.length = 1 then 0 else k) = k := by split <;> omega
      rw [e, hk]
      congr 1
      split
      · exact h ‹_› x (List.mem_of_getElem? hk)
      · rfl
    have one : c = true → ∀ (l : List Nat) (k x : Nat), l[k]? = some x → ([0] : List Nat)[if ([0] : List Nat).length = 1 then 0 else k]? = some (if c then 0 else x) := by
      intro hc l k x _
      simp [hc]
    cases a with
    | none =>
      have e1 := elements_local axes N Ns o os p
      have ed : root (deployDims ((o :: os).map (!·)) (c :: cs) ((none :: axes).map Option.isNone)) p =
          root (deployDims (os.map (!·)) cs (axes.map Option.isNone)) p := rfl
      rw [ed]
      have e2 := elements_local axes n ns c cs (root (deployDims (os.map (!·)) cs (axes.map Option.isNone)) p)
      have hp' : p.length = (axes.filterMap id).length := by simpa using hp
      rcases hx with ⟨hcc, hn, _⟩ | ⟨hcc, _, hn⟩
      · subst hn
        rw [local_one] at e2
        exact key _ [0] p hp' (Or.inr rfl) (one hcc _) e1 e2
      · subst hn
        rw [localElements_flag true n 1 c o] at e2
        exact key _ _ p hp' (Or.inl rfl) (same _ (by rw [hcc]; simp)) e1 e2
    | some m =>
      have hm0 : 0 < m := hm m List.mem_cons_self
      cases p with
      | nil => simp at hp
      | cons x p =>
      have hp' : p.length = (axes.filterMap id).length := by simpa using hp
      have e1 := elements_dist axes m N Ns o os x p
      have ed : root (deployDims ((o :: os).map (!·)) (c :: cs) ((some m :: axes).map Option.isNone)) (x :: p) =
          (if (!o && c) then 0 else x) :: root (deployDims (os.map (!·)) cs (axes.map Option.isNone)) p := rfl
      rw [ed]
      have e2 := elements_dist axes m n ns c cs (if (!o && c) then 0 else x) (root (deployDims (os.map (!·)) cs (axes.map Option.isNone)) p)
      rcases hx with ⟨hcc, hn, ho⟩ | ⟨hcc, ho, hn⟩
      · subst hn
        rcases Bool.eq_false_or_eq_true o with ho' | ho'
        · obtain rfl := ho ho'
          have e : (if (!o && c) = true then 0 else x) = x := by rw [ho']; simp
          rw [e] at e2
          rw [e, localElements_flag false 1 m c o] at *
          refine key _ _ p hp' (Or.inl rfl) (same _ ?_) e1 e2
          intro _ y hy
          rw [dist_one hm0] at hy
          split at hy <;> simp at hy
          exact hy
        · have e : (if (!o && c) = true then 0 else x) = 0 := by rw [ho', hcc]; rfl
          rw [e, dist_one hm0, if_pos rfl] at e2
          rw [e]
          exact key _ [0] p hp' (Or.inr rfl) (one hcc _) e1 e2
      · subst hn
        have e : (if (!o && c) = true then 0 else x) = x := by rw [hcc]; simp
        rw [e] at e2
        rw [e]
        rw [localElements_flag false n m c o] at e2
        exact key _ _ p hp' (Or.inl rfl) (same _ (by rw [hcc]; simp)) e1 e2

theorem compress_length {α : Type} (axes : List (Option Nat)) (x : List α) (h : axes.length = x.length) :
    (compress (axes.map Option.isNone) x).length = (axes.filterMap id).length := by
  induction axes generalizing x with
  | nil => cases x <;> simp [compress]
  | cons a axes ih =>
    cases x with
    | nil => simp at h
    | cons y x =>
      have h' : axes.length = x.length := by simpa using h
      cases a <;> simp [compress, ih x h']

theorem compatible_lengths {c : List Bool} {ns : List Nat} {o : List Bool} {Ns : List Nat} (h : Compatible c ns o Ns) :
    c.length = o.length ∧ ns.length = c.length ∧ Ns.length = c.length := by
  induction c generalizing ns o Ns with
  | nil => cases ns <;> cases o <;> cases Ns <;> simp [Compatible] at h ⊢
  | cons c cs ih =>
    cases ns <;> cases o <;> cases Ns <;> simp [Compatible] at h ⊢
    exact ih h.2

theorem deploy_length {axes : List (Option Nat)} {c o : List Bool} (h : axes.length = c.length) (h' : c.length = o.length) :
    (broadcaster axes o c).deploy.length = (axes.filterMap id).length := by
  apply compress_length
  simp [h, h']

theorem rank_zero {ds : List Bool} {ms : List Nat} {p : Coords} (h1 : ds.length = p.length) (hv : Valid ms p) {r : Nat}
    (h : subRank ds ms p r = 0) : r = 0 ∧ root ds p = p := by
  unfold Valid at hv
  induction hv generalizing ds r with
  | nil =>
    obtain rfl : ds = [] := List.length_eq_zero_iff.1 h1
    exact ⟨h, rfl⟩
  | @cons x m p ms hx _ ih =>
    cases ds with
    | nil => simp at h1
    | cons d ds =>
      obtain ⟨hr, e⟩ := ih (ds := ds) (by simpa using h1) h
      have e' : root (d :: ds) (x :: p) = (if d then 0 else x) :: root ds p := rfl
      cases d with
      | false => exact ⟨by simpa using hr, by rw [e', e]; rfl⟩
      | true =>
        have hr' : r * m + x = 0 := by simpa using hr
        have h2 : r * m = 0 := by omega
        have h3 : x = 0 := by omega
        rcases Nat.mul_eq_zero.1 h2 with h4 | h4
        · exact ⟨h4, by rw [e', e, h3]; rfl⟩
        · omega

theorem root_of_none {ds : List Bool} {p : Coords} (h1 : ds.length = p.length) (h : ds.any id = false) : root ds p = p := by
  induction ds generalizing p with
  | nil =>
    obtain rfl : p = [] := List.length_eq_zero_iff.1 h1.symm
    rfl
  | cons d ds ih =>
    cases p with
    | nil => simp at h1
    | cons x p =>
      simp only [List.any_cons, id, Bool.or_eq_false_iff] at h
      have e' : root (d :: ds) (x :: p) = (if d then 0 else x) :: root ds p := rfl
      rw [e', ih (by simpa using h1) h.2, h.1]
      rfl

theorem root_valid {ds : List Bool} {ms : List Nat} {p : Coords} (h1 : ds.length = p.length) (hv : Valid ms p) : Valid ms (root ds p) := by
  unfold Valid at hv ⊢
  induction hv generalizing ds with
  | nil =>
    obtain rfl : ds = [] := List.length_eq_zero_iff.1 h1
    exact .nil
  | @cons x m p ms hx _ ih =>
    cases ds with
    | nil => simp at h1
    | cons d ds =>
      have e' : root (d :: ds) (x :: p) = (if d then 0 else x) :: root ds p := rfl
      rw [e']
      refine .cons ?_ (ih (by simpa using h1))
      split <;> omega

theorem group_root {ds : List Bool} {p : Coords} (h1 : ds.length = p.length) : SameGroup ds p (root ds p) := by
  induction ds generalizing p with
  | nil =>
    obtain rfl : p = [] := List.length_eq_zero_iff.1 h1.symm
    exact trivial
  | cons d ds ih =>
    cases p with
    | nil => simp at h1
    | cons x p =>
      have e' : root (d :: ds) (x :: p) = (if d then 0 else x) :: root ds p := rfl
      rw [e']
      exact ⟨fun h => by simp [h], ih (by simpa using h1)⟩

theorem group_roots {ds : List Bool} {p q : Coords} (h : SameGroup ds p q) : root ds p = root ds q := by
  induction ds generalizing p q with
  | nil => cases p <;> cases q <;> simp [SameGroup] at h ⊢
  | cons d ds ih =>
    cases p with
    | nil => simp [SameGroup] at h
    | cons x p =>
    cases q with
    | nil => simp [SameGroup] at h
    | cons y q =>
      show (if d then 0 else x) :: root ds p = (if d then 0 else y) :: root ds q
      rw [ih h.2]
      cases d with
      | true => rfl
      | false => rw [h.1 rfl]

theorem group_symm {ds : List Bool} {p q : Coords} (h : SameGroup ds p q) : SameGroup ds q p := by
  induction ds generalizing p q with
  | nil => cases p <;> cases q <;> simp [SameGroup] at h ⊢
  | cons d ds ih =>
    cases p with
    | nil => simp [SameGroup] at h
    | cons x p =>
    cases q with
    | nil => simp [SameGroup] at h
    | cons y q => exact ⟨fun hd => (h.1 hd).symm, ih h.2⟩

/-- If the local shapes of an argument for two grids agree on one process, they agree on all processes of its group. -/
theorem shapes_group (axes : List (Option Nat)) (c : List Bool) (ns : List Nat) (o : List Bool) (Ns ns' Ns' : List Nat)
    (hl : axes.length = c.length) (hc : Compatible c ns o Ns) (hc' : Compatible c ns' o Ns') (p q : Coords)
    (hg : SameGroup (deployDims (o.map (!·)) c (axes.map Option.isNone)) p q) {E E' F F' : List (List Nat)}
    (hE : elements axes ns c p = some E) (hE' : elements axes ns' c p = some E') (hF : elements axes ns c q = some F)
    (hF' : elements axes ns' c q = some F') (h : E.map List.length = E'.map List.length) : F.map List.length = F'.map List.length := by
  induction axes generalizing c ns o Ns ns' Ns' p q E E' F F' with
  | nil =>
    obtain rfl : c = [] := List.length_eq_zero_iff.1 hl.symm
    cases ns <;> cases o <;> cases Ns <;> simp only [Compatible] at hc
    cases ns' <;> cases Ns' <;> simp only [Compatible] at hc'
    rw [hF] at hF'
    cases hF'
    rfl
  | cons a axes ih =>
    cases c with
    | nil => simp at hl
    | cons c cs =>
    cases ns with
    | nil => simp [Compatible] at hc
    | cons n ns =>
    cases o with
    | nil => simp [Compatible] at hc
    | cons o os =>
    cases Ns with
    | nil => simp [Compatible] at hc
    | cons N Ns =>
    cases ns' with
    | nil => simp [Compatible] at hc'
    | cons n' ns' =>
    cases Ns' with
    | nil => simp [Compatible] at hc'
    | cons N' Ns' =>
    have hl' : axes.length = cs.length := by simpa using hl
    cases a with
    | none =>
      rw [elements_local] at hE hE' hF hF'
      obtain ⟨E, hE1, rfl⟩ := Option.map_eq_some_iff.1 hE
      obtain ⟨E', hE'1, rfl⟩ := Option.map_eq_some_iff.1 hE'
      obtain ⟨F, hF1, rfl⟩ := Option.map_eq_some_iff.1 hF
      obtain ⟨F', hF'1, rfl⟩ := Option.map_eq_some_iff.1 hF'
      simp only [List.map_cons, List.cons.injEq] at h ⊢
      exact ⟨h.1, ih cs ns os Ns ns' Ns' hl' hc.2 hc'.2 p q hg hE1 hE'1 hF1 hF'1 h.2⟩
    | some m =>
      have ed : deployDims ((o :: os).map (!·)) (c :: cs) ((some m :: axes).map Option.isNone) =
          (!o && c) :: deployDims (os.map (!·)) cs (axes.map Option.isNone) := rfl
      rw [ed] at hg
      cases p with
      | nil => simp [SameGroup] at hg
      | cons x p =>
      cases q with
      | nil => simp [SameGroup] at hg
      | cons y q =>
      rw [elements_dist] at hE hE' hF hF'
      obtain ⟨E, hE1, rfl⟩ := Option.map_eq_some_iff.1 hE
      obtain ⟨E', hE'1, rfl⟩ := Option.map_eq_some_iff.1 hE'
      obtain ⟨F, hF1, rfl⟩ := Option.map_eq_some_iff.1 hF
      obtain ⟨F', hF'1, rfl⟩ := Option.map_eq_some_iff.1 hF'
      simp only [List.map_cons, List.cons.injEq] at h ⊢
      refine ⟨?_, ih cs ns os Ns ns' Ns' hl' hc.2 hc'.2 p q hg.2 hE1 hE'1 hF1 hF'1 h.2⟩
      rcases Bool.eq_false_or_eq_true (!o && c) with hd | hd
      · have hcc : c = true := by cases c <;> simp at hd ⊢
        have e1 : n = 1 := by
          rcases hc.1 with h | h
          · exact h.2.1
          · rw [hcc] at h; simp at h
        have e2 : n' = 1 := by
          rcases hc'.1 with h | h
          · exact h.2.1
          · rw [hcc] at h; simp at h
        rw [e1, e2]
      · rw [← hg.1 hd]; exact h.1

/-- The shapes on all processes of the local data of an argument with given flags, on any grid. -/
def IsCall (axes : List (Option Nat)) (ts : List Nat) (c o : List Bool) (shape : Coords → List Nat) : Prop :=
  ∃ ns Ns, Compatible c ns o Ns ∧ ∀ q, Valid (axes.filterMap id) q → ∃ E, elements axes ns c q = some E ∧ shape q = ts ++ E.map List.length

theorem call_group {axes : List (Option Nat)} {ts : List Nat} {c o : List Bool} (hl : axes.length = c.length) {s s' : Coords → List Nat}
    (hs : IsCall axes ts c o s) (hs' : IsCall axes ts c o s') {p q : Coords} (hp : Valid (axes.filterMap id) p)
    (hq : Valid (axes.filterMap id) q) (hg : SameGroup (broadcaster axes o c).deploy p q) (h : s p = s' p) : s q = s' q := by
  obtain ⟨ns, Ns, hc, hs⟩ := hs
  obtain ⟨ns', Ns', hc', hs'⟩ := hs'
  obtain ⟨E, hE, e1⟩ := hs p hp
  obtain ⟨E', hE', e2⟩ := hs' p hp
  obtain ⟨F, hF, e3⟩ := hs q hq
  obtain ⟨F', hF', e4⟩ := hs' q hq
  rw [e1, e2] at h
  rw [e3, e4, shapes_group axes c ns o Ns ns' Ns' hl hc hc' p q hg hE hE' hF hF' (List.append_cancel_left h)]

/-- The caches after some calls. -/
structure Inv (b : Broadcaster) (cache : Cache) (calls : List (Coords → List Nat)) : Prop where
  sound : ∀ p k s, (cache p).lookup k = some s → ∃ call ∈ calls, call p = k ∧ call (b.root p) = s
  full : ∀ p, ∀ call ∈ calls, ∃ s, (cache p).lookup (call p) = some s

theorem Inv.step {b : Broadcaster} {cache : Cache} {calls : List (Coords → List Nat)} (h : Inv b cache calls) (shape : Coords → List Nat) :
    Inv b (b.remember cache shape) (calls ++ [shape]) := by
  constructor
  · intro p k s hk
    unfold Broadcaster.remember at hk
    cases hc : (cache p).lookup (shape p) with
    | some s' =>
      rw [hc] at hk
      obtain ⟨call, h1, h2⟩ := h.sound p k s hk
      exact ⟨call, List.mem_append_left _ h1, h2⟩
    | none =>
      rw [hc] at hk
      simp only [List.lookup_cons] at hk
      by_cases e : k = shape p
      · subst e
        simp only [beq_self_eq_true, Option.some.injEq] at hk
        exact ⟨shape, by simp, rfl, hk⟩
      · have : (k == shape p) = false := by simpa using e
        rw [this] at hk
        obtain ⟨call, h1, h2⟩ := h.sound p k s hk
        exact ⟨call, List.mem_append_left _ h1, h2⟩
  · intro p call hm
    have mono : ∀ k s, (cache p).lookup k = some s → ∃ s, (b.remember cache shape p).lookup k = some s := by
      intro k s hk
      unfold Broadcaster.remember
      cases hc : (cache p).lookup (shape p) with
      | some s' => exact ⟨s, hk⟩
      | none =>
        simp only [List.lookup_cons]
        cases k == shape p
        · exact ⟨s, hk⟩
        · exact ⟨_, rfl⟩
    rcases List.mem_append.1 hm with hm | hm
    · obtain ⟨s, hs⟩ := h.full p call hm
      exact mono _ s hs
    · rw [List.mem_singleton] at hm
      subst hm
      cases hc : (cache p).lookup (call p) with
      | some s' => exact mono _ s' hc
      | none =>
        unfold Broadcaster.remember
        rw [hc]
        simp [List.lookup_cons]

theorem Inv.empty (b : Broadcaster) : Inv b (fun _ => []) [] := ⟨by simp, by simp⟩

theorem Inv.after (b : Broadcaster) (calls : List (Coords → List Nat)) : Inv b (b.after calls) calls := by
  have : ∀ (more done : List (Coords → List Nat)) (cache : Cache), Inv b cache done → Inv b (more.foldl b.remember cache) (done ++ more) := by
    intro more
    induction more with
    | nil => intro done cache h; simpa using h
    | cons s more ih =>
      intro done cache h
      have := ih (done ++ [s]) (b.remember cache s) (h.step s)
      simpa using this
  simpa [Broadcaster.after] using this calls [] (fun _ => []) (Inv.empty b)

/-- The buffer of a process has the shape of the data on the root of its group. -/
theorem ghost_shape {axes : List (Option Nat)} {ts : List Nat} {c o : List Bool} (hl : axes.length = c.length) (hlo : c.length = o.length)
    {cache : Cache} {calls : List (Coords → List Nat)} (hi : Inv (broadcaster axes o c) cache calls) (hc : ∀ s ∈ calls, IsCall axes ts c o s)
    {shape : Coords → List Nat} (hs : IsCall axes ts c o shape) {p : Coords} (hp : Valid (axes.filterMap id) p) :
    (broadcaster axes o c).ghostShape cache shape p = shape ((broadcaster axes o c).root p) := by
  have hlen : (broadcaster axes o c).deploy.length = p.length := (deploy_length hl hlo).trans hp.length_eq.symm
  unfold Broadcaster.ghostShape
  cases hk : (cache p).lookup (shape p) with
  | none => rfl
  | some s =>
    obtain ⟨call, h1, h2, h3⟩ := hi.sound p _ s hk
    show s = _
    rw [← h3]
    exact call_group hl (hc call h1) hs hp (root_valid hlen hp) (group_root hlen) h2

theorem buffer_shape {axes : List (Option Nat)} {ts : List Nat} {c o : List Bool} (hl : axes.length = c.length) (hlo : c.length = o.length)
    {cache : Cache} {calls : List (Coords → List Nat)} (hi : Inv (broadcaster axes o c) cache calls) (hc : ∀ s ∈ calls, IsCall axes ts c o s)
    {shape : Coords → List Nat} (hs : IsCall axes ts c o shape) {p : Coords} (hp : Valid (axes.filterMap id) p) :
    (broadcaster axes o c).bufferShape cache shape p = shape ((broadcaster axes o c).root p) := by
  have hlen : (broadcaster axes o c).deploy.length = p.length := (deploy_length hl hlo).trans hp.length_eq.symm
  unfold Broadcaster.bufferShape
  split
  · rename_i h
    rw [show (broadcaster axes o c).root p = p from (rank_zero hlen hp h).2]
  · exact ghost_shape hl hlo hi hc hs hp

/-- After `cast` a process has the data of the root of its group. -/
theorem cast_eq {V : Type} {axes : List (Option Nat)} {ts : List Nat} {c o : List Bool} (hl : axes.length = c.length) (hlo : c.length = o.length)
    {cache : Cache} {calls : List (Coords → List Nat)} (hi : Inv (broadcaster axes o c) cache calls) (hc : ∀ s ∈ calls, IsCall axes ts c o s)
    (junk : Coords → List Nat → V) {data : Coords → Arr V} (hs : IsCall axes ts c o fun q => (data q).shape) {p : Coords}
    (hp : Valid (axes.filterMap id) p) :
    ((broadcaster axes o c).cast cache junk data p).shape = (data ((broadcaster axes o c).root p)).shape ∧
    ((data ((broadcaster axes o c).root p)).shape.prod ≠ 0 →
      ((broadcaster axes o c).cast cache junk data p).val = (data ((broadcaster axes o c).root p)).val) := by
  have hlen : (broadcaster axes o c).deploy.length = p.length := (deploy_length hl hlo).trans hp.length_eq.symm
  unfold Broadcaster.cast
  cases hd : (broadcaster axes o c).deploy.any id with
  | false =>
    simp only [Bool.false_eq_true, if_false]
    rw [show (broadcaster axes o c).root p = p from root_of_none hlen hd]
    exact ⟨rfl, fun _ => rfl⟩
  | true =>
    simp only [if_true]
    split
    · rename_i h
      rw [show (broadcaster axes o c).root p = p from (rank_zero hlen hp h).2]
      exact ⟨rfl, fun _ => rfl⟩
    · have e := ghost_shape hl hlo hi hc hs hp
      refine ⟨e, fun h => ?_⟩
      simp only [e]
      rw [if_pos h]

/-- The collective calls of the processes of a group agree. -/
theorem events_eq {axes : List (Option Nat)} {ts : List Nat} {c o : List Bool} (hl : axes.length = c.length) (hlo : c.length = o.length)
    {cache : Cache} {calls : List (Coords → List Nat)} (hi : Inv (broadcaster axes o c) cache calls) (hc : ∀ s ∈ calls, IsCall axes ts c o s)
    {shape : Coords → List Nat} (hs : IsCall axes ts c o shape) {p q : Coords} (hp : Valid (axes.filterMap id) p)
    (hq : Valid (axes.filterMap id) q) (hg : SameGroup (broadcaster axes o c).deploy p q) :
    (broadcaster axes o c).events cache shape p = (broadcaster axes o c).events cache shape q := by
  have hr : (broadcaster axes o c).root p = (broadcaster axes o c).root q := group_roots hg
  have hit : ∀ {p q : Coords}, Valid (axes.filterMap id) p → Valid (axes.filterMap id) q → SameGroup (broadcaster axes o c).deploy p q →
      (∃ s, (cache p).lookup (shape p) = some s) → ∃ s, (cache q).lookup (shape q) = some s := by
    rintro p q hp hq hg ⟨s, h⟩
    obtain ⟨call, h1, h2, _⟩ := hi.sound p _ s h
    rw [← call_group hl (hc call h1) hs hp hq hg h2]
    exact hi.full q call h1
  unfold Broadcaster.events
  rw [buffer_shape hl hlo hi hc hs hp, buffer_shape hl hlo hi hc hs hq, hr]
  congr 1
  cases h : (cache p).lookup (shape p) with
  | some s =>
    obtain ⟨s', h'⟩ := hit hp hq hg ⟨s, h⟩
    rw [h']
  | none =>
    cases h' : (cache q).lookup (shape q) with
    | none => rfl
    | some s =>
      obtain ⟨s', h''⟩ := hit hq hp (group_symm hg) ⟨s, h'⟩
      rw [h] at h''
      cases h''

theorem trace_eq {axes : List (Option Nat)} {ts : List Nat} {c o : List Bool} (hl : axes.length = c.length) (hlo : c.length = o.length)
    {p q : Coords} (hp : Valid (axes.filterMap id) p) (hq : Valid (axes.filterMap id) q) (hg : SameGroup (broadcaster axes o c).deploy p q)
    (more : List (Coords → List Nat)) (hm : ∀ s ∈ more, IsCall axes ts c o s) {cache : Cache} {calls : List (Coords → List Nat)}
    (hi : Inv (broadcaster axes o c) cache calls) (hc : ∀ s ∈ calls, IsCall axes ts c o s) :
    (broadcaster axes o c).trace p cache more = (broadcaster axes o c).trace q cache more := by
  induction more generalizing cache calls with
  | nil => rfl
  | cons s more ih =>
    unfold Broadcaster.trace
    rw [events_eq hl hlo hi hc (hm s List.mem_cons_self) hp hq hg]
    rw [ih (fun s h => hm s (List.mem_cons_of_mem _ h)) (hi.step s) fun s' h => ?_]
    rcases List.mem_append.1 h with h | h
    · exact hc s' h
    · rw [List.mem_singleton.1 h]; exact hm s List.mem_cons_self

theorem at_lengths {E : List (List Nat)} {i g : List Nat} (h : At E i g) : i.length = E.length ∧ (E.map List.length).prod ≠ 0 := by
  induction E generalizing i g with
  | nil => cases i <;> cases g <;> simp [At] at h ⊢
  | cons l E ih =>
    cases i with
    | nil => simp [At] at h
    | cons k i =>
    cases g with
    | nil => simp [At] at h
    | cons x g =>
      obtain ⟨h1, h2⟩ := h
      obtain ⟨e1, e2⟩ := ih h2
      have hk : k < l.length := (List.getElem?_eq_some_iff.1 h1).1
      refine ⟨by simp [e1], ?_⟩
      rw [List.map_cons, List.prod_cons]
      exact Nat.mul_ne_zero (by omega) e2

theorem index_prod {t ts : List Nat} (h : Index t ts) : ts.prod ≠ 0 := by
  unfold Index at h
  induction h with
  | nil => simp
  | cons hk _ ih => rw [List.prod_cons]; exact Nat.mul_ne_zero (by omega) ih

/-- An argument on process `p` after broadcasting: there are lengths `ls` along the axes such that the shape is `ts ++ ls`, arrays of this
shape can be repeated to the local shape of the product, and the entries that are repeated are the values at the grid points of the product. -/
theorem cast_values {V : Type} {axes : List (Option Nat)} (hm : ∀ m, some m ∈ axes → 0 < m) {ts : List Nat} {c : List Bool} {ns : List Nat}
    {o : List Bool} {Ns : List Nat} (hl : axes.length = c.length) (hcomp : Compatible c ns o Ns) (G : List Nat → List Nat → V)
    {data : Coords → Arr V}
    (h : ∀ q, Valid (axes.filterMap id) q → ∃ E, elements axes ns c q = some E ∧ Holds ts E G (data q).shape (data q).val)
    (calls : List (Coords → List Nat)) (hc : ∀ s ∈ calls, IsCall axes ts c o s) (junk : Coords → List Nat → V) {p : Coords}
    (hp : Valid (axes.filterMap id) p) {E : List (List Nat)} (hE : elements axes Ns o p = some E) :
    ∃ ls, ((broadcaster axes o c).cast ((broadcaster axes o c).after calls) junk data p).shape = ts ++ ls ∧
      fits ls (E.map List.length) = true ∧ ls.length = E.length ∧
      ∀ t i g, Index t ts → At E i g →
        ((broadcaster axes o c).cast ((broadcaster axes o c).after calls) junk data p).val (t ++ clip ls i) = G t (restrict c g) := by
  have hlo : c.length = o.length := (compatible_lengths hcomp).1
  have hlen : (broadcaster axes o c).deploy.length = p.length := (deploy_length hl hlo).trans hp.length_eq.symm
  have hs : IsCall axes ts c o fun q => (data q).shape := by
    refine ⟨ns, Ns, hcomp, fun q hq => ?_⟩
    obtain ⟨E, h1, h2⟩ := h q hq
    exact ⟨E, h1, h2.1⟩
  obtain ⟨F, E', h1, h2, h3, h4⟩ := core axes hm c ns o Ns hl hcomp p hp.length_eq
  rw [hE] at h1
  cases h1
  obtain ⟨F', h5, h6⟩ := h ((broadcaster axes o c).root p) (root_valid hlen hp)
  have e : elements axes ns c ((broadcaster axes o c).root p) = some E' := h2
  rw [e] at h5
  cases h5
  obtain ⟨c1, c2⟩ := cast_eq hl hlo (Inv.after _ calls) hc junk hs hp
  have hlen' : (E'.map List.length).length = E.length := by
    unfold fits at h3
    simp only [Bool.and_eq_true, decide_eq_true_eq] at h3
    simpa using h3.1
  refine ⟨E'.map List.length, c1.trans h6.1, h3, hlen', ?_⟩
  intro t i g ht hi
  have hat := h4 i g hi
  rw [c2 ?_]
  · exact h6.2 t _ _ ht hat
  · rw [h6.1, List.prod_append]
    exact Nat.mul_ne_zero (index_prod ht) (at_lengths hat).2

end Dedalus.Ghost
