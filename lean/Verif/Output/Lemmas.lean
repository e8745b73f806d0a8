import Verif.Output.Spec
import Verif.Global.Lemmas2
import Verif.Global.Props
import Mathlib.Data.List.Nodup

namespace Dedalus.Output
open Dedalus.Dist Dedalus.Global
variable {α R : Type}

/-! ### Parts -/

/-- The elements are a run inside the axis. -/
def Run (e : List Nat) (n : Nat) : Prop := ∃ s l, e = List.range' s l ∧ s + l ≤ n

theorem zipWith_runs : ∀ (axs : List Axis), (∀ ax ∈ axs, AxOK ax) → ∀ c, List.Forall₂ (· < ·) c (axs.map (·.mesh)) →
    List.Forall₂ Run (List.zipWith (localElements false) axs c) (axs.map (·.size)) := by
  intro axs
  induction axs with
  | nil => intro _ c _; simp
  | cons ax axs ih =>
    intro hk c hc
    simp only [List.map_cons] at hc
    cases hc with
    | cons h1 h2 =>
      refine .cons ⟨_, _, els_run ax _, run_le (hk ax (by simp)) h1⟩ (ih (fun a ha => hk a (by simp [ha])) _ h2)

theorem els_runs (d : Distn) (h : d.OK) {c : List Nat} (hc : c ∈ coordsList d.mesh) :
    ∃ els, d.els c = some els ∧ List.Forall₂ Run els d.shape := by
  obtain ⟨ext, axs, e1, e2, e3, e4, e5⟩ := axes_of_ok d h
  rw [(coords_bridge _ _ _ e1).1] at hc
  obtain ⟨c', hc', rfl⟩ := List.mem_map.mp hc
  refine ⟨_, els_of_ext d e1 e2 hc', ?_⟩
  rw [← e5]
  apply zipWith_runs axs e3
  rw [e4]
  exact (mem_coordsList _ _).1 hc'

theorem run_start {e : List Nat} {n : Nat} (h : Run e n) (i : Nat) :
    (localStart n e ≤ i ∧ i < localStart n e + e.length) ↔ i ∈ e := by
  obtain ⟨s, l, rfl, _⟩ := h
  cases l with
  | zero => simp [localStart]
  | succ l =>
    rw [List.mem_range'_1, List.length_range']
    rfl

theorem run_bound {e : List Nat} {n : Nat} (h : Run e n) : localStart n e + e.length ≤ n := by
  obtain ⟨s, l, rfl, h⟩ := h
  cases l with
  | zero => simp [localStart]
  | succ l =>
    rw [List.length_range']
    exact h

theorem run_get {e : List Nat} {n : Nat} (h : Run e n) {i : Nat} (hi : i ∈ e) : e[i - localStart n e]? = some i := by
  obtain ⟨s, l, rfl, h⟩ := h
  cases l with
  | zero => simp at hi
  | succ l =>
    have e0 : localStart n (List.range' s (l+1)) = s := rfl
    rw [e0]
    rw [List.mem_range'_1] at hi
    rw [List.getElem?_range' (by omega)]
    congr 1
    omega

theorem slab_els {els : List (List Nat)} {shape : List Nat} (h : List.Forall₂ Run els shape) : ∀ j : List Nat,
    inSlab (List.zipWith localStart shape els) (els.map List.length) j = true ↔ List.Forall₂ (· ∈ ·) j els := by
  induction h with
  | nil => intro j; cases j <;> simp [inSlab]
  | @cons e n es ns h1 h2 ih =>
    intro j
    cases j with
    | nil => simp [inSlab]
    | cons i j =>
      simp only [List.zipWith_cons_cons, List.map_cons, inSlab, Bool.and_eq_true, decide_eq_true_eq, List.forall₂_cons, ih j, run_start h1]

theorem slab_comps : ∀ (comps S L idx : List Nat), inSlab (List.replicate comps.length 0 ++ S) (comps ++ L) idx = true ↔
    ∃ t j, idx = t ++ j ∧ List.Forall₂ (· < ·) t comps ∧ inSlab S L j = true := by
  intro comps
  induction comps with
  | nil =>
    intro S L idx
    constructor
    · intro h; exact ⟨[], idx, rfl, .nil, h⟩
    · rintro ⟨t, j, rfl, h1, h2⟩; cases h1; exact h2
  | cons n comps ih =>
    intro S L idx
    cases idx with
    | nil =>
      simp only [List.length_cons, List.replicate_succ, List.cons_append, inSlab, Bool.false_eq_true, false_iff]
      rintro ⟨t, j, e, h1, _⟩
      cases h1 with
      | cons _ _ => simp at e
    | cons i is =>
      simp only [List.length_cons, List.replicate_succ, List.cons_append, inSlab, Bool.and_eq_true, decide_eq_true_eq, ih, Nat.zero_add, Nat.zero_le, true_and]
      constructor
      · rintro ⟨h0, t, j, rfl, h1, h2⟩
        exact ⟨i :: t, j, rfl, .cons h0 h1, h2⟩
      · rintro ⟨t, j, e, h1, h2⟩
        cases h1 with
        | @cons a _ t' _ h3 h4 =>
          simp only [List.cons_append, List.cons.injEq] at e
          obtain ⟨rfl, rfl⟩ := e
          exact ⟨h3, t', j, rfl, h4, h2⟩

theorem shift_append (S : List Nat) : ∀ (t j : List Nat) (k : Nat), t.length = k → shift (List.replicate k 0 ++ S) (t ++ j) = t ++ shift S j := by
  intro t
  induction t with
  | nil => intro j k h; subst h; rfl
  | cons a t ih =>
    intro j k h
    subst h
    have := ih j t.length rfl
    unfold shift at this ⊢
    simp only [List.length_cons, List.replicate_succ, List.cons_append, List.zipWith_cons_cons, Nat.sub_zero, this]

theorem shift_pairs {els : List (List Nat)} {shape : List Nat} (h : List.Forall₂ Run els shape) : ∀ j : List Nat, List.Forall₂ (· ∈ ·) j els →
    ∃ ps : List (Nat × Nat), List.Forall₂ (fun e (p : Nat × Nat) => e[p.1]? = some p.2) els ps ∧
      ps.map Prod.fst = shift (List.zipWith localStart shape els) j ∧ ps.map Prod.snd = j := by
  induction h with
  | nil => intro j hj; cases hj; exact ⟨[], .nil, rfl, rfl⟩
  | @cons e n es ns h1 h2 ih =>
    intro j hj
    cases hj with
    | @cons i _ j' _ h3 h4 =>
      obtain ⟨ps, p1, p2, p3⟩ := ih j' h4
      refine ⟨(i - localStart n e, i) :: ps, .cons (run_get h1 h3) p1, ?_, by simp [p3]⟩
      simp only [List.map_cons, p2, shift, List.zipWith_cons_cons]

theorem mem_lt {els : List (List Nat)} {shape : List Nat} (h : List.Forall₂ Run els shape) : ∀ j : List Nat, List.Forall₂ (· ∈ ·) j els →
    List.Forall₂ (· < ·) j shape := by
  induction h with
  | nil => intro j hj; cases hj; exact .nil
  | @cons e n es ns h1 h2 ih =>
    intro j hj
    cases hj with
    | cons h3 h4 =>
      refine .cons ?_ (ih _ h4)
      have := (run_start h1 _).2 h3
      have := run_bound h1
      omega

theorem pairs_lt {els : List (List Nat)} {ps : List (Nat × Nat)} (h : List.Forall₂ (fun e (p : Nat × Nat) => e[p.1]? = some p.2) els ps) :
    List.Forall₂ (· < ·) (ps.map Prod.fst) (els.map List.length) := by
  induction h with
  | nil => exact .nil
  | cons h1 _ ih => exact .cons (List.getElem?_eq_some_iff.mp h1).1 ih

theorem foldl_mul (l : List Nat) : ∀ a, l.foldl (· * ·) a = 0 ↔ a = 0 ∨ 0 ∈ l := by
  induction l with
  | nil => intro a; simp
  | cons n l ih =>
    intro a
    rw [List.foldl_cons, ih]
    simp only [Nat.mul_eq_zero, List.mem_cons]
    constructor
    · rintro ((h | h) | h)
      · exact .inl h
      · exact .inr (.inl h.symm)
      · exact .inr (.inr h)
    · rintro (h | h | h)
      · exact .inl (.inl h)
      · exact .inl (.inr h.symm)
      · exact .inr h

theorem size_zero (l : List Nat) : size l = 0 ↔ 0 ∈ l := by
  unfold size
  rw [foldl_mul]
  simp

theorem lt_nonzero {i s : List Nat} (h : List.Forall₂ (· < ·) i s) : size s ≠ 0 := by
  rw [Ne, size_zero]
  induction h with
  | nil => simp
  | cons h1 _ ih => simp only [List.mem_cons, not_or]; exact ⟨by omega, ih⟩

theorem bounds_all {els : List (List Nat)} {shape : List Nat} (h : List.Forall₂ Run els shape) :
    (List.zip (List.zipWith (· + ·) (List.zipWith localStart shape els) (els.map List.length)) shape).all (fun q => decide (q.1 ≤ q.2)) = true := by
  induction h with
  | nil => rfl
  | cons h1 _ ih =>
    simp only [List.zipWith_cons_cons, List.map_cons, List.zip_cons_cons, List.all_cons, Bool.and_eq_true, decide_eq_true_eq]
    exact ⟨run_bound h1, ih⟩

theorem bounds_comps (S L shape : List Nat) : ∀ comps : List Nat,
    (List.zip (List.zipWith (· + ·) S L) shape).all (fun q => decide (q.1 ≤ q.2)) = true →
    (List.zip (List.zipWith (· + ·) (List.replicate comps.length 0 ++ S) (comps ++ L)) (comps ++ shape)).all (fun q => decide (q.1 ≤ q.2)) = true := by
  intro comps h
  induction comps with
  | nil => exact h
  | cons n comps ih =>
    simp only [List.length_cons, List.replicate_succ, List.cons_append, List.zipWith_cons_cons, List.zip_cons_cons, List.all_cons, Bool.and_eq_true,
      decide_eq_true_eq]
    exact ⟨by omega, ih⟩

/-- What is needed about the part of one process. -/
structure PartOK (d : Distn) (c : List Nat) (p : Part) : Prop where
  owner : ∀ idx, inSlab p.start p.count idx = true ↔ ∃ t j els, idx = t ++ j ∧ List.Forall₂ (· < ·) t d.comps ∧ d.els c = some els ∧
    List.Forall₂ (· ∈ ·) j els
  inside : ∀ idx, inSlab p.start p.count idx = true → List.Forall₂ (· < ·) idx (globalShape d)
  shifted : ∀ idx, inSlab p.start p.count idx = true → List.Forall₂ (· < ·) (shift p.start idx) p.count
  bounds : (List.zip (List.zipWith (· + ·) p.start p.count) (globalShape d)).all (fun q => decide (q.1 ≤ q.2)) = true
  holds : ∀ {α : Type} (G a : NDArr α), Holds d G c a → a.shape = p.count ∧
    ∀ idx, inSlab p.start p.count idx = true → a.get (shift p.start idx) = G.get idx

theorem part_ok (d : Distn) (h : d.OK) {c : List Nat} (hc : c ∈ coordsList d.mesh) : ∃ p, part d c = some p ∧ PartOK d c p := by
  obtain ⟨els, e1, e2⟩ := els_runs d h hc
  refine ⟨⟨List.replicate d.comps.length 0 ++ List.zipWith localStart d.shape els, d.comps ++ els.map List.length⟩, by rw [part, e1]; rfl, ?_⟩
  have own : ∀ idx, inSlab (List.replicate d.comps.length 0 ++ List.zipWith localStart d.shape els) (d.comps ++ els.map List.length) idx = true ↔
      ∃ t j, idx = t ++ j ∧ List.Forall₂ (· < ·) t d.comps ∧ List.Forall₂ (· ∈ ·) j els := by
    intro idx
    rw [slab_comps]
    simp only [slab_els e2]
  constructor
  · intro idx
    rw [own]
    constructor
    · rintro ⟨t, j, h1, h2, h3⟩; exact ⟨t, j, els, h1, h2, e1, h3⟩
    · rintro ⟨t, j, els', h1, h2, h3, h4⟩
      rw [e1] at h3
      cases h3
      exact ⟨t, j, h1, h2, h4⟩
  · intro idx hi
    obtain ⟨t, j, rfl, h1, h2⟩ := (own idx).1 hi
    exact forall₂_append h1 (mem_lt e2 j h2)
  · intro idx hi
    obtain ⟨t, j, rfl, h1, h2⟩ := (own idx).1 hi
    rw [shift_append _ t j _ h1.length_eq]
    obtain ⟨ps, p1, p2, p3⟩ := shift_pairs e2 j h2
    refine forall₂_append h1 ?_
    rw [← p2]
    exact pairs_lt p1
  · exact bounds_comps _ _ _ d.comps (bounds_all e2)
  · intro α G a ⟨els', h1, h2, h3⟩
    rw [e1] at h1
    cases h1
    refine ⟨h2, fun idx hi => ?_⟩
    obtain ⟨t, j, rfl, h4, h5⟩ := (own idx).1 hi
    rw [shift_append _ t j _ h4.length_eq]
    obtain ⟨ps, p1, p2, p3⟩ := shift_pairs e2 j h5
    rw [← p2]
    conv_rhs => rw [← p3]
    exact h3 t ps h4 p1

theorem part_ok' {d : Distn} (h : d.OK) {c : List Nat} (hc : c ∈ coordsList d.mesh) {p : Part} (hp : part d c = some p) : PartOK d c p := by
  obtain ⟨q, h1, h2⟩ := part_ok d h hc
  rw [hp] at h1
  cases h1
  exact h2

/-- Every element is in the part of exactly one process. -/
theorem part_cover (d : Distn) (h : d.OK) {idx : List Nat} (hi : List.Forall₂ (· < ·) idx (globalShape d)) :
    ∃ c ∈ coordsList d.mesh, ∃ p, part d c = some p ∧ inSlab p.start p.count idx = true ∧
      ∀ c' ∈ coordsList d.mesh, ∀ p', part d c' = some p' → inSlab p'.start p'.count idx = true → c' = c := by
  obtain ⟨t, j, rfl, h1, h2⟩ := forall₂_append_split hi
  obtain ⟨c, ⟨hc, els, h3, h4⟩, hu⟩ := owned_by_one_process d.loc d.constant d.mesh d.shape d.chunks j h.constant h.mesh h.pos h.shape h.chunks h2
  have hc' := (mem_coordsList _ _).2 hc
  obtain ⟨p, hp, ok⟩ := part_ok d h hc'
  refine ⟨c, hc', p, hp, (ok.owner _).2 ⟨t, j, els, rfl, h1, h3, h4⟩, ?_⟩
  intro c' hc'' p' hp' hs
  obtain ⟨t', j', els', e, h5, h6, h7⟩ := ((part_ok' h hc'' hp').owner _).1 hs
  have hl : t.length = t'.length := by rw [h1.length_eq, h5.length_eq]
  obtain ⟨_, rfl⟩ := List.append_inj e hl
  exact hu c' ⟨(mem_coordsList _ _).1 hc'', els', h6, h7⟩

/-! ### Datasets -/

theorem resize_ok {β : Type} (fill : β) (max : Option Nat) (es : List β) (n : Nat) (hn : 1 ≤ n) (h1 : n ≤ es.length + 1)
    (hm : ∀ m, max = some m → n ≤ m) : ∃ l, resize fill max es n = some l ∧ l.length = n ∧ ∀ x, l.set (n - 1) x = es.take (n - 1) ++ [x] := by
  refine ⟨es.take n ++ List.replicate (n - es.length) fill, ?_, ?_, ?_⟩
  · unfold resize
    rw [if_pos]
    cases max with
    | none => rfl
    | some m => simpa using hm m rfl
  · rw [List.length_append, List.length_take, List.length_replicate]; omega
  · intro x
    have hl : (es.take n ++ List.replicate (n - es.length) fill).length = n := by
      rw [List.length_append, List.length_take, List.length_replicate]; omega
    apply List.ext_getElem?
    intro i
    rw [List.getElem?_set, hl]
    by_cases hi : n - 1 = i
    · subst hi
      rw [if_pos rfl, if_pos (by omega), List.getElem?_append_right (by rw [List.length_take]; omega), List.length_take, Nat.min_eq_left (by omega),
        Nat.sub_self]
      rfl
    · rw [if_neg hi]
      by_cases hi' : i < n - 1
      · rw [List.getElem?_append_left (by rw [List.length_take]; omega), List.getElem?_append_left (by rw [List.length_take]; omega),
          List.getElem?_take, List.getElem?_take, if_pos (by omega), if_pos (by omega)]
      · rw [List.getElem?_eq_none (by omega), List.getElem?_eq_none (by rw [List.length_append, List.length_take, List.length_singleton]; omega)]

theorem writeLast_ok (zero : α) (shape : List Nat) (max : Option Nat) (es : List (NDArr α)) (n : Nat) (data : NDArr α) (hn : 1 ≤ n)
    (h1 : n ≤ es.length + 1) (hm : ∀ m, max = some m → n ≤ m) (hs : data.shape = shape) :
    writeLast zero shape max es n data = some (es.take (n - 1) ++ [data]) := by
  obtain ⟨l, e1, _, e3⟩ := resize_ok (filled zero shape) max es n hn h1 hm
  rw [writeLast, e1, Option.bind_some, if_pos hs, e3]

theorem forall₂_take {β γ : Type} {P : β → γ → Prop} {a : List β} {b : List γ} (h : List.Forall₂ P a b) (n : Nat) :
    List.Forall₂ P (a.take n) (b.take n) := by
  induction h generalizing n with
  | nil => simp
  | cons h1 _ ih =>
    cases n with
    | zero => simp
    | succ n => simp only [List.take_succ_cons]; exact .cons h1 (ih n)

theorem forall₂_snoc {β γ : Type} {P : β → γ → Prop} {a : List β} {b : List γ} (h : List.Forall₂ P a b) {x : β} {y : γ} (hx : P x y) :
    List.Forall₂ P (a ++ [x]) (b ++ [y]) := by
  induction h with
  | nil => exact .cons hx .nil
  | cons h1 _ ih => exact .cons h1 ih

theorem forall₂_get {β γ : Type} {P : β → γ → Prop} {a : List β} {b : List γ} (h : List.Forall₂ P a b) {n : Nat} {y : γ} (hy : b[n]? = some y) :
    ∃ x, a[n]? = some x ∧ P x y := by
  induction h generalizing n with
  | nil => simp at hy
  | @cons x0 y0 a b h1 _ ih =>
    cases n with
    | zero => simp only [List.getElem?_cons_zero, Option.some.injEq] at hy; subst hy; exact ⟨x0, by simp, h1⟩
    | succ n => simp only [List.getElem?_cons_succ] at hy ⊢; exact ih hy

theorem add_fold {β : Type} (val : Task → Option β) : ∀ (tasks : List Task) (s : Nat → Option β), (tasks.map Task.name).Nodup →
    (∀ t ∈ tasks, s t.name = none) → (∀ t ∈ tasks, (val t).isSome = true) →
    ∃ s', tasks.foldlM (fun s t => (val t).bind fun v => addDset s t.name v) s = some s' ∧ (∀ t ∈ tasks, s' t.name = val t) ∧
      ∀ n, n ∉ tasks.map Task.name → s' n = s n := by
  intro tasks
  induction tasks with
  | nil => intro s _ _ _; exact ⟨s, rfl, by simp, by simp⟩
  | cons t ts ih =>
    intro s hn hs hv
    obtain ⟨v, hv'⟩ := Option.isSome_iff_exists.mp (hv t (by simp))
    simp only [List.map_cons, List.nodup_cons] at hn
    obtain ⟨s', h1, h2, h3⟩ := ih (Function.update s t.name (some v)) hn.2 (by
      intro u hu
      rw [Function.update_of_ne (fun e : u.name = t.name => hn.1 (by rw [← e]; exact List.mem_map_of_mem hu))]
      exact hs u (by simp [hu])) (fun u hu => hv u (by simp [hu]))
    refine ⟨s', ?_, ?_, ?_⟩
    · rw [List.foldlM_cons, hv', Option.bind_some, addDset, hs t (by simp)]
      exact h1
    · intro u hu
      rcases List.mem_cons.mp hu with rfl | hu
      · rw [h3 _ hn.1, Function.update_self, hv']
      · exact h2 u hu
    · intro n hn'
      simp only [List.map_cons, List.mem_cons, not_or] at hn'
      rw [h3 n hn'.2, Function.update_of_ne hn'.1]

/-! ### Modes -/

/-- What the handler needs of a mode: a relation between files and, for each task, the list of arrays that are in it. -/
structure Lawful (M : Mode α) (max : Option Nat) (tasks : List Task) where
  Rep : M.File → (Nat → List (NDArr α)) → Prop
  create : ∃ f L, M.create = some f ∧ Rep f L ∧ ∀ t ∈ tasks, (L t.name).length = 1
  write : ∀ f L t n (G : NDArr α) (field : List Nat → NDArr α), Rep f L → t ∈ tasks → 1 ≤ n → n ≤ (L t.name).length + 1 →
    (∀ m, max = some m → n ≤ m) → G.shape = t.d.comps ++ t.d.shape →
    (∀ coords, List.Forall₂ (· < ·) coords t.d.mesh → Holds t.d G coords (field coords)) →
    ∃ f', M.write f n t field = some f' ∧ Rep f' (Function.update L t.name ((L t.name).take (n - 1) ++ [G]))
  read : ∀ f L t, Rep f L → t ∈ tasks → ∃ es, M.read f t.name = some es ∧ List.Forall₂ Same es (L t.name)

theorem same_refl (a : NDArr α) : Same a a := ⟨rfl, fun _ _ => rfl⟩

/-- Datasets that hold the arrays. -/
def StoreRep (tasks : List Task) (s : Store α) (L : Nat → List (NDArr α)) : Prop :=
  ∀ t ∈ tasks, ∃ es, s t.name = some es ∧ List.Forall₂ Same es (L t.name) ∧ ∀ G ∈ L t.name, G.shape = globalShape t.d

theorem storeRep_create (zero : α) {tasks : List Task} (hn : (tasks.map Task.name).Nodup) :
    ∃ s L, createStore zero tasks = some s ∧ StoreRep tasks s L ∧ ∀ t ∈ tasks, (L t.name).length = 1 := by
  obtain ⟨s, h1, h2, _⟩ := add_fold (fun t => some [filled zero (globalShape t.d)]) tasks (fun _ => none) hn (fun _ _ => rfl) (fun _ _ => rfl)
  refine ⟨s, fun n => (s n).getD [], h1, ?_, ?_⟩
  · intro t ht
    refine ⟨_, h2 t ht, ?_, ?_⟩
    · beta_reduce; rw [h2 t ht]; exact .cons (same_refl _) .nil
    · intro G hG
      beta_reduce at hG
      rw [h2 t ht] at hG
      simp only [Option.getD_some, List.mem_singleton] at hG
      subst hG
      rfl
  · intro t ht
    beta_reduce
    rw [h2 t ht]
    rfl

theorem storeRep_write {tasks : List Task} (hn : (tasks.map Task.name).Nodup) {s : Store α} {L : Nat → List (NDArr α)} (h : StoreRep tasks s L)
    {t : Task} (ht : t ∈ tasks) {es : List (NDArr α)} (he : s t.name = some es) (n : Nat) {b G : NDArr α} (hb : Same b G)
    (hG : G.shape = globalShape t.d) :
    StoreRep tasks (Function.update s t.name (some (es.take (n - 1) ++ [b]))) (Function.update L t.name ((L t.name).take (n - 1) ++ [G])) := by
  intro u hu
  by_cases e : u.name = t.name
  · have hut : u = t := List.inj_on_of_nodup_map hn hu ht e
    subst hut
    obtain ⟨es', h1, h2, h3⟩ := h u hu
    rw [he] at h1
    cases h1
    rw [Function.update_self, Function.update_self]
    refine ⟨_, rfl, forall₂_snoc (forall₂_take h2 _) hb, ?_⟩
    intro G' hG'
    rcases List.mem_append.mp hG' with h4 | h4
    · exact h3 _ (List.mem_of_mem_take h4)
    · rw [List.mem_singleton.mp h4, hG]
  · rw [Function.update_of_ne e, Function.update_of_ne e]
    exact h u hu

def gatherLawful (zero : α) (max : Option Nat) (mesh : List Nat) (tasks : List Task) (hT : TasksOK mesh tasks) :
    Lawful (gatherMode zero max tasks) max tasks where
  Rep := StoreRep tasks
  create := storeRep_create zero hT.names
  write := by
    intro f L t n G field h ht hn h1 hm hG hf
    obtain ⟨b, hb, hs⟩ := gather_returns_global t.d (hT.ok t ht) G hG field hf
    obtain ⟨es, h2, h3, _⟩ := h t ht
    refine ⟨_, ?_, storeRep_write hT.names h ht h2 n hs hG⟩
    show ((gather t.d field).bind fun data => (f t.name).bind fun es => (writeLast zero (globalShape t.d) max es n data).bind fun es' =>
      some (Function.update f t.name (some es'))) = _
    rw [hb, h2]
    simp only [Option.bind_some]
    rw [writeLast_ok zero _ max es n b hn (by rw [h3.length_eq]; exact h1) hm (by rw [hs.1, hG]; rfl)]
    rfl
  read := by
    intro f L t h ht
    obtain ⟨es, h1, h2, _⟩ := h t ht
    exact ⟨es, h1, h2⟩

theorem slabs_fold (d : Distn) (hd : d.OK) (G : NDArr α) (field : List Nat → NDArr α)
    (hf : ∀ coords, List.Forall₂ (· < ·) coords d.mesh → Holds d G coords (field coords)) : ∀ (l : List (List Nat)) (e : NDArr α),
    (∀ c ∈ l, c ∈ coordsList d.mesh) → e.shape = globalShape d →
    ∃ e', l.foldlM (fun e c => (part d c).bind fun p => writeSlab e p (field c)) e = some e' ∧ e'.shape = globalShape d ∧
      (∀ idx, (∃ c ∈ l, ∃ p, part d c = some p ∧ inSlab p.start p.count idx = true) → e'.get idx = G.get idx) ∧
      (∀ idx, e.get idx = G.get idx → e'.get idx = G.get idx) := by
  intro l
  induction l with
  | nil => intro e _ h; exact ⟨e, rfl, h, by simp, fun _ h => h⟩
  | cons c l ih =>
    intro e hl he
    have hc := hl c (by simp)
    obtain ⟨p, hp, ok⟩ := part_ok d hd hc
    obtain ⟨hs, hg⟩ := ok.holds G (field c) (hf c ((mem_coordsList _ _).1 hc))
    have hw : writeSlab e p (field c) =
        some ⟨e.shape, fun idx => if inSlab p.start p.count idx then (field c).get (shift p.start idx) else e.get idx⟩ := by
      unfold writeSlab
      rw [if_pos ⟨hs, .inr (by rw [he]; exact ok.bounds)⟩]
    obtain ⟨e', h1, h2, h3, h4⟩ := ih _ (fun c' hc' => hl c' (by simp [hc'])) (show NDArr.shape ⟨e.shape, fun idx => if inSlab p.start p.count idx then
      (field c).get (shift p.start idx) else e.get idx⟩ = _ from he)
    refine ⟨e', ?_, h2, ?_, ?_⟩
    · rw [List.foldlM_cons, hp, Option.bind_some, hw]
      exact h1
    · rintro idx ⟨c', hc', q, hq, hin⟩
      rcases List.mem_cons.mp hc' with rfl | hc'
      · apply h4
        rw [hp] at hq
        cases hq
        simp only [hin, if_true]
        exact hg idx hin
      · exact h3 idx ⟨c', hc', q, hq, hin⟩
    · intro idx hi
      apply h4
      by_cases hin : inSlab p.start p.count idx = true
      · simp only [hin, if_true]; exact hg idx hin
      · simp only [hin, Bool.false_eq_true, if_false]; exact hi

def parallelLawful (zero : α) (max : Option Nat) (mesh : List Nat) (tasks : List Task) (hT : TasksOK mesh tasks) :
    Lawful (parallelMode zero max tasks) max tasks where
  Rep := StoreRep tasks
  create := storeRep_create zero hT.names
  write := by
    intro f L t n G field h ht hn h1 hm hG hf
    obtain ⟨es, h2, h3, h3'⟩ := h t ht
    obtain ⟨l, e1, e2, e3⟩ := resize_ok (filled zero (globalShape t.d)) max es n hn (by rw [h3.length_eq]; exact h1) hm
    have hlt : n - 1 < l.length := by omega
    have hshape : l[n-1].shape = globalShape t.d := by
      have hmem : ∀ x ∈ l, x.shape = globalShape t.d := by
        intro x hx
        unfold resize at e1
        split at e1
        · cases e1
          rcases List.mem_append.mp hx with h4 | h4
          · have := List.mem_of_mem_take h4
            obtain ⟨i, hi⟩ := List.mem_iff_getElem?.mp this
            have hi' : i < (L t.name).length := by
              rw [← h3.length_eq]
              exact (List.getElem?_eq_some_iff.mp hi).1
            obtain ⟨y, hy, hs⟩ := forall₂_get h3 (List.getElem?_eq_getElem hi')
            rw [hi] at hy
            cases hy
            rw [hs.1]
            exact h3' _ (List.getElem_mem hi')
          · rw [(List.mem_replicate.mp h4).2]; rfl
        · cases e1
      exact hmem _ (List.getElem_mem hlt)
    obtain ⟨e', f1, f2, f3, _⟩ := slabs_fold t.d (hT.ok t ht) G field hf (coordsList t.d.mesh) l[n-1] (fun _ h => h) hshape
    have hsame : Same e' G := by
      refine ⟨by rw [f2, hG]; rfl, fun idx hi => ?_⟩
      rw [f2] at hi
      obtain ⟨c, hc, p, hp, hin, _⟩ := part_cover t.d (hT.ok t ht) hi
      exact f3 idx ⟨c, hc, p, hp, hin⟩
    refine ⟨_, ?_, storeRep_write hT.names h ht h2 n hsame hG⟩
    show ((f t.name).bind fun es => (resize (filled zero (globalShape t.d)) max es n).bind fun es' => (es'[n - 1]?).bind fun e =>
      ((coordsList t.d.mesh).foldlM (fun e c => (part t.d c).bind fun p => writeSlab e p (field c)) e).bind fun e' =>
      some (Function.update f t.name (some (es'.set (n - 1) e')))) = _
    rw [h2, Option.bind_some, e1, Option.bind_some, List.getElem?_eq_getElem hlt, Option.bind_some, f1, Option.bind_some, e3]
    rfl
  read := by
    intro f L t h ht
    obtain ⟨es, h1, h2, _⟩ := h t ht
    exact ⟨es, h1, h2⟩

end Dedalus.Output
