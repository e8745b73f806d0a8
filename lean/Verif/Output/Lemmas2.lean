import Verif.Output.Lemmas

namespace Dedalus.Output
open Dedalus.Dist Dedalus.Global
variable {α R : Type}

/-! ### Virtual files -/

/-- Entries of a process file that are the parts of the arrays. -/
def PartOf (p : Part) (e G : NDArr α) : Prop :=
  e.shape = p.count ∧ ∀ idx, inSlab p.start p.count idx = true → e.get (shift p.start idx) = G.get idx

def VRep (mesh : List Nat) (tasks : List Task) (f : VFile α) (L : Nat → List (NDArr α)) : Prop :=
  ∀ t ∈ tasks, f.joint t.name = virtualDset t ∧ (∀ G ∈ L t.name, G.shape = globalShape t.d) ∧
    ∀ c ∈ coordsList mesh, ∀ p, part t.d c = some p → size p.count ≠ 0 →
      ∃ s es, f.procs c = some s ∧ s t.name = some es ∧ List.Forall₂ (PartOf p) es (L t.name)

theorem virtualDset_ok {t : Task} (h : t.d.OK) : ∃ v, virtualDset t = some v ∧ v.shape = globalShape t.d ∧
    ∀ x, x ∈ v.sources ↔ x.1 ∈ coordsList t.d.mesh ∧ part t.d x.1 = some x.2 ∧ size x.2.count ≠ 0 := by
  have hm : ((coordsList t.d.mesh).mapM fun c => (part t.d c).map fun p => (c, p)) =
      some ((coordsList t.d.mesh).map fun c => (c, (part t.d c).getD ⟨[], []⟩)) := by
    apply mapM_some_map
    intro c hc
    obtain ⟨p, hp, _⟩ := part_ok t.d h hc
    rw [hp]
    rfl
  refine ⟨_, by rw [virtualDset, hm]; rfl, rfl, ?_⟩
  rintro ⟨c, p⟩
  simp only [List.mem_filter, List.mem_map, Prod.mk.injEq, decide_eq_true_eq]
  constructor
  · rintro ⟨⟨c', hc', rfl, rfl⟩, h2⟩
    obtain ⟨p, hp, _⟩ := part_ok t.d h hc'
    rw [hp] at h2 ⊢
    exact ⟨hc', rfl, h2⟩
  · rintro ⟨h1, h2, h3⟩
    exact ⟨⟨c, h1, rfl, by rw [h2]; rfl⟩, h3⟩

theorem processFile_ok (zero : α) (c : List Nat) : ∀ (tasks : List Task) (s : Store α), (tasks.map Task.name).Nodup →
    (∀ t ∈ tasks, s t.name = none) → (∀ t ∈ tasks, (part t.d c).isSome = true) →
    ∃ s', tasks.foldlM (fun s t => (part t.d c).bind fun p => if size p.count ≠ 0 then addDset s t.name [filled zero p.count] else some s) s = some s' ∧
      (∀ t ∈ tasks, ∀ p, part t.d c = some p → size p.count ≠ 0 → s' t.name = some [filled zero p.count]) ∧
      ∀ n, n ∉ tasks.map Task.name → s' n = s n := by
  intro tasks
  induction tasks with
  | nil => intro s _ _ _; exact ⟨s, rfl, by simp, by simp⟩
  | cons t ts ih =>
    intro s hn hs hv
    obtain ⟨p, hp⟩ := Option.isSome_iff_exists.mp (hv t (by simp))
    simp only [List.map_cons, List.nodup_cons] at hn
    by_cases hz : size p.count = 0
    · obtain ⟨s', h1, h2, h3⟩ := ih s hn.2 (fun u hu => hs u (by simp [hu])) (fun u hu => hv u (by simp [hu]))
      refine ⟨s', ?_, ?_, ?_⟩
      · rw [List.foldlM_cons, hp, Option.bind_some, if_neg (by simpa using hz)]
        exact h1
      · intro u hu q hq hq'
        rcases List.mem_cons.mp hu with rfl | hu
        · rw [hp] at hq; cases hq; exact absurd hz hq'
        · exact h2 u hu q hq hq'
      · intro n hn'
        simp only [List.map_cons, List.mem_cons, not_or] at hn'
        exact h3 n hn'.2
    · obtain ⟨s', h1, h2, h3⟩ := ih (Function.update s t.name (some [filled zero p.count])) hn.2 (by
        intro u hu
        rw [Function.update_of_ne (fun e : u.name = t.name => hn.1 (by rw [← e]; exact List.mem_map_of_mem hu))]
        exact hs u (by simp [hu])) (fun u hu => hv u (by simp [hu]))
      refine ⟨s', ?_, ?_, ?_⟩
      · rw [List.foldlM_cons, hp, Option.bind_some, if_pos hz, addDset, hs t (by simp)]
        exact h1
      · intro u hu q hq hq'
        rcases List.mem_cons.mp hu with rfl | hu
        · rw [hp] at hq; cases hq
          rw [h3 _ hn.1, Function.update_self]
        · exact h2 u hu q hq hq'
      · intro n hn'
        simp only [List.map_cons, List.mem_cons, not_or] at hn'
        rw [h3 n hn'.2, Function.update_of_ne hn'.1]

theorem virtual_create (zero : α) {mesh : List Nat} {tasks : List Task} (hT : TasksOK mesh tasks) :
    ∃ f L, virtualCreate zero (coordsList mesh) tasks = some f ∧ VRep mesh tasks f L ∧ ∀ t ∈ tasks, (L t.name).length = 1 := by
  have hparts : ∀ c ∈ coordsList mesh, ∀ t ∈ tasks, (part t.d c).isSome = true := by
    intro c hc t ht
    obtain ⟨p, hp, _⟩ := part_ok t.d (hT.ok t ht) (c := c) (by rw [hT.mesh t ht]; exact hc)
    rw [hp]; rfl
  obtain ⟨j, h1, h2, _⟩ := add_fold virtualDset tasks (fun _ => none) hT.names (fun _ _ => rfl) (by
    intro t ht
    obtain ⟨v, hv, _⟩ := virtualDset_ok (hT.ok t ht)
    rw [hv]; rfl)
  obtain ⟨z, _, hz, _⟩ := add_fold (fun t => some [filled zero (globalShape t.d)]) tasks (fun _ => none) hT.names (fun _ _ => rfl) (fun _ _ => rfl)
  have hpf : ∀ c ∈ coordsList mesh, ∃ s, processFile zero tasks c = some s ∧
      ∀ t ∈ tasks, ∀ p, part t.d c = some p → size p.count ≠ 0 → s t.name = some [filled zero p.count] := by
    intro c hc
    obtain ⟨s, e1, e2, _⟩ := processFile_ok zero c tasks (fun _ => none) hT.names (fun _ _ => rfl) (hparts c hc)
    exact ⟨s, e1, e2⟩
  refine ⟨⟨j, fun c => if noData tasks c then none else processFile zero tasks c⟩, fun n => (z n).getD [], ?_, ?_, ?_⟩
  · show (Option.bind (tasks.foldlM (fun s t => (virtualDset t).bind fun v => addDset s t.name v) fun _ => none) fun joint => _) = _
    rw [h1, Option.bind_some, if_pos]
    rw [List.all_eq_true]
    intro c hc
    obtain ⟨s, e1, _⟩ := hpf c hc
    rw [e1]
    simp
  · intro t ht
    refine ⟨h2 t ht, ?_, ?_⟩
    · intro G hG
      beta_reduce at hG
      rw [hz t ht] at hG
      simp only [Option.getD_some, List.mem_singleton] at hG
      subst hG; rfl
    · intro c hc p hp hs
      obtain ⟨s, e1, e2⟩ := hpf c hc
      have hnd : noData tasks c = false := by
        unfold noData
        rw [Bool.not_eq_false', List.any_eq_true]
        refine ⟨t, ht, ?_⟩
        rw [hp]
        simpa using hs
      refine ⟨s, [filled zero p.count], ?_, e2 t ht p hp hs, ?_⟩
      · simp only [hnd, Bool.false_eq_true, if_false]
        exact e1
      · beta_reduce
        rw [hz t ht]
        refine .cons ⟨rfl, fun idx hi => ?_⟩ .nil
        have ok := part_ok' (hT.ok t ht) (c := c) (by rw [hT.mesh t ht]; exact hc) hp
        show (if inShape (shift p.start idx) p.count then some zero else none) = if inShape idx (globalShape t.d) then some zero else none
        rw [if_pos ((inShape_iff _ _).2 (ok.shifted idx hi)), if_pos ((inShape_iff _ _).2 (ok.inside idx hi))]
  · intro t ht
    beta_reduce
    rw [hz t ht]; rfl

theorem write_fold (zero : α) (max : Option Nat) (n : Nat) (t : Task) (field : List Nat → NDArr α) : ∀ (l : List (List Nat)) (f : VFile α), l.Nodup →
    (∀ c ∈ l, ∃ p, part t.d c = some p ∧ (size p.count ≠ 0 → ∃ s es, f.procs c = some s ∧ s t.name = some es ∧
      writeLast zero p.count max es n (field c) = some (es.take (n - 1) ++ [field c]))) →
    ∃ f', l.foldlM (processWrite zero max n t field) f = some f' ∧ f'.joint = f.joint ∧ (∀ c, c ∉ l → f'.procs c = f.procs c) ∧
      ∀ c ∈ l, ∀ p, part t.d c = some p → (size p.count = 0 → f'.procs c = f.procs c) ∧ (size p.count ≠ 0 → ∀ s es, f.procs c = some s →
        s t.name = some es → f'.procs c = some (Function.update s t.name (some (es.take (n - 1) ++ [field c])))) := by
  intro l
  induction l with
  | nil => intro f _ _; exact ⟨f, rfl, rfl, by simp, by simp⟩
  | cons c l ih =>
    intro f hn h
    rw [List.nodup_cons] at hn
    obtain ⟨p, hp, hw⟩ := h c (by simp)
    by_cases hz : size p.count = 0
    · obtain ⟨f', h1, h2, h3, h4⟩ := ih f hn.2 (fun c' hc' => h c' (by simp [hc']))
      refine ⟨f', ?_, h2, ?_, ?_⟩
      · rw [List.foldlM_cons, processWrite, hp, Option.bind_some, if_neg (by simpa using hz)]
        exact h1
      · intro c' hc'
        simp only [List.mem_cons, not_or] at hc'
        exact h3 c' hc'.2
      · intro c' hc' q hq
        rcases List.mem_cons.mp hc' with rfl | hc'
        · rw [hp] at hq; cases hq
          exact ⟨fun _ => h3 _ hn.1, fun hz' => absurd hz hz'⟩
        · exact h4 c' hc' q hq
    · obtain ⟨s, es, e1, e2, e3⟩ := hw hz
      let f1 : VFile α := { f with procs := Function.update f.procs c (some (Function.update s t.name (some (es.take (n - 1) ++ [field c])))) }
      have hf1 : ∀ c', c' ≠ c → f1.procs c' = f.procs c' := fun c' hc' => Function.update_of_ne hc' _ _
      have hne : ∀ c' ∈ l, c' ≠ c := fun c' hc' e => hn.1 (e ▸ hc')
      obtain ⟨f', h1, h2, h3, h4⟩ := ih f1 hn.2 (by
        intro c' hc'
        rw [hf1 c' (hne c' hc')]
        exact h c' (by simp [hc']))
      refine ⟨f', ?_, h2, ?_, ?_⟩
      · rw [List.foldlM_cons]
        have : processWrite zero max n t field f c = some f1 := by
          rw [processWrite, hp, Option.bind_some, if_pos hz]
          show (f.procs c).bind (fun s => (s t.name).bind fun es => (writeLast zero p.count max es n (field c)).bind fun es' => _) = _
          rw [e1, Option.bind_some, e2, Option.bind_some, e3]
          rfl
        rw [this]
        exact h1
      · intro c' hc'
        simp only [List.mem_cons, not_or] at hc'
        rw [h3 c' hc'.2, hf1 c' hc'.1]
      · intro c' hc' q hq
        rcases List.mem_cons.mp hc' with rfl | hc'
        · rw [hp] at hq; cases hq
          refine ⟨fun hz' => absurd hz' hz, fun _ s' es' g1 g2 => ?_⟩
          rw [e1] at g1; cases g1
          rw [e2] at g2; cases g2
          rw [h3 _ hn.1]
          exact Function.update_self _ _ _
        · have := h4 c' hc' q hq
          rw [hf1 c' (hne c' hc')] at this
          exact this

theorem foldl_max_const {n : Nat} : ∀ (l : List Nat) (a : Nat), a ≤ n → (∀ x ∈ l, x = n) → l ≠ [] → l.foldl max a = n := by
  intro l
  induction l with
  | nil => intro a _ _ h; exact absurd rfl h
  | cons x l ih =>
    intro a ha h _
    rw [List.foldl_cons, h x (by simp), Nat.max_eq_right ha]
    cases l with
    | nil => rfl
    | cons y l => exact ih n le_rfl (fun z hz => h z (by simp [hz])) (by simp)

theorem zeros_lt : ∀ l : List Nat, 0 ∉ l → List.Forall₂ (· < ·) (List.replicate l.length 0) l := by
  intro l
  induction l with
  | nil => intro _; exact .nil
  | cons n l ih =>
    intro h
    simp only [List.mem_cons, not_or] at h
    exact .cons (by omega) (ih h.2)

theorem virtual_read (zero : α) {mesh : List Nat} {tasks : List Task} (hT : TasksOK mesh tasks) {f : VFile α} {L : Nat → List (NDArr α)}
    (h : VRep mesh tasks f L) {t : Task} (ht : t ∈ tasks) : ∃ es, virtualRead zero f t.name = some es ∧ List.Forall₂ Same es (L t.name) := by
  obtain ⟨h1, h2, h3⟩ := h t ht
  obtain ⟨v, hv, hvs, hsrc⟩ := virtualDset_ok (hT.ok t ht)
  rw [hv] at h1
  rw [hT.mesh t ht] at hsrc
  let data := v.sources.filterMap fun x => ((f.procs x.1).bind fun s => s t.name).map fun es => (x.2, es)
  have hd1 : ∀ y ∈ data, ∃ c ∈ coordsList mesh, part t.d c = some y.1 ∧ List.Forall₂ (PartOf y.1) y.2 (L t.name) := by
    intro y hy
    obtain ⟨x, hx, e⟩ := List.mem_filterMap.mp hy
    obtain ⟨g1, g2, g3⟩ := (hsrc x).1 hx
    obtain ⟨s, es, e1, e2, e3⟩ := h3 x.1 g1 x.2 g2 g3
    rw [e1, Option.bind_some, e2, Option.map_some] at e
    cases e
    exact ⟨x.1, g1, g2, e3⟩
  have hd2 : ∀ c ∈ coordsList mesh, ∀ p, part t.d c = some p → size p.count ≠ 0 → ∃ es, (p, es) ∈ data := by
    intro c hc p hp hs
    obtain ⟨s, es, e1, e2, _⟩ := h3 c hc p hp hs
    refine ⟨es, List.mem_filterMap.mpr ⟨(c, p), (hsrc (c, p)).2 ⟨hc, hp, hs⟩, ?_⟩⟩
    show ((f.procs c).bind fun s => s t.name).map _ = _
    rw [e1, Option.bind_some, e2]
    rfl
  have hown : ∀ idx, List.Forall₂ (· < ·) idx (globalShape t.d) → ∃ y ∈ data, inSlab y.1.start y.1.count idx = true := by
    intro idx hi
    obtain ⟨c, hc, p, hp, hin, _⟩ := part_cover t.d (hT.ok t ht) hi
    have ok := part_ok' (hT.ok t ht) hc hp
    rw [hT.mesh t ht] at hc
    obtain ⟨es, hes⟩ := hd2 c hc p hp (lt_nonzero (ok.shifted idx hin))
    exact ⟨_, hes, hin⟩
  have hne : data ≠ [] := by
    obtain ⟨y, hy, _⟩ := hown _ (zeros_lt (globalShape t.d) (by
      have := hT.nonempty t ht
      simp only [globalShape, List.mem_append, not_or]
      exact this))
    exact List.ne_nil_of_mem hy
  have hlen : (if data.isEmpty then 1 else (data.map fun x => x.2.length).foldl max 0) = (L t.name).length := by
    rw [if_neg (by simpa using hne)]
    apply foldl_max_const _ _ (Nat.zero_le _)
    · intro x hx
      obtain ⟨y, hy, rfl⟩ := List.mem_map.mp hx
      obtain ⟨c, _, _, h5⟩ := hd1 y hy
      exact h5.length_eq
    · simpa using hne
  refine ⟨_, by rw [virtualRead, h1]; rfl, ?_⟩
  show List.Forall₂ Same ((List.range (if data.isEmpty then 1 else (data.map fun x => x.2.length).foldl max 0)).map _) _
  rw [hlen, List.forall₂_iff_get]
  refine ⟨by simp, ?_⟩
  intro i hi1 hi2
  rw [List.get_eq_getElem, List.get_eq_getElem, List.getElem_map, List.getElem_range]
  refine ⟨?_, ?_⟩
  · show v.shape = _
    rw [hvs, h2 _ (List.getElem_mem hi2)]
  · intro idx hidx
    change List.Forall₂ (· < ·) idx v.shape at hidx
    show (if inShape idx v.shape then match data.find? fun x => inSlab x.1.start x.1.count idx with
        | some x => match x.2[i]? with
          | some e => e.get (shift x.1.start idx)
          | none => some zero
        | none => some zero
      else none) = _
    rw [if_pos ((inShape_iff _ _).2 hidx)]
    rw [hvs] at hidx
    obtain ⟨y, hy, hin⟩ := hown idx hidx
    obtain ⟨z, hz⟩ : ∃ z, data.find? (fun x => inSlab x.1.start x.1.count idx) = some z := by
      rw [← Option.isSome_iff_exists, List.find?_isSome]
      exact ⟨y, hy, hin⟩
    obtain ⟨c, _, _, h5⟩ := hd1 z (List.mem_of_find?_eq_some hz)
    obtain ⟨e, he, hp⟩ := forall₂_get h5 (List.getElem?_eq_getElem hi2)
    simp only [hz, he]
    exact hp.2 idx (by have := List.find?_some hz; simpa using this)

def virtualLawful (zero : α) (max : Option Nat) (mesh : List Nat) (tasks : List Task) (hT : TasksOK mesh tasks) :
    Lawful (virtualMode zero max (coordsList mesh) tasks) max tasks where
  Rep := VRep mesh tasks
  create := virtual_create zero hT
  write := by
    intro f L t n G field h ht hn h1 hm hG hf
    obtain ⟨g1, g2, g3⟩ := h t ht
    have hd := hT.ok t ht
    have hmesh := hT.mesh t ht
    obtain ⟨f', e1, e2, e3, e4⟩ := write_fold zero max n t field (coordsList mesh) f (coordsList_nodup mesh) (by
      intro c hc
      have hc' : c ∈ coordsList t.d.mesh := by rw [hmesh]; exact hc
      obtain ⟨p, hp, ok⟩ := part_ok t.d hd hc'
      refine ⟨p, hp, fun hs => ?_⟩
      obtain ⟨s, es, a1, a2, a3⟩ := g3 c hc p hp hs
      refine ⟨s, es, a1, a2, writeLast_ok zero _ max es n _ hn (by rw [a3.length_eq]; exact h1) hm ?_⟩
      exact (ok.holds G (field c) (hf c ((mem_coordsList _ _).1 hc'))).1)
    refine ⟨f', e1, ?_⟩
    intro u hu
    have hj : f'.joint u.name = virtualDset u := by rw [e2]; exact (h u hu).1
    by_cases e : u.name = t.name
    · have hut : u = t := List.inj_on_of_nodup_map hT.names hu ht e
      subst hut
      rw [Function.update_self]
      refine ⟨hj, ?_, ?_⟩
      · intro G' hG'
        rcases List.mem_append.mp hG' with h4 | h4
        · exact g2 _ (List.mem_of_mem_take h4)
        · rw [List.mem_singleton.mp h4, hG]; rfl
      · intro c hc p hp hs
        obtain ⟨s, es, a1, a2, a3⟩ := g3 c hc p hp hs
        have hc' : c ∈ coordsList u.d.mesh := by rw [hmesh]; exact hc
        refine ⟨_, _, (e4 c hc p hp).2 hs s es a1 a2, Function.update_self _ _ _, forall₂_snoc (forall₂_take a3 _) ?_⟩
        exact (part_ok' hd hc' hp).holds G (field c) (hf c ((mem_coordsList _ _).1 hc'))
    · rw [Function.update_of_ne e]
      refine ⟨hj, (h u hu).2.1, ?_⟩
      intro c hc p hp hs
      obtain ⟨s, es, a1, a2, a3⟩ := (h u hu).2.2 c hc p hp hs
      obtain ⟨q, hq, _⟩ := part_ok t.d hd (c := c) (by rw [hmesh]; exact hc)
      by_cases hz : size q.count = 0
      · exact ⟨s, es, by rw [(e4 c hc q hq).1 hz]; exact a1, a2, a3⟩
      · obtain ⟨s', es', b1, b2, _⟩ := g3 c hc q hq hz
        rw [a1] at b1; cases b1
        exact ⟨_, es, (e4 c hc q hq).2 hz s es' a1 b2, by rw [Function.update_of_ne e]; exact a2, a3⟩
  read := fun f L t h ht => virtual_read zero hT h ht

/-! ### The handler -/

theorem tasks_fold {M : Mode α} {max : Option Nat} {tasks : List Task} (law : Lawful M max tasks) (hn : (tasks.map Task.name).Nodup)
    (n : Nat) (hn1 : 1 ≤ n) (hm : ∀ m, max = some m → n ≤ m) (w : Write α R) (G : Nat → NDArr α) (hG : Faithful tasks w G) :
    ∀ (ts : List Task) (f : M.File) (L : Nat → List (NDArr α)), (∀ t ∈ ts, t ∈ tasks) → (ts.map Task.name).Nodup → law.Rep f L →
      (∀ t ∈ ts, n ≤ (L t.name).length + 1) →
      ∃ f' L', ts.foldlM (fun b t => M.write b n t (w.fields t.name)) f = some f' ∧ law.Rep f' L' ∧
        (∀ t ∈ ts, L' t.name = (L t.name).take (n - 1) ++ [G t.name]) ∧ ∀ k, k ∉ ts.map Task.name → L' k = L k := by
  intro ts
  induction ts with
  | nil => intro f L _ _ h _; exact ⟨f, L, rfl, h, by simp, by simp⟩
  | cons t ts ih =>
    intro f L hsub hnd h hl
    simp only [List.map_cons, List.nodup_cons] at hnd
    obtain ⟨f1, h1, h2⟩ := law.write f L t n (G t.name) (w.fields t.name) h (hsub t (by simp)) hn1 (hl t (by simp)) hm
      (hG t (hsub t (by simp))).1 (hG t (hsub t (by simp))).2
    have hne : ∀ u ∈ ts, u.name ≠ t.name := fun u hu e => hnd.1 (by rw [← e]; exact List.mem_map_of_mem hu)
    obtain ⟨f', L', e1, e2, e3, e4⟩ := ih f1 _ (fun u hu => hsub u (by simp [hu])) hnd.2 h2 (by
      intro u hu
      rw [Function.update_of_ne (hne u hu)]
      exact hl u (by simp [hu]))
    refine ⟨f', L', ?_, e2, ?_, ?_⟩
    · rw [List.foldlM_cons, h1]; exact e1
    · intro u hu
      rcases List.mem_cons.mp hu with rfl | hu
      · rw [e4 _ hnd.1, Function.update_self]
      · rw [e3 u hu, Function.update_of_ne (hne u hu)]
    · intro k hk
      simp only [List.map_cons, List.mem_cons, not_or] at hk
      rw [e4 k hk.2, Function.update_of_ne hk.1]

/-- The outputs that go to set `k`. -/
def chunk {β : Type} : Option Nat → Nat → List β → List β
  | none, k, ws => if k = 0 then ws else []
  | some M, k, ws => (ws.drop (k * M)).take M

/-- A file holds the outputs `c`. -/
def FileOK {M : Mode α} {max : Option Nat} {tasks : List Task} (law : Lawful M max tasks) (f : Option (H5 R M.File))
    (c : List (Write α R × (Nat → NDArr α))) : Prop :=
  match f with
  | none => c = []
  | some f => c ≠ [] ∧ f.scales = c.map (fun x => x.1.record) ∧ ∃ L, law.Rep f.body L ∧ ∀ t ∈ tasks, L t.name = c.map fun x => x.2 t.name

/-- The counters after `len` outputs. -/
def Counts (max : Option Nat) (q fileNum len : Nat) : Prop :=
  match max with
  | none => q = 0 ∧ fileNum = len
  | some m => len = q * m + fileNum ∧ fileNum ≤ m

structure Inv {M : Mode α} {max : Option Nat} {tasks : List Task} (law : Lawful M max tasks) (s0 : Nat) (before : Nat → Option (H5 R M.File))
    (ws : List (Write α R × (Nat → NDArr α))) (st : State R M.File) : Prop where
  files : ∀ k, FileOK law (st.files (s0 + k)) (chunk max k ws)
  earlier : ∀ s < s0, st.files s = before s
  count : ∃ q, st.setNum = s0 + q ∧ Counts max q st.fileNum ws.length

theorem chunk_snoc_some {β : Type} {m q r : Nat} {ws : List β} {x : β} (h : ws.length = q * m + r) (hr : r < m) :
    chunk (some m) q ws = ws.drop (q * m) ∧ (chunk (some m) q ws).length = r ∧ chunk (some m) q (ws ++ [x]) = chunk (some m) q ws ++ [x] ∧
    ∀ k, k ≠ q → chunk (some m) k (ws ++ [x]) = chunk (some m) k ws := by
  have e0 : chunk (some m) q ws = ws.drop (q * m) := List.take_of_length_le (by rw [List.length_drop]; omega)
  refine ⟨e0, by rw [e0, List.length_drop]; omega, ?_, ?_⟩
  · rw [e0]
    show List.take m (List.drop (q * m) (ws ++ [x])) = _
    rw [List.drop_append_of_le_length (by omega), List.take_of_length_le]
    rw [List.length_append, List.length_drop, List.length_singleton]; omega
  · intro k hk
    show List.take m (List.drop (k * m) (ws ++ [x])) = List.take m (List.drop (k * m) ws)
    rcases Nat.lt_or_gt_of_ne hk with hk | hk
    · have : (k + 1) * m ≤ q * m := Nat.mul_le_mul_right m hk
      rw [Nat.add_mul, Nat.one_mul] at this
      rw [List.drop_append_of_le_length (by omega), List.take_append_of_le_length (by rw [List.length_drop]; omega)]
    · have : (q + 1) * m ≤ k * m := Nat.mul_le_mul_right m hk
      rw [Nat.add_mul, Nat.one_mul] at this
      rw [List.drop_eq_nil_of_le (by rw [List.length_append, List.length_singleton]; omega), List.drop_eq_nil_of_le (by omega)]

/-- One output to set `q` at entry `n`. -/
theorem process_core {M : Mode α} {max : Option Nat} {tasks : List Task} (law : Lawful M max tasks) (hn : (tasks.map Task.name).Nodup)
    (fill : R) (f0 : Option (H5 R M.File)) (c : List (Write α R × (Nat → NDArr α))) (h : FileOK law f0 c) (hm : ∀ m, max = some m → c.length + 1 ≤ m)
    (x : Write α R × (Nat → NDArr α)) (hx : Faithful tasks x.1 x.2) :
    ∃ f scales body, getFile M f0 = some f ∧ resize fill max f.scales (c.length + 1) = some scales ∧
      tasks.foldlM (fun b t => M.write b (c.length + 1) t (x.1.fields t.name)) f.body = some body ∧
      FileOK law (some ⟨scales.set (c.length + 1 - 1) x.1.record, body⟩) (c ++ [x]) := by
  obtain ⟨f, hf, hs, L, hL, hLl⟩ : ∃ f, getFile M f0 = some f ∧ f.scales = c.map (fun x => x.1.record) ∧
      ∃ L, law.Rep f.body L ∧ ∀ t ∈ tasks, (L t.name).take c.length = c.map (fun x => x.2 t.name) := by
    cases f0 with
    | some f =>
      obtain ⟨_, h2, L, h3, h4⟩ := h
      refine ⟨f, rfl, h2, L, h3, fun t ht => ?_⟩
      rw [h4 t ht, List.take_of_length_le (by simp)]
    | none =>
      have hc : c = [] := h
      subst hc
      obtain ⟨f, L, h1, h2, _⟩ := law.create
      exact ⟨⟨[], f⟩, by simp only [getFile, h1, Option.map_some], rfl, L, h2, fun t _ => by simp⟩
  obtain ⟨sc, e1, _, e3⟩ := resize_ok fill max f.scales (c.length + 1) (by omega) (by rw [hs, List.length_map]) hm
  obtain ⟨body, L', g1, g2, g3, _⟩ := tasks_fold law hn (c.length + 1) (by omega) hm x.1 x.2 hx tasks f.body L (fun _ h => h) hn hL (by
    intro t ht
    have := congrArg List.length (hLl t ht)
    rw [List.length_take, List.length_map] at this
    omega)
  refine ⟨f, sc, body, hf, e1, g1, by simp, ?_, L', g2, ?_⟩
  · show sc.set (c.length + 1 - 1) x.1.record = _
    rw [e3, hs, Nat.add_sub_cancel, List.take_of_length_le (by simp), List.map_append]
    rfl
  · intro t ht
    rw [g3 t ht, Nat.add_sub_cancel, hLl t ht, List.map_append]
    rfl

theorem process_inv {M : Mode α} {max : Option Nat} {tasks : List Task} (law : Lawful M max tasks) (hn : (tasks.map Task.name).Nodup)
    (hmax : ∀ m, max = some m → 0 < m) (fill : R) (s0 : Nat) (before : Nat → Option (H5 R M.File))
    (ws : List (Write α R × (Nat → NDArr α))) (st : State R M.File) (h : Inv law s0 before ws st) (x : Write α R × (Nat → NDArr α))
    (hx : Faithful tasks x.1 x.2) : ∃ st', process M fill max tasks st x.1 = some st' ∧ Inv law s0 before (ws ++ [x]) st' := by
  -- set and entry of the output
  obtain ⟨q, n, hset, hnum, hlen, hsnoc, hother, hle, hcount⟩ : ∃ q n, (if (max.any fun m => decide (st.fileNum + 1 > m)) then st.setNum + 1 else st.setNum) = s0 + q ∧
      (if (max.any fun m => decide (st.fileNum + 1 > m)) then 1 else st.fileNum + 1) = n + 1 ∧ (chunk max q ws).length = n ∧
      chunk max q (ws ++ [x]) = chunk max q ws ++ [x] ∧ (∀ k, k ≠ q → chunk max k (ws ++ [x]) = chunk max k ws) ∧ (∀ m, max = some m → n + 1 ≤ m) ∧ Counts max q (n + 1) (ws ++ [x]).length := by
    obtain ⟨q, h1, h2⟩ := h.count
    clear h
    cases max with
    | none =>
      obtain ⟨rfl, h3⟩ := h2
      refine ⟨0, ws.length, by simp [h1], by simp [h3], rfl, rfl, ?_, by simp, rfl, by simp⟩
      intro k hk
      simp only [chunk, if_neg hk]
    | some m =>
      have hm := hmax m rfl
      obtain ⟨h3, h4⟩ := h2
      by_cases hgt : st.fileNum + 1 > m
      · have e : (q + 1) * m = q * m + m := by rw [Nat.add_mul, Nat.one_mul]
        have hl : ws.length = (q + 1) * m + 0 := by omega
        obtain ⟨_, c2, c3, c4⟩ := chunk_snoc_some (x := x) hl hm
        refine ⟨q + 1, 0, ?_, ?_, c2, c3, c4, ?_, ?_⟩
        · simp only [Option.any_some, hgt, decide_true, if_true, h1]; omega
        · simp only [Option.any_some, hgt, decide_true, if_true]
        · intro m' hm'; cases hm'; exact hm
        · refine ⟨?_, hm⟩
          rw [List.length_append, List.length_singleton]; omega
      · obtain ⟨_, c2, c3, c4⟩ := chunk_snoc_some (x := x) h3 (by omega)
        refine ⟨q, st.fileNum, ?_, ?_, c2, c3, c4, ?_, ?_⟩
        · simp only [Option.any_some, hgt, decide_false, Bool.false_eq_true, if_false, h1]
        · simp only [Option.any_some, hgt, decide_false, Bool.false_eq_true, if_false]
        · intro m' hm'; cases hm'; omega
        · refine ⟨?_, by omega⟩
          rw [List.length_append, List.length_singleton]; omega
  obtain ⟨f, sc, body, e1, e2, e3, e4⟩ := process_core law hn fill (st.files (s0 + q)) (chunk max q ws) (h.files q) (by rw [hlen]; exact hle) x hx
  rw [hlen] at e2 e3 e4
  refine ⟨⟨s0 + q, n + 1, Function.update st.files (s0 + q) (some ⟨sc.set (n + 1 - 1) x.1.record, body⟩)⟩, ?_, ?_⟩
  · unfold process
    simp only [hset, hnum]
    show Option.bind (getFile M (st.files (s0 + q))) _ = _
    rw [e1, Option.bind_some]
    show Option.bind (resize fill max f.scales (n + 1)) _ = _
    rw [e2, Option.bind_some]
    show Option.bind (tasks.foldlM (fun b t => M.write b (n + 1) t (x.1.fields t.name)) f.body) _ = _
    rw [e3]
    rfl
  · refine ⟨?_, ?_, ⟨q, rfl, hcount⟩⟩
    · intro k
      by_cases hk : k = q
      · subst hk
        rw [hsnoc]
        show FileOK law (Function.update st.files (s0 + k) _ (s0 + k)) _
        rw [Function.update_self]
        exact e4
      · rw [hother k hk]
        show FileOK law (Function.update st.files (s0 + q) _ (s0 + k)) _
        rw [Function.update_of_ne (by omega)]
        exact h.files k
    · intro s hs
      show Function.update st.files (s0 + q) _ s = _
      rw [Function.update_of_ne (by omega)]
      exact h.earlier s hs

theorem run_inv {M : Mode α} {max : Option Nat} {tasks : List Task} (law : Lawful M max tasks) (hn : (tasks.map Task.name).Nodup)
    (hmax : ∀ m, max = some m → 0 < m) (fill : R) (s0 : Nat) (before : Nat → Option (H5 R M.File)) :
    ∀ (xs ws : List (Write α R × (Nat → NDArr α))) (st : State R M.File), Inv law s0 before ws st → (∀ x ∈ xs, Faithful tasks x.1 x.2) →
      ∃ st', run M fill max tasks st (xs.map Prod.fst) = some st' ∧ Inv law s0 before (ws ++ xs) st' := by
  intro xs
  induction xs with
  | nil => intro ws st h _; exact ⟨st, rfl, by rw [List.append_nil]; exact h⟩
  | cons x xs ih =>
    intro ws st h hx
    obtain ⟨st1, h1, h2⟩ := process_inv law hn hmax fill s0 before ws st h x (hx x (by simp))
    obtain ⟨st', h3, h4⟩ := ih (ws ++ [x]) st1 h2 (fun y hy => hx y (by simp [hy]))
    refine ⟨st', ?_, by rw [List.append_assoc] at h4; exact h4⟩
    rw [run, List.map_cons, List.foldlM_cons, h1]
    exact h3

theorem chunk_place {β : Type} (max : Option Nat) (hmax : ∀ m, max = some m → 0 < m) (ws : List β) (w : Nat) (x : β) (h : ws[w]? = some x) :
    (chunk max (place max w).1 ws)[(place max w).2]? = some x := by
  cases max with
  | none => exact h
  | some m =>
    have hm := hmax m rfl
    show (List.take m (List.drop (w / m * m) ws))[w % m]? = _
    rw [List.getElem?_take, if_pos (Nat.mod_lt _ hm), List.getElem?_drop, Nat.mul_comm, Nat.div_add_mod]
    exact h

theorem chunk_only {β : Type} (max : Option Nat) (ws : List β) (k i : Nat) (h : i < (chunk max k ws).length) :
    ∃ w < ws.length, place max w = (k, i) := by
  cases max with
  | none =>
    have h' : i < (if k = 0 then ws else []).length := h
    by_cases e : k = 0
    · subst e; exact ⟨i, h', rfl⟩
    · rw [if_neg e] at h'; simp at h'
  | some m =>
    have h' : i < (List.take m (List.drop (k * m) ws)).length := h
    rw [List.length_take, List.length_drop] at h'
    refine ⟨k * m + i, by omega, ?_⟩
    have hm : i < m := by omega
    have h1 : (k * m + i) / m = k := by
      rw [Nat.mul_comm, Nat.mul_add_div (by omega), Nat.div_eq_of_lt hm, Nat.add_zero]
    have h2 : (k * m + i) % m = i := by
      rw [Nat.mul_comm, Nat.mul_add_mod, Nat.mod_eq_of_lt hm]
    show ((k * m + i) / m, (k * m + i) % m) = (k, i)
    rw [h1, h2]

theorem lawful_records {M : Mode α} {max : Option Nat} {tasks : List Task} (law : Lawful M max tasks) (hn : (tasks.map Task.name).Nodup)
    (hmax : ∀ m, max = some m → 0 < m) (fill : R) (s0 : Nat) (before : Nat → Option (H5 R M.File)) (hb : ∀ s, s0 ≤ s → before s = none)
    (xs : List (Write α R × (Nat → NDArr α))) (hx : ∀ x ∈ xs, Faithful tasks x.1 x.2) :
    ∃ st, run M fill max tasks ⟨s0, 0, before⟩ (xs.map Prod.fst) = some st ∧ Recorded M.read tasks max s0 xs before st.files := by
  have h0 : Inv law s0 before ([] : List (Write α R × (Nat → NDArr α))) ⟨s0, 0, before⟩ := by
    refine ⟨?_, ?_, ?_⟩
    · intro k
      have : chunk max k ([] : List (Write α R × (Nat → NDArr α))) = [] := by
        cases max <;> simp [chunk]
      rw [this]
      show FileOK law (before (s0 + k)) _
      rw [hb _ (by omega)]
      rfl
    · intro s _; rfl
    · refine ⟨0, rfl, ?_⟩
      cases max <;> simp [Counts]
  obtain ⟨st, h1, h2⟩ := run_inv law hn hmax fill s0 before xs [] _ h0 hx
  rw [List.nil_append] at h2
  refine ⟨st, h1, ?_, ?_, h2.earlier⟩
  · intro w x hw
    have hc := chunk_place max hmax xs w x hw
    have hf := h2.files (place max w).1
    cases hfile : st.files (s0 + (place max w).1) with
    | none =>
      rw [hfile] at hf
      have hf' : chunk max (place max w).1 xs = [] := hf
      rw [hf'] at hc
      simp at hc
    | some f =>
      rw [hfile] at hf
      obtain ⟨_, g2, L, g3, g4⟩ := hf
      refine ⟨f, rfl, by rw [g2, List.getElem?_map, hc]; rfl, fun t ht => ?_⟩
      obtain ⟨es, e1, e2⟩ := law.read f.body L t g3 ht
      rw [g4 t ht] at e2
      obtain ⟨e, e3, e4⟩ := forall₂_get e2 (n := (place max w).2) (y := x.2 t.name) (by rw [List.getElem?_map, hc]; rfl)
      exact ⟨es, e, e1, e3, e4⟩
  · intro k f hfile
    have hf := h2.files k
    rw [hfile] at hf
    obtain ⟨g1, g2, L, g3, g4⟩ := hf
    refine ⟨by rw [g2, List.length_map]; exact List.length_pos_iff.mpr g1, ?_, ?_⟩
    · intro i hi
      rw [g2, List.length_map] at hi
      exact chunk_only max xs k i hi
    · intro t ht
      obtain ⟨es, e1, e2⟩ := law.read f.body L t g3 ht
      refine ⟨es, e1, ?_⟩
      rw [e2.length_eq, g4 t ht, g2, List.length_map, List.length_map]

/-! ### Merging -/

theorem slab_of_zip : ∀ (idx start count : List Nat), start.length = count.length →
    List.Forall₂ (fun i (r : Nat × Nat) => r.1 ≤ i ∧ i < r.1 + r.2) idx (List.zip start count) → inSlab start count idx = true := by
  intro idx
  induction idx with
  | nil =>
    intro start count hl h
    cases start <;> cases count <;> simp_all [inSlab]
  | cons i is ih =>
    intro start count hl h
    cases start with
    | nil => simp at h
    | cons s ss =>
      cases count with
      | nil => simp at h
      | cons c cs =>
        rw [List.zip_cons_cons] at h
        cases h with
        | cons h1 h2 =>
          simp only [inSlab, Bool.and_eq_true, decide_eq_true_eq]
          exact ⟨⟨h1.1, h1.2⟩, ih ss cs (by simpa using hl) h2⟩

/-- The new dataset has the form of the old one, and agrees with it on the chunks. -/
structure Copied (old new : Dset α) (chunks : List ((Nat × Nat) × Part)) : Prop where
  plain : new.isVirtual = false
  shape : new.shape = old.shape
  len : new.entries.length = old.entries.length
  entry : ∀ (w : Nat) e o, new.entries[w]? = some e → old.entries[w]? = some o → e.shape = o.shape ∧
    ∀ idx, (∃ c ∈ chunks, c.1.1 ≤ w ∧ w < c.1.2 ∧ inSlab c.2.start c.2.count idx = true) → e.get idx = o.get idx

theorem copied_step {old new : Dset α} {chunks : List ((Nat × Nat) × Part)} (h : Copied old new chunks) (c : (Nat × Nat) × Part) :
    Copied old (copyChunk old new c) (chunks ++ [c]) := by
  refine ⟨h.plain, h.shape, by simp only [copyChunk, List.length_map, List.length_zipIdx]; exact h.len, ?_⟩
  intro w e o he ho
  simp only [copyChunk, List.getElem?_map, List.getElem?_zipIdx] at he
  obtain ⟨e0, h0, he⟩ := Option.map_eq_some_iff.mp he
  obtain ⟨e1, h1, h0⟩ := Option.map_eq_some_iff.mp h0
  subst h0
  simp only [Nat.zero_add] at he
  obtain ⟨g1, g2⟩ := h.entry w e1 o h1 ho
  by_cases hw : c.1.1 ≤ w ∧ w < c.1.2
  · rw [if_pos hw] at he
    subst he
    refine ⟨g1, ?_⟩
    rintro idx ⟨c', hc', a1, a2, a3⟩
    show (if inSlab c.2.start c.2.count idx then (old.entries[w]?).bind fun o => o.get idx else e1.get idx) = _
    by_cases hin : inSlab c.2.start c.2.count idx = true
    · rw [if_pos hin, ho]; rfl
    · rw [if_neg hin]
      rcases List.mem_append.mp hc' with h5 | h5
      · exact g2 idx ⟨c', h5, a1, a2, a3⟩
      · rw [List.mem_singleton.mp h5] at a3
        exact absurd a3 hin
  · rw [if_neg hw] at he
    subst he
    refine ⟨g1, ?_⟩
    rintro idx ⟨c', hc', a1, a2, a3⟩
    rcases List.mem_append.mp hc' with h5 | h5
    · exact g2 idx ⟨c', h5, a1, a2, a3⟩
    · rw [List.mem_singleton.mp h5] at a1 a2
      exact absurd ⟨a1, a2⟩ hw

theorem copied_equal {old new : Dset α} {chunks : List ((Nat × Nat) × Part)} (h : Copied old new chunks)
    (hs : ∀ e ∈ old.entries, e.shape = old.shape) (hc : Covers chunks old.entries.length old.shape) : Equal new old := by
  refine ⟨h.shape, ?_⟩
  rw [List.forall₂_iff_get]
  refine ⟨h.len, fun w h1 h2 => ?_⟩
  rw [List.get_eq_getElem, List.get_eq_getElem]
  obtain ⟨g1, g2⟩ := h.entry w _ _ (List.getElem?_eq_getElem h1) (List.getElem?_eq_getElem h2)
  refine ⟨g1, fun idx hi => g2 idx ?_⟩
  rw [g1, hs _ (List.getElem_mem h2)] at hi
  obtain ⟨c, hc1, hc2, hc3, hc4, hc5⟩ := hc w h2 idx hi
  exact ⟨c, hc1, hc2, hc3, slab_of_zip _ _ _ hc5 hc4⟩

theorem merge_copies (zero : α) {name merged : Nat} (hne : name ≠ merged) {old : Dset α} : ∀ (cs done : List ((Nat × Nat) × Part))
    (g : Nat → Option (Dset α)) (new : Dset α), g name = some old → g merged = some new → Copied old new done →
    ∃ new', Copied old new' (done ++ cs) ∧ ∀ rest, mergeTask zero name merged (cs.map Action.copy ++ rest) g =
      mergeTask zero name merged rest (Function.update g merged (some new')) := by
  intro cs
  induction cs with
  | nil =>
    intro done g new _ h2 h3
    refine ⟨new, by rw [List.append_nil]; exact h3, fun rest => ?_⟩
    rw [← h2, Function.update_eq_self]
    rfl
  | cons c cs ih =>
    intro done g new h1 h2 h3
    obtain ⟨new', e1, e2⟩ := ih (done ++ [c]) (Function.update g merged (some (copyChunk old new c))) (copyChunk old new c)
      (by rw [Function.update_of_ne hne]; exact h1) (Function.update_self _ _ _) (copied_step h3 c)
    refine ⟨new', by rw [List.append_assoc] at e1; exact e1, fun rest => ?_⟩
    have := e2 rest
    rw [Function.update_idem] at this
    rw [← this]
    show (match act zero name merged g (.copy c) with
      | none => (g, false)
      | some g' => mergeTask zero name merged (cs.map Action.copy ++ rest) g') = _
    simp only [act, h1, h2, Option.bind_some, Option.map_some]

end Dedalus.Output
