import Verif.Post.Spec

namespace Dedalus.Post

variable {V : Type}

theorem mem_assignedFrom (start block : Nat) : ∀ (ws : List Nat) (offset : Nat) (k : Nat) (s c : Int),
    (assignedFrom start block offset ws)[k]? = some (s, c) →
    ∃ w, ws[k]? = some w ∧
      s = clip start (offset + (ws.take k).sum : Nat) (offset + (ws.take k).sum + w : Nat) - (offset + (ws.take k).sum : Nat) ∧
      c = clip (start + block : Nat) (offset + (ws.take k).sum : Nat) (offset + (ws.take k).sum + w : Nat) -
        clip start (offset + (ws.take k).sum : Nat) (offset + (ws.take k).sum + w : Nat)
  | [], _, k, _, _, h => by simp [assignedFrom] at h
  | w :: ws, offset, 0, s, c, h => by
    simp only [assignedFrom, List.getElem?_cons_zero, Option.some.injEq, Prod.mk.injEq] at h
    exact ⟨w, by simp, by simpa using h.1.symm, by simpa using h.2.symm⟩
  | w :: ws, offset, k + 1, s, c, h => by
    simp only [assignedFrom, List.getElem?_cons_succ] at h
    obtain ⟨w', h1, h2, h3⟩ := mem_assignedFrom start block ws (offset + w) k s c h
    refine ⟨w', by simpa using h1, ?_, ?_⟩
    · rw [List.take_succ_cons, List.sum_cons, ← Nat.add_assoc]; exact h2
    · rw [List.take_succ_cons, List.sum_cons, ← Nat.add_assoc]; exact h3

theorem assignedFrom_length (start block : Nat) : ∀ (ws : List Nat) (offset : Nat),
    (assignedFrom start block offset ws).length = ws.length
  | [], _ => rfl
  | w :: ws, offset => by simp [assignedFrom, assignedFrom_length start block ws]

theorem take_sum_le : ∀ (ws : List Nat) (k w : Nat), ws[k]? = some w → (ws.take k).sum + w ≤ ws.sum
  | [], k, w, h => by simp at h
  | a :: ws, 0, w, h => by
    simp only [List.getElem?_cons_zero, Option.some.injEq] at h
    simp [h]
  | a :: ws, k + 1, w, h => by
    have := take_sum_le ws k w (by simpa using h)
    simp only [List.take_succ_cons, List.sum_cons]
    omega

theorem total_assigned (start block : Nat) : ∀ (ws : List Nat) (offset : Nat),
    ((assignedFrom start block offset ws).map Prod.snd).sum =
      clip (start + block : Nat) offset (offset + ws.sum : Nat) - clip start offset (offset + ws.sum : Nat)
  | [], offset => by
    simp only [assignedFrom, List.map_nil, List.sum_nil, clip]
    omega
  | w :: ws, offset => by
    simp only [assignedFrom, List.map_cons, List.sum_cons]
    rw [total_assigned start block ws]
    simp only [clip]
    omega

theorem everyNth_get {α : Type} (step : Nat) (hs : 0 < step) : ∀ (fuel : Nat) (l : List α) (k : Nat), l.length ≤ fuel →
    (everyNth step fuel l)[k]? = l[k * step]?
  | 0, l, k, h => by
    have : l = [] := List.length_eq_zero_iff.mp (by omega)
    rw [this]; simp [everyNth]
  | fuel + 1, [], k, _ => by simp [everyNth]
  | fuel + 1, x :: xs, 0, _ => by simp [everyNth]
  | fuel + 1, x :: xs, k + 1, h => by
    rw [everyNth, List.getElem?_cons_succ, everyNth_get step hs fuel _ k (by
      rw [List.length_drop]; simp only [List.length_cons] at h; omega), List.getElem?_drop]
    have : (k + 1) * step = (step - 1 + k * step) + 1 := by
      rw [Nat.add_mul]; omega
    rw [this, List.getElem?_cons_succ]

/-! Merging -/

theorem inBlock_iff : ∀ (s c i : List Nat), s.length = c.length →
    (inBlock s c i = true ↔ ∃ l, InShape c l ∧ i = globalIndex s l)
  | [], [], [], _ => by simp only [inBlock, true_iff]; exact ⟨[], trivial, rfl⟩
  | [], [], _ :: _, _ => by
    simp only [inBlock, Bool.false_eq_true, false_iff, not_exists, not_and]
    intro l _ h
    simp [globalIndex] at h
  | s :: ss, c :: cs, [], _ => by
    simp only [inBlock, Bool.false_eq_true, false_iff, not_exists, not_and]
    intro l hl h
    cases l with
    | nil => cases hl
    | cons a l => simp [globalIndex] at h
  | s :: ss, c :: cs, i :: is, hlen => by
    have ih := inBlock_iff ss cs is (by simpa using hlen)
    simp only [inBlock, Bool.and_eq_true, decide_eq_true_eq, ih]
    constructor
    · rintro ⟨⟨h1, h2⟩, l, h3, h4⟩
      refine ⟨(i - s) :: l, ⟨by omega, h3⟩, ?_⟩
      simp only [globalIndex, List.zipWith_cons_cons, List.cons.injEq]
      exact ⟨by omega, h4⟩
    · rintro ⟨l, hl, h⟩
      cases l with
      | nil => cases hl
      | cons a l =>
        simp only [globalIndex, List.zipWith_cons_cons, List.cons.injEq] at h
        have := hl.1
        exact ⟨⟨by omega, by omega⟩, l, hl.2, h.2⟩
  | [], c :: cs, _, hlen => by cases hlen
  | s :: ss, [], _, hlen => by cases hlen

theorem localIndex_global : ∀ (s c l : List Nat), s.length = c.length → InShape c l →
    localIndex s (globalIndex s l) = l
  | [], [], [], _, _ => rfl
  | [], [], _ :: _, _, h => by cases h
  | s :: ss, c :: cs, [], _, h => by cases h
  | s :: ss, c :: cs, a :: l, hlen, h => by
    have ih := localIndex_global ss cs l (by simpa using hlen) h.2
    simp only [localIndex, globalIndex, List.zipWith_cons_cons, List.cons.injEq] at ih ⊢
    exact ⟨by omega, ih⟩
  | [], c :: cs, _, hlen, _ => by cases hlen
  | s :: ss, [], _, hlen, _ => by cases hlen

/-- The joint file with the block of one process. -/
def overlay (j : Joint V) (p : ProcFile V) : Joint V :=
  ⟨j.writes, j.shape, fun w i => if inBlock p.start p.count i then p.data w (localIndex p.start i) else j.data w i⟩

theorem exec_merges (zero : V) (d : Disk V) : ∀ (ps : List (Nat × ProcFile V)) (j : Joint V),
    (∀ p ∈ ps, p.2.writes = j.writes) → ∃ j', (∀ ops, exec zero (ps.map (fun p => .merge p.2) ++ ops) d (some j) =
      exec zero ops d (some j')) ∧ j'.writes = j.writes ∧ j'.shape = j.shape ∧
      ∀ w i v, (∀ p ∈ ps, inBlock p.2.start p.2.count i = true → p.2.data w (localIndex p.2.start i) = v) →
        (j.data w i = v ∨ ∃ p ∈ ps, inBlock p.2.start p.2.count i = true) → j'.data w i = v
  | [], j, _ => by
    refine ⟨j, fun _ => rfl, rfl, rfl, ?_⟩
    rintro w i v _ (h | ⟨p, hp, _⟩)
    · exact h
    · cases hp
  | p :: ps, j, hw => by
    have e : mergeData j p.2 = some (overlay j p.2) := by
      rw [mergeData, if_pos (hw p List.mem_cons_self)]; rfl
    obtain ⟨j', h1, h2, h3, h4⟩ := exec_merges zero d ps (overlay j p.2)
        (fun q hq => hw q (List.mem_cons_of_mem _ hq))
    refine ⟨j', fun ops => ?_, h2, h3, ?_⟩
    · rw [List.map_cons, List.cons_append, exec, e]
      exact h1 ops
    · intro w i v hv hc
      apply h4 w i v (fun q hq => hv q (List.mem_cons_of_mem _ hq))
      simp only [overlay]
      cases hb : inBlock p.2.start p.2.count i with
      | true => exact .inl (by rw [if_pos rfl]; exact hv p List.mem_cons_self hb)
      | false =>
        rw [if_neg (by simp)]
        rcases hc with h | ⟨q, hq, hqb⟩
        · exact .inl h
        · rcases List.mem_cons.mp hq with e | hq
          · rw [e, hb] at hqb; cases hqb
          · exact .inr ⟨q, hq, hqb⟩

theorem exec_unlinks (zero : V) (o : Option (Joint V)) : ∀ (rs : List Nat) (ops : List (Op V)) (d : Disk V),
    exec zero (rs.map (fun r => .unlink r) ++ ops) d o =
      exec zero ops { d with procs := d.procs.filter (fun p => p.1 ∉ rs) } o
  | [], ops, d => by
    have : d.procs.filter (fun p => p.1 ∉ ([] : List Nat)) = d.procs := List.filter_eq_self.mpr (by simp)
    rw [this]; rfl
  | r :: rs, ops, d => by
    rw [List.map_cons, List.cons_append, exec, exec_unlinks zero o rs ops]
    congr 2
    rw [List.filter_filter]
    congr 1
    funext p
    by_cases h1 : p.1 = r <;> by_cases h2 : p.1 ∈ rs <;> simp [h1, h2]

/-- The actions after the joint file is closed do not change it. -/
theorem exec_cleanup (zero : V) : ∀ (ops : List (Op V)) (d : Disk V) (o : Option (Joint V)),
    (∀ op ∈ ops, (∃ r, op = .unlink r) ∨ op = .rmdir) → (exec zero ops d o).joint = d.joint
  | [], _, _, _ => rfl
  | op :: ops, d, o, h => by
    rcases h op List.mem_cons_self with ⟨r, e⟩ | e
    · subst e; rw [exec, exec_cleanup zero ops _ _ (fun x hx => h x (List.mem_cons_of_mem _ hx))]
    · subst e; rw [exec, exec_cleanup zero ops _ _ (fun x hx => h x (List.mem_cons_of_mem _ hx))]

/-- Merging part of the files leaves the process files and the folder alone. -/
theorem exec_merging_procs (zero : V) : ∀ (ops : List (Op V)) (d : Disk V) (o : Option (Joint V)),
    (∀ op ∈ ops, (∀ r, op ≠ .unlink r) ∧ op ≠ .rmdir) → (exec zero ops d o).procs = d.procs ∧
      (exec zero ops d o).folder = d.folder
  | [], _, _, _ => ⟨rfl, rfl⟩
  | op :: ops, d, o, h => by
    have h' := fun x hx => h x (List.mem_cons_of_mem op hx)
    cases op with
    | create => rw [exec]; exact exec_merging_procs zero ops _ _ h'
    | setup ps =>
      cases ps with
      | nil => rw [exec]; exact ⟨rfl, rfl⟩
      | cons p ps => rw [exec]; exact exec_merging_procs zero ops _ _ h'
    | merge p =>
      cases o with
      | none => rw [exec]; exact ⟨rfl, rfl⟩
      | some j =>
        rw [exec]
        split
        · exact ⟨rfl, rfl⟩
        · exact exec_merging_procs zero ops _ _ h'
    | close =>
      cases o with
      | none => rw [exec]; exact ⟨rfl, rfl⟩
      | some j => rw [exec]; exact exec_merging_procs zero ops _ _ h'
    | unlink r => exact absurd rfl ((h _ List.mem_cons_self).1 r)
    | rmdir => exact absurd rfl (h _ List.mem_cons_self).2

end Dedalus.Post
