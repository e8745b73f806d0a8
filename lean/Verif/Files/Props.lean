import Verif.Files.Lemmas

/-!
# Property C16: numbering of sets and writes over restarts
-/

namespace Dedalus.Files

variable {α : Type}

theorem run_inv (fill : α) (base : Name) (hb : '.' ∉ stem base) : ∀ (ss : List (Session α)) (d : Disk α) (cs : List (File α)),
    (∀ s ∈ ss, ∀ m, s.maxWrites = some m → 1 ≤ m) → Inv base d cs → (∀ c ∈ cs, c ≠ []) →
    ∃ d', runSessions fill base d ss = .ok d' ∧ Inv base d' (cs ++ layoutOf (lastNumber cs) ss) := by
  intro ss
  induction ss with
  | nil => intro d cs _ h _; exact ⟨d, rfl, by simpa [layoutOf] using h⟩
  | cons s ss ih =>
    intro d cs hm hinv hne
    have ho := open_append base hb s.maxWrites d cs hinv hne
    have H : HInv base s.maxWrites cs (lastNumber cs) [] ⟨base, s.maxWrites, cs.length + 1, lastNumber cs, 0⟩ d :=
      ⟨rfl, rfl, by simp, by simpa [number, chunksOf_nil] using hinv, fun _ => ⟨rfl, rfl⟩, by
        intro ini last he
        simp [number, chunksOf_nil] at he⟩
    obtain ⟨h1, d1, e1, H1⟩ := processAll_inv fill base hb s.maxWrites (hm s (by simp)) cs (lastNumber cs) s.payloads [] _ d H
    simp only [List.nil_append] at H1
    have hln := lastNumber_snoc (lastNumber cs) cs s.payloads s.maxWrites rfl
    obtain ⟨d2, e2, H2⟩ := ih d1 (cs ++ chunksOf s.maxWrites (number (lastNumber cs + 1) s.payloads))
      (fun s' hs' => hm s' (by simp [hs'])) H1.inv (by
        intro c hc
        rcases List.mem_append.1 hc with hc | hc
        · exact hne c hc
        · exact chunksOf_ne _ _ _ rfl c hc)
    refine ⟨d2, ?_, ?_⟩
    · rw [runSessions, ho]
      simp only
      rw [e1]
      exact e2
    · rw [hln] at H2
      rw [layoutOf, ← List.append_assoc]
      exact H2

/-- C16 (for handlers whose name has no further dot, see the refutation). Take any number of runs,
each restarted in append mode with its own limit of at least one write per set, on a folder that at
first holds no set of this handler. No run fails, and at the end the set files numbered
1, 2, ... are exactly the sets of `layoutOf`: every run cuts its writes into new sets of the given size and
write numbers continue over sets and runs. -/
theorem restarts_partial (fill : α) (base : Name) (hb : '.' ∉ stem base) (d : Disk α)
    (hclean : ∀ n ∈ d.map (·.1), (stem base ++ "_s".toList).isPrefixOf n = false)
    (ss : List (Session α)) (hm : ∀ s ∈ ss, ∀ m, s.maxWrites = some m → 1 ≤ m) :
    ∃ d', runSessions fill base d ss = .ok d' ∧
      (∀ i, d'.get (stem base ++ "_s".toList ++ Nat.toDigits 10 (i + 1) ++ ".h5".toList) = (layoutOf 0 ss)[i]?) := by
  have hinv : Inv base d [] := by
    constructor
    · intro i
      rw [(get_none_iff d _).2]
      · simp
      · intro hn
        have := hclean _ hn
        rw [isPrefix_fileName base hb] at this
        simp at this
    · intro n hn hp
      rw [hclean n hn] at hp; simp at hp
  obtain ⟨d', e, h⟩ := run_inv fill base hb ss d [] hm hinv (by simp)
  refine ⟨d', e, fun i => ?_⟩
  have := h.get i
  rw [fileName_eq base _ hb] at this
  simpa [setName, lastNumber] using this

/-- C16. Read in set order, the files hold the writes of all runs in the order they were made, numbered
consecutively from 1; no set is empty. -/
theorem layout_flatten (ss : List (Session α)) : ∀ n,
    (layoutOf n ss).flatten = number (n + 1) (ss.flatMap (·.payloads)) ∧ ∀ c ∈ layoutOf n ss, c ≠ [] := by
  have happ : ∀ (n : Nat) (p q : List α), number n (p ++ q) = number n p ++ number (n + p.length) q := by
    intro n p q
    induction p generalizing n with
    | nil => simp [number]
    | cons x xs ih => simp [number, ih]; congr 1; omega
  induction ss with
  | nil => intro n; simp [layoutOf, number]
  | cons s ss ih =>
    intro n
    rw [layoutOf, List.flatten_append, chunksOf_flatten _ _ _ rfl, (ih _).1, List.flatMap_cons, happ]
    refine ⟨by congr 2; omega, ?_⟩
    intro c hc
    rcases List.mem_append.1 hc with hc | hc
    · exact chunksOf_ne _ _ _ rfl c hc
    · exact (ih _).2 c hc

theorem chunksOf_get (m : Nat) (hm : 1 ≤ m) : ∀ (n : Nat) (l : List α), l.length = n → ∀ w, w < l.length →
    ∃ c, (chunksOf (some m) l)[w / m]? = some c ∧ c[w % m]? = l[w]? ∧ c.length ≤ m := by
  intro n
  induction n using Nat.strong_induction_on with
  | _ n ih =>
    intro l hl w hw
    cases l with
    | nil => simp at hw
    | cons x xs =>
      rw [chunksOf_some]
      have e : x :: xs.take (m - 1) = (x :: xs).take m := by
        obtain ⟨m', rfl⟩ : ∃ m', m = m' + 1 := ⟨m - 1, by omega⟩
        simp
      by_cases hlt : w < m
      · rw [Nat.div_eq_of_lt hlt, Nat.mod_eq_of_lt hlt]
        refine ⟨_, List.getElem?_cons_zero, ?_, ?_⟩
        · rw [e, List.getElem?_take_of_lt hlt]
        · rw [e, List.length_take]; omega
      · have e' : xs.drop (m - 1) = (x :: xs).drop m := by
          obtain ⟨m', rfl⟩ : ∃ m', m = m' + 1 := ⟨m - 1, by omega⟩
          simp
        obtain ⟨c, h1, h2, h3⟩ := ih (xs.drop (m - 1)).length (by simp at hl ⊢; omega) _ rfl (w - m)
          (by rw [e', List.length_drop]; omega)
        have hdiv : w / m = (w - m) / m + 1 := by
          conv_lhs => rw [show w = (w - m) + m by omega]
          rw [Nat.add_div_right _ (by omega)]
        have hmod : w % m = (w - m) % m := by
          conv_lhs => rw [show w = (w - m) + m by omega]
          rw [Nat.add_mod_right]
        refine ⟨c, ?_, ?_, h3⟩
        · rw [hdiv, List.getElem?_cons_succ]; exact h1
        · rw [hmod, h2, e', List.getElem?_drop]
          congr 1; omega

/-- C16. In one run with at most `m` writes per set, write number `w + 1` is entry `w % m` of set
`w / m + 1`, and no set has more than `m` writes. -/
theorem write_location_partial (fill : α) (base : Name) (hb : '.' ∉ stem base) (m : Nat) (hm : 1 ≤ m) (ps : List α) :
    ∃ d', runSessions fill base [] [⟨some m, ps⟩] = .ok d' ∧ ∀ w (hw : w < ps.length),
      ∃ f, d'.get (stem base ++ "_s".toList ++ Nat.toDigits 10 (w / m + 1) ++ ".h5".toList) = some f ∧
        f[w % m]? = some ⟨w + 1, ps[w]⟩ ∧ f.length ≤ m := by
  obtain ⟨d', e, h⟩ := restarts_partial fill base hb [] (by simp) [⟨some m, ps⟩] (by
    intro s hs k hk
    simp at hs
    subst hs
    simp at hk
    omega)
  refine ⟨d', e, fun w hw => ?_⟩
  obtain ⟨c, h1, h2, h3⟩ := chunksOf_get m hm _ (number (0 + 1) ps) rfl w (by rw [length_number]; exact hw)
  refine ⟨c, ?_, ?_, h3⟩
  · rw [h]; simpa [layoutOf] using h1
  · rw [h2]
    have : ∀ (n w : Nat) (ps : List α) (hw : w < ps.length), (number n ps)[w]? = some ⟨n + w, ps[w]⟩ := by
      intro n w ps
      induction ps generalizing n w with
      | nil => intro hw; simp at hw
      | cons q qs ih =>
        intro hw
        cases w with
        | zero => simp [number]
        | succ w => simp only [number, List.getElem?_cons_succ, List.getElem_cons_succ]
                    rw [ih (n + 1) w (by simpa using hw)]
                    congr 2; omega
    rw [this _ _ _ hw]
    congr 2; omega

theorem process_other (fill : α) (h h' : Handler) (d d' : Disk α) (p : α) (e : process fill h d p = .ok (h', d'))
    (n : Name) (hn : ∀ k, n ≠ fileName h.base k) : d'.get n = d.get n ∧ h'.base = h.base := by
  unfold process at e
  simp only at e
  generalize hs : (if overflow h.maxWrites (h.fileWrites + 1) = true then h.setNum + 1 else h.setNum) = k at e
  generalize hf : (if overflow h.maxWrites (h.fileWrites + 1) = true then 1 else h.fileWrites + 1) = fw at e
  have h1 : (d.ensure (fileName h.base k)).get n = d.get n := by
    unfold Disk.ensure
    cases hg : d.get (fileName h.base k) with
    | some f => rfl
    | none =>
      simp only
      rw [get_append, if_neg (fun hh => hn k hh.symm)]
      simp
  generalize d.ensure (fileName h.base k) = d1 at e h1
  cases hg : d1.get (fileName h.base k) with
  | none => rw [hg] at e; simp at e
  | some f =>
    rw [hg] at e
    simp only at e
    cases hr : resizeSet h.maxWrites ⟨0, fill⟩ ⟨h.total + 1, p⟩ f fw with
    | error x => rw [hr] at e; simp at e
    | ok f' =>
      rw [hr] at e
      simp only [Except.ok.injEq, Prod.mk.injEq] at e
      obtain ⟨rfl, rfl⟩ := e
      refine ⟨?_, rfl⟩
      rw [get_write, if_neg (hn k), h1]

theorem processAll_other (fill : α) (n : Name) : ∀ (ps : List α) (h h' : Handler) (d d' : Disk α),
    processAll fill h d ps = .ok (h', d') → (∀ k, n ≠ fileName h.base k) → d'.get n = d.get n := by
  intro ps
  induction ps with
  | nil => intro h h' d d' e _; simp [processAll] at e; rw [e.2]
  | cons p ps ih =>
    intro h h' d d' e hn
    rw [processAll] at e
    cases hp : process fill h d p with
    | error x => rw [hp] at e; simp at e
    | ok r =>
      obtain ⟨h1, d1⟩ := r
      rw [hp] at e
      simp only at e
      obtain ⟨e1, e2⟩ := process_other fill h h1 d d1 p hp n hn
      rw [ih h1 h' d1 d' e (by rw [e2]; exact hn), e1]

/-- C16. A run in append mode changes no file that existed before it: neither sets of earlier runs nor
any other file of the folder. -/
theorem append_keeps_files_partial (fill : α) (base : Name) (hb : '.' ∉ stem base) (d : Disk α)
    (hclean : ∀ n ∈ d.map (·.1), (stem base ++ "_s".toList).isPrefixOf n = false)
    (ss : List (Session α)) (s : Session α) (hm : ∀ s' ∈ ss ++ [s], ∀ m, s'.maxWrites = some m → 1 ≤ m) :
    ∃ d1 d2, runSessions fill base d ss = .ok d1 ∧ runSessions fill base d1 [s] = .ok d2 ∧
      ∀ n f, d1.get n = some f → d2.get n = some f := by
  have hinv : Inv base d [] := by
    constructor
    · intro i
      rw [(get_none_iff d _).2]
      · simp
      · intro hn
        have := hclean _ hn
        rw [isPrefix_fileName base hb] at this
        simp at this
    · intro n hn hp
      rw [hclean n hn] at hp; simp at hp
  obtain ⟨d1, e1, h1⟩ := run_inv fill base hb ss d [] (fun s' hs' => hm s' (by simp [hs'])) hinv (by simp)
  have hne : ∀ c ∈ [] ++ layoutOf (lastNumber ([] : List (File α))) ss, c ≠ [] := by
    intro c hc
    simp only [List.nil_append] at hc
    exact (layout_flatten ss _).2 c hc
  obtain ⟨d2, e2, h2⟩ := run_inv fill base hb [s] d1 _ (fun s' hs' => hm s' (by simp at hs'; simp [hs'])) h1 hne
  refine ⟨d1, d2, e1, e2, ?_⟩
  intro n f hf
  by_cases hn : ∃ i, n = fileName base (i + 1)
  · obtain ⟨i, rfl⟩ := hn
    rw [h1.get] at hf
    rw [h2.get, List.getElem?_append_left (by
      have := List.getElem?_eq_some_iff.1 hf
      exact this.1)]
    exact hf
  · by_cases h0 : n = fileName base 0
    · subst h0
      exfalso
      have hmem : fileName base 0 ∈ d1.map (·.1) := by
        by_contra hh
        rw [(get_none_iff d1 _).2 hh] at hf
        simp at hf
      obtain ⟨i, _, e⟩ := h1.only _ hmem (isPrefix_fileName base hb 0)
      have := fileName_inj base hb e
      omega
    · have hn' : ∀ k, n ≠ fileName base k := by
        intro k hk
        cases k with
        | zero => exact h0 hk
        | succ k => exact hn ⟨k, hk⟩
      rw [runSessions] at e2
      have ho := open_append base hb s.maxWrites d1 _ h1 hne
      rw [ho] at e2
      simp only at e2
      cases hp : processAll fill ⟨base, s.maxWrites, _, _, 0⟩ d1 s.payloads with
      | error x => rw [hp] at e2; simp at e2
      | ok r =>
        obtain ⟨h', d'⟩ := r
        rw [hp] at e2
        simp [runSessions] at e2
        rw [← e2, processAll_other fill n s.payloads _ h' d1 d' hp hn']
        exact hf

-- Three runs on "snap": 5 writes in sets of 2, none, then 2 writes without limit.
example : '.' ∉ stem "snap".toList := by decide
example : layoutOf 0 [⟨some 2, [10, 20, 30, 40, 50]⟩, ⟨some 7, []⟩, ⟨none, [60, 70]⟩] =
    [[⟨1, 10⟩, ⟨2, 20⟩], [⟨3, 30⟩, ⟨4, 40⟩], [⟨5, 50⟩], [⟨6, 60⟩, ⟨7, 70⟩]] := by
  simp [layoutOf, chunksOf, number]

/-- C16 refuted for handler names with two dots such as "Re1.5_Pr0.7": `with_suffix` cuts the set number off
the file name, so all sets are the same file and every new set overwrites the one before. -/
theorem dotted_name_refuted :
    fileName "Re1.5_Pr0.7".toList 1 = fileName "Re1.5_Pr0.7".toList 2 ∧
    runSessions 0 "Re1.5_Pr0.7".toList [] [⟨some 1, [10, 20]⟩] = .ok [("Re1.h5".toList, [⟨2, 20⟩])] := by
  constructor <;> rfl

/-- C16 refuted: such a handler restarted in append mode also starts again at write 1 and destroys the
previous run's output. -/
theorem dotted_restart_refuted :
    runSessions 0 "Re1.5_Pr0.7".toList [] [⟨none, [10, 20]⟩, ⟨none, [30]⟩] = .ok [("Re1.h5".toList, [⟨1, 30⟩])] := by
  rfl

/-- C16 refuted for a run that stopped between creating a set file and its first write: the next run
in append mode fails with IndexError. -/
theorem append_after_crash_refuted :
    open_ "snap".toList (some 2) .append [("snap_s1.h5".toList, ([] : File Nat))] = .error .indexError := by rfl

/-- C16 refuted when the folder holds another file whose name starts with "snap_s": append mode fails with
ValueError, and overwrite mode deletes the file although it is not output of the handler. -/
theorem foreign_file_refuted :
    open_ "snap".toList (some 2) .append [("snap_stats.txt".toList, ([] : File Nat))] = .error .valueError ∧
    (open_ "snap".toList (some 2) .overwrite [("snap_stats.txt".toList, ([⟨1, 5⟩] : File Nat))]).map (·.2) = .ok [] := by
  constructor <;> rfl

end Dedalus.Files
