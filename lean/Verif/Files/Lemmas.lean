import Verif.Files.Spec
import Mathlib.Data.List.Infix

namespace Dedalus.Files

variable {α : Type}

/-! ## Names -/

theorem splitName_nodot (n : Name) (h : '.' ∉ n) : splitName n = (n, []) := by
  have : n.reverse.takeWhile (· ≠ '.') = n.reverse := by
    have hr : '.' ∉ n.reverse := by simpa using h
    generalize n.reverse = l at hr
    induction l with
    | nil => rfl
    | cons x xs ih =>
      simp only [List.mem_cons, not_or] at hr
      rw [List.takeWhile_cons, if_pos (by simpa using fun hh : x = '.' => hr.1 hh.symm), ih hr.2]
  unfold splitName
  simp only [this, List.length_reverse, if_true]

theorem splitName_h5 (n : Name) (hn : n ≠ []) : splitName (n ++ ".h5".toList) = (n, ".h5".toList) := by
  have e : (n ++ ".h5".toList).reverse.takeWhile (· ≠ '.') = ['5', 'h'] := by
    have : ".h5".toList = ['.', 'h', '5'] := rfl
    rw [this]
    simp [List.takeWhile]
  have hpos : 0 < n.length := List.length_pos_iff.2 hn
  have hl : ".h5".toList.length = 3 := rfl
  unfold splitName
  rw [e]
  simp only [List.length_append, hl, List.length_cons, List.length_nil]
  rw [if_neg (by omega), if_pos (by omega)]
  have : n.length + 3 - (0 + 1 + 1) - 1 = n.length := by omega
  rw [this]
  simp

theorem digits_nodot (k : Nat) : '.' ∉ Nat.toDigits 10 k := by
  intro h
  have := Nat.isDigit_of_mem_toDigits (by decide) (by decide) h
  revert this; decide

theorem setName_nodot (base : Name) (k : Nat) (h : '.' ∉ stem base) : '.' ∉ setName base k := by
  unfold setName
  simp only [List.mem_append, not_or]
  exact ⟨⟨h, by decide⟩, digits_nodot k⟩

theorem setName_ne (base : Name) (k : Nat) : setName base k ≠ [] := by
  unfold setName
  simp

theorem fileName_eq (base : Name) (k : Nat) (h : '.' ∉ stem base) :
    fileName base k = setName base k ++ ".h5".toList := by
  unfold fileName withH5
  rw [splitName_nodot _ (setName_nodot base k h)]

theorem toDigits_inj {j k : Nat} (h : Nat.toDigits 10 j = Nat.toDigits 10 k) : j = k := by
  have := congrArg (fun l => Nat.ofDigitChars 10 l 0) h
  simpa using this

theorem fileName_inj (base : Name) (h : '.' ∉ stem base) {j k : Nat} (e : fileName base j = fileName base k) :
    j = k := by
  rw [fileName_eq base j h, fileName_eq base k h] at e
  have := List.append_cancel_right e
  unfold setName at this
  exact toDigits_inj (List.append_cancel_left this)

theorem isPrefix_fileName (base : Name) (h : '.' ∉ stem base) (k : Nat) :
    (stem base ++ "_s".toList).isPrefixOf (fileName base k) = true := by
  rw [fileName_eq base k h, List.isPrefixOf_iff_prefix]
  unfold setName
  exact ⟨Nat.toDigits 10 k ++ ".h5".toList, by simp⟩

theorem setNumber_fileName (base : Name) (h : '.' ∉ stem base) (k : Nat) :
    setNumber? base (fileName base k) = some k := by
  have e : stem (fileName base k) = setName base k := by
    rw [fileName_eq base k h]
    unfold stem
    rw [splitName_h5 _ (setName_ne base k)]
  unfold setNumber?
  rw [e]
  have hp : (stem base ++ "_s".toList).isPrefixOf (setName base k) = true := by
    rw [List.isPrefixOf_iff_prefix]
    exact ⟨Nat.toDigits 10 k, rfl⟩
  have hd : (setName base k).drop (stem base ++ "_s".toList).length = Nat.toDigits 10 k := by
    unfold setName; rw [List.drop_left]
  simp only [hp, hd, if_true]
  rw [if_pos]
  · simp
  · refine ⟨Nat.toDigits_ne_nil, ?_⟩
    rw [List.all_eq_true]
    intro c hc
    exact Nat.isDigit_of_mem_toDigits (by decide) (by decide) hc

/-! ## Disk -/

theorem get_write (d : Disk α) (n n' : Name) (f : File α) :
    (d.write n f).get n' = if n' = n then (d.get n).map (fun _ => f) else d.get n' := by
  unfold Disk.write Disk.get
  induction d with
  | nil => simp
  | cons e es ih =>
    obtain ⟨m, g⟩ := e
    simp only [List.map_cons, List.find?_cons]
    by_cases hm : m = n
    · subst hm
      by_cases hn : n' = m
      · subst hn; simp
      · have : (m == n') = false := by simpa using fun hh : m = n' => hn hh.symm
        simp only [beq_self_eq_true, if_true, this, hn, if_false] at ih ⊢
        exact ih
    · have hmn : (m == n) = false := by simpa using hm
      by_cases hn' : m = n'
      · subst hn'
        simp [hm, hmn]
      · have hmn' : (m == n') = false := by simpa using hn'
        simp only [hmn, hmn', Bool.false_eq_true, if_false] at ih ⊢
        exact ih

theorem get_append (d : Disk α) (n n' : Name) (f : File α) :
    (d ++ [(n, f)]).get n' = (d.get n').or (if n = n' then some f else none) := by
  unfold Disk.get
  rw [List.find?_append]
  cases hd : d.find? (fun e => e.1 == n') with
  | some e => simp
  | none =>
    by_cases h : n = n'
    · subst h; simp
    · have : (n == n') = false := by simpa using h
      simp [this, h]

theorem names_write (d : Disk α) (n : Name) (f : File α) : (d.write n f).map (·.1) = d.map (·.1) := by
  unfold Disk.write
  rw [List.map_map]
  apply List.map_congr_left
  intro e _
  simp only [Function.comp]
  split <;> rfl

theorem get_none_iff (d : Disk α) (n : Name) : d.get n = none ↔ n ∉ d.map (·.1) := by
  unfold Disk.get
  simp only [Option.map_eq_none_iff, List.find?_eq_none, List.mem_map, not_exists, not_and, beq_iff_eq]

/-- The disk holds exactly the set files `chunks`. -/
structure Inv (base : Name) (d : Disk α) (chunks : List (File α)) : Prop where
  get : ∀ i, d.get (fileName base (i + 1)) = chunks[i]?
  only : ∀ n ∈ d.map (·.1), (stem base ++ "_s".toList).isPrefixOf n = true →
    ∃ i, i < chunks.length ∧ n = fileName base (i + 1)

theorem inv_update (base : Name) (hb : '.' ∉ stem base) (d : Disk α) (cs : List (File α)) (c c' : File α)
    (h : Inv base d (cs ++ [c])) : Inv base (d.write (fileName base (cs.length + 1)) c') (cs ++ [c']) := by
  constructor
  · intro i
    rw [get_write]
    by_cases hi : i = cs.length
    · subst hi
      rw [if_pos rfl, h.get]
      simp
    · rw [if_neg (fun e => hi (by have := fileName_inj base hb e; omega)), h.get]
      rcases Nat.lt_or_gt_of_ne hi with hlt | hgt
      · rw [List.getElem?_append_left hlt, List.getElem?_append_left hlt]
      · rw [List.getElem?_eq_none (by simp; omega), List.getElem?_eq_none (by simp; omega)]
  · intro n hn hp
    rw [names_write] at hn
    obtain ⟨i, hi, e⟩ := h.only n hn hp
    exact ⟨i, by simpa using hi, e⟩

theorem inv_create (base : Name) (hb : '.' ∉ stem base) (d : Disk α) (cs : List (File α))
    (h : Inv base d cs) : Inv base (d ++ [(fileName base (cs.length + 1), [])]) (cs ++ [[]]) := by
  constructor
  · intro i
    rw [get_append, h.get]
    by_cases hi : i = cs.length
    · subst hi; simp
    · rw [if_neg (fun e => hi (by have := fileName_inj base hb e; omega))]
      rcases Nat.lt_or_gt_of_ne hi with hlt | hgt
      · rw [List.getElem?_append_left hlt]; simp
      · rw [List.getElem?_eq_none (by omega), List.getElem?_eq_none (by simp; omega)]; rfl
  · intro n hn hp
    simp only [List.map_append, List.map_cons, List.map_nil, List.mem_append, List.mem_singleton] at hn
    rcases hn with hn | hn
    · obtain ⟨i, hi, e⟩ := h.only n hn hp
      exact ⟨i, by simp; omega, e⟩
    · exact ⟨cs.length, by simp, hn⟩

/-! ## Cutting -/

theorem chunksOf_nil (m : Option Nat) : chunksOf m ([] : List α) = [] := by rw [chunksOf]

theorem chunksOf_none (x : α) (xs : List α) : chunksOf none (x :: xs) = [x :: xs] := by rw [chunksOf]

theorem chunksOf_some (m : Nat) (x : α) (xs : List α) :
    chunksOf (some m) (x :: xs) = (x :: xs.take (m - 1)) :: chunksOf (some m) (xs.drop (m - 1)) := by rw [chunksOf]

/-- A limit permits a file of `k` writes. -/
def Fits (m : Option Nat) (k : Nat) : Prop := ∀ n, m = some n → k ≤ n

theorem chunksOf_single (m : Option Nat) (x : α) : chunksOf m [x] = [[x]] := by
  cases m with
  | none => rw [chunksOf_none]
  | some m => rw [chunksOf_some]; simp [chunksOf_nil]

theorem chunksOf_snoc (m : Option Nat) (hm : Fits m 1) (x : α) : ∀ (n : Nat) (l : List α), l.length = n → l ≠ [] →
    ∃ ini last, chunksOf m l = ini ++ [last] ∧ last ≠ [] ∧ Fits m last.length ∧
      ((Fits m (last.length + 1) ∧ chunksOf m (l ++ [x]) = ini ++ [last ++ [x]]) ∨
       (¬ Fits m (last.length + 1) ∧ chunksOf m (l ++ [x]) = ini ++ [last] ++ [[x]])) := by
  cases m with
  | none =>
    intro n l _ hne
    obtain ⟨y, ys, rfl⟩ := List.exists_cons_of_ne_nil hne
    refine ⟨[], y :: ys, by rw [chunksOf_none]; rfl, by simp, (fun n hn => by cases hn), Or.inl ⟨(fun n hn => by cases hn), ?_⟩⟩
    rw [List.cons_append, chunksOf_none]; rfl
  | some m =>
    have hm : 1 ≤ m := hm m rfl
    intro n
    induction n using Nat.strong_induction_on with
    | _ n ih =>
      intro l hl hne
      obtain ⟨y, ys, rfl⟩ := List.exists_cons_of_ne_nil hne
      simp only [List.length_cons] at hl
      by_cases hle : ys.length ≤ m - 1
      · refine ⟨[], y :: ys, ?_, by simp, ?_, ?_⟩
        · rw [chunksOf_some, List.take_of_length_le hle, List.drop_eq_nil_of_le hle, chunksOf_nil]; rfl
        · intro k hk; cases hk; simp; omega
        · by_cases hlt : ys.length < m - 1
          · left
            refine ⟨by intro k hk; cases hk; simp; omega, ?_⟩
            rw [List.cons_append, chunksOf_some, List.take_of_length_le (by simp; omega),
              List.drop_eq_nil_of_le (by simp; omega), chunksOf_nil]; rfl
          · right
            have he : ys.length = m - 1 := by omega
            refine ⟨fun hf => by have := hf m rfl; simp at this; omega, ?_⟩
            rw [List.cons_append, chunksOf_some, ← he, List.take_left, List.drop_left, chunksOf_single]
            simp
      · have hdr : ys.drop (m - 1) ≠ [] := by
          intro hh; rw [List.drop_eq_nil_iff] at hh; omega
        obtain ⟨ini, last, h1, h2, h3, h4⟩ := ih (ys.drop (m - 1)).length (by simp; omega) _ rfl hdr
        refine ⟨(y :: ys.take (m - 1)) :: ini, last, by rw [chunksOf_some, h1]; rfl, h2, h3, ?_⟩
        have e : chunksOf (some m) (y :: ys ++ [x]) =
            (y :: ys.take (m - 1)) :: chunksOf (some m) (ys.drop (m - 1) ++ [x]) := by
          rw [List.cons_append, chunksOf_some, List.take_append_of_le_length (by omega),
            List.drop_append_of_le_length (by omega)]
        rcases h4 with ⟨a, b⟩ | ⟨a, b⟩
        · left; exact ⟨a, by rw [e, b]; rfl⟩
        · right; exact ⟨a, by rw [e, b]; rfl⟩

theorem number_snoc (n : Nat) (ps : List α) (p : α) :
    number n (ps ++ [p]) = number n ps ++ [⟨n + ps.length, p⟩] := by
  induction ps generalizing n with
  | nil => simp [number]
  | cons q qs ih => simp [number, ih]; omega

theorem length_number (n : Nat) (ps : List α) : (number n ps).length = ps.length := by
  induction ps generalizing n with
  | nil => rfl
  | cons q qs ih => simp [number, ih]

theorem chunksOf_flatten (m : Option Nat) : ∀ (n : Nat) (l : List α), l.length = n → (chunksOf m l).flatten = l := by
  intro n
  induction n using Nat.strong_induction_on with
  | _ n ih =>
    intro l hl
    cases l with
    | nil => rw [chunksOf_nil]; rfl
    | cons x xs =>
      cases m with
      | none => rw [chunksOf_none]; simp
      | some m =>
        rw [chunksOf_some, List.flatten_cons, ih (xs.drop (m - 1)).length (by simp at hl ⊢; omega) _ rfl]
        simp

theorem chunksOf_ne (m : Option Nat) : ∀ (n : Nat) (l : List α), l.length = n → ∀ c ∈ chunksOf m l, c ≠ [] := by
  intro n
  induction n using Nat.strong_induction_on with
  | _ n ih =>
    intro l hl
    cases l with
    | nil => rw [chunksOf_nil]; simp
    | cons x xs =>
      cases m with
      | none => rw [chunksOf_none]; simp
      | some m =>
        rw [chunksOf_some]
        intro c hc
        rcases List.mem_cons.1 hc with rfl | hc
        · simp
        · exact ih (xs.drop (m - 1)).length (by simp at hl ⊢; omega) _ rfl c hc

/-! ## One write -/

theorem resizeSet_snoc (m : Option Nat) (fill r : Rec α) (f : File α) (h : Fits m (f.length + 1)) :
    resizeSet m fill r f (f.length + 1) = .ok (f ++ [r]) := by
  have e : (f.take (f.length + 1) ++ List.replicate (f.length + 1 - f.length) fill).set (f.length + 1 - 1) r = f ++ [r] := by
    rw [List.take_of_length_le (by omega), Nat.add_sub_cancel_left, Nat.add_sub_cancel]
    simp
  cases m with
  | none => simp only [resizeSet]; rw [e]
  | some m =>
    have := h m rfl
    simp only [resizeSet]
    rw [if_neg (by omega), e]

/-- The handler after writing `written` in its run. -/
structure HInv (b : Name) (m : Option Nat) (old : List (File α)) (n0 : Nat) (written : List α) (h : Handler)
    (d : Disk α) : Prop where
  base : h.base = b
  max : h.maxWrites = m
  total : h.total = n0 + written.length
  inv : Inv b d (old ++ chunksOf m (number (n0 + 1) written))
  fresh : written = [] → h.setNum = old.length + 1 ∧ h.fileWrites = 0
  cur : ∀ ini last, chunksOf m (number (n0 + 1) written) = ini ++ [last] →
    h.setNum = old.length + ini.length + 1 ∧ h.fileWrites = last.length

theorem next_eq (m : Option Nat) (k : Nat) :
    overflow m k = true ↔ ¬ Fits m k := by
  unfold Fits overflow
  cases m <;> simp

theorem process_new (fill : α) (base : Name) (hb : '.' ∉ stem base) (m : Option Nat) (hm : Fits m 1) (h : Handler) (d : Disk α)
    (cs : List (File α)) (p : α) (hbase : h.base = base) (hmax : h.maxWrites = m) (hinv : Inv base d cs)
    (hset : (¬ Fits m (h.fileWrites + 1) ∧ h.setNum = cs.length) ∨ (Fits m (h.fileWrites + 1) ∧ h.fileWrites = 0 ∧ h.setNum = cs.length + 1)) :
    ∃ d', process fill h d p = .ok ({ h with setNum := cs.length + 1, total := h.total + 1, fileWrites := 1 }, d') ∧
      Inv base d' (cs ++ [[⟨h.total + 1, p⟩]]) := by
  have hs : (if overflow h.maxWrites (h.fileWrites + 1) = true then h.setNum + 1 else h.setNum) = cs.length + 1 := by
    rw [hmax]
    rcases hset with ⟨a, b⟩ | ⟨a, _, b⟩
    · rw [if_pos ((next_eq _ _).2 a), b]
    · rw [if_neg (fun hh => (next_eq _ _).1 hh a), b]
  have hf : (if overflow h.maxWrites (h.fileWrites + 1) = true then 1 else h.fileWrites + 1) = 1 := by
    rw [hmax]
    rcases hset with ⟨a, b⟩ | ⟨a, b, _⟩
    · rw [if_pos ((next_eq _ _).2 a)]
    · rw [if_neg (fun hh => (next_eq _ _).1 hh a), b]
  have hnone : d.get (fileName base (cs.length + 1)) = none := by
    rw [hinv.get]; simp
  have hinv' := inv_create base hb d cs hinv
  have hget : (d ++ [(fileName base (cs.length + 1), ([] : File α))]).get (fileName base (cs.length + 1)) = some [] := by
    rw [hinv'.get]; simp
  have hres := resizeSet_snoc m ⟨0, fill⟩ ⟨h.total + 1, p⟩ ([] : File α) (by simpa using hm)
  simp only [List.length_nil, Nat.zero_add, List.nil_append] at hres
  refine ⟨(d ++ [(fileName base (cs.length + 1), ([] : File α))]).write (fileName base (cs.length + 1)) [⟨h.total + 1, p⟩], ?_,
    inv_update base hb _ cs [] _ hinv'⟩
  unfold process
  simp only [hs, hf, hbase, Disk.ensure, hnone, hget]
  rw [hmax, hres]

theorem process_more (fill : α) (base : Name) (hb : '.' ∉ stem base) (m : Option Nat) (h : Handler) (d : Disk α)
    (cs : List (File α)) (c : File α) (p : α) (hbase : h.base = base) (hmax : h.maxWrites = m) (hinv : Inv base d (cs ++ [c]))
    (hset : h.setNum = cs.length + 1) (hfw : h.fileWrites = c.length) (hfit : Fits m (c.length + 1)) :
    ∃ d', process fill h d p = .ok ({ h with total := h.total + 1, fileWrites := c.length + 1 }, d') ∧
      Inv base d' (cs ++ [c ++ [⟨h.total + 1, p⟩]]) := by
  have hn : overflow h.maxWrites (h.fileWrites + 1) = false := by
    rw [hmax, hfw]
    by_contra hh
    exact (next_eq m (c.length + 1)).1 (by simpa using hh) hfit
  rw [hmax, hfw] at hn
  have hget : d.get (fileName base (cs.length + 1)) = some c := by rw [hinv.get]; simp
  have hres := resizeSet_snoc m ⟨0, fill⟩ ⟨h.total + 1, p⟩ c hfit
  refine ⟨d.write (fileName base (cs.length + 1)) (c ++ [⟨h.total + 1, p⟩]), ?_, inv_update base hb d cs c _ hinv⟩
  unfold process
  simp only [hn, Bool.false_eq_true, if_false, hbase, hset, Disk.ensure, hget, hfw, hmax, hres]

theorem process_step (fill : α) (base : Name) (hb : '.' ∉ stem base) (m : Option Nat) (hm : Fits m 1) (old : List (File α))
    (n0 : Nat) (written : List α) (h : Handler) (d : Disk α) (p : α) (H : HInv base m old n0 written h d) :
    ∃ h' d', process fill h d p = .ok (h', d') ∧ HInv base m old n0 (written ++ [p]) h' d' := by
  have hnum := number_snoc (n0 + 1) written p
  by_cases hw : written = []
  · subst hw
    obtain ⟨hs, hf⟩ := H.fresh rfl
    have hinv := H.inv
    simp only [number, chunksOf_nil, List.append_nil] at hinv
    obtain ⟨d', e, hI⟩ := process_new fill base hb m hm h d old p H.base H.max hinv
      (Or.inr ⟨by rw [hf]; exact hm, hf, hs⟩)
    have ht : h.total = n0 := by have := H.total; simpa using this
    have hch : chunksOf m (number (n0 + 1) ([] ++ [p])) = [[⟨n0 + 1, p⟩]] := by
      simp [number, chunksOf_single]
    refine ⟨_, d', e, ⟨H.base, H.max, by simp [ht], ?_, by simp, ?_⟩⟩
    · rw [hch, ← ht]; exact hI
    · intro ini last he
      rw [hch] at he
      have he' : [] ++ [[(⟨n0 + 1, p⟩ : Rec α)]] = ini ++ [last] := he
      have := List.append_inj_left' he' rfl
      subst this
      simp at he
      subst he
      simp
  · have hne : number (n0 + 1) written ≠ [] := by
      intro hh; have := congrArg List.length hh
      rw [length_number] at this; simp at this; exact hw this
    obtain ⟨ini, last, h1, h2, h3, h4⟩ := chunksOf_snoc m hm ⟨n0 + 1 + written.length, p⟩ _ _ rfl hne
    obtain ⟨hs, hf⟩ := H.cur ini last h1
    have hrec : (⟨h.total + 1, p⟩ : Rec α) = ⟨n0 + 1 + written.length, p⟩ := by
      rw [H.total]; congr 1; omega
    rcases h4 with ⟨hfit, hch⟩ | ⟨hfit, hch⟩
    · have hinv := H.inv
      rw [h1, ← List.append_assoc] at hinv
      obtain ⟨d', e, hI⟩ := process_more fill base hb m h d (old ++ ini) last p H.base H.max hinv
        (by simp; omega) hf hfit
      refine ⟨_, d', e, ⟨H.base, H.max, by simp [H.total]; omega, ?_, by simp, ?_⟩⟩
      · rw [hnum, hch, ← List.append_assoc, ← hrec]; exact hI
      · intro ini' last' he
        rw [hnum, hch] at he
        have e1 := List.append_inj_left' he rfl
        subst e1
        simp at he
        subst he
        simp [hs]
    · have hinv := H.inv
      rw [h1] at hinv
      obtain ⟨d', e, hI⟩ := process_new fill base hb m hm h d (old ++ (ini ++ [last])) p H.base H.max hinv
        (Or.inl ⟨by rw [hf]; exact hfit, by simp; omega⟩)
      refine ⟨_, d', e, ⟨H.base, H.max, by simp [H.total]; omega, ?_, by simp, ?_⟩⟩
      · rw [hnum, hch, ← List.append_assoc, ← hrec]; exact hI
      · intro ini' last' he
        rw [hnum, hch] at he
        have e1 := List.append_inj_left' he rfl
        subst e1
        simp at he
        subst he
        simp

theorem processAll_inv (fill : α) (base : Name) (hb : '.' ∉ stem base) (m : Option Nat) (hm : Fits m 1) (old : List (File α))
    (n0 : Nat) : ∀ (ps written : List α) (h : Handler) (d : Disk α), HInv base m old n0 written h d →
    ∃ h' d', processAll fill h d ps = .ok (h', d') ∧ HInv base m old n0 (written ++ ps) h' d' := by
  intro ps
  induction ps with
  | nil => intro written h d H; exact ⟨h, d, rfl, by simpa using H⟩
  | cons p ps ih =>
    intro written h d H
    obtain ⟨h1, d1, e1, H1⟩ := process_step fill base hb m hm old n0 written h d p H
    obtain ⟨h2, d2, e2, H2⟩ := ih _ h1 d1 H1
    refine ⟨h2, d2, ?_, by simpa using H2⟩
    rw [processAll, e1]
    exact e2

/-! ## Opening -/

theorem foldl_max_eq (M : Nat) : ∀ (ks : List Nat) (k : Nat), (∀ x ∈ k :: ks, x ≤ M) → M ∈ k :: ks → ks.foldl max k = M := by
  intro ks
  induction ks with
  | nil => intro k h hm; simp at hm ⊢; exact hm.symm
  | cons x xs ih =>
    intro k h hm
    rw [List.foldl_cons]
    apply ih
    · intro y hy
      rcases List.mem_cons.1 hy with rfl | hy
      · have := h k (by simp); have := h x (by simp); omega
      · exact h y (by simp [hy])
    · rcases List.mem_cons.1 hm with rfl | hm
      · have := h x (by simp); rw [Nat.max_eq_left this]; simp
      · rcases List.mem_cons.1 hm with rfl | hm
        · have := h k (by simp); rw [Nat.max_eq_right this]; simp
        · simp [hm]

/-- Write number of the last write on disk, 0 if none. -/
def lastNumber (chunks : List (File α)) : Nat := match chunks.flatten.getLast? with
  | some r => r.number
  | none => 0

theorem open_append (base : Name) (hb : '.' ∉ stem base) (m : Option Nat) (d : Disk α) (cs : List (File α))
    (hinv : Inv base d cs) (hne : ∀ c ∈ cs, c ≠ []) :
    open_ base m .append d = .ok (⟨base, m, cs.length + 1, lastNumber cs, 0⟩, d) := by
  unfold open_
  simp only
  rcases List.eq_nil_or_concat cs with rfl | ⟨ini, last, rfl⟩
  · have : globSets base d = [] := by
      unfold globSets
      rw [List.filter_eq_nil_iff]
      intro n hn hp
      obtain ⟨i, hi, _⟩ := hinv.only n hn hp
      simp at hi
    rw [if_pos this]
    simp [lastNumber]
  · have hmem : fileName base (ini.length + 1) ∈ globSets base d := by
      unfold globSets
      rw [List.mem_filter]
      refine ⟨?_, isPrefix_fileName base hb _⟩
      by_contra hh
      have := (get_none_iff d _).2 hh
      rw [hinv.get] at this
      simp at this
    have hg : globSets base d ≠ [] := List.ne_nil_of_mem hmem
    rw [if_neg hg]
    have hnum : ini.length + 1 ∈ (globSets base d).filterMap (setNumber? base) :=
      List.mem_filterMap.2 ⟨_, hmem, setNumber_fileName base hb _⟩
    have hall : ∀ x ∈ (globSets base d).filterMap (setNumber? base), x ≤ ini.length + 1 := by
      intro x hx
      obtain ⟨n, hn, e⟩ := List.mem_filterMap.1 hx
      unfold globSets at hn
      rw [List.mem_filter] at hn
      obtain ⟨i, hi, rfl⟩ := hinv.only n hn.1 hn.2
      rw [setNumber_fileName base hb] at e
      simp at e hi
      omega
    cases hL : (globSets base d).filterMap (setNumber? base) with
    | nil => rw [hL] at hnum; simp at hnum
    | cons k ks =>
      rw [hL] at hnum hall
      simp only
      rw [foldl_max_eq (ini.length + 1) ks k hall hnum, ← fileName_eq base _ hb, hinv.get]
      have hlast : last ≠ [] := hne last (by simp)
      obtain ⟨x, xs, hx⟩ := List.exists_cons_of_ne_nil hlast
      have hgl : last.getLast? = some (last.getLast hlast) := List.getLast?_eq_some_getLast hlast
      simp only [List.concat_eq_append, List.getElem?_append_right (Nat.le_refl ini.length), Nat.sub_self,
        List.getElem?_cons_zero, hgl]
      have : lastNumber (ini ++ [last]) = (last.getLast hlast).number := by
        unfold lastNumber
        rw [List.flatten_append, List.getLast?_append]
        simp [hgl]
      simp [this]

theorem lastNumber_snoc (n : Nat) (cs : List (File α)) (ps : List α) (m : Option Nat) (hn : lastNumber cs = n) :
    lastNumber (cs ++ chunksOf m (number (n + 1) ps)) = n + ps.length := by
  unfold lastNumber at *
  rw [List.flatten_append, chunksOf_flatten m _ _ rfl]
  rcases List.eq_nil_or_concat ps with rfl | ⟨ini, p, rfl⟩
  · simpa [number] using hn
  · rw [List.concat_eq_append, number_snoc, ← List.append_assoc, List.getLast?_append]
    simp; omega

end Dedalus.Files
