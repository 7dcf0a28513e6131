import Verif.Spec.Language

/-! # Proofs about language tables -/

namespace Xcore.Language

/-! ## The scanner -/

/-- Drop the last piece if it is empty. -/
def trimLast (ps : List Str) : List Str := if ps.getLast? = some [] then ps.dropLast else ps

theorem trimLast_cons {p : Str} {ps : List Str} (h : ps ≠ []) : trimLast (p :: ps) = p :: trimLast ps := by
  cases ps with
  | nil => exact absurd rfl h
  | cons q qs =>
    unfold trimLast
    rw [List.getLast?_cons_cons]
    split <;> simp

/-- A line that the scanner can hold. -/
def short (p : Str) : Bool := decide (p.length < 65536)

theorem split_append_head {sep : UInt8} {a : Str} (ha : sep ∉ a) (s : Str) :
    ∃ p ps, split sep s = p :: ps ∧ split sep (a ++ s) = (a ++ p) :: ps := by
  cases hs : split sep s with
  | nil => exact absurd hs (split_ne_nil _ _)
  | cons p ps =>
    refine ⟨p, ps, rfl, ?_⟩
    induction a with
    | nil => exact hs
    | cons c a ih =>
      simp only [List.mem_cons, not_or] at ha
      exact split_cons_ne (fun e => ha.1 e.symm) (ih ha.2)

theorem scan_eq (cur s : Str) (hc : (10 : UInt8) ∉ cur) (hl : cur.length < 65536) :
    scan cur s = (((trimLast (split 10 (cur ++ s))).takeWhile short).map dropCR, (trimLast (split 10 (cur ++ s))).any (fun p => !short p)) := by
  induction s generalizing cur with
  | nil =>
    rw [List.append_nil, split_of_not_mem hc]
    simp only [scan, trimLast, List.getLast?_singleton, Option.some.injEq]
    split
    · simp
    · have : short cur = true := by simp [short, hl]
      simp [this]
  | cons c cs ih =>
    simp only [scan]
    split
    · rename_i h
      subst h
      rw [split_append_sep hc, trimLast_cons (split_ne_nil _ _), ih [] (by simp) (by simp)]
      have : short cur = true := by simp [short, hl]
      simp [this]
    · rename_i h
      have hc' : (10 : UInt8) ∉ cur ++ [c] := by
        simp only [List.mem_append, List.mem_singleton, not_or]; exact ⟨hc, fun e => h e.symm⟩
      have e : cur ++ c :: cs = (cur ++ [c]) ++ cs := by simp
      split
      · rename_i hm
        obtain ⟨p, ps, _, h2⟩ := split_append_head hc' cs
        rw [e, h2]
        have hsh : short (cur ++ [c] ++ p) = false := by
          simp only [short, decide_eq_false_iff_not, List.length_append, List.length_singleton]
          simp only [maxToken] at hm; omega
        have hne : trimLast ((cur ++ [c] ++ p) :: ps) = (cur ++ [c] ++ p) :: trimLast ps := by
          cases ps with
          | nil => simp [trimLast]
          | cons q qs => exact trimLast_cons (by simp)
        rw [hne, List.takeWhile_cons, hsh, List.any_cons, hsh]
        simp
      · rename_i hm
        rw [e]
        refine ih _ hc' ?_
        simp only [maxToken] at hm
        simp only [List.length_append, List.length_singleton]; omega

theorem scan_lines (s : Str) :
    scan [] s = (((lines s).takeWhile short).map dropCR, (lines s).any (fun p => !short p)) :=
  scan_eq [] s (by simp) (by simp)

/-! ## Long lines -/

theorem infix_of_mem_split {sep : UInt8} {s p : Str} (h : p ∈ split sep s) : ∃ a b, s = a ++ p ++ b := by
  induction s generalizing p with
  | nil => simp only [split, List.mem_singleton] at h; subst h; exact ⟨[], [], rfl⟩
  | cons c cs ih =>
    cases hs : split sep cs with
    | nil => exact absurd hs (split_ne_nil _ _)
    | cons q qs =>
      rw [hs] at ih
      by_cases hc : c = sep
      · subst hc; rw [split_cons_sep, hs] at h
        rcases List.mem_cons.1 h with rfl | h
        · exact ⟨[], c :: cs, rfl⟩
        · obtain ⟨a, b, e⟩ := ih h
          exact ⟨c :: a, b, by rw [e]; rfl⟩
      · rw [split_cons_ne hc hs] at h
        rcases List.mem_cons.1 h with rfl | h
        · have e := join_split sep cs
          rw [hs] at e
          refine ⟨[], ?_⟩
          cases qs with
          | nil => exact ⟨[], by simp only [join] at e; rw [e]; simp⟩
          | cons r rs =>
            refine ⟨[sep] ++ join [sep] (r :: rs), ?_⟩
            rw [← e]; simp [join]
        · obtain ⟨a, b, e⟩ := ih (List.mem_cons_of_mem q h)
          exact ⟨c :: a, b, by rw [e]; rfl⟩

theorem mem_split_of_infix {sep : UInt8} {run : Str} (hr : sep ∉ run) (a b : Str) :
    ∃ p ∈ split sep (a ++ run ++ b), run.length ≤ p.length := by
  induction a with
  | nil =>
    obtain ⟨p, ps, _, h⟩ := split_append_head hr b
    exact ⟨run ++ p, by rw [List.nil_append, h]; simp, by simp⟩
  | cons c a ih =>
    obtain ⟨p, hp, hl⟩ := ih
    simp only [List.cons_append]
    cases hs : split sep (a ++ run ++ b) with
    | nil => exact absurd hs (split_ne_nil _ _)
    | cons q qs =>
      rw [hs] at hp
      by_cases hc : c = sep
      · subst hc; rw [split_cons_sep, hs]; exact ⟨p, by simp [List.mem_cons.1 hp], hl⟩
      · rw [split_cons_ne hc hs]
        rcases List.mem_cons.1 hp with rfl | hp
        · exact ⟨c :: p, by simp, by simp; omega⟩
        · exact ⟨p, by simp [hp], hl⟩

theorem mem_trimLast {p : Str} {ps : List Str} (h : p ∈ ps) (hne : p ≠ []) : p ∈ trimLast ps := by
  unfold trimLast
  split
  · rename_i hl
    obtain ⟨l, rfl⟩ := List.getLast?_eq_some_iff.1 hl
    rw [List.dropLast_concat]
    rcases List.mem_append.1 h with h | h
    · exact h
    · simp only [List.mem_singleton] at h; exact absurd h hne
  · exact h

theorem mem_of_trimLast {p : Str} {ps : List Str} (h : p ∈ trimLast ps) : p ∈ ps := by
  unfold trimLast at h
  split at h
  · exact List.dropLast_subset _ h
  · exact h

theorem long_iff (s : Str) : (lines s).any (fun p => !short p) = true ↔ LongRun s := by
  rw [List.any_eq_true]
  constructor
  · rintro ⟨p, hp, hs⟩
    simp only [short, Bool.not_eq_true', decide_eq_false_iff_not, Nat.not_lt] at hs
    have hp' := mem_of_trimLast (ps := split 10 s) hp
    obtain ⟨a, b, e⟩ := infix_of_mem_split hp'
    refine ⟨a, p.take 65536, p.drop 65536 ++ b, ?_, ?_, ?_⟩
    · rw [e]; simp [List.append_assoc]
      rw [← List.append_assoc (p.take 65536), List.take_append_drop]
    · rw [List.length_take]; omega
    · intro hm; exact mem_split_not_sep hp' (List.mem_of_mem_take hm)
  · rintro ⟨a, run, b, rfl, hl, hn⟩
    obtain ⟨p, hp, hpl⟩ := mem_split_of_infix hn a b
    have hne : p ≠ [] := by intro e; subst e; simp only [List.length_nil] at hpl; omega
    refine ⟨p, mem_trimLast hp hne, ?_⟩
    simp only [short, Bool.not_eq_true', decide_eq_false_iff_not, Nat.not_lt]; omega

/-! ## One line -/

theorem Assigns.functional {line k v k' v' : Str} (h : Assigns line k v) (h' : Assigns line k' v') : k = k' ∧ v = v' := by
  obtain ⟨a, b, h1, h2, _, _, h3, _, h4⟩ := h
  obtain ⟨a', b', g1, g2, _, _, g3, _, g4⟩ := h'
  have e : a = a' ∧ b = b' := by
    rw [h1] at g1
    simp only [List.append_assoc, List.singleton_append] at g1
    have i1 := (indexByte_eq_some (c := 61) (i := a.length)).2 ⟨a, b, rfl, h2, rfl⟩
    have i2 := (indexByte_eq_some (c := 61) (i := a'.length)).2 ⟨a', b', rfl, g2, rfl⟩
    rw [g1, i2, Option.some.injEq] at i1
    have := List.append_inj g1 i1.symm
    simpa using this
  obtain ⟨rfl, rfl⟩ := e
  exact ⟨by rw [← trimmed_unique h3, ← trimmed_unique g3], by rw [← trimmed_unique h4, ← trimmed_unique g4]⟩

theorem head_prefix {c : UInt8} {l : Str} : l.head? = some c ↔ [c] <+: l := by
  cases l with
  | nil => simp
  | cons d l => simp [List.cons_prefix_cons, eq_comm]

theorem loadLine_assigns {line k v : Str} (h : Assigns line k v) (l : Lang) : loadLine l line = set l k v := by
  obtain ⟨a, b, h1, h2, h3, h4, h5, h6, h7⟩ := h
  have hi : indexByte 61 line = some a.length := indexByte_eq_some.2 ⟨a, b, by rw [h1]; simp, h2, rfl⟩
  have hc : ¬ (line.length = 0 ∨ line.head? = some 35 ∨ line.head? = some 59) := by
    rw [head_prefix, head_prefix]
    rintro (h | h | h)
    · rw [h1] at h; simp at h
    · exact h3 h
    · exact h4 h
  have ht : line.take a.length = a := by rw [h1]; simp
  have hd : line.drop (a.length + 1) = b := by rw [h1]; simp
  have hlt : a.length < line.length := by rw [h1]; simp
  unfold loadLine
  simp only [hi, if_neg hc, ht, hd, if_pos hlt, trimmed_unique h5, trimmed_unique h7]
  rw [if_neg (by simpa using h6)]
  rfl

theorem loadLine_ignored {line : Str} (h : ∀ k v, ¬ Assigns line k v) (l : Lang) : loadLine l line = l := by
  unfold loadLine
  split
  · rfl
  · rename_i i hi
    obtain ⟨a, b, h1, h2, h3⟩ := indexByte_eq_some.1 hi
    split
    · rfl
    · rename_i hc
      rw [head_prefix, head_prefix] at hc
      dsimp only
      split
      · rfl
      · rename_i hk
        exfalso
        refine h (trimSpace (line.take i)) (trimSpace (line.drop (i + 1))) ⟨a, b, by rw [h1]; simp, h2, ?_, ?_, ?_, ?_, ?_⟩
        · exact fun e => hc (Or.inr (Or.inl e))
        · exact fun e => hc (Or.inr (Or.inr e))
        · rw [← h3, h1]; simpa using trimSpace_trimmed a
        · intro e; exact hk (by rw [e]; rfl)
        · rw [← h3, h1]; simpa using trimSpace_trimmed b

open Classical in
theorem loadLine_cases (line : Str) : (∃ k v, Assigns line k v) ∨ (∀ k v, ¬ Assigns line k v) := by
  by_cases h : ∃ k v, Assigns line k v
  · exact Or.inl h
  · exact Or.inr (fun k v hh => h ⟨k, v, hh⟩)

theorem loadLine_rest (l : Lang) (line : Str) :
    (loadLine l line).status = l.status ∧ (loadLine l line).name = l.name ∧ (loadLine l line).tag = l.tag := by
  rcases loadLine_cases line with ⟨k, v, h⟩ | h
  · rw [loadLine_assigns h]; exact ⟨rfl, rfl, rfl⟩
  · rw [loadLine_ignored h]; exact ⟨rfl, rfl, rfl⟩

theorem loadLine_get (l : Lang) (line k : Str) :
    (∀ v, Assigns line k v → (loadLine l line).entries.get k = some v) ∧
    ((∀ v, ¬ Assigns line k v) → (loadLine l line).entries.get k = l.entries.get k) := by
  rcases loadLine_cases line with ⟨k', v', h⟩ | h
  · rw [loadLine_assigns h]
    constructor
    · intro v hv
      obtain ⟨rfl, rfl⟩ := h.functional hv
      simp [set, AMap.get_set]
    · intro hn
      have : k ≠ k' := by rintro rfl; exact hn v' h
      simp [set, AMap.get_set, this]
  · rw [loadLine_ignored h]
    exact ⟨fun v hv => absurd hv (h k v), fun _ => rfl⟩

/-! ## Many lines -/

theorem foldl_rest (ls : List Str) (l : Lang) :
    (ls.foldl loadLine l).status = l.status ∧ (ls.foldl loadLine l).name = l.name ∧ (ls.foldl loadLine l).tag = l.tag := by
  induction ls generalizing l with
  | nil => exact ⟨rfl, rfl, rfl⟩
  | cons x xs ih =>
    obtain ⟨h1, h2, h3⟩ := ih (loadLine l x)
    obtain ⟨g1, g2, g3⟩ := loadLine_rest l x
    exact ⟨h1.trans g1, h2.trans g2, h3.trans g3⟩

theorem foldl_unassigned {ls : List Str} {k : Str} (h : Unassigned ls k) (l : Lang) :
    (ls.foldl loadLine l).entries.get k = l.entries.get k := by
  induction ls generalizing l with
  | nil => rfl
  | cons x xs ih =>
    rw [List.foldl_cons, ih (fun y hy v => h y (by simp [hy]) v)]
    exact (loadLine_get l x k).2 (fun v => h x (by simp) v)

theorem foldl_last {ls : List Str} {k v : Str} (h : LastAssigns ls k v) (l : Lang) :
    (ls.foldl loadLine l).entries.get k = some v := by
  obtain ⟨pre, line, post, rfl, h1, h2⟩ := h
  rw [List.foldl_append, List.foldl_append, foldl_unassigned h2]
  exact (loadLine_get _ line k).1 v h1

open Classical in
theorem assigned_cases (ls : List Str) (k : Str) : (∃ v, LastAssigns ls k v) ∨ Unassigned ls k := by
  induction ls with
  | nil => right; intro l hl; simp at hl
  | cons x xs ih =>
    rcases ih with ⟨v, pre, line, post, rfl, h1, h2⟩ | h
    · exact Or.inl ⟨v, x :: pre, line, post, by simp, h1, h2⟩
    · by_cases hx : ∃ v, Assigns x k v
      · obtain ⟨v, hv⟩ := hx
        exact Or.inl ⟨v, [], x, xs, by simp, hv, h⟩
      · right
        intro l hl v hv
        rcases List.mem_cons.1 hl with rfl | hl
        · exact hx ⟨v, hv⟩
        · exact h l hl v hv

theorem foldl_nodup (ls : List Str) {l : Lang} (h : l.entries.Nodup) : (ls.foldl loadLine l).entries.Nodup := by
  induction ls generalizing l with
  | nil => exact h
  | cons x xs ih =>
    apply ih
    rcases loadLine_cases x with ⟨k, v, hx⟩ | hx
    · rw [loadLine_assigns hx]; exact AMap.nodup_set h _ _
    · rw [loadLine_ignored hx]; exact h

/-- A carriage return at the end of a line does not matter: the value is trimmed. -/
theorem assigns_cr {line k v : Str} : Assigns (line ++ [13]) k v ↔ Assigns line k v := by
  have hcr : Blank [13] := by simpa using Star.cons (ps := spaceRunes) (p := [13]) (s := []) (by decide) .nil
  have hsp : ∀ {a t : Str}, Trimmed a t → Trimmed (a ++ [13]) t := by
    rintro a t ⟨x, y, h1, h2, h3, h4⟩
    exact ⟨x, y ++ [13], by rw [h1]; simp, h2, h3.append hcr, h4⟩
  have hpre : ∀ {c : UInt8} {k0 v0 : Str}, [c] <+: k0 ++ b!"=" ++ v0 ++ [13] ↔ [c] <+: k0 ++ b!"=" ++ v0 := by
    intro c k0 v0
    cases k0 <;> simp [List.cons_prefix_cons]
  constructor
  · rintro ⟨k0, v0, h1, h2, h3, h4, h5, h6, h7⟩
    have hv : v0 ≠ [] := by
      rintro rfl
      have := congrArg List.getLast? h1
      simp at this
    obtain ⟨v1, c, rfl⟩ := List.eq_nil_or_concat v0 |>.resolve_left hv
    have h1' : line ++ [13] = (k0 ++ b!"=" ++ v1) ++ [c] := by rw [h1]; simp
    obtain ⟨rfl, h8⟩ := List.append_inj' h1' rfl
    cases h8
    rw [hpre] at h3 h4
    refine ⟨k0, v1, rfl, h2, h3, h4, h5, h6, ?_⟩
    have e1 := trimmed_unique (hsp (trimSpace_trimmed v1))
    rw [← trimmed_unique h7]
    simp only [List.concat_eq_append] at *
    rw [e1]
    exact trimSpace_trimmed v1
  · rintro ⟨k0, v0, rfl, h2, h3, h4, h5, h6, h7⟩
    exact ⟨k0, v0 ++ [13], by simp, h2, by rw [hpre]; exact h3, by rw [hpre]; exact h4, h5, h6, hsp h7⟩

theorem loadLine_dropCR (l : Lang) (line : Str) : loadLine l (dropCR line) = loadLine l line := by
  unfold dropCR
  split
  · rename_i h
    obtain ⟨a, rfl⟩ := List.getLast?_eq_some_iff.1 h
    rw [List.dropLast_concat]
    rcases loadLine_cases a with ⟨k, v, ha⟩ | ha
    · rw [loadLine_assigns ha, loadLine_assigns (assigns_cr.2 ha)]
    · rw [loadLine_ignored ha, loadLine_ignored fun k v hk => ha k v (assigns_cr.1 hk)]
  · rfl

theorem foldl_dropCR (ls : List Str) (l : Lang) : (ls.map dropCR).foldl loadLine l = ls.foldl loadLine l := by
  induction ls generalizing l with
  | nil => rfl
  | cons x xs ih => simp only [List.map_cons, List.foldl_cons, loadLine_dropCR, ih]

theorem loadString_lines (l : Lang) (s : Str) : (loadString l s).1 = (loadable s).foldl loadLine l := by
  unfold loadString
  rw [scan_lines]
  exact foldl_dropCR _ l

/-- Loading a text without over-long line is loading all its lines. -/
theorem loadString_ok {s : Str} (h : ¬ LongRun s) (l : Lang) :
    loadString l s = ((lines s).foldl loadLine l, false) := by
  rw [← foldl_dropCR]
  have ha : (lines s).any (fun p => !short p) = false := by
    rw [← Bool.not_eq_true, long_iff]; exact h
  unfold loadString
  rw [scan_lines]
  dsimp only
  rw [ha]
  have : (lines s).takeWhile short = lines s := by
    rw [List.any_eq_false] at ha
    have h2 : ∀ p ∈ lines s, short p = true := fun p hp => by simpa using ha p hp
    clear ha h
    generalize lines s = ls at h2
    induction ls with
    | nil => rfl
    | cons x xs ih =>
      rw [List.takeWhile_cons, if_pos (h2 x (by simp)), ih (fun p hp => h2 p (by simp [hp]))]
  rw [this]

/-! ## XML documents -/

/-- The loop of LoadXMLString. -/
def addEntry (l : Lang) (e : XEntry) : Lang := { l with entries := l.entries.set e.id e.entry, status := l.status.set e.id e.status }

theorem addEntries_other {es : List XEntry} {k : Str} (h : ∀ e ∈ es, e.id ≠ k) (l : Lang) :
    (es.foldl addEntry l).entries.get k = l.entries.get k ∧ (es.foldl addEntry l).status.get k = l.status.get k := by
  induction es generalizing l with
  | nil => exact ⟨rfl, rfl⟩
  | cons e es ih =>
    obtain ⟨h1, h2⟩ := ih (fun e' he' => h e' (by simp [he'])) (addEntry l e)
    have : k ≠ e.id := fun hh => h e (by simp) hh.symm
    rw [List.foldl_cons, h1, h2]
    simp [addEntry, AMap.get_set, this]

theorem addEntries_last {es : List XEntry} {k v st : Str} {pre post : List XEntry} (h : es = pre ++ [⟨k, v, st⟩] ++ post)
    (hp : ∀ e ∈ post, e.id ≠ k) (l : Lang) :
    (es.foldl addEntry l).entries.get k = some v ∧ (es.foldl addEntry l).status.get k = some st := by
  subst h
  rw [List.foldl_append, List.foldl_append]
  obtain ⟨h1, h2⟩ := addEntries_other hp ((List.foldl addEntry (List.foldl addEntry l pre) [⟨k, v, st⟩]))
  rw [h1, h2]
  simp [addEntry, AMap.get_set]

theorem addEntries_names (es : List XEntry) (l : Lang) :
    (es.foldl addEntry l).name = l.name ∧ (es.foldl addEntry l).tag = l.tag := by
  induction es generalizing l with
  | nil => exact ⟨rfl, rfl⟩
  | cons e es ih => exact ih (addEntry l e)

theorem entry_cases (d : XLang) (k : Str) : (∃ v st, LastEntry d k v st) ∨ (∀ e ∈ d.entries, e.id ≠ k) := by
  unfold LastEntry
  induction d.entries with
  | nil => right; simp
  | cons e es ih =>
    rcases ih with ⟨v, st, pre, post, rfl, h⟩ | h
    · exact Or.inl ⟨v, st, e :: pre, post, by simp, h⟩
    · by_cases he : e.id = k
      · exact Or.inl ⟨e.entry, e.status, [], es, by subst he; rfl, h⟩
      · right
        intro e' he'
        rcases List.mem_cons.1 he' with rfl | he'
        · exact he
        · exact h e' he'

theorem loadXML_eq {um : Str → Option XLang} {pt : Str → Str} {l : Lang} {s : Str} {d : XLang} (h : um s = some d) :
    loadXML um pt l s = (d.entries.foldl addEntry { l with name := d.name, tag := pt d.language }, false) := by
  unfold loadXML; rw [h]; rfl

theorem addEntries_nodup (es : List XEntry) {l : Lang} (h : l.entries.Nodup ∧ l.status.Nodup) :
    (es.foldl addEntry l).entries.Nodup ∧ (es.foldl addEntry l).status.Nodup := by
  induction es generalizing l with
  | nil => exact h
  | cons e es ih => exact ih ⟨AMap.nodup_set h.1 _ _, AMap.nodup_set h.2 _ _⟩

theorem step_nodup (um : Str → Option XLang) (pt : Str → Str) {l : Lang} (h : l.entries.Nodup ∧ l.status.Nodup) (op : Op) :
    (step um pt l op).entries.Nodup ∧ (step um pt l op).status.Nodup := by
  cases op with
  | set e v => exact ⟨AMap.nodup_set h.1 _ _, h.2⟩
  | setStatus e v => exact ⟨h.1, AMap.nodup_set h.2 _ _⟩
  | del e => exact ⟨AMap.nodup_del h.1 _, AMap.nodup_del h.2 _⟩
  | load s => exact ⟨foldl_nodup _ h.1, by show (List.foldl loadLine l _).status.Nodup; rw [(foldl_rest _ l).1]; exact h.2⟩
  | loadXML s =>
    simp only [step]
    cases hu : um s with
    | none => simp only [loadXML, hu]; exact h
    | some d => rw [loadXML_eq hu]; exact addEntries_nodup _ h
  | setName n => exact h
  | setLanguage t => exact h

theorem run_nodup (um : Str → Option XLang) (pt : Str → Str) {l : Lang} (h : l.entries.Nodup ∧ l.status.Nodup) (ops : List Op) :
    (run um pt l ops).entries.Nodup ∧ (run um pt l ops).status.Nodup := by
  induction ops generalizing l with
  | nil => exact h
  | cons op ops ih => exact ih (step_nodup um pt h op)

end Xcore.Language
