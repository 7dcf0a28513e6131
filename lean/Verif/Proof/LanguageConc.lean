import Verif.Spec.LanguageConc
import Verif.Proof.TSMethods
import Verif.Proof.LanguageRun

/-! # What interleaved sections leave in an entry of a language table -/

namespace Xcore.Language

open Lock

/-! ## The last effect of a list of effects -/

/-- The last effect. -/
def lastEff {β : Type} (effs : List (Option β)) : Option β := effs.foldl (fun acc e => e.or acc) none

theorem foldl_or {β : Type} (effs : List (Option β)) (a : Option β) : effs.foldl (fun acc e => e.or acc) a = (lastEff effs).or a := by
  induction effs generalizing a with
  | nil => simp [lastEff]
  | cons e es ih =>
    unfold lastEff
    rw [List.foldl_cons, ih, List.foldl_cons, ih]
    cases lastEff es <;> cases e <;> rfl

theorem lastEff_cons {β : Type} (e : Option β) (es : List (Option β)) : lastEff (e :: es) = (lastEff es).or e := by
  unfold lastEff
  rw [List.foldl_cons, foldl_or]
  cases e <;> rfl

theorem lastEff_append {β : Type} (a b : List (Option β)) : lastEff (a ++ b) = (lastEff b).or (lastEff a) := by
  unfold lastEff
  rw [List.foldl_append, foldl_or]
  rfl

theorem lastEff_eq_none {β : Type} {es : List (Option β)} : lastEff es = none ↔ ∀ e ∈ es, e = none := by
  induction es with
  | nil => simp [lastEff]
  | cons e es ih =>
    rw [lastEff_cons, List.forall_mem_cons, ← ih]
    cases lastEff es <;> cases e <;> simp

/-- The last effect is one of the effects, and nothing after it has one. -/
theorem lastEff_eq_some {α β : Type} (f : α → Option β) {l : List α} {b : β} (h : lastEff (l.map f) = some b) :
    ∃ pre a post, l = pre ++ [a] ++ post ∧ f a = some b ∧ lastEff (post.map f) = none := by
  induction l with
  | nil => cases h
  | cons a l ih =>
    rw [List.map_cons, lastEff_cons] at h
    cases e : lastEff (l.map f) with
    | none => rw [e] at h; exact ⟨[], a, l, rfl, h, e⟩
    | some b' =>
      rw [e] at h
      cases h
      obtain ⟨pre, a', post, h1, h2, h3⟩ := ih e
      exact ⟨a :: pre, a', post, by rw [h1]; rfl, h2, h3⟩

/-- In an interleaving the last effect is the last effect of one of the parts. -/
theorem lastEff_interleaved {α β : Type} (f : α → Option β) (hist : List (Nat × α)) {b : β} (h : lastEff (hist.map fun p => f p.2) = some b) :
    ∃ i, lastEff (((hist.filter fun p => p.1 = i).map Prod.snd).map f) = some b := by
  obtain ⟨pre, ⟨i, a⟩, post, rfl, h2, h3⟩ := lastEff_eq_some (fun p : Nat × α => f p.2) h
  refine ⟨i, ?_⟩
  simp only [List.filter_append, List.map_append, lastEff_append]
  have h4 : lastEff (((post.filter fun p => p.1 = i).map Prod.snd).map f) = none := by
    rw [lastEff_eq_none] at h3 ⊢
    intro e he
    obtain ⟨x, hx, rfl⟩ := List.mem_map.1 he
    obtain ⟨p, hp, rfl⟩ := List.mem_map.1 hx
    exact h3 _ (List.mem_map.2 ⟨p, (List.mem_filter.1 hp).1, rfl⟩)
  rw [h4]
  simp only [decide_true, List.filter_cons, List.filter_nil, if_true, List.map_cons, List.map_nil, lastEff_cons, h2]
  rfl

/-! ## Effects of sections on one entry -/

/-- What a section does to the value of entry `k`. -/
def entryEff (k : Str) : TSOp → Option (Option Str)
  | .set e v => if k = e then some (some v) else none
  | .assign e v => if k = e then some (some v) else none
  | .del e => if k = e then some none else none
  | .entries es => lastEff (es.map fun e => if k = e.id then some (some e.entry) else none)
  | _ => none

/-- What a section does to the status of entry `k`. -/
def statusEff (k : Str) : TSOp → Option (Option Str)
  | .setStatus e v => if k = e then some (some v) else none
  | .del e => if k = e then some none else none
  | .entries es => lastEff (es.map fun e => if k = e.id then some (some e.status) else none)
  | _ => none

theorem entries_eff (k : Str) (es : List XEntry) (l : Lang) :
    (es.foldl (fun l e => setStatus (set l e.id e.entry) e.id e.status) l).entries.get k =
      (lastEff (es.map fun e => if k = e.id then some (some e.entry) else none)).getD (l.entries.get k) ∧
    (es.foldl (fun l e => setStatus (set l e.id e.entry) e.id e.status) l).status.get k =
      (lastEff (es.map fun e => if k = e.id then some (some e.status) else none)).getD (l.status.get k) := by
  induction es generalizing l with
  | nil => exact ⟨rfl, rfl⟩
  | cons e es ih =>
    obtain ⟨h1, h2⟩ := ih (setStatus (set l e.id e.entry) e.id e.status)
    simp only [List.foldl_cons, h1, h2, List.map_cons, lastEff_cons]
    constructor
    · cases lastEff (es.map fun e => if k = e.id then some (some e.entry) else none) with
      | some x => rfl
      | none =>
        simp only [Option.getD_none, setStatus, set, AMap.get_set, Option.none_or]
        split <;> rfl
    · cases lastEff (es.map fun e => if k = e.id then some (some e.status) else none) with
      | some x => rfl
      | none =>
        simp only [Option.getD_none, setStatus, set, AMap.get_set, Option.none_or]
        split <;> rfl

theorem tsSeq_entry (k : Str) (op : TSOp) (l : Lang) : (tsSeq op l).1.entries.get k = (entryEff k op).getD (l.entries.get k) := by
  cases op <;> simp only [tsSeq, entryEff, set, setStatus, del, AMap.get_set, AMap.get_del] <;> try rfl
  case entries es => exact (entries_eff k es l).1
  all_goals split <;> rfl

theorem tsSeq_status (k : Str) (op : TSOp) (l : Lang) : (tsSeq op l).1.status.get k = (statusEff k op).getD (l.status.get k) := by
  cases op <;> simp only [tsSeq, statusEff, set, setStatus, del, AMap.get_set, AMap.get_del] <;> try rfl
  case entries es => exact (entries_eff k es l).2
  all_goals split <;> rfl

/-- A column of the table (values or statuses) with the effects of the sections on it. -/
structure Column where
  cells : Lang → AMap Str
  eff : Str → TSOp → Option (Option Str)
  gives : (Str → Option XLang) → Call → Str → Str → Prop
  seq : ∀ k op l, (cells (tsSeq op l).1).get k = (eff k op).getD ((cells l).get k)
  step_col : ∀ um pt op k l, (cells (step um pt l op)).get k = (lastEff ((sections um (.change op)).map (eff k))).getD ((cells l).get k)
  reads : ∀ um call k, (∀ op, call ≠ .change op) → lastEff ((sections um call).map (eff k)) = none
  origin : ∀ um call k op x, op ∈ sections um call → eff k op = some x →
    (x = none ∧ call = .change (.del k)) ∨ ∃ v, x = some v ∧ gives um call k v
  concerns : ∀ um call k, (call = .change (.del k) ∨ ∃ v, gives um call k v) ↔ lastEff ((sections um call).map (eff k)) ≠ none

theorem lineSection_load (l : Lang) (line : Str) : loadLine l line = match lineSection line with
    | some op => (tsSeq op l).1
    | none => l := by
  unfold loadLine lineSection
  cases indexByte 61 line with
  | none => rfl
  | some p =>
    dsimp only
    split
    · rfl
    · split <;> rfl

theorem lineSection_assigns {line k v : Str} (h : Assigns line k v) : lineSection line = some (.assign k v) := by
  obtain ⟨a, b, h1, h2, h3, h4, h5, h6, h7⟩ := h
  have hi : indexByte 61 line = some a.length := indexByte_eq_some.2 ⟨a, b, by rw [h1]; simp, h2, rfl⟩
  have hc : ¬ (line.length = 0 ∨ line.head? = some 35 ∨ line.head? = some 59) := by
    rw [head_prefix, head_prefix]
    rintro (h | h | h)
    · rw [h1] at h; simp at h
    · exact h3 h
    · exact h4 h
  have ht : line.take a.length = a := by rw [h1]; simp
  have hd : line.drop (a.length + 1) = b := by rw [h1]; simp
  have hlt : a.length < line.length := by rw [h1]; simp
  unfold lineSection
  simp only [hi, if_neg hc, ht, hd, if_pos hlt, trimmed_unique h5, trimmed_unique h7]
  rw [if_neg (by simpa using h6)]

theorem lineSection_ignored {line : Str} (h : ∀ k v, ¬ Assigns line k v) : lineSection line = none := by
  unfold lineSection
  split
  · rfl
  · rename_i i hi
    obtain ⟨a, b, h1, h2, h3⟩ := indexByte_eq_some.1 hi
    split
    · rfl
    · rename_i hc
      rw [head_prefix, head_prefix] at hc
      dsimp only
      split
      · rfl
      · rename_i hk
        exfalso
        refine h (trimSpace (line.take i)) (trimSpace (line.drop (i + 1))) ⟨a, b, by rw [h1]; simp, h2, ?_, ?_, ?_, ?_, ?_⟩
        · exact fun e => hc (Or.inr (Or.inl e))
        · exact fun e => hc (Or.inr (Or.inr e))
        · rw [← h3, h1]; simpa using trimSpace_trimmed a
        · intro e; exact hk (by rw [e]; rfl)
        · rw [← h3, h1]; simpa using trimSpace_trimmed b

theorem lineSection_iff {line : Str} {op : TSOp} : lineSection line = some op ↔ ∃ k v, Assigns line k v ∧ op = .assign k v := by
  rcases loadLine_cases line with ⟨k, v, h⟩ | h
  · rw [lineSection_assigns h]
    constructor
    · intro e; cases e; exact ⟨k, v, h, rfl⟩
    · rintro ⟨k', v', h', rfl⟩
      obtain ⟨rfl, rfl⟩ := h.functional h'
      rfl
  · rw [lineSection_ignored h]
    constructor
    · intro e; cases e
    · rintro ⟨k', v', h', rfl⟩; exact absurd h' (h k' v')

theorem assigns_dropCR {line k v : Str} : Assigns (dropCR line) k v ↔ Assigns line k v := by
  unfold dropCR
  split
  · rename_i h
    obtain ⟨a, rfl⟩ := List.getLast?_eq_some_iff.1 h
    rw [List.dropLast_concat, assigns_cr]
  · rfl

theorem mem_load_sections {um : Str → Option XLang} {data : Str} {op : TSOp} :
    op ∈ sections um (.change (.load data)) ↔ ∃ line ∈ loadable data, ∃ k v, Assigns line k v ∧ op = .assign k v := by
  simp only [sections, scan_lines, List.mem_filterMap, List.mem_map]
  constructor
  · rintro ⟨x, ⟨line, hl, rfl⟩, hx⟩
    obtain ⟨k, v, h1, h2⟩ := lineSection_iff.1 hx
    exact ⟨line, hl, k, v, assigns_dropCR.1 h1, h2⟩
  · rintro ⟨line, hl, k, v, h1, h2⟩
    exact ⟨dropCR line, ⟨line, hl, rfl⟩, lineSection_iff.2 ⟨k, v, assigns_dropCR.2 h1, h2⟩⟩

theorem runCalls_eff (cells : Lang → AMap Str) (eff : Str → TSOp → Option (Option Str))
    (h : ∀ k op l, (cells (tsSeq op l).1).get k = (eff k op).getD ((cells l).get k)) (k : Str) (ops : List TSOp) (l : Lang) :
    (cells (runCalls tsSeq l ops).1).get k = (lastEff (ops.map (eff k))).getD ((cells l).get k) := by
  induction ops generalizing l with
  | nil => rfl
  | cons op ops ih =>
    simp only [runCalls, ih, List.map_cons, lastEff_cons, h]
    cases lastEff (ops.map (eff k)) <;> rfl

theorem load_runCalls (l : Lang) (data : Str) (um : Str → Option XLang) :
    (loadString l data).1 = (runCalls tsSeq l (sections um (.change (.load data)))).1 := by
  simp only [loadString, sections]
  generalize (scan [] data).1 = ls
  induction ls generalizing l with
  | nil => rfl
  | cons x xs ih =>
    rw [List.foldl_cons, ih, lineSection_load, List.filterMap_cons]
    cases lineSection x <;> rfl

theorem loadXML_runCalls (l : Lang) (data : Str) (um : Str → Option XLang) (pt : Str → Str) :
    (loadXML um pt l data).1.entries = (runCalls tsSeq l (sections um (.change (.loadXML data)))).1.entries ∧
    (loadXML um pt l data).1.status = (runCalls tsSeq l (sections um (.change (.loadXML data)))).1.status := by
  simp only [loadXML, sections]
  cases um data with
  | none => exact ⟨rfl, rfl⟩
  | some d =>
    dsimp only [runCalls, tsSeq]
    have gen : ∀ (es : List XEntry) (l l' : Lang), l.entries = l'.entries → l.status = l'.status →
        (es.foldl (fun l e => { l with entries := l.entries.set e.id e.entry, status := l.status.set e.id e.status }) l).entries =
          (es.foldl (fun l e => setStatus (set l e.id e.entry) e.id e.status) l').entries ∧
        (es.foldl (fun l e => { l with entries := l.entries.set e.id e.entry, status := l.status.set e.id e.status }) l).status =
          (es.foldl (fun l e => setStatus (set l e.id e.entry) e.id e.status) l').status := by
      intro es
      induction es with
      | nil => intro l l' h1 h2; exact ⟨h1, h2⟩
      | cons e es ih =>
        intro l l' h1 h2
        exact ih _ _ (by simp [setStatus, set, h1]) (by simp [setStatus, set, h2])
    exact gen _ _ _ rfl rfl

theorem step_runCalls (l : Lang) (um : Str → Option XLang) (pt : Str → Str) (op : Op) :
    (step um pt l op).entries = (runCalls tsSeq l (sections um (.change op))).1.entries ∧
    (step um pt l op).status = (runCalls tsSeq l (sections um (.change op))).1.status := by
  cases op with
  | load data => simp only [step]; rw [load_runCalls l data um]; exact ⟨rfl, rfl⟩
  | loadXML data => exact loadXML_runCalls l data um pt
  | _ => exact ⟨rfl, rfl⟩

theorem lastEff_ne_none {β : Type} {es : List (Option β)} : lastEff es ≠ none ↔ ∃ e ∈ es, e ≠ none := by
  rw [Ne, lastEff_eq_none]
  simp

theorem entry_origin (um : Str → Option XLang) (call : Call) (k : Str) (op : TSOp) (x : Option Str) (ho : op ∈ sections um call)
    (hx : entryEff k op = some x) : (x = none ∧ call = .change (.del k)) ∨ ∃ v, x = some v ∧ Gives um call k v := by
  cases call with
  | change o =>
    cases o with
    | load data =>
      obtain ⟨line, hl, k', v, ha, rfl⟩ := mem_load_sections.1 ho
      simp only [entryEff] at hx
      split at hx
      · cases hx; subst k'; exact Or.inr ⟨v, rfl, Or.inr (Or.inl ⟨data, line, rfl, hl, ha⟩)⟩
      · cases hx
    | loadXML data =>
      simp only [sections] at ho
      cases hu : um data with
      | none => rw [hu] at ho; cases ho
      | some d =>
        rw [hu] at ho
        simp only [List.mem_singleton] at ho
        subst ho
        simp only [entryEff] at hx
        obtain ⟨pre, e, post, h1, h2, _⟩ := lastEff_eq_some _ hx
        split at h2
        · rename_i hk
          cases h2
          exact Or.inr ⟨e.entry, rfl, Or.inr (Or.inr ⟨data, d, e, rfl, hu, by rw [h1]; simp, hk.symm, rfl⟩)⟩
        · cases h2
    | set e v =>
      simp only [sections, List.mem_singleton] at ho
      subst ho
      simp only [entryEff] at hx
      split at hx
      · cases hx; subst e; exact Or.inr ⟨v, rfl, Or.inl rfl⟩
      · cases hx
    | del e =>
      simp only [sections, List.mem_singleton] at ho
      subst ho
      simp only [entryEff] at hx
      split at hx
      · cases hx; subst e; exact Or.inl ⟨rfl, rfl⟩
      · cases hx
    | setStatus e v => simp only [sections, List.mem_singleton] at ho; subst ho; cases hx
    | setName n => cases ho
    | setLanguage n => cases ho
  | get e => simp only [sections, List.mem_singleton] at ho; subst ho; cases hx
  | getStatus e => simp only [sections, List.mem_singleton] at ho; subst ho; cases hx
  | getEntries => simp only [sections, List.mem_singleton] at ho; subst ho; cases hx
  | getXML => simp only [sections, List.mem_singleton] at ho; subst ho; cases hx
  | toString => simp only [sections, List.mem_singleton] at ho; subst ho; cases hx
  | getName => cases ho
  | getLanguage => cases ho
theorem status_origin (um : Str → Option XLang) (call : Call) (k : Str) (op : TSOp) (x : Option Str) (ho : op ∈ sections um call)
    (hx : statusEff k op = some x) : (x = none ∧ call = .change (.del k)) ∨ ∃ v, x = some v ∧ GivesStatus um call k v := by
  cases call with
  | change o =>
    cases o with
    | load data =>
      obtain ⟨line, hl, k', v, ha, rfl⟩ := mem_load_sections.1 ho
      cases hx
    | loadXML data =>
      simp only [sections] at ho
      cases hu : um data with
      | none => rw [hu] at ho; cases ho
      | some d =>
        rw [hu] at ho
        simp only [List.mem_singleton] at ho
        subst ho
        simp only [statusEff] at hx
        obtain ⟨pre, e, post, h1, h2, _⟩ := lastEff_eq_some _ hx
        split at h2
        · rename_i hk
          cases h2
          exact Or.inr ⟨e.status, rfl, Or.inr (⟨data, d, e, rfl, hu, by rw [h1]; simp, hk.symm, rfl⟩)⟩
        · cases h2
    | del e =>
      simp only [sections, List.mem_singleton] at ho
      subst ho
      simp only [statusEff] at hx
      split at hx
      · cases hx; subst e; exact Or.inl ⟨rfl, rfl⟩
      · cases hx
    | setStatus e v =>
      simp only [sections, List.mem_singleton] at ho
      subst ho
      simp only [statusEff] at hx
      split at hx
      · cases hx; subst e; exact Or.inr ⟨v, rfl, Or.inl rfl⟩
      · cases hx
    | set e v => simp only [sections, List.mem_singleton] at ho; subst ho; cases hx
    | setName n => cases ho
    | setLanguage n => cases ho
  | get e => simp only [sections, List.mem_singleton] at ho; subst ho; cases hx
  | getStatus e => simp only [sections, List.mem_singleton] at ho; subst ho; cases hx
  | getEntries => simp only [sections, List.mem_singleton] at ho; subst ho; cases hx
  | getXML => simp only [sections, List.mem_singleton] at ho; subst ho; cases hx
  | toString => simp only [sections, List.mem_singleton] at ho; subst ho; cases hx
  | getName => cases ho
  | getLanguage => cases ho
/-- The values. -/
def values : Column where
  cells := Lang.entries
  eff := entryEff
  gives := Gives
  seq k op l := tsSeq_entry k op l
  step_col um pt op k l := by rw [(step_runCalls l um pt op).1]; exact runCalls_eff _ _ tsSeq_entry _ _ _
  reads um call k h := by
    cases call with
    | change op => exact absurd rfl (h op)
    | _ => rfl
  origin := entry_origin
  concerns um call k := by
    rw [lastEff_ne_none]
    constructor
    · rintro (rfl | ⟨v, rfl | ⟨data, line, rfl, hl, ha⟩ | ⟨data, d, e, rfl, hu, he, rfl, rfl⟩⟩)
      · exact ⟨_, List.mem_map.2 ⟨.del k, by simp [sections], rfl⟩, by simp [entryEff]⟩
      · exact ⟨_, List.mem_map.2 ⟨.set k v, by simp [sections], rfl⟩, by simp [entryEff]⟩
      · exact ⟨_, List.mem_map.2 ⟨.assign k v, mem_load_sections.2 ⟨line, hl, k, v, ha, rfl⟩, rfl⟩, by simp [entryEff]⟩
      · refine ⟨_, List.mem_map.2 ⟨.entries d.entries, by simp [sections, hu], rfl⟩, ?_⟩
        simp only [entryEff]
        rw [lastEff_ne_none]
        exact ⟨_, List.mem_map.2 ⟨e, he, rfl⟩, by simp⟩
    · rintro ⟨e, he, hn⟩
      obtain ⟨op, ho, rfl⟩ := List.mem_map.1 he
      cases hx : entryEff k op with
      | none => exact absurd hx hn
      | some x =>
        rcases entry_origin um call k op x ho hx with ⟨_, h⟩ | ⟨v, _, h⟩
        · exact Or.inl h
        · exact Or.inr ⟨v, h⟩

/-- The statuses. -/
def statuses : Column where
  cells := Lang.status
  eff := statusEff
  gives := GivesStatus
  seq k op l := tsSeq_status k op l
  step_col um pt op k l := by rw [(step_runCalls l um pt op).2]; exact runCalls_eff _ _ tsSeq_status _ _ _
  reads um call k h := by
    cases call with
    | change op => exact absurd rfl (h op)
    | _ => rfl
  origin := status_origin
  concerns um call k := by
    rw [lastEff_ne_none]
    constructor
    · rintro (rfl | ⟨v, rfl | ⟨data, d, e, rfl, hu, he, rfl, rfl⟩⟩)
      · exact ⟨_, List.mem_map.2 ⟨.del k, by simp [sections], rfl⟩, by simp [statusEff]⟩
      · exact ⟨_, List.mem_map.2 ⟨.setStatus k v, by simp [sections], rfl⟩, by simp [statusEff]⟩
      · refine ⟨_, List.mem_map.2 ⟨.entries d.entries, by simp [sections, hu], rfl⟩, ?_⟩
        simp only [statusEff]
        rw [lastEff_ne_none]
        exact ⟨_, List.mem_map.2 ⟨e, he, rfl⟩, by simp⟩
    · rintro ⟨e, he, hn⟩
      obtain ⟨op, ho, rfl⟩ := List.mem_map.1 he
      cases hx : statusEff k op with
      | none => exact absurd hx hn
      | some x =>
        rcases status_origin um call k op x ho hx with ⟨_, h⟩ | ⟨v, _, h⟩
        · exact Or.inl h
        · exact Or.inr ⟨v, h⟩

/-! ## Histories -/

theorem run_col (C : Column) (um : Str → Option XLang) (pt : Str → Str) (k : Str) (calls : List Call) (l : Lang) :
    (C.cells (run um pt l (changes calls))).get k = (lastEff ((allSections um calls).map (C.eff k))).getD ((C.cells l).get k) := by
  induction calls generalizing l with
  | nil => rfl
  | cons call calls ih =>
    simp only [allSections, List.flatMap_cons, List.map_append, lastEff_append]
    cases call with
    | change op =>
      have : changes (.change op :: calls) = op :: changes calls := rfl
      rw [this]
      show (C.cells (run um pt (step um pt l op) (changes calls))).get k = _
      rw [ih, C.step_col]
      simp only [allSections]
      cases lastEff ((calls.flatMap (sections um)).map (C.eff k)) <;> rfl
    | _ =>
      rw [C.reads um _ k (by intro op h; cases h), Option.or_none]
      exact ih l

/-- A history of sections of goroutines: those of every goroutine are the first ones of its calls. -/
def HistoryOf (um : Str → Option XLang) (calls : Nat → List Call) (hist : List (Nat × TSOp)) : Prop :=
  ∀ i, (hist.filter fun p => p.1 = i).map Prod.snd <+: allSections um (calls i)

theorem HistoryOf.mem {um : Str → Option XLang} {calls : Nat → List Call} {hist : List (Nat × TSOp)} (h : HistoryOf um calls hist) {p : Nat × TSOp}
    (hp : p ∈ hist) : ∃ call ∈ calls p.1, p.2 ∈ sections um call := by
  have : p.2 ∈ (hist.filter fun q => q.1 = p.1).map Prod.snd := List.mem_map.2 ⟨p, List.mem_filter.2 ⟨hp, by simp⟩, rfl⟩
  have h2 := (h p.1).subset this
  simpa [allSections, List.mem_flatMap] using h2

theorem HistoryOf.take {um : Str → Option XLang} {calls : Nat → List Call} {pre post : List (Nat × TSOp)} (h : HistoryOf um calls (pre ++ post)) :
    HistoryOf um calls pre := by
  intro i
  refine List.IsPrefix.trans ?_ (h i)
  simp

theorem explained (C : Column) (um : Str → Option XLang) (calls : Nat → List Call) (hist : List (Nat × TSOp)) (h : HistoryOf um calls hist) (l0 : Lang)
    (k : Str) : Explained (C.gives um) calls k ((C.cells l0).get k) ((C.cells (runCalls tsSeq l0 (hist.map Prod.snd)).1).get k) := by
  rw [runCalls_eff C.cells C.eff C.seq, List.map_map]
  cases e : lastEff (hist.map (C.eff k ∘ Prod.snd)) with
  | none => exact Or.inl rfl
  | some x =>
    obtain ⟨pre, p, post, h1, h2, _⟩ := lastEff_eq_some _ e
    obtain ⟨call, hc, hs⟩ := h.mem (p := p) (by rw [h1]; simp)
    rcases C.origin um call k p.2 x hs h2 with ⟨rfl, rfl⟩ | ⟨v, rfl, hg⟩
    · exact Or.inr (Or.inl ⟨rfl, p.1, hc⟩)
    · exact Or.inr (Or.inr ⟨v, rfl, p.1, call, hc, hg⟩)

theorem concerns_iff (C : Column) (um : Str → Option XLang) (calls : List Call) (k : Str) :
    Concerns (C.gives um) calls k ↔ lastEff ((allSections um calls).map (C.eff k)) ≠ none := by
  rw [lastEff_ne_none]
  constructor
  · rintro ⟨call, hc, h⟩
    obtain ⟨e, he, hn⟩ := lastEff_ne_none.1 ((C.concerns um call k).1 h)
    obtain ⟨op, ho, rfl⟩ := List.mem_map.1 he
    exact ⟨_, List.mem_map.2 ⟨op, List.mem_flatMap.2 ⟨call, hc, ho⟩, rfl⟩, hn⟩
  · rintro ⟨e, he, hn⟩
    obtain ⟨op, ho, rfl⟩ := List.mem_map.1 he
    obtain ⟨call, hc, hs⟩ := List.mem_flatMap.1 ho
    exact ⟨call, hc, (C.concerns um call k).2 (lastEff_ne_none.2 ⟨_, List.mem_map.2 ⟨op, hs, rfl⟩, hn⟩)⟩

theorem last_writer (C : Column) (um : Str → Option XLang) (pt : Str → Str) (calls : Nat → List Call) (hist : List (Nat × TSOp))
    (h : ∀ i, (hist.filter fun p => p.1 = i).map Prod.snd = allSections um (calls i)) (l0 : Lang) (k : Str) :
    ((∃ i, Concerns (C.gives um) (calls i) k) → ∃ i, Concerns (C.gives um) (calls i) k ∧
      (C.cells (runCalls tsSeq l0 (hist.map Prod.snd)).1).get k = (C.cells (run um pt l0 (changes (calls i)))).get k) ∧
    ((∀ i, ¬ Concerns (C.gives um) (calls i) k) → (C.cells (runCalls tsSeq l0 (hist.map Prod.snd)).1).get k = (C.cells l0).get k) := by
  rw [runCalls_eff C.cells C.eff C.seq, List.map_map]
  cases e : lastEff (hist.map (C.eff k ∘ Prod.snd)) with
  | none =>
    refine ⟨?_, fun _ => rfl⟩
    rintro ⟨i, hi⟩
    exfalso
    rw [concerns_iff, ← h i] at hi
    apply hi
    rw [lastEff_eq_none] at e ⊢
    intro x hx
    obtain ⟨op, ho, rfl⟩ := List.mem_map.1 hx
    obtain ⟨p, hp, rfl⟩ := List.mem_map.1 ho
    exact e _ (List.mem_map.2 ⟨p, (List.mem_filter.1 hp).1, rfl⟩)
  | some x =>
    obtain ⟨i, hi⟩ := lastEff_interleaved (C.eff k) hist e
    rw [h i] at hi
    have hc : Concerns (C.gives um) (calls i) k := by rw [concerns_iff, hi]; simp
    refine ⟨fun _ => ⟨i, hc, ?_⟩, fun hn => absurd hc (hn i)⟩
    rw [run_col, hi]

/-! ## Executions -/

theorem start_history {um : Str → Option XLang} {l0 : Lang} {calls : Nat → List Call} {c : Config Lang (Frame TSOut TSOut)}
    (h : Reach (start um l0 calls) c) : ∃ hist : List (Nat × TSOp), HistoryOf um calls hist ∧
      (∀ i, (hist.filter fun p => p.1 = i).map Prod.snd = (allSections um (calls i)).take
        ((allSections um (calls i)).length - (c.threads i).todo.length - (c.threads i).cur.toList.length)) ∧
      (∀ i, (c.threads i).cur = none → (c.threads i).loc.outs = answersTo tsSeq l0 hist i) ∧
      (Quiet c → c.shared = (runCalls tsSeq l0 (hist.map Prod.snd)).1) := by
  obtain ⟨hist, _, h2, h3, h4⟩ := methods_atomic _ _ tsMethod_alone tsMethod_readOnly _ _ _ _ h
  refine ⟨hist, ?_, h2, h3, h4⟩
  intro i
  rw [h2 i]
  exact List.take_prefix _ _

/-- Every answer is computed from the table some history before it leaves. -/
theorem answersTo_prefix {σ Ω Op : Type} (seq : Op → σ → σ × Res Ω) (s : σ) (hist : List (Nat × Op)) (i p : Nat) (o : Option Ω)
    (h : (answersTo seq s hist i)[p]? = some o) : ∃ pre op post, hist = pre ++ [(i, op)] ++ post ∧ p = (pre.filter fun q => q.1 = i).length ∧
      o = answer (seq op (runCalls seq s (pre.map Prod.snd)).1).2 := by
  have gen : ∀ (r : List (Nat × Op)) (p : Nat), (answersTo seq s r.reverse i)[p]? = some o → ∃ pre op post, r.reverse = pre ++ [(i, op)] ++ post ∧
      p = (pre.filter fun q => q.1 = i).length ∧ o = answer (seq op (runCalls seq s (pre.map Prod.snd)).1).2 := by
    have hlen : ∀ r : List (Nat × Op), (answersTo seq s r.reverse i).length = (r.reverse.filter fun q => q.1 = i).length := by
      intro r
      induction r with
      | nil => rfl
      | cons q r ih =>
        obtain ⟨j, op⟩ := q
        rw [List.reverse_cons, answersTo_snoc, List.length_append, ih, List.filter_append, List.length_append]
        by_cases hj : j = i <;> simp [hj]
    intro r
    induction r with
    | nil => intro p h; simp [answersTo] at h
    | cons q r ih =>
      intro p h
      obtain ⟨j, op⟩ := q
      rw [List.reverse_cons, answersTo_snoc] at h
      rw [List.reverse_cons]
      by_cases hp : p < (answersTo seq s r.reverse i).length
      · rw [List.getElem?_append_left hp] at h
        obtain ⟨pre, op', post, h1, h2, h3⟩ := ih p h
        exact ⟨pre, op', post ++ [(j, op)], by rw [h1]; simp, h2, h3⟩
      · rw [List.getElem?_append_right (by omega)] at h
        by_cases hj : j = i
        · subst hj
          simp only [if_true] at h
          have hp0 : p - (answersTo seq s r.reverse j).length = 0 := by
            rcases Nat.eq_zero_or_pos (p - (answersTo seq s r.reverse j).length) with h0 | h0
            · exact h0
            · rw [List.getElem?_eq_none (by simp only [List.length_singleton]; omega)] at h; cases h
          rw [hp0] at h
          simp only [List.getElem?_cons_zero, Option.some.injEq] at h
          exact ⟨r.reverse, op, [], by simp, by rw [← hlen r]; omega, h.symm⟩
        · simp [hj] at h
  simpa using gen hist.reverse p (by simpa using h)

/-- The call at that position among the calls of the goroutine. -/
theorem getElem?_of_position {α : Type} {hist pre post : List (Nat × α)} {i p : Nat} {a : α} {calls : List α} (h : hist = pre ++ [(i, a)] ++ post)
    (hp : p = (pre.filter fun q => q.1 = i).length) (hc : (hist.filter fun q => q.1 = i).map Prod.snd <+: calls) : calls[p]? = some a := by
  obtain ⟨r, rfl⟩ := hc
  subst hp
  rw [h]
  simp

/-! ## Calls that are one section -/

/-- The same entries and statuses. -/
def SameTable (l l' : Lang) : Prop := l.entries = l'.entries ∧ l.status = l'.status

theorem tsSeq_same {l l' : Lang} (h : SameTable l l') (op : TSOp) : SameTable (tsSeq op l).1 (tsSeq op l').1 := by
  have gen : ∀ (es : List XEntry) (l l' : Lang), SameTable l l' → SameTable (es.foldl (fun l e => setStatus (set l e.id e.entry) e.id e.status) l)
      (es.foldl (fun l e => setStatus (set l e.id e.entry) e.id e.status) l') := by
    intro es
    induction es with
    | nil => intro l l' h; exact h
    | cons e es ih => intro l l' h; exact ih _ _ ⟨by simp [setStatus, set, h.1], by simp [setStatus, set, h.2]⟩
  obtain ⟨h1, h2⟩ := h
  cases op <;> simp only [tsSeq] <;> first | exact ⟨h1, h2⟩ | exact gen _ _ _ ⟨h1, h2⟩ | skip
  all_goals simp [SameTable, set, setStatus, del, h1, h2]

theorem runCalls_same (ops : List TSOp) : ∀ {l l' : Lang}, SameTable l l' → SameTable (runCalls tsSeq l ops).1 (runCalls tsSeq l' ops).1 := by
  induction ops with
  | nil => intro l l' h; exact h
  | cons op ops ih => intro l l' h; exact ih (tsSeq_same h op)

theorem runCalls_append {σ Ω Op : Type} (seq : Op → σ → σ × Res Ω) (a b : List Op) (s : σ) :
    (runCalls seq s (a ++ b)).1 = (runCalls seq (runCalls seq s a).1 b).1 := by
  induction a generalizing s with
  | nil => rfl
  | cons op a ih => exact ih _

theorem run_runCalls (um : Str → Option XLang) (pt : Str → Str) (calls : List Call) :
    ∀ {l l' : Lang}, SameTable l l' → SameTable (runCalls tsSeq l (allSections um calls)).1 (run um pt l' (changes calls)) := by
  induction calls with
  | nil => intro l l' h; exact h
  | cons call calls ih =>
    intro l l' h
    simp only [allSections, List.flatMap_cons]
    rw [runCalls_append]
    cases call with
    | change op =>
      refine ih (l' := step um pt l' op) ?_
      have h1 := runCalls_same (sections um (.change op)) h
      have h2 := step_runCalls l' um pt op
      exact ⟨h1.1.trans h2.1.symm, h1.2.trans h2.2.symm⟩
    | _ => exact ih h

/-- The section of a call that has one. -/
def sectionOf (um : Str → Option XLang) (call : Call) : TSOp := (sections um call).headD .getEntries

theorem sections_uses (um : Str → Option XLang) (call : Call) (h : ∀ data, call ≠ .change (.load data)) :
    sections um call = if Uses um call then [sectionOf um call] else [] := by
  cases call with
  | change op =>
    cases op with
    | load data => exact absurd rfl (h data)
    | loadXML data =>
      cases e : um data <;> simp [sections, Uses, sectionOf, e]
    | _ => rfl
  | _ => rfl

theorem allSections_uses (um : Str → Option XLang) (calls : List Call) (h : ∀ data, .change (.load data) ∉ calls) :
    allSections um calls = (calls.filter (Uses um)).map (sectionOf um) := by
  induction calls with
  | nil => rfl
  | cons call calls ih =>
    have ih := ih fun data hd => h data (by simp [hd])
    simp only [allSections, List.flatMap_cons] at ih ⊢
    rw [sections_uses um call (fun data e => h data (by simp [e])), ih, List.filter_cons]
    cases Uses um call <;> rfl

/-- What `GetXML` answers, but for name and language. -/
theorem answer_getXML {um : Str → Option XLang} {l l' : Lang} (h : SameTable l l') :
    ∃ n t, answer (tsSeq (sectionOf um .getXML) l).2 = some (answerOf { l' with name := n, tag := t } .getXML) := by
  obtain ⟨h1, h2⟩ := h
  exact ⟨l.name, l.tag, by simp [sectionOf, sections, tsSeq, answer, answerOf, getXML, h1, h2]⟩

/-- The accesses of a call that read. -/
theorem reads_eq (um : Str → Option XLang) (pt : Str → Str) (calls : List Call) :
    (allNameAccesses um pt calls).filter isRead = calls.flatMap reads := by
  induction calls with
  | nil => rfl
  | cons call calls ih =>
    simp only [allNameAccesses, List.flatMap_cons, List.filter_append] at ih ⊢
    rw [ih]
    congr 1
    cases call with
    | change op =>
      cases op with
      | loadXML data => simp only [nameAccesses]; cases um data <;> rfl
      | _ => rfl
    | _ => rfl

theorem answer_sectionOf {um : Str → Option XLang} {call : Call} {l l' : Lang} (h : SameTable l l') (hl : ∀ data, call ≠ .change (.load data))
    (hu : Uses um call = true) (hx : call ≠ .getXML) : answer (tsSeq (sectionOf um call) l).2 = some (answerOf l' call) := by
  obtain ⟨h1, h2⟩ := h
  cases call with
  | change op =>
    cases op with
    | load data => exact absurd rfl (hl data)
    | loadXML data =>
      simp only [Uses] at hu
      cases e : um data with
      | none => rw [e] at hu; cases hu
      | some d => simp only [sectionOf, sections, e]; rfl
    | setName n => cases hu
    | setLanguage n => cases hu
    | _ => rfl
  | getXML => exact absurd rfl hx
  | getName => cases hu
  | getLanguage => cases hu
  | get e => simp [sectionOf, sections, tsSeq, answer, answerOf, get, h1]
  | getStatus e => simp [sectionOf, sections, tsSeq, answer, answerOf, getStatus, h2]
  | getEntries => simp [sectionOf, sections, tsSeq, answer, answerOf, getEntries, h1]
  | toString => simp [sectionOf, sections, tsSeq, answer, answerOf, toString, h1]

/-- Without text loads, the history of sections is a history of calls. -/
theorem start_call_history {um : Str → Option XLang} {l0 : Lang} {calls : Nat → List Call} (hl : ∀ i data, .change (.load data) ∉ calls i)
    {c : Config Lang (Frame TSOut TSOut)} (h : Reach (start um l0 calls) c) :
    ∃ hist : List (Nat × Call), (∀ i, (hist.filter fun p => p.1 = i).map Prod.snd <+: (calls i).filter (Uses um)) ∧
      (∀ i, (c.threads i).cur = none → (c.threads i).loc.outs = answersTo tsSeq l0 (hist.map fun p => (p.1, sectionOf um p.2)) i) ∧
      (Quiet c → c.shared = (runCalls tsSeq l0 ((hist.map Prod.snd).map (sectionOf um))).1) := by
  obtain ⟨hs, _, h2, h3, h4⟩ := start_history h
  obtain ⟨hist, e1, e2⟩ := exists_history (sectionOf um) hs
    (fun i => ((calls i).filter (Uses um)).take ((allSections um (calls i)).length - (c.threads i).todo.length - (c.threads i).cur.toList.length)) (by
      intro i
      rw [h2 i, allSections_uses um _ (hl i), List.map_take])
  refine ⟨hist, ?_, ?_, ?_⟩
  · intro i; rw [e2 i]; exact List.take_prefix _ _
  · intro i hc; rw [h3 i hc, e1]
  · intro hq
    rw [h4 hq, e1]
    simp only [List.map_map]
    rfl

theorem allSections_hist {um : Str → Option XLang} {calls : List Call} (h : ∀ call ∈ calls, Uses um call = true ∧ ∀ data, call ≠ .change (.load data)) :
    allSections um calls = calls.map (sectionOf um) := by
  rw [allSections_uses um calls fun data hd => (h _ hd).2 data rfl, List.filter_eq_self.2 fun call hc => (h call hc).1]

/-! ## Name and Language -/

/-- What an access does to the name. -/
def nameEff : NameAccess → Option Str
  | .writeName n => some n
  | _ => none

/-- What an access does to the language. -/
def tagEff : NameAccess → Option Str
  | .writeLanguage t => some t
  | _ => none

/-- What every execution on the two fields satisfies. -/
structure NameInv (progs : Nat → List NameAccess) (n t : Str) (c : NameConfig) (hist : List (Nat × NameAccess)) : Prop where
  order : ∀ i, (hist.filter fun p => p.1 = i).map Prod.snd ++ c.todo i = progs i
  name : c.name = (lastEff (hist.map fun p => nameEff p.2)).getD n
  tag : c.tag = (lastEff (hist.map fun p => tagEff p.2)).getD t
  count : ∀ i, (c.seen i).length = (((hist.filter fun p => p.1 = i).map Prod.snd).filter isRead).length
  seen : ∀ (i p : Nat) (v : Str), (c.seen i)[p]? = some v → ∃ pre, pre <+: hist ∧
    ((((hist.filter fun p => p.1 = i).map Prod.snd).filter isRead)[p]? = some NameAccess.readName ∧ v = (lastEff (pre.map fun p => nameEff p.2)).getD n ∨
     (((hist.filter fun p => p.1 = i).map Prod.snd).filter isRead)[p]? = some NameAccess.readLanguage ∧ v = (lastEff (pre.map fun p => tagEff p.2)).getD t)

theorem nameInv_reach {progs : Nat → List NameAccess} {n t : Str} {c : NameConfig} (h : NameReach ⟨n, t, progs, fun _ => []⟩ c) :
    ∃ hist, NameInv progs n t c hist := by
  induction h with
  | refl => exact ⟨[], ⟨fun i => rfl, rfl, rfl, fun i => rfl, fun i p v h => by simp at h⟩⟩
  | @step c i a rest _ ht ih =>
    obtain ⟨hist, ih⟩ := ih
    have horder : ∀ j, ((hist ++ [(i, a)]).filter fun p => p.1 = j).map Prod.snd ++ upd c.todo i rest j = progs j := by
      intro j
      rw [← ih.order j]
      by_cases hj : j = i
      · subst hj; simp [upd, ht]
      · simp [upd, hj, show ¬ i = j from fun e => hj e.symm]
    have hfilter : ∀ j, ((hist ++ [(i, a)]).filter fun p => p.1 = j).map Prod.snd =
        (hist.filter fun p => p.1 = j).map Prod.snd ++ if i = j then [a] else [] := by
      intro j
      by_cases hj : i = j <;> simp [hj]
    have hold : ∀ (j p : Nat) (v : Str), (c.seen j)[p]? = some v → ∃ pre, pre <+: hist ++ [(i, a)] ∧
        (((((hist ++ [(i, a)]).filter fun p => p.1 = j).map Prod.snd).filter isRead)[p]? = some NameAccess.readName ∧
            v = (lastEff (pre.map fun p => nameEff p.2)).getD n ∨
         ((((hist ++ [(i, a)]).filter fun p => p.1 = j).map Prod.snd).filter isRead)[p]? = some NameAccess.readLanguage ∧
            v = (lastEff (pre.map fun p => tagEff p.2)).getD t) := by
      intro j p v hv
      obtain ⟨pre, h1, h2⟩ := ih.seen j p v hv
      refine ⟨pre, h1.trans (List.prefix_append _ _), ?_⟩
      have hp : p < (((hist.filter fun p => p.1 = j).map Prod.snd).filter isRead).length := by
        rw [← ih.count j]
        rcases Nat.lt_or_ge p (c.seen j).length with hlt | hge
        · exact hlt
        · rw [List.getElem?_eq_none hge] at hv; cases hv
      rw [hfilter, List.filter_append, List.getElem?_append_left hp]
      exact h2
    refine ⟨hist ++ [(i, a)], ?_⟩
    cases a with
    | writeName m =>
      refine ⟨horder, ?_, ?_, ?_, hold⟩
      · simp only [NameConfig.access, List.map_append, lastEff_append]; rfl
      · simp only [NameConfig.access, List.map_append, lastEff_append]; exact ih.tag
      · intro j
        rw [hfilter, List.filter_append, List.length_append]
        simp only [NameConfig.access, ih.count j]
        by_cases hj : i = j <;> simp [hj, isRead]
    | writeLanguage m =>
      refine ⟨horder, ?_, ?_, ?_, hold⟩
      · simp only [NameConfig.access, List.map_append, lastEff_append]; exact ih.name
      · simp only [NameConfig.access, List.map_append, lastEff_append]; rfl
      · intro j
        rw [hfilter, List.filter_append, List.length_append]
        simp only [NameConfig.access, ih.count j]
        by_cases hj : i = j <;> simp [hj, isRead]
    | readName =>
      refine ⟨horder, ?_, ?_, ?_, ?_⟩
      · simp only [NameConfig.access, List.map_append, lastEff_append]; exact ih.name
      · simp only [NameConfig.access, List.map_append, lastEff_append]; exact ih.tag
      · intro j
        rw [hfilter, List.filter_append, List.length_append]
        simp only [NameConfig.access]
        by_cases hj : j = i
        · subst hj; simp [upd, ih.count j]; rfl
        · simp [upd, hj, show ¬ i = j from fun e => hj e.symm, ih.count j]
      · intro j p v hv
        simp only [NameConfig.access] at hv
        by_cases hj : j = i
        · subst hj
          rw [upd_self] at hv
          by_cases hp : p < (c.seen j).length
          · rw [List.getElem?_append_left hp] at hv; exact hold j p v hv
          · rw [List.getElem?_append_right (by omega)] at hv
            have hp0 : p - (c.seen j).length = 0 := by
              rcases Nat.eq_zero_or_pos (p - (c.seen j).length) with h0 | h0
              · exact h0
              · rw [List.getElem?_eq_none (by simp only [List.length_singleton]; omega)] at hv; cases hv
            rw [hp0] at hv
            simp only [List.getElem?_cons_zero, Option.some.injEq] at hv
            refine ⟨hist, List.prefix_append _ _, Or.inl ⟨?_, by rw [← hv, ih.name]⟩⟩
            rw [hfilter, List.filter_append, List.getElem?_append_right (by rw [← ih.count j]; omega), ← ih.count j, hp0]
            rw [if_pos rfl]; rfl
        · rw [upd_ne _ _ hj] at hv
          exact hold j p v hv
    | readLanguage =>
      refine ⟨horder, ?_, ?_, ?_, ?_⟩
      · simp only [NameConfig.access, List.map_append, lastEff_append]; exact ih.name
      · simp only [NameConfig.access, List.map_append, lastEff_append]; exact ih.tag
      · intro j
        rw [hfilter, List.filter_append, List.length_append]
        simp only [NameConfig.access]
        by_cases hj : j = i
        · subst hj; simp [upd, ih.count j]; rfl
        · simp [upd, hj, show ¬ i = j from fun e => hj e.symm, ih.count j]
      · intro j p v hv
        simp only [NameConfig.access] at hv
        by_cases hj : j = i
        · subst hj
          rw [upd_self] at hv
          by_cases hp : p < (c.seen j).length
          · rw [List.getElem?_append_left hp] at hv; exact hold j p v hv
          · rw [List.getElem?_append_right (by omega)] at hv
            have hp0 : p - (c.seen j).length = 0 := by
              rcases Nat.eq_zero_or_pos (p - (c.seen j).length) with h0 | h0
              · exact h0
              · rw [List.getElem?_eq_none (by simp only [List.length_singleton]; omega)] at hv; cases hv
            rw [hp0] at hv
            simp only [List.getElem?_cons_zero, Option.some.injEq] at hv
            refine ⟨hist, List.prefix_append _ _, Or.inr ⟨?_, by rw [← hv, ih.tag]⟩⟩
            rw [hfilter, List.filter_append, List.getElem?_append_right (by rw [← ih.count j]; omega), ← ih.count j, hp0]
            rw [if_pos rfl]; rfl
        · rw [upd_ne _ _ hj] at hv
          exact hold j p v hv

theorem NameInv.mem {progs : Nat → List NameAccess} {n t : Str} {c : NameConfig} {hist : List (Nat × NameAccess)} (h : NameInv progs n t c hist)
    {p : Nat × NameAccess} (hp : p ∈ hist) : p.2 ∈ progs p.1 := by
  rw [← h.order p.1]
  exact List.mem_append_left _ (List.mem_map.2 ⟨p, List.mem_filter.2 ⟨hp, by simp⟩, rfl⟩)

theorem name_origin {um : Str → Option XLang} {pt : Str → Str} {call : Call} {n : Str} :
    NameAccess.writeName n ∈ nameAccesses um pt call ↔ GivesName um call n := by
  unfold GivesName Names
  cases call with
  | change op =>
    cases op with
    | loadXML data =>
      simp only [nameAccesses]
      cases e : um data with
      | none => simp [e]
      | some d => simp [e, eq_comm]
    | setName m => simp [nameAccesses, eq_comm]
    | setLanguage m => simp [nameAccesses]
    | _ => simp [nameAccesses]
  | _ => simp [nameAccesses]

theorem tag_origin {um : Str → Option XLang} {pt : Str → Str} {call : Call} {t : Str} :
    NameAccess.writeLanguage t ∈ nameAccesses um pt call ↔ GivesLanguage um pt call t := by
  unfold GivesLanguage Tags
  cases call with
  | change op =>
    cases op with
    | loadXML data =>
      simp only [nameAccesses]
      cases e : um data with
      | none => simp [e]
      | some d => simp [e, eq_comm]
    | setName m => simp [nameAccesses]
    | setLanguage m => simp [nameAccesses, eq_comm]
    | _ => simp [nameAccesses]
  | _ => simp [nameAccesses]

theorem name_explained {um : Str → Option XLang} {pt : Str → Str} {calls : Nat → List Call} {n : Str} {pre : List (Nat × NameAccess)}
    (h : ∀ p ∈ pre, p.2 ∈ allNameAccesses um pt (calls p.1)) :
    (lastEff (pre.map fun p => nameEff p.2)).getD n = n ∨
      ∃ i, ∃ call ∈ calls i, GivesName um call ((lastEff (pre.map fun p => nameEff p.2)).getD n) := by
  cases e : lastEff (pre.map fun p => nameEff p.2) with
  | none => exact Or.inl rfl
  | some x =>
    obtain ⟨a, p, b, h1, h2, _⟩ := lastEff_eq_some _ e
    have hp := h p (by rw [h1]; simp)
    obtain ⟨call, hc, hm⟩ := List.mem_flatMap.1 hp
    refine Or.inr ⟨p.1, call, hc, ?_⟩
    obtain ⟨j, acc⟩ := p
    cases acc <;> simp only [nameEff, Option.some.injEq, reduceCtorEq] at h2
    subst h2
    exact name_origin.1 hm

theorem tag_explained {um : Str → Option XLang} {pt : Str → Str} {calls : Nat → List Call} {t : Str} {pre : List (Nat × NameAccess)}
    (h : ∀ p ∈ pre, p.2 ∈ allNameAccesses um pt (calls p.1)) :
    (lastEff (pre.map fun p => tagEff p.2)).getD t = t ∨
      ∃ i, ∃ call ∈ calls i, GivesLanguage um pt call ((lastEff (pre.map fun p => tagEff p.2)).getD t) := by
  cases e : lastEff (pre.map fun p => tagEff p.2) with
  | none => exact Or.inl rfl
  | some x =>
    obtain ⟨a, p, b, h1, h2, _⟩ := lastEff_eq_some _ e
    have hp := h p (by rw [h1]; simp)
    obtain ⟨call, hc, hm⟩ := List.mem_flatMap.1 hp
    refine Or.inr ⟨p.1, call, hc, ?_⟩
    obtain ⟨j, acc⟩ := p
    cases acc <;> simp only [tagEff, Option.some.injEq, reduceCtorEq] at h2
    subst h2
    exact tag_origin.1 hm

theorem run_names (um : Str → Option XLang) (pt : Str → Str) (calls : List Call) (l : Lang) :
    (run um pt l (changes calls)).name = (lastEff ((allNameAccesses um pt calls).map nameEff)).getD l.name ∧
    (run um pt l (changes calls)).tag = (lastEff ((allNameAccesses um pt calls).map tagEff)).getD l.tag := by
  induction calls generalizing l with
  | nil => exact ⟨rfl, rfl⟩
  | cons call calls ih =>
    simp only [allNameAccesses, List.flatMap_cons, List.map_append, lastEff_append] at ih ⊢
    cases call with
    | change op =>
      obtain ⟨h1, h2⟩ := ih (step um pt l op)
      have hs : (step um pt l op).name = (lastEff ((nameAccesses um pt (.change op)).map nameEff)).getD l.name ∧
          (step um pt l op).tag = (lastEff ((nameAccesses um pt (.change op)).map tagEff)).getD l.tag := by
        cases op with
        | loadXML data =>
          cases e : um data with
          | none => simp only [step, loadXML, nameAccesses, e]; exact ⟨rfl, rfl⟩
          | some d =>
            simp only [step, nameAccesses, e, loadXML_eq e]
            exact addEntries_names _ _
        | load data =>
          simp only [step, loadString, nameAccesses]
          exact (foldl_rest _ l).2
        | _ => exact ⟨rfl, rfl⟩
      have hc : changes (.change op :: calls) = op :: changes calls := rfl
      rw [hc]
      constructor
      · refine Eq.trans h1 ?_
        rw [hs.1]
        cases lastEff ((calls.flatMap (nameAccesses um pt)).map nameEff) <;> rfl
      · refine Eq.trans h2 ?_
        rw [hs.2]
        cases lastEff ((calls.flatMap (nameAccesses um pt)).map tagEff) <;> rfl
    | _ =>
      simp only [nameAccesses, List.map_nil, List.map_cons, nameEff, tagEff]
      obtain ⟨h1, h2⟩ := ih l
      constructor
      · refine Eq.trans h1 ?_
        cases lastEff ((calls.flatMap (nameAccesses um pt)).map nameEff) <;> rfl
      · refine Eq.trans h2 ?_
        cases lastEff ((calls.flatMap (nameAccesses um pt)).map tagEff) <;> rfl

theorem gives_name_iff {um : Str → Option XLang} {pt : Str → Str} {calls : List Call} :
    (∃ call ∈ calls, ∃ n, GivesName um call n) ↔ lastEff ((allNameAccesses um pt calls).map nameEff) ≠ none := by
  rw [lastEff_ne_none]
  constructor
  · rintro ⟨call, hc, n, h⟩
    exact ⟨_, List.mem_map.2 ⟨.writeName n, List.mem_flatMap.2 ⟨call, hc, (name_origin (pt := pt)).2 h⟩, rfl⟩, by simp [nameEff]⟩
  · rintro ⟨e, he, hn⟩
    obtain ⟨a, ha, rfl⟩ := List.mem_map.1 he
    obtain ⟨call, hc, hm⟩ := List.mem_flatMap.1 ha
    cases a <;> simp only [nameEff, ne_eq, not_true_eq_false] at hn
    exact ⟨call, hc, _, name_origin.1 hm⟩

theorem gives_tag_iff {um : Str → Option XLang} {pt : Str → Str} {calls : List Call} :
    (∃ call ∈ calls, ∃ t, GivesLanguage um pt call t) ↔ lastEff ((allNameAccesses um pt calls).map tagEff) ≠ none := by
  rw [lastEff_ne_none]
  constructor
  · rintro ⟨call, hc, n, h⟩
    exact ⟨_, List.mem_map.2 ⟨.writeLanguage n, List.mem_flatMap.2 ⟨call, hc, (tag_origin (pt := pt)).2 h⟩, rfl⟩, by simp [tagEff]⟩
  · rintro ⟨e, he, hn⟩
    obtain ⟨a, ha, rfl⟩ := List.mem_map.1 he
    obtain ⟨call, hc, hm⟩ := List.mem_flatMap.1 ha
    cases a <;> simp only [tagEff, ne_eq, not_true_eq_false] at hn
    exact ⟨call, hc, _, tag_origin.1 hm⟩

end Xcore.Language
