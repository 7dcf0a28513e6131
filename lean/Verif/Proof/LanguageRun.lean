import Verif.Proof.LanguageAlias

/-!
# What one call and a history of calls do to a language table
-/

namespace Xcore.Language

theorem step_get (um : Str → Option XLang) (pt : Str → Str) (l : Lang) (op : Op) (e : Str) :
    (∀ v, Writes um op e v → (step um pt l op).entries.get e = some v) ∧
    ((∀ v, ¬ Writes um op e v) → op ≠ .del e → (step um pt l op).entries.get e = l.entries.get e) ∧
    (op = .del e → (step um pt l op).entries.get e = none) := by
  refine ⟨?_, ?_, ?_⟩
  · rintro v (rfl | ⟨data, rfl, h⟩ | ⟨data, d, st, rfl, h1, pre, post, h2, h3⟩)
    · simp [step, set, AMap.get_set]
    · simp only [step, loadString_lines]; exact foldl_last h l
    · simp only [step]; rw [loadXML_eq h1]; exact (addEntries_last h2 h3 _).1
  · intro hn hd
    cases op with
    | set e' v =>
      have : e ≠ e' := by rintro rfl; exact hn v (Or.inl rfl)
      simp [step, set, AMap.get_set, this]
    | setStatus e' v => rfl
    | del e' =>
      have : e ≠ e' := by rintro rfl; exact hd rfl
      simp [step, del, AMap.get_del, this]
    | load data =>
      simp only [step, loadString_lines]
      rcases assigned_cases (loadable data) e with ⟨v, h⟩ | h
      · exact absurd (Or.inr (Or.inl ⟨data, rfl, h⟩)) (hn v)
      · exact foldl_unassigned h l
    | loadXML data =>
      simp only [step]
      cases hu : um data with
      | none => simp [loadXML, hu]
      | some d =>
        rw [loadXML_eq hu]
        rcases entry_cases d e with ⟨v, st, h⟩ | h
        · exact absurd (Or.inr (Or.inr ⟨data, d, st, rfl, hu, h⟩)) (hn v)
        · exact (addEntries_other h _).1
    | setName n => rfl
    | setLanguage t => rfl
  · rintro rfl; simp [step, del, AMap.get_del]

theorem step_getStatus (um : Str → Option XLang) (pt : Str → Str) (l : Lang) (op : Op) (e : Str) :
    (∀ v, WritesStatus um op e v → (step um pt l op).status.get e = some v) ∧
    ((∀ v, ¬ WritesStatus um op e v) → op ≠ .del e → (step um pt l op).status.get e = l.status.get e) ∧
    (op = .del e → (step um pt l op).status.get e = none) := by
  refine ⟨?_, ?_, ?_⟩
  · rintro v (rfl | ⟨data, d, st, rfl, h1, pre, post, h2, h3⟩)
    · simp [step, setStatus, AMap.get_set]
    · simp only [step]; rw [loadXML_eq h1]; exact (addEntries_last h2 h3 _).2
  · intro hn hd
    cases op with
    | set e' v => rfl
    | setStatus e' v =>
      have : e ≠ e' := by rintro rfl; exact hn v (Or.inl rfl)
      simp [step, setStatus, AMap.get_set, this]
    | del e' =>
      have : e ≠ e' := by rintro rfl; exact hd rfl
      simp [step, del, AMap.get_del, this]
    | load data => simp only [step, loadString]; rw [(foldl_rest _ l).1]
    | loadXML data =>
      simp only [step]
      cases hu : um data with
      | none => simp [loadXML, hu]
      | some d =>
        rw [loadXML_eq hu]
        rcases entry_cases d e with ⟨v, st, h⟩ | h
        · exact absurd (Or.inr ⟨data, d, v, rfl, hu, h⟩) (hn st)
        · exact (addEntries_other h _).2
    | setName n => rfl
    | setLanguage t => rfl
  · rintro rfl; simp [step, del, AMap.get_del]

theorem run_keeps (um : Str → Option XLang) (pt : Str → Str) (f : Lang → AMap Str) (W : Op → Str → Str → Prop)
    (hs : ∀ l op e, (∀ v, ¬ W op e v) → op ≠ .del e → (f (step um pt l op)).get e = (f l).get e)
    (ops : List Op) (e : Str) (h : ∀ op ∈ ops, op ≠ .del e ∧ ∀ v, ¬ W op e v) (l : Lang) :
    (f (run um pt l ops)).get e = (f l).get e := by
  induction ops generalizing l with
  | nil => rfl
  | cons op ops ih =>
    have h1 := h op (by simp)
    exact (ih (fun o ho => h o (by simp [ho])) (step um pt l op)).trans (hs l op e h1.2 h1.1)

theorem run_none (um : Str → Option XLang) (pt : Str → Str) (f : Lang → AMap Str) (W : Op → Str → Str → Prop)
    (hs : ∀ l op e, (∀ v, ¬ W op e v) → op ≠ .del e → (f (step um pt l op)).get e = (f l).get e)
    (hd : ∀ l e, (f (step um pt l (.del e))).get e = none)
    (ops : List Op) (e : Str) (h : ∀ op ∈ ops, ∀ v, ¬ W op e v) (l : Lang) (hl : (f l).get e = none) :
    (f (run um pt l ops)).get e = none := by
  induction ops generalizing l with
  | nil => exact hl
  | cons op ops ih =>
    refine ih (fun o ho => h o (by simp [ho])) (step um pt l op) ?_
    by_cases hop : op = .del e
    · subst hop; exact hd l e
    · rw [hs l op e (h op (by simp)) hop]; exact hl

theorem run_append (um : Str → Option XLang) (pt : Str → Str) (l : Lang) (a b : List Op) :
    run um pt l (a ++ b) = run um pt (run um pt l a) b := by simp [run, List.foldl_append]

theorem get_lastWritten (um : Str → Option XLang) (pt : Str → Str) (n t : Str) (h : List Op) (e v : Str)
    (hw : LastWritten (Writes um) h e v) : get (run um pt (new n t) h) e = v := by
  obtain ⟨pre, op, post, rfl, h1, h2⟩ := hw
  rw [run_append, run_append]
  have h3 := run_keeps um pt Lang.entries (Writes um) (fun l op e => (step_get um pt l op e).2.1) post e h2
    (run um pt (run um pt (new n t) pre) [op])
  have h4 := (step_get um pt (run um pt (new n t) pre) op e).1 v h1
  unfold get
  rw [h3, show run um pt (run um pt (new n t) pre) [op] = step um pt (run um pt (new n t) pre) op from rfl, h4]

theorem get_nothingWritten (um : Str → Option XLang) (pt : Str → Str) (n t : Str) (h : List Op) (e : Str)
    (hw : NothingWritten (Writes um) h e) : get (run um pt (new n t) h) e = [] := by
  obtain ⟨pre, post, rfl, h1, h2⟩ := hw
  rw [run_append]
  have h3 := run_none um pt Lang.entries (Writes um) (fun l op e => (step_get um pt l op e).2.1)
    (fun l e => (step_get um pt l (.del e) e).2.2 rfl) post e h2 (run um pt (new n t) pre) ?_
  · unfold get; rw [h3]
  · rcases h1 with rfl | h1
    · rfl
    · obtain ⟨pre', rfl⟩ := List.getLast?_eq_some_iff.1 h1
      rw [run_append]
      exact (step_get um pt _ (.del e) e).2.2 rfl

theorem lastGiven (um : Str → Option XLang) (pt : Str → Str) (f : Lang → Str) (W : Op → Str → Prop)
    (h1 : ∀ l op v, W op v → f (step um pt l op) = v) (h2 : ∀ l op, (∀ v, ¬ W op v) → f (step um pt l op) = f l) (l : Lang) (h : List Op) :
    LastGiven W h (f l) (f (run um pt l h)) := by
  have key : ∀ r : List Op, LastGiven W r.reverse (f l) (f (run um pt l r.reverse)) := by
    intro r
    induction r with
    | nil => exact Or.inr ⟨by simp, rfl⟩
    | cons op r ih =>
      rw [List.reverse_cons, run_append]
      rcases Classical.em (∃ v, W op v) with ⟨v, hv⟩ | hv
      · refine Or.inl ⟨r.reverse, op, [], by simp, ?_, by simp⟩
        have : f (run um pt (run um pt l r.reverse) [op]) = v := h1 (run um pt l r.reverse) op v hv
        rw [this]; exact hv
      · have hv' : ∀ v, ¬ W op v := fun v q => hv ⟨v, q⟩
        have e : f (run um pt (run um pt l r.reverse) [op]) = f (run um pt l r.reverse) := h2 _ op hv'
        rw [e]
        rcases ih with ⟨pre, op', post, q1, q2, q3⟩ | ⟨q1, q2⟩
        · refine Or.inl ⟨pre, op', post ++ [op], by rw [q1]; simp, q2, ?_⟩
          intro o ho
          rcases List.mem_append.1 ho with ho | ho
          · exact q3 o ho
          · cases List.mem_singleton.1 ho; exact hv'
        · refine Or.inr ⟨?_, q2⟩
          intro o ho
          rcases List.mem_append.1 ho with ho | ho
          · exact q1 o ho
          · cases List.mem_singleton.1 ho; exact hv'
  simpa using key h.reverse

end Xcore.Language
