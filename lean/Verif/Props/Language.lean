import Verif.Proof.LanguageRun

/-!
# Properties C30–C34, C36, C37 and C20 (language part): language tables

`unmarshal` and `parseTag` stand for `xml.Unmarshal` and `language.Parse`; the theorems hold for every such function.
-/

namespace Xcore.Language

/-! ## C30 -/

/-- **C30** After any history of calls on a new table, `Get(e)` is the value last written for `e` by Set, LoadString or LoadXMLString,
provided `e` has not been deleted since. -/
theorem C30_get_is_last_written (um : Str → Option XLang) (pt : Str → Str) (n t : Str) (h : List Op) (e v : Str)
    (hw : LastWritten (Writes um) h e v) : get (run um pt (new n t) h) e = v :=
  get_lastWritten um pt n t h e v hw

/-- **C30** `Get(e)` is empty if nothing was written for `e` since the beginning or since the last `Del(e)`. -/
theorem C30_get_without_write (um : Str → Option XLang) (pt : Str → Str) (n t : Str) (h : List Op) (e : Str)
    (hw : NothingWritten (Writes um) h e) : get (run um pt (new n t) h) e = [] :=
  get_nothingWritten um pt n t h e hw

/-- **C30** The same for statuses (the flat text format carries no status). -/
theorem C30_getStatus_is_last_written (um : Str → Option XLang) (pt : Str → Str) (n t : Str) (h : List Op) (e v : Str)
    (hw : LastWritten (WritesStatus um) h e v) : getStatus (run um pt (new n t) h) e = v := by
  obtain ⟨pre, op, post, rfl, h1, h2⟩ := hw
  rw [run_append, run_append]
  have h3 := run_keeps um pt Lang.status (WritesStatus um) (fun l op e => (step_getStatus um pt l op e).2.1) post e h2
    (run um pt (run um pt (new n t) pre) [op])
  have h4 := (step_getStatus um pt (run um pt (new n t) pre) op e).1 v h1
  unfold getStatus
  rw [h3, show run um pt (run um pt (new n t) pre) [op] = step um pt (run um pt (new n t) pre) op from rfl, h4]

/-- **C30** Statuses never written or deleted since are empty. -/
theorem C30_getStatus_without_write (um : Str → Option XLang) (pt : Str → Str) (n t : Str) (h : List Op) (e : Str)
    (hw : NothingWritten (WritesStatus um) h e) : getStatus (run um pt (new n t) h) e = [] := by
  obtain ⟨pre, post, rfl, h1, h2⟩ := hw
  rw [run_append]
  have h3 := run_none um pt Lang.status (WritesStatus um) (fun l op e => (step_getStatus um pt l op e).2.1)
    (fun l e => (step_getStatus um pt l (.del e) e).2.2 rfl) post e h2 (run um pt (new n t) pre) ?_
  · unfold getStatus; rw [h3]
  · rcases h1 with rfl | h1
    · rfl
    · obtain ⟨pre', rfl⟩ := List.getLast?_eq_some_iff.1 h1
      rw [run_append]
      exact (step_getStatus um pt _ (.del e) e).2.2 rfl

/-- **C30** Name and language are those of the last SetName, SetLanguage or successful XML load, or those given to NewXLanguage. -/
theorem C30_name_and_language (um : Str → Option XLang) (pt : Str → Str) (n t : Str) (h : List Op) :
    LastGiven (Names um) h n (run um pt (new n t) h).name ∧ LastGiven (Tags um pt) h t (run um pt (new n t) h).tag := by
  constructor
  · refine lastGiven um pt Lang.name (Names um) ?_ ?_ (new n t) h
    · rintro l op v (rfl | ⟨data, d, rfl, hd, rfl⟩)
      · rfl
      · simp only [step, loadXML_eq hd]; exact (addEntries_names _ _).1
    · intro l op hv
      cases op with
      | set | setStatus | del | setLanguage => rfl
      | setName n => exact absurd (Or.inl rfl) (hv n)
      | load data => simp only [step, loadString_lines]; exact (foldl_rest _ l).2.1
      | loadXML data =>
        cases hd : um data with
        | none => simp [step, loadXML, hd]
        | some d => exact absurd (Or.inr ⟨data, d, rfl, hd, rfl⟩) (hv d.name)
  · refine lastGiven um pt Lang.tag (Tags um pt) ?_ ?_ (new n t) h
    · rintro l op v (rfl | ⟨data, d, rfl, hd, rfl⟩)
      · rfl
      · simp only [step, loadXML_eq hd]; exact (addEntries_names _ _).2
    · intro l op hv
      cases op with
      | set | setStatus | del | setName => rfl
      | setLanguage n => exact absurd (Or.inl rfl) (hv n)
      | load data => simp only [step, loadString_lines]; exact (foldl_rest _ l).2.2
      | loadXML data =>
        cases hd : um data with
        | none => simp [step, loadXML, hd]
        | some d => exact absurd (Or.inr ⟨data, d, rfl, hd, rfl⟩) (hv (pt d.language))

/-- **C30** `LastGiven` determines the value if a call gives at most one, as is the case here. -/
theorem C30_name_and_language_unique (um : Str → Option XLang) (pt : Str → Str) (h : List Op) (v0 v v' : Str) :
    (LastGiven (Names um) h v0 v → LastGiven (Names um) h v0 v' → v = v') ∧
    (LastGiven (Tags um pt) h v0 v → LastGiven (Tags um pt) h v0 v' → v = v') := by
  have gen : ∀ W : Op → Str → Prop, (∀ op a b, W op a → W op b → a = b) → LastGiven W h v0 v → LastGiven W h v0 v' → v = v' := by
    intro W hW
    rintro (⟨pre, op, post, rfl, q2, q3⟩ | ⟨q1, rfl⟩) (⟨pre', op', post', e, r2, r3⟩ | ⟨r1, rfl⟩)
    · simp only [List.append_assoc, List.singleton_append] at e
      rcases List.append_eq_append_iff.1 e with ⟨a, e1, e2⟩ | ⟨a, e1, e2⟩
      · cases a with
        | nil => simp at e2; rw [← e2.1] at r2; exact hW _ _ _ q2 r2
        | cons x a => simp at e2; exact absurd r2 (q3 op' (by rw [e2.2]; simp) v')
      · cases a with
        | nil => simp at e2; rw [e2.1] at r2; exact hW _ _ _ q2 r2
        | cons x a => simp at e2; exact absurd q2 (r3 op (by rw [e2.2]; simp) v)
    · exact absurd q2 (r1 op (by simp) v)
    · exact absurd r2 (q1 op' (by rw [e]; simp) v')
    · rfl
  refine ⟨gen _ ?_, gen _ ?_⟩
  · rintro op a b (rfl | ⟨data, d, rfl, hd, rfl⟩) (hh | ⟨data', d', e, hd', rfl⟩)
    · cases hh; rfl
    · cases e
    · cases hh
    · cases e; rw [hd] at hd'; cases hd'; rfl
  · rintro op a b (rfl | ⟨data, d, rfl, hd, rfl⟩) (hh | ⟨data', d', e, hd', rfl⟩)
    · cases hh; rfl
    · cases e
    · cases hh
    · cases e; rw [hd] at hd'; cases hd'; rfl

/-- Non-vacuity: a failed XML load does not change name and language, a successful one does. -/
example : let um : Str → Option XLang := fun s => if s = b!"good" then some ⟨b!"doc", b!"fr", []⟩ else none
    (run um id (new b!"n" b!"en") [.setName b!"m", .loadXML b!"bad"]).name = b!"m" ∧
    (run um id (new b!"n" b!"en") [.setName b!"m", .loadXML b!"good", .setLanguage b!"it"]).name = b!"doc" := by decide

open Classical in
/-- **C30** The two cases above cover every history and entry, so `Get` and `GetStatus` are determined in all cases. -/
theorem C30_cases_exhaustive (W : Op → Str → Str → Prop) (h : List Op) (e : Str) :
    (∃ v, LastWritten W h e v) ∨ NothingWritten W h e := by
  have key : ∀ (r : List Op), (∃ v, LastWritten W r.reverse e v) ∨ NothingWritten W r.reverse e := by
    intro r
    induction r with
    | nil => exact Or.inr ⟨[], [], rfl, Or.inl rfl, by simp⟩
    | cons op r ih =>
      rw [List.reverse_cons]
      by_cases hw : ∃ v, W op e v
      · obtain ⟨v, hv⟩ := hw
        exact Or.inl ⟨v, r.reverse, op, [], by simp, hv, by simp⟩
      · have hw' : ∀ v, ¬ W op e v := fun v hv => hw ⟨v, hv⟩
        by_cases hd : op = .del e
        · subst hd
          exact Or.inr ⟨r.reverse ++ [.del e], [], by simp, Or.inr (by simp), by simp⟩
        · rcases ih with ⟨v, pre, o, post, h1, h2, h3⟩ | ⟨pre, post, h1, h2, h3⟩
          · refine Or.inl ⟨v, pre, o, post ++ [op], by rw [h1]; simp, h2, ?_⟩
            intro o' ho'
            rcases List.mem_append.1 ho' with h' | h'
            · exact h3 o' h'
            · simp only [List.mem_singleton] at h'; subst h'; exact ⟨hd, hw'⟩
          · refine Or.inr ⟨pre, post ++ [op], by rw [h1]; simp, h2, ?_⟩
            intro o' ho'
            rcases List.mem_append.1 ho' with h' | h'
            · exact h3 o' h'
            · simp only [List.mem_singleton] at h'; subst h'; exact hw'
  simpa using key h.reverse

/-- Non-vacuity: a history with a Set, a load that overrides it, a Del of another entry. -/
example : LastWritten (Writes fun _ => none) [.set b!"a" b!"1", .load b!"# c\n a = 2\r\n", .del b!"b"] b!"a" b!"2" ∧
    NothingWritten (Writes fun _ => none) [.set b!"b" b!"1", .del b!"b", .set b!"a" b!"1"] b!"b" ∧
    get (run (fun _ => none) id (new [] []) [.set b!"a" b!"1", .load b!"# c\n a = 2\r\n", .del b!"b"]) b!"a" = b!"2" := by
  refine ⟨⟨[.set b!"a" b!"1"], .load b!"# c\n a = 2\r\n", [.del b!"b"], rfl, Or.inr (Or.inl ⟨_, rfl, ?_⟩), ?_⟩, ⟨[.set b!"b" b!"1", .del b!"b"], [.set b!"a" b!"1"], rfl, Or.inr rfl, ?_⟩, by decide⟩
  · refine ⟨[b!"# c"], b!" a = 2\r", [], by decide, ⟨b!" a ", b!" 2\r", rfl, by decide, by decide, by decide, trimSpace_iff.1 (by decide), by decide, trimSpace_iff.1 (by decide)⟩, by simp⟩
  · intro op hop
    simp only [List.mem_singleton] at hop
    subst hop
    refine ⟨by decide, ?_⟩
    rintro v (h | ⟨_, h, _⟩ | ⟨_, _, _, h, _⟩) <;> cases h
  · intro op hop v
    simp only [List.mem_singleton] at hop
    subst hop
    rintro (h | ⟨_, h, _⟩ | ⟨_, _, _, h, _⟩)
    · simp at h
    · cases h
    · cases h

/-! ## C31 -/

/-- **C31** Loading a text without over-long lines succeeds; afterwards an entry has the value of the last line assigning to it, and
the previous value if no line does; statuses, name and language stay. -/
theorem C31_load_assigns (l : Lang) (s : Str) (h : ¬ LongRun s) :
    (loadString l s).2 = false ∧
    (∀ k v, LastAssigns (lines s) k v → get (loadString l s).1 k = v) ∧
    (∀ k, Unassigned (lines s) k → get (loadString l s).1 k = get l k) ∧
    (loadString l s).1.status = l.status ∧ (loadString l s).1.name = l.name ∧ (loadString l s).1.tag = l.tag := by
  rw [loadString_ok h]
  refine ⟨rfl, ?_, ?_, foldl_rest _ l⟩
  · intro k v hk; unfold get; rw [foldl_last hk]
  · intro k hk; unfold get; rw [foldl_unassigned hk]

/-- **C31** The two cases cover every entry, and a line assigns at most one value to one entry. -/
theorem C31_assignment_unique (ls : List Str) (line k v k' v' : Str) :
    ((∃ v, LastAssigns ls k v) ∨ Unassigned ls k) ∧ (Assigns line k v → Assigns line k' v' → k = k' ∧ v = v') :=
  ⟨assigned_cases ls k, fun h h' => h.functional h'⟩

/-- **C31** Empty lines, comments, lines without `=` and lines with a blank key assign nothing. -/
theorem C31_ignored_lines (line k v : Str)
    (h : line = [] ∨ b!"#" <+: line ∨ b!";" <+: line ∨ 61 ∉ line ∨ ∃ a b, line = a ++ b!"=" ++ b ∧ 61 ∉ a ∧ Blank a) : ¬ Assigns line k v := by
  rintro ⟨a, b, h1, h2, h3, h4, h5, h6, _⟩
  rcases h with h | h | h | h | ⟨a', b', g1, g2, g3⟩
  · rw [h] at h1; simp at h1
  · exact h3 h
  · exact h4 h
  · apply h; rw [h1]; simp
  · have i1 := (indexByte_eq_some (c := 61) (i := a.length)).2 ⟨a, b, rfl, h2, rfl⟩
    have i2 := (indexByte_eq_some (c := 61) (i := a'.length)).2 ⟨a', b', rfl, g2, rfl⟩
    rw [h1] at g1
    simp only [List.append_assoc, List.singleton_append] at g1
    rw [g1, i2, Option.some.injEq] at i1
    have := (List.append_inj g1 i1.symm).1
    subst this
    rw [← trimmed_unique h5, blank_trim g3] at h6
    exact h6 rfl

/-- Non-vacuity: a text with a comment, blanks, a duplicate and a line without key. -/
example : ¬ LongRun b!"a=1\n;x=y\n=z\n a\t= 2 \r\n" ∧
    LastAssigns (lines b!"a=1\n;x=y\n=z\n a\t= 2 \r\n") b!"a" b!"2" ∧
    (loadString (new [] []) b!"a=1\n;x=y\n=z\n a\t= 2 \r\n").1.entries = [(b!"a", b!"2")] := by
  refine ⟨?_, ⟨[b!"a=1", b!";x=y", b!"=z"], b!" a\t= 2 \r", [], by decide, ⟨b!" a\t", b!" 2 \r", rfl, by decide, by decide, by decide, trimSpace_iff.1 (by decide), by decide, trimSpace_iff.1 (by decide)⟩, by simp⟩, by decide⟩
  rintro ⟨a, r, b, h1, h2, _⟩
  have := congrArg List.length h1
  simp [h2] at this
  omega

/-! ## C32 -/

theorem Carriable.assigns {p : Str × Str} (h : Carriable p) : Assigns (p.1 ++ b!"=" ++ p.2) p.1 p.2 := by
  refine ⟨p.1, p.2, rfl, h.key_eq, ?_, ?_, h.key_trim, h.key_ne, h.val_trim⟩
  all_goals
    intro e
    have hk := h.key_ne
    have h1 := h.key_hash
    have h2 := h.key_semi
    cases hp : p.1 with
    | nil => exact hk hp
    | cons c cs => rw [hp] at e h1 h2; simp [List.cons_prefix_cons] at e h1 h2; first | exact h1 e | exact h2 e

theorem lines_toText (m : AMap Str) (h : ∀ p ∈ m, Carriable p) : lines (toText m) = m.map (fun p => p.1 ++ b!"=" ++ p.2) := by
  have key : split 10 (toText m) = m.map (fun p => p.1 ++ b!"=" ++ p.2) ++ [[]] := by
    induction m with
    | nil => rfl
    | cons p m ih =>
      have hp := h p (by simp)
      have : (10 : UInt8) ∉ p.1 ++ b!"=" ++ p.2 := by
        simp only [List.mem_append, List.mem_singleton, not_or]
        exact ⟨⟨hp.key_nl, by decide⟩, hp.val_nl⟩
      have e : toText (p :: m) = (p.1 ++ b!"=" ++ p.2) ++ 10 :: toText m := by simp [toText]
      rw [e, split_append_sep this, ih (fun q hq => h q (by simp [hq]))]
      rfl
  unfold lines
  rw [key]
  simp

theorem toText_short (m : AMap Str) (h : ∀ p ∈ m, Carriable p) : ¬ LongRun (toText m) := by
  rw [← long_iff, lines_toText m h]
  simp only [List.any_eq_true, List.mem_map, Bool.not_eq_true', not_exists, not_and]
  rintro x ⟨p, hp, rfl⟩
  have := (h p hp).len
  simp only [short, decide_eq_false_iff_not, Nat.not_lt, List.length_append, List.length_singleton]
  omega

/-- **C32** A table whose keys are distinct and whose keys and values the format can carry is read back exactly: every entry of the
table gets its value, and nothing else appears. -/
theorem C32_text_round_trip (n t : Str) (m : AMap Str) (hn : m.Nodup) (h : ∀ p ∈ m, Carriable p) :
    (loadString (new n t) (toText m)).2 = false ∧
    ∀ k, (loadString (new n t) (toText m)).1.entries.get k = m.get k := by
  rw [loadString_ok (toText_short m h), lines_toText m h]
  refine ⟨rfl, ?_⟩
  intro k
  dsimp only
  have gen : ∀ (m : AMap Str), m.Nodup → (∀ p ∈ m, Carriable p) → ∀ l : Lang,
      (List.foldl loadLine l (m.map fun p => p.1 ++ b!"=" ++ p.2)).entries.get k =
        match m.get k with | some v => some v | none => l.entries.get k := by
    intro m
    induction m with
    | nil => intro _ _ l; rfl
    | cons p m ih =>
      intro hn h l
      simp only [AMap.Nodup, AMap.keys_cons, List.nodup_cons] at hn
      simp only [List.map_cons, List.foldl_cons]
      rw [loadLine_assigns (h p (by simp)).assigns, ih hn.2 (fun q hq => h q (by simp [hq]))]
      obtain ⟨a, b⟩ := p
      simp only [AMap.get]
      by_cases hk : a = k
      · subst hk
        rw [if_pos rfl, (AMap.get_eq_none_iff m a).2 hn.1]
        simp [set, AMap.get_set]
      · rw [if_neg hk]
        have hk' : k ≠ a := fun e => hk e.symm
        simp only [set, AMap.get_set, if_neg hk']
  rw [gen m hn h]
  cases m.get k <;> rfl

/-- Non-vacuity: a table with inner blanks, an empty value and a value with `=` and `#`. -/
example : let m : AMap Str := [(b!"a b", b!"x = #y"), (b!"c", b!"")]
    m.Nodup ∧ (∀ p ∈ m, Carriable p) := by
  refine ⟨by decide, ?_⟩
  intro p hp
  simp only [List.mem_cons, List.not_mem_nil, or_false] at hp
  rcases hp with rfl | rfl <;> exact ⟨by decide, trimSpace_iff.1 (by decide), by decide, by decide, by decide, by decide, trimSpace_iff.1 (by decide), by decide, by decide⟩

/-! ## C33 -/

/-- **C33** LoadString returns an error exactly when the text has 65536 consecutive bytes without newline. -/
theorem C33_error_iff_long_line (l : Lang) (s : Str) : (loadString l s).2 = true ↔ LongRun s := by
  unfold loadString
  rw [scan_lines]
  exact long_iff s

theorem takeWhile_short_trimLast (s : Str) (hs : LongRun s) :
    ∃ good rest, s = good ++ rest ∧ (good = [] ∨ good.getLast? = some 10) ∧ ¬ LongRun good ∧
      65536 ≤ rest.length ∧ (10 : UInt8) ∉ rest.take 65536 ∧ lines good = (lines s).takeWhile short := by
  -- walk over the pieces
  have gen : ∀ n s, s.length = n → LongRun s →
      ∃ good rest, s = good ++ rest ∧ (good = [] ∨ good.getLast? = some 10) ∧ ¬ LongRun good ∧
      65536 ≤ rest.length ∧ (10 : UInt8) ∉ rest.take 65536 ∧ lines good = (lines s).takeWhile short := by
    intro n
    induction n using Nat.strongRecOn with
    | _ n ih =>
      intro s hn hs
      by_cases hnl : (10 : UInt8) ∈ s
      · obtain ⟨p, q, hpq, hp⟩ : ∃ p q, s = p ++ 10 :: q ∧ (10 : UInt8) ∉ p := by
          cases hi : indexByte 10 s with
          | none => exact absurd hnl (indexByte_eq_none.1 hi)
          | some i => obtain ⟨a, b, h1, h2, _⟩ := indexByte_eq_some.1 hi; exact ⟨a, b, h1, h2⟩
        have hls : lines s = p :: lines q := by
          show trimLast (split 10 s) = p :: trimLast (split 10 q)
          rw [hpq, split_append_sep hp, trimLast_cons (split_ne_nil _ _)]
        by_cases hps : short p = true
        · have hq : LongRun q := by
            rw [← long_iff] at hs ⊢
            rw [hls] at hs
            simpa [hps] using hs
          obtain ⟨good, rest, h1, h2, h3, h4, h5, h6⟩ := ih q.length (by rw [← hn, hpq]; simp; omega) q rfl hq
          have hlg : lines (p ++ 10 :: good) = p :: lines good := by
            show trimLast (split 10 _) = p :: trimLast (split 10 good)
            rw [split_append_sep hp, trimLast_cons (split_ne_nil _ _)]
          refine ⟨p ++ 10 :: good, rest, by rw [hpq, h1]; simp, Or.inr ?_, ?_, h4, h5, ?_⟩
          · rcases h2 with rfl | h2
            · simp
            · rw [List.getLast?_append, Option.or_eq_some_iff]; left
              cases good with
              | nil => simp at h2
              | cons x xs => rw [List.getLast?_cons_cons]; exact h2
          · rw [← long_iff] at h3 ⊢
            rw [hlg]
            simpa [hps] using h3
          · rw [hlg, h6, hls, List.takeWhile_cons, if_pos hps]
        · have hpl : 65536 ≤ p.length := by simpa [short] using hps
          refine ⟨[], s, rfl, Or.inl rfl, ?_, ?_, ?_, ?_⟩
          · rintro ⟨a, r, b, h1, h2, _⟩
            have := congrArg List.length h1
            simp only [List.length_nil, List.length_append] at this
            omega
          · rw [hpq]; simp; omega
          · rw [hpq, List.take_append_of_le_length hpl]; exact fun hm => hp (List.mem_of_mem_take hm)
          · rw [hls, List.takeWhile_cons, if_neg hps]; rfl
      · have hlen : 65536 ≤ s.length := by
          obtain ⟨a, r, b, rfl, h2, _⟩ := hs
          simp only [List.length_append]; omega
        refine ⟨[], s, rfl, Or.inl rfl, ?_, hlen, fun hm => hnl (List.mem_of_mem_take hm), ?_⟩
        · rintro ⟨a, r, b, h1, h2, _⟩
          have := congrArg List.length h1
          simp only [List.length_nil, List.length_append] at this
          omega
        · have : lines s = [s] := by
            unfold lines
            rw [split_of_not_mem hnl]
            simp only [List.getLast?_singleton, Option.some.injEq]
            rw [if_neg (by rintro rfl; simp at hlen)]
          rw [this, List.takeWhile_cons, if_neg (by simpa [short] using hlen)]; rfl
  exact gen s.length s rfl hs

/-- **C33** On error exactly the lines before the first over-long line have been loaded: the text splits into `good`, which consists of
complete lines and loads without error, and a rest starting with 65536 bytes without newline; the table is as after loading `good`. -/
theorem C33_lines_before_are_loaded (l : Lang) (s : Str) (h : (loadString l s).2 = true) :
    ∃ good rest, s = good ++ rest ∧ (good = [] ∨ good.getLast? = some 10) ∧ 65536 ≤ rest.length ∧ (10 : UInt8) ∉ rest.take 65536 ∧
      loadString l good = ((loadString l s).1, false) := by
  rw [C33_error_iff_long_line] at h
  obtain ⟨good, rest, h1, h2, h3, h4, h5, h6⟩ := takeWhile_short_trimLast s h
  refine ⟨good, rest, h1, h2, h4, h5, ?_⟩
  rw [loadString_ok h3, loadString_lines, h6]
  rfl

/-- Non-vacuity: a long line after a short one; its length is the limit exactly. -/
example : (loadString (new [] []) (b!"a=1\n" ++ List.replicate 65536 97)).2 = true ∧
    ¬ LongRun (b!"a=1\n" ++ List.replicate 65535 97) := by
  constructor
  · rw [C33_error_iff_long_line]
    exact ⟨b!"a=1\n", List.replicate 65536 97, [], by rw [List.append_nil], List.length_replicate, by
      intro h; rw [List.mem_replicate] at h; exact absurd h.2 (by decide)⟩
  · rw [← long_iff]
    have h1 : (10 : UInt8) ∉ List.replicate 65535 (97 : UInt8) := by
      intro h; rw [List.mem_replicate] at h; exact absurd h.2 (by decide)
    have h3 : (List.replicate 65535 (97 : UInt8)).length = 65535 := List.length_replicate
    generalize List.replicate 65535 (97 : UInt8) = r at h1 h3
    have h2 : lines (b!"a=1\n" ++ r) = [b!"a=1", r] := by
      show trimLast (split 10 (b!"a=1" ++ 10 :: r)) = _
      rw [split_append_sep (by decide), split_of_not_mem h1, trimLast_cons (by simp)]
      unfold trimLast
      rw [List.getLast?_singleton, if_neg]
      rintro e
      rw [Option.some.inj e] at h3
      simp at h3
    rw [h2]
    simp only [List.any_cons, List.any_nil, short, h3]
    decide

/-! ## C34 -/

/-- **C34 is false as documented** ("replace the content of the XLanguage structure with the new data"): loading keeps the old
entries. -/
theorem C34_load_merges :
    get (loadString (set (new b!"n" b!"en") b!"old" b!"v") b!"k=w").1 b!"old" = b!"v" ∧
    get (loadXML (fun _ => some ⟨b!"n", b!"en", [⟨b!"k", b!"w", b!""⟩]⟩) id (set (new b!"n" b!"en") b!"old" b!"v") b!"<doc>").1 b!"old" = b!"v" := by
  decide

/-- **C34 (part)** Loading into a table without entries and statuses gives exactly the new data: entries not assigned by the data are
absent. (Missing: with previous content, entries not mentioned in the data stay, `C34_load_merges`.) -/
theorem C34_load_into_empty_partial (um : Str → Option XLang) (pt : Str → Str) (n t s : Str) (k : Str) :
    (Unassigned (loadable s) k → (loadString (new n t) s).1.entries.get k = none) ∧
    (∀ d, um s = some d → (∀ e ∈ d.entries, e.id ≠ k) →
      (loadXML um pt (new n t) s).1.entries.get k = none ∧ (loadXML um pt (new n t) s).1.status.get k = none) := by
  constructor
  · intro h
    rw [loadString_lines]
    exact foldl_unassigned (ls := loadable s) h _
  · intro d hd h
    rw [loadXML_eq hd]
    exact addEntries_other h _

/-! ## C36 -/

/-- **C36** A failed XML load changes nothing. -/
theorem C36_failed_load_changes_nothing (um : Str → Option XLang) (pt : Str → Str) (l : Lang) (s : Str)
    (h : (loadXML um pt l s).2 = true) : (loadXML um pt l s).1 = l ∧ um s = none := by
  unfold loadXML at h ⊢
  cases hu : um s with
  | none => simp
  | some d => rw [hu] at h; simp at h

/-- **C36** A successful load sets name and language, gives every entry of the document its last text and status, and leaves every
other entry and status as it was. -/
theorem C36_load_sets_document (um : Str → Option XLang) (pt : Str → Str) (l : Lang) (s : Str) (d : XLang) (h : um s = some d) :
    (loadXML um pt l s).2 = false ∧ (loadXML um pt l s).1.name = d.name ∧ (loadXML um pt l s).1.tag = pt d.language ∧
    (∀ k v st, LastEntry d k v st → get (loadXML um pt l s).1 k = v ∧ getStatus (loadXML um pt l s).1 k = st) ∧
    (∀ k, (∀ e ∈ d.entries, e.id ≠ k) →
      get (loadXML um pt l s).1 k = get l k ∧ getStatus (loadXML um pt l s).1 k = getStatus l k) := by
  rw [loadXML_eq h]
  refine ⟨rfl, (addEntries_names _ _).1, (addEntries_names _ _).2, ?_, ?_⟩
  · rintro k v st ⟨pre, post, h1, h2⟩
    obtain ⟨h3, h4⟩ := addEntries_last h1 h2 { l with name := d.name, tag := pt d.language }
    unfold get getStatus; rw [h3, h4]; exact ⟨rfl, rfl⟩
  · intro k hk
    obtain ⟨h3, h4⟩ := addEntries_other hk { l with name := d.name, tag := pt d.language }
    unfold get getStatus; rw [h3, h4]; exact ⟨rfl, rfl⟩

/-- Non-vacuity: a document with a duplicate entry. -/
example : LastEntry ⟨b!"n", b!"en", [⟨b!"k", b!"1", b!""⟩, ⟨b!"k", b!"2", b!"ok"⟩, ⟨b!"j", b!"3", b!""⟩]⟩ b!"k" b!"2" b!"ok" :=
  ⟨[⟨b!"k", b!"1", b!""⟩], [⟨b!"j", b!"3", b!""⟩], rfl, by decide⟩

/-! ## C37 -/

/-- **C37** On every table a history can produce, GetEntries answers with a map that has exactly the entries of the table. As the copy is
a value of its own, later calls on the table do not change it: see `C37_copy_not_affected`. -/
theorem C37_getEntries_equals_table (um : Str → Option XLang) (pt : Str → Str) (n t : Str) (h : List Op) (k : Str) :
    (getEntries (run um pt (new n t) h)).get k = (run um pt (new n t) h).entries.get k ∧
    (getEntries (run um pt (new n t) h)).length = (run um pt (new n t) h).entries.length := by
  have hn := (run_nodup um pt (l := new n t) ⟨AMap.nodup_nil, AMap.nodup_nil⟩ h).1
  have gen : ∀ (m acc : AMap Str), m.Nodup → (∀ k ∈ m.keys, k ∉ acc.keys) →
      m.foldl (fun clone p => clone.set p.1 p.2) acc = acc ++ m := by
    intro m
    induction m with
    | nil => intro acc _ _; simp
    | cons p m ih =>
      intro acc hn hd
      simp only [AMap.Nodup, AMap.keys_cons, List.nodup_cons] at hn
      have hset : acc.set p.1 p.2 = acc ++ [p] := by
        have hp : p.1 ∉ acc.keys := hd p.1 (by simp)
        clear ih hd hn
        induction acc with
        | nil => rfl
        | cons q acc ih =>
          simp only [AMap.keys_cons, List.mem_cons, not_or] at hp
          simp only [AMap.set, if_neg (fun e => hp.1 (Eq.symm e)), List.cons_append]
          rw [ih hp.2]
      rw [List.foldl_cons, hset, ih _ hn.2]
      · simp
      · intro k hk
        simp only [AMap.keys, List.map_append, List.map_cons, List.map_nil, List.mem_append, List.mem_singleton, not_or]
        refine ⟨hd k (by simp [hk]), ?_⟩
        rintro rfl; exact hn.1 hk
  unfold getEntries
  rw [gen _ [] hn (by simp), List.nil_append]
  exact ⟨rfl, rfl⟩

/-- **C37** Whatever callers do with the maps they received, the table is what its own calls made it. -/
theorem C37_table_not_affected (um : Str → Option XLang) (pt : Str → Str) (n t : Str) (es : List Event) :
    ((World.new n t).run um pt es).table = run um pt (new n t) (tableCalls es) := by
  have gen : ∀ (es : List Event) (w : World), w.Ok → (w.run um pt es).table = run um pt w.table (tableCalls es) := by
    intro es
    induction es with
    | nil => intro w _; rfl
    | cons e es ih =>
      intro w h
      have h1 := ih _ (w.step_ok um pt e h)
      rw [w.step_table um pt e h] at h1
      show ((w.step um pt e).run um pt es).table = _
      rw [h1]
      cases e <;> rfl
  exact gen es _ (World.new_ok n t)

/-- **C37** The map a call of GetEntries returns has, after any later events, the entries the table had at the time of the call, changed
only by the caller's own stores into that very map. -/
theorem C37_copy_not_affected (um : Str → Option XLang) (pt : Str → Str) (n t : Str) (before later : List Event) :
    let w := (World.new n t).run um pt before
    (w.getEntries.1.run um pt later).at w.getEntries.2 = callerEdits w.copies.length (getEntries w.table) later := by
  intro w
  have hw : w.Ok := World.run_ok um pt before _ (World.new_ok n t)
  have gen : ∀ (es : List Event) (w : World) (i a : Nat), w.Ok → w.copies[i]? = some a → (w.run um pt es).at a = callerEdits i (w.at a) es := by
    intro es
    induction es with
    | nil => intro w i a _ _; rfl
    | cons e es ih =>
      intro w i a h hi
      have h1 := ih _ i a (w.step_ok um pt e h) (w.step_copies um pt e i a hi)
      rw [w.step_at um pt e h i a hi] at h1
      show ((w.step um pt e).run um pt es).at a = _
      rw [h1]
      cases e <;> rfl
  have h2 := gen later w.getEntries.1 w.copies.length w.getEntries.2 (w.getEntries_ok hw) (by simp [World.getEntries])
  rw [h2]
  congr 1
  simp [World.getEntries, World.at]

/-- Non-vacuity: the table and a copy both change after the copy was made. -/
example : let w := (World.new [] []).run (fun _ => none) id [.call (.set b!"a" b!"1"), .getEntries, .call (.set b!"a" b!"2"), .callerSet 0 b!"b" b!"3"]
    w.table.entries = [(b!"a", b!"2")] ∧ w.at 2 = [(b!"a", b!"1"), (b!"b", b!"3")] := by decide

/-! ## C20, language part -/

/-- **C20** String and GetXML do not depend on the order in which the runtime iterates over the entries. -/
theorem C20_language_printing_order_independent (l l' : Lang) (hp : l.entries.Perm l'.entries) (hs : ∀ k, l.status.get k = l'.status.get k)
    (hn : l.name = l'.name) (ht : l.tag = l'.tag) (quote : Str → Str) :
    toString l = toString l' ∧ goString quote l = goString quote l' ∧ getXML l = getXML l' := by
  unfold toString goString getXML
  rw [sortStrs_congr (hp.map _), sortStrs_congr (hp.map (fun p : Str × Str => p.1 ++ b!":" ++ quote p.2)), hn, ht]
  refine ⟨rfl, rfl, ?_⟩
  have : xmlEntry l.status = xmlEntry l'.status := by funext p; simp [xmlEntry, hs]
  rw [this, sortStrs_congr (hp.map _)]

/-- **C20** String lists every entry of the table once, as `key:value`, in ascending order. -/
theorem C20_language_string_lists_entries (l : Lang) :
    ∃ parts : List Str, parts.Perm (l.entries.map fun p => p.1 ++ b!":" ++ p.2) ∧ SortedStrs parts ∧
      toString l = b!"xcore.XLanguage{" ++ join b!" " parts ++ b!"}" :=
  ⟨sortStrs (l.entries.map fun p => p.1 ++ b!":" ++ p.2), sortStrs_perm _, sortStrs_sorted _, rfl⟩

/-- **C20** GoString lists every entry of the table once, as key and quoted value, in ascending order. -/
theorem C20_language_goString_lists_entries (quote : Str → Str) (l : Lang) :
    ∃ parts : List Str, parts.Perm (l.entries.map fun p => p.1 ++ b!":" ++ quote p.2) ∧ SortedStrs parts ∧
      goString quote l = b!"#xcore.XLanguage{" ++ join b!" " parts ++ b!"}" :=
  ⟨sortStrs (l.entries.map fun p => p.1 ++ b!":" ++ quote p.2), sortStrs_perm _, sortStrs_sorted _, rfl⟩

/-- Non-vacuity: two iteration orders of the same table. -/
example : let l := set (set (new b!"n" b!"en") b!"b" b!"1") b!"a" b!"2"
    toString l = b!"xcore.XLanguage{a:2 b:1}" ∧ toString { l with entries := l.entries.reverse } = b!"xcore.XLanguage{a:2 b:1}" := by decide

end Xcore.Language
