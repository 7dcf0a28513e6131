import Verif.Proof.LanguageConc

/-!
# Properties C77 and C78: goroutines using one language table, loads included

`calls i` are the calls goroutine `i` makes; their critical sections are interleaved access by access, `Name` and `Language` are accessed
without lock (`Verif/Model/LanguageConc.lean`). `um` and `pt` stand for `xml.Unmarshal` and `language.Parse`.
-/

namespace Xcore.Language

open Lock

/-! ## C77 -/

/-- **C77** Whenever nobody is changing the table, every entry has the value and the status it had at the beginning, none if some call deletes
it, or one that some call gives it: by `Set`, `SetStatus`, by one line of a text, by one entry of a document. -/
theorem C77_entries_come_from_calls (um : Str → Option XLang) (l0 : Lang) (calls : Nat → List Call) (c : Config Lang (Frame TSOut TSOut))
    (h : Reach (start um l0 calls) c) (hq : Quiet c) (k : Str) :
    Explained (Gives um) calls k (l0.entries.get k) (c.shared.entries.get k) ∧
    Explained (GivesStatus um) calls k (l0.status.get k) (c.shared.status.get k) := by
  obtain ⟨hist, h1, _, _, h4⟩ := start_history h
  rw [h4 hq]
  exact ⟨explained values um calls hist h1 l0 k, explained statuses um calls hist h1 l0 k⟩

/-- **C77** The same for what `Get` and `GetStatus` answer while others write and load: `p` counts the critical sections goroutine `i` has gone
through. -/
theorem C77_answers_come_from_calls (um : Str → Option XLang) (l0 : Lang) (calls : Nat → List Call) (c : Config Lang (Frame TSOut TSOut))
    (h : Reach (start um l0 calls) c) (i : Nat) (hi : (c.threads i).cur = none) (p : Nat) (o : Option TSOut)
    (ho : (c.threads i).loc.outs[p]? = some o) (k : Str) :
    ((allSections um (calls i))[p]? = some (.get k) → ∃ now, Explained (Gives um) calls k (l0.entries.get k) now ∧ o = some (.str (now.getD []))) ∧
    ((allSections um (calls i))[p]? = some (.getStatus k) →
      ∃ now, Explained (GivesStatus um) calls k (l0.status.get k) now ∧ o = some (.str (now.getD []))) := by
  obtain ⟨hist, h1, _, h3, _⟩ := start_history h
  rw [h3 i hi] at ho
  obtain ⟨pre, op, post, e1, e2, e3⟩ := answersTo_prefix tsSeq l0 hist i p o ho
  have hpre : HistoryOf um calls pre := by rw [e1, List.append_assoc] at h1; exact h1.take
  have hop : (allSections um (calls i))[p]? = some op := getElem?_of_position e1 e2 (h1 i)
  constructor
  · intro hg
    rw [hop, Option.some.injEq] at hg
    subst hg
    refine ⟨_, explained values um calls pre hpre l0 k, ?_⟩
    rw [e3]
    simp only [tsSeq, answer, get, values]
    cases (runCalls tsSeq l0 (pre.map Prod.snd)).1.entries.get k <;> rfl
  · intro hg
    rw [hop, Option.some.injEq] at hg
    subst hg
    refine ⟨_, explained statuses um calls pre hpre l0 k, ?_⟩
    rw [e3]
    simp only [tsSeq, answer, getStatus, statuses]
    cases (runCalls tsSeq l0 (pre.map Prod.snd)).1.status.get k <;> rfl

/-- **C77** When all calls have been made, every entry holds what one of the goroutines whose calls give it a value or delete it would have left
there had it made its calls alone; an entry no call concerns is as it was. -/
theorem C77_last_writer_wins (um : Str → Option XLang) (pt : Str → Str) (l0 : Lang) (calls : Nat → List Call) (c : Config Lang (Frame TSOut TSOut))
    (h : Reach (start um l0 calls) c) (hf : Finished c) (k : Str) :
    ((∃ i, Concerns (Gives um) (calls i) k) → ∃ i, Concerns (Gives um) (calls i) k ∧
      c.shared.entries.get k = (run um pt l0 (changes (calls i))).entries.get k) ∧
    ((∀ i, ¬ Concerns (Gives um) (calls i) k) → c.shared.entries.get k = l0.entries.get k) ∧
    ((∃ i, Concerns (GivesStatus um) (calls i) k) → ∃ i, Concerns (GivesStatus um) (calls i) k ∧
      c.shared.status.get k = (run um pt l0 (changes (calls i))).status.get k) ∧
    ((∀ i, ¬ Concerns (GivesStatus um) (calls i) k) → c.shared.status.get k = l0.status.get k) := by
  obtain ⟨hist, _, h2, _, h4⟩ := start_history h
  have hall : ∀ i, (hist.filter fun p => p.1 = i).map Prod.snd = allSections um (calls i) := by
    intro i
    rw [h2 i, (hf i).1, (hf i).2]
    simp
  rw [h4 fun i sec hc => by rw [(hf i).1] at hc; cases hc]
  exact ⟨(last_writer values um pt calls hist hall l0 k).1, (last_writer values um pt calls hist hall l0 k).2,
    (last_writer statuses um pt calls hist hall l0 k).1, (last_writer statuses um pt calls hist hall l0 k).2⟩

/-- **C77** So an entry that only one goroutine's calls concern ends as that goroutine's calls alone would have left it, whatever the others do
at the same time. -/
theorem C77_undisturbed_entry (um : Str → Option XLang) (pt : Str → Str) (l0 : Lang) (calls : Nat → List Call) (c : Config Lang (Frame TSOut TSOut))
    (h : Reach (start um l0 calls) c) (hf : Finished c) (k : Str) (i : Nat) (hi : ∀ j, j ≠ i → ¬ Concerns (Gives um) (calls j) k) :
    get c.shared k = get (run um pt l0 (changes (calls i))) k := by
  obtain ⟨h1, h2, _, _⟩ := C77_last_writer_wins um pt l0 calls c h hf k
  unfold get
  by_cases hc : Concerns (Gives um) (calls i) k
  · obtain ⟨j, hj, e⟩ := h1 ⟨i, hc⟩
    by_cases hji : j = i
    · subst hji; rw [e]
    · exact absurd hj (hi j hji)
  · rw [h2 fun j hj => if hji : j = i then hc (hji ▸ hj) else hi j hji hj]
    have e := run_col values um pt k (calls i) l0
    have e2 : lastEff ((allSections um (calls i)).map (values.eff k)) = none := by
      rcases Option.eq_none_or_eq_some (lastEff ((allSections um (calls i)).map (values.eff k))) with hx | ⟨x, hx⟩
      · exact hx
      · exact absurd ((concerns_iff values um (calls i) k).2 (by rw [hx]; simp)) hc
    rw [e2] at e
    rw [show (run um pt l0 (changes (calls i))).entries.get k = l0.entries.get k from e]

/-- **C77** Name and language: at every moment they are what they were at the beginning or what one call gives; what goroutines read (`seen`, in
the order of their reading accesses) is too. -/
theorem C77_names_come_from_calls (um : Str → Option XLang) (pt : Str → Str) (n t : Str) (calls : Nat → List Call) (c : NameConfig)
    (h : NameReach (nameStart um pt n t calls) c) :
    (c.name = n ∨ ∃ i, ∃ call ∈ calls i, GivesName um call c.name) ∧ (c.tag = t ∨ ∃ i, ∃ call ∈ calls i, GivesLanguage um pt call c.tag) ∧
    ∀ (i p : Nat) (v : Str), (c.seen i)[p]? = some v →
      (((calls i).flatMap reads)[p]? = some NameAccess.readName ∧ (v = n ∨ ∃ j, ∃ call ∈ calls j, GivesName um call v)) ∨
      (((calls i).flatMap reads)[p]? = some NameAccess.readLanguage ∧
        (v = t ∨ ∃ j, ∃ call ∈ calls j, GivesLanguage um pt call v)) := by
  simp only [← reads_eq um pt]
  obtain ⟨hist, hi⟩ := nameInv_reach h
  refine ⟨?_, ?_, ?_⟩
  · rw [hi.name]; exact name_explained fun p hp => hi.mem hp
  · rw [hi.tag]; exact tag_explained fun p hp => hi.mem hp
  · intro i p v hv
    obtain ⟨pre, h1, h2⟩ := hi.seen i p v hv
    have hpre : ∀ q ∈ pre, q.2 ∈ allNameAccesses um pt (calls q.1) := fun q hq => hi.mem (h1.subset hq)
    have hget : ∀ a, (((hist.filter fun p => p.1 = i).map Prod.snd).filter isRead)[p]? = some a →
        ((allNameAccesses um pt (calls i)).filter isRead)[p]? = some a := by
      intro a ha
      have ho : allNameAccesses um pt (calls i) = _ := (hi.order i).symm
      rw [ho, List.filter_append, List.getElem?_append_left ?_, ha]
      rcases Nat.lt_or_ge p (((hist.filter fun p => p.1 = i).map Prod.snd).filter isRead).length with hlt | hge
      · exact hlt
      · rw [List.getElem?_eq_none hge] at ha; cases ha
    rcases h2 with ⟨h2, h3⟩ | ⟨h2, h3⟩
    · refine Or.inl ⟨hget _ h2, ?_⟩
      rw [h3]; exact name_explained hpre
    · refine Or.inr ⟨hget _ h2, ?_⟩
      rw [h3]; exact tag_explained hpre

/-- **C77** When all calls have been made, the name is the one that one of the goroutines that give names would have left alone; the same for the
language. -/
theorem C77_last_name_wins (um : Str → Option XLang) (pt : Str → Str) (l0 : Lang) (calls : Nat → List Call) (c : NameConfig)
    (h : NameReach (nameStart um pt l0.name l0.tag calls) c) (hf : ∀ i, c.todo i = []) :
    ((∃ i, ∃ call ∈ calls i, ∃ n, GivesName um call n) → ∃ i, (∃ call ∈ calls i, ∃ n, GivesName um call n) ∧
      c.name = (run um pt l0 (changes (calls i))).name) ∧
    ((∃ i, ∃ call ∈ calls i, ∃ t, GivesLanguage um pt call t) → ∃ i, (∃ call ∈ calls i, ∃ t, GivesLanguage um pt call t) ∧
      c.tag = (run um pt l0 (changes (calls i))).tag) := by
  obtain ⟨hist, hi⟩ := nameInv_reach h
  have hall : ∀ i, (hist.filter fun p => p.1 = i).map Prod.snd = allNameAccesses um pt (calls i) := by
    intro i
    have := hi.order i
    rw [hf i, List.append_nil] at this
    exact this
  have none_of : ∀ (f : NameAccess → Option Str), lastEff (hist.map fun p => f p.2) = none →
      ∀ i, lastEff ((allNameAccesses um pt (calls i)).map f) = none := by
    intro f e i
    rw [← hall i]
    rw [lastEff_eq_none] at e ⊢
    intro x hx
    obtain ⟨a, ha, rfl⟩ := List.mem_map.1 hx
    obtain ⟨q, hq, rfl⟩ := List.mem_map.1 ha
    exact e _ (List.mem_map.2 ⟨q, (List.mem_filter.1 hq).1, rfl⟩)
  constructor
  · rintro ⟨j, hj⟩
    rw [gives_name_iff (pt := pt)] at hj
    cases e : lastEff (hist.map fun p => nameEff p.2) with
    | none => exact absurd (none_of nameEff e j) hj
    | some x =>
      obtain ⟨i, h1⟩ := lastEff_interleaved nameEff hist e
      rw [hall i] at h1
      refine ⟨i, (gives_name_iff (pt := pt)).2 (by rw [h1]; simp), ?_⟩
      rw [(run_names um pt (calls i) l0).1, hi.name, e, h1]
  · rintro ⟨j, hj⟩
    rw [gives_tag_iff] at hj
    cases e : lastEff (hist.map fun p => tagEff p.2) with
    | none => exact absurd (none_of tagEff e j) hj
    | some x =>
      obtain ⟨i, h1⟩ := lastEff_interleaved tagEff hist e
      rw [hall i] at h1
      refine ⟨i, gives_tag_iff.2 (by rw [h1]; simp), ?_⟩
      rw [(run_names um pt (calls i) l0).2, hi.tag, e, h1]

/-! ## C78 -/

/-- **C78 (part)** If nobody loads a text (`LoadString`), calls are atomic as far as entries and statuses go: there is an order of calls, keeping the order of
the calls of every goroutine, such that whenever nobody is changing the table it is the one these calls leave when made one after the other,
and every answer to a goroutine (of its `p`-th call that uses the table) is the one its call gives in this order. So a document is seen whole or
not at all. (Missing: `LoadString`, which is seen line by line, `C78_text_is_seen_in_parts`; name and language, which are set without
lock, `C78_names_of_documents_mix`; of the answer of `GetXML`, which reads them, the entries and statuses are as in this order.) -/
theorem C78_calls_without_text_loads_are_atomic_partial (um : Str → Option XLang) (pt : Str → Str) (l0 : Lang) (calls : Nat → List Call)
    (hl : ∀ i data, .change (.load data) ∉ calls i) (c : Config Lang (Frame TSOut TSOut)) (h : Reach (start um l0 calls) c) :
    ∃ hist : List (Nat × Call), (∀ i, (hist.filter fun p => p.1 = i).map Prod.snd <+: (calls i).filter (Uses um)) ∧
      (Quiet c → c.shared.entries = (run um pt l0 (changes (hist.map Prod.snd))).entries ∧
        c.shared.status = (run um pt l0 (changes (hist.map Prod.snd))).status) ∧
      (∀ (i p : Nat) (o : Option TSOut), (c.threads i).cur = none → (c.threads i).loc.outs[p]? = some o →
        ∃ pre call post, hist = pre ++ [(i, call)] ++ post ∧ ((calls i).filter (Uses um))[p]? = some call ∧
          (call ≠ .getXML → o = some (answerOf (run um pt l0 (changes (pre.map Prod.snd))) call)) ∧
          (call = .getXML → ∃ n t, o = some (answerOf { run um pt l0 (changes (pre.map Prod.snd)) with name := n, tag := t } call))) := by
  obtain ⟨hist, h1, h2, h3⟩ := start_call_history hl h
  have hcall : ∀ q ∈ hist, Uses um q.2 = true ∧ ∀ data, q.2 ≠ .change (.load data) := by
    intro q hq
    have hm := (h1 q.1).subset (List.mem_map.2 ⟨q, List.mem_filter.2 ⟨hq, by simp⟩, rfl⟩)
    obtain ⟨hm1, hm2⟩ := List.mem_filter.1 hm
    exact ⟨hm2, fun data e => hl q.1 data (e ▸ hm1)⟩
  have hcalls : ∀ pre : List (Nat × Call), (∀ q ∈ pre, q ∈ hist) → allSections um (pre.map Prod.snd) = (pre.map Prod.snd).map (sectionOf um) := by
    intro pre hp
    apply allSections_hist
    intro call hc
    obtain ⟨q, hq, rfl⟩ := List.mem_map.1 hc
    exact hcall q (hp q hq)
  refine ⟨hist, h1, ?_, ?_⟩
  · intro hq
    rw [h3 hq, ← hcalls hist fun q hq => hq]
    exact run_runCalls um pt _ ⟨rfl, rfl⟩
  · intro i p o hi ho
    rw [h2 i hi] at ho
    obtain ⟨pre, op, post, e1, e2, e3⟩ := answersTo_prefix tsSeq l0 _ i p o ho
    rw [List.append_assoc] at e1
    obtain ⟨pre', rest, q1, q2, q3⟩ := List.map_eq_append_iff.1 e1
    obtain ⟨q, post', q4, q5, q6⟩ := List.map_eq_cons_iff.1 q3
    obtain ⟨j, call⟩ := q
    simp only [Prod.mk.injEq] at q5
    obtain ⟨rfl, q5⟩ := q5
    have hmem : (j, call) ∈ hist := by rw [q1, q4]; simp
    refine ⟨pre', call, post', by rw [q1, q4]; simp, ?_, ?_⟩
    · refine getElem?_of_position (pre := pre') (post := post') (by rw [q1, q4]; simp) ?_ (h1 j)
      rw [e2, ← q2]
      simp [List.filter_map, Function.comp_def]
    · have hs : SameTable (runCalls tsSeq l0 (pre.map Prod.snd)).1 (run um pt l0 (changes (pre'.map Prod.snd))) := by
        have := run_runCalls um pt (pre'.map Prod.snd) (l := l0) (l' := l0) ⟨rfl, rfl⟩
        rw [hcalls pre' (fun q hq => by rw [q1]; exact List.mem_append_left _ hq)] at this
        rw [← q2]
        simpa [List.map_map, Function.comp_def] using this
      rw [e3, ← q5]
      refine ⟨fun hx => answer_sectionOf hs (hcall _ hmem).2 (hcall _ hmem).1 hx, ?_⟩
      rintro rfl
      exact answer_getXML hs

/-- **C78** (false as stated) A text is seen line by line: while goroutine 0 loads a text of two lines, goroutine 1 asks for the entries and gets
the first without the second. -/
theorem C78_text_is_seen_in_parts (um : Str → Option XLang) : ∃ c : Config Lang (Frame TSOut TSOut),
    Reach (start um (new b!"n" b!"en") fun i => if i = 0 then [.change (.load b!"a=1\nb=2")] else if i = 1 then [.getEntries] else []) c ∧
    (c.threads 1).cur = none ∧ (c.threads 1).loc.outs = [some (.map [(b!"a", b!"1")])] ∧
    (loadString (new b!"n" b!"en") b!"a=1\nb=2").1.entries = [(b!"a", b!"1"), (b!"b", b!"2")] := by
  refine ⟨_, .step (.step (.step (.step (.step (.step .refl (.lock (i := 0) rfl rfl rfl rfl rfl)) (.access (i := 0) rfl rfl)) (.unlock (i := 0) rfl rfl rfl))
    (.rlock (i := 1) rfl rfl rfl rfl)) (.access (i := 1) rfl rfl)) (.runlock (i := 1) rfl rfl rfl), ?_⟩
  exact ⟨rfl, rfl, by decide⟩

/-- **C78** (false as stated) Name and language of documents mix: whatever the two documents, goroutines 0 and 1 loading them at the same time can
leave the name of the first and the language of the second. -/
theorem C78_names_of_documents_mix (um : Str → Option XLang) (pt : Str → Str) (n t data1 data2 : Str) (d1 d2 : XLang) (h1 : um data1 = some d1)
    (h2 : um data2 = some d2) : ∃ c, NameReach (nameStart um pt n t
      fun i => if i = 0 then [.change (.loadXML data1)] else if i = 1 then [.change (.loadXML data2)] else []) c ∧
      (∀ i, c.todo i = []) ∧ c.name = d1.name ∧ c.tag = pt d2.language := by
  have r0 : NameReach (nameStart um pt n t fun i => if i = 0 then [.change (.loadXML data1)] else if i = 1 then [.change (.loadXML data2)] else []) _ := .refl
  have r1 := NameReach.step (i := 1) (a := .writeName d2.name) (rest := [.writeLanguage (pt d2.language)]) r0
    (by simp [nameStart, allNameAccesses, nameAccesses, h2])
  have r2 := NameReach.step (i := 0) (a := .writeName d1.name) (rest := [.writeLanguage (pt d1.language)]) r1
    (by simp [NameConfig.access, upd, nameStart, allNameAccesses, nameAccesses, h1])
  have r3 := NameReach.step (i := 0) (a := .writeLanguage (pt d1.language)) (rest := []) r2 (by simp [NameConfig.access, upd])
  have r4 := NameReach.step (i := 1) (a := .writeLanguage (pt d2.language)) (rest := []) r3 (by simp [NameConfig.access, upd])
  refine ⟨_, r4, ?_, rfl, rfl⟩
  intro i
  by_cases hi : i = 0
  · subst hi; simp [NameConfig.access, upd]
  · by_cases hi1 : i = 1
    · subst hi1; simp [NameConfig.access, upd]
    · simp [NameConfig.access, upd, nameStart, allNameAccesses, hi, hi1]

/-- **C78** (false as stated) `GetXML` can read the name of a document and the language the table had before. -/
theorem C78_getXML_reads_half_a_document (um : Str → Option XLang) (pt : Str → Str) (n t data : Str) (d : XLang) (h : um data = some d) :
    ∃ c, NameReach (nameStart um pt n t fun i => if i = 0 then [.change (.loadXML data)] else if i = 1 then [.getXML] else []) c ∧
      c.seen 1 = [d.name, t] := by
  have r0 : NameReach (nameStart um pt n t fun i => if i = 0 then [.change (.loadXML data)] else if i = 1 then [.getXML] else []) _ := .refl
  have r1 := NameReach.step (i := 0) (a := .writeName d.name) (rest := [.writeLanguage (pt d.language)]) r0
    (by simp [nameStart, allNameAccesses, nameAccesses, h])
  have r2 := NameReach.step (i := 1) (a := .readName) (rest := [.readLanguage]) r1
    (by simp [NameConfig.access, upd, nameStart, allNameAccesses, nameAccesses])
  have r3 := NameReach.step (i := 1) (a := .readLanguage) (rest := []) r2 (by simp [NameConfig.access, upd])
  exact ⟨_, r3, by simp [NameConfig.access, upd, nameStart]⟩

/-! ## Non-vacuity -/

/-- One goroutine loads a text, another sets and deletes entries of the same table. -/
def exampleCalls : Nat → List Call := fun i =>
  if i = 0 then [.change (.load b!"a=1\n# no\nb=2")] else if i = 1 then [.change (.set b!"a" b!"0"), .get b!"b"] else []

/-- Non-vacuity of C77: an execution in which both finish, with the calls interleaved; entry `b` concerns goroutine 0 only, entry `a` both. -/
example (um : Str → Option XLang) : ∃ c, Reach (start um (new b!"n" b!"en") exampleCalls) c ∧ Finished c ∧
    get c.shared b!"a" = b!"0" ∧ get c.shared b!"b" = b!"2" ∧ (c.threads 1).loc.outs = [some .unit, some (.str b!"2")] ∧
    Concerns (Gives um) (exampleCalls 0) b!"a" ∧ Concerns (Gives um) (exampleCalls 1) b!"a" ∧
    ∀ j, j ≠ 0 → ¬ Concerns (Gives um) (exampleCalls j) b!"b" := by
  refine ⟨_, .step (.step (.step (.step (.step (.step (.step (.step (.step (.step (.step (.step .refl
    (.lock (i := 0) rfl rfl rfl rfl rfl)) (.access (i := 0) rfl rfl)) (.unlock (i := 0) rfl rfl rfl))
    (.lock (i := 1) rfl rfl rfl rfl rfl)) (.access (i := 1) rfl rfl)) (.unlock (i := 1) rfl rfl rfl))
    (.lock (i := 0) rfl rfl rfl rfl rfl)) (.access (i := 0) rfl rfl)) (.unlock (i := 0) rfl rfl rfl))
    (.rlock (i := 1) rfl rfl rfl rfl)) (.access (i := 1) rfl rfl)) (.runlock (i := 1) rfl rfl rfl), ?_, rfl, rfl, rfl, ?_, ?_, ?_⟩
  · intro i
    by_cases hi : i = 0
    · subst hi; exact ⟨rfl, rfl⟩
    · by_cases hi1 : i = 1
      · subst hi1; exact ⟨rfl, rfl⟩
      · simp [upd, hi, hi1, start, callers, Lock.init, exampleCalls, allSections]
  · refine ⟨_, List.mem_singleton.2 rfl, Or.inr ⟨b!"1", Or.inr (Or.inl ⟨_, b!"a=1", rfl, by decide, ?_⟩)⟩⟩
    exact ⟨b!"a", b!"1", rfl, by decide, by decide, by decide, trimSpace_iff.1 (by decide), by decide, trimSpace_iff.1 (by decide)⟩
  · exact ⟨_, List.mem_cons_self, Or.inr ⟨b!"0", Or.inl rfl⟩⟩
  · intro j hj
    by_cases h1 : j = 1
    · subst h1
      rintro ⟨call, hc, hd⟩
      simp only [exampleCalls, if_neg hj, if_true, List.mem_cons, List.not_mem_nil, or_false] at hc
      rcases hc with rfl | rfl <;> simp [Gives] at hd
    · rintro ⟨call, hc, _⟩
      simp [exampleCalls, hj, h1] at hc

/-- Non-vacuity of C78: goroutine 1 reads while goroutine 0 is in the middle of loading a document: it has to wait; nobody loads a text. -/
example (um : Str → Option XLang) (data : Str) (h : um data = some ⟨b!"n", b!"fr", [⟨b!"a", b!"1", b!"s"⟩, ⟨b!"b", b!"2", b!""⟩]⟩) :
    ∃ c, Reach (start um (new b!"n" b!"en") fun i => if i = 0 then [.change (.loadXML data)] else if i = 1 then [.getEntries] else []) c ∧
      c.writer = some 0 ∧ c.shared.entries = [(b!"a", b!"1")] ∧ c.shared.status = [] ∧ (c.threads 1).todo.length = 1 := by
  have e : start um (new b!"n" b!"en") (fun i => if i = 0 then [.change (.loadXML data)] else if i = 1 then [.getEntries] else []) =
      callers tsMethod .unit (new b!"n" b!"en") fun i => if i = 0 then [.entries [⟨b!"a", b!"1", b!"s"⟩, ⟨b!"b", b!"2", b!""⟩]]
        else if i = 1 then [.getEntries] else [] := by
    unfold start
    congr 1
    funext i
    by_cases h0 : i = 0
    · simp [h0, allSections, sections, h]
    · by_cases h1 : i = 1
      · simp [h1, allSections, sections]
      · simp [h0, h1, allSections]
  rw [e]
  exact ⟨_, .step (.step .refl (.lock (i := 0) rfl rfl rfl rfl rfl)) (.access (i := 0) rfl rfl), rfl, rfl, rfl, rfl⟩

end Xcore.Language
