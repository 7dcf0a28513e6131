import Verif.Proof.LanguageRace

/-!
# Property C106: the data races of a language table, exactly

`calls i` are the calls goroutine `i` makes, cut into single accesses (`Verif/Model/LanguageRace.lean`); `um` and `pt` stand for `xml.Unmarshal`
and `language.Parse`.
-/

namespace Xcore.LangRace

open Xcore.Language (Lang XLang Call)

/-- **C106** Whatever goroutines do at the same time, entries and statuses have no data race. -/
theorem C106_entries_never_race (um : Str → Option XLang) (pt : Str → Str) (l : Lang) (calls : Nat → List Use) (c : Config)
    (h : Reach (start um pt l calls) c) : ¬ Race c .entries ∧ ¬ Race c .status := by
  obtain ⟨_, hi⟩ := (Inv.start um pt l calls).reach h
  exact ⟨hi.no_race (Or.inl rfl), hi.no_race (Or.inr rfl)⟩

/-- **C106** The name has a data race exactly if one goroutine sets it, by `SetName` or by loading a document, and another one sets it too or
reads it, by `GetName` or `GetXML`: then some schedule has the race, whatever else goroutines do. -/
theorem C106_name_races_exactly (um : Str → Option XLang) (pt : Str → Str) (l : Lang) (calls : Nat → List Use) :
    (∃ c, Reach (start um pt l calls) c ∧ Race c .name) ↔
    ∃ i j, i ≠ j ∧ (∃ u ∈ calls i, SetsName um u) ∧ ∃ u ∈ calls j, SetsName um u ∨ LooksAtName u := by
  constructor
  · rintro ⟨c, hr, i, j, hij, ⟨w, rest, h1, h2⟩, hj⟩
    obtain ⟨u, hu, hm⟩ := from_call (fun _ => rfl) hr h1
    refine ⟨i, j, hij, ⟨u, hu, (write_origin hm).1 h2⟩, ?_⟩
    rcases hj with ⟨w', rest', h3, h4⟩ | ⟨rest', h3⟩
    · obtain ⟨v, hv, hm'⟩ := from_call (fun _ => rfl) hr h3
      exact ⟨v, hv, Or.inl ((write_origin hm').1 h4)⟩
    · obtain ⟨v, hv, hm'⟩ := from_call (fun _ => rfl) hr h3
      exact ⟨v, hv, Or.inr ((read_origin hm').1 rfl)⟩
  · rintro ⟨i, j, hij, ⟨u, hu, hs⟩, v, hv, hv'⟩
    obtain ⟨w, r, e, hw⟩ := setsName_point pt hs
    obtain ⟨q, r1, e1, f1⟩ := point (fun u => (whole_code um pt u).2) hu e (h := .no) rfl
    rcases hv' with hv' | hv'
    · obtain ⟨w', r', e', hw'⟩ := setsName_point pt hv'
      obtain ⟨q2, r2, e2, f2⟩ := point (fun u => (whole_code um pt u).2) hv e' (h := .no) rfl
      obtain ⟨c, k1, k2, k3⟩ := bring (c := start um pt l calls) hij rfl rfl e1 f1 e2 f2
      exact ⟨c, k1, i, j, hij, ⟨w, r1, k2, hw⟩, Or.inl ⟨w', r2, k3, hw'⟩⟩
    · obtain ⟨p', r', x, e', f'⟩ := looksAtName_point um pt hv'
      obtain ⟨q2, r2, e2, f2⟩ := point (fun u => (whole_code um pt u).2) hv e' f'
      obtain ⟨c, k1, k2, k3⟩ := bring (c := start um pt l calls) hij rfl rfl e1 f1 e2 f2
      exact ⟨c, k1, i, j, hij, ⟨w, r1, k2, hw⟩, Or.inr ⟨r2, k3⟩⟩

/-- **C106** The same for the language. -/
theorem C106_language_races_exactly (um : Str → Option XLang) (pt : Str → Str) (l : Lang) (calls : Nat → List Use) :
    (∃ c, Reach (start um pt l calls) c ∧ Race c .language) ↔
    ∃ i j, i ≠ j ∧ (∃ u ∈ calls i, SetsLanguage um u) ∧ ∃ u ∈ calls j, SetsLanguage um u ∨ LooksAtLanguage u := by
  constructor
  · rintro ⟨c, hr, i, j, hij, ⟨w, rest, h1, h2⟩, hj⟩
    obtain ⟨u, hu, hm⟩ := from_call (fun _ => rfl) hr h1
    refine ⟨i, j, hij, ⟨u, hu, (write_origin hm).2 h2⟩, ?_⟩
    rcases hj with ⟨w', rest', h3, h4⟩ | ⟨rest', h3⟩
    · obtain ⟨v, hv, hm'⟩ := from_call (fun _ => rfl) hr h3
      exact ⟨v, hv, Or.inl ((write_origin hm').2 h4)⟩
    · obtain ⟨v, hv, hm'⟩ := from_call (fun _ => rfl) hr h3
      exact ⟨v, hv, Or.inr ((read_origin hm').2 rfl)⟩
  · rintro ⟨i, j, hij, ⟨u, hu, hs⟩, v, hv, hv'⟩
    obtain ⟨p, w, r, e, hw, f⟩ := setsLanguage_point pt hs
    obtain ⟨q, r1, e1, f1⟩ := point (fun u => (whole_code um pt u).2) hu e f
    rcases hv' with hv' | hv'
    · obtain ⟨p', w', r', e', hw', f'⟩ := setsLanguage_point pt hv'
      obtain ⟨q2, r2, e2, f2⟩ := point (fun u => (whole_code um pt u).2) hv e' f'
      obtain ⟨c, k1, k2, k3⟩ := bring (c := start um pt l calls) hij rfl rfl e1 f1 e2 f2
      exact ⟨c, k1, i, j, hij, ⟨w, r1, k2, hw⟩, Or.inl ⟨w', r2, k3, hw'⟩⟩
    · obtain ⟨p', r', x, e', f'⟩ := looksAtLanguage_point um pt hv'
      obtain ⟨q2, r2, e2, f2⟩ := point (fun u => (whole_code um pt u).2) hv e' f'
      obtain ⟨c, k1, k2, k3⟩ := bring (c := start um pt l calls) hij rfl rfl e1 f1 e2 f2
      exact ⟨c, k1, i, j, hij, ⟨w, r1, k2, hw⟩, Or.inr ⟨r2, k3⟩⟩

/-- **C106** So a table whose name and language nobody sets and into which nobody loads documents once goroutines use it has no data race at
all. -/
theorem C106_no_race_if_names_are_set_before (um : Str → Option XLang) (pt : Str → Str) (l : Lang) (calls : Nat → List Use)
    (hn : ∀ i, ∀ u ∈ calls i, ¬ SetsName um u ∧ ¬ SetsLanguage um u) (c : Config) (h : Reach (start um pt l calls) c) (x : Cell) : ¬ Race c x := by
  cases x with
  | entries => exact (C106_entries_never_race um pt l calls c h).1
  | status => exact (C106_entries_never_race um pt l calls c h).2
  | name =>
    intro hr
    obtain ⟨i, _, _, ⟨u, hu, hs⟩, _⟩ := (C106_name_races_exactly um pt l calls).1 ⟨c, h, hr⟩
    exact (hn i u hu).1 hs
  | language =>
    intro hr
    obtain ⟨i, _, _, ⟨u, hu, hs⟩, _⟩ := (C106_language_races_exactly um pt l calls).1 ⟨c, h, hr⟩
    exact (hn i u hu).2 hs

/-- **C106** The accesses of a call, nobody else doing anything, do to the table what the call does. -/
theorem C106_accesses_are_those_of_the_calls (um : Str → Option XLang) (pt : Str → Str) (l : Lang) (op : Xcore.Language.Op) :
    after l (code um pt (.call (.change op))) = Xcore.Language.step um pt l op := after_code um pt l op

/-- **C106** A write changes no other cell than the one it is counted for. -/
theorem C106_writes_change_only_their_cell (l : Lang) (w : Write) (x : Cell) (h : w.cell ≠ x) : Same l (w.apply l) x := by
  cases w <;> cases x <;> first | exact absurd rfl h | rfl

/-- **C106** A goroutine that has a table for itself and makes its changes one after the other, access by access, leaves the table they lead to,
call by call. -/
theorem C106_one_goroutine_alone (um : Str → Option XLang) (pt : Str → Str) (l : Lang) (i : Nat) (ops : List Xcore.Language.Op) (c : Config)
    (h : Reach (start um pt l fun j => if j = i then ops.map fun op => .call (.change op) else []) c) (hd : c.todo i = []) :
    c.table = ops.foldl (Xcore.Language.step um pt) l := by
  have h0 : ∀ j, j ≠ i → (start um pt l fun j => if j = i then ops.map fun op => .call (.change op) else []).todo j = [] := by
    intro j hj; simp [start, hj]
  have := (alone_after h0 h).2
  rw [hd] at this
  rw [show c.table = after c.table [] from rfl, this]
  simp only [start, if_true, List.flatMap_map]
  exact after_flatMap _ _ (fun l op => after_code um pt l op) ops l

/-- **C106** What a call answers depends only on the cells it reads. -/
theorem C106_answers_depend_on_the_cells_read (um : Str → Option XLang) (pt quote : Str → Str) (l l' : Lang) (u : Use)
    (h : ∀ x, .read x ∈ code um pt u → Same l l' x) : said quote l u = said quote l' u := by
  obtain ⟨n, t, m, st⟩ := l
  obtain ⟨n', t', m', st'⟩ := l'
  have hr : .read Cell.entries ∈ code um pt u → m = m' := h .entries
  cases u with
  | goString => cases hr (by simp [code]); rfl
  | call c =>
    cases c with
    | change op => rfl
    | get e => cases hr (by simp [code]); rfl
    | getStatus e => cases (h .status (by simp [code]) : st = st'); rfl
    | getEntries => cases hr (by simp [code]); rfl
    | toString => cases hr (by simp [code]); rfl
    | getName => cases (h .name (by simp [code]) : n = n'); rfl
    | getLanguage => cases (h .language (by simp [code]) : t = t'); rfl
    | getXML =>
      cases hr (by simp [code])
      cases (h .status (by simp [code]) : st = st')
      cases (h .name (by simp [code]) : n = n')
      cases (h .language (by simp [code]) : t = t')
      rfl

/-- **C106 (version 1)** What a call of version 1 answers depends only on the cells it reads. -/
theorem C106_version_1_answers_depend_on_the_cells_read (um : Str → Option V1.Language.XLang) (pt quote : Str → Str) (l l' : V1.Language.Lang)
    (u : Use1) (h : ∀ x, .read x ∈ code1 um pt u → Same (ofV1 l) (ofV1 l') x) : said1 quote l u = said1 quote l' u := by
  obtain ⟨n, t, m⟩ := l
  obtain ⟨n', t', m'⟩ := l'
  have hr : .read Cell.entries ∈ code1 um pt u → m.getD [] = m'.getD [] := h .entries
  cases u with
  | change op => rfl
  | get e => simp only [said1, V1.Language.get, hr (by simp [code1])]
  | toString => simp only [said1, V1.Language.toString, hr (by simp [code1])]
  | goString => simp only [said1, V1.Language.goString, hr (by simp [code1])]
  | getName => exact (h .name (by simp [code1]) : n = n')
  | getLanguage => exact (h .language (by simp [code1]) : t = t')

/-- **C106 (version 1)** Without mutex every cell has a data race exactly if one goroutine writes to it and another one reads or writes it: entries
included. -/
theorem C106_version_1_races_exactly (um : Str → Option V1.Language.XLang) (pt : Str → Str) (l : Lang) (calls : Nat → List Use1) (x : Cell) :
    (∃ c, Reach (start1 um pt l calls) c ∧ Race c x) ↔
    ∃ i j, i ≠ j ∧ (∃ u ∈ calls i, Sets1 um u x) ∧ ∃ u ∈ calls j, Sets1 um u x ∨ LooksAt1 u x := by
  constructor
  · rintro ⟨c, hr, i, j, hij, ⟨w, rest, h1, h2⟩, hj⟩
    have key : ∀ {k w rest}, c.todo k = Instr.write w :: rest → w.cell = x → ∃ u ∈ calls k, Sets1 um u x := by
      intro k w rest h1 h2
      obtain ⟨u, hu, hm⟩ := from_call (fun _ => rfl) hr h1
      rcases access_origin1 hm with ⟨y, e, _⟩ | ⟨w', e, hs⟩
      · cases e
      · cases e; exact ⟨u, hu, h2 ▸ hs⟩
    refine ⟨i, j, hij, key h1 h2, ?_⟩
    rcases hj with ⟨w', rest', h3, h4⟩ | ⟨rest', h3⟩
    · obtain ⟨v, hv, hs⟩ := key h3 h4
      exact ⟨v, hv, Or.inl hs⟩
    · obtain ⟨v, hv, hm⟩ := from_call (fun _ => rfl) hr h3
      rcases access_origin1 hm with ⟨y, e, hl⟩ | ⟨w', e, _⟩
      · cases e; exact ⟨v, hv, Or.inr hl⟩
      · cases e
  · rintro ⟨i, j, hij, ⟨u, hu, hs⟩, v, hv, hv'⟩
    obtain ⟨w, hm, hw⟩ := sets_access1 pt hs
    obtain ⟨q, r1, e1, f1⟩ := point1 hu hm
    rcases hv' with hv' | hv'
    · obtain ⟨w', hm', hw'⟩ := sets_access1 pt hv'
      obtain ⟨q2, r2, e2, f2⟩ := point1 hv hm'
      obtain ⟨c, k1, k2, k3⟩ := bring (c := start1 um pt l calls) hij rfl rfl e1 f1 e2 f2
      exact ⟨c, k1, i, j, hij, ⟨w, r1, k2, hw⟩, Or.inl ⟨w', r2, k3, hw'⟩⟩
    · obtain ⟨q2, r2, e2, f2⟩ := point1 hv (looks_access1 um pt hv')
      obtain ⟨c, k1, k2, k3⟩ := bring (c := start1 um pt l calls) hij rfl rfl e1 f1 e2 f2
      exact ⟨c, k1, i, j, hij, ⟨w, r1, k2, hw⟩, Or.inr ⟨r2, k3⟩⟩

/-- **C106 (version 1)** The accesses of a call of version 1 that does not panic do to the table what the call does. -/
theorem C106_version_1_accesses_are_those_of_the_calls (um : Str → Option V1.Language.XLang) (pt : Str → Str) (l l' : V1.Language.Lang)
    (op : V1.Language.Op) (h : V1.Language.step um pt l op = some l') : after (ofV1 l) (code1 um pt (.change op)) = ofV1 l' :=
  after_code1 um pt h

/-! ## Non-vacuity -/

/-- Non-vacuity: one goroutine sets an entry and the name, another prints the table as XML: the name has a race, the entries do not. -/
example (um : Str → Option XLang) (pt : Str → Str) (l : Lang) :
    let calls : Nat → List Use := fun i =>
      if i = 0 then [.call (.change (.set b!"a" b!"1")), .call (.change (.setName b!"n"))] else if i = 1 then [.call .getXML] else []
    (∃ c, Reach (start um pt l calls) c ∧ Race c .name) ∧ ∀ c, Reach (start um pt l calls) c → ¬ Race c .entries :=
  ⟨(C106_name_races_exactly um pt l _).2 ⟨0, 1, by decide, ⟨_, List.mem_cons_of_mem _ List.mem_cons_self, Or.inl ⟨b!"n", rfl⟩⟩,
    _, List.mem_cons_self, Or.inr (Or.inr rfl)⟩, fun c h => (C106_entries_never_race um pt l _ c h).1⟩

/-- Non-vacuity of C106_no_race_if_names_are_set_before: a goroutine loads a text while another reads. -/
example (um : Str → Option XLang) (pt : Str → Str) (l : Lang) :
    let calls : Nat → List Use := fun i =>
      if i = 0 then [.call (.change (.load b!"a=1\nb=2"))] else if i = 1 then [.call (.get b!"a"), .call .getXML, .goString] else []
    (∀ i, ∀ u ∈ calls i, ¬ SetsName um u ∧ ¬ SetsLanguage um u) ∧ (start um pt l calls).todo 0 ≠ [] ∧ (start um pt l calls).todo 1 ≠ [] := by
  refine ⟨?_, nofun, nofun⟩
  intro i u hu
  by_cases h0 : i = 0
  · subst h0; simp at hu; subst hu; simp [SetsName, SetsLanguage]
  · by_cases h1 : i = 1
    · subst h1
      simp at hu
      rcases hu with rfl | rfl | rfl <;> simp [SetsName, SetsLanguage]
    · simp [h0, h1] at hu

/-- Non-vacuity of C106_one_goroutine_alone: a goroutine sets the name and deletes an entry, to the end. -/
example (um : Str → Option XLang) (pt : Str → Str) (l : Lang) :
    ∃ c, Reach (start um pt l fun j => if j = 3 then [Xcore.Language.Op.setName b!"n", .del b!"a"].map fun op => .call (.change op) else []) c ∧
      c.todo 3 = [] ∧ c.table.name = b!"n" :=
  ⟨_, .step (.step (.step (.step (.step .refl (.write (i := 3) rfl)) (.lock (i := 3) rfl rfl rfl)) (.write (i := 3) rfl))
    (.write (i := 3) rfl)) (.unlock (i := 3) rfl), rfl, rfl⟩

/-- In version 1 a goroutine that sets an entry races with one that reads another entry. -/
example (um : Str → Option V1.Language.XLang) (pt : Str → Str) (l : Lang) : ∃ c, Reach (start1 um pt l
    fun i => if i = 0 then [.change (.set b!"a" b!"1")] else if i = 1 then [.getName, .get b!"b"] else []) c ∧ Race c .entries :=
  (C106_version_1_races_exactly um pt l _ _).2 ⟨0, 1, by decide, ⟨_, List.mem_cons_self, Or.inl ⟨_, _, rfl⟩⟩,
    _, List.mem_cons_of_mem _ List.mem_cons_self, Or.inr (Or.inl ⟨_, rfl⟩)⟩

end Xcore.LangRace
