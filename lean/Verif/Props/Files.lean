import Verif.Model.Files
import Verif.Proof.Xml
import Verif.Proof.TemplatePage
import Verif.Proof.TemplateClone

/-!
# C62: constructors from texts and files; C63: the printed form of a template

`LongRun`, `lines`, `LastAssigns`, `Unassigned` and `LastEntry` are in Verif/Spec/Language.lean, `AttrSafe` and `CDataSafe` in Verif/Spec/Xml.lean,
`Means`, `Doc.own` and `Compiled` in Verif/Spec/Template.lean.
-/

namespace Xcore.Language

open Xml

/-! ## C62 -/

theorem loadString_fails (l : Lang) (s : Str) : (loadString l s).2 = true ↔ LongRun s := by
  unfold loadString
  rw [scan_lines]
  exact long_iff s

/-- **C62** NewXLanguageFromString gives a table exactly for the texts without over-long line. The table has the entries that the text assigns, with
the values assigned last, no others, no status and no name. -/
theorem C62_language_from_string (s : Str) :
    (newFromString s = none ↔ LongRun s) ∧
    ∀ l, newFromString s = some l →
      (∀ k v, LastAssigns (lines s) k v → l.entries.get k = some v) ∧ (∀ k, Unassigned (lines s) k → l.entries.get k = none) ∧
      (∀ k, getStatus l k = []) ∧ l.name = [] := by
  have e1 := loadString_fails blank s
  constructor
  · rw [← e1, newFromString, unlessError]
    cases (loadString blank s).2 <;> simp
  · intro l hl
    have h : ¬ LongRun s := by
      intro h
      rw [← e1] at h
      simp [newFromString, unlessError, h] at hl
    simp only [newFromString, unlessError, loadString_ok h] at hl
    cases hl
    refine ⟨fun k v hk => foldl_last hk _, fun k hk => foldl_unassigned hk _, fun k => ?_, (foldl_rest _ _).2.1⟩
    simp only [getStatus, (foldl_rest (lines s) blank).1]
    rfl

/-- **C62** NewXLanguageFromXMLString gives a table exactly for the texts that are a document. The table has its name, its language and its entries, and
no others. -/
theorem C62_language_from_xml (um : Str → Option XLang) (pt : Str → Str) (s : Str) :
    (newFromXML um pt s = none ↔ um s = none) ∧
    ∀ l d, newFromXML um pt s = some l → um s = some d →
      l.name = d.name ∧ l.tag = pt d.language ∧ (∀ k v st, LastEntry d k v st → l.entries.get k = some v ∧ getStatus l k = st) ∧
      ∀ k, (∀ e ∈ d.entries, e.id ≠ k) → l.entries.get k = none ∧ getStatus l k = [] := by
  constructor
  · cases h : um s with
    | none => simp [newFromXML, loadXML, h, unlessError]
    | some d => simp [newFromXML, loadXML, h, unlessError]
  · intro l d hl hd
    simp only [newFromXML, loadXML_eq hd, unlessError] at hl
    cases hl
    refine ⟨(addEntries_names _ _).1, (addEntries_names _ _).2, ?_, ?_⟩
    · rintro k v st ⟨pre, post, q1, q2⟩
      obtain ⟨r1, r2⟩ := addEntries_last q1 q2 { blank with name := d.name, tag := pt d.language }
      exact ⟨r1, by unfold getStatus; rw [r2]⟩
    · intro k hk
      obtain ⟨r1, r2⟩ := addEntries_other hk { blank with name := d.name, tag := pt d.language }
      exact ⟨by rw [r1]; rfl, by unfold getStatus; rw [r2]; rfl⟩

/-- **C62** A file that can be read is loaded like the text it contains. -/
theorem C62_language_file_is_its_text (um : Str → Option XLang) (pt : Str → Str) (fs : Files) (file data : Str) (h : fs file = some data) (l : Lang) :
    loadFile fs l file = loadString l data ∧ loadXMLFile um pt fs l file = loadXML um pt l data ∧
    newFromFile fs file = newFromString data ∧ newFromXMLFile um pt fs file = newFromXML um pt data := by
  simp [loadFile, loadXMLFile, newFromFile, newFromXMLFile, newFromString, newFromXML, h]

/-- **C62** A file that cannot be read gives an error: the table is unchanged, and the constructors give none. -/
theorem C62_language_unreadable_file (um : Str → Option XLang) (pt : Str → Str) (fs : Files) (file : Str) (h : fs file = none) (l : Lang) :
    loadFile fs l file = (l, true) ∧ loadXMLFile um pt fs l file = (l, true) ∧ newFromFile fs file = none ∧ newFromXMLFile um pt fs file = none := by
  simp [loadFile, loadXMLFile, newFromFile, newFromXMLFile, unlessError, h]

/-- **C62** A table exported with GetXML to a file comes back from the file with the same name, entries and statuses, under the conditions of C35. -/
theorem C62_exported_file (pt : Str → Str) (n t : Str) (h : List Op) (l : Lang) (fs : Files) (file : Str)
    (hl : l = run unmarshal pt (new n t) h) (hname : AttrSafe l.name) (htag : AttrSafe l.tag)
    (hsafe : ∀ k v, l.entries.get k = some v → AttrSafe k ∧ AttrSafe (getStatus l k) ∧ CDataSafe v) (hf : fs file = some (getXML l)) :
    ∃ l', newFromXMLFile unmarshal pt fs file = some l' ∧ l'.name = l.name ∧ l'.tag = pt l.tag ∧ (∀ k, l'.entries.get k = l.entries.get k) ∧
      ∀ k, l.entries.get k ≠ none → getStatus l' k = getStatus l k := by
  obtain ⟨h1, h2, h3, h4, h5⟩ := xml_round_trip pt n t h l blank hl hname htag hsafe
  refine ⟨(loadXML unmarshal pt blank (getXML l)).1, ?_, h2, h3, ?_, ?_⟩
  · simp [newFromXMLFile, loadXMLFile, hf, unlessError, h1]
  · intro k
    cases hk : l.entries.get k with
    | none => exact (h5 k hk).1
    | some v => exact (h4 k v hk).1
  · intro k hk
    cases hk' : l.entries.get k with
    | none => exact absurd hk' hk
    | some v => exact (h4 k v hk').2

/-- Non-vacuity: a text, a document, a file and an exported file. -/
example : newFromString b!"a = 1\nb=2\r\na=3" = some ⟨[], b!"und", [(b!"a", b!"3"), (b!"b", b!"2")], []⟩ ∧
    newFromXML unmarshal id b!"<language id=\"n\" lang=\"en\"><entry id=\"k\" status=\"s\">v</entry></language>" =
      some ⟨b!"n", b!"en", [(b!"k", b!"v")], [(b!"k", b!"s")]⟩ ∧
    newFromXML unmarshal id b!"<language" = none ∧
    (let l := setStatus (set (new b!"n" b!"en") b!"k" b!"<v>") b!"k" b!"s"
     newFromXMLFile unmarshal id (fun f => if f = b!"f" then some (getXML l) else none) b!"f" = some l) := by
  decide +kernel

end Xcore.Language

namespace Xcore.Template

/-- **C62** NewXTemplateFromFile gives the template that NewXTemplateFromString gives for the text of the file, and LoadFile does what LoadString does with it.
If the file cannot be read there is an error, no template, and existing templates are unchanged. -/
theorem C62_template_file (fs : Files) (th : THeap) (t : Nat) (file : Str) :
    (∀ data, fs file = some data → newFromFile fs th file = newFromString th data ∧ loadFile fs th t file = loadString th t data) ∧
    (fs file = none → (newFromFile fs th file).2 = none ∧ (∀ a, a < th.length → (newFromFile fs th file).1[a]? = th[a]?) ∧ loadFile fs th t file = (th, true)) := by
  constructor
  · intro data h
    refine ⟨?_, by unfold loadFile; rw [h]⟩
    have : ∀ th t, loadFile fs th t file = loadString th t data := by intro th t; unfold loadFile; rw [h]
    unfold newFromFile newFromString
    simp only [this]
    all_goals rfl
  · intro h
    refine ⟨by simp [newFromFile, loadFile, h], fun a ha => ?_, by simp [loadFile, h]⟩
    simp only [newFromFile, loadFile, h, newTpl]
    exact List.getElem?_append_left ha

/-- Non-vacuity: a file with a template, one that does not compile, none. -/
example : let fs : Files := fun f => if f = b!"good" then some b!"a{{b}}" else if f = b!"bad" then some b!"[[]]" else none
    (newFromFile fs [] b!"good").2 = some 0 ∧ (newFromFile fs [] b!"bad").2 = none ∧ (newFromFile fs [] b!"none").2 = none := by decide +kernel

/-! ## C63 -/

/-- **C63** String of a template compiled from a text writes every element of the document at its own level exactly once, as `{type text}`, in ascending order; the
elements inside its boxes are not written. -/
theorem C63_string_lists_elements {th th' : THeap} {s : Str} {t : Nat} {d : Doc} (hm : Means s d) (e : newFromString th s = (th', some t)) :
    ∃ o, th'[t]? = some o ∧ ∃ parts : List Str,
      parts.Perm (d.own.map fun p => b!"{" ++ itoa (kindNumber p.kind) ++ b!" " ++ p.data ++ b!"}") ∧ SortedStrs parts ∧
      toString o = b!"xcore.XTemplate{" ++ join b!" " parts ++ b!"}" := by
  obtain ⟨o, l, h1, h2, _⟩ := (new_in_scope hm e).compiled
  refine ⟨o, h1, sortStrs (d.own.map printParam), sortStrs_perm _, sortStrs_sorted _, ?_⟩
  simp [toString, h2]

/-- **C63** The same for GoString, where each element is written with the names of its fields and its text is quoted. -/
theorem C63_goString_lists_elements (quote : Str → Str) {th th' : THeap} {s : Str} {t : Nat} {d : Doc} (hm : Means s d)
    (e : newFromString th s = (th', some t)) :
    ∃ o, th'[t]? = some o ∧ ∃ parts : List Str,
      parts.Perm (d.own.map fun p => b!"xcore.XTemplateParam{ParamType:" ++ itoa (kindNumber p.kind) ++ b!", Data:" ++ quote p.data ++ b!"}") ∧ SortedStrs parts ∧
      goString quote o = b!"#xcore.XTemplate{" ++ join b!" " parts ++ b!"}" := by
  obtain ⟨o, l, h1, h2, _⟩ := (new_in_scope hm e).compiled
  refine ⟨o, h1, sortStrs (d.own.map (goPrintParam quote)), sortStrs_perm _, sortStrs_sorted _, ?_⟩
  simp [goString, h2]

/-- **C63** A new template without text is written as an empty one. -/
theorem C63_empty_template (quote : Str → Str) (th : THeap) :
    ∃ o, (newTpl th).1[(newTpl th).2]? = some o ∧ toString o = b!"xcore.XTemplate{}" ∧ goString quote o = b!"#xcore.XTemplate{}" :=
  ⟨⟨[], none, none, none⟩, by simp [newTpl], rfl, rfl⟩

/-- **C63** A clone is written like the original, and cloning does not change how the templates of the family are written. -/
theorem C63_clone_prints_alike (quote : Str → Str) {th th' : THeap} {S : Nat → Prop} (hS : Family th S) {t c n : Nat} (ht : S t)
    (e : clone n th t = .ok (th', c)) :
    ∃ o o', th[t]? = some o ∧ th'[c]? = some o' ∧ toString o' = toString o ∧ goString quote o' = goString quote o ∧
      ∀ a, S a → ∃ p p', th[a]? = some p ∧ th'[a]? = some p' ∧ toString p' = toString p ∧ goString quote p' = goString quote p := by
  obtain ⟨k1, org, k2, k3, k4, k5⟩ := clone_cov hS n th id (fun _ => False) t th' c (cov_refl hS) ht (fun _ h => h.elim) e
  have gen : ∀ a b, a < th'.length → org a = b → S b → ∃ o o', th[b]? = some o ∧ th'[a]? = some o' ∧ o'.root = o.root := by
    intro a b ha hab hb
    obtain ⟨o, q1, _, q3, _⟩ := k3.node a th'[a] (List.getElem?_eq_getElem ha) (hab ▸ hb)
    exact ⟨o, th'[a], hab ▸ q1, List.getElem?_eq_getElem ha, q3⟩
  have pr : ∀ {o o' : Tpl}, o'.root = o.root → toString o' = toString o ∧ goString quote o' = goString quote o := by
    intro o o' h; simp [toString, goString, h]
  obtain ⟨o, o', h1, h2, h3⟩ := gen c t k4 k5 ht
  refine ⟨o, o', h1, h2, (pr h3).1, (pr h3).2, fun a ha => ?_⟩
  have hl := hS.lt ha
  obtain ⟨p, p', g1, g2, g3⟩ := gen a a (by have := k3.len; omega) (by simpa using k2 a hl) ha
  exact ⟨p, p', g1, g2, (pr g3).1, (pr g3).2⟩

/-- Non-vacuity: a page with two elements, a comment and a box. -/
example : ((newFromString [] b!"z{{a}}%--c--%[[b]]hidden[[]]").1[0]?.map toString) = some b!"xcore.XTemplate{{0 z} {1 c} {7 a}}" ∧
    ((newFromString [] b!"z{{a}}").1[0]?.map (goString fun s => b!"\"" ++ s ++ b!"\"")) =
      some b!"#xcore.XTemplate{xcore.XTemplateParam{ParamType:0, Data:\"z\"} xcore.XTemplateParam{ParamType:7, Data:\"a\"}}" ∧
    ∃ th' c, clone 3 (newFromString [] b!"z{{a}}[[b]]x[[]]").1 0 = .ok (th', c) ∧ th'[c]?.map toString = some b!"xcore.XTemplate{{0 z} {7 a}}" :=
  ⟨by decide +kernel, by decide +kernel, _, _, rfl, by decide +kernel⟩

end Xcore.Template
