import Verif.Proof.V1.Language

/-!
# Property C69: language tables of version 1

`um` and `pt` stand for `xml.Unmarshal` and `language.Parse`; the theorems hold for every such function.
-/

namespace Xcore.V1.Language

/-- **C69** After any history of calls on a new table, none of which panics, `Get(e)` is the value last written for `e` by Set,
LoadString or LoadXMLString, provided `e` has not been deleted since. -/
theorem C69_get_is_last_written (um : Str → Option XLang) (pt : Str → Str) (n t : Str) (h : List Op) (e v : Str)
    (hw : LastWritten um h e v) : ∃ l, run um pt (new n t) h = some l ∧ get l e = v := by
  obtain ⟨l, h1, h2⟩ := run_agrees (fun s => (um s).map XLang.up) pt (l := new n t) (l2 := Xcore.Language.new n t) ⟨rfl, rfl, rfl⟩ h
  rw [decoder_up] at h1
  exact ⟨l, h1, ((reads_agree h2).2.2.1 e).trans (Xcore.Language.get_lastWritten _ pt n t _ e v (lastWritten_up hw))⟩

/-- **C69** `Get(e)` is empty if nothing was written for `e` since the beginning or since the last `Del(e)`. -/
theorem C69_get_without_write (um : Str → Option XLang) (pt : Str → Str) (n t : Str) (h : List Op) (e : Str)
    (hw : NothingWritten um h e) : ∃ l, run um pt (new n t) h = some l ∧ get l e = [] := by
  obtain ⟨l, h1, h2⟩ := run_agrees (fun s => (um s).map XLang.up) pt (l := new n t) (l2 := Xcore.Language.new n t) ⟨rfl, rfl, rfl⟩ h
  rw [decoder_up] at h1
  exact ⟨l, h1, ((reads_agree h2).2.2.1 e).trans (Xcore.Language.get_nothingWritten _ pt n t _ e (nothingWritten_up hw))⟩

/-- Non-vacuity: a Set overridden by a load, a deleted entry, and a document with a duplicate. -/
example : let um : Str → Option XLang := fun s => if s = b!"d" then some ⟨b!"m", b!"fr", [⟨b!"x", b!"1"⟩, ⟨b!"x", b!"2"⟩]⟩ else none
    LastWritten um [.set b!"x" b!"0", .loadXML b!"d", .del b!"b"] b!"x" b!"2" ∧
    NothingWritten um [.set b!"b" b!"1", .del b!"b", .set b!"a" b!"1"] b!"b" ∧
    run um id (new [] []) [.set b!"x" b!"0", .loadXML b!"d", .del b!"b", .load b!"#\n a = 2\r\n"] =
      some ⟨b!"m", b!"fr", some [(b!"x", b!"2"), (b!"a", b!"2")]⟩ := by
  refine ⟨⟨[.set b!"x" b!"0"], .loadXML b!"d", [.del b!"b"], rfl, Or.inr (Or.inr ⟨_, _, rfl, rfl, [⟨b!"x", b!"1"⟩], [], rfl, by simp⟩), ?_⟩,
    ⟨[.set b!"b" b!"1", .del b!"b"], [.set b!"a" b!"1"], rfl, Or.inr rfl, ?_⟩, by decide⟩
  · intro op hop
    simp only [List.mem_singleton] at hop
    subst hop
    refine ⟨by decide, ?_⟩
    rintro v (h | ⟨_, h, _⟩ | ⟨_, _, h, _⟩) <;> cases h
  · intro op hop v
    simp only [List.mem_singleton] at hop
    subst hop
    rintro (h | ⟨_, h, _⟩ | ⟨_, _, h, _⟩)
    · simp at h
    · cases h
    · cases h

/-- **C69** The same calls on a new table of version 1 and on one of version 2 never panic and leave the same name, language and
entries: everything that can be read or printed is the same. The decoder of version 1 is that of version 2 without the statuses. -/
theorem C69_same_as_version2 (um : Str → Option Xcore.Language.XLang) (pt : Str → Str) (n t : Str) (h : List Op) :
    ∃ l, run (fun s => (um s).map XLang.ofV2) pt (new n t) h = some l ∧
      let l2 := Xcore.Language.run um pt (Xcore.Language.new n t) (h.map Op.up)
      getName l = l2.name ∧ getLanguage l = l2.tag ∧ (∀ e, get l e = Xcore.Language.get l2 e) ∧ l.entries = some l2.entries ∧
      toString l = Xcore.Language.toString l2 ∧ ∀ q, goString q l = Xcore.Language.goString q l2 := by
  obtain ⟨l, h1, h2⟩ := run_agrees um pt (l := new n t) (l2 := Xcore.Language.new n t) ⟨rfl, rfl, rfl⟩ h
  obtain ⟨q1, q2, q3, q4, q5⟩ := reads_agree h2
  exact ⟨l, h1, q1, q2, q3, h2.2.2, q4, q5⟩

/-- Non-vacuity: a history with a status attribute, which version 1 does not keep. -/
example : let um : Str → Option Xcore.Language.XLang := fun _ => some ⟨b!"m", b!"fr", [⟨b!"x", b!"1", b!"ok"⟩]⟩
    (run (fun s => (um s).map XLang.ofV2) id (new [] []) [.loadXML [], .set b!"b" b!"2"]).map toString = some b!"xcore.XLanguage{b:2 x:1}" ∧
    Xcore.Language.toString (Xcore.Language.run um id (Xcore.Language.new [] []) [.loadXML [], .set b!"b" b!"2"]) =
      b!"xcore.XLanguage{b:2 x:1}" := by decide

/-- **C69** A load on tables with the same contents returns an error in version 1 exactly when it does in version 2, never panics, and
leaves the same contents, from a text, an XML text, a file or an XML file. -/
theorem C69_loads_as_version2 (um : Str → Option Xcore.Language.XLang) (pt : Str → Str) (fs : Files) (l : Lang) (l2 : Xcore.Language.Lang)
    (h : Agrees l l2) (s : Str) :
    (∃ l', loadString l s = some (l', (Xcore.Language.loadString l2 s).2) ∧ Agrees l' (Xcore.Language.loadString l2 s).1) ∧
    (∃ l', loadXML (fun s => (um s).map XLang.ofV2) pt l s = some (l', (Xcore.Language.loadXML um pt l2 s).2) ∧
      Agrees l' (Xcore.Language.loadXML um pt l2 s).1) ∧
    (∃ l', loadFile fs l s = some (l', (Xcore.Language.loadFile fs l2 s).2) ∧ Agrees l' (Xcore.Language.loadFile fs l2 s).1) ∧
    (∃ l', loadXMLFile (fun s => (um s).map XLang.ofV2) pt fs l s = some (l', (Xcore.Language.loadXMLFile um pt fs l2 s).2) ∧
      Agrees l' (Xcore.Language.loadXMLFile um pt fs l2 s).1) := by
  refine ⟨loadString_agrees h s, loadXML_agrees um pt h s, ?_, ?_⟩
  · unfold loadFile Xcore.Language.loadFile
    cases fs s with
    | none => exact ⟨l, rfl, h⟩
    | some data => exact loadString_agrees h data
  · unfold loadXMLFile Xcore.Language.loadXMLFile
    cases fs s with
    | none => exact ⟨l, rfl, h⟩
    | some data => exact loadXML_agrees um pt h data

theorem unlessError_agrees {r : Option (Lang × Bool)} {r2 : Xcore.Language.Lang × Bool} (h : ∃ l', r = some (l', r2.2) ∧ Agrees l' r2.1) :
    (unlessError r = some none ∧ Xcore.Language.unlessError r2 = none) ∨
    ∃ l l2, unlessError r = some (some l) ∧ Xcore.Language.unlessError r2 = some l2 ∧ Agrees l l2 := by
  obtain ⟨l', rfl, h'⟩ := h
  obtain ⟨l2, b⟩ := r2
  cases b with
  | true => exact Or.inl ⟨rfl, rfl⟩
  | false => exact Or.inr ⟨l', l2, rfl, rfl, h'⟩

/-- **C69** Each of the four constructors from a text or a file gives nil in both versions, or tables with the same contents. -/
theorem C69_constructors_as_version2 (um : Str → Option Xcore.Language.XLang) (pt : Str → Str) (fs : Files) (s : Str) :
    ∀ p ∈ [(newFromString s, Xcore.Language.newFromString s),
           (newFromXML (fun s => (um s).map XLang.ofV2) pt s, Xcore.Language.newFromXML um pt s),
           (newFromFile fs s, Xcore.Language.newFromFile fs s),
           (newFromXMLFile (fun s => (um s).map XLang.ofV2) pt fs s, Xcore.Language.newFromXMLFile um pt fs s)],
      (p.1 = some none ∧ p.2 = none) ∨ ∃ l l2, p.1 = some (some l) ∧ p.2 = some l2 ∧ Agrees l l2 := by
  have h := C69_loads_as_version2 um pt fs blank Xcore.Language.blank ⟨rfl, rfl, rfl⟩ s
  intro p hp
  simp only [List.mem_cons, List.not_mem_nil, or_false] at hp
  rcases hp with rfl | rfl | rfl | rfl
  · exact unlessError_agrees h.1
  · exact unlessError_agrees h.2.1
  · exact unlessError_agrees h.2.2.1
  · exact unlessError_agrees h.2.2.2

/-- Non-vacuity: a file that exists and one that does not. -/
example : let fs : Files := fun f => if f = b!"f" then some b!"a=1\nb = 2" else none
    newFromFile fs b!"f" = some (some ⟨[], b!"und", some [(b!"a", b!"1"), (b!"b", b!"2")]⟩) ∧ newFromFile fs b!"g" = some none := by decide

/-- **C69** A table made without its map (`&XLanguage{}`) reads as empty and Del is harmless; Set, and any load that finds an entry to
store, panics. -/
theorem C69_without_map (um : Str → Option XLang) (pt : Str → Str) (n t : Str) :
    let l : Lang := ⟨n, t, none⟩
    (∀ e, get l e = []) ∧ toString l = b!"xcore.XLanguage{}" ∧ (∀ q, goString q l = b!"#xcore.XLanguage{}") ∧
    (∀ e, del l e = l) ∧ (∀ e v, set l e v = none) ∧
    (∀ s d, um s = some d → (loadXML um pt l s = none ↔ d.entries ≠ [])) ∧
    (∀ s, loadString l s = none ↔ ∃ k v, Xcore.Language.LastAssigns (Xcore.Language.loadable s) k v) := by
  refine ⟨fun _ => rfl, rfl, fun _ => rfl, fun _ => rfl, fun _ _ => rfl, ?_, ?_⟩
  · intro s d hd
    unfold loadXML
    rw [hd]
    obtain ⟨n', t', es⟩ := d
    cases es with
    | nil => simp
    | cons e es => simp [put]
  · exact loadString_nil n t

/-- Non-vacuity: a text and a document with an entry, and ones without. -/
example : loadString ⟨[], [], none⟩ b!"a=1" = none ∧ loadString ⟨[], [], none⟩ b!"#a=1\n\n=2" = some (⟨[], [], none⟩, false) ∧
    loadXML (fun _ => some ⟨[], [], [⟨b!"a", b!"1"⟩]⟩) id ⟨[], [], none⟩ [] = none ∧
    loadXML (fun _ => some ⟨b!"n", b!"fr", []⟩) id ⟨[], [], none⟩ [] = some (⟨b!"n", b!"fr", none⟩, false) := by decide

end Xcore.V1.Language
