import Verif.Proof.XmlDoc
import Verif.Proof.V1.Language

/-!
# C92: language documents in XML

`Document src d` (Verif/Spec/XmlDoc.lean) is the grammar of documents and what they describe. `unmarshal` is the model of `xml.Unmarshal` in
Verif/Model/Xml.lean, so these theorems are about the part of XML that is modelled there.
-/

namespace Xcore.Xml

open Language

/-- **C92** The decoder reads exactly the documents of the grammar, as what they describe. What follows the document is not looked at. -/
theorem C92_decoder_reads_documents (s : Str) (d : XLang) : unmarshal s = some d ↔ ∃ src rest, s = src ++ rest ∧ Document src d :=
  unmarshal_iff

/-- **C92** A document describes one language only, wherever one takes it to end. -/
theorem C92_one_meaning {src src' rest rest' : Str} {d d' : XLang} (h : Document src d) (h' : Document src' d') (e : src ++ rest = src' ++ rest') : d = d' := by
  have h1 := unmarshal_iff.2 ⟨src, rest, rfl, h⟩
  rw [unmarshal_iff.2 ⟨src', rest', e, h'⟩] at h1
  exact (Option.some.inj h1).symm

/-- **C92** LoadXMLString of a document, with anything after it, succeeds on every table: name and language are those of the document, every entry of the
document has the text and status of its last occurrence, and every other entry of the table is as before. -/
theorem C92_load_document {src : Str} {d : XLang} (h : Document src d) (rest : Str) (pt : Str → Str) (l : Lang) :
    (loadXML unmarshal pt l (src ++ rest)).2 = false ∧
    (loadXML unmarshal pt l (src ++ rest)).1.name = d.name ∧
    (loadXML unmarshal pt l (src ++ rest)).1.tag = pt d.language ∧
    (∀ k v st, LastEntry d k v st → get (loadXML unmarshal pt l (src ++ rest)).1 k = v ∧ getStatus (loadXML unmarshal pt l (src ++ rest)).1 k = st) ∧
    (∀ k, (∀ e ∈ d.entries, e.id ≠ k) →
      get (loadXML unmarshal pt l (src ++ rest)).1 k = get l k ∧ getStatus (loadXML unmarshal pt l (src ++ rest)).1 k = getStatus l k) := by
  rw [loadXML_eq (unmarshal_iff.2 ⟨src, rest, rfl, h⟩)]
  refine ⟨rfl, (addEntries_names _ _).1, (addEntries_names _ _).2, ?_, ?_⟩
  · rintro k v st ⟨pre, post, h1, h2⟩
    obtain ⟨h3, h4⟩ := addEntries_last h1 h2 { l with name := d.name, tag := pt d.language }
    unfold Language.get getStatus; rw [h3, h4]; exact ⟨rfl, rfl⟩
  · intro k hk
    obtain ⟨h3, h4⟩ := addEntries_other hk { l with name := d.name, tag := pt d.language }
    unfold Language.get getStatus; rw [h3, h4]; exact ⟨rfl, rfl⟩

/-- **C92** LoadXMLString returns an error exactly for texts that do not begin with a document, and then the table is as before. -/
theorem C92_load_fails_exactly (pt : Str → Str) (l : Lang) (s : Str) :
    ((loadXML unmarshal pt l s).2 = true ↔ ¬ ∃ src rest d, s = src ++ rest ∧ Document src d) ∧
    ((loadXML unmarshal pt l s).2 = true → (loadXML unmarshal pt l s).1 = l) := by
  unfold loadXML
  cases hu : unmarshal s with
  | none =>
    refine ⟨⟨fun _ => ?_, fun _ => rfl⟩, fun _ => rfl⟩
    rintro ⟨src, rest, d, h1, h2⟩
    rw [unmarshal_iff.2 ⟨src, rest, h1, h2⟩] at hu
    cases hu
  | some d =>
    obtain ⟨src, rest, h1, h2⟩ := unmarshal_iff.1 hu
    refine ⟨⟨fun h => ?_, fun h => absurd ⟨src, rest, d, h1, h2⟩ h⟩, fun h => ?_⟩
    · cases h
    · cases h

/-- **C92** Version 1 loads the same documents, without the statuses, and refuses the same texts. -/
theorem C92_v1_load (pt : Str → Str) (l : V1.Language.Lang) (m : AMap Str) (hm : l.entries = some m) (s : Str) :
    (∀ src rest d, s = src ++ rest → Document src d →
      ∃ l' m', V1.Language.loadXML (fun s => (unmarshal s).map V1.Language.XLang.ofV2) pt l s = some (l', false) ∧
        l'.name = d.name ∧ l'.tag = pt d.language ∧ l'.entries = some m' ∧
        (∀ k v st, LastEntry d k v st → m'.get k = some v) ∧ (∀ k, (∀ e ∈ d.entries, e.id ≠ k) → m'.get k = m.get k)) ∧
    ((¬ ∃ src rest d, s = src ++ rest ∧ Document src d) →
      V1.Language.loadXML (fun s => (unmarshal s).map V1.Language.XLang.ofV2) pt l s = some (l, true)) := by
  constructor
  · rintro src rest d rfl h
    obtain ⟨l', h1, h2⟩ := V1.Language.loadXML_agrees unmarshal pt (l := l) (l2 := ⟨l.name, l.tag, m, []⟩) ⟨rfl, rfl, hm⟩ (src ++ rest)
    rw [loadXML_eq (unmarshal_iff.2 ⟨src, rest, rfl, h⟩)] at h1 h2
    refine ⟨l', _, h1, ?_, ?_, h2.2.2, ?_, ?_⟩
    · rw [h2.1]; exact (addEntries_names _ _).1
    · rw [h2.2.1]; exact (addEntries_names _ _).2
    · rintro k v st ⟨pre, post, h3, h4⟩
      exact (addEntries_last h3 h4 _).1
    · intro k hk
      exact (addEntries_other hk _).1
  · intro h
    have : unmarshal s = none := by
      cases hu : unmarshal s with
      | none => rfl
      | some d =>
        obtain ⟨src, rest, h1, h2⟩ := unmarshal_iff.1 hu
        exact absurd ⟨src, rest, d, h1, h2⟩ h
    simp [V1.Language.loadXML, this]

/-- A document with all that the grammar has. -/
def sample : Str :=
  b!"<?xml version='1.0'  encoding=\"utf-8\"?>\r\n<!-- texts - of - the shop --><?style a?b ?>\n<texts lang = 'fr'\tid=\"shop\" ><entry id=\"a&#98;\" status='new&amp;old'>un <b>deux <c/>&lt;</b>&#x20AC;<!-- no -->\r\ntrois</entry>\n<note id='x'>not an <entry id='y'>entry</entry></note><entry status=\"\"id='&quot;'><![CDATA[<&amp;]]]]></entry ><entry/></texts\n>and more <"

/-- Non-vacuity: what the sample describes. The element `b` inside of the entry and the entry inside of `note` are not part of the language. -/
example : ∃ src rest, sample = src ++ rest ∧ Document src ⟨b!"shop", b!"fr", [⟨b!"ab", b!"un €\ntrois", b!"new&old"⟩, ⟨b!"\"", b!"<&amp;]]", b!""⟩, ⟨b!"", b!"", b!""⟩]⟩ :=
  (C92_decoder_reads_documents _ _).1 (by decide +kernel)

/-- Non-vacuity: a small document, derived by hand. -/
example : Document b!"<l><entry id='a'>b</entry></l>" ⟨[], [], [⟨b!"a", b!"b", []⟩]⟩ := by
  have ha : Attributes b!" id='a'" [(b!"id", b!"a")] := by
    have hv : Value b!"'a'" b!"a" := .single (s := b!"a") (.byte (by decide) (by decide) .nil) (by decide) ⟨['a'], by unfold XmlChar; decide, by decide⟩
    exact .cons (w1 := b!" ") (n := b!"id") (w2 := []) (w3 := []) (q := b!"'a'") (r := []) (by unfold White; decide)
      (.mk (by unfold Letter; decide) (by unfold Letter; decide)) (by unfold White; decide) (by unfold White; decide) hv .nil
  have ht : Tag b!">" b!"<entry id='a'>" b!"entry" [(b!"id", b!"a")] :=
    .mk (n := b!"entry") (a := b!" id='a'") (w := []) (.mk (by unfold Letter; decide) (by unfold Letter; decide)) ha
      (Or.inr ⟨32, by simp, by unfold White; decide⟩) (by unfold White; decide)
  have he : EndTag b!"</entry>" b!"entry" := .mk (n := b!"entry") (w := []) (.mk (by unfold Letter; decide) (by unfold Letter; decide)) (by unfold White; decide)
  have hx : Content b!"b" [.text b!"b"] :=
    .text (s := b!"b") (r := []) (.mk (by decide) (.byte (by decide) (by decide) .nil) (by decide) ⟨['b'], by unfold XmlChar; decide, by decide⟩) (Or.inl rfl) .nil
  have hc : Content b!"<entry id='a'>b</entry>" [.element b!"entry" [(b!"id", b!"a")] [.text b!"b"]] := .element (r := []) ht hx he .nil
  have hl : Tag b!">" b!"<l>" b!"l" [] :=
    .mk (n := b!"l") (a := []) (w := []) (.mk (by unfold Letter; decide) (by unfold Letter; decide)) .nil (Or.inl rfl) (by unfold White; decide)
  have hle : EndTag b!"</l>" b!"l" := .mk (n := b!"l") (w := []) (.mk (by unfold Letter; decide) (by unfold Letter; decide)) (by unfold White; decide)
  exact .mk (before := []) (n := b!"l") (a := []) (cs := [.element b!"entry" [(b!"id", b!"a")] [.text b!"b"]]) (.element (r := []) hl hc hle .nil) (by simp)

/-- Non-vacuity: texts that are not documents: no element, an element left open, two elements that overlap, a loose `&`, `]]>` in a text, `--` in a comment,
an attribute without quotes, an end without a beginning, a character that XML does not have. -/
example : ∀ s ∈ [b!"", b!"texts", b!"<l>", b!"<l><a></l></a>", b!"<l>&</l>", b!"<l>&#1114112;</l>", b!"<l>]]></l>", b!"<l><!-- -- --></l>", b!"<l a=b/>", b!"</l>", b!"<l>\x01</l>", b!"<l a='<'/>"],
    ¬ ∃ src rest d, s = src ++ rest ∧ Document src d := by
  intro s hs h
  have : unmarshal s = none := by
    clear h; revert s; decide +kernel
  obtain ⟨src, rest, d, h⟩ := h
  rw [unmarshal_iff.2 ⟨src, rest, h⟩] at this
  cases this

end Xcore.Xml
