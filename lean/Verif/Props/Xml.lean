import Verif.Proof.Xml

/-!
# C35: XML export and import

`unmarshal` is the model of `xml.Unmarshal` in Verif/Model/Xml.lean. `XmlText`, `AttrSafe` and `CDataSafe` are in Verif/Spec/Xml.lean.
-/

namespace Xcore.Xml

open Language

/-- **C35 (partial)** For every table `l` that calls can produce, whose name, language, entry names and statuses are texts without
`"`, `<`, `&` and carriage return, and whose values are texts without carriage return and without `]]>`: exporting it with GetXML and loading the export
into any table `l0` succeeds, sets name and language, gives every entry of `l` the value and status it has in `l`, and leaves all other entries of
`l0` alone. (`pt` is `language.Parse` followed by printing.)

Missing: all other texts, for which it is false (`C35_…` below), as GetXML escapes nothing. -/
theorem C35_xml_round_trip_partial (pt : Str → Str) (n t : Str) (h : List Op) (l l0 : Lang)
    (hl : l = run unmarshal pt (new n t) h)
    (hname : AttrSafe l.name) (htag : AttrSafe l.tag)
    (hsafe : ∀ k v, l.entries.get k = some v → AttrSafe k ∧ AttrSafe (getStatus l k) ∧ CDataSafe v) :
    (loadXML unmarshal pt l0 (getXML l)).2 = false ∧
    (loadXML unmarshal pt l0 (getXML l)).1.name = l.name ∧
    (loadXML unmarshal pt l0 (getXML l)).1.tag = pt l.tag ∧
    (∀ k v, l.entries.get k = some v →
      (loadXML unmarshal pt l0 (getXML l)).1.entries.get k = some v ∧
      getStatus (loadXML unmarshal pt l0 (getXML l)).1 k = getStatus l k) ∧
    (∀ k, l.entries.get k = none →
      (loadXML unmarshal pt l0 (getXML l)).1.entries.get k = l0.entries.get k ∧
      getStatus (loadXML unmarshal pt l0 (getXML l)).1 k = getStatus l0 k) := by
  exact xml_round_trip pt n t h l l0 hl hname htag hsafe

theorem toNat_ofNat {n : Nat} (h : n < 127) : (Char.ofNat n).toNat = n := by
  have hv : n.isValidChar := Or.inl (by omega)
  simp only [Char.ofNat, hv, dif_pos, Char.toNat, Char.ofNatAux, UInt32.toNat]
  simp

/-- ASCII letters and spaces are texts. -/
theorem xmlText_ascii (s : Str) (h : ∀ b ∈ s, 32 ≤ b.toNat ∧ b.toNat < 127 ∨ b = 10) : XmlText s := by
  refine ⟨s.map (fun b => Char.ofNat b.toNat), ?_, ?_⟩
  · intro c hc
    obtain ⟨b, hb, rfl⟩ := List.mem_map.1 hc
    rcases h b hb with h | rfl
    · have : (Char.ofNat b.toNat).toNat = b.toNat := toNat_ofNat (by omega)
      exact Or.inr (Or.inr (Or.inr (by omega)))
    · exact Or.inr (Or.inl rfl)
  · induction s with
    | nil => rfl
    | cons b s ih =>
      rw [List.map_cons, List.flatMap_cons, ← ih (fun b' hb' => h b' (by simp [hb']))]
      have h0 : b.toNat < 127 := by rcases h b (by simp) with h | rfl; exact h.2; decide
      have : (Char.ofNat b.toNat).toNat = b.toNat := toNat_ofNat (by omega)
      have e : String.utf8EncodeChar (Char.ofNat b.toNat) = [b] := by
        unfold String.utf8EncodeChar
        simp only [Char.toNat] at this
        simp only [this]
        rw [if_pos (by omega)]; simp
      rw [e]; rfl

/-- Non-vacuity: a table with markup and brackets in a value, a status, and an entry without status meets the hypotheses; a text with an accent is a text. -/
example : ∃ (h : List Op) (l : Lang), l = run unmarshal id (new b!"app" b!"en") h ∧ AttrSafe l.name ∧ AttrSafe l.tag ∧
    l.entries.get b!"title" = some b!"<b>x & y]]</b>" ∧ getStatus l b!"title" = b!"done" ∧ l.entries.get b!"z" = some b!"" ∧
    (∀ k v, l.entries.get k = some v → AttrSafe k ∧ AttrSafe (getStatus l k) ∧ CDataSafe v) := by
  refine ⟨[.set b!"title" b!"<b>x & y]]</b>", .setStatus b!"title" b!"done", .set b!"z" b!""], _, rfl, ?_, ?_, rfl, rfl, rfl, ?_⟩
  · exact ⟨xmlText_ascii _ (by decide), by decide, by decide, by decide, by decide⟩
  · exact ⟨xmlText_ascii _ (by decide), by decide, by decide, by decide, by decide⟩
  · intro k v hk
    have hm : (k, v) ∈ [(b!"title", b!"<b>x & y]]</b>"), (b!"z", b!"")] := AMap.mem_of_get hk
    simp only [List.mem_cons, Prod.mk.injEq, List.not_mem_nil, or_false] at hm
    rcases hm with ⟨rfl, rfl⟩ | ⟨rfl, rfl⟩
    · exact ⟨⟨xmlText_ascii _ (by decide), by decide⟩, ⟨xmlText_ascii _ (by decide), by decide⟩, xmlText_ascii _ (by decide), by decide, by decide⟩
    · exact ⟨⟨xmlText_ascii _ (by decide), by decide⟩, ⟨xmlText_ascii _ (by decide), by decide⟩, xmlText_ascii _ (by decide), by decide, by decide⟩

example : XmlText b!"é€😀" := ⟨['é', '€', '😀'], by unfold XmlChar; decide, by decide⟩

/-- The table with one entry. -/
def one (k v st : Str) : Lang := setStatus (set (new b!"n" b!"en") k v) k st

/-- What is loaded back from the export of a table into an empty one (`none`: the load fails). -/
def back (l : Lang) : Option (AMap Str × AMap Str) :=
  let r := loadXML unmarshal id (new [] []) (getXML l)
  if r.2 then none else some (r.1.entries, r.1.status)

/-- **C35** fails: a quote or `<` in the name of an entry, or in a status, a loose `&`, and `]]>` or a control character or invalid UTF-8 in a value make an export
that cannot be loaded. -/
theorem C35_export_may_not_load :
    back (one b!"a\"b" b!"v" b!"") = none ∧ back (one b!"a<b" b!"v" b!"") = none ∧ back (one b!"a&b" b!"v" b!"") = none ∧
    back (one b!"a" b!"v" b!"\"") = none ∧ back (one b!"a" b!"x]]>y" b!"") = none ∧ back (one b!"a" [1] b!"") = none ∧
    back (one b!"a" [0xC3] b!"") = none := by
  decide +kernel

/-- **C35** fails: an entity in the name of an entry is replaced, so the entry comes back under another name. -/
theorem C35_entity_in_name : back (one b!"a&amp;b" b!"v" b!"") = some ([(b!"a&b", b!"v")], [(b!"a&b", b!"")]) := by decide +kernel

/-- **C35** fails: a carriage return comes back as a newline. -/
theorem C35_carriage_return : back (one b!"a" b!"x\r" b!"") = some ([(b!"a", b!"x\n")], [(b!"a", b!"")]) := by decide +kernel

/-- **C35** fails: a value can close its own entry and add entries that the table never had. -/
theorem C35_value_adds_entries :
    back (one b!"a" b!"x]]></entry><entry id=\"admin\" status=\"ok\"><![CDATA[y" b!"") =
      some ([(b!"a", b!"x"), (b!"admin", b!"y")], [(b!"a", b!""), (b!"admin", b!"ok")]) := by decide +kernel

/-- **C35** fails: the status of a name that has no entry is not exported. -/
theorem C35_status_without_entry :
    getStatus (setStatus (new b!"n" b!"en") b!"a" b!"ok") b!"a" = b!"ok" ∧ back (setStatus (new b!"n" b!"en") b!"a" b!"ok") = some ([], []) := by
  decide +kernel

/-- The sample without these texts does come back. -/
example : back (one b!"a" b!"<b>]]é" b!"ok") = some ([(b!"a", b!"<b>]]é")], [(b!"a", b!"ok")]) := by decide +kernel

end Xcore.Xml
