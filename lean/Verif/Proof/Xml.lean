import Verif.Model.Xml
import Verif.Spec.Xml
import Verif.Proof.Language

/-! # Proofs about the XML export and import of languages -/

namespace Xcore.Xml

open Language

/-! ## UTF-8 -/

theorem decodeRune_encode (c : Char) (rest : Str) :
    decodeRune (String.utf8EncodeChar c ++ rest) = some (c.toNat, (String.utf8EncodeChar c).length) := by
  have hv : c.toNat < 0xD800 ∨ 0xDFFF < c.toNat ∧ c.toNat < 0x110000 := c.valid
  unfold String.utf8EncodeChar
  simp only [Char.toNat] at *
  generalize c.val.toNat = v at *
  split
  · have : v % 256 = v := by omega
    simp [decodeRune, this]; omega
  · split
    · simp only [List.cons_append, decodeRune, UInt8.toNat_ofNat', cont, decide_eq_true_eq, List.nil_append]
      rw [if_neg (by omega), if_pos (by simp; omega)]
      simp; omega
    · split
      · simp only [List.cons_append, decodeRune, UInt8.toNat_ofNat', cont, decide_eq_true_eq, List.nil_append, ← UInt8.toNat_inj]
        rw [if_neg (by omega), if_neg (by simp; omega), if_pos]
        · simp; omega
        · refine ⟨by omega, by omega, ?_, ?_⟩
          · split <;> split <;> simp_all <;> omega
          · simp; omega
      · simp only [List.cons_append, decodeRune, UInt8.toNat_ofNat', cont, decide_eq_true_eq, List.nil_append, ← UInt8.toNat_inj]
        rw [if_neg (by omega), if_neg (by simp; omega), if_neg (by simp; omega), if_pos]
        · simp; omega
        · refine ⟨by omega, by omega, ?_, ?_, ?_⟩
          · split <;> split <;> simp_all <;> omega
          · simp; omega
          · simp; omega

theorem inRange_of_xmlChar {c : Char} (h : XmlChar c) : inRange c.toNat = true := by
  have hv : c.toNat < 0xD800 ∨ 0xDFFF < c.toNat ∧ c.toNat < 0x110000 := c.valid
  unfold inRange
  rw [decide_eq_true_eq]
  rcases h with rfl | rfl | rfl | h
  · decide
  · decide
  · decide
  · omega

theorem validChars_of_chars (cs : List Char) (h : ∀ c ∈ cs, XmlChar c) (n : Nat) (hn : cs.length ≤ n) :
    validChars n (cs.flatMap String.utf8EncodeChar) = true := by
  induction cs generalizing n with
  | nil => cases n <;> rfl
  | cons c cs ih =>
    obtain ⟨n, rfl⟩ : ∃ m, n = m + 1 := ⟨n - 1, by simp at hn; omega⟩
    rw [List.flatMap_cons]
    have hne : String.utf8EncodeChar c ++ cs.flatMap String.utf8EncodeChar ≠ [] := by
      simp [String.utf8EncodeChar_ne_nil]
    have hd := decodeRune_encode c (cs.flatMap String.utf8EncodeChar)
    have hdrop : (String.utf8EncodeChar c ++ cs.flatMap String.utf8EncodeChar).drop (String.utf8EncodeChar c).length =
      cs.flatMap String.utf8EncodeChar := by simp
    generalize String.utf8EncodeChar c ++ cs.flatMap String.utf8EncodeChar = s at hne hd hdrop
    cases s with
    | nil => exact absurd rfl hne
    | cons a s =>
      simp only [validChars, hd, hdrop, inRange_of_xmlChar (h c (by simp)), Bool.true_and]
      exact ih (fun c' hc' => h c' (by simp [hc'])) n (by simpa using hn)

theorem okText_of_xmlText {s : Str} (h : XmlText s) : okText s = true := by
  obtain ⟨cs, hc, rfl⟩ := h
  refine validChars_of_chars cs hc _ ?_
  clear hc
  induction cs with
  | nil => simp
  | cons c cs ih =>
    have : 0 < (String.utf8EncodeChar c).length := List.length_pos_iff.2 String.utf8EncodeChar_ne_nil
    simp only [List.flatMap_cons, List.length_append, List.length_cons] at *
    omega

/-! ## Text -/

theorem textGo_quote {s : Str} (h1 : 34 ∉ s) (h2 : 60 ∉ s) (h3 : 38 ∉ s) (h4 : 13 ∉ s) (rest : Str) (b0 b1 : UInt8) (hb : b1 ≠ 13) (buf : Str) :
    textGo (some 34) false b0 b1 buf none (s ++ 34 :: rest) = some (buf ++ s, rest) := by
  induction s generalizing b0 b1 buf with
  | nil => rw [List.nil_append, textGo.eq_def]; simp
  | cons c s ih =>
    simp only [List.mem_cons, not_or] at h1 h2 h3 h4
    have e1 : c ≠ 60 := fun e => h2.1 e.symm
    have e2 : c ≠ 38 := fun e => h3.1 e.symm
    have e3 : c ≠ 13 := fun e => h4.1 e.symm
    rw [List.cons_append, textGo.eq_def]
    simp [e1, e2, e3, h1.1, hb, ih h1.2 h2.2 h3.2 h4.2 b1 c e3]

theorem textGo_cdata {s : Str} (rest : Str) (b0 b1 : UInt8) (hb : b1 ≠ 13) (buf : Str) (h4 : 13 ∉ s) (h : ¬ b!"]]>" <:+: b0 :: b1 :: s) :
    textGo none true b0 b1 buf none (s ++ (b!"]]>" ++ rest)) = some (buf ++ s, rest) := by
  induction s generalizing b0 b1 buf with
  | nil =>
    simp only [List.nil_append, List.cons_append]
    rw [textGo.eq_def]
    simp only [hb, reduceCtorEq, false_and, and_false, if_false, Bool.true_eq_false, (by decide : (93 : UInt8) ≠ 62), (by decide : (93 : UInt8) ≠ 60), (by decide : (93 : UInt8) ≠ 13)]
    rw [textGo.eq_def]
    simp only [reduceCtorEq, false_and, and_false, if_false, Bool.true_eq_false, (by decide : (93 : UInt8) ≠ 62), (by decide : (93 : UInt8) ≠ 60), (by decide : (93 : UInt8) ≠ 13)]
    rw [textGo.eq_def]
    simp
  | cons c s ih =>
    simp only [List.mem_cons, not_or] at h4
    have e3 : c ≠ 13 := fun e => h4.1 e.symm
    have e : ¬ (b0 = 93 ∧ b1 = 93 ∧ c = 62) := by
      rintro ⟨rfl, rfl, rfl⟩
      exact h ⟨[], s, rfl⟩
    have ih := ih b1 c e3 (buf ++ [c]) h4.2 (fun hh => h (hh.trans ⟨[b0], [], by simp⟩))
    simp only [List.cons_append] at ih ⊢
    rw [textGo.eq_def]
    simp at ih
    simp [e, e3, hb, ih]

theorem text_quote {s : Str} (h : AttrSafe s) (rest : Str) : text (some 34) false (s ++ 34 :: rest) = some (s, rest) := by
  obtain ⟨h0, h1, h2, h3, h4⟩ := h
  simp [text, textGo_quote h1 h2 h3 h4 rest 0 0 (by decide), okText_of_xmlText h0]

theorem infix_zeros {s : Str} (h : b!"]]>" <:+: (0 : UInt8) :: 0 :: s) : b!"]]>" <:+: s := by
  obtain ⟨a, b, e⟩ := h
  match a with
  | [] => simp at e
  | [x] => simp at e
  | x :: y :: a =>
    simp only [List.cons_append, List.cons.injEq] at e
    exact ⟨a, b, by simpa using e.2.2⟩

theorem text_cdata {s : Str} (h : CDataSafe s) (rest : Str) : text none true (s ++ (b!"]]>" ++ rest)) = some (s, rest) := by
  obtain ⟨h0, h1, h2⟩ := h
  rw [text, textGo_cdata rest 0 0 (by decide) [] h1 (fun hh => h2 (infix_zeros hh))]
  simp [okText_of_xmlText h0]

/-! ## Tokens of an exported document -/

theorem textGo_blank {s : Str} (h : ∀ c ∈ s, c = 10 ∨ c = 32) (rest : Str) (b0 b1 : UInt8) (hb : b1 ≠ 13) (buf : Str) :
    textGo none false b0 b1 buf none (s ++ 60 :: rest) = some (buf ++ s, 60 :: rest) := by
  induction s generalizing b0 b1 buf with
  | nil => rw [List.nil_append, textGo.eq_def]; simp
  | cons c s ih =>
    rw [List.cons_append, textGo.eq_def]
    rcases h c (by simp) with rfl | rfl
    · simp [hb, ih (fun c hc => h c (by simp [hc])) b1 10 (by decide)]
    · simp [ih (fun c hc => h c (by simp [hc])) b1 32 (by decide)]

theorem attrsN_id (k : Nat) (s : Str) (acc) :
    attrsN (k + 1) (b!" id=\"" ++ s) acc = (text (some 34) false s).bind fun v => attrsN k v.2 (acc ++ [(b!"id", v.1)]) := rfl

theorem attrsN_lang (k : Nat) (s : Str) (acc) :
    attrsN (k + 1) (b!" lang=\"" ++ s) acc = (text (some 34) false s).bind fun v => attrsN k v.2 (acc ++ [(b!"lang", v.1)]) := rfl

theorem attrsN_status (k : Nat) (s : Str) (acc) :
    attrsN (k + 1) (b!" status=\"" ++ s) acc = (text (some 34) false s).bind fun v => attrsN k v.2 (acc ++ [(b!"status", v.1)]) := rfl

theorem attrsN_end (k : Nat) (s : Str) (acc) : attrsN (k + 1) (62 :: s) acc = some (acc, false, s) := rfl

theorem nextTok_language (s : Str) :
    nextTok (b!"<language" ++ 32 :: s) = (attrsN ((32 :: s).length + 1) (32 :: s) []).map fun a => (.start b!"language" a.1 a.2.1, a.2.2) := rfl

theorem nextTok_entry (s : Str) :
    nextTok (b!"<entry" ++ 32 :: s) = (attrsN ((32 :: s).length + 1) (32 :: s) []).map fun a => (.start b!"entry" a.1 a.2.1, a.2.2) := rfl

theorem nextTok_decl (s : Str) : nextTok (b!"<?xml version=\"1.0\" encoding=\"UTF-8\" ?>" ++ s) = some (.other, s) := rfl

theorem nextTok_cdata (s : Str) : nextTok (b!"<![CDATA[" ++ s) = (Xml.text none true s).map fun q => (.text q.1, q.2) := rfl

theorem nextTok_end (s : Str) : nextTok (b!"</entry>" ++ s) = some (.stop b!"entry", s) := rfl

theorem nextTok_close (s : Str) : nextTok (b!"</language>" ++ s) = some (.stop b!"language", s) := rfl

theorem nextTok_text {w : Str} (hw : w = b!"\n" ∨ w = b!"\n  " ∨ w = b!"\n\n") (s : Str) :
    nextTok (w ++ 60 :: s) = some (.text w, 60 :: s) := by
  have h : ∀ c ∈ w, c = 10 ∨ c = 32 := by rcases hw with rfl | rfl | rfl <;> decide
  have ht : Xml.text none false (w ++ 60 :: s) = some (w, 60 :: s) := by
    have hv : okText w = true := by rcases hw with rfl | rfl | rfl <;> decide
    simp [Xml.text, textGo_blank h s 0 0 (by decide), hv]
  have : nextTok (w ++ 60 :: s) = (Xml.text none false (w ++ 60 :: s)).map fun q => (.text q.1, q.2) := by
    rcases hw with rfl | rfl | rfl <;> rfl
  rw [this, ht]; rfl

theorem nextTok_header {n t : Str} (hn : AttrSafe n) (ht : AttrSafe t) (rest : Str) :
    nextTok (b!"<language id=\"" ++ n ++ b!"\" lang=\"" ++ t ++ b!"\">" ++ rest) =
      some (.start b!"language" [(b!"id", n), (b!"lang", t)] false, rest) := by
  have e : b!"<language id=\"" ++ n ++ b!"\" lang=\"" ++ t ++ b!"\">" ++ rest =
      b!"<language" ++ 32 :: (b!"id=\"" ++ (n ++ 34 :: (b!" lang=\"" ++ (t ++ 34 :: (62 :: rest))))) := by simp
  rw [e, nextTok_language]
  generalize hk : (32 :: (b!"id=\"" ++ (n ++ 34 :: (b!" lang=\"" ++ (t ++ 34 :: (62 :: rest)))))).length = k
  obtain ⟨k, rfl⟩ : ∃ j, k = j + 2 := ⟨k - 2, by simp at hk; omega⟩
  show ((attrsN (k + 3) (b!" id=\"" ++ (n ++ 34 :: (b!" lang=\"" ++ (t ++ 34 :: (62 :: rest))))) []).map _) = _
  rw [attrsN_id, text_quote hn]
  simp only [Option.bind_some]
  rw [attrsN_lang, text_quote ht]
  simp only [Option.bind_some]
  rw [attrsN_end]; rfl

theorem nextTok_entryTag {k st : Str} (hk : AttrSafe k) (hs : AttrSafe st) (rest : Str) :
    nextTok (b!"<entry id=\"" ++ k ++ b!"\" status=\"" ++ st ++ b!"\">" ++ rest) =
      some (.start b!"entry" [(b!"id", k), (b!"status", st)] false, rest) := by
  have e : b!"<entry id=\"" ++ k ++ b!"\" status=\"" ++ st ++ b!"\">" ++ rest =
      b!"<entry" ++ 32 :: (b!"id=\"" ++ (k ++ 34 :: (b!" status=\"" ++ (st ++ 34 :: (62 :: rest))))) := by simp
  rw [e, nextTok_entry]
  generalize hj : (32 :: (b!"id=\"" ++ (k ++ 34 :: (b!" status=\"" ++ (st ++ 34 :: (62 :: rest)))))).length = j
  obtain ⟨j, rfl⟩ : ∃ i, j = i + 2 := ⟨j - 2, by simp at hj; omega⟩
  show ((attrsN (j + 3) (b!" id=\"" ++ (k ++ 34 :: (b!" status=\"" ++ (st ++ 34 :: (62 :: rest))))) []).map _) = _
  rw [attrsN_id, text_quote hk]
  simp only [Option.bind_some]
  rw [attrsN_status, text_quote hs]
  simp only [Option.bind_some]
  rw [attrsN_end]; rfl

/-! ## The decoder on an exported document -/

theorem runN_tok {n : Nat} {st st' : St} {s rest : Str} {t : Tok} (h : nextTok s = some (t, rest)) (hf : feed st t = some (st', false)) :
    runN (n + 1) st s = runN n st' rest := by
  simp [runN, h, hf]

/-- Inside of the root element. -/
def inRoot (doc : XLang) : St := ⟨[b!"language"], .root, doc⟩

theorem runN_entry (status : AMap Str) (p : Str × Str) (hk : AttrSafe p.1) (hs : AttrSafe ((status.get p.1).getD [])) (hv : CDataSafe p.2)
    (n : Nat) (doc : XLang) (rest : Str) :
    runN (n + 4) (inRoot doc) (b!"\n" ++ xmlEntry status p ++ rest) =
      runN n (inRoot { doc with entries := doc.entries ++ [⟨p.1, p.2, (status.get p.1).getD []⟩] }) rest := by
  have e : b!"\n" ++ xmlEntry status p ++ rest =
    b!"\n  " ++ 60 :: (b!"entry id=\"" ++ p.1 ++ b!"\" status=\"" ++ (status.get p.1).getD [] ++ b!"\">" ++
      (b!"<![CDATA[" ++ (p.2 ++ (b!"]]>" ++ (b!"</entry>" ++ rest))))) := by simp [xmlEntry]
  rw [e, runN_tok (st' := inRoot doc) (nextTok_text (Or.inr (Or.inl rfl)) _) rfl]
  have e2 : ∀ r : Str, 60 :: (b!"entry id=\"" ++ p.1 ++ b!"\" status=\"" ++ (status.get p.1).getD [] ++ b!"\">" ++ r) =
    b!"<entry id=\"" ++ p.1 ++ b!"\" status=\"" ++ (status.get p.1).getD [] ++ b!"\">" ++ r := by intro r; simp
  rw [e2, runN_tok (st' := ⟨[b!"entry", b!"language"], .entry ⟨p.1, [], (status.get p.1).getD []⟩, doc⟩) (nextTok_entryTag hk hs _) rfl]
  rw [runN_tok (st' := ⟨[b!"entry", b!"language"], .entry ⟨p.1, p.2, (status.get p.1).getD []⟩, doc⟩) (t := .text p.2)
    (by rw [nextTok_cdata, text_cdata hv]; rfl) rfl]
  rw [runN_tok (nextTok_end _) rfl]
  rfl

theorem runN_entries (status : AMap Str) (ps : List (Str × Str))
    (h : ∀ p ∈ ps, AttrSafe p.1 ∧ AttrSafe ((status.get p.1).getD []) ∧ CDataSafe p.2) (n : Nat) (doc : XLang) (rest : Str) :
    runN (n + 4 * ps.length) (inRoot doc) (ps.flatMap (fun p => b!"\n" ++ xmlEntry status p) ++ rest) =
      runN n (inRoot { doc with entries := doc.entries ++ ps.map fun p => ⟨p.1, p.2, (status.get p.1).getD []⟩ }) rest := by
  induction ps generalizing doc with
  | nil => simp
  | cons p ps ih =>
    obtain ⟨h1, h2, h3⟩ := h p (by simp)
    rw [List.flatMap_cons, List.append_assoc, List.length_cons, show n + 4 * (ps.length + 1) = (n + 4 * ps.length) + 4 by omega,
      runN_entry status p h1 h2 h3, ih (fun q hq => h q (by simp [hq]))]
    simp

theorem join_flatMap (x : Str) (xs : List Str) : b!"\n" ++ join b!"\n" (x :: xs) = (x :: xs).flatMap (b!"\n" ++ ·) := by
  induction xs generalizing x with
  | nil => simp [join]
  | cons y ys ih =>
    rw [List.flatMap_cons, ← ih y]; simp [join]

theorem runN_close (n : Nat) (doc : XLang) {w : Str} (hw : w = b!"\n" ∨ w = b!"\n\n") :
    runN (n + 2) (inRoot doc) (w ++ b!"</language>") = some doc := by
  show runN (n + 1 + 1) (inRoot doc) (w ++ 60 :: b!"/language>") = some doc
  rw [runN_tok (st' := inRoot doc) (nextTok_text (hw.elim Or.inl (fun h => Or.inr (Or.inr h))) _) rfl]
  show runN (n + 1) (inRoot doc) (b!"</language>" ++ []) = some doc
  simp only [runN, nextTok_close]
  rfl

theorem perm_map {α β : Type} (f : α → β) {l : List β} {m : List α} (h : l.Perm (m.map f)) : ∃ m' : List α, m'.Perm m ∧ m'.map f = l := by
  generalize hg : m.map f = lm at h
  induction h generalizing m with
  | nil => exact ⟨m, List.Perm.refl _, hg⟩
  | cons x _ ih =>
    cases m with
    | nil => simp at hg
    | cons a m =>
      simp only [List.map_cons, List.cons.injEq] at hg
      obtain ⟨m', h1, h2⟩ := ih hg.2
      exact ⟨a :: m', h1.cons a, by simp [h2, hg.1]⟩
  | swap x y l =>
    match m with
    | [] => simp at hg
    | [a] => simp at hg
    | a :: b :: m =>
      simp only [List.map_cons, List.cons.injEq] at hg
      exact ⟨b :: a :: m, List.Perm.swap _ _ _, by simp [hg.1, hg.2.1, hg.2.2]⟩
  | trans _ _ ih1 ih2 =>
    obtain ⟨m1, h1, h2⟩ := ih2 hg
    obtain ⟨m2, h3, h4⟩ := ih1 h2
    exact ⟨m2, h3.trans h1, h4⟩

/-- The document read back is the table, in the order of the export. -/
theorem unmarshal_getXML (l : Lang) (hn : AttrSafe l.name) (ht : AttrSafe l.tag)
    (h : ∀ p ∈ l.entries, AttrSafe p.1 ∧ AttrSafe ((l.status.get p.1).getD []) ∧ CDataSafe p.2) :
    ∃ ps : List (Str × Str), ps.Perm l.entries ∧
      unmarshal (getXML l) = some ⟨l.name, l.tag, ps.map fun p => ⟨p.1, p.2, (l.status.get p.1).getD []⟩⟩ := by
  obtain ⟨ps, hp, hm⟩ := perm_map (xmlEntry l.status) (sortStrs_perm (l.entries.map (xmlEntry l.status)))
  refine ⟨ps, hp, ?_⟩
  have hps : ∀ p ∈ ps, AttrSafe p.1 ∧ AttrSafe ((l.status.get p.1).getD []) ∧ CDataSafe p.2 := fun p hh => h p (hp.mem_iff.1 hh)
  have e : getXML l = b!"<?xml version=\"1.0\" encoding=\"UTF-8\" ?>" ++ (b!"\n" ++ 60 :: (b!"language id=\"" ++ l.name ++ b!"\" lang=\"" ++ l.tag ++ b!"\">" ++
      (b!"\n" ++ join b!"\n" (ps.map (xmlEntry l.status)) ++ b!"\n</language>"))) := by
    simp [getXML, hm]
  have hlen : 4 * ps.length + 5 ≤ (getXML l).length := by
    have : ∀ qs : List (Str × Str), 4 * qs.length ≤ (join b!"\n" (qs.map (xmlEntry l.status))).length := by
      intro qs
      induction qs with
      | nil => simp
      | cons q qs ih =>
        cases qs with
        | nil => simp [join, xmlEntry]
        | cons r rs =>
          simp only [List.map_cons, join, List.length_append, List.length_cons] at ih ⊢
          have : 4 ≤ (xmlEntry l.status q).length := by simp [xmlEntry]
          omega
    have := this ps
    rw [e]; simp; omega
  obtain ⟨n, hn'⟩ : ∃ n, (getXML l).length + 1 = ((n + 2) + 4 * ps.length) + 1 + 1 + 1 := ⟨(getXML l).length - 4 * ps.length - 4, by omega⟩
  unfold unmarshal
  rw [hn', e, runN_tok (nextTok_decl _) rfl, runN_tok (st' := ⟨[], .prolog, ⟨[], [], []⟩⟩) (nextTok_text (Or.inl rfl) _) rfl]
  have e2 : ∀ r : Str, 60 :: (b!"language id=\"" ++ l.name ++ b!"\" lang=\"" ++ l.tag ++ b!"\">" ++ r) =
    b!"<language id=\"" ++ l.name ++ b!"\" lang=\"" ++ l.tag ++ b!"\">" ++ r := by intro r; simp
  rw [e2, runN_tok (st' := inRoot ⟨l.name, l.tag, []⟩) (nextTok_header hn ht _) rfl]
  cases ps with
  | nil => exact runN_close n _ (Or.inr rfl)
  | cons p ps =>
    rw [List.map_cons, join_flatMap, ← List.map_cons, List.flatMap_map]
    have := runN_entries l.status (p :: ps) hps (n + 2) ⟨l.name, l.tag, []⟩ b!"\n</language>"
    rw [this]
    exact runN_close n _ (Or.inl rfl)

/-- Loading the export of a table. -/
theorem xml_round_trip (pt : Str → Str) (n t : Str) (h : List Op) (l l0 : Lang)
    (hl : l = run unmarshal pt (new n t) h)
    (hname : AttrSafe l.name) (htag : AttrSafe l.tag)
    (hsafe : ∀ k v, l.entries.get k = some v → AttrSafe k ∧ AttrSafe (getStatus l k) ∧ CDataSafe v) :
    (loadXML unmarshal pt l0 (getXML l)).2 = false ∧
    (loadXML unmarshal pt l0 (getXML l)).1.name = l.name ∧
    (loadXML unmarshal pt l0 (getXML l)).1.tag = pt l.tag ∧
    (∀ k v, l.entries.get k = some v →
      (loadXML unmarshal pt l0 (getXML l)).1.entries.get k = some v ∧
      getStatus (loadXML unmarshal pt l0 (getXML l)).1 k = getStatus l k) ∧
    (∀ k, l.entries.get k = none →
      (loadXML unmarshal pt l0 (getXML l)).1.entries.get k = l0.entries.get k ∧
      getStatus (loadXML unmarshal pt l0 (getXML l)).1 k = getStatus l0 k) := by
  have hnd : l.entries.Nodup := by rw [hl]; exact (run_nodup _ _ (by simp [new]) h).1
  have hst : ∀ k, (l.status.get k).getD [] = getStatus l k := by
    intro k; unfold getStatus; cases l.status.get k <;> rfl
  obtain ⟨ps, hp, hu⟩ := unmarshal_getXML l hname htag (by
    rintro ⟨k, v⟩ hm
    rw [hst]
    exact hsafe k v (AMap.get_of_mem hnd hm))
  rw [loadXML_eq hu]
  refine ⟨rfl, (addEntries_names _ _).1, (addEntries_names _ _).2, ?_, ?_⟩
  · intro k v hk
    have hm : (k, v) ∈ ps := hp.mem_iff.2 (AMap.mem_of_get hk)
    obtain ⟨pre, post, rfl⟩ := List.append_of_mem hm
    have hnd' : ((pre ++ (k, v) :: post).map Prod.fst).Nodup := (hp.map Prod.fst).nodup_iff.2 hnd
    have hpost : ∀ e ∈ post.map (fun p : Str × Str => (⟨p.1, p.2, (l.status.get p.1).getD []⟩ : XEntry)), e.id ≠ k := by
      intro e he hek
      obtain ⟨p, hp1, rfl⟩ := List.mem_map.1 he
      simp only at hek
      rw [List.map_append, List.map_cons] at hnd'
      have := (List.nodup_cons.1 (List.nodup_append.1 hnd').2.1).1
      exact this (List.mem_map.2 ⟨p, hp1, hek⟩)
    obtain ⟨h1, h2⟩ := addEntries_last
      (es := (pre ++ (k, v) :: post).map (fun p : Str × Str => (⟨p.1, p.2, (l.status.get p.1).getD []⟩ : XEntry))) (pre := pre.map (fun p : Str × Str => (⟨p.1, p.2, (l.status.get p.1).getD []⟩ : XEntry)))
      (k := k) (v := v) (st := (l.status.get k).getD []) (by simp) hpost { l0 with name := l.name, tag := pt l.tag }
    refine ⟨h1, ?_⟩
    unfold getStatus
    rw [h2]; exact hst k
  · intro k hk
    have : ∀ e ∈ ps.map (fun p : Str × Str => (⟨p.1, p.2, (l.status.get p.1).getD []⟩ : XEntry)), e.id ≠ k := by
      intro e he hek
      obtain ⟨p, hp1, rfl⟩ := List.mem_map.1 he
      simp only at hek
      have := AMap.get_of_mem hnd (hp.mem_iff.1 hp1 : (p.1, p.2) ∈ l.entries)
      rw [hek, hk] at this
      cases this
    obtain ⟨h1, h2⟩ := addEntries_other this { l0 with name := l.name, tag := pt l.tag }
    refine ⟨h1, ?_⟩
    unfold getStatus; rw [h2]

end Xcore.Xml
