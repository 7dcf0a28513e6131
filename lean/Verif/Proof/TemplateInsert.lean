import Verif.Proof.TemplateComment

/-!
# Inserted comments are read as comments
-/

namespace Xcore.Template

/-- Only comments contain a percent sign. -/
theorem no_percent {src : Str} {p : Param} (h : Elem src p) (hk : p.kind ≠ .comment) : (37 : UInt8) ∉ src := by
  have lang : ¬ LangChar 37 := by unfold LangChar; decide
  have elem : ¬ ElemChar 37 := by rintro (h | h); exact lang h; revert h; decide
  have box : ¬ BoxChar 37 := by unfold BoxChar; decide
  cases h with
  | comment => exact absurd rfl hk
  | stop => decide
  | language w => simp only [List.mem_append, not_or]; exact ⟨⟨by decide, fun hm => lang (w.2 _ hm)⟩, by decide⟩
  | start w => simp only [List.mem_append, not_or]; exact ⟨⟨by decide, fun hm => box (w.2 _ hm)⟩, by decide⟩
  | reference w | range w | condition w | dump w | «variable» w =>
    simp only [List.mem_append, not_or]; exact ⟨⟨by decide, fun hm => elem (w.2 _ hm)⟩, by decide⟩

/-- No meta element starts with `-`. -/
theorem no_dash {s r u : Str} {p : Param} {c : UInt8} (h : MetaAt s p r) (e : s = c :: u) : c ≠ 45 := by
  rintro rfl
  obtain ⟨src, x, he, e', _⟩ := h
  rw [e] at e'
  cases he <;> simp at e'

/-- A meta element of the text with the comment that starts before it is one of the text without it. -/
theorem no_meta {t a b c : Str} (ht : t ≠ []) (hn : ¬ b!"%--" <:+: t) (ha : ∀ x u, a = x :: u → x ≠ 45) (hc : ∃ u, c = 37 :: u)
    (ho : ¬ ∃ p r, MetaAt (t ++ (a ++ b)) p r) : ¬ ∃ p r, MetaAt (t ++ (a ++ (c ++ b))) p r := by
  rintro ⟨p, r, src, x, he, e, _⟩
  obtain ⟨u, rfl⟩ := hc
  have e : (t ++ a) ++ (37 :: (u ++ b)) = src ++ (x ++ r) := by simpa using e
  rcases List.append_eq_append_iff.1 e with ⟨y, h1, h2⟩ | ⟨y, h1, h2⟩
  · -- src = (t ++ a) ++ y
    cases y with
    | nil =>
      rw [List.append_nil] at h1
      obtain ⟨_, r', hm, _⟩ := meta_of_elem he b
      exact ho ⟨p, r', by rw [h1] at hm; simpa using hm⟩
    | cons z y =>
      simp only [List.cons_append, List.cons.injEq] at h2
      obtain ⟨rfl, _⟩ := h2
      by_cases hk : p.kind = .comment
      · cases he with
        | @comment d hd =>
          match t, a, ht with
          | [c1], [], _ => simp at h1
          | [c1], [c2], _ => simp at h1
          | [c1], c2 :: c3 :: a, _ =>
            simp at h1
            exact ha c2 _ rfl h1.2.1.symm
          | [c1, c2], [], _ => simp at h1
          | [c1, c2], c3 :: a, _ =>
            simp at h1
            exact ha c3 _ rfl h1.2.2.1.symm
          | c1 :: c2 :: c3 :: t, a, _ =>
            simp at h1
            obtain ⟨rfl, rfl, rfl, _⟩ := h1
            exact hn ⟨[], t, by simp⟩
        | language | reference | range | condition | dump | «variable» | stop | start => simp at hk
      · exact no_percent he hk (by rw [h1]; simp)
  · -- t ++ a = src ++ y
    obtain ⟨_, r', hm, _⟩ := meta_of_elem he (y ++ b)
    refine ho ⟨p, r', ?_⟩
    rw [← List.append_assoc, h1, List.append_assoc]
    exact hm

/-- A comment inserted between two pieces or inside a literal text is read as a comment, if no literal text contains `%--`. -/
theorem comment_read {s : Str} {l : List (Str × Param)} (h : Reads s l) {b d e : Str} (hd : ¬ b!"--%" <:+: d ++ b!"--") (ht : Taken .comment e b) :
    ∀ a, s = a ++ b → Cut l a b → (∀ t, (t, ⟨.string, t⟩) ∈ l → ¬ b!"%--" <:+: t) →
      ∃ la lb, Reads (a ++ ((b!"%--" ++ d ++ b!"--%" ++ e) ++ b)) (la ++ (b!"%--" ++ d ++ b!"--%" ++ e, ⟨.comment, d⟩) :: lb) ∧ sources la = a := by
  have hm0 : MetaAt ((b!"%--" ++ d ++ b!"--%" ++ e) ++ b) ⟨.comment, d⟩ b := ⟨_, e, .comment hd, rfl, ht⟩
  have hc : ∃ u, b!"%--" ++ d ++ b!"--%" ++ e = 37 :: u := ⟨_, by simp; rfl⟩
  generalize b!"%--" ++ d ++ b!"--%" ++ e = c at hm0 hc
  have start : ∃ lb, Reads (c ++ b) ((c, ⟨.comment, d⟩) :: lb) := by
    obtain ⟨lb, hb, _⟩ := lex_reads b
    exact ⟨lb, .elem hm0 hb⟩
  induction h with
  | nil =>
    intro a e1 hcut _
    obtain ⟨lb, hb⟩ := start
    have : a = [] := by simp at e1; exact e1.1
    subst this
    exact ⟨[], lb, hb, rfl⟩
  | @elem src rest p l hm hr ih =>
    intro a e1 hcut hn
    by_cases ha : a = []
    · subst ha
      obtain ⟨lb, hb⟩ := start
      exact ⟨[], lb, hb, rfl⟩
    · obtain ⟨src0, x, he, e3, htk⟩ := hm
      have hs : src = src0 ++ x := List.append_cancel_right e3
      have hk : p.kind ≠ .string := by cases he <;> simp
      obtain ⟨a', rfl, hcut'⟩ := hcut.head ha hk
      rw [List.append_assoc] at e1
      have e1 := List.append_cancel_left e1
      subst e1
      obtain ⟨la, lb, hl, hsl⟩ := ih a' rfl hcut' fun t h => hn t (by simp [h])
      refine ⟨(src, p) :: la, lb, ?_, by rw [sources_cons, hsl]⟩
      rw [List.append_assoc]
      refine .elem ⟨src0, x, he, by rw [hs], ?_⟩ hl
      rcases htk with ⟨rfl, hno⟩ | htk
      · refine Or.inl ⟨rfl, fun hsw ch r e => ?_⟩
        cases a' with
        | nil =>
          obtain ⟨u, rfl⟩ := hc
          simp at e
          obtain ⟨rfl, _⟩ := e
          rintro (h | h) <;> revert h <;> decide
        | cons y a' =>
          simp at e
          exact hno hsw ch (a' ++ b) (by rw [← e.1]; simp)
      · exact Or.inr htk
  | @text t rest l hne hno hm hr ih =>
    intro a e1 hcut hn
    by_cases ha : a = []
    · subst ha
      obtain ⟨lb, hb⟩ := start
      exact ⟨[], lb, hb, rfl⟩
    · rcases hcut.text ha with ⟨a', rfl, hcut'⟩ | ⟨t2, ht2, rfl, hb⟩
      · rw [List.append_assoc] at e1
        have e1 := List.append_cancel_left e1
        subst e1
        obtain ⟨la, lb, hl, hsl⟩ := ih a' rfl hcut' fun t h => hn t (by simp [h])
        refine ⟨(t, ⟨.string, t⟩) :: la, lb, ?_, by rw [sources_cons, hsl]⟩
        rw [List.append_assoc]
        refine .text hne (fun t₁ t₂ e h2 => ?_) (Or.inr ?_) hl
        · refine no_meta h2 (fun hi => hn t (by simp) ?_) (fun y u e => ?_) hc (hno t₁ t₂ e h2)
          · rw [e]; exact hi.trans (List.infix_append_of_infix_right (List.infix_refl _))
          · subst e
            rcases hm with hm | ⟨p, r, hm⟩
            · simp at hm
            · exact no_dash hm rfl
        · by_cases ha' : a' = []
          · subst ha'; exact ⟨_, _, hm0⟩
          · rcases hm with hm | ⟨p, r, hm⟩
            · simp [ha'] at hm
            · exact meta_transfer hr hcut' ha' hm
      · obtain ⟨lb, hb'⟩ := start
        refine ⟨[(a, ⟨.string, a⟩)], lb, ?_, by simp [sources]⟩
        refine .text ha (fun t₁ t₂ e h2 => ?_) (Or.inr ⟨_, _, hm0⟩) hb'
        have hrest : rest = sources l := (reads_concat hr).symm
        have := no_meta (t := t₂) (a := []) (b := b) h2 (fun hi => hn (a ++ t2) (by simp) ?_) (by simp) hc ?_
        · simpa using this
        · rw [e]
          obtain ⟨u, v, e'⟩ := hi
          exact ⟨t₁ ++ u, v ++ t2, by rw [← e']; simp⟩
        · have := hno t₁ (t₂ ++ t2) (by rw [e]; simp) (by simp [h2])
          rw [hb, ← hrest]
          simpa using this

/-! ## Ends of line -/

/-- Only comments contain ends of line. -/
theorem no_eol {src : Str} {p : Param} {c : UInt8} (hc : IsEol c) (h : Elem src p) (hk : p.kind ≠ .comment) : c ∉ src := by
  have lang : ¬ LangChar c := by unfold LangChar; rcases hc with rfl | rfl <;> decide
  have elem : ¬ ElemChar c := by rintro (h | h); exact lang h; revert h; rcases hc with rfl | rfl <;> decide
  have box : ¬ BoxChar c := by unfold BoxChar; rcases hc with rfl | rfl <;> decide
  cases h with
  | comment => exact absurd rfl hk
  | stop => rcases hc with rfl | rfl <;> decide
  | language w => simp only [List.mem_append, not_or]; exact ⟨⟨by rcases hc with rfl | rfl <;> decide, fun hm => lang (w.2 _ hm)⟩, by rcases hc with rfl | rfl <;> decide⟩
  | start w => simp only [List.mem_append, not_or]; exact ⟨⟨by rcases hc with rfl | rfl <;> decide, fun hm => box (w.2 _ hm)⟩, by rcases hc with rfl | rfl <;> decide⟩
  | reference w | range w | condition w | dump w | «variable» w =>
    simp only [List.mem_append, not_or]
    exact ⟨⟨by rcases hc with rfl | rfl <;> decide, fun hm => elem (w.2 _ hm)⟩, by rcases hc with rfl | rfl <;> decide⟩

/-- Where `--%` comes after `%--`, a comment is read. -/
theorem meta_comment (d r : Str) : ∃ p r', MetaAt (b!"%--" ++ (d ++ (b!"--%" ++ r))) p r' := by
  have : ∃ d', untilClose (d ++ (b!"--%" ++ r)) = some d' := by
    induction d with
    | nil => exact ⟨[], untilClose_iff.2 ⟨r, by simp, by decide⟩⟩
    | cons c d ih =>
      obtain ⟨d', e⟩ := ih
      simp only [List.cons_append, untilClose]
      split
      · exact ⟨_, rfl⟩
      · exact ⟨_, congrArg _ e⟩
  obtain ⟨d', e⟩ := this
  obtain ⟨rest, e, hd⟩ := untilClose_iff.1 e
  obtain ⟨_, r', hm, _⟩ := meta_of_elem (.comment hd) rest
  refine ⟨⟨.comment, d'⟩, r', ?_⟩
  rw [e]
  simpa using hm

/-- An end of line put somewhere behind a text makes no meta element start in it. -/
theorem no_meta_eol {t b : Str} {c : UInt8} (hc : IsEol c) (h3 : 3 ≤ t.length) (ho : ¬ ∃ p r, MetaAt (t ++ b) p r) : ¬ ∃ p r, MetaAt (t ++ (c :: b)) p r := by
  rintro ⟨p, r, src, x, he, e, _⟩
  rw [List.append_assoc] at e
  rcases List.append_eq_append_iff.1 e with ⟨y, h1, h2⟩ | ⟨y, h1, h2⟩
  · -- src = t ++ y
    cases y with
    | nil =>
      rw [List.append_nil] at h1
      obtain ⟨_, r', hm, _⟩ := meta_of_elem he b
      exact ho ⟨p, r', by rw [h1] at hm; exact hm⟩
    | cons z y =>
      simp only [List.cons_append, List.cons.injEq] at h2
      obtain ⟨rfl, rfl⟩ := h2
      by_cases hk : p.kind = .comment
      · cases he with
        | @comment d hd =>
          match t, h3 with
          | c1 :: c2 :: c3 :: t, _ =>
            simp at h1
            obtain ⟨rfl, rfl, rfl, h1⟩ := h1
            -- d ++ "--%" = t ++ c :: y
            rcases List.append_eq_append_iff.1 h1 with ⟨w, e1, e2⟩ | ⟨w, e1, e2⟩
            · -- t = d ++ w: the end of line would be in "--%"
              have hm : c ∈ b!"--%" := by rw [e2]; simp
              rcases hc with rfl | rfl <;> revert hm <;> decide
            · -- d = t ++ w
              cases w with
              | nil =>
                have hm : c ∈ b!"--%" := by simp at e2; rw [← e2.1]; simp
                rcases hc with rfl | rfl <;> revert hm <;> decide
              | cons z w =>
                simp only [List.cons_append, List.cons.injEq] at e2
                obtain ⟨rfl, rfl⟩ := e2
                have := meta_comment (t ++ w) (x ++ r)
                simp at this ho
                exact this.elim fun p h => h.elim fun r' h => ho p r' h
        | language | reference | range | condition | dump | «variable» | stop | start => simp at hk
      · exact no_eol hc he hk (by rw [h1]; simp)
  · obtain ⟨_, r', hm, _⟩ := meta_of_elem he (y ++ b)
    exact ho ⟨p, r', by rw [h1, List.append_assoc]; exact hm⟩

/-- An end of line behind a tag that swallows it is not seen. -/
theorem eol_read {src b : Str} {p : Param} {c : UInt8} (he : Elem src p) (hs : Swallows p.kind) (hc : IsEol c) (hb : ∀ d r, b = d :: r → ¬ IsEol d)
    {lb : List (Str × Param)} : ∀ la, Reads (sources la ++ (src ++ b)) (la ++ (src, p) :: lb) →
      Reads (sources la ++ (src ++ (c :: b))) (la ++ (src ++ [c], p) :: lb) := by
  have hlen : 4 ≤ src.length := by
    cases he with
    | comment => simp
    | stop => simp
    | start w => simp
    | language | reference | range | condition | dump | «variable» => rcases hs with h | h | h <;> cases h
  intro la
  induction la with
  | nil =>
    intro h
    generalize e1 : sources [] ++ (src ++ b) = s at h
    generalize e2 : [] ++ (src, p) :: lb = l at h
    cases h with
    | nil => cases e2
    | @elem src' rest p' l hm hr =>
      simp at e2
      obtain ⟨⟨rfl, rfl⟩, rfl⟩ := e2
      have e1 : src ++ b = src ++ rest := by simpa [sources] using e1
      have := List.append_cancel_left e1
      subst this
      have := Reads.elem (src := src ++ [c]) (rest := b) (p := p) ⟨src, [c], he, rfl, Or.inr ⟨hs, c, hc, rfl⟩⟩ hr
      simpa [sources] using this
    | text =>
      simp at e2
      obtain ⟨⟨_, rfl⟩, _⟩ := e2
      rcases hs with h | h | h <;> cases h
  | cons q la ih =>
    intro h
    generalize e1 : sources (q :: la) ++ (src ++ b) = s at h
    generalize e2 : q :: la ++ (src, p) :: lb = l at h
    cases h with
    | nil => cases e2
    | @elem src' rest p' l hm hr =>
      simp at e2
      obtain ⟨rfl, rfl⟩ := e2
      rw [sources_cons, List.append_assoc] at e1
      have := List.append_cancel_left e1
      subst this
      obtain ⟨src0, x, he0, e3, htk⟩ := hm
      have e4 : src' = src0 ++ x := List.append_cancel_right e3
      rw [sources_cons, List.append_assoc]
      refine .elem ⟨src0, x, he0, by rw [e4], ?_⟩ (ih hr)
      rcases htk with ⟨rfl, hno⟩ | htk
      · refine Or.inl ⟨rfl, fun hsw ch r e => ?_⟩
        cases hw : sources la ++ src with
        | nil => simp at hw; rw [hw.2] at hlen; simp at hlen
        | cons y w =>
          rw [← List.append_assoc, hw] at e
          simp at e
          exact hno hsw ch (w ++ b) (by rw [← List.append_assoc, hw, e.1]; simp)
      · exact Or.inr htk
    | @text t rest l hne hno hm hr =>
      simp at e2
      obtain ⟨rfl, rfl⟩ := e2
      rw [sources_cons, List.append_assoc] at e1
      have := List.append_cancel_left e1
      subst this
      rw [sources_cons, List.append_assoc]
      refine .text hne (fun t₁ t₂ e h2 => ?_) (Or.inr ?_) (ih hr)
      · have := hno t₁ t₂ e h2
        rw [← List.append_assoc, ← List.append_assoc] at this
        have := no_meta_eol (c := c) hc (by simp only [List.length_append]; omega) this
        simpa using this
      · rcases hm with hm | ⟨p2, r, src2, x, he2, e, _⟩
        · simp at hm; rw [hm.2.1] at hlen; simp at hlen
        · -- the first element is the tag or stands before it
          cases la with
          | nil =>
            obtain ⟨_, r, hm, _⟩ := meta_of_elem he (c :: b)
            exact ⟨_, _, by simpa [sources] using hm⟩
          | cons q la =>
            have := ih hr
            generalize e5 : sources (q :: la) ++ (src ++ c :: b) = s at this
            generalize e6 : q :: la ++ (src ++ [c], p) :: lb = l at this
            cases this with
            | nil => cases e6
            | elem hm => exact ⟨_, _, hm⟩
            | text =>
              exfalso
              have hq : q.2.kind = .string := by simp at e6; rw [e6.1]
              generalize e7 : sources (q :: la) ++ (src ++ b) = s at hr e
              generalize e8 : q :: la ++ (src, p) :: lb = l at hr
              cases hr with
              | nil => cases e8
              | elem hm =>
                obtain ⟨_, _, he3, _⟩ := hm
                simp at e8
                rw [e8.1] at hq
                cases he3 <;> simp at hq
              | @text t' rest' _ hne' hno' =>
                obtain ⟨_, r2, hm2, _⟩ := meta_of_elem he2 (x ++ r)
                exact hno' [] t' rfl hne' ⟨_, _, by rw [e]; simpa using hm2⟩

/-! ## Readings of concrete texts -/

theorem metaAt_of_match {src rest : Str} {p : Param} (h : matchAt (src ++ rest) = some (p, src.length)) : MetaAt (src ++ rest) p rest := by
  obtain ⟨r, hm, hl, _⟩ := matchAt_some h
  have : r = rest := by
    obtain ⟨s0, x, _, e, _⟩ := hm
    have := (List.append_inj' (s₁ := src) (s₂ := s0 ++ x) (t₁ := rest) (t₂ := r) e (by simp only [List.length_append] at hl; omega)).2
    exact this.symm
  rw [← this] at hm ⊢
  exact hm

theorem reads_elem {src rest : Str} {p : Param} {l : List (Str × Param)} (h : matchAt (src ++ rest) = some (p, src.length)) (hr : Reads rest l) :
    Reads (src ++ rest) ((src, p) :: l) := .elem (metaAt_of_match h) hr

theorem reads_text {t rest : Str} {l : List (Str × Param)} (h1 : t ≠ []) (h2 : ∀ i, i < t.length → matchAt (t.drop i ++ rest) = none)
    (h3 : rest = [] ∨ (matchAt rest).isSome = true) (hr : Reads rest l) : Reads (t ++ rest) ((t, ⟨.string, t⟩) :: l) := by
  refine .text h1 (fun t₁ t₂ e hne => ?_) ?_ hr
  · have := h2 t₁.length (by rw [e]; have := List.length_pos_iff.2 hne; simp only [List.length_append]; omega)
    rw [e] at this
    exact matchAt_none (by simpa using this)
  · rcases h3 with h3 | h3
    · exact Or.inl h3
    · obtain ⟨⟨p, n⟩, e⟩ := Option.isSome_iff_exists.1 h3
      obtain ⟨r, hm, _⟩ := matchAt_some e
      exact Or.inr ⟨p, r, hm⟩

/-! ## Boxes and comments -/

theorem depth_joinText (t : Str) (l : List Param) (k : Nat) : depth k (joinText t l) = depth k l := by
  cases l with
  | nil => simp [joinText_nil, depth]
  | cons p l =>
    by_cases hp : p.kind = .string
    · obtain ⟨q, u⟩ := p
      simp only at hp
      subst hp
      simp [joinText_string, depth]
    · rw [joinText_other hp]
      conv => lhs; unfold depth
      simp

theorem depth_skeleton (l : List Param) : ∀ k, depth k (skeleton l) = depth k l := by
  induction l with
  | nil => intro k; rfl
  | cons p l ih =>
    intro k
    obtain ⟨q, u⟩ := p
    by_cases hc : q = .comment
    · subst hc; rw [skeleton_comment, ih]; conv => rhs; unfold depth
      simp
    · by_cases hs : q = .string
      · subst hs; rw [skeleton_string, depth_joinText, ih]; conv => rhs; unfold depth
        simp
      · rw [skeleton_other hc hs]
        unfold depth
        simp only [ih]

theorem balanced_skeleton {l l' : List Param} (e : skeleton l = skeleton l') : Balanced l ↔ Balanced l' := by
  rw [balanced_iff, balanced_iff, ← depth_skeleton l, ← depth_skeleton l', e]

end Xcore.Template
