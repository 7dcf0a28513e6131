import Verif.Proof.TemplateLoad

/-!
# What a failed load leaves
-/

namespace Xcore.Template

/-- Parameters that close more boxes than are open: documents up to the first such end. -/
theorem parse_stop (ps : List Param) : ∀ k, (∀ p ∈ ps, Lexed p) → depth k ps = none →
    ∃ d l rest, l.length = k ∧ ps = stopSep d l ++ ⟨.stop, []⟩ :: rest ∧ d.Plain ∧ ∀ e ∈ l, e.Plain := by
  induction ps with
  | nil => intro k _ h; cases h
  | cons p ps ih =>
    intro k hx h
    have hp := hx p (by simp)
    have hx' : ∀ q ∈ ps, Lexed q := fun q hq => hx q (by simp [hq])
    unfold depth at h
    split at h
    · rename_i hs
      obtain ⟨d, l, rest, hl, e, hd, hle⟩ := ih _ hx' h
      match l, hl with
      | e1 :: l, hl =>
        refine ⟨.box p.data d e1, l, rest, by simpa using hl, ?_, ⟨hp.start hs, hd, hle e1 (by simp)⟩, fun e' he => hle e' (by simp [he])⟩
        have hpe : p = ⟨.start, p.data⟩ := by cases p; simp at hs; simp [hs]
        rw [e]
        cases l with
        | nil => simp only [stopSep, Doc.tokens, List.cons_append]; rw [← hpe]
        | cons e2 l => simp only [stopSep, Doc.tokens, List.cons_append]; rw [← hpe]; simp
    · split at h
      · rename_i hs
        have hpe : p = ⟨.stop, []⟩ := by cases p; simp at hs; simp [hs]; exact hp.stop hs
        cases k with
        | zero => exact ⟨.nil, [], ps, rfl, by simp only [stopSep, Doc.tokens, List.nil_append]; rw [← hpe], trivial, by simp⟩
        | succ k =>
          obtain ⟨d, l, rest, hl, e, hd, hle⟩ := ih _ hx' h
          refine ⟨.nil, d :: l, rest, by simp [hl], ?_, trivial, ?_⟩
          · rw [e]
            simp only [stopSep, Doc.tokens, List.nil_append, List.cons_append]; rw [← hpe]
          · simpa [hd] using hle
      · rename_i h1 h2
        obtain ⟨d, l, rest, hl, e, hd, hle⟩ := ih _ hx' h
        refine ⟨.elem p d, l, rest, hl, ?_, ⟨h1, h2, hp.unused, hd⟩, hle⟩
        rw [e]
        cases l <;> simp [stopSep, Doc.tokens]

theorem neverEnds_iff (ps : List Param) : NeverEnds ps ↔ depth 0 ps ≠ none := by
  constructor
  · intro h e
    have hk : ∀ (ps : List Param) (k : Nat), depth k ps = none →
        ∃ l r, ps = l ++ r ∧ k + l.countP (fun p => p.kind = .start) < l.countP (fun p => p.kind = .stop) := by
      intro ps
      induction ps with
      | nil => intro k h; cases h
      | cons p ps ih =>
        intro k h
        unfold depth at h
        split at h
        · next hs =>
          obtain ⟨l, r, e, hl⟩ := ih _ h
          exact ⟨p :: l, r, by simp [e], by simp [hs]; omega⟩
        · split at h
          · next h1 hs =>
            cases k with
            | zero => exact ⟨[p], ps, rfl, by simp [hs]⟩
            | succ k =>
              obtain ⟨l, r, e, hl⟩ := ih _ h
              exact ⟨p :: l, r, by simp [e], by simp [hs]; omega⟩
          · next h1 h2 =>
            obtain ⟨l, r, e, hl⟩ := ih _ h
            exact ⟨p :: l, r, by simp [e], by simp [h1, h2]; omega⟩
    obtain ⟨l, r, e, hl⟩ := hk ps 0 e
    have := h l r e
    omega
  · intro h l r e
    cases hd : depth 0 ps with
    | none => exact absurd hd h
    | some j =>
      have := ((depth_iff ps 0 j).1 hd).1 l r e
      omega

/-- Parameters that are not balanced: a document, then a superfluous end or an unfinished box. -/
theorem broken_docs : ∀ (n : Nat) (ps : List Param), ps.length ≤ n → (∀ p ∈ ps, Lexed p) → depth 0 ps ≠ some 0 →
    ∃ d q, Doc.Plain d ∧ ps = d.tokens ++ q ∧ ((∃ q', q = ⟨.stop, []⟩ :: q') ∨ ∃ m q', q = ⟨.start, m⟩ :: q' ∧ depth 0 q' ≠ none) := by
  intro n
  induction n with
  | zero =>
    intro ps hn _ h
    have : ps = [] := List.length_eq_zero_iff.1 (by omega)
    subst this
    exact absurd rfl h
  | succ n ih =>
    intro ps hn hx h
    cases ps with
    | nil => exact absurd rfl h
    | cons p ps =>
      have hp := hx p (by simp)
      have hx' : ∀ q ∈ ps, Lexed q := fun q hq => hx q (by simp [hq])
      simp only [List.length_cons] at hn
      unfold depth at h
      split at h
      · next hs =>
        have hpe : p = ⟨.start, p.data⟩ := by cases p; simp at hs; simp [hs]
        by_cases hz : depth 0 ps = none
        · obtain ⟨d, l, rest, hl, e, hd, _⟩ := parse_stop ps 0 hx' hz
          have : l = [] := List.length_eq_zero_iff.1 hl
          subst this
          simp only [stopSep] at e
          subst e
          have hrest : depth 0 rest ≠ some 0 := by
            intro e
            apply h
            rw [depth_append, depth_tokens hd]
            simpa [depth] using e
          obtain ⟨d', q, h1, h2, h3⟩ := ih rest (by simp at hn; omega) (fun q hq => hx' q (by simp [hq])) hrest
          refine ⟨.box p.data d d', q, ⟨hp.start hs, hd, h1⟩, ?_, h3⟩
          rw [h2]
          simp only [Doc.tokens, List.cons_append]
          rw [← hpe]
          simp
        · exact ⟨.nil, p :: ps, trivial, rfl, Or.inr ⟨p.data, ps, by rw [← hpe], hz⟩⟩
      · split at h
        · next h1 hs =>
          have hpe : p = ⟨.stop, []⟩ := by cases p; simp at hs; simp [hs]; exact hp.stop hs
          exact ⟨.nil, p :: ps, trivial, rfl, Or.inl ⟨ps, by rw [← hpe]⟩⟩
        · next h1 h2 =>
          obtain ⟨d', q, e1, e2, e3⟩ := ih ps (by omega) hx' h
          exact ⟨.elem p d', q, ⟨h1, h2, hp.unused, e1⟩, by simp [Doc.tokens, e2], e3⟩

/-- What is at the bottom of the stacks does not matter if it is never reached. -/
theorem passLoop_bottom (ps : List Param) : ∀ (th : THeap) (c : List Param) (st up : List Nat) (a i0 t0 i : Nat), st.length = up.length →
    depth st.length ps ≠ none → (passLoop ⟨th, c, st ++ [i0], up ++ [t0], a⟩ i ps).1 = (passLoop ⟨th, c, st, up, a⟩ i ps).1 := by
  induction ps with
  | nil => intros; rfl
  | cons p ps ih =>
    intro th c st up a i0 t0 i hl hd
    unfold depth at hd
    simp only [passLoop, passStep]
    by_cases h1 : p.kind = .start
    · rw [if_pos h1] at hd
      simp only [h1, if_true]
      have := ih (th ++ [⟨p.data, none, none, none⟩]) c (i :: st) (a :: up) th.length i0 t0 (i + 1) (by simp [hl]) (by simpa using hd)
      simpa using this
    · rw [if_neg h1] at hd
      rw [if_neg h1, if_neg h1]
      by_cases h2 : p.kind = .stop
      · rw [if_pos h2] at hd
        rw [if_pos h2, if_pos h2]
        match st, up, hl with
        | [], [], _ => exact absurd rfl hd
        | s :: st, u :: up, hl =>
          simp only [List.cons_append]
          exact ih _ _ st up u i0 t0 (i + 1) (by simpa using hl) (by simpa using hd)
      · rw [if_neg h2] at hd
        rw [if_neg h2, if_neg h2]
        exact ih th c st up a i0 t0 (i + 1) hl hd

/-- Memory below an address is kept. -/
theorem kept_below (th0 : THeap) : Kept th0.length th0.length (fun th => ∀ b, b < th0.length → th[b]? = th0[b]?) where
  new := by
    intro th d hq hl b hb
    rw [List.getElem?_append_left (by omega)]
    exact hq b hb
  root := by
    intro th a r hq ha b hb
    rw [upd_get', if_neg (by omega)]
    exact hq b hb
  add := by
    intro th u v a hq ha hu b hb
    unfold addTemplate
    rw [upd_get', if_neg (by omega), upd_get', if_neg (by omega)]
    exact hq b hb

theorem load_broken {th : THeap} {t : Nat} {o : Tpl} (ht : th[t]? = some o) {s : Str} {d : Doc} (hb : BrokenAfter s d) :
    ∃ th' l m, loadString th t s = (th', true) ∧ th.length ≤ th'.length ∧ (∀ c, c < th.length → c ≠ t → th'[c]? = th[c]?) ∧
      th'[t]? = some { o with subs := m } ∧ (∀ v, (m.getD []).get v = (lastNamed l v).or ((o.subs.getD []).get v)) ∧ BoxesAt th' t d l := by
  obtain ⟨hp, ps, q, hr, e, hq⟩ := hb
  have el : lex s = d.tokens ++ q := by rw [lex_eq hr, e]
  obtain ⟨l, m, h1, h2, h3, h4, h5⟩ := build_spec hp th t o ht
  have tl : t < th.length := (List.getElem?_eq_some_iff.1 ht).1
  have hpass := passLoop_doc hp th [] q q [] [] t 0 rfl
  simp only [List.nil_append, Nat.zero_add] at hpass
  have herr : (compile th t s).2 = true := by
    cases ec : (compile th t s).2 with
    | true => rfl
    | false =>
      rw [compile_error_iff, balanced_iff, el, depth_append, depth_tokens hp, Option.bind_some] at ec
      rcases hq with ⟨q', rfl⟩ | ⟨n, q', rfl, hn⟩
      · simp [depth] at ec
      · simp only [depth, if_true] at ec
        have hmono : ∀ (ps : List Param) (k j : Nat), depth k ps = some j → depth (k + 1) ps = some (j + 1) := by
          intro ps
          induction ps with
          | nil => intro k j h; cases h; rfl
          | cons p ps ih =>
            intro k j h
            unfold depth at h ⊢
            split at h
            · next hs => rw [if_pos hs]; exact ih _ _ h
            · next h1 =>
              rw [if_neg h1]
              split at h
              · next h2 =>
                rw [if_pos h2]
                cases k with
                | zero => cases h
                | succ k => exact ih _ _ h
              · next h2 => rw [if_neg h2]; exact ih _ _ h
        cases hj : depth 0 q' with
        | none => exact absurd hj ((neverEnds_iff q').1 hn)
        | some j =>
          rw [hmono q' 0 j hj] at ec
          cases ec
  have hmem : (compile th t s).1 = (passLoop ⟨build th t d, d.marked ++ q, [], [], t⟩ d.tokens.length q).1 := by
    have : (compile th t s) = ((compile th t s).1, true) := by rw [← herr]
    simp only [compile, el, hpass] at this ⊢
    generalize passLoop ⟨build th t d, d.marked ++ q, [], [], t⟩ d.tokens.length q = r at this ⊢
    obtain ⟨th', o'⟩ := r
    cases o' with
    | none => rfl
    | some s' =>
      simp only at this ⊢
      by_cases hs : s'.starts.length > 0
      · rw [if_pos hs]
      · rw [if_neg hs] at this; cases this
  have hbelow : (build th t d).length ≤ (compile th t s).1.length ∧ ∀ b, b < (build th t d).length → (compile th t s).1[b]? = (build th t d)[b]? := by
    rw [hmem]
    rcases hq with ⟨q', rfl⟩ | ⟨n, q', rfl, hn⟩
    · simp only [passLoop, passStep]
      exact ⟨Nat.le_refl _, fun b _ => rfl⟩
    · simp only [passLoop, passStep, if_true]
      have hbot := passLoop_bottom q' (build th t d ++ [⟨n, none, none, none⟩]) (d.marked ++ ⟨.start, n⟩ :: q') [] [] (build th t d).length
        d.tokens.length t (d.tokens.length + 1) rfl ((neverEnds_iff q').1 hn)
      simp only [List.nil_append] at hbot
      rw [hbot]
      have := passLoop_kept (kept_below (build th t d)) q' ⟨build th t d ++ [⟨n, none, none, none⟩], d.marked ++ ⟨.start, n⟩ :: q', [], [], (build th t d).length⟩
        (d.tokens.length + 1) (fun b hb => by simp only; rw [List.getElem?_append_left hb]) (by simp) ⟨[], rfl, by simp, .nil⟩ rfl
      exact ⟨this.2, this.1⟩
  refine ⟨(compile th t s).1, l, m, by rw [← herr]; rfl, by omega, fun c hc hct => ?_, ?_, h4, ?_⟩
  · rw [hbelow.2 c (by omega), h2 c hc hct]
  · rw [hbelow.2 t (by omega), h3]
  · exact (h5.frame (Nat.le_refl _) hbelow.1 fun c _ hc => hbelow.2 c hc).at

/-- A load that fails was of such a text. -/
theorem failed_broken {th : THeap} {t : Nat} {s : Str} {th' : THeap} (e : loadString th t s = (th', true)) : ∃ d, BrokenAfter s d := by
  obtain ⟨l, hr, el⟩ := lex_reads s
  have hn : ¬ Balanced (lex s) := by
    rw [← compile_error_iff th t]
    intro h
    have : (loadString th t s).2 = true := by rw [e]
    rw [loadString, h] at this
    cases this
  rw [balanced_iff] at hn
  obtain ⟨d, q, h1, h2, h3⟩ := broken_docs _ _ (Nat.le_refl _) (lex_lexed s) hn
  refine ⟨d, h1, l, q, hr, by rw [← el, h2], ?_⟩
  rcases h3 with h | ⟨n, q', e, h⟩
  · exact Or.inl h
  · exact Or.inr ⟨n, q', e, (neverEnds_iff q').2 h⟩

end Xcore.Template
