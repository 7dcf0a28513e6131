import Verif.Proof.TemplateSafe

/-!
# Rendering without data
-/

namespace Xcore.Template

open Xcore.Dataset

section

variable {x : Ext} {th : THeap} {rec : Render}

/-- What one element does without data. -/
theorem item_nil {t : Nat} {sc : List Doc} (hi : InScope th t sc) (p : Param) (h : Heap) :
    (UsesData sc p ∧ injectItem x th none rec t p ⟨h, none⟩ = .panic) ∨
    (¬ UsesData sc p ∧ ∃ names, NilTries p names ∧ injectItem x th none rec t p ⟨h, none⟩ = renderOpt rec (names.findSome? (found th t)) ⟨h, none⟩) ∨
    (¬ UsesData sc p ∧ (∀ names, ¬ NilTries p names) ∧ ∃ s, injectItem x th none rec t p ⟨h, none⟩ = .ok (⟨h, none⟩, s)) := by
  obtain ⟨k, d⟩ := p
  cases k with
  | reference =>
    simp only [injectItem]
    have hne := split_ne_nil' 58 d
    cases hd : parts d with
    | nil => exact absurd hd hne
    | cons id rest =>
      by_cases h2 : rest.length = 2
      · left
        refine ⟨⟨rfl, Or.inl (by simp only [hd, List.length_cons, h2])⟩, ?_⟩
        match rest, h2 with
        | [a, b], _ =>
          unfold parts at hd
          simp only [doReference, hd]
      · by_cases h1 : rest.length = 1
        · match rest, h1 with
          | [key], _ =>
            have hf := hi.view.found id
            by_cases hl : lookup sc id = none
            · refine Or.inr (Or.inr ⟨?_, ?_, ?_⟩)
              · rintro ⟨_, hu | ⟨id', key', e, hn⟩⟩
                · simp [hd] at hu
                · simp only [hd] at e; cases e; exact hn hl
              · rintro names (⟨e, n1, n2⟩ | _)
                rw [hd] at e; cases e; simp at n1
              · have := hf.some_iff.1 hl
                unfold parts at hd
                simp only [doReference, hd, List.headD_cons, hi.view.get, Res.bind_ok, this]
                exact ⟨_, rfl⟩
            · left
              refine ⟨⟨rfl, Or.inr ⟨id, key, hd, hl⟩⟩, ?_⟩
              cases ef : found th t id with
              | none => exact absurd (hf.some_iff.2 ef) hl
              | some c =>
                unfold parts at hd
                simp only [doReference, hd, List.headD_cons, hi.view.get, Res.bind_ok, ef]
        · refine Or.inr (Or.inl ⟨?_, [id], .reference hd h1 h2, complete_reference hi.view hd h1 h2 _⟩)
          rintro ⟨_, hu | ⟨id', key', e, hn⟩⟩
          · simp only [hd, List.length_cons] at hu; omega
          · simp only [hd] at e; cases e; simp at h1
  | condition =>
    refine Or.inr (Or.inl ⟨fun hu => (by cases hu.1), _, .condition (twoNames_target d), ?_⟩)
    simp only [injectItem, doCondition, condGet, hi.view.get, Res.bind_ok, if_true, complete_none hi.view]
  | range =>
    refine Or.inr (Or.inr ⟨fun hu => by (cases hu.1), fun n hn => by (cases hn), [], ?_⟩)
    simp only [injectItem, doRange, hi.view.get, Res.bind_ok]
    all_goals (cases found th t (twoNames d).2 <;> rfl)
  | _ => exact Or.inr (Or.inr ⟨fun hu => by (cases hu.1), fun n hn => by (cases hn), _, rfl⟩)

/-- Every element is rendered without panic if the sub-templates are. -/
theorem nil_safe {d : Doc} (hd : ¬ MeetsDataUse d) : ∀ (n t : Nat) (sc : List Doc) (h : Heap), InScope th t sc → NilRenders d sc →
    Safe False (injector x th none n t ⟨h, none⟩) ∧ ∀ r, injector x th none n t ⟨h, none⟩ = .ok r → r.1 = ⟨h, none⟩ := by
  intro n
  induction n with
  | zero => intro t sc h _ _; exact ⟨fun e => (by cases e), fun r e => (by cases e)⟩
  | succ n ih =>
    intro t sc h hi hr
    cases sc with
    | nil => cases hi
    | cons e up =>
      obtain ⟨o, _, ho, hroot, _⟩ := hi.compiled
      simp only [injector, ho, hroot]
      have body : ∀ (l : List Param), (∀ p ∈ l, p ∈ e.own) →
          Safe False (injectAll (injectItem x th none (injector x th none n) t) l ⟨h, none⟩) ∧
          ∀ r, injectAll (injectItem x th none (injector x th none n) t) l ⟨h, none⟩ = .ok r → r.1 = ⟨h, none⟩ := by
        intro l
        induction l with
        | nil => intro _; exact ⟨Safe.ok _, fun r e => (by cases e; rfl)⟩
        | cons p l ihl =>
          intro hl
          have ihl := ihl fun p hp => hl p (by simp [hp])
          have item : Safe False (injectItem x th none (injector x th none n) t p ⟨h, none⟩) ∧
              ∀ r, injectItem x th none (injector x th none n) t p ⟨h, none⟩ = .ok r → r.1 = ⟨h, none⟩ := by
            rcases item_nil (x := x) (rec := injector x th none n) hi p h with ⟨hu, _⟩ | ⟨_, names, hn, eq⟩ | ⟨_, _, s, eq⟩
            · exact absurd ⟨e, up, p, hr, hl p (by simp), hu⟩ hd
            · rw [eq]
              have hf := hi.view.choose names
              generalize ea : names.findSome? (Template.lookup (e :: up)) = a at hf
              generalize names.findSome? (found th t) = b at hf
              cases hf with
              | none => exact ⟨Safe.ok _, fun r e => (by cases e; rfl)⟩
              | some hc => exact ih _ _ h hc (hr.call (hl p (by simp)) hn ea)
            · rw [eq]; exact ⟨Safe.ok _, fun r e => (by cases e; rfl)⟩
          simp only [injectAll]
          refine ⟨item.1.bind fun r e => ?_, fun r e => ?_⟩
          · rw [item.2 r e]
            exact ihl.1.bind fun _ _ => Safe.ok _
          · rw [Res.bind_eq_ok] at e
            obtain ⟨r1, e1, e2⟩ := e
            rw [item.2 r1 e1, Res.bind_eq_ok] at e2
            obtain ⟨r2, e2, e3⟩ := e2
            cases e3
            exact ihl.2 r2 e2
      exact body e.own fun p hp => hp

/-- A rendering that returns leaves the state as it was. -/
theorem nil_state : ∀ (n t : Nat) (sc : List Doc) (h : Heap) (r : St × Str), InScope th t sc →
    injector x th none n t ⟨h, none⟩ = .ok r → r.1 = ⟨h, none⟩ := by
  intro n
  induction n with
  | zero => intro t sc h r _ e; cases e
  | succ n ih =>
    intro t sc h r hi
    cases sc with
    | nil => cases hi
    | cons e up =>
      obtain ⟨o, _, ho, hroot, _⟩ := hi.compiled
      simp only [injector, ho, hroot]
      generalize e.own = l
      intro q
      induction l generalizing r with
      | nil => cases q; rfl
      | cons p l ihl =>
        simp only [injectAll] at q
        rw [Res.bind_eq_ok] at q
        obtain ⟨r1, e1, q⟩ := q
        have h1 : r1.1 = ⟨h, none⟩ := by
          rcases item_nil (x := x) (rec := injector x th none n) hi p h with ⟨_, eq⟩ | ⟨_, names, _, eq⟩ | ⟨_, _, s, eq⟩
          · rw [eq] at e1; cases e1
          · rw [eq] at e1
            have hf := hi.view.choose names
            generalize names.findSome? (Template.lookup (e :: up)) = a at hf
            generalize names.findSome? (found th t) = b at hf e1
            cases hf with
            | none => cases e1; rfl
            | some hc => exact ih _ _ h r1 hc e1
          · rw [eq] at e1; cases e1; rfl
        rw [h1, Res.bind_eq_ok] at q
        obtain ⟨r2, e2, e3⟩ := q
        cases e3
        exact ihl r2 e2

/-- If the whole returns, so does every element. -/
theorem nil_items {t : Nat} {e : Doc} {up : List Doc} {h : Heap} {n : Nat} (hi : InScope th t (e :: up)) {r : St × Str}
    (q : injector x th none (n + 1) t ⟨h, none⟩ = .ok r) : ∀ p ∈ e.own, ∃ r', injectItem x th none (injector x th none n) t p ⟨h, none⟩ = .ok r' := by
  obtain ⟨o, _, ho, hroot, _⟩ := hi.compiled
  simp only [injector, ho, hroot] at q
  generalize e.own = l at q
  induction l generalizing r with
  | nil => intro p hp; cases hp
  | cons p l ihl =>
    simp only [injectAll] at q
    rw [Res.bind_eq_ok] at q
    obtain ⟨r1, e1, q⟩ := q
    have h1 : r1.1 = ⟨h, none⟩ := by
      rcases item_nil (x := x) (rec := injector x th none n) hi p h with ⟨_, eq⟩ | ⟨_, names, _, eq⟩ | ⟨_, _, s, eq⟩
      · rw [eq] at e1; cases e1
      · rw [eq] at e1
        have hf := hi.view.choose names
        generalize names.findSome? (Template.lookup (e :: up)) = a at hf
        generalize names.findSome? (found th t) = b at hf e1
        cases hf with
        | none => cases e1; rfl
        | some hc => exact nil_state n _ _ h r1 hc e1
      · rw [eq] at e1; cases e1; rfl
    rw [h1, Res.bind_eq_ok] at q
    obtain ⟨r2, e2, _⟩ := q
    intro p' hp'
    rcases List.mem_cons.1 hp' with rfl | hp'
    · exact ⟨r1, e1⟩
    · exact ihl e2 p' hp'

/-- If the rendering of the root returns, so does that of every scope it comes to. -/
theorem nil_reached {t : Nat} {d : Doc} {h : Heap} (hi : InScope th t [d]) {n : Nat} {r : St × Str} (q : injector x th none n t ⟨h, none⟩ = .ok r)
    {sc : List Doc} (hr : NilRenders d sc) : ∃ t' n' r', InScope th t' sc ∧ injector x th none n' t' ⟨h, none⟩ = .ok r' := by
  induction hr with
  | root => exact ⟨t, n, r, hi, q⟩
  | @call e up sc p names _ hp hn hl ih =>
    obtain ⟨t', n', r', hi', q'⟩ := ih
    cases n' with
    | zero => cases q'
    | succ n' =>
      obtain ⟨r1, e1⟩ := nil_items hi' q' p hp
      rcases item_nil (x := x) (rec := injector x th none n') hi' p h with ⟨_, eq⟩ | ⟨_, names', hn', eq⟩ | ⟨_, hno, _⟩
      · rw [eq] at e1; cases e1
      · have : names' = names := by
          cases hn with
          | reference a _ _ => cases hn' with | reference a' _ _ => rw [a] at a'; cases a'; rfl
          | condition a =>
            cases hn' with
            | condition a' =>
              have := (target_two a).symm.trans (target_two a')
              cases this; rfl
        subst this
        rw [eq] at e1
        have hf := hi'.view.choose names'
        rw [hl] at hf
        generalize names'.findSome? (found th t') = b at hf e1
        cases hf with
        | some hc => exact ⟨_, _, r1, hc, e1⟩
      · exact absurd hn (hno names)

theorem nil_never_returns {t : Nat} {d : Doc} {h : Heap} (hi : InScope th t [d]) (hd : MeetsDataUse d) (n : Nat) (r : St × Str) :
    injector x th none n t ⟨h, none⟩ ≠ .ok r := by
  intro q
  obtain ⟨e, up, p, hr, hp, hu⟩ := hd
  obtain ⟨t', n', r', hi', q'⟩ := nil_reached hi q hr
  cases n' with
  | zero => cases q'
  | succ n' =>
    obtain ⟨r1, e1⟩ := nil_items hi' q' p hp
    rcases item_nil (x := x) (rec := injector x th none n') hi' p h with ⟨_, eq⟩ | ⟨hno, _⟩ | ⟨hno, _⟩
    · rw [eq] at e1; cases e1
    · exact hno hu
    · exact hno hu

/-- An element names what it tries. -/
theorem nilTries_names {p : Param} {names : List Str} (h : NilTries p names) : ∀ v ∈ names, Names p v := by
  cases h with
  | reference a b c => intro v hv; simp at hv; subst hv; exact .reference a c
  | condition a =>
    intro v hv
    simp only [List.mem_cons, List.not_mem_nil, or_false] at hv
    rcases hv with rfl | rfl
    · have := Names.conditionValue (text := b!"none") a (by decide)
      simpa using this
    · exact .condition a

/-- Without endless chains rendering ends, by a text or a panic. -/
theorem nil_ends {sc : List Doc} (hacc : Acc (fun a b => Calls b a) sc) : ∀ {t : Nat} (h : Heap), InScope th t sc →
    ∃ n, injector x th none n t ⟨h, none⟩ ≠ .diverge := by
  induction hacc with
  | intro sc _ ih =>
    intro t h hi
    cases sc with
    | nil => cases hi
    | cons e up =>
      obtain ⟨o, _, ho, hroot, _⟩ := hi.compiled
      have item : ∀ p ∈ e.own, ∃ n, ∀ m, n ≤ m → injectItem x th none (injector x th none m) t p ⟨h, none⟩ ≠ .diverge ∧
          ∀ r, injectItem x th none (injector x th none m) t p ⟨h, none⟩ = .ok r → r.1 = ⟨h, none⟩ := by
        intro p hp
        have hf := fun names => hi.view.choose names
        by_cases hu : UsesData (e :: up) p
        · refine ⟨0, fun m _ => ?_⟩
          rcases item_nil (x := x) (rec := injector x th none m) hi p h with ⟨_, eq⟩ | ⟨hn, _⟩ | ⟨hn, _⟩
          · rw [eq]; exact ⟨fun e => (by cases e), fun r e => (by cases e)⟩
          · exact absurd hu hn
          · exact absurd hu hn
        · by_cases hn : ∃ names, NilTries p names
          · obtain ⟨names, hn⟩ := hn
            have eq : ∀ m, injectItem x th none (injector x th none m) t p ⟨h, none⟩ =
                renderOpt (injector x th none m) (names.findSome? (found th t)) ⟨h, none⟩ := by
              intro m
              rcases item_nil (x := x) (rec := injector x th none m) hi p h with ⟨hu', _⟩ | ⟨_, names', hn', eq⟩ | ⟨_, hno, _⟩
              · exact absurd hu' hu
              · have : names' = names := by
                  cases hn with
                  | reference a _ _ => cases hn' with | reference a' _ _ => rw [a] at a'; cases a'; rfl
                  | condition a =>
                    cases hn' with
                    | condition a' =>
                      have := (target_two a).symm.trans (target_two a')
                      cases this; rfl
                subst this
                exact eq
              · exact absurd hn (hno names)
            simp only [eq]
            have hf := hf names
            generalize ea : names.findSome? (Template.lookup (e :: up)) = a at hf
            generalize names.findSome? (found th t) = b at hf
            cases hf with
            | none => exact ⟨0, fun m _ => ⟨fun e => (by cases e), fun r e => (by cases e; rfl)⟩⟩
            | @some sc' c hc =>
              obtain ⟨v, hv, ev⟩ := List.exists_of_findSome?_eq_some ea
              obtain ⟨n, hnd⟩ := ih _ ⟨e, up, p, v, rfl, hp, nilTries_names hn v hv, ev⟩ h hc
              refine ⟨n, fun m hm => ⟨?_, fun r e => nil_state m _ _ h r hc e⟩⟩
              rcases injector_mono x th none hm c ⟨h, none⟩ with e1 | e1
              · exact absurd e1 hnd
              · intro e2
                simp only [renderOpt] at e2
                exact hnd (e1.trans e2)
          · refine ⟨0, fun m _ => ?_⟩
            rcases item_nil (x := x) (rec := injector x th none m) hi p h with ⟨hu', _⟩ | ⟨_, names', hn', _⟩ | ⟨_, _, s, eq⟩
            · exact absurd hu' hu
            · exact absurd ⟨names', hn'⟩ hn
            · rw [eq]; exact ⟨fun e => (by cases e), fun r e => (by cases e; rfl)⟩
      have body : ∀ (l : List Param), (∀ p ∈ l, p ∈ e.own) → ∃ n, ∀ m, n ≤ m →
          injectAll (injectItem x th none (injector x th none m) t) l ⟨h, none⟩ ≠ .diverge := by
        intro l
        induction l with
        | nil => intro _; exact ⟨0, fun m _ e => (by cases e)⟩
        | cons p l ihl =>
          intro hl
          obtain ⟨n1, h1⟩ := ihl fun p hp => hl p (by simp [hp])
          obtain ⟨n2, h2⟩ := item p (hl p (by simp))
          refine ⟨max n1 n2, fun m hm => ?_⟩
          have h1 := h1 m (by omega)
          have h2 := h2 m (by omega)
          simp only [injectAll]
          generalize ei : injectItem x th none (injector x th none m) t p ⟨h, none⟩ = r at h2
          cases r with
          | diverge => exact absurd rfl h2.1
          | panic => exact fun e => by cases e
          | ok r =>
            rw [Res.bind_ok, h2.2 r rfl]
            generalize injectAll (injectItem x th none (injector x th none m) t) l ⟨h, none⟩ = q at h1
            cases q with
            | diverge => exact absurd rfl h1
            | panic => exact fun e => by cases e
            | ok q => exact fun e => by cases e
      obtain ⟨n, hn⟩ := body e.own fun p hp => hp
      refine ⟨n + 1, ?_⟩
      simp only [injector, ho, hroot]
      exact hn n (Nat.le_refl n)

end

end Xcore.Template
