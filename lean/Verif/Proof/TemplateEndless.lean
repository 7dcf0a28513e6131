import Verif.Proof.TemplateBreaks
import Verif.Proof.TemplatePage
import Verif.Spec.TemplateEndless

/-!
# Rendering without end

Rendering gives a text, panics, or goes on for ever as the specification says; in the code too.
-/

namespace Xcore.Template

open Xcore.Dataset

section

variable {th : THeap} {S : Type} {own : S → List Param} {look : S → Str → Option S} {Z : View th own look} {x : Ext} {la : Option Nat} {lang : Option Language.Lang}
  {P : S → Option (List Nat) → Heap → Prop}

/-! ## What the specification says does not end, does not, in the code -/

theorem diverge_bind {α β : Type} (f : α → Res β) : ((.diverge : Res α) >>= f) = .diverge := rfl

/-- Where the specification has a text, the code has it, or does not end within the bound. -/
theorem item_or_diverge {sc : S} {p : Param} {σ : Option (List Nat)} {h h₁ : Heap} {s : Str} (r : RendersIn own look x lang sc (.elem p) σ h h₁ s)
    (hd : Ready h σ) (hl : LangIs h la lang) {t : Nat} (hi : InView Z t sc) (m : Nat) :
    injectItem x th la (injector x th la m) t p ⟨h, stackOf σ⟩ = .ok (⟨h₁, stackOf σ⟩, s) ∨
    injectItem x th la (injector x th la m) t p ⟨h, stackOf σ⟩ = .diverge := by
  obtain ⟨n, en⟩ := complete (Z := Z) (la := la) r hd hl trivial t hi
  cases e : injectItem x th la (injector x th la m) t p ⟨h, stackOf σ⟩ with
  | diverge => exact Or.inr rfl
  | panic =>
    have b := safe_item (Z := Z) (lang := lang) (safe_injector m) (sound_injector m) hi hd hl (p := p) e
    obtain ⟨n', en'⟩ := breaks_panics (Z := Z) (la := la) b hd hl trivial t hi
    cases (en (n + n') (by omega)).symm.trans (en' (n + n') (by omega))
  | ok q =>
    obtain ⟨h', e1, e2⟩ := sound_item (Z := Z) (lang := lang) (sound_injector m) hi hd hl e
    obtain ⟨n', en'⟩ := complete (Z := Z) (la := la) e2 hd hl trivial t hi
    have := (en (n + n') (by omega)).symm.trans (en' (n + n') (by omega))
    simp only [Res.ok.injEq, Prod.mk.injEq, St.mk.injEq, and_true] at this
    obtain ⟨rfl, rfl⟩ := this
    exact Or.inl (by rw [← e1])

theorem choose_or_diverge {sc : S} {names : List Str} {σ : Option (List Nat)} {h h₁ : Heap} {s : Str} (r : RendersIn own look x lang sc (.choose names) σ h h₁ s)
    (hd : Ready h σ) (hl : LangIs h la lang) {t : Nat} (hi : InView Z t sc) (m : Nat) :
    renderOpt (injector x th la m) (names.findSome? (found th t)) ⟨h, stackOf σ⟩ = .ok (⟨h₁, stackOf σ⟩, s) ∨
    renderOpt (injector x th la m) (names.findSome? (found th t)) ⟨h, stackOf σ⟩ = .diverge := by
  obtain ⟨n, en⟩ := complete (Z := Z) (la := la) r hd hl trivial t hi
  cases e : renderOpt (injector x th la m) (names.findSome? (found th t)) ⟨h, stackOf σ⟩ with
  | diverge => exact Or.inr rfl
  | panic =>
    have b := safe_choose (Z := Z) (lang := lang) (safe_injector m) hi hd hl names e
    obtain ⟨n', en'⟩ := breaks_panics (Z := Z) (la := la) b hd hl trivial t hi
    cases (en (n + n') (by omega)).symm.trans (en' (n + n') (by omega))
  | ok q =>
    obtain ⟨h', e1, e2⟩ := sound_choose (Z := Z) (lang := lang) (sound_injector m) hi hd hl names e
    obtain ⟨n', en'⟩ := complete (Z := Z) (la := la) e2 hd hl trivial t hi
    have := (en (n + n') (by omega)).symm.trans (en' (n + n') (by omega))
    simp only [Res.ok.injEq, Prod.mk.injEq, St.mk.injEq, and_true] at this
    obtain ⟨rfl, rfl⟩ := this
    exact Or.inl (by rw [← e1])

/-- The code does not end at the job, within the bound `m`. -/
def Job.Stays (Z : View th own look) (x : Ext) (la : Option Nat) (m : Nat) (sc : S) (job : Job) (σ : Option (List Nat)) (h : Heap) : Prop :=
  match job with
  | .document => True
  | .body l => ∀ t, InView Z t sc → injectAll (injectItem x th la (injector x th la m) t) l ⟨h, stackOf σ⟩ = .diverge
  | .elem p => ∀ t, InView Z t sc → injectItem x th la (injector x th la m) t p ⟨h, stackOf σ⟩ = .diverge
  | .choose names => ∀ t, InView Z t sc → renderOpt (injector x th la m) (names.findSome? (found th t)) ⟨h, stackOf σ⟩ = .diverge
  | .loop id n i l => ∀ t c cl pre, InView Z t sc → found th t id = some c → IsCollection h cl (pre ++ l) → pre.length = i →
      rangeLoop th (injector x th la m) t id c cl n l.length i ⟨h, stackOf σ⟩ = .diverge

theorem diverges_push {l : List Nat} {h : Heap} {a c : Nat} {names : List Str} {t : Nat} (hc : names.findSome? (found th t) = some c) {rec : Render}
    (e : renderOpt rec (names.findSome? (found th t)) ⟨h, stackOf (some (a :: l))⟩ = .diverge) {β : Type} (f : St → Str → Res β) :
    (pushSt ⟨h, stackOf (some l)⟩ (some a) >>= fun s => rec c s >>= fun r => popSt r.1 >>= fun s => f s r.2) = .diverge := by
  rw [hc] at e
  simp only [renderOpt] at e
  rw [pushSt_stackOf, Res.bind_ok, e]
  rfl

theorem stackString_diverges {h : Heap} {l : List Nat} (hd : Ready h (some l)) {key : Str} {v : Val} (hv : ValueAt h (some l) key v)
    (hn : ∀ s, ¬ Shows x h v s) : stackString x h (l.reverse.map some) key = .diverge := by
  cases e : stackString x h (l.reverse.map some) key with
  | diverge => rfl
  | panic => exact (safe_stackString (x := x) hd key (P := False) e).elim
  | ok s =>
    obtain ⟨v', hv', hs⟩ := (stackString_shows hd key s).1 e
    obtain ⟨o, _, hu⟩ := stackGet_value hd key
    rw [(hu v').1 hv', ← (hu v).1 hv] at hs
    exact absurd hs (hn s)

theorem sprint_diverges {h : Heap} (wf : WF h) {v : Val} (hn : ∀ s, ¬ Shows x h v s) : v ≠ .nil ∧ sprint x (printBound h) h v = none := by
  have hv : v ≠ .nil := fun e => hn [] (Or.inl ⟨e, rfl⟩)
  refine ⟨hv, ?_⟩
  cases e : sprint x (printBound h) h v with
  | none => rfl
  | some s => exact absurd ((shows_iff wf hv).2 e) (hn s)

theorem goesOn_stays {m : Nat} (hP : ∀ sc σ h t, P sc σ h → Ready h σ → LangIs h la lang → InView Z t sc → injector x th la m t ⟨h, stackOf σ⟩ = .diverge)
    {sc : S} {job : Job} {σ : Option (List Nat)} {h : Heap} (b : GoesOnIn own look x lang P sc job σ h) :
    Ready h σ → LangIs h la lang → job.Fits → (job = .document → GoesOnIn own look x lang P sc (.body (own sc)) σ h) ∧ job.Stays Z x la m sc σ h := by
  induction b with
  | @chosen sc' σ h names hn hp =>
    intro hd hl _
    refine ⟨nofun, fun t hi => ?_⟩
    have hf := hi.choose names
    rw [hn] at hf
    generalize e : names.findSome? (found th t) = b at hf
    cases hf with
    | some hc => exact hP _ _ _ _ hp hd hl hc
  | @«variable» σ h d v hv hn =>
    intro hd hl _
    refine ⟨nofun, fun t hi => ?_⟩
    cases σ with
    | none =>
      cases hv
      exact absurd (Or.inl ⟨rfl, rfl⟩) (hn [])
    | some l =>
      simp only [injectItem, stackOf, Option.map_some, stackString_diverges hd hv hn]
      rfl
  | @dump l h d a t' hk hlast hw hn =>
    intro hd hl _
    refine ⟨nofun, fun t hi => ?_⟩
    obtain ⟨pre, rfl⟩ : ∃ pre, l = pre ++ [a] := by
      rcases List.eq_nil_or_concat l with rfl | ⟨l, b, rfl⟩
      · cases hlast
      · rw [List.concat_eq_append] at *
        simp at hlast
        exact ⟨l, by rw [hlast]⟩
    have : colGet (some a :: pre.reverse.map some) 0 = some (some a) := by
      unfold colGet
      rw [if_neg (by simp)]
      rfl
    have hg : goSprint x (2 * h.length + 1) h (.ptr t') = none := by
      cases e : goSprint x (2 * h.length + 1) h (.ptr t') with
      | none => rfl
      | some s => exact absurd ((goPrints_iff ..).2 e) (hn _ s)
    simp only [injectItem, doDump, stackOf, Option.map_some, if_pos hk, List.reverse_append, List.reverse_cons, List.reverse_nil, List.nil_append,
      List.cons_append, List.map_cons, this, dsGoString, (target_iff hd.wf).2 hw, printBound, hg, ofFuel]
    rfl
  | @referenceText l h d any key pre v hp hv hn =>
    intro hd hl _
    refine ⟨nofun, fun t hi => ?_⟩
    unfold parts at hp
    simp only [injectItem, doReference, hp, stackOf, Option.map_some, stackString_diverges hd hv hn]
    rfl
  | @conditionText σ h d key id v ht hv hn ho =>
    intro hd hl _
    refine ⟨nofun, fun t hi => ?_⟩
    obtain ⟨v', ev, _, hu⟩ := condGet_value hd key
    cases hu v hv
    obtain ⟨hnn, hs⟩ := sprint_diverges hd.wf hn
    simp only [injectItem, doCondition, target_two ht, hi.get, Res.bind_ok, ev, if_neg hnn]
    rcases ho with ho | ho
    · rw [(hi.found id).some_iff.1 ho]
      simp only [hs, ofFuel]
      rfl
    · cases found th t id with
      | none =>
        simp only [hs, ofFuel]
        rfl
      | some c =>
        simp only [condValue, asDataset_none.2 ho, hs, ofFuel]
        rfl
  | @conditionDatasetText l h h' s d key id a ht hv ha hlk q hn =>
    intro hd hl _
    refine ⟨nofun, fun t hi => ?_⟩
    obtain ⟨v', ev, _, hu⟩ := condGet_value hd key
    cases hu _ hv
    obtain ⟨c, hc⟩ := hi.some_of hlk
    have hd' := hd.renders q trivial
    have hch : [id ++ b!".array", id].findSome? (found th t) = some ((found th t (id ++ b!"." ++ b!"array")).getD c) := by
      simp only [List.findSome?_cons, hc]
      have : id ++ b!"." ++ b!"array" = id ++ b!".array" := by simp
      rw [this]
      cases found th t (id ++ b!".array") <;> rfl
    simp only [injectItem, doCondition, target_two ht, hi.get, Res.bind_ok, ev, reduceCtorEq, if_false, hc, condValue, asDataset_some.2 ⟨rfl, ha⟩]
    rcases choose_or_diverge q (hd.push ha) hl hi m with e | e
    · have e' := complete_push hch e fun s d => Res.ok (s, d, (found th t (id ++ b!"." ++ b!"array")).getD c)
      rw [e', Res.bind_ok, (sprint_diverges hd'.wf hn).2]
      rfl
    · have e' := diverges_push hch e fun s d => Res.ok (s, d, (found th t (id ++ b!"." ++ b!"array")).getD c)
      rw [e']
      rfl
  | document g _ => intro _ _ _; exact ⟨fun _ => g, trivial⟩
  | head _ ih =>
    intro hd hl _
    refine ⟨nofun, fun t hi => ?_⟩
    simp only [injectAll, (ih hd hl trivial).2 t hi]
    rfl
  | tail q1 _ ih =>
    intro hd hl _
    refine ⟨nofun, fun t hi => ?_⟩
    have e2 := (ih (hd.renders q1 trivial) (hl.shape (renders_shape q1)) trivial).2 t hi
    rcases item_or_diverge q1 hd hl hi m with e1 | e1
    · simp only [injectAll, e1, Res.bind_ok, e2]
      rfl
    · simp only [injectAll, e1]
      rfl
  | reference hp h1 h2 _ ih =>
    intro hd hl _
    refine ⟨nofun, fun t hi => ?_⟩
    simp only [injectItem]
    rw [complete_reference hi hp h1 h2]
    exact (ih hd hl trivial).2 t hi
  | @referenceWith l h d id key a hp hlk hv ha _ ih =>
    intro hd hl _
    refine ⟨nofun, fun t hi => ?_⟩
    have e := (ih (hd.push ha) hl trivial).2 t hi
    obtain ⟨c, hc⟩ := hi.some_of hlk
    obtain ⟨o, eo, ev⟩ := stack_value hd hv
    unfold parts at hp
    simp only [injectItem, doReference, hp, List.headD_cons, hi.get, Res.bind_ok, hc, stackOf, Option.map_some, eo, bind_asDataset, ev, asDataset_some.2 ⟨rfl, ha⟩]
    exact diverges_push (names := [id]) (by simp [hc]) e fun s d => .ok (s, d)
  | @referenceWithout l h d id key v hp hlk hv hno _ ih =>
    intro hd hl _
    refine ⟨nofun, fun t hi => ?_⟩
    have e := (ih hd hl trivial).2 t hi
    obtain ⟨c, hc⟩ := hi.some_of hlk
    obtain ⟨o, eo, ev⟩ := stack_value hd hv
    unfold parts at hp
    simp only [injectItem, doReference, hp, List.headD_cons, hi.get, Res.bind_ok, hc, stackOf, Option.map_some, eo, bind_asDataset, ev, asDataset_none.2 hno]
    simp only [List.findSome?_cons, hc, renderOpt] at e
    exact e
  | @referenceValue l h d any key pre v text hp hv hs _ ih =>
    intro hd hl _
    refine ⟨nofun, fun t hi => ?_⟩
    have e := (ih hd hl trivial).2 t hi
    unfold parts at hp
    simp only [injectItem, doReference, hp, stackOf, Option.map_some, (stackString_shows hd key text).2 ⟨v, hv, hs⟩, Res.bind_ok, hi.get]
    simp only [List.findSome?_cons, List.findSome?_nil] at e
    revert e
    cases found th t (pre ++ text) <;> cases found th t pre <;> exact fun e => e
  | @rangeEmpty l h d key id v ht hlk hv hno _ ih =>
    intro hd hl _
    refine ⟨nofun, fun t hi => ?_⟩
    have e := (ih hd hl trivial).2 t hi
    obtain ⟨c, hc⟩ := hi.some_of hlk
    obtain ⟨o, eo, ev⟩ := stack_value hd hv
    simp only [injectItem, doRange, target_two ht, hi.get, Res.bind_ok, hc, stackOf, Option.map_some, eo, bind_asCollection, ev]
    have key : injector x th la m ((found th t (id ++ b!".none")).getD c) ⟨h, stackOf (some l)⟩ = .diverge := by
      rw [← e]
      simp only [List.findSome?_cons, hc]
      cases found th t (id ++ b!".none") <;> rfl
    cases ea : asCollection h v with
    | none => exact key
    | some cl =>
      obtain ⟨rfl, hcl⟩ := asCollection_some.1 ea
      have := hno _ _ rfl hcl
      simp only [count, this, List.length_nil, Nat.lt_irrefl, if_false]
      exact key
  | @range l h d key id c q ht hlk hv hc b ih =>
    intro hd hl _
    refine ⟨nofun, fun t hi => ?_⟩
    obtain ⟨c', hc'⟩ := hi.some_of hlk
    have hlen := hd.short _ _ hc
    have hne : q ≠ [] := by rintro rfl; cases b
    have e := (ih hd hl (by simpa [Job.Fits] using hlen)).2 t c' c [] hi hc' hc rfl
    obtain ⟨o, eo, ev⟩ := stack_value hd hv
    have ea : asCollection h (.ptr c) = some c := asCollection_some.2 ⟨rfl, by rw [elems_of hc]; exact hc⟩
    simp only [injectItem, doRange, target_two ht, hi.get, Res.bind_ok, hc', stackOf, Option.map_some, eo, bind_asCollection, ev, ea, count, elems_of hc]
    rw [if_pos (List.length_pos_iff.2 hne)]
    exact e
  | @loopItem l h h1 id n i a q hs _ ih =>
    intro hd hl hf
    refine ⟨nofun, fun t c cl pre hi hc hcl hpre => ?_⟩
    simp only [Job.Fits, List.length_cons] at hf
    have sh1 := shape_counter hs
    have hd1 := hd.shape (wf_counter hd.wf ⟨by omega, by omega⟩ hs) sh1
    have ha : IsDataset h1 a := (sh1.isDataset a).2 (hd.wf.elem _ _ a hcl (by simp))
    have e1 := (ih (hd1.push ha) (hl.shape sh1) trivial).2 t hi
    obtain ⟨c', p1, p2⟩ := pickRange_eq (g := found th t) hi.get hc i n
    have hget : colGetAt h cl (i : Int) = some (some a) := by rw [← hpre]; exact colGetAt_of hcl
    simp only [List.length_cons, rangeLoop, p1, Res.bind_ok, hget, (set_counter hd.wf).2 hs]
    exact diverges_push (names := rangeNames id i n) p2 e1 fun s d => do
      let q ← rangeLoop th (injector x th la m) t id c cl n q.length (i + 1) s; .ok (q.1, d ++ q.2)
  | @loopRest l h h1 h2 s id n i a q hs q1 _ ih =>
    intro hd hl hf
    refine ⟨nofun, fun t c cl pre hi hc hcl hpre => ?_⟩
    simp only [Job.Fits, List.length_cons] at hf
    have sh1 := shape_counter hs
    have hd1 := hd.shape (wf_counter hd.wf ⟨by omega, by omega⟩ hs) sh1
    have ha : IsDataset h1 a := (sh1.isDataset a).2 (hd.wf.elem _ _ a hcl (by simp))
    have sh2 := renders_shape q1
    have e2 := (ih (hd1.renders q1 trivial) (hl.shape (sh1.trans sh2)) (by simp only [Job.Fits]; omega)).2 t c cl (pre ++ [some a]) hi hc
      (by simpa using ((sh1.trans sh2).isCollection _ _).2 hcl) (by simp [hpre])
    obtain ⟨c', p1, p2⟩ := pickRange_eq (g := found th t) hi.get hc i n
    have hget : colGetAt h cl (i : Int) = some (some a) := by rw [← hpre]; exact colGetAt_of hcl
    simp only [List.length_cons, rangeLoop, p1, Res.bind_ok, hget, (set_counter hd.wf).2 hs]
    rcases choose_or_diverge q1 (hd1.push ha) (hl.shape sh1) hi m with e1 | e1
    · refine (complete_push (names := rangeNames id i n) p2 e1 fun s d => do
        let q ← rangeLoop th (injector x th la m) t id c cl n q.length (i + 1) s; .ok (q.1, d ++ q.2)).trans ?_
      rw [e2]; rfl
    · exact diverges_push (names := rangeNames id i n) p2 e1 fun s d => do
        let q ← rangeLoop th (injector x th la m) t id c cl n q.length (i + 1) s; .ok (q.1, d ++ q.2)
  | @conditionNone σ h d key id v ht hv hs _ ih =>
    intro hd hl _
    refine ⟨nofun, fun t hi => ?_⟩
    have e := (ih hd hl trivial).2 t hi
    obtain ⟨v', ev, _, hu⟩ := condGet_value hd key
    cases hu v hv
    rw [← complete_none hi] at e
    simp only [injectItem, doCondition, target_two ht, hi.get, Res.bind_ok, ev]
    by_cases hn : v = .nil
    · rw [if_pos hn]; exact e
    · rw [if_neg hn]
      have hs' := (shows_iff hd.wf hn).1 hs
      have hnd : asDataset h v = none := asDataset_none.2 fun a ea ha => by
        subst ea
        exact shows_dataset_ne hd.wf ha hs rfl
      cases hc : found th t id with
      | none =>
        rw [hc] at e
        simp only [hs', ofFuel, Res.bind_ok, List.isEmpty_nil]
        exact e
      | some c =>
        rw [hc] at e
        simp only [condValue, hnd, hs', ofFuel, Res.bind_ok, ne_eq, not_true_eq_false, if_false, List.isEmpty_nil, e]
        rfl
  | @conditionValue σ h d key id v text ht hv hnd hs hne hlk q ih =>
    intro hd hl _
    refine ⟨nofun, fun t hi => ?_⟩
    have e := (ih hd hl trivial).2 t hi
    obtain ⟨v', ev, _, hu⟩ := condGet_value hd key
    cases hu v hv
    have hn : v ≠ .nil := fun e => hne (by rw [e, shows_nil] at hs; exact hs)
    obtain ⟨c, hc⟩ := hi.some_of hlk
    have e' : injector x th la m ((found th t (id ++ b!"." ++ text)).getD c) ⟨h, stackOf σ⟩ = .diverge := by
      rw [← e]
      simp only [List.findSome?_cons, hc]
      cases found th t (id ++ b!"." ++ text) <;> rfl
    simp only [injectItem, doCondition, target_two ht, hi.get, Res.bind_ok, ev, if_neg hn, hc, condValue, asDataset_none.2 hnd, (shows_iff hd.wf hn).1 hs, ofFuel,
      if_pos hne, e']
    rfl
  | @conditionDataset l h d key id a ht hv ha hlk q ih =>
    intro hd hl _
    refine ⟨nofun, fun t hi => ?_⟩
    have e := (ih (hd.push ha) hl trivial).2 t hi
    obtain ⟨v', ev, _, hu⟩ := condGet_value hd key
    cases hu _ hv
    obtain ⟨c, hc⟩ := hi.some_of hlk
    have hch : [id ++ b!".array", id].findSome? (found th t) = some ((found th t (id ++ b!"." ++ b!"array")).getD c) := by
      simp only [List.findSome?_cons, hc]
      have : id ++ b!"." ++ b!"array" = id ++ b!".array" := by simp
      rw [this]
      cases found th t (id ++ b!".array") <;> rfl
    have e' := diverges_push hch e fun s d => Res.ok (s, d, (found th t (id ++ b!"." ++ b!"array")).getD c)
    simp only [injectItem, doCondition, target_two ht, hi.get, Res.bind_ok, ev, reduceCtorEq, if_false, hc, condValue, asDataset_some.2 ⟨rfl, ha⟩]
    rw [e']
    rfl

/-- The code never ends where the specification says. -/
theorem endless_diverges {sc : S} {σ : Option (List Nat)} {h : Heap} (b : EndlessIn own look x lang sc σ h) (hd : Ready h σ) (hl : LangIs h la lang)
    {t : Nat} (hi : InView Z t sc) (n : Nat) : injector x th la n t ⟨h, stackOf σ⟩ = .diverge := by
  obtain ⟨P, hp, hc⟩ := b
  induction n generalizing sc σ h t with
  | zero => rfl
  | succ n ih =>
    rw [hi.injector]
    have hP : ∀ sc σ h t, P sc σ h → Ready h σ → LangIs h la lang → InView Z t sc → injector x th la n t ⟨h, stackOf σ⟩ = .diverge :=
      fun sc σ h t hp hd hl hi => ih hd hl hi hp
    have g := (goesOn_stays (Z := Z) hP (hc _ _ _ hp) hd hl trivial).1 rfl
    exact (goesOn_stays (Z := Z) hP g hd hl trivial).2 t hi

/-! ## Nothing else goes on for ever -/

/-- Rendering ends, or goes on within `P`. -/
def Settles (own : S → List Param) (look : S → Str → Option S) (x : Ext) (lang : Option Language.Lang) (P : S → Option (List Nat) → Heap → Prop) (sc : S)
    (job : Job) (σ : Option (List Nat)) (h : Heap) : Prop :=
  Ends own look x lang sc job σ h ∨ GoesOnIn own look x lang P sc job σ h

theorem Settles.text {sc : S} {job : Job} {σ : Option (List Nat)} {h h' : Heap} {s : Str} (r : RendersIn own look x lang sc job σ h h' s) :
    Settles own look x lang P sc job σ h := Or.inl (.text r)

theorem Settles.via {sc sc' : S} {job job' : Job} {σ σ' : Option (List Nat)} {h h' : Heap} (e : Settles own look x lang P sc job σ h)
    (f : ∀ k s, RendersIn own look x lang sc job σ h k s → Settles own look x lang P sc' job' σ' h')
    (g : BreaksIn own look x lang sc job σ h → BreaksIn own look x lang sc' job' σ' h')
    (i : GoesOnIn own look x lang P sc job σ h → GoesOnIn own look x lang P sc' job' σ' h') : Settles own look x lang P sc' job' σ' h' := by
  rcases e with (⟨k, s, r⟩ | b) | b
  · exact f k s r
  · exact Or.inl (Or.inr (g b))
  · exact Or.inr (i b)

/-- The renderings of documents that do not end. -/
def Unending (own : S → List Param) (look : S → Str → Option S) (x : Ext) (lang : Option Language.Lang) (sc : S) (σ : Option (List Nat)) (h : Heap) : Prop :=
  Ready h σ ∧ ¬ Ends own look x lang sc .document σ h

theorem settles_choose {sc : S} (names : List Str) {σ : Option (List Nat)} {h : Heap} (hd : Ready h σ) :
    Settles own look x lang (Unending own look x lang) sc (.choose names) σ h := by
  cases e : names.findSome? (look sc) with
  | none => exact .text (.noChoice e)
  | some sc' =>
    by_cases he : Ends own look x lang sc' .document σ h
    · exact Or.inl (he.via (fun _ _ r => .text (.chosen e r)) (.chosen e))
    · exact Or.inr (.chosen e ⟨hd, he⟩)

theorem settles_loop {sc : S} {id : Str} {n : Nat} {l : List Nat} {cl : Nat} : ∀ (q pre : List (Option Nat)) (h : Heap), Ready h (some l) →
    IsCollection h cl (pre ++ q) → Settles own look x lang (Unending own look x lang) sc (.loop id n pre.length q) (some l) h := by
  intro q
  induction q with
  | nil => intro pre h _ _; exact .text .loopEnd
  | cons o q ih =>
    intro pre h hd hcl
    cases o with
    | none => exact Or.inl (Or.inr .nilElement)
    | some a =>
      have ha : IsDataset h a := hd.wf.elem _ _ a hcl (by simp)
      obtain ⟨t, w⟩ := wraps_exists hd.wf hd.wrapped a ha
      obtain ⟨m, hm⟩ := wraps_ds w
      have hs : SetCounter h a ((pre.length : Int) + 1) _ := ⟨t, m, w, hm, rfl⟩
      have sh := shape_counter hs
      have hlen := hd.short _ _ hcl
      simp only [List.length_append, List.length_cons] at hlen
      have hd1 := hd.shape (wf_counter hd.wf ⟨by omega, by omega⟩ hs) sh
      refine (settles_choose (rangeNames id pre.length n) (hd1.push ((sh.isDataset a).2 ha))).via (fun h2 s1 r1 => ?_) (.loopItem hs) (.loopItem hs)
      have sh2 := renders_shape r1
      exact (ih (pre ++ [some a]) h2 (hd1.renders r1 trivial) (by simpa using ((sh.trans sh2).isCollection _ _).2 hcl)).via
        (fun _ _ r2 => .text (.loop hs r1 (by simpa using r2))) (fun b => .loopRest hs r1 (by simpa using b)) (fun b => .loopRest hs r1 (by simpa using b))

theorem settles_elem {sc : S} {p : Param} {σ : Option (List Nat)} {h : Heap} (hd : Ready h σ) :
    Settles own look x lang (Unending own look x lang) sc (.elem p) σ h := by
  obtain ⟨k, dt⟩ := p
  cases k with
  | string => exact .text .text
  | comment => exact .text .comment
  | language => exact .text .language
  | start => exact .text (.unknown trivial)
  | stop => exact .text (.unknown trivial)
  | unused => exact .text (.unknown trivial)
  | other n => exact .text (.unknown trivial)
  | «variable» =>
    obtain ⟨v, hv⟩ := valueAt_exists hd dt
    by_cases hs : ∃ s, Shows x h v s
    · obtain ⟨s, hs⟩ := hs
      exact .text (.variable hv hs)
    · exact Or.inr (.variable hv fun s q => hs ⟨s, q⟩)
  | dump =>
    by_cases hk : dt = b!"dump" ∨ dt = b!"list"
    · cases σ with
      | none => exact .text (.dumpNothing (Or.inr rfl))
      | some l =>
        rcases List.eq_nil_or_concat l with rfl | ⟨l, a, rfl⟩
        · exact .text (.dumpEmpty hk)
        · have ha : a ∈ l.concat a := by simp
          obtain ⟨t, w⟩ := wraps_exists hd.wf hd.wrapped a (hd.data _ rfl a ha)
          by_cases hg : ∃ n s, GoPrints x n h (.ptr t) s
          · obtain ⟨n, s, hg⟩ := hg
            exact .text (.dump hk (by simp) w hg)
          · exact Or.inr (.dump hk (by simp) w fun n s q => hg ⟨n, s, q⟩)
    · exact .text (.dumpNothing (Or.inl (by rw [not_or] at hk; exact hk)))
  | reference =>
    have hne := split_ne_nil' 58 dt
    have hpd : parts dt = split 58 dt := rfl
    generalize split 58 dt = xid at hne hpd
    match xid, hne, hpd with
    | [id], _, hpd =>
      exact (settles_choose [id] hd).via (fun _ _ r => .text (.reference hpd (by simp) (by simp) r))
        (.reference hpd (by simp) (by simp)) (.reference hpd (by simp) (by simp))
    | id :: b :: c :: f :: rest, _, hpd =>
      exact (settles_choose [id] hd).via (fun _ _ r => .text (.reference hpd (by simp) (by simp) r))
        (.reference hpd (by simp) (by simp)) (.reference hpd (by simp) (by simp))
    | [id, key], _, hpd =>
      by_cases hlk : look sc id = none
      · exact .text (.referenceNone hpd hlk)
      · cases σ with
        | none => exact Or.inl (Or.inr (.dataForReference hpd hlk))
        | some l =>
          obtain ⟨v, hv⟩ := valueAt_exists hd key
          by_cases ha : ∃ a, v = .ptr a ∧ IsDataset h a
          · obtain ⟨a, rfl, ha⟩ := ha
            exact (settles_choose [id] (hd.push ha)).via
              (fun _ _ r => .text (.referenceWith hpd hlk hv ha r)) (.referenceWith hpd hlk hv ha) (.referenceWith hpd hlk hv ha)
          · have hno : ∀ a, v = .ptr a → ¬ IsDataset h a := fun a e ha' => ha ⟨a, e, ha'⟩
            exact (settles_choose [id] hd).via
              (fun _ _ r => .text (.referenceWithout hpd hlk hv hno r)) (.referenceWithout hpd hlk hv hno) (.referenceWithout hpd hlk hv hno)
    | [any, key, pre], _, hpd =>
      cases σ with
      | none => exact Or.inl (Or.inr (.dataForValue hpd))
      | some l =>
        obtain ⟨v, hv⟩ := valueAt_exists hd key
        by_cases hs : ∃ s, Shows x h v s
        · obtain ⟨text, htx⟩ := hs
          exact (settles_choose [pre ++ text, pre] hd).via (fun _ _ r => .text (.referenceValue hpd hv htx r))
            (.referenceValue hpd hv htx) (.referenceValue hpd hv htx)
        · exact Or.inr (.referenceText hpd hv fun s q => hs ⟨s, q⟩)
  | range =>
    have htg := twoNames_target dt
    generalize (twoNames dt).1 = key at htg
    generalize (twoNames dt).2 = id at htg
    by_cases hno : look sc id = none ∨ σ = none
    · exact .text (.rangeNothing htg hno)
    · rw [not_or] at hno
      obtain ⟨hlk, hσ⟩ := hno
      cases σ with
      | none => exact absurd rfl hσ
      | some l =>
        obtain ⟨v, hv⟩ := valueAt_exists hd key
        by_cases hcol : ∃ c q, v = .ptr c ∧ IsCollection h c q ∧ q ≠ []
        · obtain ⟨c, q, rfl, hq, hne⟩ := hcol
          exact (settles_loop (sc := sc) (id := id) (n := q.length) q [] h hd hq).via (fun _ _ r => .text (.range htg hlk hv hq hne r))
            (.range htg hlk hv hq) (.range htg hlk hv hq)
        · have hno : ∀ c q, v = .ptr c → IsCollection h c q → q = [] := by
            intro c q e hq
            by_cases hne : q = []
            · exact hne
            · exact absurd ⟨c, q, e, hq, hne⟩ hcol
          exact (settles_choose [id ++ b!".none", id] hd).via (fun _ _ r => .text (.rangeEmpty htg hlk hv hno r)) (.rangeEmpty htg hlk hv hno)
            (.rangeEmpty htg hlk hv hno)
  | condition =>
    have htg := twoNames_target dt
    generalize (twoNames dt).1 = key at htg
    generalize (twoNames dt).2 = id at htg
    obtain ⟨v, hv⟩ := valueAt_exists hd key
    by_cases ha : look sc id ≠ none ∧ ∃ a, v = .ptr a ∧ IsDataset h a
    · obtain ⟨hlk, a, rfl, ha⟩ := ha
      cases σ with
      | none => cases hv
      | some l =>
        refine (settles_choose [id ++ b!".array", id] (hd.push ha)).via (fun h' s r => ?_) (.conditionDataset htg hv ha hlk) (.conditionDataset htg hv ha hlk)
        by_cases hs : ∃ s, Shows x h' (.ptr a) s
        · obtain ⟨text, htx⟩ := hs
          exact .text (.conditionDataset htg hv ha hlk r htx)
        · exact Or.inr (.conditionDatasetText htg hv ha hlk r fun s q => hs ⟨s, q⟩)
    · have hor : look sc id = none ∨ ∀ a, v = .ptr a → ¬ IsDataset h a := by
        by_cases hlk : look sc id = none
        · exact Or.inl hlk
        · exact Or.inr fun a e ha' => ha ⟨hlk, a, e, ha'⟩
      by_cases hs : ∃ s, Shows x h v s
      · obtain ⟨text, htx⟩ := hs
        by_cases hte : text = []
        · subst hte
          exact (settles_choose [id ++ b!".none", id] hd).via (fun _ _ r => .text (.conditionNone htg hv htx r)) (.conditionNone htg hv htx)
            (.conditionNone htg hv htx)
        · by_cases hlk : look sc id = none
          · exact .text (.conditionNothing htg hv htx hte hlk)
          · have hna := hor.resolve_left hlk
            exact (settles_choose [id ++ b!"." ++ text, id] hd).via (fun _ _ r => .text (.conditionValue htg hv hna htx hte hlk r))
              (.conditionValue htg hv hna htx hte hlk) (.conditionValue htg hv hna htx hte hlk)
      · exact Or.inr (.conditionText htg hv (fun s q => hs ⟨s, q⟩) hor)

theorem settles_body {sc : S} {σ : Option (List Nat)} : ∀ (l : List Param) (h : Heap), Ready h σ →
    Settles own look x lang (Unending own look x lang) sc (.body l) σ h := by
  intro l
  induction l with
  | nil => intro h _; exact .text .nil
  | cons p l ih =>
    intro h hd
    refine (settles_elem (p := p) hd).via (fun h1 s1 r1 => ?_) .head .head
    exact (ih h1 (hd.renders r1 trivial)).via (fun _ _ r2 => .text (.cons r1 r2)) (.tail r1) (.tail r1)

/-- What does not end goes on for ever. -/
theorem unending_endless {sc : S} {σ : Option (List Nat)} {h : Heap} (u : Unending own look x lang sc σ h) : EndlessIn own look x lang sc σ h := by
  refine ⟨Unending own look x lang, u, fun sc σ h ⟨hd, hn⟩ => ?_⟩
  rcases settles_body (x := x) (lang := lang) (own sc) h hd with e | g
  · exact absurd (e.via (fun _ _ r => .text (.document r)) .document) hn
  · exact .document g

end

/-! ## Execute -/

section

variable {th : THeap} {S : Type} {own : S → List Param} {look : S → Str → Option S} {Z : View th own look} {x : Ext} {t : Nat} {sc : S} {h : Heap} {data : Option Nat}

theorem lang_exists (h : Heap) (l : Option Val) : ∃ lang, LangIs h (langOf h l) lang := by
  cases e : langOf h l with
  | none => exact ⟨none, trivial⟩
  | some b =>
    unfold langOf at e
    split at e
    · split at e
      · next hb => cases e; exact ⟨some _, hb⟩
      · cases e
    · cases e

/-- A text, a panic, or no end. -/
theorem execute_three' (hp : Proper h data) :
    (∃ h' out, ExecutesIn own look x sc data h h' out) ∨ ExecuteBreaksIn own look x sc data h ∨ ExecuteEndlessIn own look x sc data h := by
  cases data with
  | none =>
    by_cases he : Ends own look x none sc .document none h
    · rcases he with ⟨h', out, r⟩ | b
      · exact Or.inl ⟨h', out, .nil r⟩
      · exact Or.inr (Or.inl (.nil b))
    · exact Or.inr (Or.inr (.nil (unending_endless ⟨hp.ready_nil, he⟩)))
  | some a =>
    obtain ⟨l, _, hl⟩ := langOf_iff (hp.data a rfl) hp.wf hp.wrapped
    obtain ⟨lang, hlang⟩ := lang_exists h l
    by_cases he : Ends own look x lang sc .document (some [a]) h
    · rcases he with ⟨h', out, r⟩ | b
      · exact Or.inl ⟨h', out, .data ((hl lang).2 hlang) r⟩
      · exact Or.inr (Or.inl (.data ((hl lang).2 hlang) b))
    · exact Or.inr (Or.inr (.data ((hl lang).2 hlang) (unending_endless ⟨hp.ready, he⟩)))

/-- `Execute` never ends exactly where the specification says. -/
theorem execute_diverges_iff' (hi : InView Z t sc) (hp : Proper h data) :
    (∀ n, execute x th n t h data = .diverge) ↔ ExecuteEndlessIn own look x sc data h := by
  constructor
  · intro e
    rcases execute_three' (own := own) (look := look) (x := x) (sc := sc) hp with ⟨h', out, r⟩ | b | b
    · obtain ⟨n, q⟩ := (execute_iff' hi hp).2 r
      rw [e n] at q; cases q
    · obtain ⟨n, q⟩ := (execute_panic_iff' hi hp).2 b
      rw [e n] at q; cases q
    · exact b
  · intro b n
    cases b with
    | nil b =>
      have := endless_diverges (Z := Z) (la := none) b hp.ready_nil trivial hi n
      simp only [stackOf, Option.map_none] at this
      simp only [execute, this]
      rfl
    | @data a lang _ hlang b =>
      obtain ⟨l, el, hl⟩ := langOf_iff (hp.data a rfl) hp.wf hp.wrapped
      have := endless_diverges (Z := Z) (la := langOf h l) b hp.ready ((hl _).1 hlang) hi n
      simp only [execute, el, Res.bind_ok]
      simp only [stackOf, Option.map_some, List.reverse_singleton, List.map_cons, List.map_nil] at this
      rw [this]
      rfl

theorem execute_diverges_iff {d : Doc} (hi : InScope th t [d]) (hp : Proper h data) :
    (∀ n, execute x th n t h data = .diverge) ↔ ExecuteEndless x d data h := execute_diverges_iff' hi.view hp

end

/-! ## A tree, used in examples -/

/-- The template of a tree: a list item for every node, with its children inside. -/
def menuText : Str := b!"@@children:node@@[[node]]<li>@@children:node@@</li>[[]]"

/-- The box of a node. -/
def nodeDoc : Doc := .elem ⟨.string, b!"<li>"⟩ <| .elem ⟨.range, b!"children:node"⟩ <| .elem ⟨.string, b!"</li>"⟩ .nil

def menuDoc : Doc := .elem ⟨.range, b!"children:node"⟩ <| .box b!"node" nodeDoc .nil

theorem menu_means : Means menuText menuDoc := by
  obtain ⟨l, h, e⟩ := lex_reads menuText
  exact ⟨by simp [menuDoc, nodeDoc, Doc.Plain], l, h, by rw [← e]; decide +kernel⟩

/-- A tree with one leaf, which has the entries `leaf`. -/
def treeOf (leaf : AMap Val) : Heap := [.ds [(b!"children", .ptr 1)], .col [some 2], .ds leaf]

theorem tree_column {m : AMap Val} {c : Nat} {l : List (Option Nat)} (hc : IsCollection (treeOf m) c l) : l = [some 2] := by
  rcases hc with hc | hc <;>
  · have hlt : c < 3 := lt_of_getElem? hc
    match c, hlt with
    | 0, _ => cases hc
    | 1, _ => cases hc; try rfl
    | 2, _ => cases hc

theorem tree_proper : Proper (treeOf []) (some 0) := by
  refine ⟨?_, fun a ha => ?_, fun c l hl => by rw [tree_column hl]; decide, fun a e => by cases e; exact Or.inl ⟨_, rfl⟩⟩
  · rw [wf_iff]
    intro a o ho
    have hlt : a < 3 := lt_of_getElem? ho
    match a, hlt with
    | 0, _ => cases ho; exact ⟨by decide, by intro k v hb; simp at hb; rw [hb.2]; simp [Valid, treeOf]⟩
    | 1, _ => cases ho; intro b hb; simp at hb; subst hb; exact Or.inl ⟨_, rfl⟩
    | 2, _ => cases ho; exact ⟨by decide, by intro k v hb; simp at hb⟩
  · have hlt : a < 3 := lt_of_getElem? ha
    match a, hlt with
    | 0, _ => cases ha
    | 1, _ => cases ha
    | 2, _ => cases ha

theorem tree_acyclic : Acyclic (treeOf []) 0 := by
  have up : ∀ a b : Nat, Refers (treeOf []) a b → a < b := by
    intro a b q
    cases q with
    | ptr e hm =>
      have hlt : a < 3 := lt_of_getElem? e
      match a, hlt with
      | 0, _ => cases e; simp at hm; omega
      | 1, _ => cases e
      | 2, _ => cases e; simp at hm
    | slice e hm =>
      have hlt : a < 3 := lt_of_getElem? e
      match a, hlt with
      | 0, _ => cases e; simp at hm
      | 1, _ => cases e
      | 2, _ => cases e; simp at hm
    | wrapped e => exact absurd (lt_of_getElem? e) (by match a, e with | 0, e => cases e | 1, e => cases e | 2, e => cases e | a + 3, e => cases e)
    | elem e hm =>
      rw [tree_column e] at hm
      simp at hm
      have hlt : a < 3 := by rcases e with e | e <;> exact lt_of_getElem? e
      match a, hlt with
      | 0, _ => rcases e with e | e <;> cases e
      | 1, _ => omega
      | 2, _ => rcases e with e | e <;> cases e
  have le : ∀ a b : Nat, Reach (treeOf []) a b → a ≤ b := by
    intro a b q
    induction q with
    | refl => exact Nat.le_refl _
    | step q _ ih => have := up _ _ q; omega
  intro b c _ q q'
  have h1 := up _ _ q
  have h2 := le _ _ q'
  omega

/-- A leaf without children of its own has those of its father. -/
theorem tree_value {m : AMap Val} (hm : m.get b!"children" = none) : ∀ n, ValueAt (treeOf m) (some (List.replicate n 2 ++ [0])) b!"children" (.ptr 1) := by
  intro n
  induction n with
  | zero => exact .here (.entry ⟨0, _, .plain rfl, rfl, rfl⟩)
  | succ n ih =>
    refine .outer (fun w q => ?_) ih
    have : split 62 b!"children" = [b!"children"] := by decide
    unfold Has at q
    rw [this] at q
    cases q with
    | entry q =>
      have := (entry_iff (t := 2) (.plain rfl)).1 q
      rw [show entries (treeOf m) 2 = m from rfl, hm] at this
      cases this

theorem tree_endless (x : Ext) : ExecuteEndless x menuDoc (some 0) (treeOf []) := by
  refine .data (lang := none) ?_ ⟨fun sc σ h => (sc = [menuDoc] ∨ sc = [nodeDoc, menuDoc]) ∧ (∃ n, σ = some (List.replicate n 2 ++ [0])) ∧
    ∃ m : AMap Val, m.get b!"children" = none ∧ h = treeOf m, ⟨Or.inl rfl, ⟨0, rfl⟩, [], rfl, rfl⟩, ?_⟩
  · refine .none fun b l q => ?_
    have := (entry_iff (t := 0) (.plain rfl)).1 q
    cases this
  · rintro sc σ h ⟨hsc, ⟨n, rfl⟩, m, hm, rfl⟩
    have hc : IsCollection (treeOf m) 1 [some 2] := Or.inl rfl
    have ht : Target b!"children:node" b!"children" b!"node" := Or.inr ⟨[], by decide⟩
    have hs : SetCounter (treeOf m) 2 (0 + 1) (treeOf (m.set b!".counter" (.int .int (0 + 1)))) := ⟨2, m, .plain rfl, rfl, rfl⟩
    have go : lookup sc b!"node" ≠ none → (rangeNames b!"node" 0 1).findSome? (lookup sc) = some [nodeDoc, menuDoc] →
        GoesOnIn innermost lookup x none (fun sc σ h => (sc = [menuDoc] ∨ sc = [nodeDoc, menuDoc]) ∧ (∃ n, σ = some (List.replicate n 2 ++ [0])) ∧
          ∃ m : AMap Val, m.get b!"children" = none ∧ h = treeOf m) sc (.elem ⟨.range, b!"children:node"⟩) (some (List.replicate n 2 ++ [0])) (treeOf m) := by
      intro h1 h2
      refine .range ht h1 (tree_value hm n) hc (.loopItem hs (.chosen h2 ⟨Or.inr rfl, ⟨n + 1, rfl⟩, _, ?_, rfl⟩))
      rw [AMap.get_set_ne _ _ (by decide)]
      exact hm
    refine .document ?_
    rcases hsc with rfl | rfl
    · exact .head (go (by decide +kernel) (by decide +kernel))
    · exact .tail .text (.head (go (by decide +kernel) (by decide +kernel)))

/-- The same tree; the leaf has an empty list of children. -/
def treeClosed (c : AMap Val) : Heap := [.ds [(b!"children", .ptr 1)], .col [some 2], .ds ((b!"children", .ptr 3) :: c), .col []]

theorem closed_column {m : AMap Val} {c : Nat} {l : List (Option Nat)} (hc : IsCollection (treeClosed m) c l) : l = [some 2] ∨ l = [] := by
  rcases hc with hc | hc <;>
  · have hlt : c < 4 := lt_of_getElem? hc
    match c, hlt with
    | 0, _ => cases hc
    | 1, _ => cases hc; try exact Or.inl rfl
    | 2, _ => cases hc
    | 3, _ => cases hc; try exact Or.inr rfl

theorem closed_proper : Proper (treeClosed []) (some 0) := by
  refine ⟨?_, fun a ha => ?_, fun c l hl => by rcases closed_column hl with h | h <;> (rw [h]; decide), fun a e => by cases e; exact Or.inl ⟨_, rfl⟩⟩
  · rw [wf_iff]
    intro a o ho
    have hlt : a < 4 := lt_of_getElem? ho
    match a, hlt with
    | 0, _ => cases ho; exact ⟨by decide, by intro k v hb; simp at hb; rw [hb.2]; simp [Valid, treeClosed]⟩
    | 1, _ => cases ho; intro b hb; simp at hb; subst hb; exact Or.inl ⟨_, rfl⟩
    | 2, _ => cases ho; exact ⟨by decide, by intro k v hb; simp at hb; rw [hb.2]; simp [Valid, treeClosed]⟩
    | 3, _ => cases ho; intro b hb; simp at hb
  · have hlt : a < 4 := lt_of_getElem? ha
    match a, hlt with
    | 0, _ => cases ha
    | 1, _ => cases ha
    | 2, _ => cases ha
    | 3, _ => cases ha

theorem closed_acyclic : Acyclic (treeClosed []) 0 := by
  have up : ∀ a b : Nat, Refers (treeClosed []) a b → a < b := by
    intro a b q
    cases q with
    | ptr e hm =>
      have hlt : a < 4 := lt_of_getElem? e
      match a, hlt with
      | 0, _ => cases e; simp at hm; omega
      | 1, _ => cases e
      | 2, _ => cases e; simp at hm; omega
      | 3, _ => cases e
    | slice e hm =>
      have hlt : a < 4 := lt_of_getElem? e
      match a, hlt with
      | 0, _ => cases e; simp at hm
      | 1, _ => cases e
      | 2, _ => cases e; simp at hm
      | 3, _ => cases e
    | wrapped e =>
      exact absurd (lt_of_getElem? e) (by match a, e with | 0, e => cases e | 1, e => cases e | 2, e => cases e | 3, e => cases e | a + 4, e => cases e)
    | elem e hm =>
      have hlt : a < 4 := by rcases e with e | e <;> exact lt_of_getElem? e
      rcases closed_column e with h | h
      · subst h
        simp at hm
        match a, hlt with
        | 0, _ => rcases e with e | e <;> cases e
        | 1, _ => omega
        | 2, _ => rcases e with e | e <;> cases e
        | 3, _ => rcases e with e | e <;> cases e
      · subst h; cases hm
  have le : ∀ a b : Nat, Reach (treeClosed []) a b → a ≤ b := by
    intro a b q
    induction q with
    | refl => exact Nat.le_refl _
    | step q _ ih => have := up _ _ q; omega
  intro b c _ q q'
  have h1 := up _ _ q
  have h2 := le _ _ q'
  omega

theorem closed_endless (x : Ext) : ExecuteEndless x menuDoc (some 0) (treeClosed []) := by
  have ht : Target b!"children:node" b!"children" b!"node" := Or.inr ⟨[], by decide⟩
  have hs : SetCounter (treeClosed []) 2 (0 + 1) (treeClosed [(b!".counter", .int .int 1)]) := ⟨2, _, .plain rfl, rfl, rfl⟩
  refine .data (lang := none) ?_ ⟨fun sc σ h => sc = [menuDoc] ∧ σ = some [0] ∧ h = treeClosed [] ∨
    sc = [nodeDoc, menuDoc] ∧ σ = some [2, 0] ∧ h = treeClosed [(b!".counter", .int .int 1)], Or.inl ⟨rfl, rfl, rfl⟩, ?_⟩
  · refine .none fun b l q => ?_
    have := (entry_iff (t := 0) (.plain rfl)).1 q
    cases this
  · rintro sc σ h (⟨rfl, rfl, rfl⟩ | ⟨rfl, rfl, rfl⟩)
    · have hv : ValueAt (treeClosed []) (some [0]) b!"children" (.ptr 1) := .here (.entry ⟨0, _, .plain rfl, rfl, rfl⟩)
      refine .document (.head (.range ht (by decide +kernel) hv (Or.inl rfl) (.loopItem hs (.chosen (sc' := [nodeDoc, menuDoc]) (by decide +kernel) ?_))))
      exact Or.inr ⟨rfl, rfl, rfl⟩
    · have hv : ValueAt (treeClosed [(b!".counter", .int .int 1)]) (some [2, 0]) b!"children" (.ptr 3) := .here (.entry ⟨2, _, .plain rfl, rfl, rfl⟩)
      refine .document (.tail .text (.head (.rangeEmpty ht (by decide +kernel) hv ?_ (.chosen (sc' := [nodeDoc, menuDoc]) (by decide +kernel) ?_))))
      · intro c l e hc
        cases e
        rcases hc with hc | hc
        · cases hc; rfl
        · cases hc
      · exact Or.inr ⟨rfl, rfl, rfl⟩

end Xcore.Template
