import Verif.Proof.TemplateSafe

/-!
# Panics during rendering

What the specification says to panic does, in the code; nothing both panics and gives a text.
-/

namespace Xcore.Template

open Xcore.Dataset

section

variable {th : THeap} {S : Type} {own : S → List Param} {look : S → Str → Option S} {Z : View th own look} {x : Ext} {la : Option Nat} {lang : Option Language.Lang}

/-- The code panics at the job, with a large enough bound. -/
def Job.Panics (Z : View th own look) (x : Ext) (la : Option Nat) (sc : S) (job : Job) (σ : Option (List Nat)) (h : Heap) : Prop :=
  match job with
  | .document => ∀ t, InView Z t sc → Ev fun m => injector x th la m t ⟨h, stackOf σ⟩ = .panic
  | .body l => ∀ t, InView Z t sc → Ev fun m => injectAll (injectItem x th la (injector x th la m) t) l ⟨h, stackOf σ⟩ = .panic
  | .elem p => ∀ t, InView Z t sc → Ev fun m => injectItem x th la (injector x th la m) t p ⟨h, stackOf σ⟩ = .panic
  | .choose names => ∀ t, InView Z t sc → Ev fun m => renderOpt (injector x th la m) (names.findSome? (found th t)) ⟨h, stackOf σ⟩ = .panic
  | .loop id n i l => ∀ t c cl pre, InView Z t sc → found th t id = some c → IsCollection h cl (pre ++ l) → pre.length = i → Ev fun m =>
      rangeLoop th (injector x th la m) t id c cl n l.length i ⟨h, stackOf σ⟩ = .panic

theorem panic_bind {α β : Type} (f : α → Res β) : ((.panic : Res α) >>= f) = .panic := rfl

theorem panics_push {l : List Nat} {h : Heap} {a c : Nat} {names : List Str} {t : Nat} (hc : names.findSome? (found th t) = some c) {rec : Render}
    (e : renderOpt rec (names.findSome? (found th t)) ⟨h, stackOf (some (a :: l))⟩ = .panic) {β : Type} (f : St → Str → Res β) :
    (pushSt ⟨h, stackOf (some l)⟩ (some a) >>= fun s => rec c s >>= fun r => popSt r.1 >>= fun s => f s r.2) = .panic := by
  rw [hc] at e
  simp only [renderOpt] at e
  rw [pushSt_stackOf, Res.bind_ok, e]
  rfl

theorem breaks_panics {sc : S} {job : Job} {σ : Option (List Nat)} {h : Heap} (b : BreaksIn own look x lang sc job σ h) :
    Ready h σ → LangIs h la lang → job.Fits → job.Panics Z x la sc σ h := by
  induction b with
  | @nilElement sc l h id n i q =>
    intro hd hl hf t c cl pre hi hc hcl hpre
    refine .now fun m => ?_
    obtain ⟨c', p1, p2⟩ := pickRange_eq (g := found th t) hi.get hc i n
    have hget : colGetAt h cl (i : Int) = some none := by rw [← hpre]; exact colGetAt_of hcl
    simp only [List.length_cons, rangeLoop, p1, Res.bind_ok, hget]
  | @dataForReference sc h d id key hp hlk =>
    intro hd hl _ t hi
    refine .now fun m => ?_
    obtain ⟨c, hc⟩ := hi.some_of hlk
    unfold parts at hp
    simp only [injectItem, doReference, hp, List.headD_cons, hi.get, Res.bind_ok, hc, stackOf, Option.map_none]
  | @dataForValue sc h d any key pre hp =>
    intro hd hl _ t hi
    refine .now fun m => ?_
    unfold parts at hp
    simp only [injectItem, doReference, hp, stackOf, Option.map_none]
  | @document sc σ h _ ih =>
    intro hd hl _ t hi
    obtain ⟨n, e⟩ := ih hd hl trivial t hi
    refine ⟨n + 1, fun m hm => ?_⟩
    cases m with
    | zero => omega
    | succ m => rw [hi.injector]; exact e m (by omega)
  | head _ ih =>
    intro hd hl _ t hi
    refine (ih hd hl trivial t hi).mono fun m e => ?_
    simp only [injectAll, e]
    rfl
  | tail q1 _ ih =>
    intro hd hl _ t hi
    refine (complete (Z := Z) (la := la) q1 hd hl trivial t hi).and (ih (hd.renders q1 trivial) (hl.shape (renders_shape q1)) trivial t hi) fun m e1 e2 => ?_
    simp only [injectAll, e1, Res.bind_ok, e2]
    rfl
  | @chosen sc sc' σ h names hn _ ih =>
    intro hd hl _ t hi
    have hf := hi.choose names
    rw [hn] at hf
    generalize e : names.findSome? (found th t) = b at hf
    cases hf with
    | some hc =>
      exact (ih hd hl trivial _ hc).mono fun m e' => e'
  | reference hp h1 h2 _ ih =>
    intro hd hl _ t hi
    refine (ih hd hl trivial t hi).mono fun m e => ?_
    simp only [injectItem]
    rw [complete_reference hi hp h1 h2]
    exact e
  | @referenceWith sc l h d id key a hp hlk hv ha _ ih =>
    intro hd hl _ t hi
    refine (ih (hd.push ha) hl trivial t hi).mono fun m e => ?_
    obtain ⟨c, hc⟩ := hi.some_of hlk
    obtain ⟨o, eo, ev⟩ := stack_value hd hv
    unfold parts at hp
    simp only [injectItem, doReference, hp, List.headD_cons, hi.get, Res.bind_ok, hc, stackOf, Option.map_some, eo, bind_asDataset, ev, asDataset_some.2 ⟨rfl, ha⟩]
    exact panics_push (names := [id]) (by simp [hc]) e fun s d => .ok (s, d)
  | @referenceWithout sc l h d id key v hp hlk hv hno _ ih =>
    intro hd hl _ t hi
    refine (ih hd hl trivial t hi).mono fun m e => ?_
    obtain ⟨c, hc⟩ := hi.some_of hlk
    obtain ⟨o, eo, ev⟩ := stack_value hd hv
    unfold parts at hp
    simp only [injectItem, doReference, hp, List.headD_cons, hi.get, Res.bind_ok, hc, stackOf, Option.map_some, eo, bind_asDataset, ev, asDataset_none.2 hno]
    simp only [List.findSome?_cons, hc, renderOpt] at e
    exact e
  | @referenceValue sc l h d any key pre v text hp hv hs _ ih =>
    intro hd hl _ t hi
    refine (ih hd hl trivial t hi).mono fun m e => ?_
    unfold parts at hp
    simp only [injectItem, doReference, hp, stackOf, Option.map_some, (stackString_shows hd key text).2 ⟨v, hv, hs⟩, Res.bind_ok, hi.get]
    simp only [List.findSome?_cons, List.findSome?_nil] at e
    revert e
    cases found th t (pre ++ text) <;> cases found th t pre <;> exact fun e => e
  | @rangeEmpty sc l h d key id v ht hlk hv hno _ ih =>
    intro hd hl _ t hi
    refine (ih hd hl trivial t hi).mono fun m e => ?_
    obtain ⟨c, hc⟩ := hi.some_of hlk
    obtain ⟨o, eo, ev⟩ := stack_value hd hv
    simp only [injectItem, doRange, target_two ht, hi.get, Res.bind_ok, hc, stackOf, Option.map_some, eo, bind_asCollection, ev]
    have key : injector x th la m ((found th t (id ++ b!".none")).getD c) ⟨h, stackOf (some l)⟩ = .panic := by
      rw [← e]
      simp only [List.findSome?_cons, hc]
      cases found th t (id ++ b!".none") <;> rfl
    cases ea : asCollection h v with
    | none => exact key
    | some cl =>
      obtain ⟨rfl, hcl⟩ := asCollection_some.1 ea
      have := hno _ _ rfl hcl
      simp only [count, this, List.length_nil, Nat.lt_irrefl, if_false]
      exact key
  | @range sc l h d key id c q ht hlk hv hc b ih =>
    intro hd hl _ t hi
    obtain ⟨c', hc'⟩ := hi.some_of hlk
    have hlen := hd.short _ _ hc
    have hne : q ≠ [] := by rintro rfl; cases b
    refine (ih hd hl (by simpa [Job.Fits] using hlen) t c' c [] hi hc' hc rfl).mono fun m e => ?_
    obtain ⟨o, eo, ev⟩ := stack_value hd hv
    have ea : asCollection h (.ptr c) = some c := asCollection_some.2 ⟨rfl, by rw [elems_of hc]; exact hc⟩
    simp only [injectItem, doRange, target_two ht, hi.get, Res.bind_ok, hc', stackOf, Option.map_some, eo, bind_asCollection, ev, ea, count, elems_of hc]
    rw [if_pos (List.length_pos_iff.2 hne)]
    exact e
  | @loopItem sc l h h1 id n i a q hs _ ih =>
    intro hd hl hf t c cl pre hi hc hcl hpre
    simp only [Job.Fits, List.length_cons] at hf
    have sh1 := shape_counter hs
    have hd1 := hd.shape (wf_counter hd.wf ⟨by omega, by omega⟩ hs) sh1
    have ha : IsDataset h1 a := (sh1.isDataset a).2 (hd.wf.elem _ _ a hcl (by simp))
    refine (ih (hd1.push ha) (hl.shape sh1) trivial t hi).mono fun m e1 => ?_
    obtain ⟨c', p1, p2⟩ := pickRange_eq (g := found th t) hi.get hc i n
    have hget : colGetAt h cl (i : Int) = some (some a) := by rw [← hpre]; exact colGetAt_of hcl
    simp only [List.length_cons, rangeLoop, p1, Res.bind_ok, hget, (set_counter hd.wf).2 hs]
    exact panics_push (names := rangeNames id i n) p2 e1 fun s d => do
      let q ← rangeLoop th (injector x th la m) t id c cl n q.length (i + 1) s; .ok (q.1, d ++ q.2)
  | @loopRest sc l h h1 h2 s id n i a q hs q1 _ ih =>
    intro hd hl hf t c cl pre hi hc hcl hpre
    simp only [Job.Fits, List.length_cons] at hf
    have sh1 := shape_counter hs
    have hd1 := hd.shape (wf_counter hd.wf ⟨by omega, by omega⟩ hs) sh1
    have ha : IsDataset h1 a := (sh1.isDataset a).2 (hd.wf.elem _ _ a hcl (by simp))
    have sh2 := renders_shape q1
    have e1 := complete (Z := Z) (la := la) q1 (hd1.push ha) (hl.shape sh1) trivial t hi
    have e2 := ih (hd1.renders q1 trivial) (hl.shape (sh1.trans sh2)) (by simp only [Job.Fits]; omega) t c cl (pre ++ [some a]) hi hc
      (by simpa using ((sh1.trans sh2).isCollection _ _).2 hcl) (by simp [hpre])
    refine e1.and e2 fun m e1 e2 => ?_
    obtain ⟨c', p1, p2⟩ := pickRange_eq (g := found th t) hi.get hc i n
    have hget : colGetAt h cl (i : Int) = some (some a) := by rw [← hpre]; exact colGetAt_of hcl
    simp only [List.length_cons, rangeLoop, p1, Res.bind_ok, hget, (set_counter hd.wf).2 hs]
    refine (complete_push (names := rangeNames id i n) p2 e1 fun s d => do
      let q ← rangeLoop th (injector x th la m) t id c cl n q.length (i + 1) s; .ok (q.1, d ++ q.2)).trans ?_
    rw [e2]; rfl
  | @conditionNone sc σ h d key id v ht hv hs _ ih =>
    intro hd hl _ t hi
    refine (ih hd hl trivial t hi).mono fun m e => ?_
    obtain ⟨v', ev, _, hu⟩ := condGet_value hd key
    cases hu v hv
    rw [← complete_none hi] at e
    simp only [injectItem, doCondition, target_two ht, hi.get, Res.bind_ok, ev]
    by_cases hn : v = .nil
    · rw [if_pos hn]; exact e
    · rw [if_neg hn]
      have hs' := (shows_iff hd.wf hn).1 hs
      have hnd : asDataset h v = none := asDataset_none.2 fun a ea ha => by
        subst ea
        exact shows_dataset_ne hd.wf ha hs rfl
      cases hc : found th t id with
      | none =>
        rw [hc] at e
        simp only [hs', ofFuel, Res.bind_ok, List.isEmpty_nil]
        exact e
      | some c =>
        rw [hc] at e
        simp only [condValue, hnd, hs', ofFuel, Res.bind_ok, ne_eq, not_true_eq_false, if_false, List.isEmpty_nil, e]
        rfl
  | @conditionValue sc σ h d key id v text ht hv hnd hs hne hlk q ih =>
    intro hd hl _ t hi
    refine (ih hd hl trivial t hi).mono fun m e => ?_
    obtain ⟨v', ev, _, hu⟩ := condGet_value hd key
    cases hu v hv
    have hn : v ≠ .nil := fun e => hne (by rw [e, shows_nil] at hs; exact hs)
    obtain ⟨c, hc⟩ := hi.some_of hlk
    have e' : injector x th la m ((found th t (id ++ b!"." ++ text)).getD c) ⟨h, stackOf σ⟩ = .panic := by
      rw [← e]
      simp only [List.findSome?_cons, hc]
      cases found th t (id ++ b!"." ++ text) <;> rfl
    simp only [injectItem, doCondition, target_two ht, hi.get, Res.bind_ok, ev, if_neg hn, hc, condValue, asDataset_none.2 hnd, (shows_iff hd.wf hn).1 hs, ofFuel,
      if_pos hne, e']
    rfl
  | @conditionDataset sc l h d key id a ht hv ha hlk q ih =>
    intro hd hl _ t hi
    refine (ih (hd.push ha) hl trivial t hi).mono fun m e => ?_
    obtain ⟨v', ev, _, hu⟩ := condGet_value hd key
    cases hu _ hv
    obtain ⟨c, hc⟩ := hi.some_of hlk
    have hch : [id ++ b!".array", id].findSome? (found th t) = some ((found th t (id ++ b!"." ++ b!"array")).getD c) := by
      simp only [List.findSome?_cons, hc]
      have : id ++ b!"." ++ b!"array" = id ++ b!".array" := by simp
      rw [this]
      cases found th t (id ++ b!".array") <;> rfl
    have e' := panics_push hch e fun s d => Res.ok (s, d, (found th t (id ++ b!"." ++ b!"array")).getD c)
    simp only [injectItem, doCondition, target_two ht, hi.get, Res.bind_ok, ev, reduceCtorEq, if_false, hc, condValue, asDataset_some.2 ⟨rfl, ha⟩]
    rw [e']
    rfl

/-- Without nil elements, and with data or without an element that needs them, nothing panics. -/
theorem breaks_cause {sc : S} {job : Job} {σ : Option (List Nat)} {h : Heap} (b : BreaksIn own look x lang sc job σ h) (nn : σ ≠ none → NoNilElement h)
    (hj : ∀ id n i q, job = .loop id n i q → none ∉ q) (hb : σ = none → ∀ l, job = .body l → ∀ p ∈ l, NeedsNoData p)
    (he : σ = none → ∀ p, job = .elem p → NeedsNoData p) {I : S → Prop} (hown : ∀ sc, I sc → ∀ p ∈ own sc, NeedsNoData p)
    (hlook : ∀ sc v sc', I sc → look sc v = some sc' → I sc') (hs : σ = none → I sc) : False := by
  induction b with
  | nilElement => exact hj _ _ _ _ rfl (by simp)
  | dataForReference hp => exact absurd (by rw [hp]; rfl) (he rfl _ rfl rfl).1
  | dataForValue hp => exact absurd (by rw [hp]; rfl) (he rfl _ rfl rfl).2
  | @document sc σ h _ ih =>
    exact ih nn nofun (fun e l el p hp => by cases el; exact hown sc (hs e) p hp) nofun hs
  | head _ ih => exact ih nn nofun nofun (fun e p ep => by cases ep; exact hb e _ rfl _ (by simp)) hs
  | tail q1 _ ih =>
    exact ih (fun e => (renders_shape q1).noNilElement (nn e)) nofun (fun e l el p hp => by cases el; exact hb e _ rfl p (by simp [hp])) nofun hs
  | chosen hn _ ih =>
    obtain ⟨v, _, e⟩ := List.exists_of_findSome?_eq_some hn
    exact ih nn nofun nofun nofun fun hn => hlook _ _ _ (hs hn) e
  | reference _ _ _ _ ih => exact ih nn nofun nofun nofun hs
  | referenceWith _ _ _ _ _ ih => exact ih (fun _ => nn nofun) nofun nofun nofun nofun
  | referenceWithout _ _ _ _ _ ih => exact ih nn nofun nofun nofun nofun
  | referenceValue _ _ _ _ ih => exact ih nn nofun nofun nofun nofun
  | rangeEmpty _ _ _ _ _ ih => exact ih nn nofun nofun nofun nofun
  | range _ _ _ hc _ ih => exact ih nn (fun _ _ _ _ e => by cases e; exact nn nofun _ _ hc) nofun nofun nofun
  | loopItem hs' _ ih => exact ih (fun _ => (shape_counter hs').noNilElement (nn nofun)) nofun nofun nofun nofun
  | loopRest hs' q1 _ ih =>
    exact ih (fun _ => ((shape_counter hs').trans (renders_shape q1)).noNilElement (nn nofun))
      (fun _ _ _ _ e hm => by cases e; exact hj _ _ _ _ rfl (by simp [hm])) nofun nofun nofun
  | conditionNone _ _ _ _ ih => exact ih nn nofun nofun nofun hs
  | conditionValue _ _ _ _ _ _ _ ih => exact ih nn nofun nofun nofun hs
  | conditionDataset _ _ _ _ _ ih => exact ih (fun _ => nn nofun) nofun nofun nofun nofun

end

/-- `Execute` panics exactly where the specification says. -/
theorem execute_panic_iff' {th : THeap} {S : Type} {own : S → List Param} {look : S → Str → Option S} {Z : View th own look}
    {x : Ext} {t : Nat} {sc : S} {h : Heap} {data : Option Nat} (hi : InView Z t sc) (hp : Proper h data) :
    (∃ n, execute x th n t h data = .panic) ↔ ExecuteBreaksIn own look x sc data h := by
  refine ⟨fun ⟨n, e⟩ => execute_panic' hi hp n e, fun b => ?_⟩
  cases b with
  | nil b =>
    obtain ⟨n, e⟩ := breaks_panics (Z := Z) (la := none) b hp.ready_nil trivial trivial t hi
    exact ⟨n, by simp only [execute]; have := e n (Nat.le_refl _); simp only [stackOf, Option.map_none] at this; rw [this]; rfl⟩
  | @data a lang _ hlang b =>
    obtain ⟨l, el, hl⟩ := langOf_iff (hp.data a rfl) hp.wf hp.wrapped
    obtain ⟨n, e⟩ := breaks_panics (Z := Z) (la := langOf h l) b hp.ready ((hl _).1 hlang) trivial t hi
    refine ⟨n, ?_⟩
    simp only [execute, el, Res.bind_ok]
    have := e n (Nat.le_refl _)
    simp only [stackOf, Option.map_some, List.reverse_singleton, List.map_cons, List.map_nil] at this
    rw [this]
    rfl

theorem execute_panic_iff {x : Ext} {th : THeap} {t : Nat} {d : Doc} {h : Heap} {data : Option Nat} (hi : InScope th t [d]) (hp : Proper h data) :
    (∃ n, execute x th n t h data = .panic) ↔ ExecuteBreaks x d data h := execute_panic_iff' hi.view hp

/-- `Execute` does not panic without nil elements if it is given a dataset, or if no element needs data. -/
theorem execute_safe' {th : THeap} {S : Type} {own : S → List Param} {look : S → Str → Option S} {Z : View th own look}
    {x : Ext} {t : Nat} {sc : S} {h : Heap} {data : Option Nat} (hi : InView Z t sc) (hp : Proper h data)
    (nn : data ≠ none → NoNilElement h) {I : S → Prop} (hown : ∀ sc, I sc → ∀ p ∈ own sc, NeedsNoData p)
    (hlook : ∀ sc v sc', I sc → look sc v = some sc' → I sc') (hn : data = none → I sc) (n : Nat) : execute x th n t h data ≠ .panic := by
  intro e
  have b := execute_panic' hi hp n e
  cases b with
  | nil b => exact breaks_cause b (fun e => absurd rfl e) nofun nofun nofun hown hlook fun _ => hn rfl
  | data _ b => exact breaks_cause b (fun _ => nn nofun) nofun nofun nofun hown hlook nofun

theorem execute_safe {x : Ext} {th : THeap} {t : Nat} {d : Doc} {h : Heap} {data : Option Nat} (hi : InScope th t [d]) (hp : Proper h data)
    (nn : data ≠ none → NoNilElement h) (hn : data = none → d.All NeedsNoData) (n : Nat) : execute x th n t h data ≠ .panic :=
  execute_safe' hi.view hp nn (I := fun sc => ∀ d ∈ sc, d.All NeedsNoData)
    (fun sc hs p hp => by
      cases sc with
      | nil => cases hp
      | cons d up => exact own_all (hs d (by simp)) p hp)
    (fun _ _ _ hs e => (lookup_all hs e).2) (fun e d' hd' => by simp at hd'; subst hd'; exact hn e) n

/-- `Execute` ends with a text or a panic if there is no endless chain of calls and no cycle in the data. -/
theorem execute_ends' {S : Type} {own : S → List Param} {look : S → Str → Option S} {x : Ext} {sc : S} {h : Heap} {data : Option Nat} (hp : Proper h data)
    (ht : ∀ lang, Total own look x lang sc) (hac : ∀ a, data = some a → Acyclic h a) :
    (∃ h' out, ExecutesIn own look x sc data h h' out) ∨ ExecuteBreaksIn own look x sc data h := by
  cases data with
  | none =>
    rcases ht none none h hp.ready_nil nofun with ⟨h', out, r⟩ | b
    · exact Or.inl ⟨h', out, .nil r⟩
    · exact Or.inr (.nil b)
  | some a =>
    obtain ⟨l, _, hl⟩ := langOf_iff (hp.data a rfl) hp.wf hp.wrapped
    obtain ⟨lang, hlang⟩ : ∃ lang, LangIs h (langOf h l) lang := by
      cases e : langOf h l with
      | none => exact ⟨none, trivial⟩
      | some b =>
        unfold langOf at e
        split at e
        · split at e
          · next hb => cases e; exact ⟨some _, hb⟩
          · cases e
        · cases e
    rcases ht lang (some [a]) h hp.ready
      (fun l e b hb => by cases e; simp at hb; subst hb; exact hac _ rfl) with ⟨h', out, r⟩ | b
    · exact Or.inl ⟨h', out, .data ((hl lang).2 hlang) r⟩
    · exact Or.inr (.data ((hl lang).2 hlang) b)

theorem execute_ends {x : Ext} {d : Doc} {h : Heap} {data : Option Nat} (hp : Proper h data) (hacc : Acc (fun a b => Calls b a) [d])
    (hac : ∀ a, data = some a → Acyclic h a) : (∃ h' out, Executes x d data h h' out) ∨ ExecuteBreaks x d data h :=
  execute_ends' hp (fun _ => renders_total hacc) hac

/-- No rendering both gives a text and panics. -/
theorem execute_not_both' {th : THeap} {S : Type} {own : S → List Param} {look : S → Str → Option S} {Z : View th own look}
    {x : Ext} {sc : S} {h h' : Heap} {data : Option Nat} {out : Str} {t : Nat} (hi : InView Z t sc) (hp : Proper h data)
    (r : ExecutesIn own look x sc data h h' out) (b : ExecuteBreaksIn own look x sc data h) : False := by
  cases r with
  | nil r =>
    cases b with | nil b => ?_
    obtain ⟨n, e⟩ := breaks_panics (Z := Z) (la := none) b hp.ready_nil trivial trivial t hi
    obtain ⟨m, e'⟩ := complete (Z := Z) (la := none) r hp.ready_nil trivial trivial t hi
    have := (e (n + m) (by omega)).symm.trans (e' (n + m) (by omega))
    cases this
  | @data a _ _ _ _ hlang r =>
    cases b with | data hlang' b => ?_
    obtain ⟨l, _, hl⟩ := langOf_iff (hp.data a rfl) hp.wf hp.wrapped
    obtain ⟨n, e⟩ := breaks_panics (Z := Z) (la := langOf h l) b hp.ready ((hl _).1 hlang') trivial t hi
    obtain ⟨m, e'⟩ := complete (Z := Z) (la := langOf h l) r hp.ready ((hl _).1 hlang) trivial t hi
    have := (e (n + m) (by omega)).symm.trans (e' (n + m) (by omega))
    cases this

theorem execute_not_both {x : Ext} {d : Doc} {h h' : Heap} {data : Option Nat} {out : Str} {th : THeap} {t : Nat} (hi : InScope th t [d]) (hp : Proper h data)
    (r : Executes x d data h h' out) (b : ExecuteBreaks x d data h) : False := execute_not_both' hi.view hp r b

/-- A loop that gives a text has no nil element. -/
theorem renders_loop_elements {S : Type} {own : S → List Param} {look : S → Str → Option S} {x : Ext} {lang : Option Language.Lang} {sc : S} {job : Job} {σ : Option (List Nat)} {h h' : Heap} {s : Str}
    (r : RendersIn own look x lang sc job σ h h' s) : ∀ id n i l, job = .loop id n i l → none ∉ l := by
  induction r with
  | loopEnd => intro _ _ _ _ e; cases e; simp
  | loop _ _ _ _ ih => intro _ _ _ _ e; cases e; simpa using ih _ _ _ _ rfl
  | _ => intro _ _ _ _ e; cases e

/-! ## Data with a nil element, used in examples -/

/-- A collection with a dataset and nil. -/
def gap : Heap := [.ds [(b!"rows", .ptr 1), (b!"n", .str b!"x")], .col [some 2, none], .ds [(b!"k", .str b!"v")]]

theorem gap_rows {a : Nat} {l : List (Option Nat)} (hl : IsCollection gap a l) : a = 1 ∧ l = [some 2, none] := by
  have hlt : a < 3 := by rcases hl with hl | hl <;> exact lt_of_getElem? hl
  rcases hl with hl | hl
  all_goals
    match a, hlt with
    | 0, _ => cases hl
    | 1, _ => cases hl <;> exact ⟨rfl, rfl⟩
    | 2, _ => cases hl

theorem gap_proper : Proper gap (some 0) := by
  refine ⟨?_, fun a ha => ?_, fun c l hl => by rw [(gap_rows hl).2]; decide, fun a e => by cases e; exact Or.inl ⟨_, rfl⟩⟩
  · rw [wf_iff]
    intro a o ho
    have hlt : a < 3 := lt_of_getElem? ho
    match a, hlt with
    | 0, _ => cases ho; exact ⟨by decide, by intro k v hb; simp at hb; rcases hb with h | h <;> rw [h.2] <;> simp [Valid, gap]⟩
    | 1, _ => cases ho; intro b hb; simp at hb; subst hb; exact Or.inl ⟨_, rfl⟩
    | 2, _ => cases ho; exact ⟨by decide, by intro k v hb; simp at hb; rw [hb.2]; trivial⟩
  · have hlt : a < 3 := lt_of_getElem? ha
    match a, hlt with
    | 0, _ => cases ha
    | 1, _ => cases ha
    | 2, _ => cases ha

end Xcore.Template
