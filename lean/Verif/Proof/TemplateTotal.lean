import Verif.Proof.TemplateRender
import Verif.Spec.TemplateBreaks

/-!
# Rendering: outcomes

`Execute` refines its specification; it ends, with a text or a panic, if the calls between sub-templates do.
-/

namespace Xcore.Dataset

/-- A value found under a path is reachable. -/
theorem leads_reach {h : Heap} {b : Addr} {l : List Str} {v : Val} (hl : Leads h b l v) : ∀ a, v = .ptr a → Reach h b a := by
  have wraps : ∀ {b t : Addr}, Wraps h b t → Reach h b t := by
    intro b t w
    induction w with
    | plain => exact .refl
    | wrapper hb _ ih => exact .step (.wrapped hb) ih
  have entry : ∀ {b : Addr} {k : Str} {v : Val}, Entry h b k v → ∀ a, v = .ptr a → Reach h b a := by
    rintro b k v ⟨t, m, w, hm, hg⟩ a rfl
    exact (wraps w).trans (.step (.ptr hm (AMap.mem_of_get hg)) .refl)
  induction hl with
  | entry he => exact entry he
  | dataset he _ _ ih => exact fun a e => (entry he _ rfl).trans (ih a e)
  | element he hc _ hi =>
    rintro a e
    cases e
    exact (entry he _ rfl).trans (.step (.elem hc (List.mem_of_getElem? hi)) .refl)
  | through he hc _ hi _ ih =>
    exact fun a e => (entry he _ rfl).trans (.step (.elem hc (List.mem_of_getElem? hi)) (ih a e))
  | literal _ _ he => exact entry he

theorem Acyclic.of_reach {h : Heap} {a b : Addr} (ac : Acyclic h a) (r : Reach h a b) : Acyclic h b :=
  fun c d rc hr => ac c d (r.trans rc) hr

end Xcore.Dataset

namespace Xcore.Template

open Xcore.Dataset

/-! ## Execute -/

theorem langOf_iff {h : Heap} {a : Nat} (hd : IsDataset h a) (wf : WF h) (nn : Wrapped h) :
    ∃ l, Dataset.get h a b!"#" = .ok l ∧ ∀ lang, LangOf h a lang ↔ LangIs h (langOf h l) lang := by
  obtain ⟨t, w⟩ := wraps_exists wf nn a hd
  have hsplit : split 62 b!"#" = [b!"#"] := by decide
  have ht := (target_iff wf).2 w
  refine ⟨(entries h t).get b!"#", by simp only [Dataset.get, hsplit, getSegs, ht], fun lang => ?_⟩
  have he : ∀ v, Entry h a b!"#" v ↔ (entries h t).get b!"#" = some v := fun v => entry_iff w
  generalize (entries h t).get b!"#" = o at he
  have hno : langOf h o = none → (∀ b l, Entry h a b!"#" (.ptr b) → h[b]? ≠ some (.lang l)) := by
    intro e b l hb hbl
    rw [he] at hb
    subst hb
    simp only [langOf, hbl] at e
    cases e
  cases e : langOf h o with
  | none =>
    constructor
    · intro hl
      cases hl with
      | table hb hbl => exact absurd hbl (hno e _ _ hb)
      | none => trivial
    · intro hl
      cases lang with
      | none => exact .none (hno e)
      | some l => cases hl
  | some b =>
    have hb : o = some (.ptr b) ∧ ∃ l, h[b]? = some (.lang l) := by
      unfold langOf at e
      split at e
      · split at e
        · next hbl => cases e; exact ⟨rfl, _, hbl⟩
        · cases e
      · cases e
    obtain ⟨rfl, l, hbl⟩ := hb
    constructor
    · intro hl
      cases hl with
      | table hb' hbl' => rw [he] at hb'; cases hb'; exact hbl'
      | none hn => exact absurd hbl (hn b l ((he _).2 rfl))
    · intro hl
      cases lang with
      | none => cases hl
      | some l' => exact .table ((he _).2 rfl) hl

theorem Proper.ready {h : Heap} {a : Nat} (p : Proper h (some a)) : Ready h (some [a]) :=
  ⟨p.wf, p.wrapped, p.short, by intro l e b hb; cases e; simp at hb; subst hb; exact p.data _ rfl⟩

theorem Proper.ready_nil {h : Heap} (p : Proper h none) : Ready h none := ⟨p.wf, p.wrapped, p.short, by simp⟩

theorem execute_iff' {th : THeap} {S : Type} {own : S → List Param} {look : S → Str → Option S} {Z : View th own look}
    {x : Ext} {t : Nat} {sc : S} {h h' : Heap} {data : Option Nat} {s : Str} (hi : InView Z t sc) (hp : Proper h data) :
    (∃ n, execute x th n t h data = .ok (h', s)) ↔ ExecutesIn own look x sc data h h' s := by
  cases data with
  | none =>
    constructor
    · rintro ⟨n, e⟩
      simp only [execute] at e
      rw [Res.bind_eq_ok] at e
      obtain ⟨r, e1, e2⟩ := e
      obtain ⟨h'', q1, q2⟩ := sound_injector n _ _ none _ _ hi hp.ready_nil (by trivial : LangIs h none none) e1
      cases e2
      rw [q1]
      exact .nil q2
    · intro q
      cases q with | nil q => ?_
      obtain ⟨n, e⟩ := (injector_iff' (la := none) (lang := none) hi hp.ready_nil trivial h' s).2 q
      exact ⟨n, by simp only [execute]; exact e ▸ rfl⟩
  | some a =>
    obtain ⟨l, el, hl⟩ := langOf_iff (hp.data a rfl) hp.wf hp.wrapped
    constructor
    · rintro ⟨n, e⟩
      simp only [execute, el, Res.bind_ok] at e
      rw [Res.bind_eq_ok] at e
      obtain ⟨r, e1, e2⟩ := e
      have : ∃ lang, LangIs h (langOf h l) lang := by
        cases e : langOf h l with
        | none => exact ⟨none, trivial⟩
        | some b =>
          unfold langOf at e
          split at e
          · split at e
            · next l' hbl => cases e; exact ⟨some l', hbl⟩
            · cases e
          · cases e
      obtain ⟨lang, hlang⟩ := this
      obtain ⟨h'', q1, q2⟩ := sound_injector n _ _ (some [a]) _ _ hi hp.ready hlang e1
      cases e2
      rw [q1]
      exact .data ((hl lang).2 hlang) q2
    · intro q
      cases q with
      | data hlang q =>
        obtain ⟨n, e⟩ := (injector_iff' hi hp.ready ((hl _).1 hlang) h' s).2 q
        refine ⟨n, ?_⟩
        simp only [execute, el, Res.bind_ok]
        exact e ▸ rfl

theorem execute_iff {x : Ext} {th : THeap} {t : Nat} {d : Doc} {h h' : Heap} {data : Option Nat} {s : Str} (hi : InScope th t [d]) (hp : Proper h data) :
    (∃ n, execute x th n t h data = .ok (h', s)) ↔ Executes x d data h h' s := execute_iff' hi.view hp

/-! ## Memory afterwards -/

theorem onlyCounters_refl (h : Heap) : OnlyCounters h h := ⟨rfl, fun _ => Or.inl rfl⟩

theorem OnlyCounters.trans {h1 h2 h3 : Heap} (s : Shape h1 h2) (a : OnlyCounters h1 h2) (b : OnlyCounters h2 h3) : OnlyCounters h1 h3 := by
  refine ⟨b.length.trans a.length, fun k => ?_⟩
  rcases b.objects k with e | ⟨m2, m3, e2, e3, hk, hi, c, l, x, hc, hx, w⟩
  · rw [e]; exact a.objects k
  · have hcol : ∃ c l a, IsCollection h1 c l ∧ some a ∈ l ∧ Wraps h1 a k := ⟨c, l, x, (s.isCollection _ _).1 hc, hx, (s.wraps _ _).1 w⟩
    rcases a.objects k with e | ⟨m1, m2', e1, e2', hk', _⟩
    · exact Or.inr ⟨m2, m3, by rw [← e]; exact e2, e3, hk, hi, hcol⟩
    · rw [e2] at e2'
      cases e2'
      exact Or.inr ⟨m1, m3, e1, e3, fun k hne => (hk k hne).trans (hk' k hne), hi, hcol⟩

theorem onlyCounters_set {h h' : Heap} {a i c : Nat} {l : List (Option Nat)} (hc : IsCollection h c l) (ha : some a ∈ l) (e : SetCounter h a ((i : Int) + 1) h') :
    OnlyCounters h h' := by
  obtain ⟨t, m, w, hm, rfl⟩ := e
  refine ⟨by simp, fun b => ?_⟩
  rw [List.getElem?_set]
  by_cases hb : t = b
  · subst hb
    refine Or.inr ⟨m, m.set b!".counter" (.int .int ((i : Int) + 1)), hm, by simp [lt_of_getElem? hm], fun k hk => AMap.get_set_ne m _ hk,
      ⟨i + 1, by rw [AMap.get_set_self]; simp⟩, c, l, a, hc, ha, w⟩
  · rw [if_neg hb]; exact Or.inl rfl

theorem renders_counters {S : Type} {own : S → List Param} {look : S → Str → Option S} {x : Ext} {lang : Option Language.Lang} {sc : S} {job : Job} {σ : Option (List Nat)} {h h' : Heap} {s : Str}
    (r : RendersIn own look x lang sc job σ h h' s) : (∀ id n i q, job = .loop id n i q → ∃ c pre, IsCollection h c (pre ++ q)) → OnlyCounters h h' := by
  induction r with
  | document _ ih => exact fun _ => ih (by simp)
  | cons q _ ih1 ih2 => exact fun _ => (ih1 (by simp)).trans (renders_shape q) (ih2 (by simp))
  | chosen _ _ ih => exact fun _ => ih (by simp)
  | reference _ _ _ _ ih => exact fun _ => ih (by simp)
  | referenceWith _ _ _ _ _ ih => exact fun _ => ih (by simp)
  | referenceWithout _ _ _ _ _ ih => exact fun _ => ih (by simp)
  | referenceValue _ _ _ _ ih => exact fun _ => ih (by simp)
  | rangeEmpty _ _ _ _ _ ih => exact fun _ => ih (by simp)
  | range _ _ _ hc _ _ ih => exact fun _ => ih (by intro id n i q e; cases e; exact ⟨_, [], hc⟩)
  | loop hs q _ ih1 ih2 =>
    intro hj
    obtain ⟨c, pre, hc⟩ := hj _ _ _ _ rfl
    have sh := shape_counter hs
    refine (onlyCounters_set hc (by simp) hs).trans sh ((ih1 (by simp)).trans (renders_shape q) (ih2 ?_))
    intro id n i q' e
    cases e
    exact ⟨c, pre ++ [some _], by simpa using ((sh.trans (renders_shape q)).isCollection _ _).2 hc⟩
  | conditionNone _ _ _ _ ih => exact fun _ => ih (by simp)
  | conditionValue _ _ _ _ _ _ _ ih => exact fun _ => ih (by simp)
  | conditionDataset _ _ _ _ _ _ ih => exact fun _ => ih (by simp)
  | _ => exact fun _ => onlyCounters_refl _

/-! ## Scopes -/

theorem find_all {P : Param → Prop} {d b : Doc} {v : Str} (h : d.All P) (e : d.find v = some b) : b.All P := by
  induction d with
  | nil => cases e
  | elem p r ih => exact ih h.2 e
  | box n body r _ ih =>
    simp only [Doc.find] at e
    cases er : r.find v with
    | some b' => rw [er] at e; cases e; exact ih h.2 er
    | none =>
      rw [er] at e
      simp at e
      rw [← e.2]; exact h.1

theorem lookup_all {P : Param → Prop} {sc sc' : List Doc} {v : Str} (h : ∀ d ∈ sc, d.All P) (e : lookup sc v = some sc') :
    (∃ b up, sc' = b :: up) ∧ ∀ d ∈ sc', d.All P := by
  induction sc with
  | nil => cases e
  | cons d up ih =>
    simp only [lookup] at e
    cases ef : d.find v with
    | none => rw [ef] at e; exact ih (fun d hd => h d (by simp [hd])) e
    | some b =>
      rw [ef] at e
      cases e
      refine ⟨⟨b, d :: up, rfl⟩, fun d' hd' => ?_⟩
      rcases List.mem_cons.1 hd' with rfl | hd'
      · exact find_all (h d (by simp)) ef
      · exact h d' hd'

theorem own_all {P : Param → Prop} {d : Doc} (h : d.All P) : ∀ p ∈ d.own, P p := by
  induction d with
  | nil => intro p hp; cases hp
  | elem p r ih =>
    intro q hq
    rcases List.mem_cons.1 hq with rfl | hq
    · exact h.1
    · exact ih h.2 q hq
  | box n b r _ ih => exact ih h.2

theorem all_true (d : Doc) : d.All fun _ => True := by
  induction d with
  | nil => trivial
  | elem p r ih => exact ⟨trivial, ih⟩
  | box n b r ihb ih => exact ⟨ihb, ih⟩

/-! ## Termination -/

theorem valueAt_exists {h : Heap} {σ : Option (List Nat)} (hd : Ready h σ) (key : Str) : ∃ v, ValueAt h σ key v := by
  cases σ with
  | none => exact ⟨_, .noData⟩
  | some l =>
    obtain ⟨o, _, hv⟩ := stackGet_value hd key
    exact ⟨_, (hv _).2 rfl⟩

theorem valueAt_reach {h : Heap} {σ : Option (List Nat)} {key : Str} {a : Nat} (hv : ValueAt h σ key (.ptr a)) : ∃ l b, σ = some l ∧ b ∈ l ∧ Reach h b a := by
  generalize e : Val.ptr a = v at hv
  induction hv with
  | here hw => exact ⟨_, _, rfl, by simp, leads_reach hw a e.symm⟩
  | outer _ _ ih =>
    obtain ⟨l, b, e1, hb, r⟩ := ih e
    cases e1
    exact ⟨_, b, rfl, by simp [hb], r⟩
  | missing => cases e
  | noData => cases e

/-- Nothing that can be reached from the datasets has a cycle. -/
def NoCycle (h : Heap) (σ : Option (List Nat)) : Prop := ∀ l, σ = some l → ∀ a ∈ l, Acyclic h a

theorem NoCycle.shape {h h' : Heap} {σ : Option (List Nat)} (hc : NoCycle h σ) (s : Shape h h') : NoCycle h' σ := fun l e a ha => s.acyclic (hc l e a ha)

theorem NoCycle.push {h : Heap} {l : List Nat} {a : Nat} (hc : NoCycle h (some l)) (ha : Acyclic h a) : NoCycle h (some (a :: l)) := by
  intro l' e b hb
  cases e
  rcases List.mem_cons.1 hb with rfl | hb
  · exact ha
  · exact hc l rfl b hb

theorem shows_ptr (x : Ext) {h : Heap} (wf : WF h) {a : Nat} (hlt : a < h.length) (hac : Acyclic h a) : ∃ s, Shows x h (.ptr a) s := by
  obtain ⟨⟨s, e⟩, _⟩ := sprint_total x wf hlt hac (d := 2 * h.length + 1) (by omega)
  exact ⟨s, Or.inr ⟨by simp, _, (prints_iff ..).2 e⟩⟩

theorem shows_exists (x : Ext) {h : Heap} {σ : Option (List Nat)} (hd : Ready h σ) (hc : NoCycle h σ) {key : Str} {v : Val} (hv : ValueAt h σ key v) :
    ∃ s, Shows x h v s := by
  by_cases hn : v = .nil
  · exact ⟨[], Or.inl ⟨hn, rfl⟩⟩
  · by_cases hp : ∃ a, v = .ptr a
    · obtain ⟨a, rfl⟩ := hp
      obtain ⟨l, b, e, hb, r⟩ := valueAt_reach hv
      exact shows_ptr x hd.wf (valueAt_valid hd.wf hv a rfl) ((hc l e b hb).of_reach r)
    · have : ∃ s, sprint x 1 h v = some s := by
        cases v <;> first | exact absurd ⟨_, rfl⟩ hp | (simp only [sprint]; first | exact ⟨_, rfl⟩ | (split <;> exact ⟨_, rfl⟩))
      obtain ⟨s, e⟩ := this
      exact ⟨s, Or.inr ⟨hn, 1, (prints_iff ..).2 e⟩⟩

section Total

variable {S : Type} {own : S → List Param} {look : S → Str → Option S} {x : Ext} {lang : Option Language.Lang}

/-- Rendering ends: with a text or with a panic. -/
def Ends (own : S → List Param) (look : S → Str → Option S) (x : Ext) (lang : Option Language.Lang) (sc : S) (job : Job) (σ : Option (List Nat)) (h : Heap) : Prop :=
  (∃ h' s, RendersIn own look x lang sc job σ h h' s) ∨ BreaksIn own look x lang sc job σ h

theorem Ends.text {sc : S} {job : Job} {σ : Option (List Nat)} {h h' : Heap} {s : Str} (r : RendersIn own look x lang sc job σ h h' s) : Ends own look x lang sc job σ h :=
  Or.inl ⟨h', s, r⟩

theorem Ends.via {sc sc' : S} {job job' : Job} {σ σ' : Option (List Nat)} {h h' : Heap} (e : Ends own look x lang sc job σ h)
    (f : ∀ k s, RendersIn own look x lang sc job σ h k s → Ends own look x lang sc' job' σ' h') (g : BreaksIn own look x lang sc job σ h → BreaksIn own look x lang sc' job' σ' h') :
    Ends own look x lang sc' job' σ' h' := by
  rcases e with ⟨k, s, r⟩ | b
  · exact f k s r
  · exact Or.inr (g b)

/-- Rendering of the document ends with all data. -/
def Total (own : S → List Param) (look : S → Str → Option S) (x : Ext) (lang : Option Language.Lang) (sc : S) : Prop :=
  ∀ σ h, Ready h σ → NoCycle h σ → Ends own look x lang sc .document σ h

theorem total_choose {sc : S} {names : List Str} (ht : ∀ v ∈ names, ∀ sc', look sc v = some sc' → Total own look x lang sc') {σ : Option (List Nat)} {h : Heap}
    (hd : Ready h σ) (hc : NoCycle h σ) : Ends own look x lang sc (.choose names) σ h := by
  cases e : names.findSome? (look sc) with
  | none => exact .text (.noChoice e)
  | some sc' =>
    obtain ⟨v, hv, e'⟩ := List.exists_of_findSome?_eq_some e
    exact (ht v hv sc' e' σ h hd hc).via (fun _ _ r => .text (.chosen e r)) (.chosen e)

theorem total_loop {sc : S} {id : Str} {n : Nat} (ht : ∀ i, ∀ v ∈ rangeNames id i n, ∀ sc', look sc v = some sc' → Total own look x lang sc')
    {l : List Nat} {cl : Nat} : ∀ (q pre : List (Option Nat)) (h : Heap), Ready h (some l) → NoCycle h (some l) →
    (∀ a, some a ∈ q → Acyclic h a) → IsCollection h cl (pre ++ q) → Ends own look x lang sc (.loop id n pre.length q) (some l) h := by
  intro q
  induction q with
  | nil => intro pre h _ _ _ _; exact .text .loopEnd
  | cons o q ih =>
    intro pre h hd hc hac hcl
    cases o with
    | none => exact Or.inr .nilElement
    | some a =>
      have ha : IsDataset h a := hd.wf.elem _ _ a hcl (by simp)
      obtain ⟨t, w⟩ := wraps_exists hd.wf hd.wrapped a ha
      obtain ⟨m, hm⟩ := wraps_ds w
      have hs : SetCounter h a ((pre.length : Int) + 1) _ := ⟨t, m, w, hm, rfl⟩
      have sh := shape_counter hs
      have hlen := hd.short _ _ hcl
      simp only [List.length_append, List.length_cons] at hlen
      have hd1 := hd.shape (wf_counter hd.wf ⟨by omega, by omega⟩ hs) sh
      have hc1 := hc.shape sh
      refine (total_choose (ht pre.length) (hd1.push ((sh.isDataset a).2 ha)) (hc1.push (sh.acyclic (hac a (by simp))))).via (fun h2 s1 r1 => ?_) (.loopItem hs)
      have sh2 := renders_shape r1
      exact (ih (pre ++ [some a]) h2 (hd1.renders r1 trivial) (hc1.shape sh2) (fun b hb => sh2.acyclic (sh.acyclic (hac b (by simp [hb]))))
        (by simpa using ((sh.trans sh2).isCollection _ _).2 hcl)).via (fun _ _ r2 => .text (.loop hs r1 (by simpa using r2)))
        (fun b => .loopRest hs r1 (by simpa using b))

theorem total_elem {sc : S} {p : Param} (ht : ∀ v, Names p v → ∀ sc', look sc v = some sc' → Total own look x lang sc') {σ : Option (List Nat)}
    {h : Heap} (hd : Ready h σ) (hc : NoCycle h σ) : Ends own look x lang sc (.elem p) σ h := by
  obtain ⟨k, dt⟩ := p
  cases k with
  | string => exact .text .text
  | comment => exact .text .comment
  | language => exact .text .language
  | start => exact .text (.unknown trivial)
  | stop => exact .text (.unknown trivial)
  | unused => exact .text (.unknown trivial)
  | other n => exact .text (.unknown trivial)
  | «variable» =>
    obtain ⟨v, hv⟩ := valueAt_exists hd dt
    obtain ⟨s, hs⟩ := shows_exists x hd hc hv
    exact .text (.variable hv hs)
  | dump =>
    by_cases hk : dt = b!"dump" ∨ dt = b!"list"
    · cases σ with
      | none => exact .text (.dumpNothing (Or.inr rfl))
      | some l =>
        rcases List.eq_nil_or_concat l with rfl | ⟨l, a, rfl⟩
        · exact .text (.dumpEmpty hk)
        · have ha : a ∈ l.concat a := by simp
          obtain ⟨t, w⟩ := wraps_exists hd.wf hd.wrapped a (hd.data _ rfl a ha)
          obtain ⟨m, hm⟩ := wraps_ds w
          have reach : ∀ {b t : Nat}, Wraps h b t → Reach h b t := by
            intro b t w
            induction w with
            | plain => exact .refl
            | wrapper hb _ ih => exact .step (.wrapped hb) ih
          obtain ⟨_, s, e⟩ := sprint_total x hd.wf (lt_of_getElem? hm) ((hc _ rfl a ha).of_reach (reach w)) (d := 2 * h.length + 1) (by omega)
          exact .text (.dump hk (by simp) w ((goPrints_iff ..).2 e))
    · exact .text (.dumpNothing (Or.inl (by rw [not_or] at hk; exact hk)))
  | reference =>
    have hne := split_ne_nil' 58 dt
    have hpd : parts dt = split 58 dt := rfl
    generalize split 58 dt = xid at hne hpd
    have one : ∀ id rest, parts dt = id :: rest → rest.length ≠ 2 → ∀ v ∈ [id], ∀ sc', look sc v = some sc' → Total own look x lang sc' := by
      intro id rest e hl v hv
      simp at hv
      subst hv
      exact ht _ (.reference e hl)
    match xid, hne, hpd with
    | [id], _, hpd =>
      exact (total_choose (one id [] hpd (by simp)) hd hc).via (fun _ _ r => .text (.reference hpd (by simp) (by simp) r))
        (.reference hpd (by simp) (by simp))
    | id :: b :: c :: f :: rest, _, hpd =>
      exact (total_choose (one id _ hpd (by simp)) hd hc).via (fun _ _ r => .text (.reference hpd (by simp) (by simp) r))
        (.reference hpd (by simp) (by simp))
    | [id, key], _, hpd =>
      by_cases hlk : look sc id = none
      · exact .text (.referenceNone hpd hlk)
      · cases σ with
        | none => exact Or.inr (.dataForReference hpd hlk)
        | some l =>
          obtain ⟨v, hv⟩ := valueAt_exists hd key
          by_cases ha : ∃ a, v = .ptr a ∧ IsDataset h a
          · obtain ⟨a, rfl, ha⟩ := ha
            obtain ⟨l', b, e, hb, r⟩ := valueAt_reach hv
            exact (total_choose (one id [key] hpd (by simp)) (hd.push ha) (hc.push ((hc _ e b hb).of_reach r))).via
              (fun _ _ r => .text (.referenceWith hpd hlk hv ha r)) (.referenceWith hpd hlk hv ha)
          · exact (total_choose (one id [key] hpd (by simp)) hd hc).via
              (fun _ _ r => .text (.referenceWithout hpd hlk hv (fun a e ha' => ha ⟨a, e, ha'⟩) r))
              (.referenceWithout hpd hlk hv (fun a e ha' => ha ⟨a, e, ha'⟩))
    | [any, key, pre], _, hpd =>
      cases σ with
      | none => exact Or.inr (.dataForValue hpd)
      | some l =>
        obtain ⟨v, hv⟩ := valueAt_exists hd key
        obtain ⟨text, htx⟩ := shows_exists x hd hc hv
        refine (total_choose (sc := sc) (names := [pre ++ text, pre]) (by
          intro v hv
          simp only [List.mem_cons, List.not_mem_nil, or_false] at hv
          rcases hv with rfl | rfl
          · exact ht _ (.referenceValue hpd)
          · exact ht _ (by simpa using Names.referenceValue (text := []) hpd)) hd hc).via (fun _ _ r => .text (.referenceValue hpd hv htx r))
          (.referenceValue hpd hv htx)
  | range =>
    have htg := twoNames_target dt
    generalize (twoNames dt).1 = key at htg
    generalize (twoNames dt).2 = id at htg
    by_cases hno : look sc id = none ∨ σ = none
    · exact .text (.rangeNothing htg hno)
    · rw [not_or] at hno
      obtain ⟨hlk, hσ⟩ := hno
      cases σ with
      | none => exact absurd rfl hσ
      | some l =>
        obtain ⟨v, hv⟩ := valueAt_exists hd key
        by_cases hcol : ∃ c q, v = .ptr c ∧ IsCollection h c q ∧ q ≠ []
        · obtain ⟨c, q, rfl, hq, hne⟩ := hcol
          obtain ⟨l', b, e, hb, r⟩ := valueAt_reach hv
          have hac := (hc _ e b hb).of_reach r
          exact (total_loop (sc := sc) (id := id) (n := q.length) (fun i v hv => ht _ (.rangeItem htg hv)) q [] h hd hc
            (fun a ha => hac.of_reach (.step (.elem hq ha) .refl)) hq).via (fun _ _ r => .text (.range htg hlk hv hq hne r)) (.range htg hlk hv hq)
        · have hno : ∀ c q, v = .ptr c → IsCollection h c q → q = [] := by
            intro c q e hq
            by_cases hne : q = []
            · exact hne
            · exact absurd ⟨c, q, e, hq, hne⟩ hcol
          refine (total_choose (sc := sc) (names := [id ++ b!".none", id]) (by
            intro v hv
            simp only [List.mem_cons, List.not_mem_nil, or_false] at hv
            rcases hv with rfl | rfl
            · exact ht _ (.rangeNone htg)
            · exact ht _ (.range htg)) hd hc).via (fun _ _ r => .text (.rangeEmpty htg hlk hv hno r)) (.rangeEmpty htg hlk hv hno)
  | condition =>
    have htg := twoNames_target dt
    generalize (twoNames dt).1 = key at htg
    generalize (twoNames dt).2 = id at htg
    obtain ⟨v, hv⟩ := valueAt_exists hd key
    obtain ⟨text, htx⟩ := shows_exists x hd hc hv
    have two : ∀ suffix, suffix ≠ [] → ∀ v ∈ [id ++ b!"." ++ suffix, id], ∀ sc', look sc v = some sc' → Total own look x lang sc' := by
      intro suffix hsf v hv
      simp only [List.mem_cons, List.not_mem_nil, or_false] at hv
      rcases hv with rfl | rfl
      · exact ht _ (.conditionValue htg hsf)
      · exact ht _ (.condition htg)
    by_cases hte : text = []
    · subst hte
      exact (total_choose (sc := sc) (names := [id ++ b!".none", id]) (by simpa using two b!"none" (by decide)) hd hc).via
        (fun _ _ r => .text (.conditionNone htg hv htx r)) (.conditionNone htg hv htx)
    · by_cases hlk : look sc id = none
      · exact .text (.conditionNothing htg hv htx hte hlk)
      · by_cases ha : ∃ a, v = .ptr a ∧ IsDataset h a
        · obtain ⟨a, rfl, ha⟩ := ha
          obtain ⟨l, b, e, hb, r⟩ := valueAt_reach hv
          subst e
          have hac := (hc _ rfl b hb).of_reach r
          refine (total_choose (sc := sc) (names := [id ++ b!".array", id]) (by simpa using two b!"array" (by decide)) (hd.push ha) (hc.push hac)).via
            (fun h' s r => ?_) (.conditionDataset htg hv ha hlk)
          have sh := renders_shape r
          obtain ⟨text', htx'⟩ := shows_ptr x (hd.renders r trivial).wf (by rw [sh.len]; exact valueAt_valid hd.wf hv a rfl) (sh.acyclic hac)
          exact .text (.conditionDataset htg hv ha hlk r htx')
        · have hna : ∀ a, v = .ptr a → ¬ IsDataset h a := fun a e ha' => ha ⟨a, e, ha'⟩
          exact (total_choose (sc := sc) (names := [id ++ b!"." ++ text, id]) (two text hte) hd hc).via
            (fun _ _ r => .text (.conditionValue htg hv hna htx hte hlk r)) (.conditionValue htg hv hna htx hte hlk)

/-- Rendering ends, with a text or a panic, if there is no endless chain of calls. -/
theorem renders_total' {sc : S} (hacc : Acc (fun a b => CallsIn own look b a) sc) : Total own look x lang sc := by
  induction hacc with
  | intro sc _ ih =>
    intro σ h hd hc
    have body : ∀ (l : List Param), (∀ p ∈ l, p ∈ own sc) → ∀ h, Ready h σ → NoCycle h σ → Ends own look x lang sc (.body l) σ h := by
      intro l
      induction l with
      | nil => intro _ h _ _; exact .text .nil
      | cons p l ihl =>
        intro hl h hd hc
        refine (total_elem (x := x) (lang := lang) (p := p) (sc := sc) (fun v hv sc' e => ih sc' ⟨p, v, hl p (by simp), hv, e⟩) hd hc).via
          (fun h1 s1 r1 => ?_) .head
        exact (ihl (fun p hp => hl p (by simp [hp])) h1 (hd.renders r1 trivial) (hc.shape (renders_shape r1))).via (fun _ _ r2 => .text (.cons r1 r2))
          (.tail r1)
    exact (body (own sc) (fun p hp => hp) h hd hc).via (fun _ _ r => .text (.document r)) .document

end Total

/-- The same for documents. -/
theorem renders_total {x : Ext} {lang : Option Language.Lang} {sc : List Doc} (hacc : Acc (fun a b => Calls b a) sc) : Total innermost lookup x lang sc := by
  refine renders_total' ?_
  induction hacc with
  | intro sc _ ih =>
    refine ⟨_, fun sc' hc => ih sc' ?_⟩
    obtain ⟨p, v, hp, hv, e⟩ := hc
    cases sc with
    | nil => cases e
    | cons d up => exact ⟨d, up, p, v, rfl, hp, hv, e⟩

end Xcore.Template
