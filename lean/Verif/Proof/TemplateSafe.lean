import Verif.Proof.TemplateTotal

/-!
# Where rendering panics
-/

namespace Xcore.Template

open Xcore.Dataset

/-- If it panics, then `P`. -/
def Safe (P : Prop) {α : Type} (r : Res α) : Prop := r = .panic → P

theorem Safe.ok {P : Prop} {α : Type} (a : α) : Safe P (.ok a) := fun e => by cases e

theorem Safe.imp {P Q : Prop} {α : Type} {r : Res α} (h : Safe P r) (f : P → Q) : Safe Q r := fun e => f (h e)

theorem Safe.bind {P : Prop} {α β : Type} {r : Res α} {f : α → Res β} (h : Safe P r) (hf : ∀ a, r = .ok a → Safe P (f a)) : Safe P (r >>= f) := by
  cases r with
  | ok a => exact hf a rfl
  | panic => exact fun _ => h rfl
  | diverge => exact fun e => by cases e

theorem Safe.map {P : Prop} {α β : Type} {r : Res α} {f : α → β} (h : Safe P r) : Safe P (r.map f) := by
  cases r with
  | ok a => exact Safe.ok _
  | panic => exact fun _ => h rfl
  | diverge => exact fun e => by cases e

theorem safe_ofFuel {P : Prop} {α : Type} (o : Option α) : Safe P (ofFuel o) := by
  cases o <;> exact fun e => by cases e

section

variable {th : THeap} {S : Type} {own : S → List Param} {look : S → Str → Option S} {Z : View th own look} {x : Ext} {la : Option Nat} {lang : Option Language.Lang}
  {rec : Render}

/-- Calls of `rec` panic only where the specification says. -/
def SafeRec (Z : View th own look) (x : Ext) (la : Option Nat) (lang : Option Language.Lang) (rec : Render) : Prop :=
  ∀ t sc σ h, InView Z t sc → Ready h σ → LangIs h la lang → Safe (BreaksIn own look x lang sc .document σ h) (rec t ⟨h, stackOf σ⟩)

theorem safe_choose (hr : SafeRec Z x la lang rec) {t : Nat} {sc : S} (hi : InView Z t sc) {σ : Option (List Nat)} {h : Heap} (hd : Ready h σ)
    (hl : LangIs h la lang) (names : List Str) :
    Safe (BreaksIn own look x lang sc (.choose names) σ h) (renderOpt rec (names.findSome? (found th t)) ⟨h, stackOf σ⟩) := by
  have hf := hi.choose names
  generalize ea : names.findSome? (look sc) = a at hf
  generalize names.findSome? (found th t) = b at hf
  cases hf with
  | none => exact Safe.ok _
  | some hc =>
    exact (hr _ _ _ _ hc hd hl).imp (.chosen ea)

theorem safe_push (hr : SafeRec Z x la lang rec) (hsnd : SoundRec Z x la lang rec) {t : Nat} {sc : S} (hi : InView Z t sc) {l : List Nat} {h : Heap}
    (hd : Ready h (some l)) (hl : LangIs h la lang) {a : Nat} (ha : IsDataset h a) (names : List Str) {c : Nat} (hc : names.findSome? (found th t) = some c)
    {P : Prop} (hP : BreaksIn own look x lang sc (.choose names) (some (a :: l)) h → P) {β : Type} {f : St → Str → Res β}
    (hf : ∀ h' s, RendersIn own look x lang sc (.choose names) (some (a :: l)) h h' s → Safe P (f ⟨h', stackOf (some l)⟩ s)) :
    Safe P (pushSt ⟨h, stackOf (some l)⟩ (some a) >>= fun s => rec c s >>= fun r => popSt r.1 >>= fun s => f s r.2) := by
  rw [pushSt_stackOf, Res.bind_ok]
  have h1 := (safe_choose hr hi (hd.push ha) hl names).imp hP
  rw [hc] at h1
  refine h1.bind fun r e => ?_
  obtain ⟨h', q1, q2⟩ := sound_choose hsnd hi (hd.push ha) hl names (r := r) (by rw [hc]; exact e)
  rw [q1, popSt_stackOf, Res.bind_ok]
  exact hf h' r.2 q2

theorem safe_stackString {h : Heap} {l : List Nat} (hd : Ready h (some l)) (key : Str) {P : Prop} : Safe P (stackString x h (l.reverse.map some) key) := by
  obtain ⟨o, e, _⟩ := stackGet_value hd key
  unfold stackString
  rw [e, Res.bind_ok]
  match o with
  | none => exact Safe.ok _
  | some v => cases v <;> first | exact Safe.ok _ | exact safe_ofFuel _

theorem safe_reference (hr : SafeRec Z x la lang rec) (hsnd : SoundRec Z x la lang rec) {t : Nat} {sc : S} (hi : InView Z t sc)
    {σ : Option (List Nat)} {h : Heap} (hd : Ready h σ) (hl : LangIs h la lang) {d : Str} :
    Safe (BreaksIn own look x lang sc (.elem ⟨.reference, d⟩) σ h) (doReference x th rec t d ⟨h, stackOf σ⟩) := by
  have hne := split_ne_nil' 58 d
  have hpd : parts d = split 58 d := rfl
  unfold doReference
  generalize split 58 d = xid at hne hpd
  match xid, hne, hpd with
  | [id], _, hpd =>
    have := safe_choose hr hi hd hl [id]
    rw [← complete_reference (x := x) hi hpd (by simp) (by simp)] at this
    unfold doReference at this
    have hpd' : split 58 d = _ := hpd
    rw [hpd'] at this
    exact this.imp (.reference hpd (by simp) (by simp))
  | id :: b :: c :: f :: rest, _, hpd =>
    have := safe_choose hr hi hd hl [id]
    rw [← complete_reference (x := x) hi hpd (by simp) (by simp)] at this
    unfold doReference at this
    have hpd' : split 58 d = _ := hpd
    rw [hpd'] at this
    exact this.imp (.reference hpd (by simp) (by simp))
  | [id, key], _, hpd =>
    have hf := hi.found id
    simp only [List.headD_cons, hi.get, Res.bind_ok]
    cases ec : found th t id with
    | none => exact Safe.ok _
    | some c =>
      rw [ec] at hf
      have hlk : look sc id ≠ none := fun e => by simpa using hf.some_iff.1 e
      cases σ with
      | none => exact fun _ => .dataForReference hpd hlk
      | some l =>
        have hc : [id].findSome? (found th t) = some c := by simp [ec]
        obtain ⟨o, eo, hv⟩ := stackGet_value hd key
        have hv := (hv _).2 rfl
        simp only [stackOf, Option.map_some, eo, Res.bind_ok, bind_asDataset]
        cases ea : asDataset h (o.getD .nil) with
        | none =>
          have := safe_choose hr hi hd hl [id]
          rw [hc] at this
          exact this.imp (.referenceWithout hpd hlk hv (asDataset_none.1 ea))
        | some a =>
          obtain ⟨ev, ha⟩ := asDataset_some.1 ea
          rw [ev] at hv
          exact safe_push (f := fun s d => .ok (s, d)) hr hsnd hi hd hl ha [id] hc (.referenceWith hpd hlk hv ha) fun _ _ _ => Safe.ok _
  | [any, field, pre], _, hpd =>
    cases σ with
    | none => exact fun _ => .dataForValue hpd
    | some l =>
      simp only [stackOf, Option.map_some, hi.get, Res.bind_ok]
      refine (safe_stackString hd field).bind fun text e1 => ?_
      obtain ⟨v, hv, hs⟩ := (stackString_shows hd field text).1 e1
      have := (safe_choose hr hi hd hl [pre ++ text, pre]).imp (BreaksIn.referenceValue hpd hv hs)
      simp only [List.findSome?_cons, List.findSome?_nil] at this
      revert this
      cases found th t (pre ++ text) <;> cases found th t pre <;> exact fun e => e

theorem safe_loop (hr : SafeRec Z x la lang rec) (hsnd : SoundRec Z x la lang rec) {t : Nat} {sc : S} (hi : InView Z t sc) {id : Str} {c : Nat}
    (hid : found th t id = some c) {l : List Nat} {cl n : Nat} : ∀ (q pre : List (Option Nat)) (h : Heap), Ready h (some l) → LangIs h la lang →
    IsCollection h cl (pre ++ q) → Safe (BreaksIn own look x lang sc (.loop id n pre.length q) (some l) h) (rangeLoop th rec t id c cl n q.length pre.length ⟨h, stackOf (some l)⟩) := by
  intro q
  induction q with
  | nil => intro pre h _ _ _; exact Safe.ok _
  | cons o q ih =>
    intro pre h hd hl hc
    simp only [List.length_cons, rangeLoop]
    obtain ⟨c', e1, e2⟩ := pickRange_eq (g := found th t) hi.get hid pre.length n
    rw [e1, Res.bind_ok]
    cases o with
    | none => exact fun _ => .nilElement
    | some a =>
      have ha : IsDataset h a := hd.wf.elem _ _ a hc (by simp)
      obtain ⟨t', w⟩ := wraps_exists hd.wf hd.wrapped a ha
      obtain ⟨m, hm⟩ := wraps_ds w
      have hs : SetCounter h a ((pre.length : Int) + 1) _ := ⟨t', m, w, hm, rfl⟩
      have sh := shape_counter hs
      have hlen := hd.short _ _ hc
      simp only [List.length_append, List.length_cons] at hlen
      have hd1 := hd.shape (wf_counter hd.wf ⟨by omega, by omega⟩ hs) sh
      rw [colGetAt_of hc]
      simp only
      rw [(set_counter hd.wf).2 hs, Res.bind_ok]
      refine safe_push (f := fun s d => do let q ← rangeLoop th rec t id c cl n q.length (pre.length + 1) s; .ok (q.1, d ++ q.2))
        hr hsnd hi hd1 (hl.shape sh) ((sh.isDataset a).2 ha) _ e2 (.loopItem hs) fun h' s r => ?_
      have sh2 := sh.trans (renders_shape r)
      have := ih (pre ++ [some a]) h' (hd1.renders r trivial) (hl.shape sh2) (by simpa using (sh2.isCollection _ _).2 hc)
      rw [List.length_append] at this
      exact Safe.bind (this.imp fun b => .loopRest hs r (by simpa using b)) fun _ _ => Safe.ok _

theorem safe_range (hr : SafeRec Z x la lang rec) (hsnd : SoundRec Z x la lang rec) {t : Nat} {sc : S} (hi : InView Z t sc)
    {σ : Option (List Nat)} {h : Heap} (hd : Ready h σ) (hl : LangIs h la lang) (d : Str) :
    Safe (BreaksIn own look x lang sc (.elem ⟨.range, d⟩) σ h) (doRange th rec t d ⟨h, stackOf σ⟩) := by
  have ht := twoNames_target d
  unfold doRange
  simp only
  generalize (twoNames d).1 = key at ht
  generalize (twoNames d).2 = id at ht
  have hf := hi.found id
  simp only [hi.get, Res.bind_ok]
  cases ec : found th t id with
  | none => exact Safe.ok _
  | some c =>
    rw [ec] at hf
    have hlk : look sc id ≠ none := fun e => by simpa using hf.some_iff.1 e
    cases σ with
    | none => exact Safe.ok _
    | some l =>
      obtain ⟨o, eo, hv⟩ := stackGet_value hd key
      have hv := (hv _).2 rfl
      have none_case : (∀ c l, o.getD .nil = .ptr c → IsCollection h c l → l = []) →
          Safe (BreaksIn own look x lang sc (.elem ⟨.range, d⟩) (some l) h) (rec ((found th t (id ++ b!".none")).getD c) ⟨h, stackOf (some l)⟩) := by
        intro hno
        have := (safe_choose hr hi hd hl [id ++ b!".none", id]).imp (BreaksIn.rangeEmpty ht hlk hv hno)
        simp only [List.findSome?_cons, ec] at this
        revert this
        cases found th t (id ++ b!".none") <;> exact fun e => e
      simp only [stackOf, Option.map_some, eo, Res.bind_ok, bind_asCollection]
      cases ea : asCollection h (o.getD .nil) with
      | none => exact none_case fun c l e hc => absurd hc (asCollection_none.1 ea c e l)
      | some cl =>
        obtain ⟨ev, hc⟩ := asCollection_some.1 ea
        rw [ev] at hv
        simp only
        split
        · exact (safe_loop hr hsnd hi ec (elems h cl) [] h hd hl hc).imp (.range ht hlk hv hc)
        · next hpos =>
          refine none_case fun c l e hc' => ?_
          rw [ev] at e
          cases e
          rw [← elems_of hc']
          simpa [count] using hpos

theorem safe_none (hr : SafeRec Z x la lang rec) {t : Nat} {sc : S} (hi : InView Z t sc) {σ : Option (List Nat)} {h : Heap} (hd : Ready h σ)
    (hl : LangIs h la lang) (id : Str) (b : Bool) {P : Prop} (hP : b = true → BreaksIn own look x lang sc (.choose [id ++ b!".none", id]) σ h → P) :
    Safe P (condNone th rec t id (found th t id) b ⟨h, stackOf σ⟩) := by
  cases b with
  | false => exact Safe.ok _
  | true => rw [complete_none hi]; exact (safe_choose hr hi hd hl _).imp (hP rfl)

theorem safe_condition (hr : SafeRec Z x la lang rec) (hsnd : SoundRec Z x la lang rec) {t : Nat} {sc : S} (hi : InView Z t sc)
    {σ : Option (List Nat)} {h : Heap} (hd : Ready h σ) (hl : LangIs h la lang) (d : Str) :
    Safe (BreaksIn own look x lang sc (.elem ⟨.condition, d⟩) σ h) (doCondition x th rec t d ⟨h, stackOf σ⟩) := by
  have ht := twoNames_target d
  unfold doCondition
  simp only
  generalize (twoNames d).1 = key at ht
  generalize (twoNames d).2 = id at ht
  obtain ⟨v, ev, hv, _⟩ := condGet_value hd key
  have hf := hi.found id
  simp only [hi.get, Res.bind_ok, ev]
  by_cases hn : v = .nil
  · rw [if_pos hn]; exact safe_none hr hi hd hl id true fun _ => .conditionNone ht hv (by rw [hn]; exact shows_nil.2 rfl)
  · rw [if_neg hn]
    cases ec : found th t id with
    | none =>
      refine (safe_ofFuel _).bind fun sv e1 => ?_
      have hs := (shows_iff hd.wf hn).2 (ofFuel_ok.1 e1)
      have := safe_none hr hi hd hl id sv.isEmpty (P := BreaksIn own look x lang sc (.elem ⟨.condition, d⟩) σ h) fun e =>
        .conditionNone ht hv (by rw [List.isEmpty_iff] at e; rw [← e]; exact hs)
      rw [ec] at this
      exact this
    | some c =>
      rw [ec] at hf
      have hlk : look sc id ≠ none := fun e => by simpa using hf.some_iff.1 e
      simp only
      unfold condValue
      simp only
      cases ea : asDataset h v with
      | some a =>
        obtain ⟨rfl, ha⟩ := asDataset_some.1 ea
        cases σ with
        | none => cases hv
        | some l =>
          have hch : [id ++ b!".array", id].findSome? (found th t) = some ((found th t (id ++ b!"." ++ b!"array")).getD c) := by
            simp only [List.findSome?_cons, ec]
            have : id ++ b!"." ++ b!"array" = id ++ b!".array" := by simp
            rw [this]
            cases found th t (id ++ b!".array") <;> rfl
          simp only [hi.get, Res.bind_ok]
          have hsafe := safe_push (f := fun s d => .ok (s, d, (found th t (id ++ b!"." ++ b!"array")).getD c)) hr hsnd hi hd hl ha _ hch
            (BreaksIn.conditionDataset ht hv ha hlk) (fun _ _ _ => Safe.ok _)
          refine hsafe.bind fun p e1 => ?_
          obtain ⟨h', s, q1, q2⟩ := sound_push (f := fun s d => .ok (s, d, (found th t (id ++ b!"." ++ b!"array")).getD c)) hsnd hi hd hl ha _ hch e1
          cases q2
          refine (safe_ofFuel _).bind fun sv e3 => ?_
          have hd' := hd.renders q1 trivial
          have hne := shows_dataset_ne hd'.wf (((renders_shape q1).isDataset a).2 ha) ((shows_iff hd'.wf hn).2 (ofFuel_ok.1 e3))
          cases sv with
          | nil => exact absurd rfl hne
          | cons b sv => exact Safe.ok _
      | none =>
        have hna := asDataset_none.1 ea
        refine Safe.bind ?_ fun p e1 => ?_
        · refine (safe_ofFuel _).bind fun sv e1 => ?_
          have hs := (shows_iff hd.wf hn).2 (ofFuel_ok.1 e1)
          by_cases hte : sv = []
          · rw [if_neg (by simp [hte])]; exact Safe.ok _
          · rw [if_pos hte, hi.get, Res.bind_ok]
            refine Safe.bind ?_ fun _ _ => Safe.ok _
            have := (safe_choose hr hi hd hl [id ++ b!"." ++ sv, id]).imp (BreaksIn.conditionValue ht hv hna hs hte hlk)
            simp only [List.findSome?_cons, ec] at this
            revert this
            cases found th t (id ++ b!"." ++ sv) <;> exact fun e => e
        · refine (safe_ofFuel _).bind fun sv e3 => ?_
          refine Safe.bind ?_ fun _ _ => Safe.ok _
          simp only at e1
          rw [Res.bind_eq_ok] at e1
          obtain ⟨text, e4, e5⟩ := e1
          have hsh := (shows_iff hd.wf hn).2 (ofFuel_ok.1 e4)
          by_cases hte : text = []
          · rw [if_neg (by simp [hte])] at e5
            cases e5
            subst hte
            have := safe_none hr hi hd hl id sv.isEmpty (P := BreaksIn own look x lang sc (.elem ⟨.condition, d⟩) σ h) fun _ => .conditionNone ht hv hsh
            rw [ec] at this
            exact this
          · rw [if_pos hte, hi.get, Res.bind_ok, Res.bind_eq_ok] at e5
            obtain ⟨q, e6, e7⟩ := e5
            cases e7
            obtain ⟨h', q1, q2⟩ := sound_choose hsnd hi hd hl [id ++ b!"." ++ text, id] (r := q) (by
              rw [← e6]
              simp only [List.findSome?_cons, ec]
              cases found th t (id ++ b!"." ++ text) <;> rfl)
            have hd' := hd.renders q2 trivial
            obtain ⟨s', hs', hemp⟩ := shows_shape hd.wf hd'.wf (renders_shape q2) hsh
            simp only [q1] at e3
            rw [ofFuel_ok, ← shows_iff hd'.wf hn] at e3
            cases shows_det e3 hs'
            cases sv with
            | nil => exact absurd (hemp.1 rfl) hte
            | cons b sv => exact Safe.ok _

theorem safe_item (hr : SafeRec Z x la lang rec) (hsnd : SoundRec Z x la lang rec) {t : Nat} {sc : S} (hi : InView Z t sc)
    {σ : Option (List Nat)} {h : Heap} (hd : Ready h σ) (hl : LangIs h la lang) {p : Param} :
    Safe (BreaksIn own look x lang sc (.elem p) σ h) (injectItem x th la rec t p ⟨h, stackOf σ⟩) := by
  obtain ⟨k, d⟩ := p
  cases k with
  | reference => exact safe_reference hr hsnd hi hd hl
  | range => exact safe_range hr hsnd hi hd hl d
  | condition => exact safe_condition hr hsnd hi hd hl d
  | language =>
    simp only [injectItem]
    cases la with
    | none => exact Safe.ok _
    | some a =>
      cases lang with
      | none => cases hl
      | some l =>
        simp only [LangIs] at hl
        simp only [hl]
        exact Safe.ok _
  | «variable» =>
    simp only [injectItem]
    cases σ with
    | none => exact Safe.ok _
    | some l => exact (safe_stackString hd d).map
  | dump =>
    simp only [injectItem, doDump]
    cases σ with
    | none => exact Safe.ok _
    | some l =>
      simp only [stackOf, Option.map_some]
      split
      · rcases List.eq_nil_or_concat l with rfl | ⟨l, a, rfl⟩
        · exact Safe.ok _
        · have : colGet ((l.concat a).reverse.map some) 0 = some (some a) := by
            unfold colGet
            rw [if_neg (by simp)]
            simp
          rw [this]
          simp only
          obtain ⟨t', w⟩ := wraps_exists hd.wf hd.wrapped a (hd.data _ rfl a (by simp))
          simp only [dsGoString, (target_iff hd.wf).2 w]
          exact (safe_ofFuel _).map
      · exact Safe.ok _
  | _ => exact Safe.ok _

theorem safe_injector : ∀ n, SafeRec Z x la lang (injector x th la n) := by
  intro n
  induction n with
  | zero => intro t sc σ h _ _ _ e; cases e
  | succ n ih =>
    intro t sc σ h hi hd hl
    rw [hi.injector]
    have hsnd := sound_injector (Z := Z) (x := x) (la := la) (lang := lang) n
    have body : ∀ (l : List Param), ∀ h, Ready h σ → LangIs h la lang →
        Safe (BreaksIn own look x lang sc (.body l) σ h) (injectAll (injectItem x th la (injector x th la n) t) l ⟨h, stackOf σ⟩) := by
      intro l
      induction l with
      | nil => intro h _ _; exact Safe.ok _
      | cons p l ihl =>
        intro h hd hl
        simp only [injectAll]
        refine ((safe_item ih hsnd hi hd hl).imp .head).bind fun r e => ?_
        obtain ⟨h1, q1, q2⟩ := sound_item hsnd hi hd hl e
        rw [q1]
        exact ((ihl h1 (hd.renders q2 trivial) (hl.shape (renders_shape q2))).imp (.tail q2)).bind fun _ _ => Safe.ok _
    exact (body (own sc) h hd hl).imp .document

end

/-- `Execute` panics only where the specification says. -/
theorem execute_panic' {th : THeap} {S : Type} {own : S → List Param} {look : S → Str → Option S} {Z : View th own look}
    {x : Ext} {t : Nat} {sc : S} {h : Heap} {data : Option Nat} (hi : InView Z t sc) (hp : Proper h data) (n : Nat) :
    Safe (ExecuteBreaksIn own look x sc data h) (execute x th n t h data) := by
  cases data with
  | none => exact ((safe_injector n _ _ none _ hi hp.ready_nil (by trivial : LangIs h none none)).imp .nil).bind fun _ _ => Safe.ok _
  | some a =>
    obtain ⟨l, el, hl⟩ := langOf_iff (hp.data a rfl) hp.wf hp.wrapped
    simp only [execute, el, Res.bind_ok]
    have : ∃ lang, LangIs h (langOf h l) lang := by
      cases e : langOf h l with
      | none => exact ⟨none, trivial⟩
      | some b =>
        unfold langOf at e
        split at e
        · split at e
          · next l' hbl => cases e; exact ⟨some l', hbl⟩
          · cases e
        · cases e
    obtain ⟨lang, hlang⟩ := this
    exact ((safe_injector n _ _ (some [a]) _ hi hp.ready hlang).imp (.data ((hl _).2 hlang))).bind fun _ _ => Safe.ok _

theorem execute_panic {x : Ext} {th : THeap} {t : Nat} {d : Doc} {h : Heap} {data : Option Nat} (hi : InScope th t [d]) (hp : Proper h data) (n : Nat) :
    Safe (ExecuteBreaks x d data h) (execute x th n t h data) := execute_panic' hi.view hp n

end Xcore.Template
