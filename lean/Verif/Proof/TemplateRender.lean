import Verif.Proof.TemplateData

/-!
# Rendering refines its specification
-/

namespace Xcore.Template

open Xcore.Dataset

/-! ## Memory -/

theorem renders_shape {S : Type} {own : S → List Param} {look : S → Str → Option S} {x : Ext} {lang : Option Language.Lang} {sc : S} {job : Job} {σ : Option (List Nat)} {h h' : Heap} {s : Str}
    (r : RendersIn own look x lang sc job σ h h' s) : Shape h h' := by
  induction r with
  | document _ ih => exact ih
  | cons _ _ ih1 ih2 => exact ih1.trans ih2
  | chosen _ _ ih => exact ih
  | reference _ _ _ _ ih => exact ih
  | referenceWith _ _ _ _ _ ih => exact ih
  | referenceWithout _ _ _ _ _ ih => exact ih
  | referenceValue _ _ _ _ ih => exact ih
  | rangeEmpty _ _ _ _ _ ih => exact ih
  | range _ _ _ _ _ _ ih => exact ih
  | loop hc _ _ ih1 ih2 => exact ((shape_counter hc).trans ih1).trans ih2
  | conditionNone _ _ _ _ ih => exact ih
  | conditionValue _ _ _ _ _ _ _ ih => exact ih
  | conditionDataset _ _ _ _ _ _ ih => exact ih
  | _ => exact .refl _

/-- The counters of the loop that is running are ints. -/
def Job.Fits : Job → Prop
  | .loop _ _ i l => (i : Int) + l.length < 2 ^ 63
  | _ => True

theorem renders_wf {S : Type} {own : S → List Param} {look : S → Str → Option S} {x : Ext} {lang : Option Language.Lang} {sc : S} {job : Job} {σ : Option (List Nat)} {h h' : Heap} {s : Str}
    (r : RendersIn own look x lang sc job σ h h' s) : WF h → Short h → job.Fits → WF h' := by
  induction r with
  | document _ ih => exact fun w s _ => ih w s trivial
  | cons r1 _ ih1 ih2 => exact fun w s _ => ih2 (ih1 w s trivial) ((renders_shape r1).short s) trivial
  | chosen _ _ ih => exact fun w s _ => ih w s trivial
  | reference _ _ _ _ ih => exact fun w s _ => ih w s trivial
  | referenceWith _ _ _ _ _ ih => exact fun w s _ => ih w s trivial
  | referenceWithout _ _ _ _ _ ih => exact fun w s _ => ih w s trivial
  | referenceValue _ _ _ _ ih => exact fun w s _ => ih w s trivial
  | rangeEmpty _ _ _ _ _ ih => exact fun w s _ => ih w s trivial
  | range _ _ _ hc _ _ ih => exact fun w s _ => ih w s (by have := s _ _ hc; simpa [Job.Fits] using this)
  | loop hc r1 _ ih1 ih2 =>
    intro w s f
    simp only [Job.Fits, List.length_cons] at f
    have w1 := wf_counter w ⟨by omega, by omega⟩ hc
    have s1 := (shape_counter hc).short s
    exact ih2 (ih1 w1 s1 trivial) ((renders_shape r1).short s1) (by simp only [Job.Fits]; omega)
  | conditionNone _ _ _ _ ih => exact fun w s _ => ih w s trivial
  | conditionValue _ _ _ _ _ _ _ ih => exact fun w s _ => ih w s trivial
  | conditionDataset _ _ _ _ _ _ ih => exact fun w s _ => ih w s trivial
  | _ => exact fun w _ _ => w

theorem Ready.shape {h h' : Heap} {σ : Option (List Nat)} (r : Ready h σ) (w : WF h') (s : Shape h h') : Ready h' σ :=
  ⟨w, s.wrapped r.wrapped, s.short r.short, fun l e a ha => (s.isDataset a).2 (r.data l e a ha)⟩

theorem Ready.renders {S : Type} {own : S → List Param} {look : S → Str → Option S} {x : Ext} {lang : Option Language.Lang} {sc : S} {job : Job} {σ τ : Option (List Nat)} {h h' : Heap} {s : Str}
    (r : Ready h σ) (q : RendersIn own look x lang sc job τ h h' s) (f : job.Fits) : Ready h' σ :=
  r.shape (renders_wf q r.wf r.short f) (renders_shape q)

theorem LangIs.shape {h h' : Heap} {la : Option Nat} {lang : Option Language.Lang} (e : LangIs h la lang) (s : Shape h h') : LangIs h' la lang := by
  unfold LangIs at *
  cases la <;> cases lang <;> simp only at * <;> first | exact e | exact (s.lang _ _).2 e

/-! ## Lookup -/

/-- The templates in memory seen as places: `rel t sc` says that the template at address `t` is the place `sc`. -/
structure View (th : THeap) {S : Type} (own : S → List Param) (look : S → Str → Option S) where
  rel : Nat → S → Prop
  lookup : ∀ {t : Nat} {sc : S}, rel t sc → ∀ v, match look sc v with
    | none => getTemplate th t v = .ok none
    | some sc' => ∃ c, getTemplate th t v = .ok (some c) ∧ rel c sc'
  root : ∀ {t : Nat} {sc : S}, rel t sc → ∃ o, th[t]? = some o ∧
    (o.root = some (own sc) ∨ o.root = none ∧ own sc = [⟨.string, b!"Error, no template.Root compiled"⟩])

/-- The template is the place. -/
def InView {th : THeap} {S : Type} {own : S → List Param} {look : S → Str → Option S} (Z : View th own look) (t : Nat) (sc : S) : Prop := Z.rel t sc

section Lookup

variable {th : THeap} {S : Type} {own : S → List Param} {look : S → Str → Option S} {Z : View th own look}

/-- A template found and the place it stands for. -/
inductive Found (Z : View th own look) : Option S → Option Nat → Prop where
  | none : Found Z none none
  | some {sc : S} {c : Nat} : InView Z c sc → Found Z (some sc) (some c)

/-- The template found under a name. -/
def found (th : THeap) (t : Nat) (v : Str) : Option Nat :=
  match getTemplate th t v with
  | .ok o => o
  | _ => none

theorem InView.get {t : Nat} {sc : S} (h : InView Z t sc) (v : Str) : getTemplate th t v = .ok (found th t v) := by
  have := Z.lookup h v
  unfold found
  cases e : look sc v with
  | none => rw [e] at this; simp only at this; rw [this]
  | some sc' => rw [e] at this; obtain ⟨c, e', _⟩ := this; rw [e']

theorem InView.found {t : Nat} {sc : S} (h : InView Z t sc) (v : Str) : Found Z (look sc v) (found th t v) := by
  have := Z.lookup h v
  unfold Template.found
  cases e : look sc v with
  | none => rw [e] at this; simp only at this; rw [this]; exact .none
  | some sc' => rw [e] at this; obtain ⟨c, e', i⟩ := this; rw [e']; exact .some i

theorem InView.choose {t : Nat} {sc : S} (h : InView Z t sc) (names : List Str) :
    Found Z (names.findSome? (look sc)) (names.findSome? (Template.found th t)) := by
  induction names with
  | nil => exact .none
  | cons v names ih =>
    have := h.found v
    rw [List.findSome?_cons, List.findSome?_cons]
    generalize look sc v = a at this
    generalize Template.found th t v = b at this
    cases this with
    | none => exact ih
    | some i => exact .some i

theorem Found.some_iff {a : Option S} {b : Option Nat} (f : Found Z a b) : a = Option.none ↔ b = Option.none := by
  cases f <;> simp

theorem InView.some_of {t : Nat} {sc : S} (hi : InView Z t sc) {id : Str} (h : look sc id ≠ none) : ∃ c, Template.found th t id = some c := by
  have := hi.found id
  cases e : Template.found th t id with
  | none => rw [e] at this; exact absurd (this.some_iff.2 rfl) h
  | some c => exact ⟨c, rfl⟩

/-- Rendering of the template is rendering of the elements of its place. -/
theorem InView.injector {t : Nat} {sc : S} (hi : InView Z t sc) (x : Ext) (la : Option Nat) (n : Nat) (st : St) :
    injector x th la (n + 1) t st = injectAll (injectItem x th la (Template.injector x th la n) t) (own sc) st := by
  obtain ⟨o, ho, hr⟩ := Z.root hi
  rcases hr with hr | ⟨hr, e⟩
  · simp only [Template.injector, ho, hr]
  · simp only [Template.injector, ho, hr, e, injectAll, injectItem]
    rfl

end Lookup

theorem pickRange_eq {th : THeap} {t : Nat} {g : Str → Option Nat} (hg : ∀ v, getTemplate th t v = .ok (g v)) {id : Str} {c : Nat} (hc : g id = some c)
    (i n : Nat) : ∃ c', pickRange th t id c i n = .ok c' ∧ (rangeNames id i n).findSome? g = some c' := by
  unfold pickRange
  simp only [hg, Res.bind_ok]
  have step : ∀ (o : Option Nat) (b : Prop) [Decidable b] (v : Str) (l : List Str),
      (if o = none ∧ b then Res.ok (g v) else .ok o) = .ok (o.or ((if b then [v] else []).findSome? g)) := by
    intro o b _ v l
    cases o <;> by_cases hb : b <;> simp [hb]
  simp only [step _ _ _ [], Res.bind_ok]
  refine ⟨_, rfl, ?_⟩
  simp only [rangeNames, List.findSome?_append, List.findSome?_cons, List.findSome?_nil, hc]
  generalize (if i = 0 then [_] else []).findSome? g = o1
  generalize (if i + 1 = n then [_] else []).findSome? g = o2
  generalize (if i % 2 = 0 then [_] else []).findSome? g = o3
  cases g (id ++ b!".key." ++ itoa i) <;> cases o1 <;> cases o2 <;> cases o3 <;> rfl

/-! ## From the code to the specification -/

section Sound

variable {th : THeap} {S : Type} {own : S → List Param} {look : S → Str → Option S} {Z : View th own look} {x : Ext} {la : Option Nat} {lang : Option Language.Lang}
  {rec : Render}

/-- The outcome is one the specification allows. -/
def Out (own : S → List Param) (look : S → Str → Option S) (x : Ext) (lang : Option Language.Lang) (sc : S) (job : Job) (σ : Option (List Nat)) (h : Heap) (r : St × Str) : Prop :=
  ∃ h', r.1 = ⟨h', stackOf σ⟩ ∧ RendersIn own look x lang sc job σ h h' r.2

/-- Calls of `rec` give what the specification says. -/
def SoundRec (Z : View th own look) (x : Ext) (la : Option Nat) (lang : Option Language.Lang) (rec : Render) : Prop :=
  ∀ t sc σ h r, InView Z t sc → Ready h σ → LangIs h la lang → rec t ⟨h, stackOf σ⟩ = .ok r → Out own look x lang sc .document σ h r

theorem sound_choose (hr : SoundRec Z x la lang rec) {t : Nat} {sc : S} (hi : InView Z t sc) {σ : Option (List Nat)} {h : Heap} (hd : Ready h σ)
    (hl : LangIs h la lang) (names : List Str) {r : St × Str} (e : renderOpt rec (names.findSome? (found th t)) ⟨h, stackOf σ⟩ = .ok r) :
    Out own look x lang sc (.choose names) σ h r := by
  have hf := hi.choose names
  generalize ea : names.findSome? (look sc) = a at hf
  generalize names.findSome? (found th t) = b at hf e
  cases hf with
  | none => cases e; exact ⟨h, rfl, .noChoice ea⟩
  | some hc =>
    obtain ⟨h', e1, e2⟩ := hr _ _ _ _ _ hc hd hl e
    exact ⟨h', e1, .chosen ea e2⟩

/-- As `sound_choose`, with a further dataset on the stack. -/
theorem sound_push (hr : SoundRec Z x la lang rec) {t : Nat} {sc : S} (hi : InView Z t sc) {l : List Nat} {h : Heap} (hd : Ready h (some l))
    (hl : LangIs h la lang) {a : Nat} (ha : IsDataset h a) (names : List Str) {c : Nat} (hc : names.findSome? (found th t) = some c) {β : Type}
    {f : St → Str → Res β} {b : β}
    (e : (pushSt ⟨h, stackOf (some l)⟩ (some a) >>= fun s => rec c s >>= fun r => popSt r.1 >>= fun s => f s r.2) = .ok b) :
    ∃ h' s, RendersIn own look x lang sc (.choose names) (some (a :: l)) h h' s ∧ f ⟨h', stackOf (some l)⟩ s = .ok b := by
  rw [pushSt_stackOf, Res.bind_ok, Res.bind_eq_ok] at e
  obtain ⟨r, e1, e2⟩ := e
  have hs := sound_choose hr hi (hd.push ha) hl names (r := r) (by rw [hc]; exact e1)
  obtain ⟨h', q1, q2⟩ := hs
  rw [q1, popSt_stackOf, Res.bind_ok] at e2
  exact ⟨h', r.2, q2, e2⟩

theorem valueAt_stack {h : Heap} {l : List Nat} (hd : Ready h (some l)) (key : Str) {β : Type} {f : Option Val → Res β} {b : β}
    (e : (stackGet h (l.reverse.map some) key >>= f) = .ok b) : ∃ o, ValueAt h (some l) key (o.getD .nil) ∧ f o = .ok b := by
  obtain ⟨o, e1, hv⟩ := stackGet_value hd key
  rw [e1, Res.bind_ok] at e
  exact ⟨o, (hv _).2 rfl, e⟩

theorem bind_asDataset {h : Heap} {o : Option Val} : o.bind (asDataset h) = asDataset h (o.getD .nil) := by
  cases o with
  | none => rfl
  | some v => rfl

theorem bind_asCollection {h : Heap} {o : Option Val} : o.bind (asCollection h) = asCollection h (o.getD .nil) := by
  cases o with
  | none => rfl
  | some v => rfl

theorem sound_reference (hr : SoundRec Z x la lang rec) {t : Nat} {sc : S} (hi : InView Z t sc) {σ : Option (List Nat)} {h : Heap}
    (hd : Ready h σ) (hl : LangIs h la lang) {d : Str} {r : St × Str} (e : doReference x th rec t d ⟨h, stackOf σ⟩ = .ok r) :
    Out own look x lang sc (.elem ⟨.reference, d⟩) σ h r := by
  have hne := split_ne_nil' 58 d
  have hp : parts d = split 58 d := rfl
  unfold doReference at e
  generalize split 58 d = xid at hp hne e
  match xid, hne, hp, e with
  | [id], _, hp, e =>
    simp only [List.headD_cons, hi.get, Res.bind_ok] at e
    obtain ⟨h', q1, q2⟩ := sound_choose hr hi hd hl [id] (r := r) (by
      rw [← e]
      simp only [List.findSome?_cons, List.findSome?_nil]
      cases found th t id <;> rfl)
    exact ⟨h', q1, .reference hp (by simp) (by simp) q2⟩
  | [id, key], _, hp, e =>
    simp only [List.headD_cons, hi.get, Res.bind_ok] at e
    have hf := hi.found id
    cases ec : found th t id with
    | none =>
      rw [ec] at hf e
      cases e
      exact ⟨h, rfl, .referenceNone hp (hf.some_iff.2 rfl)⟩
    | some c =>
      rw [ec] at hf e
      have hlk : look sc id ≠ none := fun e => by simpa using hf.some_iff.1 e
      have hc : [id].findSome? (found th t) = some c := by simp [ec]
      cases σ with
      | none => cases e
      | some l =>
        simp only [stackOf, Option.map_some] at e
        obtain ⟨o, hv, e⟩ := valueAt_stack hd key e
        rw [bind_asDataset] at e
        cases ea : asDataset h (o.getD .nil) with
        | none =>
          rw [ea] at e
          obtain ⟨h', q1, q2⟩ := sound_choose hr hi hd hl [id] (r := r) (by rw [hc]; exact e)
          exact ⟨h', q1, .referenceWithout hp hlk hv (asDataset_none.1 ea) q2⟩
        | some a =>
          rw [ea] at e
          obtain ⟨ev, ha⟩ := asDataset_some.1 ea
          obtain ⟨h', s, q1, q2⟩ := sound_push (f := fun s d => .ok (s, d)) hr hi hd hl ha [id] hc e
          cases q2
          rw [ev] at hv
          exact ⟨h', rfl, .referenceWith hp hlk hv ha q1⟩
  | [any, field, pre], _, hp, e =>
    cases σ with
    | none => cases e
    | some l =>
      simp only [stackOf, Option.map_some, hi.get, Res.bind_ok] at e
      rw [Res.bind_eq_ok] at e
      obtain ⟨value, e1, e2⟩ := e
      obtain ⟨v, hv, hs⟩ := (stackString_shows hd field value).1 e1
      have e3 : renderOpt rec ([pre ++ value, pre].findSome? (found th t)) ⟨h, stackOf (some l)⟩ = .ok r := by
        rw [← e2]
        simp only [List.findSome?_cons, List.findSome?_nil]
        cases found th t (pre ++ value) <;> cases found th t pre <;> rfl
      obtain ⟨h', q1, q2⟩ := sound_choose hr hi hd hl _ e3
      exact ⟨h', q1, .referenceValue hp hv hs q2⟩
  | id :: b :: c :: f :: rest, _, hp, e =>
    simp only [List.headD_cons, hi.get, Res.bind_ok] at e
    obtain ⟨h', q1, q2⟩ := sound_choose hr hi hd hl [id] (r := r) (by
      rw [← e]
      simp only [List.findSome?_cons, List.findSome?_nil]
      cases found th t id <;> rfl)
    exact ⟨h', q1, .reference hp (by simp) (by simp) q2⟩

theorem colGetAt_of {h : Heap} {cl : Nat} {pre l : List (Option Nat)} {o : Option Nat} (hc : IsCollection h cl (pre ++ o :: l)) :
    colGetAt h cl (pre.length : Int) = some o := by
  unfold colGetAt
  rw [elems_of hc]
  unfold colGet
  rw [if_neg (by simp only [List.length_append, List.length_cons]; omega)]
  simp

theorem sound_loop (hr : SoundRec Z x la lang rec) {t : Nat} {sc : S} (hi : InView Z t sc) {id : Str} {c : Nat} (hid : found th t id = some c)
    {l : List Nat} {cl n : Nat} : ∀ (q pre : List (Option Nat)) (h : Heap) (r : St × Str), Ready h (some l) → LangIs h la lang →
    IsCollection h cl (pre ++ q) → rangeLoop th rec t id c cl n q.length pre.length ⟨h, stackOf (some l)⟩ = .ok r →
    Out own look x lang sc (.loop id n pre.length q) (some l) h r := by
  intro q
  induction q with
  | nil =>
    intro pre h r _ _ _ e
    cases e
    exact ⟨h, rfl, .loopEnd⟩
  | cons o q ih =>
    intro pre h r hd hl hc e
    simp only [List.length_cons, rangeLoop] at e
    obtain ⟨c', e1, e2⟩ := pickRange_eq (g := found th t) hi.get hid pre.length n
    rw [e1, Res.bind_ok] at e
    cases o with
    | none => rw [colGetAt_of hc] at e; cases e
    | some a =>
      rw [colGetAt_of hc] at e
      simp only at e
      rw [Res.bind_eq_ok] at e
      obtain ⟨h1, es, e⟩ := e
      have hs := (set_counter hd.wf).1 es
      have hcl := hd.short _ _ hc
      simp only [List.length_append, List.length_cons] at hcl
      have hd1 := hd.shape (wf_counter hd.wf ⟨by omega, by omega⟩ hs) (shape_counter hs)
      have ha : IsDataset h1 a := ((shape_counter hs).isDataset a).2 (hd.wf.elem _ _ a hc (by simp))
      obtain ⟨h2, s1, q1, e⟩ := sound_push (f := fun s d => do let q ← rangeLoop th rec t id c cl n q.length (pre.length + 1) s; .ok (q.1, d ++ q.2))
        hr hi hd1 (hl.shape (shape_counter hs)) ha _ e2 e
      have sh2 := (shape_counter hs).trans (renders_shape q1)
      rw [Res.bind_eq_ok] at e
      obtain ⟨r2, e3, e4⟩ := e
      have := ih (pre ++ [some a]) h2 r2 (hd1.renders q1 trivial) (hl.shape sh2) (by simpa using (sh2.isCollection _ _).2 hc) (by simpa using e3)
      obtain ⟨h3, q2, q3⟩ := this
      cases e4
      exact ⟨h3, q2, .loop hs q1 (by simpa using q3)⟩

theorem sound_range (hr : SoundRec Z x la lang rec) {t : Nat} {sc : S} (hi : InView Z t sc) {σ : Option (List Nat)} {h : Heap}
    (hd : Ready h σ) (hl : LangIs h la lang) {d : Str} {r : St × Str} (e : doRange th rec t d ⟨h, stackOf σ⟩ = .ok r) :
    Out own look x lang sc (.elem ⟨.range, d⟩) σ h r := by
  have ht := twoNames_target d
  unfold doRange at e
  simp only at e
  generalize (twoNames d).1 = key at ht e
  generalize (twoNames d).2 = id at ht e
  simp only [hi.get, Res.bind_ok] at e
  have hf := hi.found id
  cases ec : found th t id with
  | none =>
    rw [ec] at hf e
    cases e
    exact ⟨h, rfl, .rangeNothing ht (Or.inl (hf.some_iff.2 rfl))⟩
  | some c =>
    rw [ec] at hf e
    have hlk : look sc id ≠ none := fun e => by simpa using hf.some_iff.1 e
    cases σ with
    | none => cases e; exact ⟨h, rfl, .rangeNothing ht (Or.inr rfl)⟩
    | some l =>
      simp only [stackOf, Option.map_some] at e
      obtain ⟨o, hv, e⟩ := valueAt_stack hd key e
      have none_case : (∀ c l, o.getD .nil = .ptr c → IsCollection h c l → l = []) →
          rec ((found th t (id ++ b!".none")).getD c) ⟨h, stackOf (some l)⟩ = .ok r → Out own look x lang sc (.elem ⟨.range, d⟩) (some l) h r := by
        intro hno e
        obtain ⟨h', q1, q2⟩ := sound_choose hr hi hd hl [id ++ b!".none", id] (r := r) (by
          rw [← e]
          simp only [List.findSome?_cons, List.findSome?_nil, ec]
          cases found th t (id ++ b!".none") <;> rfl)
        exact ⟨h', q1, .rangeEmpty ht hlk hv hno q2⟩
      rw [bind_asCollection] at e
      cases ea : asCollection h (o.getD .nil) with
      | none =>
        rw [ea] at e
        exact none_case (fun c l e hc => absurd hc (asCollection_none.1 ea c e l)) e
      | some cl =>
        rw [ea] at e
        obtain ⟨ev, hc⟩ := asCollection_some.1 ea
        simp only at e
        split at e
        · next hpos =>
          rw [ev] at hv
          obtain ⟨h', q1, q2⟩ := sound_loop hr hi ec (elems h cl) [] h r hd hl hc e
          exact ⟨h', q1, .range ht hlk hv hc (by unfold count at hpos; intro e; rw [e] at hpos; simp at hpos) q2⟩
        · next hpos =>
          refine none_case (fun c l e hc' => ?_) e
          rw [ev] at e
          cases e
          rw [← elems_of hc']
          simpa [count] using hpos

theorem condGet_value {σ : Option (List Nat)} {h : Heap} (hd : Ready h σ) (key : Str) : ∃ v, condGet key ⟨h, stackOf σ⟩ = .ok v ∧ ValueAt h σ key v ∧
    ∀ w, ValueAt h σ key w → w = v := by
  cases σ with
  | none => exact ⟨.nil, rfl, .noData, fun w hw => by cases hw; rfl⟩
  | some l =>
    obtain ⟨o, e, hv⟩ := stackGet_value hd key
    exact ⟨o.getD .nil, by simp only [condGet, stackOf, Option.map_some, e]; rfl, (hv _).2 rfl, fun w hw => (hv w).1 hw⟩

theorem shows_dataset_ne {x : Ext} {h : Heap} (wf : WF h) {a : Nat} (ha : IsDataset h a) {s : Str} (e : Shows x h (.ptr a) s) : s ≠ [] := by
  rcases e with ⟨e, _⟩ | ⟨_, n, hp⟩
  · cases e
  · rw [prints_iff] at hp
    rw [Ne, text_empty wf hp]
    simp [ha]

theorem sound_condition (hr : SoundRec Z x la lang rec) {t : Nat} {sc : S} (hi : InView Z t sc) {σ : Option (List Nat)} {h : Heap}
    (hd : Ready h σ) (hl : LangIs h la lang) {d : Str} {r : St × Str} (e : doCondition x th rec t d ⟨h, stackOf σ⟩ = .ok r) :
    Out own look x lang sc (.elem ⟨.condition, d⟩) σ h r := by
  have ht := twoNames_target d
  unfold doCondition at e
  simp only at e
  generalize (twoNames d).1 = key at ht e
  generalize (twoNames d).2 = id at ht e
  obtain ⟨v, ev, hv, _⟩ := condGet_value hd key
  simp only [hi.get, Res.bind_ok, ev] at e
  have hf := hi.found id
  have none_case : ∀ r, Shows x h v [] → condNone th rec t id (found th t id) true ⟨h, stackOf σ⟩ = .ok r → Out own look x lang sc (.elem ⟨.condition, d⟩) σ h r := by
    intro r hs e
    simp only [condNone, if_true, hi.get, Res.bind_ok] at e
    obtain ⟨h', q1, q2⟩ := sound_choose hr hi hd hl [id ++ b!".none", id] (r := r) (by
      rw [← e]
      simp only [List.findSome?_cons, List.findSome?_nil]
      cases found th t (id ++ b!".none") <;> cases found th t id <;> rfl)
    exact ⟨h', q1, .conditionNone ht hv hs q2⟩
  by_cases hn : v = .nil
  · rw [if_pos hn] at e
    exact none_case _ (by rw [hn]; exact shows_nil.2 rfl) e
  · rw [if_neg hn] at e
    cases ec : found th t id with
    | none =>
      rw [ec] at hf e none_case
      simp only at e
      rw [Res.bind_eq_ok] at e
      obtain ⟨sv, e1, e2⟩ := e
      have hs := (shows_iff hd.wf hn).2 (ofFuel_ok.1 e1)
      cases sv with
      | nil => exact none_case _ hs e2
      | cons a sv =>
        cases e2
        exact ⟨h, rfl, .conditionNothing ht hv hs (by simp) (hf.some_iff.2 rfl)⟩
    | some c =>
      rw [ec] at hf e none_case
      have hlk : look sc id ≠ none := fun e => by simpa using hf.some_iff.1 e
      simp only at e
      rw [Res.bind_eq_ok] at e
      obtain ⟨p, e1, e2⟩ := e
      rw [Res.bind_eq_ok] at e2
      obtain ⟨sv, e3, e2⟩ := e2
      unfold condValue at e1
      simp only at e1
      cases ea : asDataset h v with
      | some a =>
        rw [ea] at e1
        obtain ⟨rfl, ha⟩ := asDataset_some.1 ea
        cases σ with
        | none => cases hv
        | some l =>
          simp only [hi.get, Res.bind_ok] at e1
          have hch : [id ++ b!".array", id].findSome? (found th t) = some ((found th t (id ++ b!"." ++ b!"array")).getD c) := by
            simp only [List.findSome?_cons, List.findSome?_nil, ec]
            have : id ++ b!"." ++ b!"array" = id ++ b!".array" := by simp
            rw [this]
            cases found th t (id ++ b!".array") <;> rfl
          obtain ⟨h', s, q1, q2⟩ := sound_push (f := fun s d => .ok (s, d, (found th t (id ++ b!"." ++ b!"array")).getD c)) hr hi hd hl ha _ hch e1
          cases q2
          have hd' := hd.renders q1 trivial
          have hs := (shows_iff hd'.wf hn).2 (ofFuel_ok.1 e3)
          have hne := shows_dataset_ne hd'.wf (((renders_shape q1).isDataset a).2 ha) hs
          cases sv with
          | nil => exact absurd rfl hne
          | cons b sv =>
            simp only [condNone, List.isEmpty_cons, Bool.false_eq_true, if_false, Res.bind_ok, List.append_nil] at e2
            cases e2
            exact ⟨h', rfl, .conditionDataset ht hv ha hlk q1 hs⟩
      | none =>
        rw [ea] at e1
        simp only at e1
        rw [Res.bind_eq_ok] at e1
        obtain ⟨text, e4, e5⟩ := e1
        have hs := (shows_iff hd.wf hn).2 (ofFuel_ok.1 e4)
        by_cases hte : text = []
        · subst hte
          simp only [ne_eq, not_true_eq_false, if_false] at e5
          cases e5
          simp only at e3
          rw [ofFuel_ok] at e4 e3
          rw [e4] at e3
          cases e3
          simp only [List.isEmpty_nil, List.nil_append] at e2
          rw [Res.bind_eq_ok] at e2
          obtain ⟨q, e6, e7⟩ := e2
          cases e7
          exact none_case _ hs e6
        · rw [if_pos hte] at e5
          simp only [hi.get, Res.bind_ok] at e5
          rw [Res.bind_eq_ok] at e5
          obtain ⟨q, e6, e7⟩ := e5
          cases e7
          obtain ⟨h', q1, q2⟩ := sound_choose hr hi hd hl [id ++ b!"." ++ text, id] (r := q) (by
            rw [← e6]
            simp only [List.findSome?_cons, List.findSome?_nil, ec]
            cases found th t (id ++ b!"." ++ text) <;> rfl)
          have hd' := hd.renders q2 trivial
          obtain ⟨s', hs', hemp⟩ := shows_shape hd.wf hd'.wf (renders_shape q2) hs
          simp only [q1] at e3 e2
          rw [ofFuel_ok, ← shows_iff hd'.wf hn] at e3
          cases shows_det e3 hs'
          have : sv ≠ [] := fun e => hte (hemp.1 e)
          cases sv with
          | nil => exact absurd rfl this
          | cons b sv =>
            simp only [condNone, List.isEmpty_cons, Bool.false_eq_true, if_false, Res.bind_ok, List.append_nil] at e2
            cases e2
            exact ⟨h', rfl, .conditionValue ht hv (asDataset_none.1 ea) hs hte hlk q2⟩

theorem langText_eq (l : Language.Lang) (d : Str) : Language.get l d = langText (some l) d := by
  unfold Language.get langText
  simp only
  cases l.entries.get d <;> rfl

theorem sound_item (hr : SoundRec Z x la lang rec) {t : Nat} {sc : S} (hi : InView Z t sc) {σ : Option (List Nat)} {h : Heap}
    (hd : Ready h σ) (hl : LangIs h la lang) {p : Param} {r : St × Str} (e : injectItem x th la rec t p ⟨h, stackOf σ⟩ = .ok r) :
    Out own look x lang sc (.elem p) σ h r := by
  obtain ⟨k, d⟩ := p
  cases k with
  | string => cases e; exact ⟨h, rfl, .text⟩
  | comment => cases e; exact ⟨h, rfl, .comment⟩
  | language =>
    simp only [injectItem] at e
    cases la with
    | none =>
      cases e
      cases lang with
      | none => exact ⟨h, rfl, .language⟩
      | some l => cases hl
    | some a =>
      cases lang with
      | none => cases hl
      | some l =>
        simp only [LangIs] at hl
        simp only [hl, langText_eq] at e
        cases e
        exact ⟨h, rfl, .language⟩
  | reference => exact sound_reference hr hi hd hl e
  | range => exact sound_range hr hi hd hl e
  | condition => exact sound_condition hr hi hd hl e
  | dump =>
    simp only [injectItem, doDump] at e
    cases σ with
    | none => cases e; exact ⟨h, rfl, .dumpNothing (Or.inr rfl)⟩
    | some l =>
      simp only [stackOf, Option.map_some] at e
      by_cases hk : d = b!"dump" ∨ d = b!"list"
      · rw [if_pos hk] at e
        rcases List.eq_nil_or_concat l with rfl | ⟨l, a, rfl⟩
        · cases e
          exact ⟨h, rfl, .dumpEmpty hk⟩
        · rw [List.concat_eq_append] at *
          simp only [List.reverse_append, List.reverse_cons, List.reverse_nil, List.nil_append, List.cons_append, List.map_cons] at e
          have : colGet (some a :: l.reverse.map some) 0 = some (some a) := by
            unfold colGet
            rw [if_neg (by simp)]
            rfl
          rw [this] at e
          simp only at e
          rw [map_ok] at e
          obtain ⟨s, e1, e2⟩ := e
          subst e2
          unfold dsGoString at e1
          cases et : target h a with
          | none => rw [et] at e1; cases e1
          | some t' =>
            rw [et] at e1
            refine ⟨h, by simp [stackOf], .dump hk (by simp) ((target_iff hd.wf).1 et) ((goPrints_iff ..).2 (ofFuel_ok.1 e1))⟩
      · rw [if_neg hk] at e
        cases e
        exact ⟨h, rfl, .dumpNothing (Or.inl (by rw [not_or] at hk; exact hk))⟩
  | «variable» =>
    simp only [injectItem] at e
    cases σ with
    | none => cases e; exact ⟨h, rfl, .variable .noData (shows_nil.2 rfl)⟩
    | some l =>
      simp only [stackOf, Option.map_some] at e
      rw [map_ok] at e
      obtain ⟨s, e1, rfl⟩ := e
      obtain ⟨v, hv, hs⟩ := (stackString_shows hd d s).1 e1
      exact ⟨h, rfl, .variable hv hs⟩
  | start => cases e; exact ⟨h, rfl, .unknown trivial⟩
  | stop => cases e; exact ⟨h, rfl, .unknown trivial⟩
  | unused => cases e; exact ⟨h, rfl, .unknown trivial⟩
  | other n => cases e; exact ⟨h, rfl, .unknown trivial⟩

theorem sound_all (hr : SoundRec Z x la lang rec) {t : Nat} {sc : S} (hi : InView Z t sc) {σ : Option (List Nat)} : ∀ (l : List Param) (h : Heap)
    (r : St × Str), Ready h σ → LangIs h la lang → injectAll (injectItem x th la rec t) l ⟨h, stackOf σ⟩ = .ok r → Out own look x lang sc (.body l) σ h r := by
  intro l
  induction l with
  | nil => intro h r _ _ e; cases e; exact ⟨h, rfl, .nil⟩
  | cons p l ih =>
    intro h r hd hl e
    simp only [injectAll] at e
    rw [Res.bind_eq_ok] at e
    obtain ⟨r1, e1, e⟩ := e
    rw [Res.bind_eq_ok] at e
    obtain ⟨r2, e2, e3⟩ := e
    obtain ⟨h1, q1, q2⟩ := sound_item hr hi hd hl e1
    rw [q1] at e2
    obtain ⟨h2, q3, q4⟩ := ih h1 r2 (hd.renders q2 trivial) (hl.shape (renders_shape q2)) e2
    cases e3
    exact ⟨h2, q3, .cons q2 q4⟩

theorem sound_injector : ∀ n, SoundRec Z x la lang (injector x th la n) := by
  intro n
  induction n with
  | zero => intro t sc σ h r _ _ _ e; cases e
  | succ n ih =>
    intro t sc σ h r hi hd hl e
    rw [hi.injector] at e
    obtain ⟨h', q1, q2⟩ := sound_all ih hi _ _ _ hd hl e
    exact ⟨h', q1, .document q2⟩

end Sound

/-! ## From the specification to the code -/

section Complete

variable {th : THeap} {S : Type} {own : S → List Param} {look : S → Str → Option S} {Z : View th own look} {x : Ext} {la : Option Nat} {lang : Option Language.Lang}

/-- From some bound on. -/
def Ev (P : Nat → Prop) : Prop := ∃ n, ∀ m, n ≤ m → P m

theorem Ev.now {P : Nat → Prop} (h : ∀ m, P m) : Ev P := ⟨0, fun m _ => h m⟩

theorem Ev.mono {P Q : Nat → Prop} (h : Ev P) (f : ∀ m, P m → Q m) : Ev Q := by
  obtain ⟨n, h⟩ := h
  exact ⟨n, fun m hm => f m (h m hm)⟩

theorem Ev.and {P Q R : Nat → Prop} (h : Ev P) (h' : Ev Q) (f : ∀ m, P m → Q m → R m) : Ev R := by
  obtain ⟨n, h⟩ := h
  obtain ⟨n', h'⟩ := h'
  exact ⟨max n n', fun m hm => f m (h m (by omega)) (h' m (by omega))⟩

/-- The code does the job, with a large enough bound. -/
def Gives (Z : View th own look) (x : Ext) (la : Option Nat) (sc : S) (job : Job) (σ : Option (List Nat)) (h h' : Heap) (s : Str) : Prop :=
  match job with
  | .document => ∀ t, InView Z t sc → Ev fun m => injector x th la m t ⟨h, stackOf σ⟩ = .ok (⟨h', stackOf σ⟩, s)
  | .body l => ∀ t, InView Z t sc → Ev fun m => injectAll (injectItem x th la (injector x th la m) t) l ⟨h, stackOf σ⟩ = .ok (⟨h', stackOf σ⟩, s)
  | .elem p => ∀ t, InView Z t sc → Ev fun m => injectItem x th la (injector x th la m) t p ⟨h, stackOf σ⟩ = .ok (⟨h', stackOf σ⟩, s)
  | .choose names => ∀ t, InView Z t sc → Ev fun m =>
      renderOpt (injector x th la m) (names.findSome? (found th t)) ⟨h, stackOf σ⟩ = .ok (⟨h', stackOf σ⟩, s)
  | .loop id n i l => ∀ t c cl pre, InView Z t sc → found th t id = some c → IsCollection h cl (pre ++ l) → pre.length = i → Ev fun m =>
      rangeLoop th (injector x th la m) t id c cl n l.length i ⟨h, stackOf σ⟩ = .ok (⟨h', stackOf σ⟩, s)

theorem complete_push {l : List Nat} {h h' : Heap} {s : Str} {a c : Nat} {names : List Str} {t : Nat}
    (hc : names.findSome? (found th t) = some c) {rec : Render}
    (e : renderOpt rec (names.findSome? (found th t)) ⟨h, stackOf (some (a :: l))⟩ = .ok (⟨h', stackOf (some (a :: l))⟩, s)) {β : Type} (f : St → Str → Res β) :
    (pushSt ⟨h, stackOf (some l)⟩ (some a) >>= fun s => rec c s >>= fun r => popSt r.1 >>= fun s => f s r.2) = f ⟨h', stackOf (some l)⟩ s := by
  rw [hc] at e
  simp only [renderOpt] at e
  rw [pushSt_stackOf, Res.bind_ok, e, Res.bind_ok, popSt_stackOf, Res.bind_ok]

theorem stack_value {h : Heap} {l : List Nat} (hd : Ready h (some l)) {key : Str} {v : Val} (hv : ValueAt h (some l) key v) :
    ∃ o, stackGet h (l.reverse.map some) key = .ok o ∧ o.getD .nil = v := by
  obtain ⟨o, e, q⟩ := stackGet_value hd key
  exact ⟨o, e, ((q v).1 hv).symm⟩

theorem target_two {d key id : Str} (h : Target d key id) : twoNames d = (key, id) := by
  unfold Target parts at h
  unfold twoNames
  rcases h with ⟨h, rfl⟩ | ⟨rest, h⟩ <;> rw [h]

theorem complete_reference {rec : Render} {t : Nat} {sc : S} (hi : InView Z t sc) {d id : Str} {rest : List Str} (hp : parts d = id :: rest)
    (h1 : rest.length ≠ 1) (h2 : rest.length ≠ 2) (st : St) :
    doReference x th rec t d st = renderOpt rec ([id].findSome? (found th t)) st := by
  unfold parts at hp
  unfold doReference
  rw [hp]
  match rest, h1, h2 with
  | [], _, _ =>
    simp only [List.headD_cons, hi.get, Res.bind_ok, List.findSome?_cons, List.findSome?_nil]
    cases found th t id <;> rfl
  | _ :: _ :: _ :: _, _, _ =>
    simp only [List.headD_cons, hi.get, Res.bind_ok, List.findSome?_cons, List.findSome?_nil]
    cases found th t id <;> rfl

theorem complete_none {rec : Render} {t : Nat} {sc : S} (hi : InView Z t sc) (id : Str) (st : St) :
    condNone th rec t id (found th t id) true st = renderOpt rec ([id ++ b!".none", id].findSome? (found th t)) st := by
  simp only [condNone, if_true, hi.get, Res.bind_ok, List.findSome?_cons, List.findSome?_nil]
  cases found th t (id ++ b!".none") <;> cases found th t id <;> rfl

theorem complete {sc : S} {job : Job} {σ : Option (List Nat)} {h h' : Heap} {s : Str} (r : RendersIn own look x lang sc job σ h h' s) :
    Ready h σ → LangIs h la lang → job.Fits → Gives Z x la sc job σ h h' s := by
  induction r with
  | @document sc σ h h' s _ ih =>
    intro hd hl _ t hi
    obtain ⟨n, e⟩ := ih hd hl trivial t hi
    refine ⟨n + 1, fun m hm => ?_⟩
    cases m with
    | zero => omega
    | succ m => rw [hi.injector]; exact e m (by omega)
  | nil => intro _ _ _ t _; exact .now fun m => rfl
  | cons q1 _ ih1 ih2 =>
    intro hd hl _ t hi
    refine (ih1 hd hl trivial t hi).and (ih2 (hd.renders q1 trivial) (hl.shape (renders_shape q1)) trivial t hi) fun m e1 e2 => ?_
    simp only [injectAll, e1, Res.bind_ok, e2]
  | @chosen sc sc' σ h h' s names hn _ ih =>
    intro hd hl _ t hi
    have hf := hi.choose names
    rw [hn] at hf
    generalize e : names.findSome? (found th t) = b at hf
    cases hf with
    | some hc =>
      exact (ih hd hl trivial _ hc).mono fun m e' => e'
  | @noChoice sc σ h names hn =>
    intro hd hl _ t hi
    have hf := hi.choose names
    rw [hn] at hf
    generalize e : names.findSome? (found th t) = b at hf
    cases hf
    exact .now fun m => rfl
  | text => intro _ _ _ t _; exact .now fun m => rfl
  | comment => intro _ _ _ t _; exact .now fun m => rfl
  | @language sc σ h d =>
    intro hd hl _ t _
    refine .now fun m => ?_
    simp only [injectItem]
    cases la with
    | none =>
      cases lang with
      | none => rfl
      | some l => cases hl
    | some a =>
      cases lang with
      | none => cases hl
      | some l =>
        simp only [LangIs] at hl
        simp only [hl, langText_eq]
  | @«variable» sc σ h d v s hv hs =>
    intro hd hl _ t _
    refine .now fun m => ?_
    simp only [injectItem]
    cases σ with
    | none =>
      cases hv
      rw [shows_nil] at hs
      subst hs; rfl
    | some l =>
      simp only [stackOf, Option.map_some, (stackString_shows hd d s).2 ⟨v, hv, hs⟩]
      rfl
  | reference hp h1 h2 _ ih =>
    intro hd hl _ t hi
    refine (ih hd hl trivial t hi).mono fun m e => ?_
    simp only [injectItem]
    rw [complete_reference hi hp h1 h2]
    exact e
  | @referenceNone sc σ h d id key hp hn =>
    intro hd hl _ t hi
    refine .now fun m => ?_
    have := (hi.found id).some_iff.1 hn
    unfold parts at hp
    simp only [injectItem, doReference, hp, List.headD_cons, hi.get, Res.bind_ok, this]
  | @referenceWith sc l h h' s d id key a hp hlk hv ha _ ih =>
    intro hd hl _ t hi
    refine (ih (hd.push ha) hl trivial t hi).mono fun m e => ?_
    obtain ⟨c, hc⟩ := hi.some_of hlk
    obtain ⟨o, eo, ev⟩ := stack_value hd hv
    unfold parts at hp
    simp only [injectItem, doReference, hp, List.headD_cons, hi.get, Res.bind_ok, hc, stackOf, Option.map_some, eo, bind_asDataset, ev, asDataset_some.2 ⟨rfl, ha⟩]
    exact complete_push (names := [id]) (by simp [hc]) e fun s d => .ok (s, d)
  | @referenceWithout sc l h h' s d id key v hp hlk hv hno _ ih =>
    intro hd hl _ t hi
    refine (ih hd hl trivial t hi).mono fun m e => ?_
    obtain ⟨c, hc⟩ := hi.some_of hlk
    obtain ⟨o, eo, ev⟩ := stack_value hd hv
    unfold parts at hp
    simp only [injectItem, doReference, hp, List.headD_cons, hi.get, Res.bind_ok, hc, stackOf, Option.map_some, eo, bind_asDataset, ev, asDataset_none.2 hno]
    simp only [List.findSome?_cons, hc, renderOpt] at e
    exact e
  | @referenceValue sc l h h' s d any key pre v text hp hv hs _ ih =>
    intro hd hl _ t hi
    refine (ih hd hl trivial t hi).mono fun m e => ?_
    unfold parts at hp
    simp only [injectItem, doReference, hp, stackOf, Option.map_some, (stackString_shows hd key text).2 ⟨v, hv, hs⟩, Res.bind_ok, hi.get]
    simp only [List.findSome?_cons, List.findSome?_nil] at e
    revert e
    cases found th t (pre ++ text) <;> cases found th t pre <;> exact fun e => e
  | @rangeNothing sc σ h d key id ht hno =>
    intro hd hl _ t hi
    refine .now fun m => ?_
    simp only [injectItem, doRange, target_two ht, hi.get, Res.bind_ok]
    rcases hno with hno | rfl
    · rw [(hi.found id).some_iff.1 hno]
    · cases found th t id <;> rfl
  | @rangeEmpty sc l h h' s d key id v ht hlk hv hno _ ih =>
    intro hd hl _ t hi
    refine (ih hd hl trivial t hi).mono fun m e => ?_
    obtain ⟨c, hc⟩ := hi.some_of hlk
    obtain ⟨o, eo, ev⟩ := stack_value hd hv
    simp only [injectItem, doRange, target_two ht, hi.get, Res.bind_ok, hc, stackOf, Option.map_some, eo, bind_asCollection, ev]
    have key : injector x th la m ((found th t (id ++ b!".none")).getD c) ⟨h, stackOf (some l)⟩ = .ok (⟨h', stackOf (some l)⟩, s) := by
      rw [← e]
      simp only [List.findSome?_cons, hc]
      cases found th t (id ++ b!".none") <;> rfl
    cases ea : asCollection h v with
    | none => exact key
    | some cl =>
      obtain ⟨rfl, hcl⟩ := asCollection_some.1 ea
      have := hno _ _ rfl hcl
      simp only [count, this, List.length_nil, Nat.lt_irrefl, if_false]
      exact key
  | @range sc l h h' s d key id c q ht hlk hv hc hne _ ih =>
    intro hd hl _ t hi
    obtain ⟨c', hc'⟩ := hi.some_of hlk
    have hlen := hd.short _ _ hc
    refine (ih hd hl (by simpa [Job.Fits] using hlen) t c' c [] hi hc' hc rfl).mono fun m e => ?_
    obtain ⟨o, eo, ev⟩ := stack_value hd hv
    have ea : asCollection h (.ptr c) = some c := asCollection_some.2 ⟨rfl, by rw [elems_of hc]; exact hc⟩
    simp only [injectItem, doRange, target_two ht, hi.get, Res.bind_ok, hc', stackOf, Option.map_some, eo, bind_asCollection, ev, ea, count, elems_of hc]
    rw [if_pos (List.length_pos_iff.2 hne)]
    exact e
  | loopEnd => intro _ _ _ t c cl pre _ _ _ _; exact .now fun m => rfl
  | @loop sc l h h1 h2 h3 s1 s2 id n i a q hs q1 _ ih1 ih2 =>
    intro hd hl hf t c cl pre hi hc hcl hpre
    simp only [Job.Fits, List.length_cons] at hf
    have sh1 := shape_counter hs
    have hd1 := hd.shape (wf_counter hd.wf ⟨by omega, by omega⟩ hs) sh1
    have ha : IsDataset h1 a := (sh1.isDataset a).2 (hd.wf.elem _ _ a hcl (by simp))
    have sh2 := renders_shape q1
    have e1 := ih1 (hd1.push ha) (hl.shape sh1) trivial t hi
    have e2 := ih2 (hd1.renders q1 trivial) (hl.shape (sh1.trans sh2)) (by simp only [Job.Fits]; omega) t c cl (pre ++ [some a]) hi hc
      (by simpa using ((sh1.trans sh2).isCollection _ _).2 hcl) (by simp [hpre])
    refine e1.and e2 fun m e1 e2 => ?_
    obtain ⟨c', p1, p2⟩ := pickRange_eq (g := found th t) hi.get hc i n
    have hget : colGetAt h cl (i : Int) = some (some a) := by rw [← hpre]; exact colGetAt_of hcl
    simp only [List.length_cons, rangeLoop, p1, Res.bind_ok, hget, (set_counter hd.wf).2 hs]
    refine (complete_push (names := rangeNames id i n) p2 e1 fun s d => do
      let q ← rangeLoop th (injector x th la m) t id c cl n q.length (i + 1) s; .ok (q.1, d ++ q.2)).trans ?_
    rw [e2]; rfl
  | @conditionNone sc σ h h' s d key id v ht hv hs _ ih =>
    intro hd hl _ t hi
    refine (ih hd hl trivial t hi).mono fun m e => ?_
    obtain ⟨v', ev, _, hu⟩ := condGet_value hd key
    cases hu v hv
    rw [← complete_none hi] at e
    simp only [injectItem, doCondition, target_two ht, hi.get, Res.bind_ok, ev]
    by_cases hn : v = .nil
    · rw [if_pos hn]; exact e
    · rw [if_neg hn]
      have hs' := (shows_iff hd.wf hn).1 hs
      have hnd : asDataset h v = none := asDataset_none.2 fun a ea ha => by
        subst ea
        exact shows_dataset_ne hd.wf ha hs rfl
      cases hc : found th t id with
      | none =>
        rw [hc] at e
        simp only [hs', ofFuel, Res.bind_ok, List.isEmpty_nil]
        exact e
      | some c =>
        rw [hc] at e
        simp only [condValue, hnd, hs', ofFuel, Res.bind_ok, ne_eq, not_true_eq_false, if_false, List.isEmpty_nil, e, List.nil_append]
  | @conditionNothing sc σ h d key id v text ht hv hs hne hno =>
    intro hd hl _ t hi
    refine .now fun m => ?_
    obtain ⟨v', ev, _, hu⟩ := condGet_value hd key
    cases hu v hv
    have hn : v ≠ .nil := fun e => hne (by rw [e, shows_nil] at hs; exact hs)
    have hc := (hi.found id).some_iff.1 hno
    simp only [injectItem, doCondition, target_two ht, hi.get, Res.bind_ok, ev, if_neg hn, hc, (shows_iff hd.wf hn).1 hs, ofFuel]
    cases text with
    | nil => exact absurd rfl hne
    | cons => rfl
  | @conditionValue sc σ h h' s d key id v text ht hv hnd hs hne hlk q ih =>
    intro hd hl _ t hi
    refine (ih hd hl trivial t hi).mono fun m e => ?_
    obtain ⟨v', ev, _, hu⟩ := condGet_value hd key
    cases hu v hv
    have hn : v ≠ .nil := fun e => hne (by rw [e, shows_nil] at hs; exact hs)
    obtain ⟨c, hc⟩ := hi.some_of hlk
    have hd' := hd.renders q trivial
    obtain ⟨s', hs', hemp⟩ := shows_shape hd.wf hd'.wf (renders_shape q) hs
    have e' : injector x th la m ((found th t (id ++ b!"." ++ text)).getD c) ⟨h, stackOf σ⟩ = .ok (⟨h', stackOf σ⟩, s) := by
      rw [← e]
      simp only [List.findSome?_cons, hc]
      cases found th t (id ++ b!"." ++ text) <;> rfl
    simp only [injectItem, doCondition, target_two ht, hi.get, Res.bind_ok, ev, if_neg hn, hc, condValue, asDataset_none.2 hnd, (shows_iff hd.wf hn).1 hs, ofFuel,
      if_pos hne, e', (shows_iff hd'.wf hn).1 hs']
    cases s' with
    | nil => exact absurd (hemp.1 rfl) hne
    | cons => simp [condNone]
  | @conditionDataset sc l h h' s d key id text a ht hv ha hlk q hs ih =>
    intro hd hl _ t hi
    refine (ih (hd.push ha) hl trivial t hi).mono fun m e => ?_
    obtain ⟨v', ev, _, hu⟩ := condGet_value hd key
    cases hu _ hv
    obtain ⟨c, hc⟩ := hi.some_of hlk
    have hd' := hd.renders q trivial
    have hne := shows_dataset_ne hd'.wf (((renders_shape q).isDataset a).2 ha) hs
    have hch : [id ++ b!".array", id].findSome? (found th t) = some ((found th t (id ++ b!"." ++ b!"array")).getD c) := by
      simp only [List.findSome?_cons, hc]
      have : id ++ b!"." ++ b!"array" = id ++ b!".array" := by simp
      rw [this]
      cases found th t (id ++ b!".array") <;> rfl
    have e' := complete_push hch e fun s d => Res.ok (s, d, (found th t (id ++ b!"." ++ b!"array")).getD c)
    simp only [injectItem, doCondition, target_two ht, hi.get, Res.bind_ok, ev, reduceCtorEq, if_false, hc, condValue, asDataset_some.2 ⟨rfl, ha⟩]
    rw [e', Res.bind_ok, (shows_iff hd'.wf (by simp)).1 hs]
    cases text with
    | nil => exact absurd rfl hne
    | cons => simp [condNone, ofFuel]
  | @dump sc l h s d n a t' hk hlast hw hg =>
    intro hd hl _ t hi
    refine .now fun m => ?_
    obtain ⟨pre, rfl⟩ : ∃ pre, l = pre ++ [a] := by
      rcases List.eq_nil_or_concat l with rfl | ⟨l, b, rfl⟩
      · cases hlast
      · rw [List.concat_eq_append] at *
        simp at hlast
        exact ⟨l, by rw [hlast]⟩
    have : colGet (some a :: pre.reverse.map some) 0 = some (some a) := by
      unfold colGet
      rw [if_neg (by simp)]
      rfl
    have hg' := goSprint_bound hd.wf ((goPrints_iff ..).1 hg)
    simp only [injectItem, doDump, stackOf, Option.map_some, if_pos hk, List.reverse_append, List.reverse_cons, List.reverse_nil, List.nil_append,
      List.cons_append, List.map_cons, this, dsGoString, (target_iff hd.wf).2 hw, printBound, hg', ofFuel]
    rfl
  | dumpEmpty hk =>
    intro hd hl _ t hi
    refine .now fun m => ?_
    simp only [injectItem, doDump, stackOf, Option.map_some, if_pos hk]
    rfl
  | @dumpNothing sc σ h d hno =>
    intro hd hl _ t hi
    refine .now fun m => ?_
    simp only [injectItem, doDump]
    cases σ with
    | none => rfl
    | some l =>
      rcases hno with ⟨h1, h2⟩ | hno
      · simp only [stackOf, Option.map_some]
        rw [if_neg (by simp [h1, h2])]
      · cases hno
  | @unknown sc σ h k d hk =>
    intro _ _ _ t _
    refine .now fun m => ?_
    cases k <;> first | exact hk.elim | rfl

end Complete

/-- Rendering a template gives exactly what the specification says. -/
theorem injector_iff' {th : THeap} {S : Type} {own : S → List Param} {look : S → Str → Option S} {Z : View th own look} {x : Ext} {t : Nat} {sc : S}
    {la : Option Nat} {lang : Option Language.Lang} {σ : Option (List Nat)} {h : Heap}
    (hi : InView Z t sc) (hd : Ready h σ) (hl : LangIs h la lang) (h' : Heap) (s : Str) :
    (∃ n, injector x th la n t ⟨h, stackOf σ⟩ = .ok (⟨h', stackOf σ⟩, s)) ↔ RendersIn own look x lang sc .document σ h h' s := by
  constructor
  · rintro ⟨n, e⟩
    obtain ⟨h'', q1, q2⟩ := sound_injector n _ _ _ _ _ hi hd hl e
    cases q1
    exact q2
  · intro r
    obtain ⟨n, e⟩ := complete r hd hl trivial t hi
    exact ⟨n, e n (Nat.le_refl _)⟩

/-! ## Documents -/

/-- Compiled documents as places. -/
def docView (th : THeap) : View th innermost lookup where
  rel := InScope th
  lookup := fun {t sc} h v => by
    have := h.lookup v
    cases e : lookup sc v with
    | none => rw [e] at this; exact this
    | some sc' => rw [e] at this; exact this
  root := fun {t sc} h => by
    cases sc with
    | nil => cases h
    | cons d up =>
      obtain ⟨o, _, ho, hroot, _⟩ := h.compiled
      exact ⟨o, ho, Or.inl hroot⟩

theorem InScope.view {th : THeap} {t : Nat} {sc : List Doc} (h : InScope th t sc) : InView (docView th) t sc := h

/-- Rendering a compiled document gives exactly what the specification says. -/
theorem injector_iff {x : Ext} {th : THeap} {t : Nat} {sc : List Doc} {la : Option Nat} {lang : Option Language.Lang} {σ : Option (List Nat)} {h : Heap}
    (hi : InScope th t sc) (hd : Ready h σ) (hl : LangIs h la lang) (h' : Heap) (s : Str) :
    (∃ n, injector x th la n t ⟨h, stackOf σ⟩ = .ok (⟨h', stackOf σ⟩, s)) ↔ Renders x lang sc .document σ h h' s :=
  injector_iff' hi.view hd hl h' s

end Xcore.Template
