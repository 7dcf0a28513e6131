import Verif.Proof.V1.TemplateSafe
import Verif.Proof.TemplateAdd

/-!
# Templates of version 1 put together with `AddTemplate`

The bound on nested calls is forgotten and found again; the templates made by any calls have a rank, so rendering ends.
-/

namespace Xcore.V1.Template

open Xcore.Template (Kind Param Doc parts Target rangeNames Foreign namesOf find_withBox own_withBox)
open Xcore.Dataset (Ext Val)
open Xcore.V1.Dataset

/-! ## The bound -/

/-- Rendering by address. -/
abbrev RendersAt (th : THeap) : Ext → Option Language.Lang → Heap → Nat → Job → Option (List (Option Nat)) → Out → Prop :=
  RendersIn (fun t => some (elements th t)) (Registered th)

/-- Rendering with a bound. -/
abbrev RendersN (th : THeap) : Ext → Option Language.Lang → Heap → Nat × Nat → Job → Option (List (Option Nat)) → Out → Prop := RendersIn (ownN th) (lookN th)

theorem ExecutesIn.imp {D D' : Type} {own : D → Option (List Param)} {look : D → Str → Option D} {own' : D' → Option (List Param)} {look' : D' → Str → Option D'}
    {x : Ext} {h : Heap} {d : D} {d' : D'} {data : Option Nat} {r : Out} (q : ExecutesIn own look x d h data r)
    (hi : ∀ lang σ, RendersIn own look x lang h d .document σ r → RendersIn own' look' x lang h d' .document σ r) : ExecutesIn own' look' x d' h data r := by
  cases q with
  | data hl q => exact .data hl (hi _ _ q)
  | nil q => exact .nil (hi _ _ q)

theorem forget {th : THeap} {x : Ext} {lang : Option Language.Lang} {h : Heap} {n t : Nat} {job : Job} {σ : Option (List (Option Nat))} {r : Out}
    (q : RendersN th x lang h (n, t) job σ r) : RendersAt th x lang h t job σ r := by
  refine RendersIn.sim (R := fun d t => d.2 = t) (fun d t l e ho => ?_) (fun d t v e => ?_) q t rfl
  · subst e
    unfold ownN at ho
    split at ho
    · cases ho
    · exact ho
  · subst e
    unfold lookN
    cases Registered th d.2 v with
    | none => exact .none
    | some c => exact .some rfl

theorem lookN_none {th : THeap} {n t : Nat} {v : Str} : lookN th (n, t) v = none ↔ Registered th t v = none := by simp [lookN]

theorem lookN_ne {th : THeap} {n t : Nat} {v : Str} : lookN th (n, t) v ≠ none ↔ Registered th t v ≠ none := not_congr lookN_none

theorem findSome_lookN {th : THeap} {n t : Nat} (names : List Str) : names.findSome? (lookN th (n, t)) = (names.findSome? (Registered th t)).map fun c => (n - 1, c) := by
  induction names with
  | nil => rfl
  | cons v names ih =>
    simp only [List.findSome?_cons]
    unfold lookN at ih ⊢
    cases Registered th t v with
    | none => exact ih
    | some c => rfl

/-- A derivation needs only a bound large enough. -/
theorem enough {th : THeap} {x : Ext} {lang : Option Language.Lang} {h : Heap} {t : Nat} {job : Job} {σ : Option (List (Option Nat))} {r : Out}
    (q : RendersAt th x lang h t job σ r) : ∃ n, ∀ m, n ≤ m → RendersN th x lang h (m, t) job σ r := by
  induction q with
  | document e _ ih =>
    obtain ⟨n, q⟩ := ih
    refine ⟨n + 1, fun m hm => .document ?_ (q m (by omega))⟩
    cases e
    simp only [ownN]
    rw [if_neg (by omega)]
  | nil => exact ⟨0, fun _ _ => .nil⟩
  | cons _ _ ih1 ih2 =>
    obtain ⟨n1, q1⟩ := ih1
    obtain ⟨n2, q2⟩ := ih2
    exact ⟨n1 + n2, fun m hm => .cons (q1 m (by omega)) (q2 m (by omega))⟩
  | consPanic _ ih => obtain ⟨n, q⟩ := ih; exact ⟨n, fun m hm => .consPanic (q m hm)⟩
  | chosen e _ ih =>
    obtain ⟨n, q⟩ := ih
    exact ⟨n + 1, fun m hm => .chosen (by rw [findSome_lookN, e]; rfl) (q (m - 1) (by omega))⟩
  | noChoice e => exact ⟨0, fun m hm => .noChoice (by rw [findSome_lookN, e]; rfl)⟩
  | text => exact ⟨0, fun _ _ => .text⟩
  | comment => exact ⟨0, fun _ _ => .comment⟩
  | language => exact ⟨0, fun _ _ => .language⟩
  | variableNoData => exact ⟨0, fun _ _ => .variableNoData⟩
  | «variable» h1 h2 => exact ⟨0, fun _ _ => .variable h1 h2⟩
  | reference h1 h2 h3 _ ih => obtain ⟨n, q⟩ := ih; exact ⟨n, fun m hm => .reference h1 h2 h3 (q m hm)⟩
  | referenceNone h1 h2 => exact ⟨0, fun m hm => .referenceNone h1 (lookN_none.2 h2)⟩
  | referenceWith h1 h2 h3 h4 _ ih => obtain ⟨n, q⟩ := ih; exact ⟨n, fun m hm => .referenceWith h1 (lookN_ne.2 h2) h3 h4 (q m hm)⟩
  | referenceWithout h1 h2 h3 h4 h5 _ ih => obtain ⟨n, q⟩ := ih; exact ⟨n, fun m hm => .referenceWithout h1 (lookN_ne.2 h2) h3 h4 h5 (q m hm)⟩
  | referenceBroken h1 h2 h3 => exact ⟨0, fun m hm => .referenceBroken h1 (lookN_ne.2 h2) h3⟩
  | referenceNoData h1 h2 => exact ⟨0, fun m hm => .referenceNoData h1 (lookN_ne.2 h2)⟩
  | referenceValue h1 h2 h3 _ ih => obtain ⟨n, q⟩ := ih; exact ⟨n, fun m hm => .referenceValue h1 h2 h3 (q m hm)⟩
  | referenceValueBroken h1 h2 => exact ⟨0, fun m hm => .referenceValueBroken h1 h2⟩
  | referenceValueNoData h1 => exact ⟨0, fun m hm => .referenceValueNoData h1⟩
  | rangeNothing h1 h2 => exact ⟨0, fun m hm => .rangeNothing h1 (h2.imp lookN_none.2 id)⟩
  | rangeAbsent h1 h2 h3 _ ih => obtain ⟨n, q⟩ := ih; exact ⟨n, fun m hm => .rangeAbsent h1 (lookN_ne.2 h2) h3 (q m hm)⟩
  | range h1 h2 h3 h4 _ ih => obtain ⟨n, q⟩ := ih; exact ⟨n, fun m hm => .range h1 (lookN_ne.2 h2) h3 h4 (q m hm)⟩
  | rangeOther h1 h2 h3 h4 => exact ⟨0, fun m hm => .rangeOther h1 (lookN_ne.2 h2) h3 h4⟩
  | rangeBroken h1 h2 h3 => exact ⟨0, fun m hm => .rangeBroken h1 (lookN_ne.2 h2) h3⟩
  | loopEnd => exact ⟨0, fun _ _ => .loopEnd⟩
  | loop _ _ ih1 ih2 =>
    obtain ⟨n1, q1⟩ := ih1
    obtain ⟨n2, q2⟩ := ih2
    exact ⟨n1 + n2, fun m hm => .loop (q1 m (by omega)) (q2 m (by omega))⟩
  | loopPanic _ ih => obtain ⟨n, q⟩ := ih; exact ⟨n, fun m hm => .loopPanic (q m hm)⟩
  | conditionNoData => exact ⟨0, fun _ _ => .conditionNoData⟩
  | conditionBroken h1 h2 => exact ⟨0, fun _ _ => .conditionBroken h1 h2⟩
  | conditionNothing h1 h2 h3 h4 => exact ⟨0, fun m hm => .conditionNothing h1 h2 h3 (lookN_none.2 h4)⟩
  | conditionAbsent h1 h2 => exact ⟨0, fun _ _ => .conditionAbsent h1 h2⟩
  | conditionDataset h1 h2 h3 => exact ⟨0, fun _ _ => .conditionDataset h1 h2 h3⟩
  | conditionEmpty h1 h2 h3 h4 => exact ⟨0, fun m hm => .conditionEmpty h1 (lookN_ne.2 h2) h3 h4⟩
  | condition h1 h2 h3 h4 h5 h6 _ ih => obtain ⟨n, q⟩ := ih; exact ⟨n, fun m hm => .condition h1 (lookN_ne.2 h2) h3 h4 h5 h6 (q m hm)⟩
  | dump h1 h2 h3 => exact ⟨0, fun _ _ => .dump h1 h2 h3⟩
  | dumpNil h1 => exact ⟨0, fun _ _ => .dumpNil h1⟩
  | dumpNothing h1 => exact ⟨0, fun _ _ => .dumpNothing h1⟩
  | unknown h1 => exact ⟨0, fun _ _ => .unknown h1⟩

/-- How one result of `Execute` is to be read. -/
def outOf : Res Str → Option Out
  | .ok s => some (.text s)
  | .panic => some .panic
  | .diverge => none

theorem execute_meets_n {x : Ext} {th : THeap} {t : Nat} (hu : Usable th t) {h : Heap} {data : Option Nat} (hp : Proper h data) (n : Nat) (r : Out) :
    ExecutesIn (ownN th) (lookN th) x (n, t) h data r ↔ outOf (execute x th n t h data) = some r := by
  have m := execute_meets_of (x := x) hp (fun lang σ hs => injector_meets_at (x := x) (lang := lang) hp.wf n t hu σ hs)
  generalize execute x th n t h data = res at m
  cases res with
  | ok s => rw [m r]; simp [outOf, eq_comm]
  | panic => rw [m r]; simp [outOf, eq_comm]
  | diverge => simp [outOf, m r]

theorem execute_at {x : Ext} {th : THeap} {t : Nat} (hu : Usable th t) {h : Heap} {data : Option Nat} (hp : Proper h data) (r : Out) :
    ((∃ n, outOf (execute x th n t h data) = some r) ↔ ExecutesAt th x t h data r) ∧
    (ExecutesAt th x t h data r → ∃ n, ∀ m, n ≤ m → outOf (execute x th m t h data) = some r) := by
  have back : ExecutesAt th x t h data r → ∃ n, ∀ m, n ≤ m → outOf (execute x th m t h data) = some r := by
    intro q
    cases q with
    | data hl q =>
      obtain ⟨n, q⟩ := enough q
      exact ⟨n, fun m hm => (execute_meets_n hu hp m r).1 (.data hl (q m hm))⟩
    | nil q =>
      obtain ⟨n, q⟩ := enough q
      exact ⟨n, fun m hm => (execute_meets_n hu hp m r).1 (.nil (q m hm))⟩
  refine ⟨⟨fun ⟨n, e⟩ => ((execute_meets_n hu hp n r).2 e).imp fun _ _ => forget, fun q => ?_⟩, back⟩
  obtain ⟨n, e⟩ := back q
  exact ⟨n, e n (Nat.le_refl _)⟩

theorem executes_unique {x : Ext} {th : THeap} {t : Nat} (hu : Usable th t) {h : Heap} {data : Option Nat} (hp : Proper h data) {r r' : Out}
    (q : ExecutesAt th x t h data r) (q' : ExecutesAt th x t h data r') : r = r' := by
  obtain ⟨n, e⟩ := (execute_at hu hp r).2 q
  obtain ⟨m, e'⟩ := (execute_at hu hp r').2 q'
  have := (e (max n m) (by omega)).symm.trans (e' (max n m) (by omega))
  exact Option.some.inj this

/-- A larger bound does not change a result. -/
theorem execute_mono {x : Ext} {th : THeap} {t : Nat} (hu : Usable th t) {h : Heap} {data : Option Nat} (hp : Proper h data) {n m : Nat} (hnm : n ≤ m) {r : Out}
    (e : outOf (execute x th n t h data) = some r) : outOf (execute x th m t h data) = some r := by
  rw [← execute_meets_n hu hp] at e ⊢
  refine e.imp fun lang σ q => RendersIn.sim (R := fun d d' => d.2 = d'.2 ∧ d.1 ≤ d'.1) (fun d d' l ⟨e1, e2⟩ ho => ?_) (fun d d' v ⟨e1, e2⟩ => ?_) q (m, t) ⟨rfl, hnm⟩
  · unfold ownN at ho ⊢
    split at ho
    · cases ho
    · rw [if_neg (by omega), ← e1]; exact ho
  · unfold lookN
    rw [← e1]
    cases Registered th d.2 v with
    | none => exact .none
    | some c => exact .some ⟨rfl, by simp only; omega⟩

/-! ## Templates that render alike -/

theorem execute_congr {x : Ext} {th th' : THeap} {t : Nat} (hu : Usable th t) (hu' : Usable th' t)
    (he : ∀ b, Inside th t b → elements th' b = elements th b) (hr : ∀ b v, Inside th t b → Registered th' b v = Registered th b v) {h : Heap} {data : Option Nat}
    (hp : Proper h data) (n : Nat) : execute x th' n t h data = execute x th n t h data := by
  have fwd : ∀ r, ExecutesIn (ownN th) (lookN th) x (n, t) h data r → ExecutesIn (ownN th') (lookN th') x (n, t) h data r := fun r q =>
    q.imp fun lang σ q => RendersIn.sim (R := fun d d' => d = d' ∧ Inside th t d.2) (fun d d' l ⟨e1, e2⟩ ho => by subst e1; rw [ownN, he _ e2]; exact ho)
      (fun d d' v ⟨e1, e2⟩ => by
        subst e1
        unfold lookN
        rw [hr _ _ e2]
        cases e : Registered th d.2 v with
        | none => exact .none
        | some c => exact .some ⟨rfl, .sub e2 e⟩) q (n, t) ⟨rfl, .here⟩
  have bwd : ∀ r, ExecutesIn (ownN th') (lookN th') x (n, t) h data r → ExecutesIn (ownN th) (lookN th) x (n, t) h data r := fun r q =>
    q.imp fun lang σ q => RendersIn.sim (R := fun d d' => d = d' ∧ Inside th t d.2) (fun d d' l ⟨e1, e2⟩ ho => by subst e1; rw [ownN, ← he _ e2]; exact ho)
      (fun d d' v ⟨e1, e2⟩ => by
        subst e1
        unfold lookN
        rw [hr _ _ e2]
        cases e : Registered th d.2 v with
        | none => exact .none
        | some c => exact .some ⟨rfl, .sub e2 e⟩) q (n, t) ⟨rfl, .here⟩
  have key : ∀ r, outOf (execute x th' n t h data) = some r ↔ outOf (execute x th n t h data) = some r := fun r => by
    rw [← execute_meets_n hu hp, ← execute_meets_n hu' hp]
    exact ⟨bwd r, fwd r⟩
  have e : outOf (execute x th' n t h data) = outOf (execute x th n t h data) := Option.ext fun r => by simpa using key r
  generalize execute x th' n t h data = a at e
  generalize execute x th n t h data = b at e
  cases a <;> cases b <;> simp_all [outOf]

/-! ## What the calls do -/

theorem upd_get (th : THeap) (a b : Nat) (f : Tpl → Tpl) : (upd th a f)[b]? = if b = a then th[b]?.map f else th[b]? := by
  unfold upd
  by_cases e : b = a
  · subst e
    rw [if_pos rfl]
    cases h : th[b]? with
    | none => simpa using h
    | some o =>
      have := (List.getElem?_eq_some_iff.1 h).1
      simp [this]
  · rw [if_neg e]
    cases h : th[a]? with
    | none => rfl
    | some o => simp only; rw [List.getElem?_set_ne (Ne.symm e)]

theorem upd_length (th : THeap) (a : Nat) (f : Tpl → Tpl) : (upd th a f).length = th.length := by
  unfold upd; split <;> simp

theorem add_length (th : THeap) (t : Nat) (n : Str) (c : Nat) : (addTemplate th t n c).length = th.length := upd_length ..

theorem add_registered {th : THeap} {t : Nat} (ht : t < th.length) (n : Str) (c b : Nat) (v : Str) :
    Registered (addTemplate th t n c) b v = if b = t ∧ v = n then some c else Registered th b v := by
  simp only [Registered, addTemplate, upd_get]
  by_cases h1 : b = t
  · subst h1
    rw [List.getElem?_eq_getElem ht]
    simp only [Option.map_some, Option.bind_some, if_true, Option.getD_some, AMap.get_set, true_and]
  · simp [h1]

theorem add_root (th : THeap) (t : Nat) (n : Str) (c b : Nat) : (addTemplate th t n c)[b]?.bind Tpl.root = th[b]?.bind Tpl.root := by
  simp only [addTemplate, upd_get]
  split
  · cases th[b]? <;> rfl
  · rfl

theorem add_elements (th : THeap) (t : Nat) (n : Str) (c b : Nat) : elements (addTemplate th t n c) b = elements th b := by
  simp only [elements, add_root]

theorem inside_trans {th : THeap} {a b c : Nat} (h : Inside th a b) (h' : Inside th b c) : Inside th a c := by
  induction h' with
  | here => exact h
  | sub _ e ih => exact .sub ih e

/-- After adding, new templates are inside only through the receiver. -/
theorem inside_add {th : THeap} {t c a b : Nat} {n : Str} (ht : t < th.length) (h : Inside (addTemplate th t n c) a b) :
    Inside th a b ∨ Inside th a t ∧ (Inside th c b) := by
  induction h with
  | here => exact Or.inl .here
  | sub _ e ih =>
    rw [add_registered ht] at e
    split at e
    · next hb =>
      cases e
      rw [hb.1] at ih
      rcases ih with ih | ih
      · exact Or.inr ⟨ih, .here⟩
      · exact Or.inr ⟨ih.1, .here⟩
    · rcases ih with ih | ih
      · exact Or.inl (.sub ih e)
      · exact Or.inr ⟨ih.1, .sub ih.2 e⟩

theorem Usable.add {th : THeap} {t c a : Nat} {n : Str} (ht : t < th.length) (hu : Usable th a) (hc : Usable th c) : Usable (addTemplate th t n c) a := by
  intro b hb
  rw [add_length]
  rcases inside_add ht hb with h | h
  · exact hu b h
  · exact hc b h.2

/-! ## Ranks -/

/-- Sub-templates exist and have a smaller rank. -/
def Ranked (th : THeap) (rank : Nat → Nat) : Prop := ∀ c v s, Registered th c v = some s → s < th.length ∧ rank s < rank c

theorem Ranked.inside {th : THeap} {rank : Nat → Nat} (hr : Ranked th rank) {a b : Nat} (h : Inside th a b) : rank b ≤ rank a := by
  induction h with
  | here => exact Nat.le_refl _
  | sub _ e ih => have := (hr _ _ _ e).2; omega

theorem Ranked.usable {th : THeap} {rank : Nat → Nat} (hr : Ranked th rank) {a : Nat} (ha : a < th.length) : Usable th a := by
  intro b hb
  cases hb with
  | here => exact ha
  | sub _ e => exact (hr _ _ _ e).1

theorem registered_lt {th : THeap} {c s : Nat} {v : Str} (e : Registered th c v = some s) : c < th.length := by
  unfold Registered at e
  by_cases h : c < th.length
  · exact h
  · rw [List.getElem?_eq_none (by omega)] at e; cases e

/-- What every step of the second pass keeps: new templates have only newer ones, the receiver has what it had and new ones. -/
structure Fresh (th0 : Xcore.Template.THeap) (t : Nat) (th : Xcore.Template.THeap) : Prop where
  len : th0.length ≤ th.length
  new : ∀ a v s, th0.length ≤ a → Xcore.Template.Registered th a v = some s → a < s ∧ s < th.length
  self : ∀ v s, Xcore.Template.Registered th t v = some s → Xcore.Template.Registered th0 t v = some s ∨ th0.length ≤ s ∧ s < th.length

theorem kept_fresh {th0 : Xcore.Template.THeap} {t : Nat} (ht : t < th0.length) : Xcore.Template.Kept th0.length t (Fresh th0 t) := by
  have rg : ∀ (th : Xcore.Template.THeap) (a : Nat) (v : Str), Xcore.Template.Registered th a v = th[a]?.bind fun o => (o.subs.getD []).get v := fun _ _ _ => rfl
  refine ⟨fun th d h hl => ⟨by simp; omega, fun a v s ha e => ?_, fun v s e => ?_⟩, fun th a r h ha => ⟨?_, fun b v s hb e => ?_, fun v s e => ?_⟩,
    fun th u v a h ha hu => ⟨by rw [Xcore.Template.addTemplate_length]; exact h.len, fun b w s hb e => ?_, fun w s e => ?_⟩⟩
  · by_cases hal : a < th.length
    · rw [rg, List.getElem?_append_left hal] at e
      have := h.new a v s ha e
      simp; omega
    · rw [rg, List.getElem?_append_right (Nat.le_of_not_lt hal)] at e
      cases hx : a - th.length with
      | zero => rw [hx] at e; simp at e
      | succ k => rw [hx] at e; simp at e
  · rw [rg, List.getElem?_append_left (by omega)] at e
    rcases h.self v s e with q | q
    · exact Or.inl q
    · refine Or.inr ⟨q.1, ?_⟩; simp; omega
  · rw [Xcore.Template.upd_length]; exact h.len
  · rw [Xcore.Template.upd_length]
    refine h.new b v s hb ?_
    rw [rg, Xcore.Template.upd_get'] at e
    rw [rg]
    split at e
    · next q => rw [q]; cases hx : th[a]? <;> rw [hx] at e <;> exact e
    · exact e
  · rw [Xcore.Template.upd_length]
    refine h.self v s ?_
    rw [rg, Xcore.Template.upd_get'] at e
    rw [rg]
    split at e
    · next q => rw [q]; cases hx : th[a]? <;> rw [hx] at e <;> exact e
    · exact e
  · rw [Xcore.Template.addTemplate_length]
    have hul : u < th.length := by have := h.len; omega
    rw [Xcore.Template.add_registered hul] at e
    split at e
    · next q => cases e; obtain ⟨rfl, _⟩ := q; omega
    · exact h.new b w s hb e
  · rw [Xcore.Template.addTemplate_length]
    have hul : u < th.length := by have := h.len; omega
    rw [Xcore.Template.add_registered hul] at e
    split at e
    · cases e; exact Or.inr ha
    · exact h.self w s e

theorem registered_downs (th : Xcore.Template.THeap) (a : Nat) (v : Str) : Registered (downs th) a v = Xcore.Template.Registered th a v := by
  unfold Registered Xcore.Template.Registered
  rw [downs_get]
  cases th[a]? <;> rfl

theorem registered_lifts (th : THeap) (a : Nat) (v : Str) : Xcore.Template.Registered (lifts th) a v = Registered th a v := by
  rw [← registered_downs, downs_lifts]

/-- What loading registers. -/
theorem load_registered {th : THeap} {t : Nat} (ht : t < th.length) (data : Str) :
    th.length ≤ (loadString th t data).1.length ∧
    (∀ a v s, th.length ≤ a → Registered (loadString th t data).1 a v = some s → a < s ∧ s < (loadString th t data).1.length) ∧
    ∀ v s, Registered (loadString th t data).1 t v = some s → Registered th t v = some s ∨ th.length ≤ s ∧ s < (loadString th t data).1.length := by
  have hl : t < (lifts th).length := by rw [lifts_length]; exact ht
  have h0 : Fresh (lifts th) t (lifts th) := by
    refine ⟨Nat.le_refl _, fun a v s ha e => ?_, fun v s e => Or.inl e⟩
    unfold Xcore.Template.Registered at e
    rw [List.getElem?_eq_none ha] at e
    cases e
  have hq := (Xcore.Template.passLoop_kept (kept_fresh hl) (lex data) ⟨lifts th, lex data, [], [], t⟩ 0 h0 (Nat.le_refl _)
    ⟨[], rfl, by simp, .nil⟩ rfl).1
  unfold loadString compile
  simp only [passLoop_eq]
  generalize Xcore.Template.passLoop ⟨lifts th, lex data, [], [], t⟩ 0 (lex data) = r at hq
  obtain ⟨th', q⟩ := r
  simp only at hq
  obtain ⟨h1, h2, h3⟩ := hq
  rw [lifts_length] at h1 h2 h3
  have err : th.length ≤ (downs th').length ∧ (∀ a v s, th.length ≤ a → Registered (downs th') a v = some s → a < s ∧ s < (downs th').length) ∧
      ∀ v s, Registered (downs th') t v = some s → Registered th t v = some s ∨ th.length ≤ s ∧ s < (downs th').length := by
    rw [downs_length]
    refine ⟨h1, fun a v s ha e => h2 a v s ha (by rw [registered_downs] at e; exact e), fun v s e => ?_⟩
    rw [registered_downs] at e
    have := h3 v s e
    rwa [registered_lifts] at this
  cases q with
  | none => exact err
  | some p =>
    simp only [Option.map_some]
    split
    · exact err
    · simp only
      have reg : ∀ (f : Tpl → Tpl), (∀ o, (f o).subs = o.subs) → ∀ a v, Registered (upd (downs th') t f) a v = Registered (downs th') a v := by
        intro f hf a v
        unfold Registered
        rw [upd_get]
        split
        · cases (downs th')[a]? with
          | none => rfl
          | some o => simp [hf]
        · rfl
      rw [upd_length]
      refine ⟨err.1, fun a v s ha e => err.2.1 a v s ha ?_, fun v s e => err.2.2 v s ?_⟩
      · rwa [reg _ (by intro o; rfl)] at e
      · rwa [reg _ (by intro o; rfl)] at e

theorem Built.ranked {th : THeap} (h : Built th) : ∃ rank, Ranked th rank := by
  induction h with
  | start => exact ⟨fun _ => 0, fun c v s e => by simp [Registered] at e⟩
  | @new th _ ih =>
    obtain ⟨rank, hr⟩ := ih
    refine ⟨rank, fun c v s e => ?_⟩
    simp only [newTpl, Registered] at e ⊢
    have : Registered th c v = some s := by
      unfold Registered
      by_cases hc : c < th.length
      · rwa [List.getElem?_append_left hc] at e
      · rw [List.getElem?_append_right (Nat.le_of_not_lt hc)] at e
        cases hx : c - th.length with
        | zero => rw [hx] at e; simp at e
        | succ k => rw [hx] at e; simp at e
    have := hr c v s this
    simp; omega
  | @load th t data _ ht ih =>
    obtain ⟨rank, hr⟩ := ih
    obtain ⟨h1, h2, h3⟩ := load_registered ht data
    obtain ⟨o, e⟩ : ∃ o, th[t]? = some o := ⟨_, List.getElem?_eq_getElem ht⟩
    have hf := (load_frame e data).1
    refine ⟨fun c => if c < th.length then rank c + (loadString th t data).1.length else (loadString th t data).1.length - c, fun c v s e => ?_⟩
    by_cases hc : c < th.length
    · simp only [hc, if_true]
      have old : Registered th c v = some s ∨ th.length ≤ s ∧ s < (loadString th t data).1.length := by
        by_cases hct : c = t
        · subst hct; exact h3 v s e
        · refine Or.inl ?_
          unfold Registered at e ⊢
          rwa [hf c hc hct] at e
      rcases old with q | q
      · have := hr c v s q
        simp only [this.1, if_true]
        omega
      · simp only [Nat.not_lt.2 q.1, if_false]
        omega
    · simp only [hc, if_false]
      have := h2 c v s (Nat.le_of_not_lt hc) e
      rw [if_neg (by omega)]
      omega
  | @add th t c name _ ht hc hn ih =>
    classical
    obtain ⟨rank, hr⟩ := ih
    refine ⟨fun b => if Inside th b t then rank b + rank c + 1 else rank b, fun b v s e => ?_⟩
    rw [add_length]
    rw [add_registered ht] at e
    split at e
    · next q =>
      cases e
      obtain ⟨rfl, _⟩ := q
      simp only [hn, if_false, Inside.here, if_true]
      omega
    · have := hr b v s e
      refine ⟨this.1, ?_⟩
      by_cases hs : Inside th s t
      · simp only [hs, inside_trans (.sub .here e) hs, if_true]; omega
      · simp only [hs, if_false]; split <;> omega

theorem Built.usable {th : THeap} (h : Built th) {t : Nat} (ht : t < th.length) : Usable th t := by
  obtain ⟨rank, hr⟩ := h.ranked
  exact hr.usable ht

/-- Rendering by address ends. -/
theorem renders_at_total {x : Ext} {lang : Option Language.Lang} {th : THeap} {rank : Nat → Nat} (hr : Ranked th rank) {h : Heap} {a : Option Nat} (wf : WF h)
    (hac : ∀ r, a = some r → r < h.length ∧ Acyclic h r) : ∀ (n t : Nat), rank t < n → ∀ σ, Tame h a σ → ∃ r, RendersAt th x lang h t .document σ r := by
  intro n
  induction n with
  | zero => intro t hn; omega
  | succ n ih =>
    intro t hn σ hs
    obtain ⟨r, q⟩ := total_body (own := fun t => some (elements th t)) (look := Registered th) (x := x) (lang := lang) (d := t) wf hac
      (fun v b hv σ hs => ih b (by have := hr _ _ _ hv; omega) σ hs) hs (elements th t)
    exact ⟨r, .document rfl q⟩

theorem executes_at_total {x : Ext} {th : THeap} (hb : Built th) {h : Heap} {data : Option Nat} (hp : Proper h data) (hac : ∀ a, data = some a → Acyclic h a) (t : Nat) :
    ∃ r, ExecutesAt th x t h data r := by
  obtain ⟨rank, hr⟩ := hb.ranked
  have hac' : ∀ r, data = some r → r < h.length ∧ Acyclic h r := by
    intro r e
    obtain ⟨m, hm⟩ := hp.data r e
    exact ⟨(List.getElem?_eq_some_iff.1 hm).1, hac r e⟩
  have ta := Tame.root hp
  cases data with
  | none =>
    obtain ⟨r, q⟩ := renders_at_total (x := x) (lang := none) hr hp.wf hac' (rank t + 1) t (by omega) _ ta
    exact ⟨r, .nil q⟩
  | some a =>
    obtain ⟨r, q⟩ := renders_at_total (x := x) (lang := langOf h (Dataset.get h a b!"#")) hr hp.wf hac' (rank t + 1) t (by omega) _ ta
    exact ⟨r, .data ((langOf_iff hp.wf (hp.data a rfl) _).2 rfl) q⟩

/-! ## Documents by address -/

/-- Templates that are documents. -/
theorem Compiled.elements {th : THeap} {t : Nat} {d : Doc} {old : AMap Nat} (hc : Compiled th t d old) : elements th t = d.own := by
  obtain ⟨o, l, e, hr, _⟩ := hc
  simp only [Template.elements, e, Option.bind_some, hr]

theorem Compiled.look {th : THeap} {t : Nat} {d : Doc} (hc : Compiled th t d []) (v : Str) : OptRel (fun c b => Compiled th c b []) (Registered th t v) (d.find v) := by
  have := hc.get v
  rw [getTemplate_registered] at this
  cases e : d.find v with
  | none => rw [e] at this; simp only at this; rw [this]; exact .none
  | some b =>
    rw [e] at this
    obtain ⟨c, q1, q2⟩ := this
    rw [q1]
    exact .some q2

theorem OptRel.flip {D D' : Type} {R : D → D' → Prop} {o : Option D} {o' : Option D'} (h : OptRel R o o') : OptRel (fun a b => R b a) o' o := by
  cases h with
  | none => exact .none
  | some h => exact .some h

/-- A rendering of related documents is the same. -/
theorem executes_iff_of_rel {D D' : Type} {own : D → Option (List Param)} {look : D → Str → Option D} {own' : D' → Option (List Param)} {look' : D' → Str → Option D'}
    {R : D → D' → Prop} (ho : ∀ d d', R d d' → own d = own' d') (hl : ∀ d d' v, R d d' → OptRel R (look d v) (look' d' v)) {x : Ext} {h : Heap} {d : D} {d' : D'}
    (hr : R d d') {data : Option Nat} {r : Out} : ExecutesIn own look x d h data r ↔ ExecutesIn own' look' x d' h data r :=
  ⟨fun q => q.imp fun _ _ q => q.sim (R := R) (fun d d' l hr e => by rw [← ho d d' hr]; exact e) hl _ hr,
    fun q => q.imp fun _ _ q => q.sim (R := fun a b => R b a) (fun d d' l hr e => by rw [ho _ _ hr]; exact e) (fun d d' v hr => (hl _ _ v hr).flip) _ hr⟩

theorem executes_compiled {x : Ext} {th : THeap} {t : Nat} {d : Doc} (hc : Compiled th t d []) {h : Heap} {data : Option Nat} {r : Out} :
    ExecutesAt th x t h data r ↔ Executes x d h data r :=
  executes_iff_of_rel (R := fun c b => Compiled th c b []) (fun _ _ hc => by rw [hc.elements]) (fun _ _ v hc => hc.look v) hc

theorem executes_added {x : Ext} {th : THeap} {rank : Nat → Nat} (hr : Ranked th rank) {t c : Nat} {d e : Doc} (ht : Compiled th t d []) (hc : Compiled th c e [])
    (hn : ¬ Inside th c t) {name : Str} (hname : namesOf name = [name]) {h : Heap} {data : Option Nat} {r : Out} :
    ExecutesAt (addTemplate th t name c) x t h data r ↔ Executes x (d.withBox name e) h data r := by
  have htl : t < th.length := by
    obtain ⟨o, l, q, _⟩ := ht
    exact (List.getElem?_eq_some_iff.1 q).1
  refine executes_iff_of_rel (R := fun a b => a = t ∧ b = d.withBox name e ∨ ¬ Inside th a t ∧ Compiled th a b []) ?_ ?_ (Or.inl ⟨rfl, rfl⟩)
  · rintro a b (⟨rfl, rfl⟩ | ⟨_, q⟩)
    · rw [add_elements, ht.elements, own_withBox]
    · rw [add_elements, q.elements]
  · rintro a b v (⟨rfl, rfl⟩ | ⟨hi, q⟩)
    · rw [add_registered htl, find_withBox, hname]
      by_cases hv : v = name
      · simp only [hv, and_self, if_true, List.mem_singleton, Option.some_or]
        exact .some (Or.inr ⟨hn, hc⟩)
      · simp only [hv, and_false, if_false, List.mem_singleton, Option.none_or]
        have := ht.look v
        cases e1 : Registered th a v with
        | none => rw [e1] at this; rw [this.none_iff.2 rfl]; exact .none
        | some s =>
          rw [e1] at this
          generalize d.find v = y at this
          cases this with
          | some q =>
            refine .some (Or.inr ⟨fun hi => ?_, q⟩)
            have := hr.inside hi
            have := (hr _ _ _ e1).2
            omega
    · have hat : a ≠ t := fun e => hi (by rw [e]; exact .here)
      rw [add_registered htl]
      simp only [hat, false_and, if_false]
      have := q.look v
      cases e1 : Registered th a v with
      | none => rw [e1] at this; rw [this.none_iff.2 rfl]; exact .none
      | some s =>
        rw [e1] at this
        generalize b.find v = y at this
        cases this with
        | some q => exact .some (Or.inr ⟨fun hi' => hi (inside_trans (.sub .here e1) hi'), q⟩)

end Xcore.V1.Template
