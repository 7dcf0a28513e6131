import Verif.Proof.TemplateScope
import Verif.Proof.TemplateExec
import Verif.Proof.DatasetBound
import Verif.Proof.DatasetWF

/-!
# Data during rendering

The only change to the data is `Set(".counter", i)`; lookups in the scope stack are those of the specification.
-/

namespace Xcore.Dataset

/-- The shape of the data: everything but the entries of datasets; references are not added. -/
structure Shape (h h' : Heap) : Prop where
  len : h'.length = h.length
  other : ∀ (b : Addr) (o : Obj), (∀ m, o ≠ .ds m) → (h'[b]? = some o ↔ h[b]? = some o)
  ds : ∀ b : Addr, (∃ m, h'[b]? = some (.ds m)) ↔ ∃ m, h[b]? = some (.ds m)
  refers : ∀ b c, Refers h' b c → Refers h b c

theorem Shape.refl (h : Heap) : Shape h h := ⟨rfl, fun _ _ _ => Iff.rfl, fun _ => Iff.rfl, fun _ _ r => r⟩

theorem Shape.trans {h1 h2 h3 : Heap} (s : Shape h1 h2) (s' : Shape h2 h3) : Shape h1 h3 :=
  ⟨s'.len.trans s.len, fun b o ho => (s'.other b o ho).trans (s.other b o ho), fun b => (s'.ds b).trans (s.ds b), fun b c r => s.refers b c (s'.refers b c r)⟩

theorem Shape.isDataset {h h' : Heap} (s : Shape h h') (a : Addr) : IsDataset h' a ↔ IsDataset h a := by
  unfold IsDataset
  rw [s.ds]
  constructor <;> rintro (hm | ⟨i, hi⟩)
  · exact Or.inl hm
  · exact Or.inr ⟨i, (s.other a _ (by simp)).1 hi⟩
  · exact Or.inl hm
  · exact Or.inr ⟨i, (s.other a _ (by simp)).2 hi⟩

theorem Shape.isCollection {h h' : Heap} (s : Shape h h') (c : Addr) (l : List (Option Addr)) : IsCollection h' c l ↔ IsCollection h c l := by
  unfold IsCollection
  rw [s.other _ _ (by simp), s.other _ _ (by simp)]

theorem Shape.lang {h h' : Heap} (s : Shape h h') (b : Addr) (l : Language.Lang) : h'[b]? = some (.lang l) ↔ h[b]? = some (.lang l) :=
  s.other b _ (by simp)

theorem Shape.wraps {h h' : Heap} (s : Shape h h') (a t : Addr) : Wraps h' a t ↔ Wraps h a t := by
  constructor
  · intro w
    induction w with
    | plain hm => obtain ⟨m, hm'⟩ := (s.ds _).1 ⟨_, hm⟩; exact .plain hm'
    | wrapper hb _ ih => exact .wrapper ((s.other _ _ (by simp)).1 hb) ih
  · intro w
    induction w with
    | plain hm => obtain ⟨m, hm'⟩ := (s.ds _).2 ⟨_, hm⟩; exact .plain hm'
    | wrapper hb _ ih => exact .wrapper ((s.other _ _ (by simp)).2 hb) ih

theorem Shape.wrapped {h h' : Heap} (s : Shape h h') (nn : Wrapped h) : Wrapped h' :=
  fun a e => nn a ((s.other a _ (by simp)).1 e)

theorem Shape.noNilElement {h h' : Heap} (s : Shape h h') (nn : NoNilElement h) : NoNilElement h' :=
  fun a l hl => nn a l ((s.isCollection a l).1 hl)

theorem Shape.reach {h h' : Heap} (s : Shape h h') {a b : Addr} (r : Reach h' a b) : Reach h a b := by
  induction r with
  | refl => exact .refl
  | step hr _ ih => exact .step (s.refers _ _ hr) ih

theorem Shape.acyclic {h h' : Heap} (s : Shape h h') {a : Addr} (ac : Acyclic h a) : Acyclic h' a :=
  fun b c rb hr hc => ac b c (s.reach rb) (s.refers b c hr) (s.reach hc)

theorem Shape.short {h h' : Heap} (s : Shape h h') (sh : Short h) : Short h' := fun c l hl => sh c l ((s.isCollection c l).1 hl)

/-- Setting an entry to a value without references keeps the shape. -/
theorem shape_set {h : Heap} {t : Addr} {m : AMap Val} (hm : h[t]? = some (.ds m)) {k : Str} {v : Val} (hp : ∀ a, v ≠ .ptr a) (hs : ∀ sk a, v ≠ .slice sk a) :
    Shape h (h.set t (.ds (m.set k v))) := by
  have hlt := lt_of_getElem? hm
  have get : ∀ b : Addr, (h.set t (.ds (m.set k v)))[b]? = if b = t then some (.ds (m.set k v)) else h[b]? := by
    intro b
    rw [List.getElem?_set]
    by_cases e : t = b
    · subst e; simp [hlt]
    · rw [if_neg e, if_neg (Ne.symm e)]
  have other : ∀ (b : Addr) (o : Obj), (∀ m, o ≠ .ds m) → ((h.set t (.ds (m.set k v)))[b]? = some o ↔ h[b]? = some o) := by
    intro b o ho
    rw [get]
    by_cases e : b = t
    · subst e
      rw [if_pos rfl, hm]
      constructor <;> intro e <;> cases e <;> exact absurd rfl (ho _)
    · rw [if_neg e]
  refine ⟨by simp, other, fun b => ?_, fun b c r => ?_⟩
  · rw [get]
    by_cases e : b = t
    · subst e; rw [if_pos rfl]; exact ⟨fun _ => ⟨m, hm⟩, fun _ => ⟨_, rfl⟩⟩
    · rw [if_neg e]
  · cases r with
    | @ptr m' k' hb hmem =>
      rw [get] at hb
      by_cases e : b = t
      · subst e
        rw [if_pos rfl] at hb
        cases hb
        rcases mem_set_cases hmem with e | hmem
        · cases e; exact absurd rfl (hp _)
        · exact .ptr hm hmem
      · rw [if_neg e] at hb; exact .ptr hb hmem
    | @slice m' k' sk hb hmem =>
      rw [get] at hb
      by_cases e : b = t
      · subst e
        rw [if_pos rfl] at hb
        cases hb
        rcases mem_set_cases hmem with e | hmem
        · cases e; exact absurd rfl (hs _ _)
        · exact .slice hm hmem
      · rw [if_neg e] at hb; exact .slice hb hmem
    | wrapped hb => exact .wrapped ((other _ _ (by simp)).1 hb)
    | elem hl he =>
      refine .elem (l := _) ?_ he
      rcases hl with hl | hl
      · exact Or.inl ((other _ _ (by simp)).1 hl)
      · exact Or.inr ((other _ _ (by simp)).1 hl)

end Xcore.Dataset

namespace Xcore.Template

open Xcore.Dataset

theorem shape_counter {h h' : Heap} {a : Nat} {i : Int} (e : SetCounter h a i h') : Shape h h' := by
  obtain ⟨t, m, _, hm, rfl⟩ := e
  exact shape_set hm (by simp) (by simp)

theorem wf_counter {h h' : Heap} (wf : WF h) {a : Nat} {i : Int} (hi : 0 ≤ i ∧ i < 2 ^ 63) (e : SetCounter h a i h') : WF h' := by
  obtain ⟨t, m, _, hm, rfl⟩ := e
  refine wf_set wf hm trivial ⟨AMap.nodup_set (wf.nodup t m hm) _ _, ?_⟩
  intro k v hv
  rcases mem_set_cases hv with e | hv
  · cases e
    have h1 := hi.1
    have h2 := hi.2
    simp only [Valid, OfKind]
    constructor <;> omega
  · exact wf.valid t m k v hm hv

theorem set_counter {h h' : Heap} (wf : WF h) {a : Nat} {i : Int} :
    Dataset.set h a b!".counter" (.int .int i) = .ok h' ↔ SetCounter h a i h' := by
  constructor
  · intro e
    obtain ⟨t, m, ht, hm, e⟩ := set_eq e
    exact ⟨t, m, (target_iff wf).1 ht, hm, e⟩
  · rintro ⟨t, m, w, hm, rfl⟩
    unfold Dataset.set
    rw [(target_iff wf).2 w]
    simp only [entries_of hm]

theorem Ready.push {h : Heap} {l : List Nat} (r : Ready h (some l)) {a : Nat} (ha : IsDataset h a) : Ready h (some (a :: l)) :=
  ⟨r.wf, r.wrapped, r.short, by
    intro l' e b hb
    cases e
    rcases List.mem_cons.1 hb with rfl | hb
    · exact ha
    · exact r.data l rfl b hb⟩

theorem pushSt_stackOf (h : Heap) (l : List Nat) (a : Nat) : pushSt ⟨h, stackOf (some l)⟩ (some a) = .ok ⟨h, stackOf (some (a :: l))⟩ := by
  simp [pushSt, stackOf]

theorem popSt_stackOf (h : Heap) (l : List Nat) (a : Nat) : popSt ⟨h, stackOf (some (a :: l))⟩ = .ok ⟨h, stackOf (some l)⟩ := by
  simp [popSt, stackOf]

theorem has_iff {h : Heap} (wf : WF h) {a : Nat} {path : Str} {v : Val} : Has h a path v ↔ Dataset.get h a path = .ok (some v) :=
  ⟨leads_getSegs wf, getSegs_leads⟩

theorem getDataL_value {h : Heap} {l : List Nat} (r : Ready h (some l)) (key : Str) :
    ∃ o, getDataL h key (l.map some) = .ok o ∧ ∀ v, ValueAt h (some l) key v ↔ v = o.getD .nil := by
  induction l with
  | nil =>
    refine ⟨none, rfl, fun v => ⟨fun e => by cases e; rfl, ?_⟩⟩
    rintro rfl
    exact .missing
  | cons a l ih =>
    obtain ⟨o, e, hv⟩ := ih ⟨r.wf, r.wrapped, r.short, fun l' e b hb => by cases e; exact r.data _ rfl b (by simp [hb])⟩
    obtain ⟨q, hq⟩ := getSegs_no_panic r.wf r.wrapped (r.data _ rfl a (by simp)) (split 62 key)
    have hq : Dataset.get h a key = .ok q := hq
    simp only [List.map_cons, getDataL, hq]
    cases q with
    | some w =>
      refine ⟨some w, rfl, fun v => ⟨fun e => ?_, ?_⟩⟩
      · cases e with
        | here hw => rw [has_iff r.wf, hq] at hw; cases hw; rfl
        | outer hno _ => exact absurd ((has_iff r.wf).2 hq) (hno w)
      · rintro rfl
        exact .here ((has_iff r.wf).2 hq)
    | none =>
      refine ⟨o, e, fun v => ⟨fun e => ?_, fun e => ?_⟩⟩
      · cases e with
        | here hw => rw [has_iff r.wf, hq] at hw; cases hw
        | outer _ h' => exact (hv v).1 h'
      · refine .outer (fun w hw => ?_) ((hv v).2 e)
        rw [has_iff r.wf, hq] at hw; cases hw

/-- Lookup in the scope stack. -/
theorem stackGet_value {h : Heap} {l : List Nat} (r : Ready h (some l)) (key : Str) :
    ∃ o, stackGet h (l.reverse.map some) key = .ok o ∧ ∀ v, ValueAt h (some l) key v ↔ v = o.getD .nil := by
  obtain ⟨o, e, hv⟩ := getDataL_value r key
  exact ⟨o, by simpa [stackGet] using e, hv⟩

theorem ofFuel_ok {α : Type} {o : Option α} {a : α} : ofFuel o = .ok a ↔ o = some a := by
  cases o <;> simp [ofFuel]

/-- Printing within the bound. -/
theorem shows_iff {x : Ext} {h : Heap} (wf : WF h) {v : Val} (hv : v ≠ .nil) {s : Str} : Shows x h v s ↔ sprint x (printBound h) h v = some s := by
  constructor
  · rintro (⟨e, _⟩ | ⟨_, n, hp⟩)
    · exact absurd e hv
    · exact sprint_bound wf ((prints_iff x n h v s).1 hp)
  · intro e
    exact Or.inr ⟨hv, _, (prints_iff x _ h v s).2 e⟩

theorem shows_nil {x : Ext} {h : Heap} {s : Str} : Shows x h .nil s ↔ s = [] := by simp [Shows]

theorem shows_det {x : Ext} {h : Heap} {v : Val} {s s' : Str} (h1 : Shows x h v s) (h2 : Shows x h v s') : s = s' := by
  rcases h1 with ⟨e, rfl⟩ | ⟨hn, n, hp⟩
  · rcases h2 with ⟨_, rfl⟩ | ⟨hn', _⟩
    · rfl
    · exact absurd e hn'
  · rcases h2 with ⟨e, _⟩ | ⟨_, m, hp'⟩
    · exact absurd e hn
    · rw [prints_iff] at hp hp'; exact sprint_det hp hp'

/-- Text of a value in the scope stack. -/
theorem stackString_shows {x : Ext} {h : Heap} {l : List Nat} (r : Ready h (some l)) (key s : Str) :
    stackString x h (l.reverse.map some) key = .ok s ↔ ∃ v, ValueAt h (some l) key v ∧ Shows x h v s := by
  obtain ⟨o, e, hv⟩ := stackGet_value r key
  have hv' : (∃ v, ValueAt h (some l) key v ∧ Shows x h v s) ↔ Shows x h (o.getD .nil) s := by
    constructor
    · rintro ⟨v, h1, h2⟩; rw [(hv v).1 h1] at h2; exact h2
    · intro h2; exact ⟨_, (hv _).2 rfl, h2⟩
  rw [hv']
  unfold stackString
  rw [e]
  simp only [Res.bind_ok]
  cases o with
  | none => simp [shows_nil, eq_comm]
  | some v =>
    by_cases hn : v = .nil
    · subst hn; simp [shows_nil, eq_comm]
    · simp only [Option.getD_some]
      rw [shows_iff r.wf hn, ← ofFuel_ok]

/-- Values of the scope stack exist. -/
theorem valueAt_valid {h : Heap} (wf : WF h) {σ : Option (List Nat)} {key : Str} {v : Val} (hv : ValueAt h σ key v) (a : Nat) (e : v = .ptr a) : a < h.length := by
  have leads : ∀ {b : Nat} {l : List Str} {v : Val}, Leads h b l v → ∀ a, v = .ptr a → a < h.length := by
    have entry : ∀ {b : Nat} {k : Str} {v : Val}, Entry h b k v → ∀ a, v = .ptr a → a < h.length := by
      rintro b k v ⟨t, m, _, hm, hg⟩ a rfl
      exact wf.valid t m k _ hm (AMap.mem_of_get hg)
    have elem : ∀ {c e : Nat} {l : List (Option Nat)} {i : Nat}, IsCollection h c l → l[i]? = some (some e) → e < h.length := by
      intro c e l i hl hi
      have := wf.elem c l e hl (List.mem_of_getElem? hi)
      rcases this with ⟨m, hm⟩ | ⟨m, hm⟩ <;> exact lt_of_getElem? hm
    intro b l v hl
    induction hl with
    | entry he => exact entry he
    | dataset _ _ _ ih => exact ih
    | element _ hc _ hi => rintro a e; cases e; exact elem hc hi
    | through _ _ _ _ _ ih => exact ih
    | literal _ _ he => exact entry he
  induction hv with
  | here hw => exact leads hw a e
  | outer _ _ ih => exact ih e
  | missing => cases e
  | noData => cases e

/-- Which objects have an empty text. -/
theorem text_empty {x : Ext} {h : Heap} {a : Nat} (wf : WF h) {m : Nat} {s : Str} (e : sprint x m h (.ptr a) = some s) :
    s = [] ↔ ¬ (IsDataset h a ∨ (∃ l, IsCollection h a l) ∨ ∃ l, h[a]? = some (.lang l)) := by
  cases m with
  | zero => cases e
  | succ m =>
    unfold IsDataset IsCollection
    cases ho : h[a]? with
    | none => simp only [sprint, ho] at e; cases e; simp
    | some o =>
      cases o with
      | ds mm =>
        simp only [sprint, ho] at e
        generalize mapOpt _ mm = q at e
        cases q with
        | none => cases e
        | some q => cases e; simp
      | dsTS i =>
        simp only [sprint, ho] at e
        cases ht : target h a with
        | none => simp only [ht] at e; cases e; simp [panicText]
        | some t =>
          simp only [ht] at e
          obtain ⟨mm, hm⟩ := wraps_ds ((target_iff wf).1 ht)
          cases m with
          | zero => cases e
          | succ m =>
            simp only [sprint, hm] at e
            generalize mapOpt _ mm = q at e
            cases q with
            | none => cases e
            | some q => cases e; simp
      | col l =>
        simp only [sprint, ho] at e
        generalize mapOpt _ l = q at e
        cases q with
        | none => cases e
        | some q => cases e; simp
      | colTS l =>
        simp only [sprint, ho] at e
        generalize mapOpt _ l = q at e
        cases q with
        | none => cases e
        | some q => cases e; simp
      | lang l => simp only [sprint, ho] at e; cases e; simp [Language.toString]
      | slice l => simp only [sprint, ho] at e; cases e; simp

/-- After a change that keeps the shape, a value with a text still has one, and it is empty only if it was. -/
theorem shows_shape {x : Ext} {h h' : Heap} (wf : WF h) (wf' : WF h') (sh : Shape h h') {v : Val} {s : Str} (hs : Shows x h v s) :
    ∃ s', Shows x h' v s' ∧ (s' = [] ↔ s = []) := by
  rcases hs with ⟨rfl, rfl⟩ | ⟨hn, n, hp⟩
  · exact ⟨[], Or.inl ⟨rfl, rfl⟩, Iff.rfl⟩
  · rw [prints_iff] at hp
    cases n with
    | zero => cases hp
    | succ n =>
      cases v with
      | ptr a =>
        have same : (IsDataset h' a ∨ (∃ l, IsCollection h' a l) ∨ ∃ l, h'[a]? = some (.lang l)) ↔
            (IsDataset h a ∨ (∃ l, IsCollection h a l) ∨ ∃ l, h[a]? = some (.lang l)) := by
          simp only [sh.isDataset, sh.isCollection, sh.lang]
        rcases Nat.lt_or_ge a h.length with ha | ha
        · have ac := sh.acyclic (printable_acyclic wf (Or.inl ⟨s, hp⟩))
          obtain ⟨⟨s', e'⟩, _⟩ := sprint_total x wf' (by rw [sh.len]; exact ha) ac (d := 2 * h'.length + 1) (by omega)
          refine ⟨s', Or.inr ⟨hn, _, (prints_iff ..).2 e'⟩, ?_⟩
          rw [text_empty wf hp, text_empty wf' e', same]
        · have e' : sprint x 1 h' (.ptr a) = some [] := by simp only [sprint, List.getElem?_eq_none (by rw [sh.len]; exact ha)]
          refine ⟨[], Or.inr ⟨hn, 1, (prints_iff ..).2 e'⟩, ?_⟩
          rw [text_empty wf hp, ← same, ← text_empty wf' e']
      | slice sk a =>
        refine ⟨s, Or.inr ⟨hn, n + 1, (prints_iff ..).2 ?_⟩, Iff.rfl⟩
        simp only [sprint] at hp ⊢
        cases ho : h[a]? with
        | none =>
          have : h'[a]? = none := by
            rw [List.getElem?_eq_none_iff] at ho ⊢; rw [sh.len]; exact ho
          rw [this]; rw [ho] at hp; exact hp
        | some o =>
          rw [ho] at hp
          by_cases hd : ∃ m, o = .ds m
          · obtain ⟨m, rfl⟩ := hd
            obtain ⟨m', hm'⟩ := (sh.ds a).2 ⟨m, ho⟩
            rw [hm']; exact hp
          · rw [(sh.other a o fun m e => hd ⟨m, e⟩).2 ho]; exact hp
      | _ => exact ⟨s, Or.inr ⟨hn, n + 1, (prints_iff ..).2 hp⟩, Iff.rfl⟩

end Xcore.Template
