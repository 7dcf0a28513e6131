import Verif.Spec.TemplateGraph
import Verif.Proof.TemplateRender

/-! # Templates in memory as places -/

namespace Xcore.Template

theorem Chain.fathers {th : THeap} {t : Nat} {l : List Nat} (h : Chain th t l) : ∀ n, l.length ≤ n → fathers th n t = l := by
  induction h with
  | top e f =>
    intro n hn
    cases n with
    | zero => simp at hn
    | succ n => simp [Template.fathers, e, f]
  | sub e f h ih =>
    intro n hn
    cases n with
    | zero => simp at hn
    | succ n => simp [Template.fathers, e, f, ih n (by simpa using hn)]

theorem Chain.seen {th : THeap} {t : Nat} {l : List Nat} (h : Chain th t l) (v : Str) : seen th t v = l.findSome? fun a => Registered th a v := by
  rw [Template.seen, h.fathers _ h.length_le]

theorem Chain.exists {th : THeap} {t : Nat} {l : List Nat} (h : Chain th t l) : ∃ o, th[t]? = some o := by
  cases h with
  | top e _ => exact ⟨_, e⟩
  | sub e _ _ => exact ⟨_, e⟩

theorem Comes.trans {th : THeap} {a b c : Nat} (h : Comes th a b) (h' : Comes th b c) : Comes th a c := by
  induction h' with
  | here => exact h
  | father _ e f ih => exact .father ih e f
  | sub _ e ih => exact .sub ih e

theorem Chain.comes {th : THeap} {t : Nat} {l : List Nat} (h : Chain th t l) : ∀ c ∈ l, Comes th t c := by
  induction h with
  | top => intro c hc; simp at hc; subst hc; exact .here
  | sub e f _ ih =>
    intro c hc
    rcases List.mem_cons.1 hc with rfl | hc
    · exact .here
    · exact (Comes.father .here e f).trans (ih c hc)

theorem Usable.comes {th : THeap} {a b : Nat} (h : Usable th a) (c : Comes th a b) : Usable th b := fun d q => h d (c.trans q)

theorem Usable.seen {th : THeap} {t : Nat} (h : Usable th t) (v : Str) : getTemplate th t v = .ok (seen th t v) := by
  obtain ⟨l, hl⟩ := h t .here
  rw [getTemplate_chain hl, hl.seen]

theorem Usable.sub {th : THeap} {t c : Nat} (h : Usable th t) {v : Str} (e : Template.seen th t v = some c) : Comes th t c := by
  obtain ⟨l, hl⟩ := h t .here
  rw [hl.seen] at e
  obtain ⟨a, ha, e⟩ := List.exists_of_findSome?_eq_some e
  exact .sub (hl.comes a ha) e

/-- Every template is a place of its own. -/
def memView (th : THeap) : View th (elements th) (seen th) where
  rel := fun t sc => t = sc ∧ Usable th t
  lookup := by
    rintro t sc ⟨rfl, hu⟩ v
    rw [hu.seen]
    cases e : Template.seen th t v with
    | none => rfl
    | some c => exact ⟨c, rfl, rfl, hu.comes (hu.sub e)⟩
  root := by
    rintro t sc ⟨rfl, hu⟩
    obtain ⟨l, hl⟩ := hu t .here
    obtain ⟨o, ho⟩ := hl.exists
    refine ⟨o, ho, ?_⟩
    simp only [elements, ho, Option.bind_some]
    cases o.root with
    | some l => exact Or.inl rfl
    | none => exact Or.inr ⟨rfl, rfl⟩

theorem Usable.view {th : THeap} {t : Nat} (h : Usable th t) : InView (memView th) t t := ⟨rfl, h⟩

/-- Loaded templates are usable. -/
theorem InScope.usable {th : THeap} {t : Nat} {sc : List Doc} (h : InScope th t sc) : Usable th t := by
  have key : ∀ c, Comes th t c → ∃ sc, InScope th c sc := by
    intro c hc
    induction hc with
    | here => exact ⟨sc, h⟩
    | father _ e f ih =>
      obtain ⟨sc, hi⟩ := ih
      cases hi with
      | top e' f' => rw [e] at e'; cases e'; rw [f] at f'; cases f'
      | sub hs e' f' => rw [e] at e'; cases e'; rw [f] at f'; cases f'; exact ⟨_, hs⟩
    | @sub c s v _ e ih =>
      obtain ⟨sc, hi⟩ := ih
      cases sc with
      | nil => cases hi
      | cons d up =>
        have := Registered_compiled hi.compiled v
        cases ed : d.find v with
        | none => rw [ed] at this; simp only at this; rw [this] at e; cases e
        | some b =>
          rw [ed] at this
          obtain ⟨c', o, q1, q2, q3, q4⟩ := this
          rw [q1] at e
          cases e
          exact ⟨_, .sub hi q2 q3 q4⟩
  exact fun c hc => (key c hc).elim fun _ hi => hi.chain

theorem InScope.elements {th : THeap} {t : Nat} {d : Doc} {up : List Doc} (h : InScope th t (d :: up)) : elements th t = d.own := by
  obtain ⟨o, _, ho, hroot, _⟩ := h.compiled
  simp [Template.elements, ho, hroot]

end Xcore.Template
