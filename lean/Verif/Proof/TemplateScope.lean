import Verif.Proof.TemplateBuild
import Verif.Base.ListAux

/-! # Lookup of templates -/

namespace Xcore.Template

theorem Chain.unique {th : THeap} {t : Nat} {l l' : List Nat} (h : Chain th t l) (h' : Chain th t l') : l = l' := by
  induction h generalizing l' with
  | top e f =>
    cases h' with
    | top => rfl
    | sub e' f' => rw [e] at e'; cases e'; rw [f] at f'; cases f'
  | sub e f _ ih =>
    cases h' with
    | top e' f' => rw [e] at e'; cases e'; rw [f] at f'; cases f'
    | sub e' f' h' => rw [e] at e'; cases e'; rw [f] at f'; cases f'; rw [ih h']

theorem Chain.mem {th : THeap} {t : Nat} {l : List Nat} (h : Chain th t l) {c : Nat} (hc : c ∈ l) :
    ∃ l', Chain th c l' ∧ l'.length ≤ l.length ∧ c < th.length := by
  induction h with
  | top e f => simp at hc; subst hc; exact ⟨_, .top e f, Nat.le_refl _, (List.getElem?_eq_some_iff.1 e).1⟩
  | sub e f h ih =>
    rcases List.mem_cons.1 hc with rfl | hc
    · exact ⟨_, .sub e f h, Nat.le_refl _, (List.getElem?_eq_some_iff.1 e).1⟩
    · obtain ⟨l', h1, h2, h3⟩ := ih hc
      exact ⟨l', h1, by simp; omega, h3⟩

theorem Chain.nodup {th : THeap} {t : Nat} {l : List Nat} (h : Chain th t l) : l.Nodup := by
  induction h with
  | top => simp
  | sub e f h ih =>
    refine List.nodup_cons.2 ⟨fun hm => ?_, ih⟩
    obtain ⟨l', h1, h2, _⟩ := h.mem hm
    have := h1.unique (.sub e f h)
    rw [this] at h2
    simp at h2
    omega

theorem Chain.length_le {th : THeap} {t : Nat} {l : List Nat} (h : Chain th t l) : l.length ≤ th.length := by
  have := nodup_length_le (m := List.range th.length) h.nodup fun c hc => by
    obtain ⟨_, _, _, hl⟩ := h.mem hc
    exact List.mem_range.2 hl
  simpa using this

/-- Lookup along the fathers. -/
theorem getTemplateN_chain {th : THeap} {t : Nat} {l : List Nat} (h : Chain th t l) (v : Str) : ∀ n, l.length ≤ n →
    getTemplateN n th t v = .ok (l.findSome? fun a => Registered th a v) := by
  induction h with
  | top e f =>
    intro n hn
    cases n with
    | zero => simp at hn
    | succ n =>
      simp only [getTemplateN, e, f]
      simp only [List.findSome?_cons, Registered, e, Option.bind_some, List.findSome?_nil]
      cases AMap.get (Option.getD (_ : Option (AMap Nat)) []) v <;> rfl
  | @sub t f' o l e f h ih =>
    intro n hn
    cases n with
    | zero => simp at hn
    | succ n =>
      have hr : Registered th t v = (o.subs.getD []).get v := by simp [Registered, e]
      simp only [getTemplateN, e, f]
      rw [List.findSome?_cons, hr]
      cases (o.subs.getD []).get v with
      | some s => rfl
      | none => exact ih n (by simpa using hn)

theorem getTemplate_chain {th : THeap} {t : Nat} {l : List Nat} (h : Chain th t l) (v : Str) :
    getTemplate th t v = .ok (l.findSome? fun a => Registered th a v) :=
  getTemplateN_chain h v _ (by have := h.length_le; omega)

/-- A name in the boxes of a document. -/
theorem BoxesAt.find {th : THeap} {a : Nat} {d : Doc} {l : List (Str × Nat)} (h : BoxesAt th a d l) (v : Str) :
    match d.find v with
    | none => lastNamed l v = none
    | some b => ∃ t o, lastNamed l v = some t ∧ th[t]? = some o ∧ o.father = some a ∧ Compiled th t b [] := by
  induction h with
  | nil => rfl
  | elem _ ih => exact ih
  | @box a t n b r o l lb h1 h2 h3 h4 h5 h6 _ _ ihr =>
    simp only [Doc.find, lastNamed]
    cases e : r.find v with
    | some b' =>
      rw [e] at ihr
      obtain ⟨t', o', q1, q2⟩ := ihr
      exact ⟨t', o', by simp [q1], q2⟩
    | none =>
      rw [e] at ihr
      simp only at ihr
      by_cases hv : v ∈ namesOf n
      · have hne : namesOf n ≠ [] := fun e => by rw [e] at hv; cases hv
        simp only [ihr, hv, if_true, Option.none_or]
        exact ⟨t, o, rfl, h1, by rw [h4, if_neg hne], o, lb, h1, h3, h5, by simp [h6]⟩
      · simp [ihr, hv]

theorem InScope.chain {th : THeap} {t : Nat} {s : List Doc} (h : InScope th t s) : ∃ l, Chain th t l := by
  induction h with
  | top e f => exact ⟨_, .top e f⟩
  | sub _ e f _ ih => obtain ⟨l, h⟩ := ih; exact ⟨_, .sub e f h⟩

theorem InScope.compiled {th : THeap} {t : Nat} {d : Doc} {s : List Doc} (h : InScope th t (d :: s)) : Compiled th t d [] := by
  cases h with
  | top _ _ c => exact c
  | sub _ _ _ c => exact c

theorem Registered_compiled {th : THeap} {t : Nat} {d : Doc} (h : Compiled th t d []) (v : Str) :
    match d.find v with
    | none => Registered th t v = none
    | some b => ∃ c o, Registered th t v = some c ∧ th[c]? = some o ∧ o.father = some t ∧ Compiled th c b [] := by
  obtain ⟨o, l, e, _, hb, hs⟩ := h
  have hr : Registered th t v = lastNamed l v := by
    simp only [Registered, e, Option.bind_some, hs, AMap.get_nil]
    cases lastNamed l v <;> rfl
  have := hb.find v
  rw [hr]
  exact this

/-- Lookup is lexical. -/
theorem InScope.lookup {th : THeap} {t : Nat} {s : List Doc} (h : InScope th t s) (v : Str) :
    match lookup s v with
    | none => getTemplate th t v = .ok none
    | some s' => ∃ c, getTemplate th t v = .ok (some c) ∧ InScope th c s' := by
  have key : ∀ l, Chain th t l → match Template.lookup s v with
      | none => l.findSome? (fun a => Registered th a v) = none
      | some s' => ∃ c, l.findSome? (fun a => Registered th a v) = some c ∧ InScope th c s' := by
    induction h with
    | @top t d o e f c =>
      intro l hl
      cases hl.unique (.top e f)
      have := Registered_compiled c v
      simp only [Template.lookup]
      generalize d.find v = x at this
      cases x with
      | none => simp at this; simp [this]
      | some b =>
        obtain ⟨x, o', q1, q2, q3, q4⟩ := this
        exact ⟨x, by simp [q1], .sub (.top e f c) q2 q3 q4⟩
    | @sub a t d b up o hs e f c ih =>
      intro l hl
      cases hl with
      | top e' f' => rw [e] at e'; cases e'; rw [f] at f'; cases f'
      | @sub _ _ _ l' e' f' hl' =>
        rw [e] at e'; cases e'; rw [f] at f'; cases f'
        have := Registered_compiled c v
        have ih := ih l' hl'
        simp only [Template.lookup] at ih ⊢
        generalize b.find v = x at this
        cases x with
        | none =>
          simp only at this
          simp only [List.findSome?_cons, this]
          exact ih
        | some b' =>
          obtain ⟨x, o', q1, q2, q3, q4⟩ := this
          exact ⟨x, by simp [q1], .sub (.sub hs e f c) q2 q3 q4⟩
  obtain ⟨l, hl⟩ := h.chain
  rw [getTemplate_chain hl]
  have := key l hl
  cases e : Template.lookup s v with
  | none => rw [e] at this; simp only at this; rw [this]
  | some s' =>
    rw [e] at this
    obtain ⟨c, q1, q2⟩ := this
    exact ⟨c, by rw [q1], q2⟩

end Xcore.Template
