/-!
# Small list lemmas not in the core library
-/

namespace Xcore

theorem nodup_length_le {α : Type} [DecidableEq α] :
    ∀ {l m : List α}, l.Nodup → (∀ x ∈ l, x ∈ m) → l.length ≤ m.length
  | [], _, _, _ => by simp
  | a :: l, m, hn, hs => by
    have ha : a ∈ m := hs a (by simp)
    rw [List.nodup_cons] at hn
    have : l.length ≤ (m.erase a).length := by
      apply nodup_length_le hn.2
      intro x hx
      have hne : x ≠ a := by rintro rfl; exact hn.1 hx
      exact (List.mem_erase_of_ne hne).2 (hs x (by simp [hx]))
    rw [List.length_erase_of_mem ha] at this
    have : 0 < m.length := List.length_pos_of_mem ha
    simp; omega

theorem nodup_perm {α : Type} [DecidableEq α] {l m : List α} (hl : l.Nodup) (hm : m.Nodup)
    (h : ∀ x, x ∈ l ↔ x ∈ m) : l.Perm m := by
  rw [List.perm_iff_count]
  intro a
  rw [hl.count, hm.count]
  simp [h a]

/-- Two lists of the same length whose items are related one by one. -/
inductive All2 {α β : Type} (R : α → β → Prop) : List α → List β → Prop where
  | nil : All2 R [] []
  | cons {a : α} {b : β} {l : List α} {m : List β} : R a b → All2 R l m → All2 R (a :: l) (b :: m)

namespace All2

variable {α β : Type} {R S : α → β → Prop}

theorem length {l : List α} {m : List β} (h : All2 R l m) : l.length = m.length := by
  induction h with
  | nil => rfl
  | cons _ _ ih => simp [ih]

theorem imp {l : List α} {m : List β} (f : ∀ a b, a ∈ l → R a b → S a b) (h : All2 R l m) : All2 S l m := by
  induction h with
  | nil => exact .nil
  | cons h1 _ ih => exact .cons (f _ _ (by simp) h1) (ih fun a b ha => f a b (by simp [ha]))

theorem get {l : List α} {m : List β} (h : All2 R l m) : ∀ (i : Nat) {a : α}, l[i]? = some a → ∃ b, m[i]? = some b ∧ R a b := by
  induction h with
  | nil => intro i a ha; simp at ha
  | @cons a b l m h1 _ ih =>
    intro i a' ha
    cases i with
    | zero => simp at ha; subst ha; exact ⟨b, rfl, h1⟩
    | succ i => simp only [List.getElem?_cons_succ] at ha ⊢; exact ih i ha

theorem get' {l : List α} {m : List β} (h : All2 R l m) : ∀ (i : Nat) {b : β}, m[i]? = some b → ∃ a, l[i]? = some a ∧ R a b := by
  induction h with
  | nil => intro i a ha; simp at ha
  | @cons a b l m h1 _ ih =>
    intro i a' ha
    cases i with
    | zero => simp at ha; subst ha; exact ⟨a, rfl, h1⟩
    | succ i => simp only [List.getElem?_cons_succ] at ha ⊢; exact ih i ha

theorem mem_left {l : List α} {m : List β} (h : All2 R l m) {a : α} (ha : a ∈ l) : ∃ b ∈ m, R a b := by
  obtain ⟨i, hi⟩ := List.mem_iff_getElem?.1 ha
  obtain ⟨b, hb, r⟩ := h.get i hi
  exact ⟨b, List.mem_iff_getElem?.2 ⟨i, hb⟩, r⟩

theorem mem_right {l : List α} {m : List β} (h : All2 R l m) {b : β} (hb : b ∈ m) : ∃ a ∈ l, R a b := by
  obtain ⟨i, hi⟩ := List.mem_iff_getElem?.1 hb
  obtain ⟨a, ha, r⟩ := h.get' i hi
  exact ⟨a, List.mem_iff_getElem?.2 ⟨i, ha⟩, r⟩

/-- A function that is defined on all items of a list relates it to the list of results. -/
theorem diag {R : α → α → Prop} {l : List α} (h : ∀ a ∈ l, R a a) : All2 R l l := by
  induction l with
  | nil => exact .nil
  | cons a l ih => exact .cons (h a (by simp)) (ih fun b hb => h b (by simp [hb]))

theorem of_fun {l : List α} {f : α → β} : All2 (fun a b => f a = b) l (l.map f) := by
  induction l with
  | nil => exact .nil
  | cons a l ih => exact .cons rfl ih

theorem eq_map {l : List α} {m : List β} {f : α → β} (h : All2 (fun a b => f a = b) l m) : m = l.map f := by
  induction h with
  | nil => rfl
  | cons h1 _ ih => simp [← h1, ih]

end All2

end Xcore
