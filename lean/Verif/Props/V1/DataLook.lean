import Verif.Proof.V1.DataEntry

/-!
# Version 1: only what a template looks up in its data matters (C117)
-/

namespace Xcore.V1.Template

open Xcore.Template (Kind Param parts)
open Xcore.Dataset (Ext Val OfKind)
open Xcore.V1.Dataset

/-- **C117** Data that look the same to the elements of a template and of the templates in it give the same page: the same text, or both panic, or neither
ends. The data may be in different memories, and there may be anything else in them. -/
theorem C117_same_data_same_page {x : Ext} {th : THeap} {t : Nat} (hu : Usable th t) {h h' : Heap} {a a' : Nat} (hp : Proper h (some a)) (hp' : Proper h' (some a'))
    {R : Nat → Nat → Prop} (hd : DataTheSame x (ElementOf th t) h h' R) (hr : RootTheSame x (ElementOf th t) h h' a a') (r : R a a') (n : Nat) :
    execute x th n t h (some a) = execute x th n t h' (some a') := execute_same_data hu hp hp' hd hr r n

/-- **C117** In particular, writing an entry that no element asks for, in any dataset, does not change the page, if the template has no dump and prints no
datasets or collections (these show everything), and the entry is not `#` or the template has no language elements. -/
theorem C117_set_not_looked_up {th : THeap} {t : Nat} (hu : Usable th t) {h : Heap} {a b : Nat} {k : Str} {v : Val} (hb : IsDataset h b) (hp : Proper h (some a))
    (hp' : Proper (set h b k v) (some a)) (hn : ∀ p way key, ElementOf th t p → LooksUp p way key → ¬ AsksFor key k)
    (ht : ∀ p way key c w, ElementOf th t p → LooksUp p way key → way = .text ∨ way = .test → Leads h c (split 62 key) w → Plain h w)
    (hl : k ≠ b!"#" ∨ ∀ id, ¬ ElementOf th t ⟨.language, id⟩) (hd : ∀ s, ElementOf th t ⟨.dump, s⟩ → s ≠ b!"dump" ∧ s ≠ b!"list") (x : Ext) (n : Nat) :
    execute x th n t (set h b k v) (some a) = execute x th n t h (some a) :=
  (execute_same_data hu hp hp' ((differ_set hb k v).same hp.wf hp'.wf x hn ht) ((differ_set hb k v).root x hl hd a) rfl n).symm

/-- **C117** The same for deleting such an entry. -/
theorem C117_del_not_looked_up {th : THeap} {t : Nat} (hu : Usable th t) {h : Heap} {a b : Nat} {k : Str} (hb : IsDataset h b) (hp : Proper h (some a))
    (hp' : Proper (del h b k) (some a)) (hn : ∀ p way key, ElementOf th t p → LooksUp p way key → ¬ AsksFor key k)
    (ht : ∀ p way key c w, ElementOf th t p → LooksUp p way key → way = .text ∨ way = .test → Leads h c (split 62 key) w → Plain h w)
    (hl : k ≠ b!"#" ∨ ∀ id, ¬ ElementOf th t ⟨.language, id⟩) (hd : ∀ s, ElementOf th t ⟨.dump, s⟩ → s ≠ b!"dump" ∧ s ≠ b!"list") (x : Ext) (n : Nat) :
    execute x th n t (del h b k) (some a) = execute x th n t h (some a) :=
  (execute_same_data hu hp hp' ((differ_del hb k).same hp.wf hp'.wf x hn ht) ((differ_del hb k).root x hl hd a) rfl n).symm

/-- A template with a field and a box for the user. -/
def greeting : THeap := (newFromString [] b!"{{title}} &&user:who&&[[user]]{{who>name}}[[]]").1

/-- Data for it. -/
def visitor : Heap := [.ds [(b!"title", .str b!"Hi"), (b!"who", .ptr 1)], .ds [(b!"name", .str b!"Ada"), (b!"age", .int .int 36)]]

theorem greeting_elements {p : Param} (hp : ElementOf greeting 0 p) : p = ⟨.variable, b!"title"⟩ ∨ p = ⟨.string, b!" "⟩ ∨ p = ⟨.reference, b!"user:who"⟩ ∨ p = ⟨.variable, b!"who>name"⟩ := by
  obtain ⟨c, hi, hm⟩ := hp
  have all : ∀ c : Nat, ∀ p ∈ elements greeting c, p ∈ ([⟨.variable, b!"title"⟩, ⟨.string, b!" "⟩, ⟨.reference, b!"user:who"⟩, ⟨.variable, b!"who>name"⟩,
      ⟨.string, b!"Error, no template.Root compiled"⟩] : List Param) := by
    intro c
    match c with
    | 0 => decide +kernel
    | 1 => decide +kernel
    | c + 2 =>
      have : elements greeting (c + 2) = [⟨.string, b!"Error, no template.Root compiled"⟩] := by
        have : greeting[c + 2]? = none := List.getElem?_eq_none (by rw [show greeting.length = 2 by decide +kernel]; omega)
        simp [elements, this]
      rw [this]; simp
  have := all c p hm
  simp only [List.mem_cons, List.not_mem_nil, or_false] at this
  rcases this with h | h | h | h | h
  · exact Or.inl h
  · exact Or.inr (Or.inl h)
  · exact Or.inr (Or.inr (Or.inl h))
  · exact Or.inr (Or.inr (Or.inr h))
  · exfalso
    subst h
    have lt : c < 2 := by
      cases hi with
      | here => decide
      | @sub c' s v _ e =>
        have key : ∀ o ∈ greeting, ∀ q ∈ o.subs.getD [], q.2 < 2 := by decide +kernel
        simp only [Registered] at e
        cases eo : greeting[c']? with
        | none => rw [eo] at e; cases e
        | some o => rw [eo] at e; exact key o (List.mem_of_getElem? eo) (v, _) (AMap.mem_of_get e)
    match c, lt with
    | 0, _ => revert hm; decide +kernel
    | 1, _ => revert hm; decide +kernel

theorem greeting_looks {p : Param} (hp : ElementOf greeting 0 p) {way : Way} {key : Str} (hk : LooksUp p way key) :
    way = .text ∧ key = b!"title" ∨ way = .open ∧ key = b!"who" ∨ way = .text ∧ key = b!"who>name" := by
  have pu : parts b!"user:who" = [b!"user", b!"who"] := by decide +kernel
  rcases greeting_elements hp with rfl | rfl | rfl | rfl
  · cases hk; exact Or.inl ⟨rfl, rfl⟩
  · cases hk
  · cases hk with
    | reference e => rw [pu] at e; cases e; exact Or.inr (Or.inl ⟨rfl, rfl⟩)
    | referenceValue e => rw [pu] at e; cases e
  · cases hk; exact Or.inr (Or.inr ⟨rfl, rfl⟩)

theorem visitor_entry {c : Nat} {k : Str} {w : Val} (e : Entry visitor c k w) :
    c = 0 ∧ k = b!"title" ∧ w = .str b!"Hi" ∨ c = 0 ∧ k = b!"who" ∧ w = .ptr 1 ∨ c = 1 ∧ k = b!"name" ∧ w = .str b!"Ada" ∨ c = 1 ∧ k = b!"age" ∧ w = .int .int 36 := by
  obtain ⟨m, e, g⟩ := e
  match c with
  | 0 =>
    cases e
    have := AMap.mem_of_get g
    simp only [List.mem_cons, List.not_mem_nil, or_false, Prod.mk.injEq] at this
    rcases this with ⟨rfl, rfl⟩ | ⟨rfl, rfl⟩ <;> simp
  | 1 =>
    cases e
    have := AMap.mem_of_get g
    simp only [List.mem_cons, List.not_mem_nil, or_false, Prod.mk.injEq] at this
    rcases this with ⟨rfl, rfl⟩ | ⟨rfl, rfl⟩ <;> simp
  | c + 2 => simp [visitor] at e

/-- The template and data fulfil what is asked: setting the age of the user does not change the page, and the page is not trivial. -/
example : Usable greeting 0 ∧ IsDataset visitor 1 ∧ Proper visitor (some 0) ∧ Proper (set visitor 1 b!"age" (.int .int 37)) (some 0) ∧
    (∀ p way key, ElementOf greeting 0 p → LooksUp p way key → ¬ AsksFor key b!"age") ∧
    (∀ p way key c w, ElementOf greeting 0 p → LooksUp p way key → way = .text ∨ way = .test → Leads visitor c (split 62 key) w → Plain visitor w) ∧
    (∀ s, ElementOf greeting 0 ⟨.dump, s⟩ → s ≠ b!"dump" ∧ s ≠ b!"list") ∧ ∀ x, execute x greeting 2 0 visitor (some 0) = .ok b!"Hi Ada" := by
  have proper : ∀ n : Int, OfKind .int n → Proper [.ds [(b!"title", .str b!"Hi"), (b!"who", .ptr 1)], .ds [(b!"name", .str b!"Ada"), (b!"age", .int .int n)]] (some 0) := by
    intro n hn
    refine ⟨⟨fun a m e => ?_, fun a m k v e hb => ?_, fun a l b e hb => ?_⟩, fun a e => by cases e; exact ⟨_, rfl⟩⟩
    · match a with
      | 0 => cases e; simp [AMap.Nodup, AMap.keys]
      | 1 => cases e; simp [AMap.Nodup, AMap.keys]
      | c + 2 => simp at e
    · match a with
      | 0 =>
        cases e
        simp only [List.mem_cons, List.not_mem_nil, or_false, Prod.mk.injEq] at hb
        rcases hb with ⟨-, rfl⟩ | ⟨-, rfl⟩ <;> simp [Valid]
      | 1 =>
        cases e
        simp only [List.mem_cons, List.not_mem_nil, or_false, Prod.mk.injEq] at hb
        rcases hb with ⟨-, rfl⟩ | ⟨-, rfl⟩
        · simp [Valid]
        · exact hn
      | c + 2 => simp at e
    · match a with
      | 0 => cases e
      | 1 => cases e
      | c + 2 => simp [IsCollection] at e
  have s1 : split 62 b!"title" = [b!"title"] := by decide +kernel
  have s2 : split 62 b!"who" = [b!"who"] := by decide +kernel
  have s3 : split 62 b!"who>name" = [b!"who", b!"name"] := by decide +kernel
  have one : ∀ (k s : Str) (before rest : List Str), [k] = before ++ s :: rest → s = k ∧ rest = [] := by
    intro k s before rest e
    cases before with
    | nil => cases e; exact ⟨rfl, rfl⟩
    | cons y before => simp at e
  refine ⟨?_, ⟨_, rfl⟩, proper 36 (by simp [OfKind]), proper 37 (by simp [OfKind]), ?_, ?_, ?_, fun x => rfl⟩
  · intro c hc
    cases hc with
    | here => decide +kernel
    | @sub c' s v _ e =>
      have key : ∀ o ∈ greeting, ∀ q ∈ o.subs.getD [], q.2 < greeting.length := by decide +kernel
      simp only [Registered] at e
      cases eo : greeting[c']? with
      | none => rw [eo] at e; cases e
      | some o => rw [eo] at e; exact key o (List.mem_of_getElem? eo) (v, _) (AMap.mem_of_get e)
  · rintro p way key hp hk ⟨before, s, rest, e, q⟩
    rcases greeting_looks hp hk with ⟨-, rfl⟩ | ⟨-, rfl⟩ | ⟨-, rfl⟩
    · rw [s1] at e
      obtain ⟨rfl, rfl⟩ := one _ _ _ _ e
      revert q; decide +kernel
    · rw [s2] at e
      obtain ⟨rfl, rfl⟩ := one _ _ _ _ e
      revert q; decide +kernel
    · rw [s3] at e
      cases before with
      | nil => cases e; revert q; decide +kernel
      | cons y before =>
        simp only [List.cons_append, List.cons.injEq] at e
        obtain ⟨rfl, rfl⟩ := one _ _ _ _ e.2
        revert q; decide +kernel
  · intro p way key c w hp hk hw q
    rcases greeting_looks hp hk with ⟨-, rfl⟩ | ⟨rfl, -⟩ | ⟨-, rfl⟩
    · rw [s1] at q
      cases q with
      | entry e =>
        rcases visitor_entry e with ⟨-, -, rfl⟩ | ⟨-, k, -⟩ | ⟨-, k, -⟩ | ⟨-, k, -⟩
        · intro a e; cases e
        all_goals exact absurd k (by decide)
    · rcases hw with hw | hw <;> cases hw
    · rw [s3] at q
      have str : ∀ {c w}, Leads visitor c [b!"name"] w → Plain visitor w := by
        intro c w q
        cases q with
        | entry e =>
          rcases visitor_entry e with ⟨-, k, -⟩ | ⟨-, k, -⟩ | ⟨-, -, rfl⟩ | ⟨-, k, -⟩
          · exact absurd k (by decide)
          · exact absurd k (by decide)
          · intro a e; cases e
          · exact absurd k (by decide)
      cases q with
      | dataset _ _ q => exact str q
      | element e _ i _ => exact absurd i (by rw [show atoi b!"name" = none by decide +kernel]; simp)
      | literal _ _ f =>
        rcases visitor_entry f with ⟨-, k, -⟩ | ⟨-, k, -⟩ | ⟨-, k, -⟩ | ⟨-, k, -⟩ <;> exact absurd k (by decide +kernel)
  · intro s hs
    rcases greeting_elements hs with e | e | e | e <;> cases e

/-- **C117** What is left out does matter: a field that is a dataset shows entries that no element asks for. -/
theorem C117_printed_data_matter : ∃ (th : THeap) (h h' : Heap), Usable th 0 ∧ Proper h (some 0) ∧ Proper h' (some 0) ∧ DifferOnlyIn h h' 1 b!"k" ∧
    (∀ p way key, ElementOf th 0 p → LooksUp p way key → ¬ AsksFor key b!"k") ∧
    ∀ x, execute x th 1 0 h (some 0) = .ok b!"xcore.XDataset{}" ∧ execute x th 1 0 h' (some 0) = .ok b!"xcore.XDataset{k:v}" := by
  have proper : ∀ m : AMap Val, m.Nodup → (∀ k v, (k, v) ∈ m → ∃ s, v = .str s) → Proper [.ds [(b!"d", .ptr 1)], .ds m] (some 0) := by
    intro m hm hv
    refine ⟨⟨fun a m e => ?_, fun a m k v e hb => ?_, fun a l b e hb => ?_⟩, fun a e => by cases e; exact ⟨_, rfl⟩⟩
    · match a with
      | 0 => cases e; simp [AMap.Nodup, AMap.keys]
      | 1 => cases e; exact hm
      | c + 2 => simp at e
    · match a with
      | 0 => cases e; simp at hb; rw [hb.2]; simp [Valid]
      | 1 => cases e; obtain ⟨s, rfl⟩ := hv k v hb; trivial
      | c + 2 => simp at e
    · match a with
      | 0 => cases e
      | 1 => cases e
      | c + 2 => simp [IsCollection] at e
  refine ⟨[⟨[], some [⟨.variable, b!"d"⟩], none⟩], [.ds [(b!"d", .ptr 1)], .ds []], [.ds [(b!"d", .ptr 1)], .ds [(b!"k", .str b!"v")]], ?_,
    proper _ (by simp [AMap.Nodup, AMap.keys]) (by simp), proper _ (by simp [AMap.Nodup, AMap.keys]) (by simp), ?_, ?_, fun x => ⟨rfl, rfl⟩⟩
  · intro c hc
    induction hc with
    | here => decide
    | @sub c s v _ e ih =>
      have : c = 0 := by simpa using ih
      subst this
      simp [Registered] at e
  · exact differ_set (h := [.ds [(b!"d", .ptr 1)], .ds []]) (b := 1) ⟨_, rfl⟩ b!"k" (.str b!"v")
  · rintro p way key ⟨c, hi, hm⟩ hk ⟨before, s, rest, e, q⟩
    have hc : c = 0 := by
      induction hi with
      | here => rfl
      | @sub c s v hi e ih =>
        exfalso
        match c with
        | 0 => simp [Registered] at e
        | c + 1 => simp [Registered] at e
    subst hc
    simp [elements] at hm
    subst hm
    cases hk
    rw [show split 62 b!"d" = [b!"d"] by decide +kernel] at e
    cases before with
    | nil => cases e; revert q; decide +kernel
    | cons y before => simp at e

end Xcore.V1.Template
