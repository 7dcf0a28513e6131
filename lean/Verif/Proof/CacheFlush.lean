import Verif.Proof.CacheSim

/-!
# Caches that differ only in the order of use

Until an eviction happens, the recency list of a cache cannot be observed.
-/

namespace Xcore.Cache
open Spec
variable {D : Type}

/-- Same entries and configuration; the order of use may differ. -/
structure SameItems (c c' : Cache D) : Prop where
  items : c.items = c'.items
  maxitems : c.maxitems = c'.maxitems
  expire : c.expire = c'.expire
  validator : c.hasValidator = c'.hasValidator

theorem SameItems.del {c c' : Cache D} (h : SameItems c c') (k : Str) : SameItems (del c k) (del c' k) :=
  ⟨by simp only [Cache.del, h.items], h.maxitems, h.expire, h.validator⟩

theorem SameItems.clean {c c' : Cache D} (h : SameItems c c') (env : Env) {p : Int} (hp : p ≤ 0) :
    SameItems (mClean c env p).1 (mClean c' env p).1 ∧ (mClean c env p).2 = (mClean c' env p).2 := by
  simp only [mClean, cleanNum_nonpos hp, evictLoop, h.items, h.expire]
  refine ⟨⟨rfl, h.maxitems, rfl, h.validator⟩, ?_⟩
  all_goals trivial

theorem SameItems.verifyLoop (env : Env) : ∀ (l : List (Str × Entry D)) {c c' : Cache D} (_ : SameItems c c') (i : Int),
    SameItems (verifyLoop env l c i).1 (verifyLoop env l c' i).1 ∧ (Cache.verifyLoop env l c i).2 = (Cache.verifyLoop env l c' i).2 := by
  intro l
  induction l with
  | nil => intro c c' h i; exact ⟨h, rfl⟩
  | cons p l ih =>
    intro c c' h i
    obtain ⟨k, x⟩ := p
    simp only [Cache.verifyLoop]
    split
    · exact ih (h.del k) _
    · exact ih h _

theorem SameItems.step {c c' : Cache D} (h : SameItems c c') (env : Env) (op : Op D) (hq : ¬ MayEvict c op) :
    SameItems (step c env op).1 (step c' env op).1 ∧ (Cache.step c env op).2 = (Cache.step c' env op).2 := by
  obtain ⟨m, e, v, items, pile⟩ := c
  obtain ⟨m', e', v', items', pile'⟩ := c'
  obtain ⟨h1, h2, h3, h4⟩ := id h
  simp only at h1 h2 h3 h4
  subst h1 h2 h3 h4
  cases op with
  | set k d =>
    have hq' : ¬ MayEvict (⟨m, e, v, items, pile'⟩ : Cache D) (.set k d) := hq
    simp only [Cache.step, set_quiet hq, set_quiet hq']
    refine ⟨⟨rfl, rfl, rfl, rfl⟩, ?_⟩
    all_goals trivial
  | setTTL k t =>
    simp only [Cache.step, setTTL]
    cases items.get k <;> refine ⟨⟨rfl, rfl, rfl, rfl⟩, ?_⟩ <;> trivial
  | get k =>
    have hi : ∀ x, invalid (⟨m, e, v, items, pile'⟩ : Cache D) env k x = invalid (⟨m, e, v, items, pile⟩ : Cache D) env k x :=
      fun _ => rfl
    simp only [Cache.step, get]
    cases items.get k with
    | none => refine ⟨⟨rfl, rfl, rfl, rfl⟩, ?_⟩; all_goals trivial
    | some x =>
      simp only [hi]
      cases invalid (⟨m, e, v, items, pile⟩ : Cache D) env k x <;> refine ⟨⟨rfl, rfl, rfl, rfl⟩, ?_⟩ <;> trivial
  | del k => exact ⟨⟨rfl, rfl, rfl, rfl⟩, rfl⟩
  | count => exact ⟨⟨rfl, rfl, rfl, rfl⟩, rfl⟩
  | clean p =>
    have hp : p ≤ 0 := by simp only [MayEvict] at hq; omega
    obtain ⟨q1, q2⟩ := h.clean env hp
    simp only [Cache.step, Cache.clean]
    exact ⟨q1, by rw [q2]⟩
  | verify =>
    obtain ⟨q1, q2⟩ := h.clean env (Int.le_refl 0)
    simp only [Cache.step, verify, Cache.clean]
    generalize mClean (⟨m, e, v, items, pile⟩ : Cache D) env 0 = r at q1 q2
    generalize mClean (⟨m, e, v, items, pile'⟩ : Cache D) env 0 = r' at q1 q2
    obtain ⟨r1, r2⟩ := r
    obtain ⟨r1', r2'⟩ := r'
    simp only at q1 q2
    subst q2
    cases r2 with
    | none => exact ⟨q1, rfl⟩
    | some i =>
      simp only [q1.validator, q1.items]
      split
      · obtain ⟨q3, q4⟩ := SameItems.verifyLoop env r1'.items q1 i
        exact ⟨q3, by simp only [q4]⟩
      · exact ⟨q1, rfl⟩
  | flush => exact ⟨⟨rfl, rfl, rfl, rfl⟩, rfl⟩
  | setMaxitems m => exact ⟨⟨rfl, rfl, rfl, rfl⟩, rfl⟩
  | setExpire e => exact ⟨⟨rfl, rfl, rfl, rfl⟩, rfl⟩
  | setValidator b => exact ⟨⟨rfl, rfl, rfl, rfl⟩, rfl⟩

theorem SameItems.run : ∀ (h : List (Env × Op D)) {c c' : Cache D}, SameItems c c' → Quiet c h →
    SameItems (run c h).1 (run c' h).1 ∧ (Cache.run c h).2 = (Cache.run c' h).2 := by
  intro h
  induction h with
  | nil => intro c c' s _; exact ⟨s, rfl⟩
  | cons p h ih =>
    intro c c' s hq
    obtain ⟨env, op⟩ := p
    obtain ⟨q1, q2⟩ := s.step env op hq.1
    obtain ⟨q3, q4⟩ := ih q1 hq.2
    simp only [Cache.run]
    exact ⟨q3, by rw [q2, q4]⟩
end Xcore.Cache
