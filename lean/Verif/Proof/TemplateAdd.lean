import Verif.Proof.TemplateGraph
import Verif.Proof.TemplateFrame

/-! # Templates put together with `AddTemplate` -/

namespace Xcore.Template

open Xcore.Dataset (Ext Heap)

theorem addTemplate_get (th : THeap) (t : Nat) (n : Str) (c b : Nat) : (addTemplate th t n c)[b]? = th[b]?.map fun o =>
    { o with father := if b = c then some t else o.father, subs := if b = t then some ((o.subs.getD []).set n c) else o.subs } := by
  unfold addTemplate
  rw [upd_get', upd_get', upd_get']
  by_cases h1 : b = t
  · subst h1
    by_cases h2 : b = c
    · subst h2; cases th[b]? <;> simp
    · cases th[b]? <;> simp [h2]
  · by_cases h2 : b = c
    · subst h2; simp [h1]
    · simp [h1, h2]

theorem add_registered {th : THeap} {t : Nat} (ht : t < th.length) (n : Str) (c b : Nat) (v : Str) :
    Registered (addTemplate th t n c) b v = if b = t ∧ v = n then some c else Registered th b v := by
  simp only [Registered, addTemplate_get]
  by_cases h1 : b = t
  · subst h1
    rw [List.getElem?_eq_getElem ht]
    simp only [Option.map_some, Option.bind_some, if_true, Option.getD_some, AMap.get_set, true_and]
  · cases th[b]? <;> simp [h1]

theorem add_father (th : THeap) (t : Nat) (n : Str) (c b : Nat) :
    (addTemplate th t n c)[b]?.bind Tpl.father = if b = c then th[b]?.bind fun _ => some t else th[b]?.bind Tpl.father := by
  rw [addTemplate_get]
  by_cases h : b = c
  · simp only [h, if_true]; cases th[c]? <;> rfl
  · simp only [h, if_false]; cases th[b]? <;> rfl

theorem add_elements (th : THeap) (t : Nat) (n : Str) (c b : Nat) : elements (addTemplate th t n c) b = elements th b := by
  simp only [elements, addTemplate_get]
  cases th[b]? <;> rfl

/-! ## Chains -/

/-- Fathers after adding: those of the receiver come after the added template. -/
theorem chain_add {th : THeap} {t c : Nat} {n : Str} {l : List Nat} (ht : Chain th t l) (hc : c ∉ l) {a : Nat} {m : List Nat} (h : Chain th a m) :
    ∃ m', Chain (addTemplate th t n c) a m' := by
  have hl : Chain (addTemplate th t n c) t l := by
    refine chain_congr ht fun b hb => ?_
    have hbc : b ≠ c := fun e => hc (e ▸ hb)
    rw [addTemplate_get]
    cases th[b]? with
    | none => rfl
    | some o => simp [hbc]
  induction h with
  | @top a o e f =>
    have e' := addTemplate_get th t n c a
    rw [e, Option.map_some] at e'
    by_cases hac : a = c
    · exact ⟨_, .sub e' (by simp only [if_pos hac]) hl⟩
    · exact ⟨_, .top e' (by simp only [if_neg hac]; exact f)⟩
  | @sub a g o l' e f _ ih =>
    have e' := addTemplate_get th t n c a
    rw [e, Option.map_some] at e'
    by_cases hac : a = c
    · exact ⟨_, .sub e' (by simp only [if_pos hac]) hl⟩
    · obtain ⟨m', hm⟩ := ih
      exact ⟨_, .sub e' (by simp only [if_neg hac]; exact f) hm⟩

/-- Every template has fathers that end, and sub-templates that exist. -/
structure Sound (th : THeap) : Prop where
  chain : ∀ a, a < th.length → ∃ l, Chain th a l
  subs : ∀ a v s, Registered th a v = some s → s < th.length

theorem Chain.lt {th : THeap} {t : Nat} {l : List Nat} (h : Chain th t l) : t < th.length := by
  obtain ⟨o, e⟩ := h.exists
  exact (List.getElem?_eq_some_iff.1 e).1

theorem Sound.usable {th : THeap} (h : Sound th) {t : Nat} (ht : t < th.length) : Usable th t := by
  intro c hc
  refine h.chain c ?_
  induction hc with
  | here => exact ht
  | father _ e f ih =>
    obtain ⟨l, hl⟩ := h.chain _ ih
    cases hl with
    | top e' f' => rw [e] at e'; cases e'; rw [f] at f'; cases f'
    | sub e' f' hl => rw [e] at e'; cases e'; rw [f] at f'; cases f'; exact hl.lt
  | sub _ e _ => exact h.subs _ _ _ e

theorem Sound.new {th : THeap} (h : Sound th) (d : Str) : Sound (th ++ [⟨d, none, none, none⟩]) := by
  constructor
  · intro a ha
    simp only [List.length_append, List.length_singleton] at ha
    by_cases hl : a < th.length
    · obtain ⟨l, hc⟩ := h.chain a hl
      refine ⟨l, chain_congr hc fun b hb => ?_⟩
      obtain ⟨_, _, _, hb⟩ := hc.mem hb
      rw [List.getElem?_append_left hb]
    · obtain rfl : a = th.length := by omega
      exact ⟨_, .top (o := ⟨d, none, none, none⟩) (by simp) rfl⟩
  · intro a v s e
    simp only [List.length_append, List.length_singleton]
    by_cases hl : a < th.length
    · simp only [Registered, List.getElem?_append_left hl] at e
      have := h.subs a v s e
      omega
    · simp only [Registered, List.getElem?_append_right (Nat.le_of_not_lt hl)] at e
      cases hx : a - th.length with
      | zero => rw [hx] at e; simp at e
      | succ k => rw [hx] at e; simp at e

theorem Sound.add {th : THeap} (h : Sound th) {t c : Nat} {n : Str} {l : List Nat} (ht : Chain th t l) (hl : c < th.length) (hc : c ∉ l) :
    Sound (addTemplate th t n c) := by
  constructor
  · intro a ha
    rw [addTemplate_length] at ha
    obtain ⟨m, hm⟩ := h.chain a ha
    exact chain_add ht hc hm
  · intro a v s e
    rw [addTemplate_length]
    rw [add_registered ht.lt] at e
    split at e
    · cases e; exact hl
    · exact h.subs a v s e

/-- What every step of the second pass keeps. -/
structure Grown (th0 th : THeap) : Prop where
  len : th0.length ≤ th.length
  old : ∀ a, a < th0.length → th[a]?.map Tpl.father = th0[a]?.map Tpl.father
  new : ∀ a o f, th0.length ≤ a → th[a]? = some o → o.father = some f → f < a
  subs : ∀ a v s, Registered th a v = some s → s < th.length

theorem kept_grown {th0 : THeap} {t : Nat} (ht : t < th0.length) : Kept th0.length t (Grown th0) := by
  refine ⟨fun th d h hl => ⟨by simp; omega, fun a ha => ?_, fun a o f ha e hf => ?_, fun a v s e => ?_⟩, fun th a r h ha => ⟨?_, fun b hb => ?_, fun b o f hb e hf => ?_, fun b v s e => ?_⟩,
    fun th u v a h ha hu => ⟨by rw [addTemplate_length]; exact h.len, fun b hb => ?_, fun b o f hb e hf => ?_, fun b w s e => ?_⟩⟩
  · rw [List.getElem?_append_left (by omega)]; exact h.old a ha
  · by_cases hal : a < th.length
    · rw [List.getElem?_append_left hal] at e; exact h.new a o f ha e hf
    · rw [List.getElem?_append_right (Nat.le_of_not_lt hal)] at e
      cases hx : a - th.length with
      | zero => rw [hx] at e; cases e; cases hf
      | succ k => rw [hx] at e; simp at e
  · simp only [List.length_append, List.length_singleton]
    by_cases hl : a < th.length
    · simp only [Registered, List.getElem?_append_left hl] at e
      have := h.subs a v s e
      omega
    · simp only [Registered, List.getElem?_append_right (Nat.le_of_not_lt hl)] at e
      cases hx : a - th.length with
      | zero => rw [hx] at e; simp at e
      | succ k => rw [hx] at e; simp at e
  · have : (upd th a fun o => { o with root := r }).length = th.length := by unfold upd; split <;> simp
    rw [this]; exact h.len
  · rw [upd_get', if_neg (by omega)]; exact h.old b hb
  · rw [upd_get'] at e
    split at e
    · next hba =>
      subst hba
      cases e' : th[b]? with
      | none => rw [e'] at e; cases e
      | some o' => rw [e'] at e; cases e; exact h.new b o' f hb e' hf
    · exact h.new b o f hb e hf
  · have hlen : (upd th a fun o => { o with root := r }).length = th.length := by unfold upd; split <;> simp
    rw [hlen]
    refine h.subs b v s ?_
    rw [← e]
    simp only [Registered, upd_get']
    split
    · next hba => subst hba; cases th[b]? <;> rfl
    · rfl
  · rw [addTemplate_get, ← h.old b hb]
    have : b ≠ a := by omega
    cases th[b]? <;> simp [this]
  · rw [addTemplate_get] at e
    cases e' : th[b]? with
    | none => rw [e'] at e; cases e
    | some o' =>
      rw [e'] at e
      cases e
      simp only at hf
      by_cases hba : b = a
      · rw [if_pos hba] at hf; cases hf; omega
      · rw [if_neg hba] at hf; exact h.new b o' f hb e' hf
  · rw [addTemplate_length]
    have hul : u < th.length := by have := h.len; omega
    rw [add_registered hul] at e
    split at e
    · cases e; exact ha.2
    · exact h.subs b w s e

theorem Grown.sound {th0 th : THeap} (h0 : Sound th0) (h : Grown th0 th) : Sound th := by
  refine ⟨fun a => ?_, h.subs⟩
  induction a using Nat.strongRecOn with
  | ind a ih =>
    intro ha
    by_cases hl : a < th0.length
    · obtain ⟨l, hc⟩ := h0.chain a hl
      refine ⟨l, chain_congr hc fun b hb => ?_⟩
      obtain ⟨_, _, _, hb⟩ := hc.mem hb
      exact h.old b hb
    · obtain ⟨o, e⟩ : ∃ o, th[a]? = some o := ⟨_, List.getElem?_eq_getElem ha⟩
      cases hf : o.father with
      | none => exact ⟨_, .top e hf⟩
      | some f =>
        have := h.new a o f (Nat.le_of_not_lt hl) e hf
        obtain ⟨l, hc⟩ := ih f this (by omega)
        exact ⟨_, .sub e hf hc⟩

theorem Sound.root {th : THeap} (h : Sound th) (a : Nat) (r : Option (List Param)) : Sound (upd th a fun o => { o with root := r }) := by
  have hlen : (upd th a fun o => { o with root := r }).length = th.length := by unfold upd; split <;> simp
  have hget : ∀ b : Nat, (upd th a fun o => { o with root := r })[b]?.map Tpl.father = th[b]?.map Tpl.father := by
    intro b
    rw [upd_get']
    split
    · next hba => subst hba; cases th[b]? <;> rfl
    · rfl
  refine ⟨fun b hb => ?_, fun b v s e => ?_⟩
  · rw [hlen] at hb
    obtain ⟨l, hc⟩ := h.chain b hb
    exact ⟨l, chain_congr hc fun b _ => hget b⟩
  · rw [hlen]
    refine h.subs b v s ?_
    rw [← e]
    simp only [Registered, upd_get']
    split
    · next hba => subst hba; cases th[b]? <;> rfl
    · rfl

theorem Sound.load {th : THeap} (h : Sound th) {t : Nat} (ht : t < th.length) (s : Str) : Sound (loadString th t s).1 := by
  have h0 : Grown th th := ⟨Nat.le_refl _, fun _ _ => rfl, fun a o f ha e _ => by have := (List.getElem?_eq_some_iff.1 e).1; omega, h.subs⟩
  rcases load_kept (kept_grown ht) h0 s with ⟨th', hq, e⟩ | ⟨th', r, hq, e⟩
  · rw [e]; exact hq.sound h
  · rw [e]; exact (hq.sound h).root t r

theorem Built.sound {th : THeap} (h : Built th) : Sound th := by
  induction h with
  | start => exact ⟨fun a ha => by simp at ha, fun a v s e => by simp [Registered] at e⟩
  | new _ ih => exact ih.new _
  | load _ ht ih => exact ih.load ht _
  | add _ ht hl hc ih => exact ih.add ht hl hc

/-! ## Lookups that never end -/

theorem getTemplateN_endless {th : THeap} {v : Str} : ∀ (n t : Nat), (∀ a, Above th t a → Registered th a v = none ∧ ∃ o f, th[a]? = some o ∧ o.father = some f) →
    getTemplateN n th t v = .diverge := by
  intro n
  induction n with
  | zero => intro t _; rfl
  | succ n ih =>
    intro t h
    obtain ⟨h1, o, f, e, hf⟩ := h t .here
    simp only [Registered, e, Option.bind_some] at h1
    simp only [getTemplateN, e, h1, hf]
    refine ih f fun a ha => h a ?_
    clear h ih h1
    induction ha with
    | here => exact .father .here e hf
    | father _ e f ih => exact .father ih e f

/-- The father `k` steps above. -/
def climb (th : THeap) (t : Nat) : Nat → Option Nat
  | 0 => some t
  | k + 1 => (climb th t k).bind fun a => th[a]?.bind Tpl.father

theorem climb_above {th : THeap} {t a : Nat} (h : Above th t a) : ∃ k, climb th t k = some a := by
  induction h with
  | here => exact ⟨0, rfl⟩
  | father _ e f ih => obtain ⟨k, hk⟩ := ih; exact ⟨k + 1, by simp [climb, hk, e, f]⟩

theorem climb_add {th : THeap} {t : Nat} (i : Nat) : ∀ j, climb th t (i + j) = (climb th t i).bind fun a => climb th a j := by
  intro j
  induction j with
  | zero => simp [climb]
  | succ j ih =>
    show (climb th t (i + j)).bind _ = _
    rw [ih]
    cases climb th t i <;> rfl

/-- What is above is above by less steps than there are templates. -/
theorem climb_short {th : THeap} {t a : Nat} (hr : ∀ k b, climb th t k = some b → b < th.length) {k : Nat} (h : climb th t k = some a) :
    ∃ j, j < th.length ∧ climb th t j = some a := by
  induction k using Nat.strongRecOn with
  | ind k ih =>
    by_cases hk : k < th.length
    · exact ⟨k, hk, h⟩
    · -- two of the first k + 1 are the same
      have hall : ∀ i, i ≤ k → ∃ b, climb th t i = some b := by
        intro i hi
        obtain ⟨j, rfl⟩ : ∃ j, k = i + j := ⟨k - i, by omega⟩
        rw [climb_add] at h
        cases e : climb th t i with
        | none => rw [e] at h; cases h
        | some b => exact ⟨b, rfl⟩
      have hdup : ∃ i j, i < j ∧ j ≤ k ∧ climb th t i = climb th t j := by
        apply Classical.byContradiction
        intro hno
        have hnd : ((List.range (k + 1)).map (climb th t)).Nodup := by
          refine List.pairwise_iff_getElem.2 fun i j hi hj hij => ?_
          simp only [List.length_map, List.length_range] at hi hj
          simp only [List.getElem_map, List.getElem_range]
          exact fun e => hno ⟨i, j, hij, by omega, e⟩
        have := nodup_length_le (m := (List.range th.length).map some) hnd fun c hc => by
          obtain ⟨i, hi, rfl⟩ := List.mem_map.1 hc
          obtain ⟨b, hb⟩ := hall i (by have := List.mem_range.1 hi; omega)
          rw [hb]
          exact List.mem_map.2 ⟨b, List.mem_range.2 (hr i b hb), rfl⟩
        simp at this
        omega
      obtain ⟨i, j, hij, hjk, e⟩ := hdup
      refine ih (i + (k - j)) (by omega) ?_
      have : k = j + (k - j) := by omega
      rw [this, climb_add] at h
      rw [climb_add, e]
      exact h

theorem climb_succ {th : THeap} {t f : Nat} {o : Tpl} (e : th[t]? = some o) (hf : o.father = some f) (k : Nat) : climb th t (k + 1) = climb th f k := by
  have := climb_add (th := th) (t := t) 1 k
  rw [Nat.add_comm] at this
  rw [this]
  simp [climb, e, hf]

theorem getTemplateN_ends {th : THeap} {v : Str} : ∀ (n t k a : Nat), climb th t k = some a → k < n →
    (Registered th a v ≠ none ∨ ∃ o, th[a]? = some o ∧ o.father = none) → getTemplateN n th t v ≠ .diverge := by
  intro n
  induction n with
  | zero => intro t k a _ h; omega
  | succ n ih =>
    intro t k a hk hn ha
    simp only [getTemplateN]
    cases e : th[t]? with
    | none => simp
    | some o =>
      simp only
      cases er : (o.subs.getD []).get v with
      | some s => simp
      | none =>
        simp only
        cases hf : o.father with
        | none => simp
        | some f =>
          simp only
          cases k with
          | zero =>
            cases hk
            rcases ha with ha | ⟨o', e', hf'⟩
            · simp [Registered, e, er] at ha
            · rw [e] at e'; cases e'; rw [hf] at hf'; cases hf'
          | succ k =>
            rw [climb_succ e hf] at hk
            exact ih f k a hk (by omega) ha

/-- Lookup never ends if and only if the fathers never end and none has the name. -/
theorem getTemplate_endless_iff {th : THeap} (hr : ∀ (a : Nat) (o : Tpl) (f : Nat), th[a]? = some o → o.father = some f → f < th.length) {t : Nat} (ht : t < th.length) (v : Str) :
    getTemplate th t v = .diverge ↔ ∀ a, Above th t a → Registered th a v = none ∧ ∃ o f, th[a]? = some o ∧ o.father = some f := by
  refine ⟨fun hd a ha => ?_, getTemplateN_endless _ _⟩
  have hrange : ∀ k b, climb th t k = some b → b < th.length := by
    intro k
    induction k with
    | zero => intro b e; cases e; exact ht
    | succ k ih =>
      intro b e
      simp only [climb] at e
      cases e1 : climb th t k with
      | none => rw [e1] at e; cases e
      | some c =>
        rw [e1, Option.bind_some] at e
        cases e2 : th[c]? with
        | none => rw [e2] at e; cases e
        | some o => rw [e2] at e; exact hr c o b e2 e
  obtain ⟨k, hk⟩ := climb_above ha
  obtain ⟨j, hj, hja⟩ := climb_short hrange hk
  have hal := hrange j a hja
  apply Classical.byContradiction
  intro hno
  refine getTemplateN_ends _ t j a hja (Nat.lt_succ_of_lt hj) ?_ hd
  by_cases h1 : Registered th a v = none
  · refine Or.inr ⟨_, List.getElem?_eq_getElem hal, ?_⟩
    cases hf : th[a].father with
    | none => rfl
    | some f => exact absurd ⟨h1, _, f, List.getElem?_eq_getElem hal, hf⟩ hno
  · exact Or.inl h1

/-! ## Templates that are not connected -/

theorem getTemplateN_same {th th' : THeap} {S : Nat → Prop} (hs : ∀ b, S b → th'[b]? = th[b]?) (hf : ∀ b o f, S b → th[b]? = some o → o.father = some f → S f)
    (hr : ∀ b v s, S b → Registered th b v = some s → S s) {v : Str} : ∀ (n t : Nat), S t →
    SimRes (fun a b => b = a ∧ S a) (getTemplateN n th t v) (getTemplateN n th' t v) := by
  intro n
  induction n with
  | zero => intro t _; exact .diverge
  | succ n ih =>
    intro t ht
    simp only [getTemplateN, hs t ht]
    cases e : th[t]? with
    | none => exact .panic
    | some o =>
      simp only
      cases er : (o.subs.getD []).get v with
      | some s => exact .ok (.some ⟨rfl, hr t v s ht (by simp [Registered, e, er])⟩)
      | none =>
        simp only
        cases ef : o.father with
        | none => exact .ok .none
        | some f => exact ih f (hf t o f ht e ef)

theorem execute_apart (x : Ext) {th th' : THeap} {t : Nat} (hlen : th'.length = th.length) (hs : ∀ b, Comes th t b → th'[b]? = th[b]?) (n : Nat) (h : Heap)
    (data : Option Nat) : execute x th' n t h data = execute x th n t h data := by
  refine (execute_sim x (R := fun a b => b = a ∧ Comes th t a) ⟨?_, ?_⟩ n ⟨rfl, .here⟩ h data).symm
  · rintro a b ⟨rfl, hc⟩
    rw [hs b hc]
  · rintro a b o root p ⟨rfl, hc⟩ _ _ _ v _
    unfold getTemplate
    rw [hlen]
    exact getTemplateN_same hs (fun b o f hb e hf => .father hb e hf) (fun b v s hb e => .sub hb e) _ _ hc

/-! ## Parts that use no names from outside -/

theorem chain_add_above {th : THeap} {t c : Nat} {n : Str} {lt : List Nat} (ht : Chain th t lt) (hc : c ∉ lt) : ∀ (l₁ l₂ : List Nat) (b : Nat),
    Chain th b (l₁ ++ c :: l₂) → Chain (addTemplate th t n c) b (l₁ ++ c :: lt) := by
  have hl : Chain (addTemplate th t n c) t lt := by
    refine chain_congr ht fun b hb => ?_
    have hbc : b ≠ c := fun e => hc (e ▸ hb)
    rw [addTemplate_get]
    cases th[b]? with
    | none => rfl
    | some o => simp [hbc]
  intro l₁
  induction l₁ with
  | nil =>
    intro l₂ b h
    obtain ⟨o, e⟩ := h.exists
    have hbc : b = c := by cases h <;> rfl
    have e' := addTemplate_get th t n c b
    rw [e, Option.map_some] at e'
    subst hbc
    exact .sub e' (by simp only [if_pos]) hl
  | cons a l₁ ih =>
    intro l₂ b h
    have hnd := h.nodup
    generalize hg : (a :: l₁) ++ c :: l₂ = l at h hnd
    cases h with
    | top e f => simp at hg
    | @sub _ g o l' e f h' =>
      simp only [List.cons_append, List.cons.injEq] at hg
      obtain ⟨rfl, rfl⟩ := hg
      have hac : a ≠ c := fun h => by subst h; simp at hnd
      have e' := addTemplate_get th t n c a
      rw [e, Option.map_some] at e'
      exact .sub e' (by simp only [if_neg hac]; exact f) (ih l₂ g h')

theorem execute_self_contained (x : Ext) {th : THeap} {t c a : Nat} {name : Str} {lt : List Nat} (hu : Usable th a) (ht : Chain th t lt)
    (hc : c ∉ lt) (ha : ¬ Comes th a t)
    (hs : ∀ b l₁ l₂ p v, Comes th a b → Chain th b (l₁ ++ c :: l₂) → p ∈ elements th b → Names p v → (∃ y ∈ l₁ ++ [c], Registered th y v ≠ none) ∨
      (∀ y ∈ l₂ ++ lt, Registered th y v = none) ∧ v ≠ name)
    (n : Nat) (h : Heap) (data : Option Nat) : execute x (addTemplate th t name c) n a h data = execute x th n a h data := by
  have reg := fun b v => add_registered ht.lt name c b v
  have regc : ∀ b v, Comes th a b → Registered (addTemplate th t name c) b v = Registered th b v := by
    intro b v hb
    rw [reg, if_neg]
    rintro ⟨rfl, _⟩
    exact ha hb
  have some_rel : ∀ (l : List Nat) v, (∀ y ∈ l, Comes th a y) →
      OptR (fun b b' => b' = b ∧ Comes th a b) (l.findSome? fun y => Registered th y v) (l.findSome? fun y => Registered th y v) := by
    intro l v hl
    cases e : l.findSome? fun y => Registered th y v with
    | none => exact .none
    | some s =>
      obtain ⟨y, hy, ey⟩ := List.exists_of_findSome?_eq_some e
      exact .some ⟨rfl, .sub (hl y hy) ey⟩
  have same : ∀ (l : List Nat) v, (∀ y ∈ l, Comes th a y) → (l.findSome? fun y => Registered (addTemplate th t name c) y v) = l.findSome? fun y => Registered th y v := by
    intro l v hl
    induction l with
    | nil => rfl
    | cons y l ih => rw [List.findSome?_cons, List.findSome?_cons, regc y v (hl y (by simp)), ih fun z hz => hl z (by simp [hz])]
  refine (execute_sim x (R := fun b b' => b' = b ∧ Comes th a b) ⟨?_, ?_⟩ n ⟨rfl, .here⟩ h data).symm
  · rintro b b' ⟨rfl, _⟩
    rw [addTemplate_get]
    cases th[b']? <;> rfl
  · rintro b b' o root p ⟨rfl, hb⟩ e er hp v hN
    obtain ⟨l, hl⟩ := hu _ hb
    have hm : ∀ y ∈ l, Comes th a y := fun y hy => hb.trans (hl.comes y hy)
    by_cases hcl : c ∈ l
    · obtain ⟨l₁, l₂, rfl⟩ := List.append_of_mem hcl
      have hl' := chain_add_above (n := name) ht hc l₁ l₂ _ hl
      have hpe : p ∈ elements th b' := by simp only [elements, e, Option.bind_some, er]; exact hp
      rw [getTemplate_chain hl, getTemplate_chain hl']
      refine .ok ?_
      have e1 : l₁ ++ c :: l₂ = (l₁ ++ [c]) ++ l₂ := by simp
      have e2 : l₁ ++ c :: lt = (l₁ ++ [c]) ++ lt := by simp
      have hm1 : ∀ y ∈ l₁ ++ [c], Comes th a y := fun y hy => hm y (by rw [e1]; exact List.mem_append_left _ hy)
      rw [e1, e2, List.findSome?_append (xs := l₁ ++ [c]) (ys := l₂), List.findSome?_append (xs := l₁ ++ [c]) (ys := lt), same _ v hm1]
      have hrel := some_rel (l₁ ++ [c]) v hm1
      cases ef : (l₁ ++ [c]).findSome? fun y => Registered th y v with
      | some s => rw [ef] at hrel; exact hrel
      | none =>
        rcases hs b' l₁ l₂ p v hb hl hpe hN with ⟨y, hy, hne⟩ | ⟨hno, hv⟩
        · exact absurd (List.findSome?_eq_none_iff.1 ef y hy) hne
        · have z1 : (l₂.findSome? fun y => Registered th y v) = none := List.findSome?_eq_none_iff.2 fun y hy => hno y (by simp [hy])
          have z2 : (lt.findSome? fun y => Registered (addTemplate th t name c) y v) = none := by
            refine List.findSome?_eq_none_iff.2 fun y hy => ?_
            rw [reg, if_neg fun h => hv h.2]
            exact hno y (by simp [hy])
          rw [z1, z2]
          exact .none
    · have hl' : Chain (addTemplate th t name c) b' l := by
        refine chain_congr hl fun y hy => ?_
        have hyc : y ≠ c := fun e => hcl (e ▸ hy)
        rw [addTemplate_get]
        cases th[y]? with
        | none => rfl
        | some o => simp [hyc]
      rw [getTemplate_chain hl, getTemplate_chain hl', same l v hm]
      exact .ok (some_rel l v hm)

theorem chain_head {th : THeap} {b z : Nat} {l : List Nat} (h : Chain th b (z :: l)) : b = z := by
  generalize hg : z :: l = k at h
  cases h <;> simp_all

theorem cycle_never_returns {th : THeap} {t c : Nat} {name : Str} {l₁ l₂ : List Nat} (ht : Chain th t (l₁ ++ c :: l₂)) {v : Str} (hv : v ≠ name)
    (hn : ∀ a ∈ l₁ ++ [c], Registered th a v = none) : getTemplate (addTemplate th t name c) t v = .diverge := by
  have htl := ht.lt
  refine getTemplateN_endless _ _ ?_
  -- those above are the templates up to `c`
  have next : ∀ (l₁ l₂ : List Nat) (b : Nat), Chain th b (l₁ ++ c :: l₂) → ∀ y ∈ l₁, ∃ o f, th[y]? = some o ∧ o.father = some f ∧ f ∈ l₁ ++ [c] := by
    intro l₁
    induction l₁ with
    | nil => intro _ _ _ y hy; cases hy
    | cons a l₁ ih =>
      intro l₂ b h y hy
      generalize hg : (a :: l₁) ++ c :: l₂ = l at h
      cases h with
      | top e f => simp at hg
      | @sub _ g o l' e f h' =>
        simp only [List.cons_append, List.cons.injEq] at hg
        obtain ⟨rfl, rfl⟩ := hg
        rcases List.mem_cons.1 hy with rfl | hy
        · refine ⟨o, g, e, f, ?_⟩
          cases l₁ with
          | nil => have : g = c := by cases h' <;> rfl
                   simp [this]
          | cons z l₁ => have : g = z := chain_head h'
                         simp [this]
        · obtain ⟨o', f', q1, q2, q3⟩ := ih l₂ g h' y hy
          exact ⟨o', f', q1, q2, by simp [List.mem_append] at q3 ⊢; exact Or.inr q3⟩
  have hstart : t ∈ l₁ ++ [c] := by
    cases l₁ with
    | nil => have : t = c := by cases ht <;> rfl
             simp [this]
    | cons z l₁ => have : t = z := chain_head ht
                   simp [this]
  have hget : ∀ y ∈ l₁ ++ [c], ∃ o f, (addTemplate th t name c)[y]? = some o ∧ o.father = some f ∧ f ∈ l₁ ++ [c] := by
    intro y hy
    by_cases hyc : y = c
    · subst hyc
      obtain ⟨_, _, _, hyl⟩ := ht.mem (c := y) (by simp)
      refine ⟨_, t, by rw [addTemplate_get, List.getElem?_eq_getElem hyl, Option.map_some], by simp only [if_pos], hstart⟩
    · have hy1 : y ∈ l₁ := by simpa [hyc] using hy
      obtain ⟨o, f, q1, q2, q3⟩ := next l₁ l₂ t ht y hy1
      exact ⟨_, f, by rw [addTemplate_get, q1, Option.map_some], by simp only [if_neg hyc]; exact q2, q3⟩
  have habove : ∀ a, Above (addTemplate th t name c) t a → a ∈ l₁ ++ [c] := by
    intro a ha
    induction ha with
    | here => exact hstart
    | father _ e f ih =>
      obtain ⟨o, f', q1, q2, q3⟩ := hget _ ih
      rw [e] at q1
      cases q1
      rw [f] at q2
      cases q2
      exact q3
  intro a ha
  have hm := habove a ha
  refine ⟨?_, ?_⟩
  · rw [add_registered htl, if_neg fun h => hv h.2]
    exact hn a hm
  · obtain ⟨o, f, q1, q2, _⟩ := hget a hm
    exact ⟨o, f, q1, q2⟩

/-! ## More memory -/

theorem prefix_get {th th' : THeap} (hp : th <+: th') {a : Nat} {o : Tpl} (e : th[a]? = some o) : th'[a]? = some o := by
  obtain ⟨l, rfl⟩ := hp
  rw [List.getElem?_append_left (List.getElem?_eq_some_iff.1 e).1]
  exact e

theorem BoxesAt.prefix {th th' : THeap} (hp : th <+: th') {a : Nat} {d : Doc} {l : List (Str × Nat)} (h : BoxesAt th a d l) : BoxesAt th' a d l := by
  induction h with
  | nil => exact .nil
  | elem _ ih => exact .elem ih
  | box e1 e2 e3 e4 _ e6 _ ih1 ih2 => exact .box (prefix_get hp e1) e2 e3 e4 ih1 e6 ih2

theorem Compiled.prefix {th th' : THeap} (hp : th <+: th') {t : Nat} {d : Doc} {old : AMap Nat} (h : Compiled th t d old) : Compiled th' t d old := by
  obtain ⟨o, l, e1, e2, e3, e4⟩ := h
  exact ⟨o, l, prefix_get hp e1, e2, e3.prefix hp, e4⟩

theorem InScope.prefix {th th' : THeap} (hp : th <+: th') {t : Nat} {sc : List Doc} (h : InScope th t sc) : InScope th' t sc := by
  induction h with
  | top e f c => exact .top (prefix_get hp e) f (c.prefix hp)
  | sub _ e f c ih => exact .sub ih (prefix_get hp e) f (c.prefix hp)

/-! ## A template added is a box -/

/-- The templates inside `r`, with the bodies from the inside out. -/
inductive Under (th : THeap) (r : Nat) : Nat → List Doc → Prop where
  | root : Under th r r []
  | sub {a t : Nat} {b : Doc} {up : List Doc} {o : Tpl} : Under th r a up → th[t]? = some o → o.father = some a → Compiled th t b [] →
      Under th r t (b :: up)

theorem find_withBox (name : Str) (e d : Doc) (v : Str) : (d.withBox name e).find v = (if v ∈ namesOf name then some e else none).or (d.find v) := by
  induction d with
  | nil => simp [Doc.withBox, Doc.find]
  | elem p r ih => exact ih
  | box n b r _ ih => simp [Doc.withBox, Doc.find, ih, Option.or_assoc]

theorem own_withBox (name : Str) (e d : Doc) : (d.withBox name e).own = d.own := by
  induction d with
  | nil => rfl
  | elem p r ih => simp [Doc.withBox, Doc.own, ih]
  | box n b r _ ih => simp [Doc.withBox, Doc.own, ih]

section Added

variable {th : THeap} {t c : Nat} {d e : Doc} {name : Str}

/-- Places of the templates after adding. -/
def AddPlace (th : THeap) (t c : Nat) (d e : Doc) (name : Str) (a : Nat) (sc : List Doc) : Prop :=
  (∃ up, Under th t a up ∧ sc = up ++ [d.withBox name e]) ∨ ∃ up, Under th c a up ∧ sc = up ++ [e, d.withBox name e]

theorem under_lookup (ht : InScope th t [d]) (hc : InScope th c [e]) (hne : t ≠ c) (hn : namesOf name = [name]) {a : Nat} {sc : List Doc}
    (hp : AddPlace th t c d e name a sc) (v : Str) : match lookup sc v with
      | none => getTemplate (addTemplate th t name c) a v = .ok none
      | some sc' => ∃ x, getTemplate (addTemplate th t name c) a v = .ok (some x) ∧ AddPlace th t c d e name x sc' := by
  obtain ⟨ot, et, hft⟩ : ∃ o, th[t]? = some o ∧ o.father = none := by
    cases ht with
    | top e f _ => exact ⟨_, e, f⟩
  obtain ⟨oc, ec, hfc⟩ : ∃ o, th[c]? = some o ∧ o.father = none := by
    cases hc with
    | top e f _ => exact ⟨_, e, f⟩
  have htl : t < th.length := (List.getElem?_eq_some_iff.1 et).1
  have reg := fun b => add_registered htl name c b v
  have get : ∀ b o, th[b]? = some o → ∃ o', (addTemplate th t name c)[b]? = some o' ∧ o'.father = if b = c then some t else o.father := by
    intro b o eb
    exact ⟨_, by rw [addTemplate_get, eb, Option.map_some], rfl⟩
  -- from the top
  have htop : Chain (addTemplate th t name c) t [t] ∧ match lookup [d.withBox name e] v with
      | none => [t].findSome? (fun a => Registered (addTemplate th t name c) a v) = none
      | some sc' => ∃ x, [t].findSome? (fun a => Registered (addTemplate th t name c) a v) = some x ∧ AddPlace th t c d e name x sc' := by
    constructor
    · obtain ⟨o', e1, e2⟩ := get t ot et
      exact .top e1 (by rw [e2, if_neg hne, hft])
    · simp only [Template.lookup, find_withBox, hn, List.mem_singleton, List.findSome?_cons, reg, true_and]
      by_cases hv : v = name
      · simp only [hv, if_true, Option.some_or]
        exact ⟨c, rfl, Or.inr ⟨[], .root, rfl⟩⟩
      · simp only [hv, if_false, Option.none_or]
        have := Registered_compiled ht.compiled v
        cases ed : d.find v with
        | none => rw [ed] at this; simp only at this; simp [this]
        | some b =>
          rw [ed] at this
          obtain ⟨x, o', q1, q2, q3, q4⟩ := this
          simp only [q1]
          exact ⟨x, rfl, Or.inl ⟨[b], .sub .root q2 q3 q4, rfl⟩⟩
  -- under t
  have hunder : ∀ a up, Under th t a up → ∃ l, Chain (addTemplate th t name c) a l ∧ match lookup (up ++ [d.withBox name e]) v with
      | none => l.findSome? (fun a => Registered (addTemplate th t name c) a v) = none
      | some sc' => ∃ x, l.findSome? (fun a => Registered (addTemplate th t name c) a v) = some x ∧ AddPlace th t c d e name x sc' := by
    intro a up hu
    induction hu with
    | root => exact ⟨[t], htop⟩
    | @sub a s b up o hu e1 e2 e3 ih =>
      obtain ⟨l, hl, ih⟩ := ih
      obtain ⟨o', q1, q2⟩ := get s o e1
      have hsc : s ≠ c := fun h => by rw [h, ec] at e1; cases e1; rw [hfc] at e2; cases e2
      have hst : s ≠ t := fun h => by rw [h, et] at e1; cases e1; rw [hft] at e2; cases e2
      refine ⟨s :: l, .sub q1 (by rw [q2, if_neg hsc, e2]) hl, ?_⟩
      have := Registered_compiled e3 v
      simp only [List.cons_append, Template.lookup, List.findSome?_cons, reg s, hst, false_and, if_false]
      cases ed : b.find v with
      | none => rw [ed] at this; simp only at this; rw [this]; exact ih
      | some b' =>
        rw [ed] at this
        obtain ⟨x, o2, r1, r2, r3, r4⟩ := this
        rw [r1]
        exact ⟨x, rfl, Or.inl ⟨b' :: b :: up, .sub (.sub hu e1 e2 e3) r2 r3 r4, rfl⟩⟩
  have hunder' : ∀ a up, Under th c a up → ∃ l, Chain (addTemplate th t name c) a l ∧ match lookup (up ++ [e, d.withBox name e]) v with
      | none => l.findSome? (fun a => Registered (addTemplate th t name c) a v) = none
      | some sc' => ∃ x, l.findSome? (fun a => Registered (addTemplate th t name c) a v) = some x ∧ AddPlace th t c d e name x sc' := by
    intro a up hu
    induction hu with
    | root =>
      obtain ⟨o', q1, q2⟩ := get c oc ec
      refine ⟨[c, t], .sub q1 (by rw [q2, if_pos rfl]) htop.1, ?_⟩
      have := Registered_compiled hc.compiled v
      rw [List.nil_append, Template.lookup, List.findSome?_cons, reg c, if_neg (fun h => hne h.1.symm)]
      cases ed : e.find v with
      | none => rw [ed] at this; simp only at this; rw [this]; exact htop.2
      | some b' =>
        rw [ed] at this
        obtain ⟨x, o2, r1, r2, r3, r4⟩ := this
        rw [r1]
        exact ⟨x, rfl, Or.inr ⟨[b'], .sub .root r2 r3 r4, rfl⟩⟩
    | @sub a s b up o hu e1 e2 e3 ih =>
      obtain ⟨l, hl, ih⟩ := ih
      obtain ⟨o', q1, q2⟩ := get s o e1
      have hsc : s ≠ c := fun h => by rw [h, ec] at e1; cases e1; rw [hfc] at e2; cases e2
      have hst : s ≠ t := fun h => by rw [h, et] at e1; cases e1; rw [hft] at e2; cases e2
      refine ⟨s :: l, .sub q1 (by rw [q2, if_neg hsc, e2]) hl, ?_⟩
      have := Registered_compiled e3 v
      simp only [List.cons_append, Template.lookup, List.findSome?_cons, reg s, hst, false_and, if_false]
      cases ed : b.find v with
      | none => rw [ed] at this; simp only at this; rw [this]; exact ih
      | some b' =>
        rw [ed] at this
        obtain ⟨x, o2, r1, r2, r3, r4⟩ := this
        rw [r1]
        exact ⟨x, rfl, Or.inr ⟨b' :: b :: up, .sub (.sub hu e1 e2 e3) r2 r3 r4, rfl⟩⟩
  obtain ⟨l, hl, hlook⟩ : ∃ l, Chain (addTemplate th t name c) a l ∧ match lookup sc v with
      | none => l.findSome? (fun a => Registered (addTemplate th t name c) a v) = none
      | some sc' => ∃ x, l.findSome? (fun a => Registered (addTemplate th t name c) a v) = some x ∧ AddPlace th t c d e name x sc' := by
    rcases hp with ⟨up, hu, rfl⟩ | ⟨up, hu, rfl⟩
    · exact hunder a up hu
    · exact hunder' a up hu
  rw [getTemplate_chain hl]
  cases es : lookup sc v with
  | none => rw [es] at hlook; simp only at hlook; rw [hlook]
  | some sc' =>
    rw [es] at hlook
    obtain ⟨x, q1, q2⟩ := hlook
    exact ⟨x, by rw [q1], q2⟩

theorem addPlace_root (ht : InScope th t [d]) (hc : InScope th c [e]) {a : Nat} {sc : List Doc} (hp : AddPlace th t c d e name a sc) :
    ∃ o, (addTemplate th t name c)[a]? = some o ∧ o.root = some (innermost sc) := by
  have of : ∀ o b, th[a]? = some o → o.root = some b → ∃ o', (addTemplate th t name c)[a]? = some o' ∧ o'.root = some b :=
    fun o b ea er => by rw [addTemplate_get, ea, Option.map_some]; exact ⟨_, rfl, er⟩
  rcases hp with ⟨up, hu, rfl⟩ | ⟨up, hu, rfl⟩
  · cases hu with
    | root =>
      obtain ⟨o, _, eo, er, _⟩ := ht.compiled
      exact of o _ eo (by rw [er]; simp [innermost, own_withBox])
    | sub _ _ _ hc =>
      obtain ⟨o, _, eo, er, _⟩ := hc
      exact of o _ eo (by rw [er]; rfl)
  · cases hu with
    | root =>
      obtain ⟨o, _, eo, er, _⟩ := hc.compiled
      exact of o _ eo (by rw [er]; rfl)
    | sub _ _ _ hc =>
      obtain ⟨o, _, eo, er, _⟩ := hc
      exact of o _ eo (by rw [er]; rfl)

/-- The templates after adding, as places of documents. -/
def addView (ht : InScope th t [d]) (hc : InScope th c [e]) (hne : t ≠ c) (hn : namesOf name = [name]) :
    View (addTemplate th t name c) innermost lookup where
  rel := AddPlace th t c d e name
  lookup := by
    intro a sc hp v
    have := under_lookup ht hc hne hn hp v
    cases es : lookup sc v with
    | none => rw [es] at this; exact this
    | some sc' => rw [es] at this; exact this
  root := by
    intro a sc hp
    obtain ⟨o, e1, e2⟩ := addPlace_root ht hc hp
    exact ⟨o, e1, Or.inl e2⟩

/-- Adding is the same as a box. -/
theorem execute_added (x : Ext) (ht : InScope th t [d]) (hc : InScope th c [e]) (hne : t ≠ c) (hn : namesOf name = [name]) {th' : THeap} {t' : Nat}
    (ht' : InScope th' t' [d.withBox name e]) (n : Nat) (h : Heap) (data : Option Nat) :
    execute x (addTemplate th t name c) n t h data = execute x th' n t' h data := by
  refine execute_sim x (R := fun a b => ∃ sc, AddPlace th t c d e name a sc ∧ InScope th' b sc) ⟨?_, ?_⟩ n ⟨_, Or.inl ⟨[], .root, rfl⟩, ht'⟩ h data
  · rintro a b ⟨sc, h1, h2⟩
    obtain ⟨o, e1, e2⟩ := addPlace_root ht hc h1
    cases sc with
    | nil => cases h2
    | cons d0 up =>
      obtain ⟨o', _, e3, e4, _⟩ := h2.compiled
      rw [e1, e3, Option.map_some, Option.map_some, e2, e4]
      rfl
  · rintro a b o root p ⟨sc, h1, h2⟩ _ _ _ v _
    have q1 := under_lookup ht hc hne hn h1 v
    have q2 := h2.lookup v
    cases es : lookup sc v with
    | none => rw [es] at q1 q2; simp only at q1 q2; rw [q1, q2]; exact .ok .none
    | some sc' =>
      rw [es] at q1 q2
      obtain ⟨y, r1, r2⟩ := q1
      obtain ⟨z, s1, s2⟩ := q2
      rw [r1, s1]
      exact .ok (.some ⟨sc', r2, s2⟩)

end Added

end Xcore.Template
