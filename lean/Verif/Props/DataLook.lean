import Verif.Proof.DataEntry
import Verif.Proof.DataSharp
import Verif.Proof.DatasetWF

/-!
# Entries that a template does not ask for do not matter (C118)
-/

namespace Xcore.Template

open Xcore.Dataset

/-- **C118** Data that differ only in an entry that the template cannot see: if `Execute` renders a text with one it renders the same text with the other,
and afterwards the data again differ in this entry only (the same counters have been written). -/
theorem C118_unseen_entry {th : THeap} {t : Nat} (hu : Usable th t) {h g : Heap} {data : Option Nat} (hp : Proper h data) (hg : Proper g data) {b : Nat} {k : Str}
    (un : Unseen th t h g k) (d : DifferOnlyIn h g b k) (x : Ext) {n : Nat} {h₁ : Heap} {out : Str} (e : execute x th n t h data = .ok (h₁, out)) :
    ∃ m g₁, execute x th m t g data = .ok (g₁, out) ∧ DifferOnlyIn h₁ g₁ b k := execute_differ hu hp hg un d e

/-- **C118** Writing an entry that the template cannot see, in any dataset (a thread-safe one too), does not change what `Execute` renders. -/
theorem C118_set_unseen {th : THeap} {t : Nat} (hu : Usable th t) {h h' : Heap} {data : Option Nat} (hp : Proper h data) {a : Nat} {k : Str} {v : Val} (hv : Valid h v)
    (un : Unseen th t h h' k) (e : set h a k v = .ok h') (x : Ext) (out : Str) :
    (∃ n h₁, execute x th n t h' data = .ok (h₁, out)) ↔ ∃ n h₁, execute x th n t h data = .ok (h₁, out) := by
  obtain ⟨b, _, d⟩ := differ_set e
  have hg := d.proper hp (set_wf hp.wf hv e).1
  exact ⟨fun ⟨n, h₁, q⟩ => by
    obtain ⟨m, g₁, q, _⟩ := execute_differ hu hg hp (un.flip d (set_length e)) d.flip q
    exact ⟨m, g₁, q⟩, fun ⟨n, h₁, q⟩ => by
    obtain ⟨m, g₁, q, _⟩ := execute_differ hu hp hg un d q
    exact ⟨m, g₁, q⟩⟩

/-- **C118** The same for deleting such an entry. -/
theorem C118_del_unseen {th : THeap} {t : Nat} (hu : Usable th t) {h h' : Heap} {data : Option Nat} (hp : Proper h data) {a : Nat} {k : Str}
    (un : Unseen th t h h' k) (e : del h a k = .ok h') (x : Ext) (out : Str) :
    (∃ n h₁, execute x th n t h' data = .ok (h₁, out)) ↔ ∃ n h₁, execute x th n t h data = .ok (h₁, out) := by
  obtain ⟨b, _, d⟩ := differ_del e
  have hg := d.proper hp (del_wf hp.wf e).1
  exact ⟨fun ⟨n, h₁, q⟩ => by
    obtain ⟨m, g₁, q, _⟩ := execute_differ hu hg hp (un.flip d (del_length e)) d.flip q
    exact ⟨m, g₁, q⟩, fun ⟨n, h₁, q⟩ => by
    obtain ⟨m, g₁, q, _⟩ := execute_differ hu hp hg un d q
    exact ⟨m, g₁, q⟩⟩

/-- **C118** Writing such an entry does not change whether `Execute` panics. -/
theorem C118_set_unseen_panic {th : THeap} {t : Nat} (hu : Usable th t) {h h' : Heap} {data : Option Nat} (hp : Proper h data) {a : Nat} {k : Str} {v : Val} (hv : Valid h v)
    (un : Unseen th t h h' k) (e : set h a k v = .ok h') (x : Ext) : (∃ n, execute x th n t h' data = .panic) ↔ ∃ n, execute x th n t h data = .panic := by
  obtain ⟨b, _, d⟩ := differ_set e
  have hg := d.proper hp (set_wf hp.wf hv e).1
  exact ⟨execute_panic_differ hu hg hp (un.flip d (set_length e)) d.flip, execute_panic_differ hu hp hg un d⟩

/-- **C118** Nor whether `Execute` ends. -/
theorem C118_set_unseen_ends {th : THeap} {t : Nat} (hu : Usable th t) {h h' : Heap} {data : Option Nat} (hp : Proper h data) {a : Nat} {k : Str} {v : Val} (hv : Valid h v)
    (un : Unseen th t h h' k) (e : set h a k v = .ok h') (x : Ext) : (∀ n, execute x th n t h' data = .diverge) ↔ ∀ n, execute x th n t h data = .diverge := by
  have p := C118_set_unseen_panic hu hp hv un e x
  have o := C118_set_unseen hu hp hv un e x
  constructor
  · intro q n
    cases r : execute x th n t h data with
    | diverge => rfl
    | panic => obtain ⟨m, r⟩ := p.2 ⟨n, r⟩; rw [q m] at r; cases r
    | ok y => obtain ⟨m, _, r⟩ := (o y.2).2 ⟨n, y.1, r⟩; rw [q m] at r; cases r
  · intro q n
    cases r : execute x th n t h' data with
    | diverge => rfl
    | panic => obtain ⟨m, r⟩ := p.1 ⟨n, r⟩; rw [q m] at r; cases r
    | ok y => obtain ⟨m, _, r⟩ := (o y.2).1 ⟨n, y.1, r⟩; rw [q m] at r; cases r

/-- **C118** Deleting such an entry does not change whether `Execute` panics. -/
theorem C118_del_unseen_panic {th : THeap} {t : Nat} (hu : Usable th t) {h h' : Heap} {data : Option Nat} (hp : Proper h data) {a : Nat} {k : Str}
    (un : Unseen th t h h' k) (e : del h a k = .ok h') (x : Ext) : (∃ n, execute x th n t h' data = .panic) ↔ ∃ n, execute x th n t h data = .panic := by
  obtain ⟨b, _, d⟩ := differ_del e
  have hg := d.proper hp (del_wf hp.wf e).1
  exact ⟨execute_panic_differ hu hg hp (un.flip d (del_length e)) d.flip, execute_panic_differ hu hp hg un d⟩

/-- **C118** Nor whether `Execute` ends. -/
theorem C118_del_unseen_ends {th : THeap} {t : Nat} (hu : Usable th t) {h h' : Heap} {data : Option Nat} (hp : Proper h data) {a : Nat} {k : Str}
    (un : Unseen th t h h' k) (e : del h a k = .ok h') (x : Ext) : (∀ n, execute x th n t h' data = .diverge) ↔ ∀ n, execute x th n t h data = .diverge := by
  have p := C118_del_unseen_panic hu hp un e x
  have o := C118_del_unseen hu hp un e x
  constructor
  · intro q n
    cases r : execute x th n t h data with
    | diverge => rfl
    | panic => obtain ⟨m, r⟩ := p.2 ⟨n, r⟩; rw [q m] at r; cases r
    | ok y => obtain ⟨m, _, r⟩ := (o y.2).2 ⟨n, y.1, r⟩; rw [q m] at r; cases r
  · intro q n
    cases r : execute x th n t h' data with
    | diverge => rfl
    | panic => obtain ⟨m, r⟩ := p.1 ⟨n, r⟩; rw [q m] at r; cases r
    | ok y => obtain ⟨m, _, r⟩ := (o y.2).1 ⟨n, y.1, r⟩; rw [q m] at r; cases r

/-- A template with a condition and a loop. -/
def guests : THeap := (newFromString [] b!"??host:h??@@users:user@@[[h]]by {{name}}: [[]][[user]]{{.counter}} {{name}};[[]]").1

/-- Data for it: a user of this age, whose dataset is once used directly and once through a thread-safe one. -/
def partyOf (age : Int) : Heap :=
  [.ds [(b!"users", .ptr 1), (b!"host", .ptr 2)], .col [some 3], .ds [(b!"name", .str b!"Ada"), (b!"age", .int .int age)], .dsTS (some 2)]

def party : Heap := partyOf 36

theorem guests_elements {p : Param} (hp : ElementOf guests 0 p) :
    p = ⟨.condition, b!"host:h"⟩ ∨ p = ⟨.range, b!"users:user"⟩ ∨ p = ⟨.variable, b!".counter"⟩ ∨ p = ⟨.variable, b!"name"⟩ ∨ ∃ s, p = ⟨.string, s⟩ := by
  obtain ⟨c, _, hm⟩ := hp
  have all : ∀ p ∈ elements guests c, p ∈ ([⟨.condition, b!"host:h"⟩, ⟨.range, b!"users:user"⟩, ⟨.variable, b!".counter"⟩, ⟨.variable, b!"name"⟩, ⟨.string, b!"by "⟩, ⟨.string, b!": "⟩,
      ⟨.string, b!" "⟩, ⟨.string, b!";"⟩, ⟨.string, b!"Error, no template.Root compiled"⟩] : List Param) := by
    match c with
    | 0 => decide +kernel
    | 1 => decide +kernel
    | 2 => decide +kernel
    | c + 3 =>
      have : elements guests (c + 3) = [⟨.string, b!"Error, no template.Root compiled"⟩] := by
        have : guests[c + 3]? = none := List.getElem?_eq_none (by rw [show guests.length = 3 by decide +kernel]; omega)
        simp [elements, this]
      rw [this]; simp
  have := all p hm
  simp only [List.mem_cons, List.not_mem_nil, or_false] at this
  rcases this with h | h | h | h | h | h | h | h | h
  · exact Or.inl h
  · exact Or.inr (Or.inl h)
  · exact Or.inr (Or.inr (Or.inl h))
  · exact Or.inr (Or.inr (Or.inr (Or.inl h)))
  all_goals exact Or.inr (Or.inr (Or.inr (Or.inr ⟨_, h⟩)))

theorem guests_usable : Usable guests 0 := by
  have key : ∀ c, Comes guests 0 c → c = 0 ∨ c = 1 ∨ c = 2 := by
    intro c hc
    induction hc with
    | here => exact Or.inl rfl
    | @father c f o _ e q ih =>
      have all : ∀ o ∈ guests, ∀ f ∈ o.father, f = 0 ∨ f = 1 ∨ f = 2 := by decide +kernel
      exact all o (List.mem_of_getElem? e) f q
    | @sub c s v _ e ih =>
      have all : ∀ o ∈ guests, ∀ q ∈ o.subs.getD [], q.2 = 0 ∨ q.2 = 1 ∨ q.2 = 2 := by decide +kernel
      simp only [Registered] at e
      cases eo : guests[c]? with
      | none => rw [eo] at e; cases e
      | some o => rw [eo] at e; exact all o (List.mem_of_getElem? eo) (v, _) (AMap.mem_of_get e)
  have c0 : Chain guests 0 [0] := .top rfl (by decide +kernel)
  intro c hc
  rcases key c hc with rfl | rfl | rfl
  · exact ⟨_, c0⟩
  · exact ⟨_, .sub rfl (by decide +kernel) c0⟩
  · exact ⟨_, .sub rfl (by decide +kernel) c0⟩

theorem party_acyclic (n : Int) : NoCycles (partyOf n) := by
  let rank : Nat → Nat := fun a => if a = 0 then 0 else if a = 1 then 1 else if a = 3 then 2 else 3
  have up : ∀ a b : Nat, Refers (partyOf n) a b → rank a < rank b := by
    intro a b q
    have hlt : ∀ {o}, (partyOf n)[a]? = some o → a < 4 := fun e => lt_of_getElem? e
    cases q with
    | ptr e hm =>
      match a, hlt e with
      | 0, _ => cases e; simp at hm; rcases hm with ⟨-, rfl⟩ | ⟨-, rfl⟩ <;> decide
      | 1, _ => cases e
      | 2, _ => cases e; simp at hm
      | 3, _ => cases e
    | slice e hm =>
      match a, hlt e with
      | 0, _ => cases e; simp at hm
      | 1, _ => cases e
      | 2, _ => cases e; simp at hm
      | 3, _ => cases e
    | wrapped e =>
      match a, hlt e with
      | 0, _ => cases e
      | 1, _ => cases e
      | 2, _ => cases e
      | 3, _ => cases e; decide
    | elem e hm =>
      rcases e with e | e
      · match a, hlt e with
        | 0, _ => cases e
        | 1, _ => cases e; simp at hm; subst hm; decide
        | 2, _ => cases e
        | 3, _ => cases e
      · match a, hlt e with
        | 0, _ => cases e
        | 1, _ => cases e
        | 2, _ => cases e
        | 3, _ => cases e
  have le : ∀ a b : Nat, Reach (partyOf n) a b → rank a ≤ rank b := by
    intro a b q
    induction q with
    | refl => exact Nat.le_refl _
    | step q _ ih => have := up _ _ q; omega
  intro a _ b c _ q q'
  have h1 := up _ _ q
  have h2 := le _ _ q'
  omega

theorem guests_unseen : Unseen guests 0 party (partyOf 37) b!"age" := by
  have pu : parts b!"users:user" = [b!"users", b!"user"] := by decide +kernel
  have ph : parts b!"host:h" = [b!"host", b!"h"] := by decide +kernel
  have found : ∀ h₁, SameButCounters party h₁ → ∀ (c : Nat) (s : Str) (w : Val), Entry h₁ c s w → s ≠ b!".counter" ∧ Entry party c s w ∨ s = b!".counter" ∧ ∃ i : Nat, w = .int .int i := by
    rintro h₁ sb c s w ⟨t, m, w', hm, g⟩
    have no : ∀ m0, party[t]? = some (.ds m0) → m0.get b!".counter" = none := by
      intro m e
      match t with
      | 0 => cases e; decide
      | 1 => cases e
      | 2 => cases e; decide
      | 3 => cases e
      | t + 4 => simp [party, partyOf] at e
    have wr : Wraps party c t := by
      induction w' with
      | @plain a m hm' =>
        rcases sb.objects a with r | ⟨m1, m2, e1, _⟩
        · exact .plain (m := m) (by rw [← r]; exact hm')
        · exact .plain e1
      | @wrapper a b t hb _ ih =>
        rcases sb.objects a with r | ⟨m1, m2, _, e2, _⟩
        · exact .wrapper (by rw [← r]; exact hb) (ih hm no)
        · rw [hb] at e2; cases e2
    rcases sb.objects t with r | ⟨m1, m2, e1, e2, hn, hc⟩
    · rw [r] at hm
      refine Or.inl ⟨fun e => ?_, t, m, wr, hm, g⟩
      rw [e, no m hm] at g; cases g
    · rw [hm] at e2; cases e2
      by_cases hs : s = b!".counter"
      · refine Or.inr ⟨hs, ?_⟩
        rw [hs] at g
        rcases hc with hc | ⟨i, hc⟩
        · rw [hc, no m1 e1] at g; cases g
        · rw [hc] at g; cases g; exact ⟨i, rfl⟩
      · exact Or.inl ⟨hs, t, m1, wr, e1, by rw [← hn s hs]; exact g⟩
  have old : ∀ (c : Nat) (s : Str) (w : Val), Entry party c s w → s = b!"users" ∧ w = .ptr 1 ∨ s = b!"host" ∧ w = .ptr 2 ∨ s = b!"name" ∧ w = .str b!"Ada" ∨ s = b!"age" ∧ w = .int .int 36 := by
    rintro c s w ⟨t, m, _, hm, g⟩
    match t with
    | 0 =>
      cases hm
      have := AMap.mem_of_get g
      simp only [List.mem_cons, List.not_mem_nil, or_false, Prod.mk.injEq] at this
      rcases this with h | h
      · exact Or.inl h
      · exact Or.inr (Or.inl h)
    | 1 => cases hm
    | 2 =>
      cases hm
      have := AMap.mem_of_get g
      simp only [List.mem_cons, List.not_mem_nil, or_false, Prod.mk.injEq] at this
      rcases this with h | h
      · exact Or.inr (Or.inr (Or.inl h))
      · exact Or.inr (Or.inr (Or.inr h))
    | 3 => cases hm
    | t + 4 => simp [party, partyOf] at hm
  constructor
  · rintro p key hp hk ⟨before, s, rest, e, q⟩
    have one : ∀ k : Str, split 62 k = [k] → k ≠ b!"age" → split 62 k = before ++ s :: rest → False := by
      intro k hs hn e
      rw [hs] at e
      cases before with
      | nil =>
        cases e
        rcases q with q | q
        · exact hn q.symm
        · simp [join] at q; exact hn q.symm
      | cons y before => simp at e
    rcases guests_elements hp with rfl | rfl | rfl | rfl | ⟨s, rfl⟩
    · cases hk with
      | condition ht =>
        rcases ht with ⟨ht, _⟩ | ⟨_, ht⟩ <;> rw [ph] at ht <;> cases ht
        exact one _ (by decide +kernel) (by decide) e
    · cases hk with
      | range ht =>
        rcases ht with ⟨ht, _⟩ | ⟨_, ht⟩ <;> rw [pu] at ht <;> cases ht
        exact one _ (by decide +kernel) (by decide) e
    · cases hk; exact one _ (by decide +kernel) (by decide) e
    · cases hk; exact one _ (by decide +kernel) (by decide) e
    · cases hk
  · intro h₁ sb p key c w hp hk q
    rcases guests_elements hp with rfl | rfl | rfl | rfl | ⟨s, rfl⟩
    · cases hk
    · cases hk
    · cases hk
      rw [Has, show split 62 b!".counter" = [b!".counter"] by decide +kernel] at q
      cases q with
      | entry e =>
        rcases found h₁ sb _ _ _ e with ⟨r, _⟩ | ⟨_, i, rfl⟩
        · exact absurd rfl r
        · intro a ha; cases ha
    · cases hk
      rw [Has, show split 62 b!"name" = [b!"name"] by decide +kernel] at q
      cases q with
      | entry e =>
        rcases found h₁ sb _ _ _ e with ⟨_, r⟩ | ⟨r, _⟩
        · rcases old _ _ _ r with ⟨r, _⟩ | ⟨r, _⟩ | ⟨_, rfl⟩ | ⟨r, _⟩
          · exact absurd r (by decide)
          · exact absurd r (by decide)
          · intro a ha; cases ha
          · exact absurd r (by decide)
        · exact absurd r (by decide)
    · cases hk
  · intro h₁ sb s key id c w hp ht q
    refine Or.inr ⟨?_, party_acyclic 36, party_acyclic 37⟩
    rcases guests_elements hp with h | h | h | h | ⟨_, h⟩ <;> cases h
    rcases ht with ⟨ht, _⟩ | ⟨_, ht⟩ <;> rw [ph] at ht <;> cases ht
    rw [Has, show split 62 b!"host" = [b!"host"] by decide +kernel] at q
    cases q with
    | entry e =>
      rcases found h₁ sb _ _ _ e with ⟨_, r⟩ | ⟨r, _⟩
      · rcases old _ _ _ r with ⟨r, _⟩ | ⟨_, rfl⟩ | ⟨r, _⟩ | ⟨r, _⟩
        · exact absurd r (by decide)
        · refine ⟨2, rfl, ?_⟩
          rcases sb.objects 2 with r | ⟨_, m2, _, e2, _⟩
          · exact Or.inl ⟨_, r.trans rfl⟩
          · exact Or.inl ⟨m2, e2⟩
        · exact absurd r (by decide)
        · exact absurd r (by decide)
      · exact absurd r (by decide)
  · intro s hs
    rcases guests_elements hs with e | e | e | e | ⟨_, e⟩ <;> cases e
  · decide

/-- The template and data fulfil what is asked: setting the age of the user through the thread-safe dataset does not change the page, and the page is not
trivial. -/
example : Usable guests 0 ∧ Proper party (some 0) ∧ Unseen guests 0 party (partyOf 37) b!"age" ∧ set party 3 b!"age" (.int .int 37) = .ok (partyOf 37) ∧
    Valid party (.int .int 37) ∧ ∀ x, ∃ h₁, execute x guests 4 0 party (some 0) = .ok (h₁, b!"by Ada: 1 Ada;") := by
  refine ⟨guests_usable, ⟨⟨fun a m e => ?_, fun a b e => ?_, fun a m k v e hb => ?_, fun a l b e hb => ?_⟩, fun a e => ?_, fun a l e => ?_, fun a e => ?_⟩, guests_unseen,
    rfl, by simp [Valid, OfKind], fun x => ⟨_, rfl⟩⟩
  · match a with
    | 0 => cases e; simp [AMap.Nodup, AMap.keys]
    | 1 => cases e
    | 2 => cases e; simp [AMap.Nodup, AMap.keys]
    | 3 => cases e
    | a + 4 => simp [party, partyOf] at e
  · match a with
    | 0 => cases e
    | 1 => cases e
    | 2 => cases e
    | 3 => cases e; exact ⟨by decide, Or.inl ⟨_, rfl⟩⟩
    | a + 4 => simp [party, partyOf] at e
  · match a with
    | 0 =>
      cases e
      simp only [List.mem_cons, List.not_mem_nil, or_false, Prod.mk.injEq] at hb
      rcases hb with ⟨-, rfl⟩ | ⟨-, rfl⟩ <;> simp [Valid, party, partyOf]
    | 1 => cases e
    | 2 =>
      cases e
      simp only [List.mem_cons, List.not_mem_nil, or_false, Prod.mk.injEq] at hb
      rcases hb with ⟨-, rfl⟩ | ⟨-, rfl⟩ <;> simp [Valid, OfKind]
    | 3 => cases e
    | a + 4 => simp [party, partyOf] at e
  · match a with
    | 0 => rcases e with e | e <;> cases e
    | 1 =>
      rcases e with e | e <;> cases e
      simp at hb
      subst hb
      exact Or.inr ⟨_, rfl⟩
    | 2 => rcases e with e | e <;> cases e
    | 3 => rcases e with e | e <;> cases e
    | a + 4 => simp [IsCollection, party, partyOf] at e
  · match a with
    | 0 => cases e
    | 1 => cases e
    | 2 => cases e
    | 3 => cases e
    | a + 4 => simp [party, partyOf] at e
  · match a with
    | 0 => rcases e with e | e <;> cases e
    | 1 => rcases e with e | e <;> cases e; decide
    | 2 => rcases e with e | e <;> cases e
    | 3 => rcases e with e | e <;> cases e
    | a + 4 => simp [IsCollection, party, partyOf] at e
  · cases e; exact Or.inl ⟨_, rfl⟩

/-- **C118** What is left out does matter: a field that is a dataset shows entries that no element asks for. -/
theorem C118_printed_data_matter : ∃ (th : THeap) (h h' : Heap), Usable th 0 ∧ Proper h (some 0) ∧ DifferOnlyIn h h' 1 b!"k" ∧
    (∀ p key, ElementOf th 0 p → LooksUp p key → ¬ AsksFor key b!"k") ∧
    ∀ x, execute x th 1 0 h (some 0) = .ok (h, b!"xcore.XDataset{}") ∧ execute x th 1 0 h' (some 0) = .ok (h', b!"xcore.XDataset{k:v}") := by
  have only : ∀ c, Comes [⟨[], some [⟨.variable, b!"d"⟩], none, none⟩] 0 c → c = 0 := by
    intro c hc
    induction hc with
    | here => rfl
    | father _ e f ih => subst ih; cases e; cases f
    | sub _ e ih => subst ih; simp [Registered] at e
  refine ⟨[⟨[], some [⟨.variable, b!"d"⟩], none, none⟩], [.ds [(b!"d", .ptr 1)], .ds []], [.ds [(b!"d", .ptr 1)], .ds [(b!"k", .str b!"v")]], ?_, ?_, ?_, ?_, fun x => ⟨rfl, rfl⟩⟩
  · intro c hc
    cases only c hc
    exact ⟨[0], .top rfl rfl⟩
  · refine ⟨⟨fun a m e => ?_, fun a b e => ?_, fun a m k v e hb => ?_, fun a l b e hb => ?_⟩, fun a e => ?_, fun a l e => ?_, fun a e => ?_⟩
    · match a with
      | 0 => cases e; simp [AMap.Nodup, AMap.keys]
      | 1 => cases e; simp [AMap.Nodup, AMap.keys]
      | a + 2 => simp at e
    · match a with
      | 0 => cases e
      | 1 => cases e
      | a + 2 => simp at e
    · match a with
      | 0 => cases e; simp at hb; rw [hb.2]; simp [Valid]
      | 1 => cases e; simp at hb
      | a + 2 => simp at e
    · match a with
      | 0 => rcases e with e | e <;> cases e
      | 1 => rcases e with e | e <;> cases e
      | a + 2 => simp [IsCollection] at e
    · match a with
      | 0 => cases e
      | 1 => cases e
      | a + 2 => simp at e
    · match a with
      | 0 => rcases e with e | e <;> cases e
      | 1 => rcases e with e | e <;> cases e
      | a + 2 => simp [IsCollection] at e
    · cases e; exact Or.inl ⟨_, rfl⟩
  · refine ⟨⟨_, _, rfl, rfl, fun k' n => ?_⟩, fun c n => ?_⟩
    · simp [AMap.get, Ne.symm n]
    · match c with
      | 0 => rfl
      | 1 => exact absurd rfl n
      | c + 2 => simp
  · rintro p key ⟨c, hc, hm⟩ hk ⟨before, s, rest, e, q⟩
    cases only c hc
    simp [elements] at hm
    subst hm
    cases hk
    rw [show split 62 b!"d" = [b!"d"] by decide +kernel] at e
    cases before with
    | nil => cases e; revert q; decide +kernel
    | cons y before => simp at e

/-- **C118** A condition on a dataset prints it, although nothing of the text is used: after an entry that no element asks for has been set to the dataset itself,
`Execute` does not end. -/
theorem C118_cycles_matter : ∃ (th : THeap) (h h' : Heap), (∀ p key, ElementOf th 0 p → LooksUp p key → ¬ AsksFor key b!"k") ∧ set h 1 b!"k" (.ptr 1) = .ok h' ∧
    ∀ x, execute x th 2 0 h (some 0) = .ok (h, b!"yes") ∧ ∀ n, execute x th n 0 h' (some 0) = .diverge := by
  refine ⟨[⟨[], some [⟨.condition, b!"d:b"⟩], some [(b!"b", 1)], none⟩, ⟨b!"b", some [⟨.string, b!"yes"⟩], none, some 0⟩], [.ds [(b!"d", .ptr 1)], .ds []],
    [.ds [(b!"d", .ptr 1)], .ds [(b!"k", .ptr 1)]], ?_, rfl, fun x => ⟨rfl, fun n => ?_⟩⟩
  · rintro p key ⟨c, hc, hm⟩ hk ⟨before, s, rest, e, q⟩
    match c with
    | 0 =>
      simp [elements] at hm
      subst hm
      cases hk with
      | condition ht =>
        rcases ht with ⟨ht, _⟩ | ⟨_, ht⟩ <;> rw [show parts b!"d:b" = [b!"d", b!"b"] by decide +kernel] at ht <;> cases ht
        rw [show split 62 b!"d" = [b!"d"] by decide +kernel] at e
        cases before with
        | nil => cases e; revert q; decide +kernel
        | cons y before => simp at e
    | 1 => simp [elements] at hm; subst hm; cases hk
    | c + 2 => simp [elements] at hm; subst hm; cases hk
  · match n with
    | 0 => rfl
    | 1 => rfl
    | n + 2 => rfl

/-- **C118** The specification of what is asked for names no entry too many: for each entry `k` that a path may ask for, there are data that differ only in the
entry `k` of one dataset and with which the field of this path shows different texts. -/
theorem C118_every_entry_counts {key k : Str} (ha : AsksFor key k) : ∃ (th : THeap) (h h' : Heap) (b : Nat), Usable th 0 ∧ Proper h (some 0) ∧ Proper h' (some 0) ∧
    elements th 0 = [⟨.variable, key⟩] ∧ DifferOnlyIn h h' b k ∧
    ∀ x, ∃ n n' out out', execute x th n 0 h (some 0) = .ok (h, out) ∧ execute x th n' 0 h' (some 0) = .ok (h', out') ∧ out ≠ out' := by
  obtain ⟨h, h', b, hp, hp', d, e⟩ := DataSharp.counts ha
  exact ⟨DataSharp.field key, h, h', b, DataSharp.field_usable key, hp, hp', rfl, d, e⟩

/-- The path `a>b>c` asks for `a`, for `b>c` and for `c`, but not for `a>b`. -/
example : AsksFor b!"a>b>c" b!"a" ∧ AsksFor b!"a>b>c" b!"b>c" ∧ AsksFor b!"a>b>c" b!"c" :=
  ⟨⟨[], b!"a", [b!"b", b!"c"], by decide +kernel, Or.inl rfl⟩, ⟨[b!"a"], b!"b", [b!"c"], by decide +kernel, Or.inr (by decide +kernel)⟩,
    ⟨[b!"a", b!"b"], b!"c", [], by decide +kernel, Or.inl rfl⟩⟩

example : ¬ AsksFor b!"a>b>c" b!"a>b" := by
  rintro ⟨before, s, rest, e, q⟩
  rw [show split 62 b!"a>b>c" = [b!"a", b!"b", b!"c"] by decide +kernel] at e
  match before with
  | [] => cases e; revert q; decide +kernel
  | [_] => cases e; revert q; decide +kernel
  | [_, _] => cases e; revert q; decide +kernel
  | _ :: _ :: _ :: before => simp at e

end Xcore.Template
